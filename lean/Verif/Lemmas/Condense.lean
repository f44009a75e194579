import Verif.Model.Condense
import Mathlib.Algebra.BigOperators.Intervals
import Mathlib.Algebra.BigOperators.Ring.Finset
import Mathlib.Tactic.Ring
import Mathlib.Tactic.Abel

/-!
Helper lemmas: numbering of the global unknowns, sums over triplets.
-/

namespace Verif.Ihdg
open Verif.Edge

/-- First unknown of an edge. -/
def offs (s : Skeleton) (k : ℕ) : ℕ := ∑ i ∈ Finset.range k, s.esize i

theorem offs_succ (s : Skeleton) (k : ℕ) : offs s (k + 1) = offs s k + s.esize k := Finset.sum_range_succ _ _

theorem offs_mono (s : Skeleton) {j k : ℕ} (h : j ≤ k) : offs s j ≤ offs s k := by
  induction k, h using Nat.le_induction with
  | base => exact le_rfl
  | succ k _ ih => rw [offs_succ]; omega

/-- Unknowns of an edge. -/
def idxs (s : Skeleton) (k : ℕ) : List ℕ := (List.range (s.esize k)).map (· + offs s k)

theorem setFace_fold (c : List Face) (t : ℕ → ℕ → List ℕ) (l : List ℕ) (e f : ℕ) :
    (c.foldl (fun a c => setFace a c l) t) e f = if (⟨e, f⟩ : Face) ∈ c then l else t e f := by
  induction c generalizing t with
  | nil => simp
  | cons d c ih =>
    rw [List.foldl_cons, ih]
    by_cases h : (⟨e, f⟩ : Face) ∈ c
    · simp [h]
    · by_cases hd : e = d.e ∧ f = d.f
      · obtain ⟨rfl, rfl⟩ := hd; simp [setFace]
      · have : (⟨e, f⟩ : Face) ≠ d := by rintro rfl; exact hd ⟨rfl, rfl⟩
        simp [h, this, setFace, hd]

theorem number_off (s : Skeleton) (l : List (List Face)) (n : ℕ) (t : Numbering) (ht : t.off = offs s n) :
    ((l.zipIdx n).foldl (numberEdge s) t).off = offs s (n + l.length) := by
  induction l generalizing n t with
  | nil => simpa using ht
  | cons a l ih =>
    rw [List.zipIdx_cons, List.foldl_cons, ih (n + 1) _ (by simp [numberEdge, ht, offs_succ])]
    simp; congr 1; omega

theorem number_edge (s : Skeleton) (l : List (List Face)) (n : ℕ) (t : Numbering) (ht : t.off = offs s n) (k : ℕ) :
    ((l.zipIdx n).foldl (numberEdge s) t).edge k = if n ≤ k ∧ k < n + l.length then idxs s k else t.edge k := by
  induction l generalizing n t with
  | nil => rw [if_neg (by simp)]; rfl
  | cons a l ih =>
    rw [List.zipIdx_cons, List.foldl_cons, ih (n + 1) _ (by simp [numberEdge, ht, offs_succ])]
    by_cases h : k = n
    · subst h; simp [numberEdge, idxs, ht]
    · simp only [numberEdge, Function.update_of_ne h, List.length_cons]
      congr 1
      simp; omega

theorem number_face (s : Skeleton) (l : List (List Face)) (n : ℕ) (t : Numbering) (ht : t.off = offs s n) (hl : l.flatten.Nodup) (e f : ℕ) :
    ((∀ i (h : i < l.length), (⟨e, f⟩ : Face) ∉ l[i]) → ((l.zipIdx n).foldl (numberEdge s) t).face e f = t.face e f) ∧
      ∀ i (h : i < l.length), (⟨e, f⟩ : Face) ∈ l[i] → ((l.zipIdx n).foldl (numberEdge s) t).face e f = idxs s (n + i) := by
  induction l generalizing n t with
  | nil => simp
  | cons a l ih =>
    rw [List.flatten_cons, List.nodup_append] at hl
    rw [List.zipIdx_cons, List.foldl_cons]
    obtain ⟨h1, h2⟩ := ih (n + 1) (numberEdge s t (a, n)) (by simp [numberEdge, ht, offs_succ]) hl.2.1
    constructor
    · intro h
      rw [h1 fun i hi => by have := h (i + 1) (by simpa using hi); simpa using this]
      have := h 0 (by simp)
      simp only [numberEdge, setFace_fold]
      simp at this
      simp [this]
    · rintro (_ | i) hi hm
      · simp at hm
        rw [h1 fun j hj hmj => hl.2.2 _ hm _ (List.mem_flatten.2 ⟨_, List.getElem_mem hj, hmj⟩) rfl]
        simp [numberEdge, setFace_fold, hm, idxs, ht]
      · rw [h2 i (by simpa using hi) (by simpa using hm)]
        congr 1; omega

theorem edge_eq (s : Skeleton) {k : ℕ} (hk : k < s.edges.length) : (number s).edge k = idxs s k := by
  unfold number
  rw [number_edge s s.edges 0 _ (by simp [offs])]
  simp [hk]

theorem off_eq (s : Skeleton) : (number s).off = offs s s.edges.length := by
  unfold number
  rw [number_off s s.edges 0 _ (by simp [offs])]
  simp

theorem face_eq (s : Skeleton) (hn : s.edges.flatten.Nodup) {k : ℕ} (hk : k < s.edges.length) {c : Face} (hc : c ∈ s.edges[k]) :
    (number s).face c.e c.f = idxs s k := by
  have := (number_face s s.edges 0 ⟨0, fun _ => [], fun _ _ => []⟩ (by simp [offs]) hn c.e c.f).2 k hk hc
  simpa [number] using this

theorem face_none (s : Skeleton) (hn : s.edges.flatten.Nodup) (e f : ℕ) (h : ∀ i (hi : i < s.edges.length), (⟨e, f⟩ : Face) ∉ s.edges[i]) :
    (number s).face e f = [] :=
  (number_face s s.edges 0 ⟨0, fun _ => [], fun _ _ => []⟩ (by simp [offs]) hn e f).1 h

theorem idxs_length (s : Skeleton) (k : ℕ) : (idxs s k).length = s.esize k := by simp [idxs]

theorem idxs_head (s : Skeleton) (k : ℕ) (h : 0 < s.esize k) : (idxs s k).headD 0 = offs s k := by
  unfold idxs
  obtain ⟨n, hn⟩ : ∃ n, s.esize k = n + 1 := ⟨_, (Nat.succ_pred_eq_of_pos h).symm⟩
  rw [hn, List.range_succ_eq_map]
  simp

/-- An unknown belongs to one edge only. -/
theorem idx_unique (s : Skeleton) {j k a b : ℕ} (ha : a < s.esize j) (hb : b < s.esize k) (h : offs s j + a = offs s k + b) : j = k ∧ a = b := by
  rcases lt_trichotomy j k with h' | rfl | h'
  · have := offs_mono s (Nat.succ_le_of_lt h'); rw [Nat.succ_eq_add_one, offs_succ] at this; omega
  · exact ⟨rfl, by omega⟩
  · have := offs_mono s (Nat.succ_le_of_lt h'); rw [Nat.succ_eq_add_one, offs_succ] at this; omega

theorem idx_lt (s : Skeleton) {k a n : ℕ} (hk : k < n) (ha : a < s.esize k) : offs s k + a < offs s n := by
  have := offs_mono s (Nat.succ_le_of_lt hk); rw [Nat.succ_eq_add_one, offs_succ] at this; omega

variable {K : Type} [Field K]

/-- Row `r` of a sum of triplets applied to `x`. -/
def rowDot (l : List (ℕ × ℕ × K)) (x : ℕ → K) (r : ℕ) : K := ((l.filter fun y => y.1 = r).map fun y => y.2.2 * x y.2.1).sum

theorem rowDot_append (a b : List (ℕ × ℕ × K)) (x : ℕ → K) (r : ℕ) : rowDot (a ++ b) x r = rowDot a x r + rowDot b x r := by
  simp [rowDot]

theorem rowDot_flatMap {α : Type} (l : List α) (f : α → List (ℕ × ℕ × K)) (x : ℕ → K) (r : ℕ) :
    rowDot (l.flatMap f) x r = (l.map fun a => rowDot (f a) x r).sum := by
  induction l with
  | nil => simp [rowDot]
  | cons a l ih => rw [List.flatMap_cons, rowDot_append, ih]; simp

theorem fromTriplets_dot (l : List (ℕ × ℕ × K)) (n : ℕ) (h : ∀ y ∈ l, y.2.1 < n) (x : ℕ → K) (r : ℕ) :
    ∑ c ∈ Finset.range n, fromTriplets l r c * x c = rowDot l x r := by
  induction l with
  | nil => simp [fromTriplets, rowDot]
  | cons y l ih =>
    have ih := ih fun z hz => h z (by simp [hz])
    have hy := h y (by simp)
    have e : ∀ c, fromTriplets (y :: l) r c = (if y.1 = r ∧ y.2.1 = c then y.2.2 else 0) + fromTriplets l r c := by
      intro c; unfold fromTriplets
      by_cases hc : y.1 = r ∧ y.2.1 = c <;> simp [hc]
    simp only [e, add_mul, Finset.sum_add_distrib, ih]
    have e2 : rowDot (y :: l) x r = (if y.1 = r then y.2.2 * x y.2.1 else 0) + rowDot l x r := by
      unfold rowDot
      by_cases hc : y.1 = r <;> simp [hc]
    rw [e2]
    congr 1
    by_cases hr : y.1 = r
    · simp only [hr, true_and, if_true, ite_mul, zero_mul]
      rw [Finset.sum_ite_eq]
      simp [hy]
    · simp [hr]

theorem zipIdx_sum {α : Type} (l : List α) (d : α) (n : ℕ) (g : α → ℕ → K) :
    ((l.zipIdx n).map fun c => g c.1 c.2).sum = ∑ i ∈ Finset.range l.length, g (l.getD i d) (n + i) := by
  induction l generalizing n with
  | nil => simp
  | cons a l ih =>
    rw [List.zipIdx_cons, List.map_cons, List.sum_cons, ih, List.length_cons, Finset.sum_range_succ']
    rw [add_comm]
    congr 1
    refine Finset.sum_congr rfl fun i _ => ?_
    simp; congr 1; omega

theorem rowDot_triplets (rows cols : List ℕ) (m : ℕ → ℕ → K) (x : ℕ → K) (r : ℕ) :
    rowDot (triplets rows cols m) x r =
      ∑ i ∈ Finset.range rows.length, if rows.getD i 0 = r then ∑ j ∈ Finset.range cols.length, m i j * x (cols.getD j 0) else 0 := by
  unfold triplets
  rw [rowDot_flatMap]
  have e : ∀ a : ℕ × ℕ, rowDot (cols.zipIdx.map fun c => (a.1, c.1, m a.2 c.2)) x r =
      if a.1 = r then ∑ j ∈ Finset.range cols.length, m a.2 j * x (cols.getD j 0) else 0 := by
    intro a
    unfold rowDot
    by_cases h : a.1 = r
    · rw [if_pos h, List.filter_eq_self.2 (by intro y hy; simp at hy ⊢; obtain ⟨_, _, _, rfl⟩ := hy; exact h), List.map_map]
      have := zipIdx_sum cols 0 0 fun c i => m a.2 i * x c
      simpa [Function.comp_def] using this
    · rw [if_neg h, List.filter_eq_nil_iff.2 (by intro y hy; simp at hy ⊢; obtain ⟨_, _, _, rfl⟩ := hy; exact h)]
      simp
  simp only [e]
  have := zipIdx_sum (K := K) rows 0 0 fun c i => if c = r then ∑ j ∈ Finset.range cols.length, m i j * x (cols.getD j 0) else 0
  simpa using this

theorem idxs_getD (s : Skeleton) {k i : ℕ} (h : i < s.esize k) : (idxs s k).getD i 0 = offs s k + i := by
  unfold idxs
  simp [List.getD_eq_getElem?_getD, List.getElem?_range h]; omega

/-- Row `i` of edge `k` in a block of edge `k'`. -/
theorem rowDot_edge (s : Skeleton) {k i : ℕ} (hi : i < s.esize k) (k' : ℕ) (cols : List ℕ) (m : ℕ → ℕ → K) (x : ℕ → K) :
    rowDot (triplets (idxs s k') cols m) x (offs s k + i) =
      if k' = k then ∑ j ∈ Finset.range cols.length, m i j * x (cols.getD j 0) else 0 := by
  rw [rowDot_triplets, idxs_length]
  by_cases h : k' = k
  · subst h
    rw [if_pos rfl, Finset.sum_eq_single i]
    · rw [idxs_getD s hi, if_pos rfl]
    · intro j hj hne
      rw [idxs_getD s (Finset.mem_range.1 hj), if_neg (by omega)]
    · intro h; exact absurd (Finset.mem_range.2 hi) h
  · rw [if_neg h]
    refine Finset.sum_eq_zero fun j hj => ?_
    rw [idxs_getD s (Finset.mem_range.1 hj), if_neg]
    intro he
    exact h (idx_unique s (Finset.mem_range.1 hj) hi he).1

end Verif.Ihdg
