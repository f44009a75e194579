import Verif.Model.GnCondense
import Verif.Lemmas.Condense

/-!
Helper lemmas: numbering of the wet edges, rows of the sparse system of the dispersive correction.
-/

namespace Verif.Gn
open Verif.Ihdg Verif.Ehdg

/-- Numbering of the selected edges. -/
def sel (p : List Face → Bool) (t : Index) (x : List Face × ℕ) : Index := if p x.1 then numberEdge t x else t

theorem sel_off (p : List Face → Bool) (l : List (List Face)) (n : ℕ) (t : Index) :
    ((l.zipIdx n).foldl (sel p) t).off = t.off + l.countP p := by
  induction l generalizing n t with
  | nil => simp
  | cons a l ih =>
    rw [List.zipIdx_cons, List.foldl_cons, ih, List.countP_cons]
    unfold sel
    by_cases h : p a <;> simp [h, numberEdge]
    omega

theorem sel_edge (p : List Face → Bool) (l : List (List Face)) (n : ℕ) (t : Index) (k : ℕ) :
    ((l.zipIdx n).foldl (sel p) t).edge k =
      if n ≤ k ∧ k < n + l.length ∧ p (l.getD (k - n) []) then t.off + (l.take (k - n)).countP p else t.edge k := by
  induction l generalizing n t with
  | nil => rw [if_neg (by rintro ⟨h1, h2, _⟩; rw [List.length_nil] at h2; omega)]; rfl
  | cons a l ih =>
    rw [List.zipIdx_cons, List.foldl_cons, ih]
    by_cases h : k = n
    · subst h
      rw [if_neg (by omega)]
      unfold sel
      by_cases hp : p a <;> simp [hp, numberEdge]
    · have ho : (sel p t (a, n)).off = t.off + if p a then 1 else 0 := by
        unfold sel; by_cases hp : p a <;> simp [hp, numberEdge]
      have he : (sel p t (a, n)).edge k = t.edge k := by
        unfold sel
        by_cases hp : p a
        · simp [hp, numberEdge, Function.update_of_ne h]
        · simp [hp]
      rw [ho, he]
      by_cases hk : n + 1 ≤ k ∧ k < n + 1 + l.length
      · obtain ⟨d, rfl⟩ : ∃ d, k = n + 1 + d := ⟨k - (n + 1), by omega⟩
        have e1 : n + 1 + d - (n + 1) = d := by omega
        have e2 : n + 1 + d - n = d + 1 := by omega
        rw [e1, e2]
        have e3 : (a :: l).getD (d + 1) [] = l.getD d [] := rfl
        rw [e3, List.take_succ_cons, List.countP_cons]
        have c1 : (n + 1 ≤ n + 1 + d ∧ n + 1 + d < n + 1 + l.length ∧ p (l.getD d []) = true) ↔
            (n ≤ n + 1 + d ∧ n + 1 + d < n + (a :: l).length ∧ p (l.getD d []) = true) := by
          rw [List.length_cons]; constructor <;> rintro ⟨_, _, h⟩ <;> exact ⟨by omega, by omega, h⟩
        rw [if_congr c1 rfl rfl]
        congr 1
        omega
      · rw [if_neg (fun h => hk ⟨h.1, h.2.1⟩), if_neg (fun h => hk ⟨by omega, by have := h.2.1; rw [List.length_cons] at this; omega⟩)]

theorem setIdx_fold (c : List Face) (t : ℕ → ℕ → ℕ) (n : ℕ) (e f : ℕ) :
    (c.foldl (fun a c => setIdx a c n) t) e f = if (⟨e, f⟩ : Face) ∈ c then n else t e f := by
  induction c generalizing t with
  | nil => simp
  | cons d c ih =>
    rw [List.foldl_cons, ih]
    by_cases h : (⟨e, f⟩ : Face) ∈ c
    · simp [h]
    · by_cases hd : e = d.e ∧ f = d.f
      · obtain ⟨rfl, rfl⟩ := hd; simp [setIdx]
      · have : (⟨e, f⟩ : Face) ≠ d := by rintro rfl; exact hd ⟨rfl, rfl⟩
        simp [h, this, setIdx, hd]

theorem sel_face (p : List Face → Bool) (l : List (List Face)) (n : ℕ) (t : Index) (hl : l.flatten.Nodup) (e f : ℕ) :
    ((∀ i (h : i < l.length), (⟨e, f⟩ : Face) ∉ l[i]) → ((l.zipIdx n).foldl (sel p) t).face e f = t.face e f) ∧
      ∀ i (h : i < l.length), p l[i] → (⟨e, f⟩ : Face) ∈ l[i] → ((l.zipIdx n).foldl (sel p) t).face e f = t.off + (l.take i).countP p := by
  induction l generalizing n t with
  | nil => simp
  | cons a l ih =>
    rw [List.flatten_cons, List.nodup_append] at hl
    rw [List.zipIdx_cons, List.foldl_cons]
    obtain ⟨h1, h2⟩ := ih (n + 1) (sel p t (a, n)) hl.2.1
    constructor
    · intro h
      rw [h1 fun i hi => by have := h (i + 1) (by simpa using hi); simpa using this]
      have := h 0 (by simp)
      simp at this
      unfold sel
      by_cases hp : p a <;> simp [hp, numberEdge, setIdx_fold, this]
    · rintro (_ | i) hi hp hm
      · simp at hm hp
        rw [h1 fun j hj hmj => hl.2.2 _ hm _ (List.mem_flatten.2 ⟨_, List.getElem_mem hj, hmj⟩) rfl]
        simp [sel, hp, numberEdge, setIdx_fold, hm]
      · rw [h2 i (by simpa using hi) (by simpa using hp) (by simpa using hm), List.take_succ_cons, List.countP_cons]
        unfold sel
        by_cases hp : p a <;> simp [hp, numberEdge]
        omega

theorem renumber_eq (s : Skel) (wet : ℕ → Bool) (t : Index) : renumber s wet t = s.edges.zipIdx.foldl (sel (wetEdge wet)) { t with off := 0 } := rfl

theorem initial_eq (s : Skel) : initial s = s.edges.zipIdx.foldl (sel fun _ => true) ⟨0, fun _ => 0, fun _ _ => 0⟩ := rfl

theorem countP_take_lt {α : Type} (p : α → Bool) (l : List α) {j k : ℕ} (hjk : j < k) (hj : j < l.length) (hp : p l[j]) :
    (l.take j).countP p < (l.take k).countP p := by
  induction l generalizing j k with
  | nil => simp at hj
  | cons a l ih =>
    obtain ⟨k, rfl⟩ : ∃ k', k = k' + 1 := ⟨k - 1, by omega⟩
    rcases j with _ | j
    · simp at hp; simp [List.take_succ_cons, hp]
    · rw [List.take_succ_cons, List.take_succ_cons, List.countP_cons, List.countP_cons]
      have := ih (j := j) (k := k) (by omega) (by simpa using hj) (by simpa using hp)
      omega

theorem countP_take_total {α : Type} (p : α → Bool) (l : List α) {j : ℕ} (hj : j < l.length) (hp : p l[j]) : (l.take j).countP p < l.countP p := by
  have := countP_take_lt p l hj hj hp
  rwa [List.take_length] at this

/-! ### Rows -/

variable {K : Type} [Field K]

theorem rangeAt_getD (s : Skel) (n : ℕ) {i : ℕ} (h : i < s.m) : (rangeAt s n).getD i 0 = n * s.m + i := by
  unfold rangeAt
  simp [List.getD_eq_getElem?_getD, List.getElem?_range h]

theorem rangeAt_length (s : Skel) (n : ℕ) : (rangeAt s n).length = s.m := by simp [rangeAt]

theorem at_unique {m a b i j : ℕ} (hi : i < m) (hj : j < m) (h : a * m + i = b * m + j) : a = b ∧ i = j := by
  have h1 : (a * m + i) / m = a := by rw [Nat.mul_comm, Nat.mul_add_div (by omega), Nat.div_eq_of_lt hi]; rfl
  have h2 : (b * m + j) / m = b := by rw [Nat.mul_comm, Nat.mul_add_div (by omega), Nat.div_eq_of_lt hj]; rfl
  have : a = b := by rw [← h1, h, h2]
  subst this
  exact ⟨rfl, by omega⟩

theorem at_lt {m a n i : ℕ} (hi : i < m) (h : a < n) : a * m + i < n * m := by
  have : (a + 1) * m ≤ n * m := Nat.mul_le_mul_right m h
  rw [Nat.add_mul] at this
  omega

/-- Row `i` of number `b` in a block whose rows have number `a`. -/
theorem rowDot_at (s : Skel) {i : ℕ} (hi : i < s.m) (a b c : ℕ) (M : ℕ → ℕ → K) (x : ℕ → K) :
    rowDot (triplets (rangeAt s a) (rangeAt s c) M) x (b * s.m + i) = if a = b then ∑ j ∈ Finset.range s.m, M i j * x (c * s.m + j) else 0 := by
  rw [rowDot_triplets, rangeAt_length, rangeAt_length]
  have hc : ∀ i, ∑ j ∈ Finset.range s.m, M i j * x ((rangeAt s c).getD j 0) = ∑ j ∈ Finset.range s.m, M i j * x (c * s.m + j) := by
    intro i
    exact Finset.sum_congr rfl fun j hj => by rw [rangeAt_getD s c (Finset.mem_range.1 hj)]
  by_cases h : a = b
  · subst h
    rw [if_pos rfl, Finset.sum_eq_single i]
    · rw [rangeAt_getD s a hi, if_pos rfl, hc]
    · intro j hj hne
      rw [rangeAt_getD s a (Finset.mem_range.1 hj), if_neg (by omega)]
    · intro h; exact absurd (Finset.mem_range.2 hi) h
  · rw [if_neg h]
    refine Finset.sum_eq_zero fun j hj => ?_
    rw [rangeAt_getD s a (Finset.mem_range.1 hj), if_neg]
    intro he
    exact h (at_unique (Finset.mem_range.1 hj) hi he).1

/-! ### Products -/

theorem mulV_mul (n k : ℕ) (a d : ℕ → ℕ → K) (x : ℕ → K) (i : ℕ) : mulV n (mul k a d) x i = mulV k a (mulV n d x) i := by
  unfold mulV mul
  simp only [Finset.sum_mul, Finset.mul_sum]
  rw [Finset.sum_comm]
  exact Finset.sum_congr rfl fun _ _ => Finset.sum_congr rfl fun _ _ => by ring

theorem mulV_subM (n : ℕ) (a d : ℕ → ℕ → K) (x : ℕ → K) (i : ℕ) : mulV n (fun i j => a i j - d i j) x i = mulV n a x i - mulV n d x i := by
  unfold mulV
  simp only [sub_mul, Finset.sum_sub_distrib]

theorem mulV_addM (n : ℕ) (a d : ℕ → ℕ → K) (x : ℕ → K) (i : ℕ) : mulV n (fun i j => a i j + d i j) x i = mulV n a x i + mulV n d x i := by
  unfold mulV
  simp only [add_mul, Finset.sum_add_distrib]

theorem mulV_negM (n : ℕ) (a : ℕ → ℕ → K) (x : ℕ → K) (i : ℕ) : mulV n (fun i j => -a i j) x i = -mulV n a x i := by
  unfold mulV
  simp only [neg_mul, Finset.sum_neg_distrib]

theorem mulV_sub (n : ℕ) (a : ℕ → ℕ → K) (x y : ℕ → K) (i : ℕ) : mulV n a (fun j => x j - y j) i = mulV n a x i - mulV n a y i := by
  unfold mulV
  simp only [mul_sub, Finset.sum_sub_distrib]

theorem mulV_add (n : ℕ) (a : ℕ → ℕ → K) (x y : ℕ → K) (i : ℕ) : mulV n a (fun j => x j + y j) i = mulV n a x i + mulV n a y i := by
  unfold mulV
  simp only [mul_add, Finset.sum_add_distrib]

theorem mulV_neg (n : ℕ) (a : ℕ → ℕ → K) (x : ℕ → K) (i : ℕ) : mulV n a (fun j => -x j) i = -mulV n a x i := by
  unfold mulV
  simp only [mul_neg, Finset.sum_neg_distrib]

theorem mulV_sum (n : ℕ) (a : ℕ → ℕ → K) (t : Finset ℕ) (y : ℕ → ℕ → K) (i : ℕ) :
    mulV n a (fun j => ∑ f ∈ t, y f j) i = ∑ f ∈ t, mulV n a (y f) i := by
  unfold mulV
  simp only [Finset.mul_sum]
  exact Finset.sum_comm

theorem mulV_congr (n : ℕ) (a : ℕ → ℕ → K) {x y : ℕ → K} (h : ∀ j < n, x j = y j) (i : ℕ) : mulV n a x i = mulV n a y i :=
  Finset.sum_congr rfl fun j hj => by rw [h j (Finset.mem_range.1 hj)]

theorem mulV_congrM (n : ℕ) {a b : ℕ → ℕ → K} (x : ℕ → K) {i : ℕ} (h : ∀ j < n, a i j = b i j) : mulV n a x i = mulV n b x i :=
  Finset.sum_congr rfl fun j hj => by rw [h j (Finset.mem_range.1 hj)]

end Verif.Gn
