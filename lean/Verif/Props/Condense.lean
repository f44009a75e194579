import Verif.Lemmas.Condense
import Mathlib.Tactic.LinearCombination
import Mathlib.Data.Rat.Defs
import Mathlib.Algebra.Order.Field.Rat

/-!
C82: every unknown of the global problem has one number, and static condensation solves the whole Newton system.
-/

namespace Verif.Ihdg.Props
open Verif.Ihdg Verif.Ehdg

variable {K : Type} [Field K] [LinearOrder K]

/-- Every face belongs to at most one edge, faces are faces of elements of the mesh, every edge has unknowns. -/
structure WellFormed (s : Skeleton) : Prop where
  nodup : s.edges.flatten.Nodup
  elt : ∀ c ∈ s.edges.flatten, c.e ∈ s.elts ∧ c.f < 3
  pos : ∀ k < s.edges.length, 0 < s.esize k

/-- The equations of an element: its own unknowns and the traces of all edges at its faces. -/
def ElementEq (s : Skeleton) (b : Blocks K) (dq : ℕ → ℕ → K) (dqhat : ℕ → ℕ → K) : Prop :=
  ∀ e ∈ s.elts, ∀ i < s.size e, ∑ j ∈ Finset.range (s.size e), b.dl e i j * dq e j +
    (s.edges.zipIdx.map fun x => ((x.1.filter fun c => c.e = e).map fun c =>
      ∑ j ∈ Finset.range (s.esize x.2), b.dh e c.f i j * dqhat x.2 j).sum).sum = b.rl e i

/-- The equations of an edge: its own trace and the unknowns of the elements at its faces. -/
def EdgeEq (s : Skeleton) (b : Blocks K) (dq : ℕ → ℕ → K) (dqhat : ℕ → ℕ → K) : Prop :=
  ∀ (k : ℕ) (hk : k < s.edges.length), ∀ i < s.esize k,
    (s.edges[k].map fun c => ∑ j ∈ Finset.range (s.size c.e), b.dg c.e c.f i j * dq c.e j).sum +
      ∑ j ∈ Finset.range (s.esize k), b.dhg k i j * dqhat k j = b.rg k i

/-! ### Numbering -/

/-- The unknowns of all edges, one after another, are all numbers below the offset, each once. -/
theorem numbering (s : Skeleton) : (List.range s.edges.length).flatMap (number s).edge = List.range (number s).off := by
  have : ∀ n ≤ s.edges.length, (List.range n).flatMap (number s).edge = List.range (offs s n) := by
    intro n
    induction n with
    | zero => intro _; simp [offs]
    | succ n ih =>
      intro h
      rw [List.range_succ, List.flatMap_append, ih (by omega), List.flatMap_singleton, edge_eq s (by omega), offs_succ, List.range_add]
      simp [idxs, add_comm]
  rw [off_eq, this _ le_rfl]

/-- An edge has as many unknowns as its size says, and its faces have the same numbers as the edge. -/
theorem numbering_faces {s : Skeleton} (hw : WellFormed s) {k : ℕ} (hk : k < s.edges.length) :
    ((number s).edge k).length = s.esize k ∧ ∀ c ∈ s.edges[k], (number s).face c.e c.f = (number s).edge k := by
  refine ⟨by rw [edge_eq s hk, idxs_length], fun c hc => ?_⟩
  rw [face_eq s hw.nodup hk hc, edge_eq s hk]

/-! ### Condensation -/

/-- What the traces contribute to the equations of an element. -/
def traceSum (s : Skeleton) (b : Blocks K) (y : ℕ → ℕ → K) (e i : ℕ) : K :=
  (s.edges.zipIdx.map fun x => ((x.1.filter fun c => c.e = e).map fun c =>
      ∑ j ∈ Finset.range (s.esize x.2), b.dh e c.f i j * y x.2 j).sum).sum

omit [LinearOrder K] in
theorem list_sum_range (l : List (List Face)) (n : ℕ) (g : List Face → ℕ → K) :
    ((l.zipIdx n).map fun x => g x.1 x.2).sum = ∑ k ∈ Finset.range l.length, g (l.getD k []) (n + k) :=
  zipIdx_sum l [] n g

omit [LinearOrder K] in
theorem filter_sum {c : List Face} (hc : c.Nodup) (hf : ∀ x ∈ c, x.f < 3) (e : ℕ) (g : ℕ → K) :
    ((c.filter fun x => x.e = e).map fun x => g x.f).sum = ∑ f ∈ Finset.range 3, if (⟨e, f⟩ : Face) ∈ c then g f else 0 := by
  induction c with
  | nil => simp
  | cons a c ih =>
    rw [List.nodup_cons] at hc
    have ih := ih hc.2 fun x hx => hf x (by simp [hx])
    by_cases h : a.e = e
    · rw [List.filter_cons_of_pos (by simpa using h), List.map_cons, List.sum_cons, ih]
      have hg : g a.f = ∑ f ∈ Finset.range 3, if f = a.f then g f else 0 := by
        rw [Finset.sum_ite_eq']; simp [hf a (by simp)]
      rw [hg, ← Finset.sum_add_distrib]
      refine Finset.sum_congr rfl fun f _ => ?_
      by_cases hff : f = a.f
      · have : (⟨e, f⟩ : Face) = a := by subst h; subst hff; rfl
        rw [this, if_pos hff, if_neg hc.1, if_pos (by simp), add_zero]
      · have : (⟨e, f⟩ : Face) ≠ a := by rintro rfl; exact hff rfl
        simp [this, hff]
    · rw [List.filter_cons_of_neg (by simpa using h), ih]
      refine Finset.sum_congr rfl fun f _ => ?_
      have : (⟨e, f⟩ : Face) ≠ a := by rintro rfl; exact h rfl
      simp [this]

theorem getD_edge (s : Skeleton) {k : ℕ} (hk : k < s.edges.length) : s.edges.getD k [] = s.edges[k] := by
  simp [List.getD_eq_getElem?_getD, hk]

theorem edge_faces {s : Skeleton} (hw : WellFormed s) {k : ℕ} (hk : k < s.edges.length) :
    s.edges[k].Nodup ∧ ∀ c ∈ s.edges[k], c.e ∈ s.elts ∧ c.f < 3 :=
  ⟨(List.nodup_flatten.1 hw.nodup).1 _ (List.getElem_mem hk), fun c hc => hw.elt c (List.mem_flatten.2 ⟨_, List.getElem_mem hk, hc⟩)⟩

omit [LinearOrder K] in
/-- The traces seen from an element: through its faces. -/
theorem traceSum_faces {s : Skeleton} (hw : WellFormed s) (b : Blocks K) (x : ℕ → K) (e i : ℕ) :
    traceSum s b (fun k j => x (offs s k + j)) e i =
      ∑ f ∈ Finset.range 3, ∑ j ∈ Finset.range ((number s).face e f).length, b.dh e f i j * x (((number s).face e f).getD j 0) := by
  unfold traceSum
  rw [list_sum_range s.edges 0 fun c k => ((c.filter fun c => c.e = e).map fun c =>
      ∑ j ∈ Finset.range (s.esize k), b.dh e c.f i j * x (offs s k + j)).sum]
  have h1 : ∀ k ∈ Finset.range s.edges.length, (((s.edges.getD k []).filter fun c => c.e = e).map fun c =>
      ∑ j ∈ Finset.range (s.esize (0 + k)), b.dh e c.f i j * x (offs s (0 + k) + j)).sum =
      ∑ f ∈ Finset.range 3, if (⟨e, f⟩ : Face) ∈ s.edges.getD k [] then ∑ j ∈ Finset.range (s.esize k), b.dh e f i j * x (offs s k + j) else 0 := by
    intro k hk
    have hk := Finset.mem_range.1 hk
    rw [getD_edge s hk, zero_add]
    exact filter_sum (edge_faces hw hk).1 (fun c hc => ((edge_faces hw hk).2 c hc).2) e fun f => ∑ j ∈ Finset.range (s.esize k), b.dh e f i j * x (offs s k + j)
  rw [Finset.sum_congr rfl h1, Finset.sum_comm]
  refine Finset.sum_congr rfl fun f _ => ?_
  by_cases h : ∃ k, ∃ hk : k < s.edges.length, (⟨e, f⟩ : Face) ∈ s.edges[k]
  · obtain ⟨k, hk, hm⟩ := h
    have hfe := face_eq s hw.nodup hk hm
    simp only at hfe
    rw [hfe, idxs_length, Finset.sum_eq_single k]
    · rw [getD_edge s hk, if_pos hm]
      refine Finset.sum_congr rfl fun j hj => ?_
      rw [idxs_getD s (Finset.mem_range.1 hj)]
    · intro k' hk' hne
      have hk' := Finset.mem_range.1 hk'
      rw [getD_edge s hk', if_neg]
      intro hm'
      have := face_eq s hw.nodup hk' hm'
      simp only at this
      rw [hfe] at this
      have h0 : (idxs s k).getD 0 0 = (idxs s k').getD 0 0 := by rw [this]
      rw [idxs_getD s (hw.pos k hk), idxs_getD s (hw.pos k' hk')] at h0
      exact hne (idx_unique s (hw.pos k hk) (hw.pos k' hk') h0).1.symm
    · intro h; exact absurd (Finset.mem_range.2 hk) h
  · push Not at h
    rw [face_none s hw.nodup e f h]
    simp only [List.length_nil, Finset.range_zero, Finset.sum_empty]
    refine Finset.sum_eq_zero fun k hk => ?_
    rw [getD_edge s (Finset.mem_range.1 hk), if_neg (h k (Finset.mem_range.1 hk))]

omit [LinearOrder K] in
theorem removeTraces_eq {s : Skeleton} (hw : WellFormed s) (b : Blocks K) (x : ℕ → K) (e i : ℕ) :
    (s.edges.zipIdx.foldl (removeTraces (number s) b x) b.rl) e i = b.rl e i - traceSum s b (fun k j => x (offs s k + j)) e i := by
  have h1 : ∀ (c : List Face) (k : ℕ) (rl : ℕ → ℕ → K), k < s.edges.length →
      removeTraces (number s) b x rl (c, k) e i = rl e i - ((c.filter fun c => c.e = e).map fun c =>
        ∑ j ∈ Finset.range (s.esize k), b.dh e c.f i j * x (offs s k + j)).sum := by
    intro c k rl hk
    unfold removeTraces
    rw [edge_eq s hk, idxs_length, idxs_head s k (hw.pos k hk)]
    induction c generalizing rl with
    | nil => simp
    | cons a c ih =>
      rw [List.foldl_cons]
      refine (ih _).trans ?_
      by_cases h : a.e = e
      · subst h
        rw [List.filter_cons_of_pos (by simp), List.map_cons, List.sum_cons, Function.update_self]
        unfold mulV
        ring
      · rw [List.filter_cons_of_neg (by simpa using h), Function.update_of_ne (Ne.symm h)]
  have h2 : ∀ (l : List (List Face)) (n : ℕ) (rl : ℕ → ℕ → K), n + l.length ≤ s.edges.length →
      ((l.zipIdx n).foldl (removeTraces (number s) b x) rl) e i = rl e i - ((l.zipIdx n).map fun y => ((y.1.filter fun c => c.e = e).map fun c =>
        ∑ j ∈ Finset.range (s.esize y.2), b.dh e c.f i j * x (offs s y.2 + j)).sum).sum := by
    intro l
    induction l with
    | nil => simp
    | cons a l ih =>
      intro n rl hl
      rw [List.length_cons] at hl
      rw [List.zipIdx_cons, List.foldl_cons, ih (n + 1) _ (by omega), h1 a n rl (by omega), List.map_cons, List.sum_cons]
      ring
  exact h2 s.edges 0 b.rl (by omega)

omit [LinearOrder K] in
theorem setSub_fold (s : Skeleton) (hp : ∀ k < s.edges.length, 0 < s.esize k) (g : List Face → ℕ → ℕ → K) (l : List (List Face)) (n : ℕ) (v : ℕ → K) (k i : ℕ)
    (hi : i < s.esize k) (hl : n + l.length ≤ s.edges.length) :
    ((l.zipIdx n).foldl (fun v x => setSub v (((number s).edge x.2).headD 0) ((number s).edge x.2).length (g x.1 x.2)) v) (offs s k + i) =
      if n ≤ k ∧ k < n + l.length then g (l.getD (k - n) []) k i else v (offs s k + i) := by
  induction l generalizing n v with
  | nil => rw [if_neg (by simp)]; rfl
  | cons a l ih =>
    rw [List.length_cons] at hl
    rw [List.zipIdx_cons, List.foldl_cons, ih (n + 1) _ (by omega), edge_eq s (by omega), idxs_length, idxs_head s n (hp n (by omega))]
    by_cases h : k = n
    · subst h
      rw [if_neg (by omega), if_pos (by rw [List.length_cons]; omega)]
      simp [setSub, hi]
    · have hs : setSub v (offs s n) (s.esize n) (g a n) (offs s k + i) = v (offs s k + i) := by
        unfold setSub
        rw [if_neg]
        rintro ⟨h1, h2⟩
        exact h (idx_unique s hi (b := offs s k + i - offs s n) (k := n) (by omega) (by omega)).1
      simp only [hs]
      by_cases hk : n + 1 ≤ k ∧ k < n + 1 + l.length
      · rw [if_pos hk, if_pos (by rw [List.length_cons]; omega)]
        obtain ⟨d, rfl⟩ : ∃ d, k = n + 1 + d := ⟨k - (n + 1), by omega⟩
        rw [show n + 1 + d - (n + 1) = d by omega, show n + 1 + d - n = d + 1 by omega]
        rfl
      · rw [if_neg hk, if_neg (by rw [List.length_cons]; omega)]

omit [LinearOrder K] in
theorem rhs_eq {s : Skeleton} (hw : WellFormed s) (b : Blocks K) (inv : ℕ → ℕ → ℕ → K) {k : ℕ} (hk : k < s.edges.length) {i : ℕ} (hi : i < s.esize k) :
    assembleRhs s (number s) b inv (offs s k + i) = ownRhs s b inv s.edges[k] k i := by
  unfold assembleRhs
  rw [setSub_fold s hw.pos (ownRhs s b inv) s.edges 0 _ k i hi (by omega), if_pos (by omega), Nat.sub_zero, getD_edge s hk]

omit [LinearOrder K] in
theorem edgeTriplets_lt {s : Skeleton} (hw : WellFormed s) (b : Blocks K) (inv : ℕ → ℕ → ℕ → K) :
    ∀ y ∈ s.edges.zipIdx.flatMap (edgeTriplets s (number s) b inv), y.2.1 < (number s).off := by
  have hE : ∀ k < s.edges.length, ∀ a ∈ idxs s k, a < offs s s.edges.length := by
    intro k hk a ha
    unfold idxs at ha
    rw [List.mem_map] at ha
    obtain ⟨j, hj, rfl⟩ := ha
    rw [add_comm]; exact idx_lt s hk (List.mem_range.1 hj)
  have hT : ∀ (r c : List ℕ) (m : ℕ → ℕ → K), ∀ y ∈ triplets r c m, y.2.1 ∈ c := by
    intro r c m y hy
    unfold triplets at hy
    rw [List.mem_flatMap] at hy
    obtain ⟨a, _, hy⟩ := hy
    rw [List.mem_map] at hy
    obtain ⟨⟨z, j⟩, hz, rfl⟩ := hy
    exact List.fst_mem_of_mem_zipIdx hz
  intro y hy
  rw [off_eq]
  rw [List.mem_flatMap] at hy
  obtain ⟨⟨c, k⟩, hx, hy⟩ := hy
  have hk : k < s.edges.length := by have := List.snd_lt_of_mem_zipIdx hx; omega
  unfold edgeTriplets at hy
  rw [List.mem_append] at hy
  rcases hy with hy | hy
  · have := hT _ _ _ y hy
    rw [edge_eq s hk] at this
    exact hE k hk _ this
  · rw [List.mem_flatMap] at hy
    obtain ⟨c', _, hy⟩ := hy
    rw [List.mem_flatMap] at hy
    obtain ⟨f, _, hy⟩ := hy
    have := hT _ _ _ y hy
    by_cases h : ∃ k, ∃ hk : k < s.edges.length, (⟨c'.e, f⟩ : Face) ∈ s.edges[k]
    · obtain ⟨k', hk', hm⟩ := h
      have hf := face_eq s hw.nodup hk' hm
      simp only at hf
      rw [hf] at this
      exact hE k' hk' _ this
    · push Not at h
      rw [face_none s hw.nodup _ _ h] at this
      exact absurd this (by simp)

omit [LinearOrder K] in
theorem mul_dot (n : ℕ) (a d : ℕ → ℕ → K) (m : ℕ) (y : ℕ → K) (i : ℕ) :
    ∑ j ∈ Finset.range m, mul n a d i j * y j = ∑ t ∈ Finset.range n, a i t * ∑ j ∈ Finset.range m, d t j * y j := by
  unfold mul
  simp only [Finset.sum_mul, Finset.mul_sum]
  rw [Finset.sum_comm]
  exact Finset.sum_congr rfl fun _ _ => Finset.sum_congr rfl fun _ _ => by ring

omit [LinearOrder K] in
/-- A row of the assembled matrix applied to a vector. -/
theorem row_eq {s : Skeleton} (hw : WellFormed s) (b : Blocks K) (inv : ℕ → ℕ → ℕ → K) (x : ℕ → K) {k : ℕ} (hk : k < s.edges.length) {i : ℕ}
    (hi : i < s.esize k) :
    ∑ c ∈ Finset.range (number s).off, assemble s (number s) b inv (offs s k + i) c * x c =
      ∑ j ∈ Finset.range (s.esize k), b.dhg k i j * x (offs s k + j) -
        (s.edges[k].map fun c => ∑ t ∈ Finset.range (s.size c.e), mul (s.size c.e) (b.dg c.e c.f) (inv c.e) i t *
          traceSum s b (fun k j => x (offs s k + j)) c.e t).sum := by
  unfold assemble
  rw [fromTriplets_dot _ _ (edgeTriplets_lt hw b inv), rowDot_flatMap]
  have hone : ∀ (c : List Face) (k' : ℕ), k' < s.edges.length → rowDot (edgeTriplets s (number s) b inv (c, k')) x (offs s k + i) =
      if k' = k then rowDot (edgeTriplets s (number s) b inv (c, k)) x (offs s k + i) else 0 := by
    intro c k' hk'
    by_cases h : k' = k
    · subst h; rw [if_pos rfl]
    · rw [if_neg h]
      unfold edgeTriplets
      simp only [rowDot_append, rowDot_flatMap, edge_eq s hk', rowDot_edge s hi, if_neg h]
      simp
  rw [list_sum_range s.edges 0 fun c k' => rowDot (edgeTriplets s (number s) b inv (c, k')) x (offs s k + i),
    Finset.sum_congr rfl fun k' hk' => by rw [zero_add, hone _ k' (Finset.mem_range.1 hk')], Finset.sum_ite_eq',
    if_pos (Finset.mem_range.2 hk), getD_edge s hk]
  unfold edgeTriplets
  simp only [rowDot_append, rowDot_flatMap, edge_eq s hk, rowDot_edge s hi, if_true, idxs_length]
  rw [Finset.sum_congr rfl fun j hj => by rw [idxs_getD s (Finset.mem_range.1 hj)]]
  have hown : ∑ j ∈ Finset.range (s.esize k), ownBlock s b inv s.edges[k] k i j * x (offs s k + j) =
      ∑ j ∈ Finset.range (s.esize k), b.dhg k i j * x (offs s k + j) - (s.edges[k].map fun c =>
        ∑ j ∈ Finset.range (s.esize k), mul (s.size c.e) (mul (s.size c.e) (b.dg c.e c.f) (inv c.e)) (b.dh c.e c.f) i j * x (offs s k + j)).sum := by
    unfold ownBlock
    simp only [sub_mul, Finset.sum_sub_distrib]
    congr 1
    induction s.edges[k] with
    | nil => simp
    | cons a l ih => simp only [List.map_cons, List.sum_cons, add_mul, Finset.sum_add_distrib, ih]
  rw [hown, sub_add, sub_right_inj]
  have hs : ∀ (l : List Face) (f g : Face → K), (l.map f).sum - (l.map g).sum = (l.map fun c => f c - g c).sum := by
    intro l f g
    induction l with
    | nil => simp
    | cons a l ih => simp only [List.map_cons, List.sum_cons, ← ih]; ring
  rw [hs]
  congr 1
  refine List.map_congr_left fun c hc => ?_
  have hcf : c.f < 3 := ((edge_faces hw hk).2 c hc).2
  have hface : (number s).face c.e c.f = idxs s k := face_eq s hw.nodup hk hc
  -- a term for every face
  have key : ∀ f, ∑ j ∈ Finset.range ((number s).face c.e f).length, mul (s.size c.e) (mul (s.size c.e) (b.dg c.e c.f) (inv c.e)) (b.dh c.e f) i j *
      x (((number s).face c.e f).getD j 0) = ∑ t ∈ Finset.range (s.size c.e), mul (s.size c.e) (b.dg c.e c.f) (inv c.e) i t *
        ∑ j ∈ Finset.range ((number s).face c.e f).length, b.dh c.e f t j * x (((number s).face c.e f).getD j 0) := fun f => mul_dot _ _ _ _ _ _
  have hcon : ∀ f, ∑ j ∈ Finset.range ((number s).face c.e f).length, conBlock s b inv c f i j * x (((number s).face c.e f).getD j 0) =
      -∑ t ∈ Finset.range (s.size c.e), mul (s.size c.e) (b.dg c.e c.f) (inv c.e) i t *
        ∑ j ∈ Finset.range ((number s).face c.e f).length, b.dh c.e f t j * x (((number s).face c.e f).getD j 0) := by
    intro f
    rw [← key f, ← Finset.sum_neg_distrib]
    refine Finset.sum_congr rfl fun j _ => ?_
    unfold conBlock mul
    simp only [neg_mul, Finset.sum_neg_distrib]
  have hown' : ∑ j ∈ Finset.range (s.esize k), mul (s.size c.e) (mul (s.size c.e) (b.dg c.e c.f) (inv c.e)) (b.dh c.e c.f) i j * x (offs s k + j) =
      ∑ t ∈ Finset.range (s.size c.e), mul (s.size c.e) (b.dg c.e c.f) (inv c.e) i t *
        ∑ j ∈ Finset.range ((number s).face c.e c.f).length, b.dh c.e c.f t j * x (((number s).face c.e c.f).getD j 0) := by
    rw [← key c.f, hface, idxs_length]
    exact Finset.sum_congr rfl fun j hj => by rw [idxs_getD s (Finset.mem_range.1 hj)]
  have hfil : ∀ g : ℕ → K, (((List.range 3).filter (· ≠ c.f)).map fun f => -g f).sum = g c.f - ∑ f ∈ Finset.range 3, g f := by
    intro g
    have : c.f = 0 ∨ c.f = 1 ∨ c.f = 2 := by omega
    rcases this with h | h | h <;> rw [h] <;> simp [List.range_succ, Finset.sum_range_succ] <;> ring
  simp only [hcon]
  rw [hfil fun f => ∑ t ∈ Finset.range (s.size c.e), mul (s.size c.e) (b.dg c.e c.f) (inv c.e) i t *
        ∑ j ∈ Finset.range ((number s).face c.e f).length, b.dh c.e f t j * x (((number s).face c.e f).getD j 0), hown', sub_sub_cancel,
    Finset.sum_comm]
  refine Finset.sum_congr rfl fun t _ => ?_
  rw [traceSum_faces hw b x c.e t, Finset.mul_sum]

/-- `N` is the inverse of `M` from the right. -/
def RightInv (n : ℕ) (M N : ℕ → ℕ → K) : Prop :=
  ∀ i < n, ∀ j < n, ∑ k ∈ Finset.range n, M i k * N k j = if i = j then 1 else 0

/-- A solver returns a solution or fails. -/
def Solves (slv : Solver K) : Prop :=
  ∀ n A r x, slv n A r = some x → ∀ i < n, ∑ j ∈ Finset.range n, A i j * x j = r i

theorem inverses_right {I : Inverse K} (hI : ∀ n M N, I n M = some N → RightInv n M N) (b : Blocks K) (s : Skeleton) :
    ∀ (l : List ℕ) inv, inverses I b s l = some inv → ∀ e ∈ l, RightInv (s.size e) (b.dl e) (inv e) := by
  intro l
  induction l with
  | nil => intro _ _ e he; exact absurd he (by simp)
  | cons a l ih =>
    intro inv h e he
    rw [inverses] at h
    simp only [Option.bind_eq_bind, Option.bind_eq_some_iff] at h
    obtain ⟨m, hm, t, ht, h⟩ := h
    cases h
    by_cases hea : e = a
    · subst hea; rw [Function.update_self]; exact hI _ _ _ hm
    · rw [Function.update_of_ne hea]
      exact ih t ht e (by simpa [hea] using he)

omit [LinearOrder K] in
theorem apply_inv {n : ℕ} {M N : ℕ → ℕ → K} (h : RightInv n M N) (r : ℕ → K) {i : ℕ} (hi : i < n) :
    ∑ j ∈ Finset.range n, M i j * mulV n N r j = r i := by
  unfold mulV
  simp only [Finset.mul_sum]
  rw [Finset.sum_comm]
  have : ∀ t ∈ Finset.range n, ∑ j ∈ Finset.range n, M i j * (N j t * r t) = (if i = t then 1 else 0) * r t := by
    intro t ht
    rw [← h i hi t (Finset.mem_range.1 ht), Finset.sum_mul]
    exact Finset.sum_congr rfl fun _ _ => by ring
  rw [Finset.sum_congr rfl this]
  simp [hi]

omit [LinearOrder K] in
/-- The assembled equation of an unknown of an edge is the equation of the edge with the element unknowns eliminated. -/
theorem row_iff {s : Skeleton} (hw : WellFormed s) (b : Blocks K) (inv : ℕ → ℕ → ℕ → K) (x : ℕ → K) {k : ℕ} (hk : k < s.edges.length) {i : ℕ}
    (hi : i < s.esize k) :
    ∑ c ∈ Finset.range (number s).off, assemble s (number s) b inv (offs s k + i) c * x c = assembleRhs s (number s) b inv (offs s k + i) ↔
      (s.edges[k].map fun c => ∑ j ∈ Finset.range (s.size c.e), b.dg c.e c.f i j *
          mulV (s.size c.e) (inv c.e) (fun t => b.rl c.e t - traceSum s b (fun k j => x (offs s k + j)) c.e t) j).sum +
        ∑ j ∈ Finset.range (s.esize k), b.dhg k i j * x (offs s k + j) = b.rg k i := by
  rw [row_eq hw b inv x hk hi, rhs_eq hw b inv hk hi]
  unfold ownRhs
  have : ∀ l : List Face, (l.map fun c => ∑ j ∈ Finset.range (s.size c.e), b.dg c.e c.f i j *
          mulV (s.size c.e) (inv c.e) (fun t => b.rl c.e t - traceSum s b (fun k j => x (offs s k + j)) c.e t) j).sum =
      (l.map fun c => mulV (s.size c.e) (mul (s.size c.e) (b.dg c.e c.f) (inv c.e)) (b.rl c.e) i).sum -
        (l.map fun c => ∑ t ∈ Finset.range (s.size c.e), mul (s.size c.e) (b.dg c.e c.f) (inv c.e) i t *
          traceSum s b (fun k j => x (offs s k + j)) c.e t).sum := by
    intro l
    induction l with
    | nil => simp
    | cons a l ih =>
      simp only [List.map_cons, List.sum_cons]
      rw [ih]
      have : ∑ j ∈ Finset.range (s.size a.e), b.dg a.e a.f i j *
          mulV (s.size a.e) (inv a.e) (fun t => b.rl a.e t - traceSum s b (fun k j => x (offs s k + j)) a.e t) j =
          mulV (s.size a.e) (mul (s.size a.e) (b.dg a.e a.f) (inv a.e)) (b.rl a.e) i -
          ∑ t ∈ Finset.range (s.size a.e), mul (s.size a.e) (b.dg a.e a.f) (inv a.e) i t *
          traceSum s b (fun k j => x (offs s k + j)) a.e t := by
        unfold mulV
        have e1 := mul_dot (s.size a.e) (b.dg a.e a.f) (inv a.e) (s.size a.e) (b.rl a.e) i
        have e2 := mul_dot (s.size a.e) (b.dg a.e a.f) (inv a.e) (s.size a.e) (fun t => traceSum s b (fun k j => x (offs s k + j)) a.e t) i
        rw [e1, e2, ← Finset.sum_sub_distrib]
        refine Finset.sum_congr rfl fun j _ => ?_
        rw [← mul_sub, ← Finset.sum_sub_distrib]
        congr 1
        exact Finset.sum_congr rfl fun t _ => by ring
      rw [this]; ring
  rw [this]
  constructor <;> intro h <;> linear_combination h

/-- C82. What the global step computes solves the whole system: the equations of the elements and those of the edges. -/
theorem condensed {I : Inverse K} (hI : ∀ n M N, I n M = some N → RightInv n M N) {slv : Solver K} (hS : Solves slv) {s : Skeleton} (hw : WellFormed s)
    {b : Blocks K} {dq : ℕ → ℕ → K} {x : ℕ → K} (h : condense I slv s b = some (dq, x)) :
    ElementEq s b dq (edgePart (number s) x) ∧ EdgeEq s b dq (edgePart (number s) x) := by
  unfold condense at h
  simp only [Option.bind_eq_bind, Option.bind_eq_some_iff] at h
  obtain ⟨inv, hinv, y, hy, h⟩ := h
  cases h
  have hpart : ∀ k < s.edges.length, ∀ j, edgePart (number s) x k j = x (offs s k + j) := by
    intro k hk j
    unfold edgePart
    rw [edge_eq s hk, idxs_head s k (hw.pos k hk)]
  have hrl : s.edges.zipIdx.foldl (removeTraces (number s) b x) b.rl = fun e i => b.rl e i - traceSum s b (fun k j => x (offs s k + j)) e i := by
    funext e i; exact removeTraces_eq hw b x e i
  rw [hrl]
  constructor
  · intro e he i hi
    rw [apply_inv (inverses_right hI b s _ _ hinv e he) _ hi]
    have : ∀ z : K, z = traceSum s b (fun k j => x (offs s k + j)) e i → b.rl e i - traceSum s b (fun k j => x (offs s k + j)) e i + z = b.rl e i := by
      intro z hz; rw [hz]; ring
    refine this _ ?_
    unfold traceSum
    congr 1
    refine List.map_congr_left fun y hy => ?_
    have hk : y.2 < s.edges.length := by have := List.snd_lt_of_mem_zipIdx hy; omega
    congr 1
    refine List.map_congr_left fun c _ => Finset.sum_congr rfl fun j _ => ?_
    rw [hpart _ hk]
  · intro k hk i hi
    have hr := hS _ _ _ _ hy (offs s k + i) (by rw [off_eq]; exact idx_lt s hk hi)
    have := (row_iff hw b inv x hk hi).1 hr
    rw [← this]
    congr 1
    exact Finset.sum_congr rfl fun j _ => by rw [hpart k hk]

omit [LinearOrder K] in
/-- The converse: whatever solves the whole system solves the condensed one, so condensation loses no solution and adds none. -/
theorem condensed_complete {s : Skeleton} (hw : WellFormed s) {b : Blocks K} {inv : ℕ → ℕ → ℕ → K}
    (hinv : ∀ e ∈ s.elts, RightInv (s.size e) (inv e) (b.dl e)) {dq : ℕ → ℕ → K} {x : ℕ → K}
    (hE : ElementEq s b dq (edgePart (number s) x)) (hG : EdgeEq s b dq (edgePart (number s) x)) :
    ∀ r < (number s).off, ∑ c ∈ Finset.range (number s).off, assemble s (number s) b inv r c * x c = assembleRhs s (number s) b inv r := by
  have hpart : ∀ k < s.edges.length, ∀ j, edgePart (number s) x k j = x (offs s k + j) := by
    intro k hk j
    unfold edgePart
    rw [edge_eq s hk, idxs_head s k (hw.pos k hk)]
  intro r hr
  obtain ⟨k, hk, i, hi, rfl⟩ : ∃ k < s.edges.length, ∃ i < s.esize k, r = offs s k + i := by
    rw [off_eq] at hr
    generalize s.edges.length = n at hr
    induction n with
    | zero => simp [offs] at hr
    | succ n ih =>
      by_cases h : r < offs s n
      · obtain ⟨k, hk, h⟩ := ih h; exact ⟨k, by omega, h⟩
      · rw [offs_succ] at hr; exact ⟨n, by omega, r - offs s n, by omega, by omega⟩
  rw [row_iff hw b inv x hk hi]
  have hsol : ∀ e ∈ s.elts, ∀ j < s.size e,
      mulV (s.size e) (inv e) (fun t => b.rl e t - traceSum s b (fun k j => x (offs s k + j)) e t) j = dq e j := by
    intro e he j hj
    rw [← apply_inv (hinv e he) (dq e) hj]
    unfold mulV
    refine Finset.sum_congr rfl fun t ht => ?_
    congr 1
    have h := hE e he t (Finset.mem_range.1 ht)
    show b.rl e t - _ = _
    rw [← h, add_sub_assoc]
    have : ∀ a z : K, z = traceSum s b (fun k j => x (offs s k + j)) e t → a + (z - traceSum s b (fun k j => x (offs s k + j)) e t) = a := by
      intro a z hz; rw [hz]; ring
    refine this _ _ ?_
    unfold traceSum
    congr 1
    refine List.map_congr_left fun y hy => ?_
    have hk : y.2 < s.edges.length := by have := List.snd_lt_of_mem_zipIdx hy; omega
    congr 1
    exact List.map_congr_left fun c _ => Finset.sum_congr rfl fun j _ => by rw [hpart _ hk]
  rw [← hG k hk i hi]
  congr 1
  · congr 1
    refine List.map_congr_left fun c hc => Finset.sum_congr rfl fun j hj => ?_
    rw [hsol c.e ((edge_faces hw hk).2 c hc).1 j (Finset.mem_range.1 hj)]
  · exact Finset.sum_congr rfl fun j _ => by rw [hpart k hk]

/-! ### Examples -/

/-- Two elements with one common edge: one interface and four boundaries, numbers of unknowns 2 or 1. -/
def twoElts : Skeleton where
  elts := [0, 1]
  edges := [[⟨0, 1⟩, ⟨1, 2⟩], [⟨0, 0⟩], [⟨0, 2⟩], [⟨1, 0⟩], [⟨1, 1⟩]]
  size e := e + 1
  esize k := if k = 0 then 2 else 1

theorem twoElts_wf : WellFormed twoElts := ⟨by decide, by decide, fun k _ => by unfold twoElts; simp only; split <;> omega⟩

example : (number twoElts).edge 0 = [0, 1] ∧ (number twoElts).face 1 2 = [0, 1] ∧ (number twoElts).edge 4 = [5] ∧ (number twoElts).off = 6 := by decide

def demoBlocks : Blocks ℚ where
  dl _ i j := if i = j then 2 else 0
  rl e i := e + i + 1
  dh e f i j := e + 2 * f + i + j + 1
  dg e f i j := if (e + f + i + j) % 2 = 0 then 1 else 0
  dhg k i j := if i = j then k + 20 else 1
  rg k i := k + i

/-- An inverse and a solver for which the step succeeds (Cramer's rule is not needed: the matrices above are diagonal, the system is solved by a
given vector). -/
def halfInv : Inverse ℚ := fun n M => if (List.range n).all (fun i => (List.range n).all fun j => M i j == if i = j then 2 else 0) then
  some fun i j => if i = j then 1 / 2 else 0 else none

/-- Gauss elimination without exchange of rows, last column the right-hand side. -/
def elimStep (n k : ℕ) (a : List (List ℚ)) : List (List ℚ) :=
  let p := a.getD k []
  a.zipIdx.map fun r => if r.2 = k then r.1.map (· / p.getD k 1) else
    (List.range (n + 1)).map fun j => r.1.getD j 0 - r.1.getD k 0 / p.getD k 1 * p.getD j 0

/-- A solver that checks its result. -/
def gauss : Solver ℚ := fun n A r =>
  let a := (List.range n).foldl (fun a k => elimStep n k a) ((List.range n).map fun i => ((List.range n).map fun j => A i j) ++ [r i])
  let x := fun i => ((a.getD i []).getD n 0)
  if ∀ i < n, ∑ j ∈ Finset.range n, A i j * x j = r i then some x else none

theorem gauss_solves : Solves gauss := by
  intro n A r x h
  unfold gauss at h
  simp only at h
  by_cases hc : ∀ i < n, ∑ j ∈ Finset.range n, A i j *
      (fun i => (((List.range n).foldl (fun a k => elimStep n k a) ((List.range n).map fun i => ((List.range n).map fun j => A i j) ++ [r i])).getD i []).getD n 0) j = r i
  · rw [if_pos hc] at h; cases h; exact hc
  · rw [if_neg hc] at h; cases h

theorem halfInv_right : ∀ n M N, halfInv n M = some N → RightInv n M N := by
  intro n M N h i hi j hj
  unfold halfInv at h
  by_cases hc : (List.range n).all (fun i => (List.range n).all fun j => M i j == if i = j then 2 else 0) = true
  · rw [if_pos hc] at h
    cases h
    simp only [List.all_eq_true, List.mem_range, beq_iff_eq] at hc
    rw [Finset.sum_congr rfl fun k hk => by rw [hc i hi k (Finset.mem_range.1 hk)]]
    simp only [ite_mul, zero_mul, Finset.sum_ite_eq, Finset.mem_range, hi, if_true]
    split <;> norm_num
  · rw [if_neg hc] at h; cases h

set_option maxRecDepth 100000 in
example : (condense halfInv gauss twoElts demoBlocks).isSome = true := by decide +kernel

end Verif.Ihdg.Props
