import Verif.Lemmas.GnCondense
import Verif.Props.Condense

/-!
C88: the global problem of the dispersive correction: what the step computes solves the whole system of `w1`, `w2` and the traces on the wet part of
the mesh. C89: the step does not fail unless a library does (false with dry edges).
-/

namespace Verif.Gn.Props
open Verif.Gn Verif.Ihdg Verif.Ehdg Verif.Ihdg.Props

variable {K : Type} [Field K] [LinearOrder K]

/-- Every face of every element belongs to exactly one edge. -/
structure Whole (s : Skel) : Prop where
  nodup : s.edges.flatten.Nodup
  elt : ∀ c ∈ s.edges.flatten, c.e ∈ s.elts ∧ c.f < 3
  cover : ∀ e ∈ s.elts, ∀ f < 3, (⟨e, f⟩ : Face) ∈ s.edges.flatten

/-- What the traces contribute to row `i` of an equation of element `e`, `D e f` the block of face `f`. -/
def traces (s : Skel) (D : ℕ → ℕ → ℕ → ℕ → K) (y : ℕ → ℕ → K) (e i : ℕ) : K :=
  (s.edges.zipIdx.map fun x => ((x.1.filter fun c => c.e = e).map fun c => ∑ j ∈ Finset.range s.m, D e c.f i j * y x.2 j).sum).sum

/-- Equations of `w1` in the wet elements. -/
def W1Eq (s : Skel) (wet : ℕ → Bool) (b : DcBlocks K) (w1 w2 y : ℕ → ℕ → K) : Prop :=
  ∀ e ∈ s.elts, wet e → ∀ i < 2 * s.ndof e, ∑ j ∈ Finset.range (2 * s.ndof e), b.a11 e i j * w1 e j +
    ∑ j ∈ Finset.range (s.ndof e), b.a12 e i j * w2 e j + traces s b.a1h y e i = b.r1 e i

/-- Equations of `w2` in the wet elements. -/
def W2Eq (s : Skel) (wet : ℕ → Bool) (b : DcBlocks K) (w1 w2 y : ℕ → ℕ → K) : Prop :=
  ∀ e ∈ s.elts, wet e → ∀ i < s.ndof e, ∑ j ∈ Finset.range (2 * s.ndof e), b.a21 e i j * w1 e j +
    ∑ j ∈ Finset.range (s.ndof e), b.a22 e i j * w2 e j + traces s b.a2h y e i = 0

/-- Equations of the edges which have a wet side; dry sides contribute nothing. -/
def HatEq (s : Skel) (wet : ℕ → Bool) (b : DcBlocks K) (w1 w2 y : ℕ → ℕ → K) : Prop :=
  ∀ (k : ℕ) (hk : k < s.edges.length), (∃ c ∈ s.edges[k], wet c.e) → ∀ i < s.m,
    ((s.edges[k].filter fun c => wet c.e).map fun c => ∑ j ∈ Finset.range (2 * s.ndof c.e), b.ah1 c.e c.f i j * w1 c.e j +
      ∑ j ∈ Finset.range (s.ndof c.e), b.ah2 c.e c.f i j * w2 c.e j).sum + ∑ j ∈ Finset.range s.m, b.ahh k i j * y k j = 0

/-! ### Numbering -/

/-- The edges with a wet side have numbers below the offset, different from each other, known at their faces. -/
structure Numbered (s : Skel) (wet : ℕ → Bool) (t : Index) : Prop where
  lt : ∀ (k : ℕ) (hk : k < s.edges.length), wetEdge wet s.edges[k] → t.edge k < t.off
  inj : ∀ (j k : ℕ) (hj : j < s.edges.length) (hk : k < s.edges.length), wetEdge wet s.edges[j] → wetEdge wet s.edges[k] →
    t.edge j = t.edge k → j = k
  face : ∀ (k : ℕ) (hk : k < s.edges.length), wetEdge wet s.edges[k] → ∀ c ∈ s.edges[k], t.face c.e c.f = t.edge k

theorem getD_edge' (s : Skel) {k : ℕ} (hk : k < s.edges.length) : s.edges.getD k [] = s.edges[k] := by
  simp [List.getD_eq_getElem?_getD, hk]

theorem sel_numbered (s : Skel) (hn : s.edges.flatten.Nodup) (p : List Face → Bool) (wet : ℕ → Bool) (hp : ∀ x, wetEdge wet x → p x) (t0 : Index) (h0 : t0.off = 0) :
    Numbered s wet (s.edges.zipIdx.foldl (sel p) t0) := by
  have he : ∀ (k : ℕ) (hk : k < s.edges.length), wetEdge wet s.edges[k] →
      (s.edges.zipIdx.foldl (sel p) t0).edge k = (s.edges.take k).countP p := by
    intro k hk hw
    rw [sel_edge p s.edges 0 t0 k, if_pos ⟨by omega, by omega, by rw [Nat.sub_zero, getD_edge' s hk]; exact hp _ hw⟩, h0]
    simp
  refine ⟨fun k hk hw => ?_, fun j k hj hk hwj hwk h => ?_, fun k hk hw c hc => ?_⟩
  · rw [he k hk hw, sel_off p s.edges 0 t0, h0, Nat.zero_add]
    exact countP_take_total p _ hk (hp _ hw)
  · rw [he j hj hwj, he k hk hwk] at h
    rcases lt_trichotomy j k with hl | hl | hl
    · have := countP_take_lt p _ hl hj (hp _ hwj); omega
    · exact hl
    · have := countP_take_lt p _ hl hk (hp _ hwk); omega
  · rw [he k hk hw]
    have := (sel_face p s.edges 0 t0 hn c.e c.f).2 k hk (hp _ hw) hc
    rw [this, h0, Nat.zero_add]

/-- C88. The numbering at the start of a step: the edges with a wet side are numbered, whatever the numbering was before. -/
theorem renumber_numbered {s : Skel} (hs : Whole s) (wet : ℕ → Bool) (t : Index) : Numbered s wet (renumber s wet t) := by
  rw [renumber_eq]; exact sel_numbered s hs.nodup _ wet (fun _ h => h) _ rfl

/-- C88. The initial numbering, used without wetting and drying. -/
theorem initial_numbered {s : Skel} (hs : Whole s) (wet : ℕ → Bool) : Numbered s wet (initial s) := by
  rw [initial_eq]; exact sel_numbered s hs.nodup _ wet (fun _ _ => rfl) _ rfl

/-- C88. As many numbers as edges with a wet side. -/
theorem renumber_off (s : Skel) (wet : ℕ → Bool) (t : Index) : (renumber s wet t).off = (s.edges.filter fun x => x.any fun c => wet c.e).length := by
  rw [renumber_eq, sel_off, ← List.countP_eq_length_filter]; simp [wetEdge]; rfl

/-! ### Elimination in an element -/

theorem solveCols_spec {slv : Solver K} (hS : Solves slv) {n : ℕ} {A B : ℕ → ℕ → K} :
    ∀ (c : ℕ) (X : ℕ → ℕ → K), solveCols slv n A B c = some X → ∀ j < c, ∀ i < n, ∑ k ∈ Finset.range n, A i k * X k j = B i j := by
  intro c
  induction c with
  | zero => intro X _ j hj; omega
  | succ c ih =>
    intro X h j hj i hi
    rw [solveCols] at h
    simp only [Option.bind_eq_bind, Option.bind_eq_some_iff] at h
    obtain ⟨t, ht, x, hx, h⟩ := h
    cases h
    by_cases hjc : j = c
    · subst hjc
      simp only [if_true]
      exact hS _ _ _ _ hx i hi
    · simp only [if_neg hjc]
      exact ih t ht j (by omega) i hi

/-- What the elimination leaves in a wet element. -/
structure Eliminated (s : Skel) (b : DcBlocks K) (l : Local K) (e : ℕ) : Prop where
  inv : RightInv (s.ndof e) (b.a22 e) (l.inv e)
  hat : ∀ f < 3, ∀ j < s.m, ∀ i < 2 * s.ndof e, ∑ k ∈ Finset.range (2 * s.ndof e), schur s b (l.inv e) e i k * l.hat e f k j = schurHat s b (l.inv e) e f i j
  rhs : ∀ i < 2 * s.ndof e, ∑ k ∈ Finset.range (2 * s.ndof e), schur s b (l.inv e) e i k * l.rhs e k = b.r1 e i

theorem elim_spec {I : Inverse K} (hI : ∀ n M N, I n M = some N → RightInv n M N) {slv : Solver K} (hS : Solves slv) {s : Skel} {b : DcBlocks K} {e : ℕ}
    {inv hat r} (h : elim I slv s b e = some (inv, hat, r)) :
    RightInv (s.ndof e) (b.a22 e) inv ∧
      (∀ f < 3, ∀ j < s.m, ∀ i < 2 * s.ndof e, ∑ k ∈ Finset.range (2 * s.ndof e), schur s b inv e i k * hat f k j = schurHat s b inv e f i j) ∧
      ∀ i < 2 * s.ndof e, ∑ k ∈ Finset.range (2 * s.ndof e), schur s b inv e i k * r k = b.r1 e i := by
  unfold elim at h
  simp only [Option.bind_eq_bind, Option.bind_eq_some_iff] at h
  obtain ⟨inv', hinv, h0, hh0, h1, hh1, h2, hh2, r', hr, h⟩ := h
  cases h
  refine ⟨hI _ _ _ hinv, fun f hf j hj i hi => ?_, hS _ _ _ _ hr⟩
  have : f = 0 ∨ f = 1 ∨ f = 2 := by omega
  rcases this with rfl | rfl | rfl
  · exact solveCols_spec hS _ _ hh0 j hj i hi
  · exact solveCols_spec hS _ _ hh1 j hj i hi
  · exact solveCols_spec hS _ _ hh2 j hj i hi

theorem elimAll_spec {I : Inverse K} (hI : ∀ n M N, I n M = some N → RightInv n M N) {slv : Solver K} (hS : Solves slv) {s : Skel} {wet : ℕ → Bool}
    {b : DcBlocks K} : ∀ (es : List ℕ) (l : Local K), elimAll I slv s wet b es = some l → ∀ e ∈ es, wet e → Eliminated s b l e := by
  intro es
  induction es with
  | nil => intro _ _ e he; exact absurd he (by simp)
  | cons a es ih =>
    intro l h e he hw
    rw [elimAll] at h
    simp only [Option.bind_eq_bind, Option.bind_eq_some_iff] at h
    obtain ⟨t, ht, h⟩ := h
    by_cases ha : wet a = true
    · rw [if_pos ha] at h
      simp only [Option.bind_eq_some_iff] at h
      obtain ⟨⟨inv, hat, r⟩, hel, h⟩ := h
      cases h
      by_cases hea : e = a
      · subst hea
        obtain ⟨h1, h2, h3⟩ := elim_spec hI hS hel
        exact ⟨by simpa using h1, by simpa using h2, by simpa using h3⟩
      · obtain ⟨h1, h2, h3⟩ := ih t ht e (by simpa [hea] using he) hw
        exact ⟨by simpa [Function.update_of_ne hea] using h1, by simpa [Function.update_of_ne hea] using h2,
          by simpa [Function.update_of_ne hea] using h3⟩
    · rw [if_neg ha] at h
      cases h
      have hea : e ≠ a := by rintro rfl; exact ha hw
      exact ih _ ht e (by simpa [hea] using he) hw

/-! ### Traces through faces -/

theorem edge_faces' {s : Skel} (hs : Whole s) {k : ℕ} (hk : k < s.edges.length) : s.edges[k].Nodup ∧ ∀ c ∈ s.edges[k], c.e ∈ s.elts ∧ c.f < 3 :=
  ⟨(List.nodup_flatten.1 hs.nodup).1 _ (List.getElem_mem hk), fun c hc => hs.elt c (List.mem_flatten.2 ⟨_, List.getElem_mem hk, hc⟩)⟩

theorem face_edge {s : Skel} (hs : Whole s) {e f : ℕ} (he : e ∈ s.elts) (hf : f < 3) : ∃ k, ∃ hk : k < s.edges.length, (⟨e, f⟩ : Face) ∈ s.edges[k] := by
  obtain ⟨l, hl, hm⟩ := List.mem_flatten.1 (hs.cover e he f hf)
  obtain ⟨k, hk, rfl⟩ := List.getElem_of_mem hl
  exact ⟨k, hk, hm⟩

theorem wetEdge_of {wet : ℕ → Bool} {x : List Face} {c : Face} (hc : c ∈ x) (h : wet c.e) : wetEdge wet x := List.any_eq_true.2 ⟨c, hc, h⟩

theorem edge_unique {s : Skel} (hs : Whole s) {j k : ℕ} (hj : j < s.edges.length) (hk : k < s.edges.length) {c : Face} (h1 : c ∈ s.edges[j]) (h2 : c ∈ s.edges[k]) : j = k := by
  by_contra hne
  have hp := (List.nodup_flatten.1 hs.nodup).2
  rcases Nat.lt_or_gt_of_ne hne with h | h
  · exact List.pairwise_iff_getElem.1 hp j k hj hk h h1 h2
  · exact List.pairwise_iff_getElem.1 hp k j hk hj h h2 h1

omit [LinearOrder K] in
theorem traces_faces {s : Skel} (hs : Whole s) {wet : ℕ → Bool} {t : Index} (ht : Numbered s wet t) (D : ℕ → ℕ → ℕ → ℕ → K) (x : ℕ → K) {e : ℕ}
    (he : e ∈ s.elts) (hw : wet e) (i : ℕ) :
    traces s D (fun k j => x (t.edge k * s.m + j)) e i = ∑ f ∈ Finset.range 3, mulV s.m (D e f) (fun j => x (t.face e f * s.m + j)) i := by
  unfold traces
  rw [zipIdx_sum s.edges [] 0 fun c k => ((c.filter fun c => c.e = e).map fun c =>
      ∑ j ∈ Finset.range s.m, D e c.f i j * x (t.edge k * s.m + j)).sum]
  have h1 : ∀ k ∈ Finset.range s.edges.length, (((s.edges.getD k []).filter fun c => c.e = e).map fun c =>
      ∑ j ∈ Finset.range s.m, D e c.f i j * x (t.edge (0 + k) * s.m + j)).sum =
      ∑ f ∈ Finset.range 3, if (⟨e, f⟩ : Face) ∈ s.edges.getD k [] then ∑ j ∈ Finset.range s.m, D e f i j * x (t.edge k * s.m + j) else 0 := by
    intro k hk
    have hk := Finset.mem_range.1 hk
    rw [getD_edge' s hk, zero_add]
    exact filter_sum (edge_faces' hs hk).1 (fun c hc => ((edge_faces' hs hk).2 c hc).2) e fun f => ∑ j ∈ Finset.range s.m, D e f i j * x (t.edge k * s.m + j)
  rw [Finset.sum_congr rfl h1, Finset.sum_comm]
  refine Finset.sum_congr rfl fun f hf => ?_
  obtain ⟨k, hk, hm⟩ := face_edge hs he (Finset.mem_range.1 hf)
  have hfe := ht.face k hk (wetEdge_of hm hw) _ hm
  simp only at hfe
  rw [hfe, Finset.sum_eq_single k]
  · rw [getD_edge' s hk, if_pos hm]; rfl
  · intro k' hk' hne
    have hk' := Finset.mem_range.1 hk'
    rw [getD_edge' s hk', if_neg]
    intro hm'
    exact hne (edge_unique hs hk' hk hm' hm)
  · intro h; exact absurd (Finset.mem_range.2 hk) h

/-! ### Back substitution -/

theorem back_spec {s : Skel} {wet : ℕ → Bool} {t : Index} {lc : Local K} {x : ℕ → K} :
    ∀ (l : List (List Face)) (n : ℕ) (r w : ℕ → ℕ → K), (l.zipIdx n).foldlM (backEdge s t wet lc x) r = some w → ∀ e, wet e → ∀ i,
      w e i = r e i - ((l.zipIdx n).map fun y => ((y.1.filter fun c => c.e = e).map fun c =>
        ∑ j ∈ Finset.range s.m, lc.hat e c.f i j * x (t.edge y.2 * s.m + j)).sum).sum := by
  intro l
  induction l with
  | nil => intro n r w h e _ i; cases h; simp
  | cons a l ih =>
    intro n r w h e he i
    rw [List.zipIdx_cons, List.foldlM_cons] at h
    simp only [Option.bind_eq_bind, Option.bind_eq_some_iff] at h
    obtain ⟨r', hr', h⟩ := h
    rw [ih (n + 1) r' w h e he i, List.zipIdx_cons, List.map_cons, List.sum_cons, ← sub_sub]
    congr 1
    unfold backEdge at hr'
    by_cases hin : inside s t (a, n).2 = true
    · rw [if_pos hin] at hr'
      cases hr'
      have : ∀ (c : List Face) (r : ℕ → ℕ → K), ((c.filter fun c => wet c.e).foldl (fun (r : ℕ → ℕ → K) c => Function.update r c.e fun i =>
          r c.e i - mulV s.m (lc.hat c.e c.f) (fun j => x (t.edge n * s.m + j)) i) r) e i =
          r e i - ((c.filter fun c => c.e = e).map fun c => ∑ j ∈ Finset.range s.m, lc.hat e c.f i j * x (t.edge n * s.m + j)).sum := by
        intro c
        induction c with
        | nil => simp
        | cons d c ih =>
          intro r
          by_cases hd : wet d.e = true
          · rw [List.filter_cons_of_pos (by simpa using hd), List.foldl_cons]
            refine (ih _).trans ?_
            by_cases hde : d.e = e
            · rw [List.filter_cons_of_pos (by simpa using hde), List.map_cons, List.sum_cons]
              subst hde
              rw [Function.update_self]
              unfold mulV
              ring
            · rw [List.filter_cons_of_neg (by simpa using hde), Function.update_of_ne (Ne.symm hde)]
          · have hde : d.e ≠ e := by rintro h; rw [h] at hd; exact hd he
            rw [List.filter_cons_of_neg (by simpa using hd), List.filter_cons_of_neg (by simpa using hde)]
            exact ih r
      exact this a r
    · rw [if_neg hin] at hr'; cases hr'

/-! ### Rows of the sparse system -/

omit [LinearOrder K] in
theorem list_sub (l : List Face) (f g : Face → K) : (l.map f).sum - (l.map g).sum = (l.map fun c => f c - g c).sum := by
  induction l with
  | nil => simp
  | cons a l ih => simp only [List.map_cons, List.sum_cons, ← ih]; ring

omit [LinearOrder K] in
theorem triplets_cols {s : Skel} (hs : Whole s) {wet : ℕ → Bool} {t : Index} (ht : Numbered s wet t) (b : DcBlocks K) (l : Local K) :
    ∀ y ∈ s.edges.zipIdx.flatMap (dcTriplets s t wet b l), y.2.1 < t.off * s.m := by
  have hT : ∀ (r c : List ℕ) (m : ℕ → ℕ → K), ∀ y ∈ triplets r c m, y.2.1 ∈ c := by
    intro r c m y hy
    unfold triplets at hy
    rw [List.mem_flatMap] at hy
    obtain ⟨a, _, hy⟩ := hy
    rw [List.mem_map] at hy
    obtain ⟨⟨z, j⟩, hz, rfl⟩ := hy
    exact List.fst_mem_of_mem_zipIdx hz
  have hE : ∀ n < t.off, ∀ a ∈ rangeAt s n, a < t.off * s.m := by
    intro n hn a ha
    unfold rangeAt at ha
    rw [List.mem_map] at ha
    obtain ⟨j, hj, rfl⟩ := ha
    exact at_lt (List.mem_range.1 hj) hn
  intro y hy
  rw [List.mem_flatMap] at hy
  obtain ⟨⟨c, k⟩, hx, hy⟩ := hy
  have hk : k < s.edges.length := by have := List.snd_lt_of_mem_zipIdx hx; omega
  have hc : c = s.edges[k] := by
    have := List.mem_zipIdx_iff_getElem?.1 hx
    simp only at this
    rw [List.getElem?_eq_getElem hk] at this
    exact (Option.some.inj this).symm
  unfold dcTriplets at hy
  by_cases hw : wetEdge wet c = true
  · rw [if_pos hw, List.mem_append] at hy
    rcases hy with hy | hy
    · exact hE _ (ht.lt k hk (hc ▸ hw)) _ (hT _ _ _ y hy)
    · rw [List.mem_flatMap] at hy
      obtain ⟨c', hc', hy⟩ := hy
      rw [List.mem_filter] at hc'
      rw [List.mem_flatMap] at hy
      obtain ⟨f, hf, hy⟩ := hy
      rw [List.mem_filter, List.mem_range] at hf
      have hel := ((edge_faces' hs hk).2 c' (hc ▸ hc'.1)).1
      obtain ⟨k', hk', hm⟩ := face_edge hs hel hf.1
      have hwk' : wetEdge wet s.edges[k'] := wetEdge_of hm (by simpa using hc'.2)
      have hfe := ht.face k' hk' hwk' _ hm
      have := hT _ _ _ y hy
      simp only at hfe
      rw [hfe] at this
      exact hE _ (ht.lt k' hk' hwk') _ this
  · rw [if_neg hw] at hy; exact absurd hy (by simp)

omit [LinearOrder K] in
/-- A row of the sparse matrix applied to a vector. -/
theorem row_dc {s : Skel} (hs : Whole s) {wet : ℕ → Bool} {t : Index} (ht : Numbered s wet t) (b : DcBlocks K) (l : Local K) (x : ℕ → K) {k : ℕ}
    (hk : k < s.edges.length) (hw : wetEdge wet s.edges[k]) {i : ℕ} (hi : i < s.m) :
    ∑ c ∈ Finset.range (t.off * s.m), (assembleDc s t wet b l).1 (t.edge k * s.m + i) c * x c =
      ∑ j ∈ Finset.range s.m, b.ahh k i j * x (t.edge k * s.m + j) - ((s.edges[k].filter fun c => wet c.e).map fun c =>
        ∑ f ∈ Finset.range 3, mulV s.m (through s b l c f) (fun j => x (t.face c.e f * s.m + j)) i).sum := by
  unfold assembleDc
  simp only
  rw [fromTriplets_dot _ _ (triplets_cols hs ht b l), rowDot_flatMap]
  have hone : ∀ k' ∈ Finset.range s.edges.length, rowDot (dcTriplets s t wet b l (s.edges.getD k' [], 0 + k')) x (t.edge k * s.m + i) =
      if k' = k then rowDot (dcTriplets s t wet b l (s.edges[k], k)) x (t.edge k * s.m + i) else 0 := by
    intro k' hk'
    have hk' := Finset.mem_range.1 hk'
    rw [getD_edge' s hk', zero_add]
    by_cases h : k' = k
    · subst h; rw [if_pos rfl]
    · rw [if_neg h]
      unfold dcTriplets
      by_cases hw' : wetEdge wet s.edges[k'] = true
      · have hne : t.edge k' ≠ t.edge k := fun he => h (ht.inj k' k hk' hk hw' hw he)
        simp only [if_pos hw', rowDot_append, rowDot_flatMap, rowDot_at s hi, if_neg hne]
        simp
      · simp only [if_neg hw']; rfl
  rw [zipIdx_sum s.edges [] 0 fun c k' => rowDot (dcTriplets s t wet b l (c, k')) x (t.edge k * s.m + i), Finset.sum_congr rfl hone, Finset.sum_ite_eq',
    if_pos (Finset.mem_range.2 hk)]
  unfold dcTriplets
  simp only [if_pos hw, rowDot_append, rowDot_flatMap, rowDot_at s hi, if_true]
  have hown : ∑ j ∈ Finset.range s.m, ownDc s wet b l s.edges[k] k i j * x (t.edge k * s.m + j) =
      ∑ j ∈ Finset.range s.m, b.ahh k i j * x (t.edge k * s.m + j) - ((s.edges[k].filter fun c => wet c.e).map fun c =>
        ∑ j ∈ Finset.range s.m, through s b l c c.f i j * x (t.edge k * s.m + j)).sum := by
    unfold ownDc
    simp only [sub_mul, Finset.sum_sub_distrib]
    congr 1
    induction (s.edges[k].filter fun c => wet c.e) with
    | nil => simp
    | cons a l ih => simp only [List.map_cons, List.sum_cons, add_mul, Finset.sum_add_distrib, ih]
  rw [hown, sub_add, sub_right_inj, list_sub]
  congr 1
  refine List.map_congr_left fun c hc => ?_
  rw [List.mem_filter] at hc
  have hcf : c.f < 3 := ((edge_faces' hs hk).2 c hc.1).2
  have hface : t.face c.e c.f = t.edge k := ht.face k hk hw c hc.1
  have hfil : ∀ g : ℕ → K, (((List.range 3).filter (· ≠ c.f)).map fun f => -g f).sum = g c.f - ∑ f ∈ Finset.range 3, g f := by
    intro g
    have : c.f = 0 ∨ c.f = 1 ∨ c.f = 2 := by omega
    rcases this with h | h | h <;> rw [h] <;> simp [List.range_succ, Finset.sum_range_succ] <;> ring
  have hneg : ∀ f, ∑ j ∈ Finset.range s.m, -through s b l c f i j * x (t.face c.e f * s.m + j) =
      -mulV s.m (through s b l c f) (fun j => x (t.face c.e f * s.m + j)) i := by
    intro f; unfold mulV; simp only [neg_mul, Finset.sum_neg_distrib]
  simp only [hneg]
  rw [hfil fun f => mulV s.m (through s b l c f) (fun j => x (t.face c.e f * s.m + j)) i, ← hface]
  unfold mulV
  ring

omit [LinearOrder K] in
theorem subSub_other (v : ℕ → K) {m a b i : ℕ} (x : ℕ → K) (hi : i < m) (h : a ≠ b) : subSub v (a * m) m x (b * m + i) = v (b * m + i) := by
  unfold subSub
  rw [if_neg]
  rintro ⟨h1, h2⟩
  exact h (at_unique (i := b * m + i - a * m) (j := i) (by omega) hi (by omega)).1

omit [LinearOrder K] in
theorem setSub_other (v : ℕ → K) {m a b i : ℕ} (x : ℕ → K) (hi : i < m) (h : a ≠ b) : setSub v (a * m) m x (b * m + i) = v (b * m + i) := by
  unfold setSub
  rw [if_neg]
  rintro ⟨h1, h2⟩
  exact h (at_unique (i := b * m + i - a * m) (j := i) (by omega) hi (by omega)).1

omit [LinearOrder K] in
theorem rhsDc_other {s : Skel} {wet : ℕ → Bool} {t : Index} (b : DcBlocks K) (l : Local K) (v : ℕ → K) (x : List Face) (k' k : ℕ) {i : ℕ} (hi : i < s.m)
    (h : wetEdge wet x → t.edge k' ≠ t.edge k) : rhsDc s t wet b l v (x, k') (t.edge k * s.m + i) = v (t.edge k * s.m + i) := by
  unfold rhsDc
  by_cases hw : wetEdge wet x = true
  · have hne := h hw
    rw [if_pos hw]
    have key : ∀ (cs : List Face) (v : ℕ → K), (cs.foldl (fun v c => subSub v (t.edge k' * s.m) s.m (mulV (2 * s.ndof c.e) (hatSchur s b l c) (l.rhs c.e))) v)
        (t.edge k * s.m + i) = v (t.edge k * s.m + i) := by
      intro cs
      induction cs with
      | nil => intro v; rfl
      | cons a cs ih => intro v; rw [List.foldl_cons, ih, subSub_other _ _ hi hne]
    rcases x with _ | ⟨c, _ | ⟨d, x⟩⟩
    · exact key _ _
    · exact setSub_other _ _ hi hne
    · exact key _ _
  · rw [if_neg hw]

omit [LinearOrder K] in
theorem rhsDc_own {s : Skel} {wet : ℕ → Bool} {t : Index} (b : DcBlocks K) (l : Local K) (v : ℕ → K) (x : List Face) (k : ℕ) {i : ℕ} (hi : i < s.m)
    (hv : v (t.edge k * s.m + i) = 0) (hw : wetEdge wet x) :
    rhsDc s t wet b l v (x, k) (t.edge k * s.m + i) =
      -((x.filter fun c => wet c.e).map fun c => mulV (2 * s.ndof c.e) (hatSchur s b l c) (l.rhs c.e) i).sum := by
  unfold rhsDc
  rw [if_pos hw]
  have key : ∀ (cs : List Face) (v : ℕ → K), (cs.foldl (fun v c => subSub v (t.edge k * s.m) s.m (mulV (2 * s.ndof c.e) (hatSchur s b l c) (l.rhs c.e))) v)
      (t.edge k * s.m + i) = v (t.edge k * s.m + i) - (cs.map fun c => mulV (2 * s.ndof c.e) (hatSchur s b l c) (l.rhs c.e) i).sum := by
    intro cs
    induction cs with
    | nil => intro v; simp
    | cons a cs ih =>
      intro v
      rw [List.foldl_cons, ih, List.map_cons, List.sum_cons]
      unfold subSub
      rw [if_pos ⟨by omega, by omega⟩, Nat.add_sub_cancel_left]
      ring
  rcases x with _ | ⟨c, _ | ⟨d, x⟩⟩
  · exact (key _ _).trans (by rw [hv]; simp)
  · have hwc : wet c.e = true := by simpa [wetEdge] using hw
    simp only [setSub]
    rw [if_pos ⟨by omega, by omega⟩, Nat.add_sub_cancel_left, mulV_negM]
    simp [hwc]
  · exact (key _ _).trans (by rw [hv, zero_sub])

omit [LinearOrder K] in
theorem rhs_dc {s : Skel} {wet : ℕ → Bool} {t : Index} (ht : Numbered s wet t) (b : DcBlocks K) (l : Local K) {k : ℕ}
    (hk : k < s.edges.length) (hw : wetEdge wet s.edges[k]) {i : ℕ} (hi : i < s.m) :
    (assembleDc s t wet b l).2 (t.edge k * s.m + i) =
      -((s.edges[k].filter fun c => wet c.e).map fun c => mulV (2 * s.ndof c.e) (hatSchur s b l c) (l.rhs c.e) i).sum := by
  have key : ∀ (es : List (List Face)) (n : ℕ) (v : ℕ → K), (∀ j (hj : j < es.length), ∃ h : n + j < s.edges.length, es[j] = s.edges[n + j]) →
      ((n ≤ k → v (t.edge k * s.m + i) = 0) →
      ((es.zipIdx n).foldl (rhsDc s t wet b l) v) (t.edge k * s.m + i) = if n ≤ k ∧ k < n + es.length then
        -((s.edges[k].filter fun c => wet c.e).map fun c => mulV (2 * s.ndof c.e) (hatSchur s b l c) (l.rhs c.e) i).sum else v (t.edge k * s.m + i)) := by
    intro es
    induction es with
    | nil => intro n v _ _; rw [if_neg (by rintro ⟨h1, h2⟩; rw [List.length_nil] at h2; omega)]; rfl
    | cons a es ih =>
      intro n v hes hv
      have hes' : ∀ j (hj : j < es.length), ∃ h : n + 1 + j < s.edges.length, es[j] = s.edges[n + 1 + j] := by
        intro j hj
        obtain ⟨h, h'⟩ := hes (j + 1) (by simpa using hj)
        refine ⟨by omega, ?_⟩
        rw [List.getElem_cons_succ] at h'
        rw [h']
        congr 1; omega
      obtain ⟨hn, ha⟩ := hes 0 (by simp)
      rw [List.getElem_cons_zero] at ha
      simp only [Nat.add_zero] at hn ha
      rw [List.zipIdx_cons, List.foldl_cons, List.length_cons]
      by_cases hkn : k = n
      · subst hkn
        rw [ih (k + 1) _ hes' (fun h => by omega), if_neg (by omega), if_pos (by omega), ha]
        exact rhsDc_own b l v _ k hi (hv le_rfl) hw
      · have ho : rhsDc s t wet b l v (a, n) (t.edge k * s.m + i) = v (t.edge k * s.m + i) :=
          rhsDc_other b l v a n k hi fun hwa he => hkn (ht.inj n k hn hk (ha ▸ hwa) hw he).symm
        rw [ih (n + 1) _ hes' (fun h => by rw [ho]; exact hv (by omega)), ho]
        by_cases hc : n + 1 ≤ k ∧ k < n + 1 + es.length
        · rw [if_pos hc, if_pos (by omega)]
        · rw [if_neg hc, if_neg (by omega)]
  have := key s.edges 0 (fun _ => 0) (fun j hj => ⟨by omega, by congr 1; omega⟩) (fun _ => rfl)
  rw [if_pos (by omega)] at this
  exact this

/-! ### C88 -/

/-- The traces: the part of the solution an edge reads. -/
def trace (s : Skel) (t : Index) (x : ℕ → K) (k j : ℕ) : K := x (t.edge k * s.m + j)

omit [LinearOrder K] in
theorem hat_through {s : Skel} {b : DcBlocks K} {l : Local K} (c : Face) (f : ℕ) (y : ℕ → K) (i : ℕ) :
    mulV s.m (through s b l c f) y i = mulV (s.ndof c.e) (b.ah2 c.e c.f) (mulV (s.ndof c.e) (l.inv c.e) (mulV s.m (b.a2h c.e f) y)) i +
      mulV (2 * s.ndof c.e) (hatSchur s b l c) (mulV s.m (l.hat c.e f) y) i := by
  have : through s b l c f = fun i j => mul (s.ndof c.e) (mul (s.ndof c.e) (b.ah2 c.e c.f) (l.inv c.e)) (b.a2h c.e f) i j +
      mul (2 * s.ndof c.e) (hatSchur s b l c) (l.hat c.e f) i j := rfl
  rw [this, mulV_addM, mulV_mul, mulV_mul, mulV_mul]

omit [LinearOrder K] in
theorem mulV_hatSchur {s : Skel} {b : DcBlocks K} {l : Local K} (c : Face) (y : ℕ → K) (i : ℕ) :
    mulV (2 * s.ndof c.e) (hatSchur s b l c) y i = mulV (2 * s.ndof c.e) (b.ah1 c.e c.f) y i -
      mulV (s.ndof c.e) (b.ah2 c.e c.f) (mulV (s.ndof c.e) (l.inv c.e) (mulV (2 * s.ndof c.e) (b.a21 c.e) y)) i := by
  have : hatSchur s b l c = fun i j => b.ah1 c.e c.f i j - mul (s.ndof c.e) (mul (s.ndof c.e) (b.ah2 c.e c.f) (l.inv c.e)) (b.a21 c.e) i j := rfl
  rw [this, mulV_subM, mulV_mul, mulV_mul]

omit [LinearOrder K] in
theorem mulV_schur {s : Skel} {b : DcBlocks K} {inv : ℕ → ℕ → K} (e : ℕ) (y : ℕ → K) (i : ℕ) :
    mulV (2 * s.ndof e) (schur s b inv e) y i = mulV (2 * s.ndof e) (b.a11 e) y i -
      mulV (s.ndof e) (b.a12 e) (mulV (s.ndof e) inv (mulV (2 * s.ndof e) (b.a21 e) y)) i := by
  have : schur s b inv e = fun i j => b.a11 e i j - mul (s.ndof e) (mul (s.ndof e) (b.a12 e) inv) (b.a21 e) i j := rfl
  rw [this, mulV_subM, mulV_mul, mulV_mul]

omit [LinearOrder K] in
theorem mulV_schurHat {s : Skel} {b : DcBlocks K} {inv : ℕ → ℕ → K} (e f : ℕ) (y : ℕ → K) (i : ℕ) :
    mulV s.m (schurHat s b inv e f) y i = mulV s.m (b.a1h e f) y i -
      mulV (s.ndof e) (b.a12 e) (mulV (s.ndof e) inv (mulV s.m (b.a2h e f) y)) i := by
  have : schurHat s b inv e f = fun i j => b.a1h e f i j - mul (s.ndof e) (mul (s.ndof e) (b.a12 e) inv) (b.a2h e f) i j := rfl
  rw [this, mulV_subM, mulV_mul, mulV_mul]

/-- Solutions of the rows of the edges with a wet side, with `w1` computed from them, satisfy all three kinds of equations with some `w2`. -/
theorem dc_rows {s : Skel} (hs : Whole s) {wet : ℕ → Bool} {t : Index} (ht : Numbered s wet t) {b : DcBlocks K} {l : Local K}
    (hel : ∀ e ∈ s.elts, wet e → Eliminated s b l e) {x : ℕ → K}
    (hx : ∀ (k : ℕ) (hk : k < s.edges.length), wetEdge wet s.edges[k] → ∀ i < s.m, ∑ j ∈ Finset.range s.m, b.ahh k i j * x (t.edge k * s.m + j) -
      ((s.edges[k].filter fun c => wet c.e).map fun c => ∑ f ∈ Finset.range 3, mulV s.m (through s b l c f) (fun j => x (t.face c.e f * s.m + j)) i).sum =
      -((s.edges[k].filter fun c => wet c.e).map fun c => mulV (2 * s.ndof c.e) (hatSchur s b l c) (l.rhs c.e) i).sum) {w1 : ℕ → ℕ → K}
    (hb : ∀ e ∈ s.elts, wet e → ∀ i, w1 e i = l.rhs e i - traces s l.hat (trace s t x) e i) :
    ∃ w2, W1Eq s wet b w1 w2 (trace s t x) ∧ W2Eq s wet b w1 w2 (trace s t x) ∧ HatEq s wet b w1 w2 (trace s t x) := by
  -- the traces seen from an element
  set X : ℕ → ℕ → ℕ → K := fun e f j => x (t.face e f * s.m + j) with hX
  have htr : ∀ (D : ℕ → ℕ → ℕ → ℕ → K), ∀ e ∈ s.elts, wet e → ∀ i, traces s D (trace s t x) e i = ∑ f ∈ Finset.range 3, mulV s.m (D e f) (X e f) i :=
    fun D e he hw i => traces_faces hs ht D x he hw i
  have hw1 : ∀ e ∈ s.elts, wet e → ∀ i, w1 e i = l.rhs e i - ∑ f ∈ Finset.range 3, mulV s.m (l.hat e f) (X e f) i := by
    intro e he hw i
    rw [hb e he hw i, ← htr l.hat e he hw i]
  set Q : ℕ → ℕ → K := fun e j => mulV (2 * s.ndof e) (b.a21 e) (w1 e) j + ∑ f ∈ Finset.range 3, mulV s.m (b.a2h e f) (X e f) j with hQ
  refine ⟨fun e j => -mulV (s.ndof e) (l.inv e) (Q e) j, ?_, ?_, ?_⟩
  · intro e he hw i hi
    have hA : mulV (2 * s.ndof e) (schur s b (l.inv e) e) (w1 e) i = b.r1 e i - ∑ f ∈ Finset.range 3, mulV s.m (schurHat s b (l.inv e) e f) (X e f) i := by
      rw [mulV_congr _ _ (fun j _ => hw1 e he hw j), mulV_sub, mulV_sum]
      congr 1
      · exact (hel e he hw).rhs i hi
      · refine Finset.sum_congr rfl fun f hf => ?_
        rw [← mulV_mul]
        exact mulV_congrM _ _ fun j hj => (hel e he hw).hat f (Finset.mem_range.1 hf) j hj i hi
    rw [mulV_schur] at hA
    simp only [mulV_schurHat, Finset.sum_sub_distrib] at hA
    have hQ' : mulV (s.ndof e) (b.a12 e) (mulV (s.ndof e) (l.inv e) (Q e)) i =
        mulV (s.ndof e) (b.a12 e) (mulV (s.ndof e) (l.inv e) (mulV (2 * s.ndof e) (b.a21 e) (w1 e))) i +
          ∑ f ∈ Finset.range 3, mulV (s.ndof e) (b.a12 e) (mulV (s.ndof e) (l.inv e) (mulV s.m (b.a2h e f) (X e f))) i := by
      have e1 : ∀ j, mulV (s.ndof e) (l.inv e) (Q e) j = mulV (s.ndof e) (l.inv e) (mulV (2 * s.ndof e) (b.a21 e) (w1 e)) j +
          ∑ f ∈ Finset.range 3, mulV (s.ndof e) (l.inv e) (mulV s.m (b.a2h e f) (X e f)) j := by
        intro j
        simp only [hQ]
        rw [mulV_add, mulV_sum]
      rw [mulV_congr _ _ (fun j _ => e1 j), mulV_add, mulV_sum]
    rw [htr _ e he hw]
    show mulV (2 * s.ndof e) (b.a11 e) (w1 e) i + mulV (s.ndof e) (b.a12 e) (fun j => -mulV (s.ndof e) (l.inv e) (Q e) j) i + _ = _
    rw [mulV_neg, hQ']
    linear_combination hA
  · intro e he hw i hi
    have := apply_inv (hel e he hw).inv (Q e) hi
    rw [htr _ e he hw]
    show mulV (2 * s.ndof e) (b.a21 e) (w1 e) i + mulV (s.ndof e) (b.a22 e) (fun j => -mulV (s.ndof e) (l.inv e) (Q e) j) i + _ = _
    rw [mulV_neg]
    have h2 : mulV (s.ndof e) (b.a22 e) (mulV (s.ndof e) (l.inv e) (Q e)) i = Q e i := this
    rw [h2]
    simp only [hQ]
    ring
  · intro k hk hex i hi
    have hwk : wetEdge wet s.edges[k] := by obtain ⟨c, hc, hw⟩ := hex; exact wetEdge_of hc hw
    have hrow := hx k hk hwk i hi
    have hsum : ((s.edges[k].filter fun c => wet c.e).map fun c => ∑ j ∈ Finset.range (2 * s.ndof c.e), b.ah1 c.e c.f i j * w1 c.e j +
        ∑ j ∈ Finset.range (s.ndof c.e), b.ah2 c.e c.f i j * -mulV (s.ndof c.e) (l.inv c.e) (Q c.e) j).sum =
        ((s.edges[k].filter fun c => wet c.e).map fun c => mulV (2 * s.ndof c.e) (hatSchur s b l c) (l.rhs c.e) i).sum -
        ((s.edges[k].filter fun c => wet c.e).map fun c => ∑ f ∈ Finset.range 3, mulV s.m (through s b l c f) (X c.e f) i).sum := by
      rw [list_sub]
      congr 1
      refine List.map_congr_left fun c hc => ?_
      rw [List.mem_filter] at hc
      have he := ((edge_faces' hs hk).2 c hc.1).1
      have hw : wet c.e := by simpa using hc.2
      have e1 : ∀ j, mulV (s.ndof c.e) (l.inv c.e) (Q c.e) j = mulV (s.ndof c.e) (l.inv c.e) (mulV (2 * s.ndof c.e) (b.a21 c.e) (w1 c.e)) j +
          ∑ f ∈ Finset.range 3, mulV (s.ndof c.e) (l.inv c.e) (mulV s.m (b.a2h c.e f) (X c.e f)) j := by
        intro j
        simp only [hQ]
        rw [mulV_add, mulV_sum]
      have e2 : mulV (s.ndof c.e) (b.ah2 c.e c.f) (mulV (s.ndof c.e) (l.inv c.e) (Q c.e)) i =
          mulV (s.ndof c.e) (b.ah2 c.e c.f) (mulV (s.ndof c.e) (l.inv c.e) (mulV (2 * s.ndof c.e) (b.a21 c.e) (w1 c.e))) i +
          ∑ f ∈ Finset.range 3, mulV (s.ndof c.e) (b.ah2 c.e c.f) (mulV (s.ndof c.e) (l.inv c.e) (mulV s.m (b.a2h c.e f) (X c.e f))) i := by
        rw [mulV_congr _ _ (fun j _ => e1 j), mulV_add, mulV_sum]
      have e3 : mulV (2 * s.ndof c.e) (hatSchur s b l c) (w1 c.e) i = mulV (2 * s.ndof c.e) (hatSchur s b l c) (l.rhs c.e) i -
          ∑ f ∈ Finset.range 3, mulV (2 * s.ndof c.e) (hatSchur s b l c) (mulV s.m (l.hat c.e f) (X c.e f)) i := by
        rw [mulV_congr _ _ (fun j _ => hw1 c.e he hw j), mulV_sub, mulV_sum]
      simp only [hat_through, Finset.sum_add_distrib]
      show mulV (2 * s.ndof c.e) (b.ah1 c.e c.f) (w1 c.e) i + mulV (s.ndof c.e) (b.ah2 c.e c.f) (fun j => -mulV (s.ndof c.e) (l.inv c.e) (Q c.e) j) i = _
      rw [mulV_neg, e2]
      have e4 := mulV_hatSchur (s := s) (b := b) (l := l) c (w1 c.e) i
      rw [e3] at e4
      linear_combination -e4
    rw [hsum]
    show _ - _ + ∑ j ∈ Finset.range s.m, b.ahh k i j * x (t.edge k * s.m + j) = 0
    linear_combination hrow

/-- Solutions of the global system, with `w1` computed from them, satisfy all three kinds of equations with some `w2`. -/
theorem dc_back {s : Skel} (hs : Whole s) {wet : ℕ → Bool} {t : Index} (ht : Numbered s wet t) {b : DcBlocks K} {l : Local K}
    (hel : ∀ e ∈ s.elts, wet e → Eliminated s b l e) {x : ℕ → K}
    (hx : ∀ i < t.off * s.m, ∑ j ∈ Finset.range (t.off * s.m), (assembleDc s t wet b l).1 i j * x j = (assembleDc s t wet b l).2 i) {w1 : ℕ → ℕ → K}
    (hb : ∀ e ∈ s.elts, wet e → ∀ i, w1 e i = l.rhs e i - traces s l.hat (trace s t x) e i) :
    ∃ w2, W1Eq s wet b w1 w2 (trace s t x) ∧ W2Eq s wet b w1 w2 (trace s t x) ∧ HatEq s wet b w1 w2 (trace s t x) :=
  dc_rows hs ht hel (fun k hk hw i hi => by
    have := hx (t.edge k * s.m + i) (at_lt hi (ht.lt k hk hw))
    rwa [row_dc hs ht b l x hk hw hi, rhs_dc ht b l hk hw hi] at this) hb

/-- C88. Whatever the numbering was before, with wetting and drying the computed `w1` and traces, with some `w2`, satisfy all three kinds of equations
on the wet part of the mesh. -/
theorem dc_solved {I : Inverse K} (hI : ∀ n M N, I n M = some N → RightInv n M N) {slv : Solver K} (hS : Solves slv) {s : Skel} (hs : Whole s)
    {wet : ℕ → Bool} {wd : Bool} {t0 t : Index} (h0 : wd = false → Numbered s wet t0) {b : DcBlocks K} {x : ℕ → K} {w1 : ℕ → ℕ → K}
    (h : solveDc I slv s wd wet t0 b = some (t, x, w1)) :
    ∃ w2, W1Eq s wet b w1 w2 (trace s t x) ∧ W2Eq s wet b w1 w2 (trace s t x) ∧ HatEq s wet b w1 w2 (trace s t x) := by
  unfold solveDc at h
  simp only [Option.bind_eq_bind, Option.bind_eq_some_iff] at h
  obtain ⟨l, hl, x', hx, w, hb, h⟩ := h
  cases h
  have ht : Numbered s wet (if wd = true then renumber s wet t0 else t0) := by
    by_cases hwd : wd = true
    · rw [if_pos hwd]; exact renumber_numbered hs wet t0
    · rw [if_neg hwd]; exact h0 (by simpa using hwd)
  generalize (if wd = true then renumber s wet t0 else t0) = t at *
  refine dc_back hs ht (elimAll_spec hI hS s.elts l hl) (hS _ _ _ _ hx) fun e he hw i => ?_
  rw [back_spec s.edges 0 l.rhs w1 hb e hw i]
  rfl

omit [LinearOrder K] in
theorem left_cancel {n : ℕ} {M N : ℕ → ℕ → K} (h : RightInv n N M) {u v : ℕ → K} (he : ∀ i < n, mulV n M u i = mulV n M v i) : ∀ i < n, u i = v i := by
  intro i hi
  have h1 := apply_inv h u hi
  have h2 := apply_inv h v hi
  rw [← h1, ← h2]
  exact Finset.sum_congr rfl fun j hj => by rw [he j (Finset.mem_range.1 hj)]

omit [LinearOrder K] in
/-- C88. The converse: whatever satisfies the three kinds of equations satisfies the sparse system and is what the back substitution computes, provided
the matrices of the elements are regular. So the elimination loses no solution and adds none. -/
theorem dc_complete {s : Skel} (hs : Whole s) {wet : ℕ → Bool} {t : Index} (ht : Numbered s wet t) {b : DcBlocks K} {l : Local K}
    (hel : ∀ e ∈ s.elts, wet e → Eliminated s b l e) (hinv : ∀ e ∈ s.elts, wet e → RightInv (s.ndof e) (l.inv e) (b.a22 e))
    {N : ℕ → ℕ → ℕ → K} (hN : ∀ e ∈ s.elts, wet e → RightInv (2 * s.ndof e) (N e) (schur s b (l.inv e) e)) {x : ℕ → K} {w1 w2 : ℕ → ℕ → K}
    (h1 : W1Eq s wet b w1 w2 (trace s t x)) (h2 : W2Eq s wet b w1 w2 (trace s t x)) (h3 : HatEq s wet b w1 w2 (trace s t x)) :
    (∀ (k : ℕ) (hk : k < s.edges.length), wetEdge wet s.edges[k] → ∀ i < s.m,
      ∑ c ∈ Finset.range (t.off * s.m), (assembleDc s t wet b l).1 (t.edge k * s.m + i) c * x c = (assembleDc s t wet b l).2 (t.edge k * s.m + i)) ∧
      ∀ e ∈ s.elts, wet e → ∀ i < 2 * s.ndof e, w1 e i = l.rhs e i - traces s l.hat (trace s t x) e i := by
  set X : ℕ → ℕ → ℕ → K := fun e f j => x (t.face e f * s.m + j) with hX
  have htr : ∀ (D : ℕ → ℕ → ℕ → ℕ → K), ∀ e ∈ s.elts, wet e → ∀ i, traces s D (trace s t x) e i = ∑ f ∈ Finset.range 3, mulV s.m (D e f) (X e f) i :=
    fun D e he hw i => traces_faces hs ht D x he hw i
  set Q : ℕ → ℕ → K := fun e j => mulV (2 * s.ndof e) (b.a21 e) (w1 e) j + ∑ f ∈ Finset.range 3, mulV s.m (b.a2h e f) (X e f) j with hQ
  have hw2 : ∀ e ∈ s.elts, wet e → ∀ i < s.ndof e, w2 e i = -mulV (s.ndof e) (l.inv e) (Q e) i := by
    intro e he hw
    refine left_cancel (hinv e he hw) fun i hi => ?_
    have ha : mulV (s.ndof e) (b.a22 e) (mulV (s.ndof e) (l.inv e) (Q e)) i = Q e i := apply_inv (hel e he hw).inv (Q e) hi
    rw [mulV_neg, ha]
    have := h2 e he hw i hi
    rw [htr _ e he hw] at this
    have h2' : mulV (2 * s.ndof e) (b.a21 e) (w1 e) i + mulV (s.ndof e) (b.a22 e) (w2 e) i + ∑ f ∈ Finset.range 3, mulV s.m (b.a2h e f) (X e f) i = 0 := this
    simp only [hQ]
    linear_combination h2'
  have hinvQ : ∀ e j, mulV (s.ndof e) (l.inv e) (Q e) j = mulV (s.ndof e) (l.inv e) (mulV (2 * s.ndof e) (b.a21 e) (w1 e)) j +
          ∑ f ∈ Finset.range 3, mulV (s.ndof e) (l.inv e) (mulV s.m (b.a2h e f) (X e f)) j := by
    intro e j
    simp only [hQ]
    rw [mulV_add, mulV_sum]
  have hQ' : ∀ e (M : ℕ → ℕ → K) i, mulV (s.ndof e) M (mulV (s.ndof e) (l.inv e) (Q e)) i =
        mulV (s.ndof e) M (mulV (s.ndof e) (l.inv e) (mulV (2 * s.ndof e) (b.a21 e) (w1 e))) i +
          ∑ f ∈ Finset.range 3, mulV (s.ndof e) M (mulV (s.ndof e) (l.inv e) (mulV s.m (b.a2h e f) (X e f))) i := by
    intro e M i
    rw [mulV_congr _ _ (fun j _ => hinvQ e j), mulV_add, mulV_sum]
  have hw1 : ∀ e ∈ s.elts, wet e → ∀ i < 2 * s.ndof e, w1 e i = l.rhs e i - ∑ f ∈ Finset.range 3, mulV s.m (l.hat e f) (X e f) i := by
    intro e he hw
    refine left_cancel (hN e he hw) fun i hi => ?_
    have hr : mulV (2 * s.ndof e) (schur s b (l.inv e) e) (l.rhs e) i = b.r1 e i := (hel e he hw).rhs i hi
    have hh : ∀ f ∈ Finset.range 3, mulV (2 * s.ndof e) (schur s b (l.inv e) e) (mulV s.m (l.hat e f) (X e f)) i =
        mulV s.m (schurHat s b (l.inv e) e f) (X e f) i := by
      intro f hf
      rw [← mulV_mul]
      exact mulV_congrM _ _ fun j hj => (hel e he hw).hat f (Finset.mem_range.1 hf) j hj i hi
    rw [mulV_sub, mulV_sum, hr, Finset.sum_congr rfl hh, mulV_schur]
    simp only [mulV_schurHat, Finset.sum_sub_distrib]
    have := h1 e he hw i hi
    rw [htr _ e he hw] at this
    have h1' : mulV (2 * s.ndof e) (b.a11 e) (w1 e) i + mulV (s.ndof e) (b.a12 e) (w2 e) i + ∑ f ∈ Finset.range 3, mulV s.m (b.a1h e f) (X e f) i = b.r1 e i := this
    rw [mulV_congr _ _ (hw2 e he hw), mulV_neg, hQ' e (b.a12 e) i] at h1'
    linear_combination h1'
  refine ⟨fun k hk hwk i hi => ?_, fun e he hw i hi => by rw [htr _ e he hw]; exact hw1 e he hw i hi⟩
  rw [row_dc hs ht b l x hk hwk hi, rhs_dc ht b l hk hwk hi]
  have h3' := h3 k hk (by simpa [wetEdge] using hwk) i hi
  have hsum : ((s.edges[k].filter fun c => wet c.e).map fun c => ∑ j ∈ Finset.range (2 * s.ndof c.e), b.ah1 c.e c.f i j * w1 c.e j +
        ∑ j ∈ Finset.range (s.ndof c.e), b.ah2 c.e c.f i j * w2 c.e j).sum =
        ((s.edges[k].filter fun c => wet c.e).map fun c => mulV (2 * s.ndof c.e) (hatSchur s b l c) (l.rhs c.e) i).sum -
        ((s.edges[k].filter fun c => wet c.e).map fun c => ∑ f ∈ Finset.range 3, mulV s.m (through s b l c f) (X c.e f) i).sum := by
    rw [list_sub]
    congr 1
    refine List.map_congr_left fun c hc => ?_
    rw [List.mem_filter] at hc
    have he := ((edge_faces' hs hk).2 c hc.1).1
    have hw : wet c.e := by simpa using hc.2
    have e3 : mulV (2 * s.ndof c.e) (hatSchur s b l c) (w1 c.e) i = mulV (2 * s.ndof c.e) (hatSchur s b l c) (l.rhs c.e) i -
          ∑ f ∈ Finset.range 3, mulV (2 * s.ndof c.e) (hatSchur s b l c) (mulV s.m (l.hat c.e f) (X c.e f)) i := by
      rw [mulV_congr _ _ (hw1 c.e he hw), mulV_sub, mulV_sum]
    simp only [hat_through, Finset.sum_add_distrib]
    show mulV (2 * s.ndof c.e) (b.ah1 c.e c.f) (w1 c.e) i + mulV (s.ndof c.e) (b.ah2 c.e c.f) (w2 c.e) i = _
    rw [mulV_congr _ (b.ah2 c.e c.f) (hw2 c.e he hw), mulV_neg, hQ' c.e (b.ah2 c.e c.f) i]
    have e4 := mulV_hatSchur (s := s) (b := b) (l := l) c (w1 c.e) i
    rw [e3] at e4
    linear_combination -e4
  rw [hsum] at h3'
  have h4 : _ - _ + ∑ j ∈ Finset.range s.m, b.ahh k i j * x (t.edge k * s.m + j) = 0 := h3'
  linear_combination h4

/-! ### C89 -/

/-- The libraries never fail. -/
def Total (I : Inverse K) (slv : Solver K) : Prop := (∀ n M, (I n M).isSome) ∧ ∀ n A r, (slv n A r).isSome

theorem solveCols_total {slv : Solver K} (h : ∀ n A r, (slv n A r).isSome) (n : ℕ) (A B : ℕ → ℕ → K) : ∀ c, (solveCols slv n A B c).isSome := by
  intro c
  induction c with
  | zero => rfl
  | succ c ih =>
    obtain ⟨t, ht⟩ := Option.isSome_iff_exists.1 ih
    obtain ⟨x, hx⟩ := Option.isSome_iff_exists.1 (h n A fun i => B i c)
    rw [solveCols, ht, Option.bind_eq_bind, Option.bind_some, hx]
    rfl

theorem elim_total {I : Inverse K} {slv : Solver K} (h : Total I slv) (s : Skel) (b : DcBlocks K) (e : ℕ) : (elim I slv s b e).isSome := by
  unfold elim
  obtain ⟨inv, hinv⟩ := Option.isSome_iff_exists.1 (h.1 (s.ndof e) (b.a22 e))
  have hc := fun f => Option.isSome_iff_exists.1 (solveCols_total h.2 (2 * s.ndof e) (schur s b inv e) (schurHat s b inv e f) s.m)
  obtain ⟨h0, hh0⟩ := hc 0
  obtain ⟨h1, hh1⟩ := hc 1
  obtain ⟨h2, hh2⟩ := hc 2
  obtain ⟨r, hr⟩ := Option.isSome_iff_exists.1 (h.2 (2 * s.ndof e) (schur s b inv e) (b.r1 e))
  simp only [hinv, Option.bind_eq_bind, Option.bind_some, hh0, hh1, hh2, hr]
  rfl

theorem elimAll_total {I : Inverse K} {slv : Solver K} (h : Total I slv) (s : Skel) (wet : ℕ → Bool) (b : DcBlocks K) : ∀ es, (elimAll I slv s wet b es).isSome := by
  intro es
  induction es with
  | nil => rfl
  | cons a es ih =>
    obtain ⟨t, ht⟩ := Option.isSome_iff_exists.1 ih
    rw [elimAll, ht, Option.bind_eq_bind, Option.bind_some]
    by_cases hw : wet a = true
    · obtain ⟨⟨i, hh, r⟩, hx⟩ := Option.isSome_iff_exists.1 (elim_total h s b a)
      rw [if_pos hw, hx]; rfl
    · rw [if_neg hw]; rfl

theorem back_isSome (s : Skel) (t : Index) (wet : ℕ → Bool) (lc : Local K) (x : ℕ → K) : ∀ (l : List (List Face)) (n : ℕ) (r : ℕ → ℕ → K),
    ((l.zipIdx n).foldlM (backEdge s t wet lc x) r).isSome ↔ ∀ k, n ≤ k → k < n + l.length → inside s t k := by
  intro l
  induction l with
  | nil => intro n r; refine ⟨fun _ k h1 h2 => ?_, fun _ => rfl⟩; rw [List.length_nil] at h2; omega
  | cons a l ih =>
    intro n r
    rw [List.zipIdx_cons, List.foldlM_cons, List.length_cons]
    unfold backEdge
    by_cases hin : inside s t n = true
    · rw [if_pos hin, Option.bind_eq_bind, Option.bind_some]
      refine (ih (n + 1) _).trans ⟨fun h k h1 h2 => ?_, fun h k h1 h2 => h k (by omega) (by omega)⟩
      by_cases hk : k = n
      · rw [hk]; exact hin
      · exact h k (by omega) (by omega)
    · rw [if_neg hin, Option.bind_eq_bind, Option.bind_none]
      refine ⟨(fun h => by cases h), fun h => absurd (h n le_rfl (by omega)) hin⟩

/-- With libraries which never fail the step succeeds exactly if the number of every edge, wet or dry, is one of the present numbering. -/
theorem dc_isSome {I : Inverse K} {slv : Solver K} (h : Total I slv) (s : Skel) (hm : 0 < s.m) (wd : Bool) (wet : ℕ → Bool) (t0 : Index) (b : DcBlocks K) :
    (solveDc I slv s wd wet t0 b).isSome ↔
      ∀ k < s.edges.length, (if wd then renumber s wet t0 else t0).edge k < (if wd then renumber s wet t0 else t0).off := by
  unfold solveDc
  generalize (if wd = true then renumber s wet t0 else t0) = t
  obtain ⟨l, hl⟩ := Option.isSome_iff_exists.1 (elimAll_total h s wet b s.elts)
  obtain ⟨x, hx⟩ := Option.isSome_iff_exists.1 (h.2 (t.off * s.m) (assembleDc s t wet b l).1 (assembleDc s t wet b l).2)
  simp only [hl, Option.bind_eq_bind, Option.bind_some, hx]
  rw [Option.isSome_bind]
  have := back_isSome s t wet l x s.edges 0 l.rhs
  have hin : ∀ k, inside s t k = true ↔ t.edge k < t.off := by
    intro k
    unfold inside
    rw [decide_eq_true_iff, ← Nat.succ_mul]
    exact ⟨fun h => Nat.le_of_mul_le_mul_right h hm, fun h => Nat.mul_le_mul_right _ h⟩
  constructor
  · intro hb k hk
    have hb : (s.edges.zipIdx.foldlM (backEdge s t wet l x) l.rhs).isSome := by
      cases hw : s.edges.zipIdx.foldlM (backEdge s t wet l x) l.rhs with
      | none => rw [hw] at hb; cases hb
      | some w => rfl
    exact (hin k).1 (this.1 hb k (by omega) (by omega))
  · intro hk
    obtain ⟨w, hw⟩ := Option.isSome_iff_exists.1 (this.2 fun k _ h2 => (hin k).2 (hk k (by omega)))
    rw [hw]; rfl

/-- C89, partial: without wetting and drying, and with it as long as every edge has a wet side, only the libraries can fail. -/
theorem dc_total_partial {I : Inverse K} {slv : Solver K} (h : Total I slv) {s : Skel} (hs : Whole s) (hm : 0 < s.m) (wd : Bool) {wet : ℕ → Bool}
    (hw : wd = true → ∀ x ∈ s.edges, ∃ c ∈ x, wet c.e) (t0 : Index) (h0 : wd = false → t0 = initial s) (b : DcBlocks K) :
    (solveDc I slv s wd wet t0 b).isSome := by
  rw [dc_isSome h s hm]
  intro k hk
  cases wd with
  | false =>
    rw [h0 rfl]
    simp only [Bool.false_eq_true, if_false]
    rw [initial_eq, sel_edge, sel_off, if_pos ⟨by omega, by omega, rfl⟩]
    exact Nat.add_lt_add_left (countP_take_total (fun _ => true) s.edges hk rfl) _
  | true =>
    simp only [if_true]
    refine (renumber_numbered hs wet t0).lt k hk ?_
    obtain ⟨c, hc, hwc⟩ := hw rfl _ (List.getElem_mem hk)
    exact wetEdge_of hc hwc

/-- C89, the failure: with wetting and drying the first step fails, whatever the libraries return, if an edge with dry sides only has an initial number
not below the number of edges with a wet side; for instance if the last edge of the skeleton is dry. -/
theorem dc_fails (I : Inverse K) (slv : Solver K) {s : Skel} (hm : 0 < s.m) (wet : ℕ → Bool) {k : ℕ} (hk : k < s.edges.length)
    (hd : ∀ c ∈ s.edges[k], wet c.e = false) (hn : (s.edges.filter fun x => x.any fun c => wet c.e).length ≤ k) (b : DcBlocks K) :
    solveDc I slv s true wet (initial s) b = none := by
  have hno : ¬ inside s (renumber s wet (initial s)) k = true := by
    unfold inside
    rw [decide_eq_true_iff, renumber_off, renumber_eq, sel_edge, if_neg, initial_eq, sel_edge, if_pos ⟨by omega, by omega, rfl⟩]
    · have e : (s.edges.take (k - 0)).countP (fun _ => true) = k := by
        rw [List.countP_true, List.length_take]; omega
      simp only [e, Nat.zero_add]
      rw [← Nat.succ_mul]
      intro h
      have := Nat.le_of_mul_le_mul_right h hm
      omega
    · rintro ⟨_, _, h⟩
      rw [Nat.sub_zero, getD_edge' s hk, wetEdge, List.any_eq_true] at h
      obtain ⟨c, hc, h⟩ := h
      rw [hd c hc] at h
      cases h
  cases h : solveDc I slv s true wet (initial s) b with
  | none => rfl
  | some r =>
    unfold solveDc at h
    simp only [if_true, Option.bind_eq_bind, Option.bind_eq_some_iff] at h
    obtain ⟨l, _, x, _, w, hb, _⟩ := h
    have := (back_isSome s (renumber s wet (initial s)) wet l x s.edges 0 l.rhs).1 (by rw [hb]; rfl) k (by omega) (by omega)
    exact absurd this hno

/-! ### Examples -/

/-- Two elements with one common edge, the second element's own edges last. -/
def pair : Skel where
  elts := [0, 1]
  edges := [[⟨0, 1⟩, ⟨1, 2⟩], [⟨0, 0⟩], [⟨0, 2⟩], [⟨1, 0⟩], [⟨1, 1⟩]]
  ndof _ := 1
  m := 2

theorem pair_whole : Whole pair := ⟨by decide, by decide, by decide⟩

def pairBlocks : DcBlocks ℚ where
  a11 e i j := if i = j then 3 + e else 1
  a12 _ i _ := i + 1
  a21 _ _ j := j
  a22 _ _ _ := 2
  r1 e i := e + i + 1
  a1h _ f i j := f + i + 2 * j
  a2h e f _ j := e + f + j
  ah1 _ f i j := if (f + i + j) % 2 = 0 then 1 else 0
  ah2 _ _ i _ := i + 1
  ahh k i j := if i = j then k + 40 else 1

/-- Inverse of a diagonal matrix. -/
def diagInv : Inverse ℚ := fun n M => if ∀ i < n, ∀ j < n, if i = j then M i j ≠ 0 else M i j = 0 then some fun i j => if i = j then 1 / M i j else 0 else none

theorem diagInv_right : ∀ n M N, diagInv n M = some N → RightInv n M N := by
  intro n M N h i hi j hj
  unfold diagInv at h
  by_cases hc : ∀ i < n, ∀ j < n, if i = j then M i j ≠ 0 else M i j = 0
  · rw [if_pos hc] at h
    cases h
    rw [Finset.sum_eq_single i]
    · have := hc i hi i hi
      rw [if_pos rfl] at this
      by_cases hij : i = j
      · subst hij; simp only [if_true]; field_simp
      · simp [hij]
    · intro k hk hne
      have := hc i hi k (Finset.mem_range.1 hk)
      rw [if_neg (Ne.symm hne)] at this
      rw [this, zero_mul]
    · intro h; exact absurd (Finset.mem_range.2 hi) h
  · rw [if_neg hc] at h; cases h

set_option maxRecDepth 100000 in
example : (solveDc diagInv gauss pair true (fun _ => true) (initial pair) pairBlocks).isSome = true := by decide +kernel

/-- The second element dry and the edges numbered so that the step succeeds: the element's own edges first. -/
def pairDryFirst : Skel := { pair with edges := [[⟨0, 1⟩, ⟨1, 2⟩], [⟨1, 0⟩], [⟨1, 1⟩], [⟨0, 0⟩], [⟨0, 2⟩]] }

theorem pairDryFirst_whole : Whole pairDryFirst := ⟨by decide, by decide, by decide⟩

set_option maxRecDepth 100000 in
example : (solveDc diagInv gauss pairDryFirst true (fun e => e == 0) (initial pairDryFirst) pairBlocks).isSome = true := by decide +kernel

/-- C89 is false: the mesh `pair` with its second element dry. -/
theorem dc_fails_pair (I : Inverse ℚ) (slv : Solver ℚ) (b : DcBlocks ℚ) : solveDc I slv pair true (fun e => e == 0) (initial pair) b = none :=
  dc_fails I slv (by decide) _ (k := 4) (by decide) (by decide) (by decide) b

end Verif.Gn.Props
