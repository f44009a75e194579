import Verif.Props.GnCondense
import Verif.Props.IhdgExists
import Mathlib.LinearAlgebra.Matrix.NonsingularInverse
import Mathlib.LinearAlgebra.Matrix.ToLin

/-!
# When the global problem of the dispersive correction can be solved

Libraries that handle every regular matrix solve it if the homogeneous equations have only the zero solution, in the whole mesh and in every element by itself
(`dc_regular`), whatever the right-hand side.
-/

namespace Verif.Gn.Props
open Verif.Ehdg Verif.Ihdg Verif.Ihdg.Props

variable {K : Type} [Field K] [LinearOrder K]

/-- The homogeneous system has only the zero solution. -/
def Regular (n : ℕ) (M : ℕ → ℕ → K) : Prop := ∀ x : ℕ → K, (∀ i < n, ∑ j ∈ Finset.range n, M i j * x j = 0) → ∀ i < n, x i = 0

/-- Libraries that are right and succeed with every regular matrix. -/
structure Complete (I : Inverse K) (slv : Solver K) : Prop where
  right : ∀ n M N, I n M = some N → RightInv n M N
  solves : Solves slv
  inv : ∀ n M, Regular n M → (I n M).isSome
  slv : ∀ n A r, Regular n A → (slv n A r).isSome

theorem regular_right {n : ℕ} {M : ℕ → ℕ → K} (h : Regular n M) : ∃ N, RightInv n M N := by
  set A : Matrix (Fin n) (Fin n) K := fun i j => M i j with hA
  have hinj : Function.Injective A.mulVec := by
    intro u v huv
    have : A.mulVec (u - v) = 0 := by rw [Matrix.mulVec_sub, huv, sub_self]
    have hz := h (fun j => if hj : j < n then (u - v) ⟨j, hj⟩ else 0) (fun i hi => by
      have := congrFun this ⟨i, hi⟩
      simp only [Matrix.mulVec, dotProduct, hA] at this
      rw [Finset.sum_range]
      simpa using this)
    funext i
    have := hz i i.2
    simp only [i.2, dif_pos] at this
    simpa [sub_eq_zero] using this
  have hu : IsUnit A := Matrix.mulVec_injective_iff_isUnit.1 hinj
  have hm : A * A⁻¹ = 1 := Matrix.mul_nonsing_inv A ((Matrix.isUnit_iff_isUnit_det A).1 hu)
  refine ⟨fun i j => if hij : i < n ∧ j < n then A⁻¹ ⟨i, hij.1⟩ ⟨j, hij.2⟩ else 0, fun i hi j hj => ?_⟩
  have := congrFun (congrFun hm ⟨i, hi⟩) ⟨j, hj⟩
  rw [Matrix.mul_apply, Matrix.one_apply] at this
  rw [Finset.sum_range]
  simp only [Fin.mk.injEq] at this
  rw [← this]
  refine Finset.sum_congr rfl fun k _ => ?_
  simp only
  rw [dif_pos ⟨k.2, hj⟩]

theorem regular_solution {n : ℕ} {M : ℕ → ℕ → K} (h : Regular n M) (r : ℕ → K) : ∃ x : ℕ → K, ∀ i < n, ∑ j ∈ Finset.range n, M i j * x j = r i := by
  obtain ⟨N, hN⟩ := regular_right h
  exact ⟨mulV n N r, fun i hi => apply_inv hN r hi⟩

/-- The exact libraries are complete. -/
theorem exact_complete : Complete exactInv exactSlv where
  right := exactInv_right
  solves := exactSlv_solves
  inv := fun n M h => by unfold exactInv; rw [dif_pos (regular_right h)]; rfl
  slv := fun n A r h => by
    unfold exactSlv
    by_cases h0 : ∀ i < n, r i = 0
    · rw [if_pos h0]; rfl
    · rw [if_neg h0, dif_pos (regular_solution h r)]; rfl

theorem solveCols_some {I : Inverse K} {slv : Solver K} (h : Complete I slv) {n : ℕ} {A : ℕ → ℕ → K} (hA : Regular n A) (B : ℕ → ℕ → K) : ∀ c, (solveCols slv n A B c).isSome := by
  intro c
  induction c with
  | zero => rfl
  | succ c ih =>
    obtain ⟨t, ht⟩ := Option.isSome_iff_exists.1 ih
    obtain ⟨x, hx⟩ := Option.isSome_iff_exists.1 (h.slv n A (fun i => B i c) hA)
    rw [solveCols, ht, Option.bind_eq_bind, Option.bind_some, hx]
    rfl

/-- An element by itself: `a22` is regular, and with zero traces only zero solves the homogeneous equations. -/
structure LocalRegular (s : Skel) (b : DcBlocks K) (e : ℕ) : Prop where
  a22 : Regular (s.ndof e) (b.a22 e)
  both : ∀ w1 w2 : ℕ → K, (∀ i < 2 * s.ndof e, mulV (2 * s.ndof e) (b.a11 e) w1 i + mulV (s.ndof e) (b.a12 e) w2 i = 0) →
    (∀ i < s.ndof e, mulV (2 * s.ndof e) (b.a21 e) w1 i + mulV (s.ndof e) (b.a22 e) w2 i = 0) → ∀ i < 2 * s.ndof e, w1 i = 0

theorem schur_regular {s : Skel} {b : DcBlocks K} {e : ℕ} (h : LocalRegular s b e) {inv : ℕ → ℕ → K} (hi : RightInv (s.ndof e) (b.a22 e) inv) :
    Regular (2 * s.ndof e) (schur s b inv e) := by
  intro x hx
  refine h.both x (fun j => -mulV (s.ndof e) inv (mulV (2 * s.ndof e) (b.a21 e) x) j) (fun i hi => ?_) fun i hi' => ?_
  · have := hx i hi
    rw [show ∑ j ∈ Finset.range (2 * s.ndof e), schur s b inv e i j * x j = mulV (2 * s.ndof e) (schur s b inv e) x i from rfl, mulV_schur] at this
    rw [mulV_neg]
    linear_combination this
  · have : mulV (s.ndof e) (b.a22 e) (mulV (s.ndof e) inv (mulV (2 * s.ndof e) (b.a21 e) x)) i = _ := apply_inv hi _ hi'
    rw [mulV_neg, this]
    ring

theorem elim_some {I : Inverse K} {slv : Solver K} (h : Complete I slv) {s : Skel} {b : DcBlocks K} {e : ℕ} (hl : LocalRegular s b e) : (elim I slv s b e).isSome := by
  unfold elim
  obtain ⟨inv, hinv⟩ := Option.isSome_iff_exists.1 (h.inv (s.ndof e) (b.a22 e) hl.a22)
  have hr := schur_regular hl (h.right _ _ _ hinv)
  have hc := fun f => Option.isSome_iff_exists.1 (solveCols_some h hr (schurHat s b inv e f) s.m)
  obtain ⟨h0, hh0⟩ := hc 0
  obtain ⟨h1, hh1⟩ := hc 1
  obtain ⟨h2, hh2⟩ := hc 2
  obtain ⟨r, hr⟩ := Option.isSome_iff_exists.1 (h.slv (2 * s.ndof e) (schur s b inv e) (b.r1 e) hr)
  simp only [hinv, Option.bind_eq_bind, Option.bind_some, hh0, hh1, hh2, hr]
  rfl

theorem elimAll_some {I : Inverse K} {slv : Solver K} (h : Complete I slv) {s : Skel} {wet : ℕ → Bool} {b : DcBlocks K} :
    ∀ es : List ℕ, (∀ e ∈ es, wet e → LocalRegular s b e) → (elimAll I slv s wet b es).isSome := by
  intro es hl
  induction es with
  | nil => rfl
  | cons a es ih =>
    obtain ⟨t, ht⟩ := Option.isSome_iff_exists.1 (ih fun e he => hl e (List.mem_cons_of_mem _ he))
    rw [elimAll, ht, Option.bind_eq_bind, Option.bind_some]
    by_cases hw : wet a = true
    · obtain ⟨⟨i, hh, r⟩, hx⟩ := Option.isSome_iff_exists.1 (elim_some h (hl a List.mem_cons_self hw))
      rw [if_pos hw, hx]; rfl
    · rw [if_neg hw]; rfl

/-- Every number of the numbering is that of an edge with a wet side. -/
def Onto (s : Skel) (wet : ℕ → Bool) (t : Index) : Prop := ∀ n < t.off, ∃ (k : ℕ) (hk : k < s.edges.length), wetEdge wet s.edges[k] ∧ t.edge k = n

theorem countP_onto {α : Type} (p : α → Bool) (l : List α) {n : ℕ} (hn : n < l.countP p) : ∃ (k : ℕ) (hk : k < l.length), p l[k] ∧ (l.take k).countP p = n := by
  induction l generalizing n with
  | nil => simp at hn
  | cons a l ih =>
    by_cases ha : p a = true
    · rw [List.countP_cons_of_pos ha] at hn
      cases n with
      | zero => exact ⟨0, by simp, by simpa using ha, by simp⟩
      | succ n =>
        obtain ⟨k, hk, h1, h2⟩ := ih (n := n) (by omega)
        exact ⟨k + 1, by simpa using hk, by simpa using h1, by rw [List.take_succ_cons, List.countP_cons_of_pos ha, h2]⟩
    · rw [List.countP_cons_of_neg ha] at hn
      obtain ⟨k, hk, h1, h2⟩ := ih (n := n) (by omega)
      exact ⟨k + 1, by simpa using hk, by simpa using h1, by rw [List.take_succ_cons, List.countP_cons_of_neg ha, h2]⟩

theorem sel_onto (s : Skel) (p : List Face → Bool) (t0 : Index) (h0 : t0.off = 0) (n : ℕ) (hn : n < (s.edges.zipIdx.foldl (sel p) t0).off) :
    ∃ (k : ℕ) (hk : k < s.edges.length), p s.edges[k] ∧ (s.edges.zipIdx.foldl (sel p) t0).edge k = n := by
  rw [sel_off, h0, Nat.zero_add] at hn
  obtain ⟨k, hk, h1, h2⟩ := countP_onto p s.edges hn
  refine ⟨k, hk, h1, ?_⟩
  rw [sel_edge p s.edges 0 t0 k, if_pos ⟨by omega, by omega, by rw [Nat.sub_zero, getD_edge' s hk]; exact h1⟩, h0, Nat.sub_zero, Nat.zero_add, h2]

/-- The numbering of the wet edges uses all its numbers. -/
theorem renumber_onto (s : Skel) (wet : ℕ → Bool) (t : Index) : Onto s wet (renumber s wet t) := by
  intro n hn
  rw [renumber_eq] at hn ⊢
  exact sel_onto s (wetEdge wet) _ rfl n hn

/-- So does the initial one, if every edge has a wet side. -/
theorem initial_onto {s : Skel} {wet : ℕ → Bool} (hw : ∀ x ∈ s.edges, wetEdge wet x) : Onto s wet (initial s) := by
  intro n hn
  rw [initial_eq] at hn ⊢
  obtain ⟨k, hk, -, h⟩ := sel_onto s (fun _ => true) _ rfl n hn
  exact ⟨k, hk, hw _ (List.getElem_mem hk), h⟩

/-- The same matrices with right-hand side zero. -/
def hom (b : DcBlocks K) : DcBlocks K := { b with r1 := fun _ _ => 0 }

theorem rhsDc_hom {s : Skel} {t : Index} {wet : ℕ → Bool} {b : DcBlocks K} {l : Local K} (hr : ∀ e i, l.rhs e i = 0) (v : ℕ → K) (hv : ∀ i, v i = 0) (x : List Face × ℕ) (i : ℕ) :
    rhsDc s t wet b l v x i = 0 := by
  have hz : ∀ (M : ℕ → ℕ → K) (e n i : ℕ), mulV n M (l.rhs e) i = 0 := fun M e n i => Finset.sum_eq_zero fun j _ => by rw [hr, mul_zero]
  unfold rhsDc
  by_cases hw : wetEdge wet x.1 = true
  · rw [if_pos hw]
    have hf : ∀ (cs : List Face) (v : ℕ → K), (∀ i, v i = 0) → ∀ i, (cs.foldl (fun v c => subSub v (t.edge x.2 * s.m) s.m (mulV (2 * s.ndof c.e) (hatSchur s b l c) (l.rhs c.e))) v) i = 0 := by
      intro cs
      induction cs with
      | nil => intro v hv i; exact hv i
      | cons c cs ih =>
        intro v hv i
        rw [List.foldl_cons]
        refine ih _ (fun i => ?_) i
        unfold subSub
        rw [hz, hv]
        split_ifs <;> simp
    rcases x with ⟨cs, k⟩
    rcases cs with _ | ⟨c, _ | ⟨c', cs⟩⟩
    · exact hf _ v hv i
    · simp only [setSub]
      rw [hz, hv]
      split_ifs <;> rfl
    · exact hf _ v hv i
  · rw [if_neg hw]; exact hv i

/-- **C94** With libraries that handle every regular matrix the correction succeeds, whatever its right-hand side, if the homogeneous equations have only the
zero solution. -/
theorem dc_regular {I : Inverse K} {slv : Solver K} (hc : Complete I slv) {s : Skel} (hs : Whole s) (hm : 0 < s.m) {wd : Bool} {wet : ℕ → Bool} {t0 : Index} {b : DcBlocks K}
    (ht : Numbered s wet (if wd then renumber s wet t0 else t0)) (ho : Onto s wet (if wd then renumber s wet t0 else t0))
    (hin : ∀ k < s.edges.length, (if wd then renumber s wet t0 else t0).edge k < (if wd then renumber s wet t0 else t0).off)
    (hl : ∀ e ∈ s.elts, wet e → LocalRegular s b e)
    (hg : ∀ w1 w2 y, W1Eq s wet (hom b) w1 w2 y → W2Eq s wet (hom b) w1 w2 y → HatEq s wet (hom b) w1 w2 y →
      ∀ (k : ℕ) (hk : k < s.edges.length), wetEdge wet s.edges[k] → ∀ i < s.m, y k i = 0) :
    (solveDc I slv s wd wet t0 b).isSome := by
  unfold solveDc
  generalize (if wd = true then renumber s wet t0 else t0) = t at *
  obtain ⟨l, hlo⟩ := Option.isSome_iff_exists.1 (elimAll_some hc s.elts hl)
  have hel := elimAll_spec hc.right hc.solves s.elts l hlo
  have hreg : Regular (t.off * s.m) (assembleDc s t wet b l).1 := by
    intro x hx
    set l0 : Local K := { l with rhs := fun _ _ => 0 } with hl0
    have hrhs : ∀ (es : List (List Face × ℕ)) (v : ℕ → K), (∀ i, v i = 0) → ∀ i, es.foldl (rhsDc s t wet (hom b) l0) v i = 0 := by
      intro es
      induction es with
      | nil => intro v hv i; exact hv i
      | cons a es ih => intro v hv i; exact ih _ (fun i => rhsDc_hom (fun _ _ => rfl) v hv a i) i
    obtain ⟨w2, h1, h2, h3⟩ := dc_back (b := hom b) (l := l0) (x := x) (w1 := fun e i => l0.rhs e i - traces s l0.hat (trace s t x) e i) hs ht
      (fun e he hw => ⟨(hel e he hw).inv, (hel e he hw).hat, fun i _ => Finset.sum_eq_zero fun k _ => mul_zero _⟩)
      (fun i hi => by
        refine Eq.trans (hx i hi) ?_
        exact (hrhs _ _ (fun _ => rfl) i).symm) (fun _ _ _ _ => rfl)
    intro i hi
    obtain ⟨k, hk, hw, hn⟩ := ho (i / s.m) (by rwa [Nat.div_lt_iff_lt_mul hm])
    have := hg _ _ _ h1 h2 h3 k hk hw (i % s.m) (Nat.mod_lt _ hm)
    unfold trace at this
    rwa [hn, Nat.div_add_mod'] at this
  obtain ⟨x, hx⟩ := Option.isSome_iff_exists.1 (hc.slv _ _ (assembleDc s t wet b l).2 hreg)
  obtain ⟨w, hw⟩ := Option.isSome_iff_exists.1 ((back_isSome s t wet l x s.edges 0 l.rhs).2 fun k _ hk => by
    unfold inside
    rw [decide_eq_true_iff, ← Nat.succ_mul]
    exact Nat.mul_le_mul_right _ (hin k (by omega)))
  simp only [hlo, Option.bind_eq_bind, Option.bind_some, hx]
  rw [hw]; rfl

end Verif.Gn.Props
