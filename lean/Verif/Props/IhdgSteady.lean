import Verif.Props.IhdgWater

/-!
# Fixed points of the implicit iteration
-/

namespace Verif.Ihdg.Props
open Verif.Swe Verif.Swe.Props Verif.Geometry Verif.Geometry.Props Verif.Element Verif.Edge Verif.Edge.Props Verif.Ehdg Verif.Ehdg.Props Matrix

variable {S : Scheme ℝ}

/-- The right-hand side of the semidiscrete equation of an element: flux integrals, source and the fluxes of the traces. -/
noncomputable def resid (S : Scheme ℝ) (it : Iter ℝ) (t : ℝ) (e i : ℕ) (a : Fin 3) : ℝ :=
  (S.dat e).elt.intDPhi S.v.N 0 (fun z => Swe.comp (fluxX S.v.src.g (inner S (S.dat e) (it.q e) z).1 (inner S (S.dat e) (it.q e) z).2) a) i +
  (S.dat e).elt.intDPhi S.v.N 1 (fun z => Swe.comp (fluxY S.v.src.g (inner S (S.dat e) (it.q e) z).1 (inner S (S.dat e) (it.q e) z).2) a) i +
  (S.dat e).elt.intPhi S.v.N (fun z => Swe.comp (srcAt S (S.dat e) t (it.q e) z) a) i -
  sideSum (edgesOf S.m).zipIdx e fun ed k s =>
    Elt.intFace S.v.N (rule S ed) s.f (surf S ed) (fun gp => Swe.comp (fhat S it.q ed (it.hat k) s gp) a) i

/-- The iterate `it` satisfies the equations of a step from `it0`: the weak form of (q - q0) / dt = (1 - θ) R(q, t + dt) + θ R(q0, t), where the last
term is missing with order one, and the conditions of the edges at all Gauss points. -/
structure StepEq (S : Scheme ℝ) (it0 it : Iter ℝ) : Prop where
  elt : ∀ e ∈ S.m.elts, ∀ i < ndof (S.dat e).elt.p, ∀ a,
    (S.dat e).elt.intPhi S.v.N (fun z => (Swe.comp (qAt S.v.N (S.dat e).elt (it.q e) z) a - Swe.comp (qAt S.v.N (S.dat e).elt (it0.q e) z) a) / S.dt) i =
      (1 - S.theta) * resid S it S.tn e i a + S.theta * (if S.order2 then resid S it0 S.t e i a else 0)
  edge : ∀ (k : ℕ) (hk : k < (edgesOf S.m).length), ∀ gp < (rule S (edgesOf S.m)[k]).length, gRhs S it.q (edgesOf S.m)[k] (it.hat k) gp = ⟨0, 0, 0⟩

/-- Two iterates have the same coefficients. -/
structure Same (S : Scheme ℝ) (it it' : Iter ℝ) : Prop where
  q : ∀ e ∈ S.m.elts, ∀ d < ndof (S.dat e).elt.p, ∀ a, it'.q e a d = it.q e a d
  hat : ∀ (k : ℕ) (hk : k < (edgesOf S.m).length), ∀ d < (tab S (edgesOf S.m)[k]).ndof, ∀ a, it'.hat k a d = it.hat k a d

/-- The solver gives zero for zero right-hand sides, as it does if it succeeds only for regular matrices. -/
def ZeroOnZero (slv : Solver ℝ) : Prop := ∀ n A r x, slv n A r = some x → (∀ i < n, r i = 0) → ∀ i < n, x i = 0

theorem rl_eq (it0 it : Iter ℝ) {e : ℕ} (he : e ∈ S.m.elts) (i : ℕ) (a : Fin 3) :
    (blocks S it0.q (rhsPrev S it0) it).rl e (3 * i + a.val) = (1 - S.theta) * resid S it S.tn e i a + S.theta * (if S.order2 then resid S it0 S.t e i a else 0) -
      (S.dat e).elt.intPhi S.v.N (fun z => (Swe.comp (qAt S.v.N (S.dat e).elt (it.q e) z) a - Swe.comp (qAt S.v.N (S.dat e).elt (it0.q e) z) a) / S.dt) i := by
  simp only [blocks, localR_at S _ _ _ he, volR, fluxR, srcR, faceR, row_div, row_mod, varOf_val, resid]
  have h1 : rhsPrev S it0 e (3 * i + a.val) = if S.order2 then resid S it0 S.t e i a else 0 := by
    by_cases ho : S.order2 = true
    · rw [rhsPrev_at S ho _ he, if_pos ho]
      simp only [fluxR, srcR, faceR, row_div, row_mod, varOf_val, resid, sideSum_neg]
      ring
    · rw [if_neg ho]; simp [rhsPrev, ho]
  have h2 : ∀ (c : ℝ) (g : Edg ℝ → ℕ → Sd → ℝ) (l : List (Edg ℝ × ℕ)), sideSum l e (fun ed k s => c * g ed k s) = c * sideSum l e g := by
    intro c g l
    unfold sideSum
    rw [map_mul']
    refine congrArg _ (List.map_congr_left fun x _ => ?_)
    rw [map_mul']
  rw [h1, h2]
  simp only [resid]
  have h3 : ∀ z, Swe.comp (qAt S.v.N (S.dat e).elt (it.q e) z - qAt S.v.N (S.dat e).elt (it0.q e) z) a =
      Swe.comp (qAt S.v.N (S.dat e).elt (it.q e) z) a - Swe.comp (qAt S.v.N (S.dat e).elt (it0.q e) z) a := by
    intro z; fin_cases a <;> rfl
  simp only [h3]
  ring

/-! ### Zero right-hand sides -/

theorem zero_condense {I : Inverse ℝ} {slv : Solver ℝ} (hz : ZeroOnZero slv) {s : Skeleton} (hw : WellFormed s) {b : Blocks ℝ} {dq : ℕ → ℕ → ℝ} {x : ℕ → ℝ}
    (hl : ∀ e ∈ s.elts, ∀ i < s.size e, b.rl e i = 0) (hg : ∀ k < s.edges.length, ∀ i < s.esize k, b.rg k i = 0)
    (h : condense I slv s b = some (dq, x)) : (∀ i < (number s).off, x i = 0) ∧ (∀ e ∈ s.elts, ∀ i, dq e i = 0) ∧
      ∀ k < s.edges.length, ∀ j < s.esize k, edgePart (number s) x k j = 0 := by
  unfold condense at h
  simp only [Option.bind_eq_bind, Option.bind_eq_some_iff] at h
  obtain ⟨inv, hinv, y, hy, h⟩ := h
  cases h
  have hx : ∀ i < (number s).off, x i = 0 := by
    refine hz _ _ _ _ hy fun i hi => ?_
    have hmem : i ∈ (List.range s.edges.length).flatMap (number s).edge := by rw [numbering]; exact List.mem_range.2 hi
    obtain ⟨k, hk, hi⟩ := List.mem_flatMap.1 hmem
    have hk := List.mem_range.1 hk
    rw [edge_eq s hk] at hi
    obtain ⟨j, hj, rfl⟩ := List.mem_map.1 hi
    have hj := List.mem_range.1 hj
    rw [add_comm, rhs_eq hw b inv hk hj, ownRhs, hg k hk j hj]
    rw [List.sum_eq_zero, sub_zero]
    intro r hr
    obtain ⟨c, hc, rfl⟩ := List.mem_map.1 hr
    have := ((edge_faces hw hk).2 c hc).1
    unfold mulV
    exact Finset.sum_eq_zero fun t ht => by rw [hl _ this t (Finset.mem_range.1 ht), mul_zero]
  have hpart : ∀ k < s.edges.length, ∀ j < s.esize k, x (offs s k + j) = 0 := fun k hk j hj => hx _ (by rw [off_eq]; exact idx_lt s hk hj)
  refine ⟨hx, fun e he i => ?_, fun k hk j hj => ?_⟩
  · unfold mulV
    refine Finset.sum_eq_zero fun t ht => ?_
    rw [removeTraces_eq hw b x e t, hl e he t (Finset.mem_range.1 ht), traceSum, list_sum_range s.edges 0 fun c k => ((c.filter fun c => c.e = e).map fun c =>
      ∑ j ∈ Finset.range (s.esize k), b.dh e c.f t j * x (offs s k + j)).sum, Finset.sum_eq_zero, sub_zero, mul_zero]
    intro k hk
    refine List.sum_eq_zero fun r hr => ?_
    obtain ⟨c, hc, rfl⟩ := List.mem_map.1 hr
    refine Finset.sum_eq_zero fun j hj => ?_
    rw [hpart _ (by have := Finset.mem_range.1 hk; omega) j (Finset.mem_range.1 hj), mul_zero]
  · unfold edgePart
    rw [edge_eq s hk, idxs_head s k (hw.pos k hk), hpart k hk j hj]

theorem reshape_row (x : ℕ → ℝ) (a : Fin 3) (d : ℕ) : reshapeCol 3 x a.val d = x (3 * d + a.val) := by
  unfold reshapeCol; rw [mul_comm]

theorem same_advance {it : Iter ℝ} {d : (ℕ → ℕ → ℝ) × (ℕ → ℝ)} :
    Same S it (advance S it d) ↔ (∀ e ∈ S.m.elts, ∀ i < (skel S).size e, d.1 e i = 0) ∧
      ∀ (k : ℕ) (_ : k < (edgesOf S.m).length), ∀ i < (skel S).esize k, edgePart (number (skel S)) d.2 k i = 0 := by
  have key : ∀ n (x : ℕ → ℝ), (∀ d < n, ∀ a : Fin 3, x (3 * d + a.val) = 0) ↔ ∀ i < 3 * n, x i = 0 := by
    intro n x
    constructor
    · intro h i hi
      have := h (i / 3) (by omega) ⟨i % 3, by omega⟩
      simpa [Nat.div_add_mod] using this
    · intro h d hd a; exact h _ (by have := a.isLt; omega)
  constructor
  · intro h
    refine ⟨fun e he => (key _ _).1 fun d' hd' a => ?_, fun k hk => ?_⟩
    · have := h.q e he d' hd' a
      simp only [advance, skel, if_pos (⟨he, by omega⟩ : e ∈ S.m.elts ∧ 3 * d' < 3 * ndof (S.dat e).elt.p), reshape_row] at this
      linarith
    · rw [esize_eq hk]
      refine (key _ _).1 fun d' hd' a => ?_
      have := h.hat k hk d' hd' a
      simp only [advance, if_pos (show 3 * d' < (skel S).esize k by rw [esize_eq hk]; omega), reshape_row] at this
      linarith
  · intro h
    refine ⟨fun e he d' hd' a => ?_, fun k hk d' hd' a => ?_⟩
    · simp only [advance, skel, if_pos (⟨he, by omega⟩ : e ∈ S.m.elts ∧ 3 * d' < 3 * ndof (S.dat e).elt.p), reshape_row]
      rw [(key _ _).2 (h.1 e he) d' hd' a, add_zero]
    · have := h.2 k hk
      rw [esize_eq hk] at this
      simp only [advance, if_pos (show 3 * d' < (skel S).esize k by rw [esize_eq hk]; omega), reshape_row]
      rw [(key _ _).2 this d' hd' a, add_zero]

theorem row_split {n : ℕ} {P : ℕ → Prop} (h : ∀ d < n, ∀ a : Fin 3, P (3 * d + a.val)) : ∀ i < 3 * n, P i := by
  intro i hi
  have := h (i / 3) (by omega) ⟨i % 3, by omega⟩
  simpa [Nat.div_add_mod] using this

theorem comp_zero {q : Q ℝ} (h : ∀ a, Swe.comp q a = 0) : q = ⟨0, 0, 0⟩ := by
  have h0 := h 0
  have h1 := h 1
  have h2 := h 2
  simp only [Swe.comp] at h0 h1 h2
  ext <;> simpa using by assumption

/-- C86, one direction: an iteration that changes nothing has found a solution of the equations of the step. -/
theorem fixed_solves (hI : ∀ n M N, S.I n M = some N → RightInv n M N) (hS : Solves S.slv) (hw : WellFormed (skel S))
    (hf : ∀ ed ∈ edgesOf S.m, Fits (tab S ed)) {it0 it it' : Iter ℝ} {x : ℕ → ℝ} (h : newton S it0.q (rhsPrev S it0) it = some (it', x))
    (hsame : Same S it it') : StepEq S it0 it := by
  unfold newton at h
  split_ifs at h
  obtain ⟨⟨dq, y⟩, hc, hd⟩ := Option.map_eq_some_iff.1 h
  cases hd
  obtain ⟨hE, hG⟩ := condensed hI hS hw hc
  obtain ⟨h1, h2⟩ := same_advance.1 hsame
  simp only at h1 h2
  constructor
  · intro e he i hi a
    have := hE e he (3 * i + a.val) (by have := a.isLt; change _ < 3 * ndof _; omega)
    rw [rl_eq _ _ he, Finset.sum_eq_zero fun j hj => by rw [h1 e he j (Finset.mem_range.1 hj), mul_zero], List.sum_eq_zero] at this
    · linarith
    · intro r hr
      obtain ⟨c, hc, rfl⟩ := List.mem_map.1 hr
      refine List.sum_eq_zero fun r hr => ?_
      obtain ⟨c', hc', rfl⟩ := List.mem_map.1 hr
      have hlt : c.2 < (edgesOf S.m).length := by
        have := List.snd_lt_of_mem_zipIdx hc
        simpa [skel] using this
      exact Finset.sum_eq_zero fun j hj => by rw [h2 _ hlt j (Finset.mem_range.1 hj), mul_zero]
  · intro k hk gp hgp
    refine comp_zero fun a => ?_
    have hE := hf _ (List.getElem_mem hk)
    have hp := hE.points (fun gp => Swe.comp (gRhs S it.q (edgesOf S.m)[k] (it.hat k) gp) a * ((tab S (edgesOf S.m)[k]).w gp * (tab S (edgesOf S.m)[k]).J)) ?_ gp hgp
    · exact (mul_eq_zero.1 hp).resolve_right (hE.pos gp hgp).ne'
    intro i hi
    have hk' : k < (skel S).edges.length := by simpa [skel] using hk
    have := hG k hk' (3 * i + a.val) (by rw [esize_eq hk]; have := a.isLt; omega)
    rw [rg_eq _ _ _ hk, Finset.sum_eq_zero (s := Finset.range ((skel S).esize k)) fun j hj => by rw [h2 _ hk j (Finset.mem_range.1 hj), mul_zero], List.sum_eq_zero] at this
    · rw [zero_add] at this
      have := neg_eq_zero.1 this.symm
      rw [← this]
      refine Finset.sum_congr rfl fun gp _ => ?_
      simp only [intLam]
      ring
    · intro r hr
      obtain ⟨c, hc, rfl⟩ := List.mem_map.1 hr
      have := ((edge_faces hw hk').2 c hc).1
      exact Finset.sum_eq_zero fun j hj => by rw [h1 _ this j (Finset.mem_range.1 hj), mul_zero]

/-- C86, the other direction: a solution of the equations of the step is left alone, and the iteration stops. -/
theorem solution_fixed (hz : ZeroOnZero S.slv) (hw : WellFormed (skel S)) (hq : S.v.sq 0 = 0) {it0 it it' : Iter ℝ} {x : ℕ → ℝ} (he : StepEq S it0 it)
    (h : newton S it0.q (rhsPrev S it0) it = some (it', x)) : Same S it it' ∧ converged S x = true := by
  unfold newton at h
  split_ifs at h
  obtain ⟨⟨dq, y⟩, hc, hd⟩ := Option.map_eq_some_iff.1 h
  cases hd
  obtain ⟨h1, h2, h3⟩ := zero_condense hz hw (fun e hm => row_split fun d hd a => by rw [rl_eq _ _ hm, he.elt e hm d hd a, sub_self])
    (fun k hk => by
      have hk' : k < (edgesOf S.m).length := by simpa [skel] using hk
      rw [esize_eq hk']
      refine row_split fun d hd a => ?_
      rw [rg_eq _ _ _ hk', Finset.sum_eq_zero, neg_zero]
      intro gp hgp
      rw [he.edge k hk' gp (Finset.mem_range.1 hgp)]
      fin_cases a <;> simp [Swe.comp]) hc
  refine ⟨same_advance.2 ⟨fun e he i _ => h2 e he i, fun k hk i hi => h3 k (by simpa [skel] using hk) i hi⟩, ?_⟩
  unfold converged
  simp only [decide_eq_true_eq]
  rw [Finset.sum_eq_zero fun r hr => by rw [h1 r (Finset.mem_range.1 hr), mul_zero], hq, zero_div]
  norm_num

/-- A step that starts from a solution of its own equations changes nothing. -/
theorem stage_fixed (hz : ZeroOnZero S.slv) (hw : WellFormed (skel S)) (hq : S.v.sq 0 = 0) {it it' : Iter ℝ} (he : StepEq S it it)
    (h : stage S it = some it') : Same S it it' := by
  unfold stage at h
  rw [show (100 : ℕ) = 99 + 1 from rfl, iterate] at h
  obtain ⟨⟨i1, x⟩, h1, h2⟩ := Option.bind_eq_some_iff.1 h
  obtain ⟨hs, hc⟩ := solution_fixed hz hw hq he h1
  simp only [hc, if_true] at h2
  cases h2
  exact hs

end Verif.Ihdg.Props
