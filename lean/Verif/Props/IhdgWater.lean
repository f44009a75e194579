import Verif.Lemmas.IhdgLinear
import Verif.Props.IhdgOpen

/-!
# Water in the implicit scheme
-/

namespace Verif.Ihdg.Props
open Verif.Swe Verif.Swe.Props Verif.Geometry Verif.Geometry.Props Verif.Element Verif.Edge Verif.Edge.Props Verif.Ehdg Verif.Ehdg.Props Matrix

variable {S : Scheme ℝ}

/-! ### The new iterate -/

theorem qAt_add (N : Numerics ℝ) (e : Elt ℝ) (u w : Fin 3 → ℕ → ℝ) (z : P2 ℝ) (a : Fin 3) :
    Swe.comp (qAt N e (fun v j => u v j + w v j) z) a = Swe.comp (qAt N e u z) a + Swe.comp (qAt N e w z) a := by
  fin_cases a <;> (simp only [Swe.comp, qAt, Elt.value, sum_range_list, add_mul, Finset.sum_add_distrib]; rfl)

theorem advance_q (it : Iter ℝ) (d : (ℕ → ℕ → ℝ) × (ℕ → ℝ)) {e : ℕ} (he : e ∈ S.m.elts) (z : P2 ℝ) (a : Fin 3) :
    Swe.comp (qAt S.v.N (S.dat e).elt ((advance S it d).q e) z) a =
      Swe.comp (qAt S.v.N (S.dat e).elt (it.q e) z) a + Swe.comp (qAt S.v.N (S.dat e).elt (incr (d.1 e)) z) a := by
  rw [← qAt_add]
  have : ∀ v, ∀ z : P2 ℝ, (S.dat e).elt.value S.v.N ((advance S it d).q e v) z = (S.dat e).elt.value S.v.N (fun j => it.q e v j + incr (d.1 e) v j) z := by
    intro v z
    unfold Elt.value
    refine congrArg _ (List.map_congr_left fun j hj => ?_)
    have hj : 3 * j < (skel S).size e := by have := List.mem_range.1 hj; simp only [skel]; omega
    simp only [advance, if_pos (⟨he, hj⟩ : e ∈ S.m.elts ∧ 3 * j < (skel S).size e), incr, reshapeCol]
    rw [Nat.mul_comm j 3]
  unfold qAt
  simp only [this]

theorem hat_add (ed : Edg ℝ) (c d : Coef ℝ) (gp : ℕ) (a : Fin 3) :
    Swe.comp (hat S ed (fun v j => c v j + d v j) gp) a = Swe.comp (hat S ed c gp) a + Swe.comp (hat S ed d gp) a := by
  fin_cases a <;> simp [Swe.comp, hat, ofComp, ugp, add_mul, Finset.sum_add_distrib]

theorem advance_hat (it : Iter ℝ) (d : (ℕ → ℕ → ℝ) × (ℕ → ℝ)) {k : ℕ} (hk : k < (edgesOf S.m).length) {ed : Edg ℝ} (hed : (edgesOf S.m)[k] = ed) (gp : ℕ)
    (a : Fin 3) : Swe.comp (hat S ed ((advance S it d).hat k) gp) a =
      Swe.comp (hat S ed (it.hat k) gp) a + Swe.comp (hat S ed (incr (edgePart (number (skel S)) d.2 k)) gp) a := by
  rw [← hat_add]
  have : ∀ v, ugp (tab S ed) ((advance S it d).hat k v) gp = ugp (tab S ed) (fun j => it.hat k v j + incr (edgePart (number (skel S)) d.2 k) v j) gp := by
    intro v
    unfold ugp
    refine Finset.sum_congr rfl fun j hj => ?_
    have hj : 3 * j < (skel S).esize k := by rw [esize_eq hk, hed]; have := Finset.mem_range.1 hj; omega
    simp only [advance, if_pos hj, incr, reshapeCol]
    rw [Nat.mul_comm j 3]
  unfold hat
  simp only [this]

/-! ### Land -/

/-- At a land edge the trace has the water level of the element and no flow through the edge. -/
def LandFit (S : Scheme ℝ) (it : Iter ℝ) : Prop :=
  ∀ (k : ℕ) (hk : k < (edgesOf S.m).length) (b : Bnd ℝ), (edgesOf S.m)[k] = .bnd b → b.kind = .land → ∀ gp < (rule S (.bnd b)).length,
    (hat S (.bnd b) (it.hat k) gp).ze = (sideQ S it.q (.bnd b) ⟨b.e, b.f, false⟩ gp).ze ∧
      (hat S (.bnd b) (it.hat k) gp).qx * (nrm S (.bnd b)).x + (hat S (.bnd b) (it.hat k) gp).qy * (nrm S (.bnd b)).y = 0

/-- A closed basin for the implicit scheme: interfaces and land, tables of the edges which fit, libraries which do what they promise. -/
structure Closed (S : Scheme ℝ) : Prop where
  basin : ClosedBasin S.v S.dat S.m
  mass : MassNumerics S.v.N
  wf : WellFormed (skel S)
  fits : ∀ ed ∈ edgesOf S.m, Fits (tab S ed)
  dt : S.dt ≠ 0
  deg : ∀ e ∈ S.m.elts, 0 < ndof (S.dat e).elt.p
  inv : ∀ n M N, S.I n M = some N → RightInv n M N
  slv : Solves S.slv

theorem Closed.sym (h : Closed S) : SymLine S := fun _ _ gp hgp => h.mass.sym _ gp hgp

theorem lin_zero (M : M3 ℝ) (q : Q ℝ) : lin M q 0 = M 0 0 * q.ze + M 0 1 * q.qx + M 0 2 * q.qy := by
  simp [lin, mulVec, dotProduct, Fin.sum_univ_three, Swe.comp]

/-- New trace at land. -/
theorem land_new (hb : Closed S) {it : Iter ℝ} {dq dqhat : ℕ → ℕ → ℝ} {k : ℕ} {b : Bnd ℝ} (hbm : b ∈ S.m.bnds) {gp : ℕ}
    (hg : ∀ a, gLin S it dq dqhat (.bnd b) k gp a = 0) :
    let q := sideQ S it.q (.bnd b) ⟨b.e, b.f, false⟩ gp
    let d := qAt S.v.N (S.dat b.e).elt (incr (dq b.e)) (facePt (rule S (.bnd b)) b.f gp)
    let c := hat S (.bnd b) (it.hat k) gp
    let h := hat S (.bnd b) (incr (dqhat k)) gp
    c.ze + h.ze = q.ze + d.ze ∧ (c.qx + h.qx) * (nrm S (.bnd b)).x + (c.qy + h.qy) * (nrm S (.bnd b)).y = 0 := by
  intro q d c h
  obtain ⟨h1, h2, h3⟩ := hb.basin.bnds b hbm
  have hu : Unit (nrm S (.bnd b)) := (normal_spec hb.basin.sqrt (S.dat b.e).elt.tri (hb.basin.ccw _ h1) b.f h2).1
  have hu' : (nrm S (.bnd b)).x ^ 2 + (nrm S (.bnd b)).y ^ 2 = 1 := hu
  have e0 := hg 0
  have e1 := hg 1
  have e2 := hg 2
  simp only [gLin, Edg.sides, gRhs, gDelta, gHat, h3, opp, List.map_cons, List.map_nil, List.sum_cons, List.sum_nil, lin, landDelta, landRhs, mulVec, dotProduct,
    Fin.sum_univ_three, Swe.comp, Matrix.add_apply, Matrix.neg_apply, Matrix.one_fin_three, Matrix.of_apply, Matrix.cons_val', Matrix.cons_val_zero, Matrix.cons_val_one,
    Matrix.cons_val, Matrix.cons_val_fin_one, sub_ze, sub_qx, sub_qy] at e0 e1 e2
  norm_num at e0 e1 e2
  change c.ze - q.ze + -d.ze + h.ze = 0 at e0
  refine ⟨by linarith, ?_⟩
  set n := nrm S (.bnd b)
  change c.qx - q.qx + (q.qx * n.x + q.qy * n.y) * n.x + ((-1 + n.x * n.x) * d.qx + n.x * n.y * d.qy) + h.qx = 0 at e1
  change c.qy - q.qy + (q.qx * n.x + q.qy * n.y) * n.y + (n.x * n.y * d.qx + (-1 + n.y * n.y) * d.qy) + h.qy = 0 at e2
  linear_combination n.x * e1 + n.y * e2 - (q.qx * n.x + q.qy * n.y + (n.x * d.qx + n.y * d.qy)) * hu'

/-- No water through land, to first order. -/
theorem land_flux (hb : Closed S) {it : Iter ℝ} (hl : LandFit S it) {dq dqhat : ℕ → ℕ → ℝ} {k : ℕ} (hk : k < (edgesOf S.m).length) {b : Bnd ℝ}
    (he : (edgesOf S.m)[k] = .bnd b) (hbm : b ∈ S.m.bnds) {gp : ℕ} (hgp : gp < (rule S (.bnd b)).length) (hg : ∀ a, gLin S it dq dqhat (.bnd b) k gp a = 0) :
    fhatLin S it dq dqhat (.bnd b) k ⟨b.e, b.f, false⟩ gp 0 = 0 := by
  obtain ⟨h1, h2⟩ := land_new hb hbm hg
  obtain ⟨o1, o2⟩ := hl k hk b he (hb.basin.bnds b hbm).2.2 gp hgp
  simp only [fhatLin, lin_zero, fhat, opp, dfDq, dfDhat, dtauDelq, tauAt, tauLF, dtauZe, dtauQx, dtauQy, mulQ_smul, Swe.comp, fluxN, dFnDq, Matrix.add_apply,
    Matrix.sub_apply, Matrix.smul_apply, Matrix.one_apply, Matrix.of_apply, Matrix.cons_val', Matrix.cons_val_zero, Matrix.cons_val_one, Matrix.cons_val,
    Matrix.cons_val_fin_one, sub_ze, add_ze, smul_ze, if_false, Bool.false_eq_true, smul_eq_mul]
  have h02 : ¬(0 : Fin 3) = 2 := by decide
  norm_num [h02]
  rw [o1, sub_self]
  have e1 : (hat S (.bnd b) (incr (dqhat k)) gp).ze = (qAt S.v.N (S.dat b.e).elt (incr (dq b.e)) (facePt (rule S (.bnd b)) b.f gp)).ze := by
    rw [o1] at h1; linarith
  rw [e1]
  linear_combination h2

theorem landFit_new (hb : Closed S) {it : Iter ℝ} {d : (ℕ → ℕ → ℝ) × (ℕ → ℝ)}
    (hg : ∀ (k : ℕ) (hk : k < (edgesOf S.m).length), ∀ gp < (rule S (edgesOf S.m)[k]).length, ∀ a,
      gLin S it d.1 (edgePart (number (skel S)) d.2) (edgesOf S.m)[k] k gp a = 0) : LandFit S (advance S it d) := by
  intro k hk b he hkd gp hgp
  have hbm : b ∈ S.m.bnds := by
    have := List.getElem_mem hk
    rw [he, edgesOf] at this
    simpa using this
  have := hg k hk
  rw [he] at this
  obtain ⟨h1, h2⟩ := land_new hb hbm (this gp hgp)
  have hm := (hb.basin.bnds b hbm).1
  have a0 := advance_hat (S := S) it d hk he gp 0
  have a1 := advance_hat (S := S) it d hk he gp 1
  have a2 := advance_hat (S := S) it d hk he gp 2
  have q0 := advance_q (S := S) it d hm (facePt (rule S (.bnd b)) b.f gp) 0
  simp only [Swe.comp, Matrix.cons_val_zero, Matrix.cons_val_one, Matrix.cons_val] at a0 a1 a2 q0
  refine ⟨?_, ?_⟩
  · rw [a0]
    exact h1.trans q0.symm
  · rw [a1, a2]
    exact h2

/-! ### Interfaces -/

theorem int_flux {it : Iter ℝ} {dq dqhat : ℕ → ℕ → ℝ} {k : ℕ} {i : Iface ℝ} (hi : i.kind = .internal) {gp : ℕ} (hgp : gp < (rule S (.int i)).length) (a : Fin 3) :
    gLin S it dq dqhat (.int i) k gp a = ((Edg.int i).sides.map fun s => fhatLin S it dq dqhat (.int i) k s (opp S (.int i) s gp) a).sum := by
  have hr : (rule S (.int i)).length - ((rule S (.int i)).length - gp - 1) - 1 = gp := by omega
  simp only [gLin, fhatLin, Edg.sides, gRhs, gDelta, gHat, hi, opp, List.map_cons, List.map_nil, List.sum_cons, List.sum_nil, if_true, if_false, Bool.false_eq_true,
    comp_add, Pi.add_apply, hr, lin, Matrix.add_mulVec]
  ring

/-! ### Sums over elements -/

theorem sum_sides (l : List (Edg ℝ × ℕ)) {elts : List ℕ} (hn : elts.Nodup) (g : Edg ℝ → ℕ → Sd → ℝ) (h : ∀ x ∈ l, ∀ s ∈ x.1.sides, s.e ∈ elts) :
    (elts.map fun e => sideSum l e g).sum = (l.map fun x => (x.1.sides.map fun s => g x.1 x.2 s).sum).sum := by
  have one : ∀ (s : Sd), s.e ∈ elts → ∀ c : ℝ, (elts.map fun e => if s.e = e then c else 0).sum = c := by
    intro s hs c
    have := List.sum_map_ite_eq elts (fun _ => c) (fun _ => 0) s.e
    rw [List.count_eq_one_of_mem hn hs] at this
    simp only [one_smul, sub_zero, List.map_const', List.sum_replicate, smul_zero, add_zero] at this
    refine Eq.trans ?_ this
    exact congrArg _ (List.map_congr_left fun e _ => by simp only [eq_comm])
  have sides : ∀ (l : List Sd) (f : Sd → ℝ), (∀ s ∈ l, s.e ∈ elts) → (elts.map fun e => ((l.filter fun s => s.e = e).map f).sum).sum = (l.map f).sum := by
    intro l f hl
    induction l with
    | nil => simp
    | cons s l ih =>
      rw [List.map_cons, List.sum_cons, ← ih fun s hs => hl s (by simp [hs]), ← one s (hl s (by simp)) (f s), map_add']
      refine congrArg _ (List.map_congr_left fun e _ => ?_)
      by_cases hse : s.e = e <;> simp [hse]
  unfold sideSum
  induction l with
  | nil => simp
  | cons x l ih =>
    simp only [List.map_cons, List.sum_cons]
    rw [← map_add', ih fun y hy => h y (by simp [hy]), sides _ _ (h x (by simp))]

/-! ### Water -/

/-- The water above the datum by the program's quadrature: weights times elevation times Jacobian. -/
noncomputable def waterQ (S : Scheme ℝ) (q : State ℝ) : ℝ :=
  (S.m.elts.map fun e => (((S.dat e).elt.gps S.v.N).map fun wz => wz.1 * (S.dat e).elt.value S.v.N (q e 0) wz.2 * |jdet (S.dat e).elt.tri|).sum).sum

theorem intPhi_first (hN : MassNumerics S.v.N) (e : Elt ℝ) (f : P2 ℝ → ℝ) : e.intPhi S.v.N f 0 = ((e.gps S.v.N).map fun wz => wz.1 * f wz.2 * |jdet e.tri|).sum := by
  unfold Elt.intPhi
  exact congrArg _ (List.map_congr_left fun wz _ => by rw [hN.phi0]; ring)

theorem intDPhi_first (hN : MassNumerics S.v.N) (e : Elt ℝ) (dir : ℕ) (f : P2 ℝ → ℝ) : e.intDPhi S.v.N dir f 0 = 0 := by
  simp only [Elt.intDPhi, hN.dphi10, hN.dphi20, zero_mul, add_zero, mul_zero, List.map_const', List.sum_replicate, smul_zero]

theorem source_ze (hb : ClosedBasin S.v S.dat S.m) (d : EltData ℝ) (t : ℝ) (u : Fin 3 → ℕ → ℝ) (z : P2 ℝ) : (srcAt S d t u z).ze = 0 := by
  simp only [srcAt, getSource]
  by_cases hf : S.v.src.functionSource
  · have := hb.source hf t (localToGlobal d.elt.tri z)
    by_cases hbf : S.v.src.bottomFriction <;> simp [hf, hbf, this]
  · by_cases hbf : S.v.src.bottomFriction <;> simp [hf, hbf]

theorem dsource_row (d : EltData ℝ) (u : Fin 3 → ℕ → ℝ) (z : P2 ℝ) (q : Q ℝ) : lin (dsrcAt S d u z) q 0 = 0 := by
  unfold dsrcAt
  simp only
  cases dsource S.v.sq S.v.cb S.v.src d.src (inner S d u z).1 (inner S d u z).2 <;> simp [lin_zero]

theorem sides_mem (hb : ClosedBasin S.v S.dat S.m) {ed : Edg ℝ} (h : ed ∈ edgesOf S.m) : ∀ s ∈ ed.sides, s.e ∈ S.m.elts := by
  intro s hs
  simp only [edgesOf, List.mem_append, List.mem_map] at h
  rcases h with ⟨i, hi, rfl⟩ | ⟨b, hbm, rfl⟩
  · obtain ⟨h1, h2, -⟩ := hb.ints i hi
    simp only [Edg.sides, List.mem_cons, List.not_mem_nil, or_false] at hs
    rcases hs with rfl | rfl <;> assumption
  · simp only [Edg.sides, List.mem_cons, List.not_mem_nil, or_false] at hs
    rw [hs]
    exact (hb.bnds b hbm).1

theorem edge_get {x : Edg ℝ × ℕ} (hx : x ∈ (edgesOf S.m).zipIdx) : ∃ hk : x.2 < (edgesOf S.m).length, (edgesOf S.m)[x.2] = x.1 := by
  obtain ⟨ed, k⟩ := x
  have hk : k < (edgesOf S.m).length := by have := List.snd_lt_of_mem_zipIdx hx; simpa using this
  refine ⟨hk, ?_⟩
  have := List.mem_zipIdx hx
  simp only [Nat.sub_zero] at this
  exact this.2.2.symm

/-- The sum of an integral over the sides of an edge, in the order of the edge's points. -/
theorem sides_integral (hb : Closed S) {ed : Edg ℝ} (f : Sd → ℕ → ℝ) :
    (ed.sides.map fun s => ((List.range (rule S ed).length).map fun gp => f s gp * (S.v.N.basis.phi 0 (facePt (rule S ed) s.f gp) *
      (weight (rule S ed) gp * surf S ed))).sum).sum =
      ∑ gp ∈ Finset.range (rule S ed).length, (ed.sides.map fun s => f s (opp S ed s gp)).sum * (weight (rule S ed) gp * surf S ed) := by
  have one : ∀ s : Sd, ((List.range (rule S ed).length).map fun gp => f s gp * (S.v.N.basis.phi 0 (facePt (rule S ed) s.f gp) * (weight (rule S ed) gp * surf S ed))).sum =
      ∑ gp ∈ Finset.range (rule S ed).length, f s (opp S ed s gp) * (weight (rule S ed) gp * surf S ed) := by
    intro s
    rw [sum_range_list, ]
    have h1 : ∑ gp ∈ Finset.range (rule S ed).length, f s gp * (S.v.N.basis.phi 0 (facePt (rule S ed) s.f gp) * (weight (rule S ed) gp * surf S ed)) =
        ∑ gp ∈ Finset.range (rule S ed).length, f s gp * (weight (rule S ed) (opp S ed s gp) * surf S ed) := by
      refine Finset.sum_congr rfl fun gp hgp => ?_
      have : weight (rule S ed) (opp S ed s gp) = weight (rule S ed) gp := by
        unfold opp
        split_ifs
        · exact hb.mass.sym _ gp (Finset.mem_range.1 hgp)
        · rfl
      rw [hb.mass.phi0, this, one_mul]
    rw [h1]
    exact (sum_opp ed s fun g gp => f s g * (weight (rule S ed) gp * surf S ed)).symm
  simp only [one]
  generalize ed.sides = l
  induction l with
  | nil => simp
  | cons s l ih => simp only [List.map_cons, List.sum_cons, add_mul, Finset.sum_add_distrib, ih]

/-- After a Newton iteration the edges' equations hold to first order. -/
theorem newton_edges (hb : Closed S) {q0 : State ℝ} {prev : ℕ → ℕ → ℝ} {it : Iter ℝ} {dq : ℕ → ℕ → ℝ} {y : ℕ → ℝ}
    (hc : condense S.I S.slv (skel S) (blocks S q0 prev it) = some (dq, y)) (k : ℕ) (hk : k < (edgesOf S.m).length) :
    ∀ gp < (rule S (edgesOf S.m)[k]).length, ∀ a, gLin S it dq (edgePart (number (skel S)) y) (edgesOf S.m)[k] k gp a = 0 :=
  fun gp hgp a => edge_linear hb.wf.nodup (condensed hb.inv hb.slv hb.wf hc).2 hk (hb.fits _ (List.getElem_mem hk)) hgp a

/-- Whatever the iterate, after one iteration the traces at land fit. -/
theorem newton_fit (hb : Closed S) {q0 : State ℝ} {prev : ℕ → ℕ → ℝ} {it it' : Iter ℝ} {x : ℕ → ℝ} (h : newton S q0 prev it = some (it', x)) : LandFit S it' := by
  unfold newton at h
  split_ifs at h
  obtain ⟨⟨dq, y⟩, hc, hd⟩ := Option.map_eq_some_iff.1 h
  cases hd
  exact landFit_new hb (newton_edges hb hc)

/-- One Newton iteration: the water changes by what `rhs_prev` asks for. -/
theorem newton_water (hb : Closed S) {q0 : State ℝ} {prev : ℕ → ℕ → ℝ} {it it' : Iter ℝ} {x : ℕ → ℝ} (hl : LandFit S it)
    (h : newton S q0 prev it = some (it', x)) : waterQ S it'.q = waterQ S q0 + S.dt * S.theta * (S.m.elts.map fun e => prev e 0).sum := by
  unfold newton at h
  split_ifs at h
  obtain ⟨⟨dq, y⟩, hc, hd⟩ := Option.map_eq_some_iff.1 h
  cases hd
  have hE := (condensed hb.inv hb.slv hb.wf hc).1
  have hg := newton_edges hb hc
  -- element equations, first row
  have hel : ∀ e ∈ S.m.elts, (((S.dat e).elt.gps S.v.N).map fun wz => wz.1 * (S.dat e).elt.value S.v.N ((advance S it (dq, y)).q e 0) wz.2 * |jdet (S.dat e).elt.tri|).sum =
      (((S.dat e).elt.gps S.v.N).map fun wz => wz.1 * (S.dat e).elt.value S.v.N (q0 e 0) wz.2 * |jdet (S.dat e).elt.tri|).sum +
      (S.dt * S.theta * prev e 0 + S.dt * (1 - S.theta) * -sideSum (edgesOf S.m).zipIdx e fun ed k s => ((List.range (rule S ed).length).map fun gp =>
        fhatLin S it dq (edgePart (number (skel S)) y) ed k s gp 0 *
          (S.v.N.basis.phi 0 (facePt (rule S ed) s.f gp) * (weight (rule S ed) gp * surf S ed))).sum) := by
    intro e he
    have h1 := element_linear hb.wf.nodup hb.sym hE he (hb.deg e he) 0
    simp only [intDPhi_first hb.mass, intPhi_first hb.mass, dsource_row, Swe.comp, Matrix.cons_val_zero, source_ze hb.basin, add_zero, mul_zero, zero_mul,
      List.map_const', List.sum_replicate, smul_zero, Fin.val_zero] at h1
    have h2 : (((S.dat e).elt.gps S.v.N).map fun wz => wz.1 * (((qAt S.v.N (S.dat e).elt (it.q e) wz.2).ze + (qAt S.v.N (S.dat e).elt (incr (dq e)) wz.2).ze -
        (qAt S.v.N (S.dat e).elt (q0 e) wz.2).ze) / S.dt) * |jdet (S.dat e).elt.tri|).sum =
        ((((S.dat e).elt.gps S.v.N).map fun wz => wz.1 * (S.dat e).elt.value S.v.N ((advance S it (dq, y)).q e 0) wz.2 * |jdet (S.dat e).elt.tri|).sum -
        (((S.dat e).elt.gps S.v.N).map fun wz => wz.1 * (S.dat e).elt.value S.v.N (q0 e 0) wz.2 * |jdet (S.dat e).elt.tri|).sum) / S.dt := by
      rw [sub_eq_add_neg, ← sum_neg, map_add', div_eq_inv_mul, map_mul']
      refine congrArg _ (List.map_congr_left fun wz _ => ?_)
      have := advance_q (S := S) it (dq, y) he wz.2 0
      simp only [Swe.comp, Matrix.cons_val_zero] at this
      rw [← this]
      simp only [qAt]
      ring
    rw [h2, div_eq_iff hb.dt] at h1
    linear_combination h1
  unfold waterQ
  rw [List.map_congr_left hel, ← map_add', ← map_add', ← map_mul', ← map_mul', sum_neg, sum_sides _ hb.basin.nodup _ fun x hx => by
    obtain ⟨hk, he⟩ := edge_get hx
    exact sides_mem hb.basin (by rw [← he]; exact List.getElem_mem hk)]
  have hz : ((edgesOf S.m).zipIdx.map fun x => (x.1.sides.map fun s => ((List.range (rule S x.1).length).map fun gp =>
        fhatLin S it dq (edgePart (number (skel S)) y) x.1 x.2 s gp 0 *
          (S.v.N.basis.phi 0 (facePt (rule S x.1) s.f gp) * (weight (rule S x.1) gp * surf S x.1))).sum).sum).sum = 0 := by
    refine List.sum_eq_zero fun r hr => ?_
    obtain ⟨x, hx, rfl⟩ := List.mem_map.1 hr
    obtain ⟨hk, he⟩ := edge_get hx
    rw [sides_integral hb]
    refine Finset.sum_eq_zero fun gp hgp => ?_
    have hgp := Finset.mem_range.1 hgp
    have hg := hg x.2 hk
    rw [he] at hg
    have hmem : x.1 ∈ edgesOf S.m := by rw [← he]; exact List.getElem_mem hk
    obtain ⟨ed, k⟩ := x
    simp only [edgesOf, List.mem_append, List.mem_map] at hmem
    rcases hmem with ⟨i, hi, rfl⟩ | ⟨b, hbm, rfl⟩
    · rw [← int_flux (hb.basin.ints i hi).2.2.2 hgp, hg gp hgp, zero_mul]
    · simp only [Edg.sides, List.map_cons, List.map_nil, List.sum_cons, List.sum_nil, opp, Bool.false_eq_true, if_false, add_zero]
      rw [land_flux hb hl hk he hbm hgp (hg gp hgp), zero_mul]
  rw [hz]
  ring

theorem iterate_water (hb : Closed S) {q0 : State ℝ} {prev : ℕ → ℕ → ℝ} (n : ℕ) {it it' : Iter ℝ} (hl : LandFit S it)
    (h : iterate S q0 prev (n + 1) it = some it') :
    LandFit S it' ∧ waterQ S it'.q = waterQ S q0 + S.dt * S.theta * (S.m.elts.map fun e => prev e 0).sum := by
  induction n generalizing it with
  | zero =>
    rw [iterate] at h
    obtain ⟨⟨i1, x⟩, h1, h2⟩ := Option.bind_eq_some_iff.1 h
    simp only [iterate, ite_self] at h2
    cases h2
    exact ⟨newton_fit hb h1, newton_water hb hl h1⟩
  | succ n ih =>
    rw [iterate] at h
    obtain ⟨⟨i1, x⟩, h1, h2⟩ := Option.bind_eq_some_iff.1 h
    by_cases hc : converged S x = true
    · simp only [hc, if_true] at h2
      cases h2
      exact ⟨newton_fit hb h1, newton_water hb hl h1⟩
    · simp only [hc, if_false, Bool.false_eq_true] at h2
      exact ih (newton_fit hb h1) h2

/-- C85, order 1: the stage conserves the water in a closed basin, whatever number of iterations it takes and whether or not it converges. -/
theorem stage_water_order1 (hb : Closed S) (ho : S.order2 = false) {it it' : Iter ℝ} (hl : LandFit S it) (h : stage S it = some it') :
    LandFit S it' ∧ waterQ S it'.q = waterQ S it.q := by
  obtain ⟨h1, h2⟩ := iterate_water hb 99 hl h
  refine ⟨h1, h2.trans ?_⟩
  simp [rhsPrev, ho]

/-- What the old traces leave of the conservation of water: the sum over the interfaces of the jump of the mass flux. -/
noncomputable def residual (S : Scheme ℝ) (it : Iter ℝ) : ℝ :=
  ((edgesOf S.m).zipIdx.map fun x => ∑ gp ∈ Finset.range (rule S x.1).length,
    (x.1.sides.map fun s => (fhat S it.q x.1 (it.hat x.2) s (opp S x.1 s gp)).ze).sum * (weight (rule S x.1) gp * surf S x.1)).sum

/-- C85, order 2: the water changes by half a step times the residual of the old traces. -/
theorem stage_water_order2 (hb : Closed S) (ho : S.order2 = true) {it it' : Iter ℝ} (hl : LandFit S it) (h : stage S it = some it') :
    LandFit S it' ∧ waterQ S it'.q = waterQ S it.q - S.dt * S.theta * residual S it := by
  obtain ⟨h1, h2⟩ := iterate_water hb 99 hl h
  refine ⟨h1, h2.trans ?_⟩
  have h3 : (S.m.elts.map fun e => rhsPrev S it e 0).sum = -residual S it := by
    have : ∀ e ∈ S.m.elts, rhsPrev S it e 0 = -sideSum (edgesOf S.m).zipIdx e fun ed k s => faceR S it.q ed (it.hat k) s 0 := by
      intro e he
      rw [rhsPrev_at S ho it he, sideSum_neg]
      have hv : varOf (0 % 3) = 0 := rfl
      simp only [fluxR, srcR, Nat.zero_div, hv, intDPhi_first hb.mass, intPhi_first hb.mass, Swe.comp, source_ze hb.basin, Matrix.cons_val_zero,
        mul_zero, zero_mul, List.map_const', List.sum_replicate, smul_zero, zero_add]
    rw [List.map_congr_left this, sum_neg, sum_sides _ hb.basin.nodup _ fun x hx => by
      obtain ⟨hk, he⟩ := edge_get hx
      exact sides_mem hb.basin (by rw [← he]; exact List.getElem_mem hk)]
    unfold residual
    congr 2
    refine List.map_congr_left fun x _ => ?_
    rw [← sides_integral hb fun s gp => (fhat S it.q x.1 (it.hat x.2) s gp).ze]
    exact congrArg _ (List.map_congr_left fun s _ => faceR_entry it.q x.1 (it.hat x.2) s 0 0)
  rw [h3]
  ring

/-- C85, order 1, old traces which do not fit (after limiting, or from the projection of the initial state): water is conserved as soon as there is a
second iteration. -/
theorem stage_water_twice (hb : Closed S) (ho : S.order2 = false) {it it' i1 : Iter ℝ} {x : ℕ → ℝ} (h1 : newton S it.q (rhsPrev S it) it = some (i1, x))
    (hx : converged S x = false) (h : stage S it = some it') : LandFit S it' ∧ waterQ S it'.q = waterQ S it.q := by
  unfold stage at h
  rw [show (100 : ℕ) = 98 + 1 + 1 from rfl, iterate, h1] at h
  simp only [Option.bind_some, hx, Bool.false_eq_true, if_false] at h
  obtain ⟨h2, h3⟩ := iterate_water hb 98 (newton_fit hb h1) h
  refine ⟨h2, h3.trans ?_⟩
  simp [rhsPrev, ho]

/-- C85: any number of steps of order 1. -/
theorem steps_water (hb : Closed S) (ho : S.order2 = false) (time ramp : ℕ → ℝ) (n : ℕ) {it it' : Iter ℝ} (hl : LandFit S it)
    (h : steps S time ramp n it = some it') : LandFit S it' ∧ waterQ S it'.q = waterQ S it.q := by
  induction n generalizing it' with
  | zero => cases h; exact ⟨hl, rfl⟩
  | succ n ih =>
    rw [steps] at h
    obtain ⟨i1, h1, h2⟩ := Option.bind_eq_some_iff.1 h
    obtain ⟨f1, w1⟩ := ih h1
    have hb' : Closed { S with t := time n, tn := time (n + 1), rampn := ramp (n + 1) } :=
      ⟨hb.basin, hb.mass, hb.wf, hb.fits, hb.dt, hb.deg, hb.inv, hb.slv⟩
    obtain ⟨f2, w2⟩ := stage_water_order1 hb' ho (f1 : LandFit { S with t := time n, tn := time (n + 1), rampn := ramp (n + 1) } i1) h2
    exact ⟨f2, Eq.trans (w2 : waterQ S it'.q = waterQ S i1.q) w1⟩

/-! ### Initial traces -/

/-- The quadrature of the edge integrates products of its basis functions exactly. -/
def ExactEdge (E : Tables ℝ) : Prop :=
  0 < E.J ∧ ∀ i < E.ndof, ∀ j < E.ndof, ∑ gp ∈ Finset.range E.ngp, E.lam i gp * E.lam j gp * E.w gp = if i = j then 2 / (2 * (i : ℝ) + 1) else 0

/-- Then the projection reproduces the values at the Gauss points. -/
theorem project_points {E : Tables ℝ} (hf : Fits E) (he : ExactEdge E) (u : ℕ → ℝ) {gp : ℕ} (hgp : gp < E.ngp) : ugp E (project E u) gp = u gp := by
  have h := hf.points (fun gp => (ugp E (project E u) gp - u gp) * (E.w gp * E.J)) ?_ gp hgp
  · exact sub_eq_zero.1 ((mul_eq_zero.1 h).resolve_right (hf.pos gp hgp).ne')
  intro i hi
  have hproj : ∀ j < E.ndof, project E u j = integral E j u * ((2 * j + 1) / 2 / E.J) := by
    intro j hj
    unfold Edge.project
    rw [Finset.sum_eq_single j]
    · simp [minv, Basis.legendreMinv]
    · intro k _ hk
      simp [minv, Basis.legendreMinv, hk]
    · intro h; exact absurd (Finset.mem_range.2 hj) h
  have h1 : ∑ gp ∈ Finset.range E.ngp, ugp E (project E u) gp * (E.w gp * E.J) * E.lam i gp = integral E i u := by
    simp only [ugp, Finset.sum_mul]
    rw [Finset.sum_comm, Finset.sum_eq_single i]
    · rw [hproj i hi]
      have h2 : ∑ gp ∈ Finset.range E.ngp, integral E i u * ((2 * i + 1) / 2 / E.J) * E.lam i gp * (E.w gp * E.J) * E.lam i gp =
          integral E i u * ((2 * i + 1) / 2 / E.J) * E.J * ∑ gp ∈ Finset.range E.ngp, E.lam i gp * E.lam i gp * E.w gp := by
        rw [Finset.mul_sum]
        exact Finset.sum_congr rfl fun gp _ => by ring
      rw [h2, he.2 i hi i hi, if_pos rfl]
      have := he.1
      have hi' : (2 * (i : ℝ) + 1) ≠ 0 := by positivity
      field_simp
    · intro j hj hji
      have h2 : ∑ gp ∈ Finset.range E.ngp, project E u j * E.lam j gp * (E.w gp * E.J) * E.lam i gp =
          project E u j * E.J * ∑ gp ∈ Finset.range E.ngp, E.lam j gp * E.lam i gp * E.w gp := by
        rw [Finset.mul_sum]
        exact Finset.sum_congr rfl fun gp _ => by ring
      rw [h2, he.2 j (Finset.mem_range.1 hj) i hi, if_neg hji, mul_zero]
    · intro h; exact absurd (Finset.mem_range.2 hi) h
  have h3 : ∑ gp ∈ Finset.range E.ngp, u gp * (E.w gp * E.J) * E.lam i gp = integral E i u := by
    unfold integral intLam
    exact Finset.sum_congr rfl fun gp _ => by ring
  have h4 : ∀ gp, (ugp E (project E u) gp - u gp) * (E.w gp * E.J) * E.lam i gp =
      ugp E (project E u) gp * (E.w gp * E.J) * E.lam i gp - u gp * (E.w gp * E.J) * E.lam i gp := fun gp => by ring
  rw [Finset.sum_congr rfl fun gp _ => h4 gp, Finset.sum_sub_distrib, h1, h3, sub_self]

/-- C85: the traces which the initialization computes fit at land, and leave no residual, so that the first step of order 2 conserves water exactly. -/
theorem init_fits (hb : Closed S) (hx : ∀ ed ∈ edgesOf S.m, ExactEdge (tab S ed)) {it : Iter ℝ}
    (h : ∀ (k : ℕ) (hk : k < (edgesOf S.m).length), initTrace S it.q (edgesOf S.m)[k] = some (it.hat k)) : LandFit S it ∧ residual S it = 0 := by
  have land : LandFit S it := by
    intro k hk b he hkd gp hgp
    have hm := List.getElem_mem hk
    have h1 := h k hk
    rw [he] at h1 hm
    simp only [initTrace, hkd, Option.some.injEq] at h1
    have hbm : b ∈ S.m.bnds := by
      rw [edgesOf] at hm
      simpa using hm
    obtain ⟨e1, e2, e3⟩ := hb.basin.bnds b hbm
    have hu : Unit (nrm S (.bnd b)) := (normal_spec hb.basin.sqrt (S.dat b.e).elt.tri (hb.basin.ccw _ e1) b.f e2).1
    have hu' : (nrm S (.bnd b)).x ^ 2 + (nrm S (.bnd b)).y ^ 2 = 1 := hu
    have hp : hat S (.bnd b) (it.hat k) gp = landHat (nrm S (.bnd b)) (sideQ S it.q (.bnd b) ⟨b.e, b.f, false⟩ gp) := by
      rw [← h1]
      have := fun a => project_points (hb.fits _ hm) (hx _ hm) (fun gp => Swe.comp (landHat (nrm S (.bnd b)) (sideQ S it.q (.bnd b) ⟨b.e, b.f, false⟩ gp)) a) hgp
      exact congr (congr (congrArg Q.mk (this 0)) (this 1)) (this 2)
    rw [hp]
    refine ⟨rfl, ?_⟩
    simp only [landHat]
    generalize sideQ S it.q (.bnd b) ⟨b.e, b.f, false⟩ gp = q
    linear_combination (-(q.qx * (nrm S (.bnd b)).x + q.qy * (nrm S (.bnd b)).y)) * hu'
  refine ⟨land, ?_⟩
  unfold residual
  refine List.sum_eq_zero fun r hr => ?_
  obtain ⟨⟨ed, k⟩, hxm, rfl⟩ := List.mem_map.1 hr
  obtain ⟨hk, he⟩ := edge_get hxm
  have hm := List.getElem_mem hk
  rw [he] at hm
  refine Finset.sum_eq_zero fun gp hgp => ?_
  have hgp := Finset.mem_range.1 hgp
  have h1 := h k hk
  simp only at he hgp
  rw [he] at h1
  have hmem := hm
  simp only [edgesOf, List.mem_append, List.mem_map] at hmem
  rcases hmem with ⟨i, hi, rfl⟩ | ⟨b, hbm, rfl⟩
  · simp only [initTrace, (hb.basin.ints i hi).2.2.2, Option.some.injEq] at h1
    have hp := project_points (hb.fits _ hm) (hx _ hm) (fun gp => Swe.comp (sideQ S it.q (.int i) ⟨i.ein, i.fin, false⟩ gp +
      sideQ S it.q (.int i) ⟨i.eex, i.fex, true⟩ ((rule S (.int i)).length - gp - 1)) 0 / 2) hgp
    have hz : (hat S (.int i) (it.hat k) gp).ze = ((sideQ S it.q (.int i) ⟨i.ein, i.fin, false⟩ gp).ze +
        (sideQ S it.q (.int i) ⟨i.eex, i.fex, true⟩ ((rule S (.int i)).length - gp - 1)).ze) / 2 := by
      rw [← h1]
      exact hp
    have hr : (rule S (.int i)).length - ((rule S (.int i)).length - gp - 1) - 1 = gp := by omega
    simp only [Edg.sides, List.map_cons, List.map_nil, List.sum_cons, List.sum_nil, opp, if_true, if_false, Bool.false_eq_true, fhat, hr, tauAt, tauLF, mulQ_smul,
      add_ze, smul_ze, sub_ze, neg_ze, hz]
    ring
  · obtain ⟨o1, o2⟩ := land k hk b he (hb.basin.bnds b hbm).2.2 gp hgp
    simp only [Edg.sides, List.map_cons, List.map_nil, List.sum_cons, List.sum_nil, opp, if_false, Bool.false_eq_true, fhat, tauAt, tauLF, mulQ_smul,
      add_ze, smul_ze, sub_ze, o1, sub_self, mul_zero, add_zero, fluxN, o2, zero_mul]

/-! ### The basin of two triangles -/

theorem two_edges {ed : Edg ℝ} {I : Inverse ℝ} {slv : Solver ℝ} (h : ed ∈ edgesOf (twoScheme twoMesh I slv).m) :
    ed.p (twoTris 2 flat3) = 2 ∧ 0 < surf (twoScheme twoMesh I slv) ed := by
  have hJ : ∀ e, 0 < jdet (twoTris 2 flat3 e).elt.tri := by
    intro e
    by_cases he : e = 0 <;> norm_num [twoTris, he, jdet, Geometry.det, jac]
  rcases (by simpa [edgesOf, twoScheme, twoMesh] using h : ed = _ ∨ ed = _ ∨ ed = _ ∨ ed = _ ∨ ed = _) with rfl | rfl | rfl | rfl | rfl <;>
    (refine ⟨rfl, ?_⟩; simp only [surf, surfaceJ, twoScheme, plainEnv, Edg.own, twoTris, vertex]; exact div_pos (Real.sqrt_pos.2 (by norm_num)) two_pos)

theorem two_fits (I : Inverse ℝ) (slv : Solver ℝ) (hI : ∀ n M N, I n M = some N → RightInv n M N) (hS : Solves slv) : Closed (twoScheme twoMesh I slv) := by
  refine ⟨two_closed id 2 flat3, code_mass Basis.Props.rounding_id, ⟨?_, ?_, ?_⟩, ?_, one_ne_zero, fun e _ => by simp [twoScheme, twoTris, ndof], hI, hS⟩
  · simp [skel, edgesOf, twoScheme, twoMesh, Edg.sides]
  · intro c hc
    simp only [skel, edgesOf, twoScheme, twoMesh, Edg.sides, List.map_cons, List.map_nil, List.cons_append, List.nil_append, List.flatten_cons, List.flatten_nil,
      List.mem_cons, List.not_mem_nil, or_false, List.append_nil] at hc ⊢
    rcases hc with rfl | rfl | rfl | rfl | rfl | rfl <;> simp
  · intro k hk
    have hk' : k < (edgesOf (twoScheme twoMesh I slv).m).length := by simpa [skel] using hk
    rw [esize_eq hk']
    have hp := (two_edges (List.getElem_mem hk')).1
    show 0 < 3 * (faceRule (codeNumerics id) (((edgesOf (twoScheme twoMesh I slv).m)[k]).p (twoTris 2 flat3))).length
    rw [hp, code_rule]
    obtain ⟨r, hr, -⟩ := (Quadrature.Props.line_rules (2 * 2 + 1)).2 (by omega)
    simp only [codeRule, hr, Option.getD_some, List.length_map, ndof_rows hr]
    norm_num
  · intro ed hed
    obtain ⟨h1, h2⟩ := two_edges hed
    exact tab_fits rfl (by show ed.p (twoTris 2 flat3) ≤ 32; omega) h2

/-- Still water has traces which fit at land. -/
example (I : Inverse ℝ) (slv : Solver ℝ) : LandFit (twoScheme twoMesh I slv) (sameIter ⟨1 / 2, 0, 0⟩) := by
  intro k hk b he hkd gp hgp
  have hh := hat_const (S := twoScheme twoMesh I slv) hgp ⟨1 / 2, 0, 0⟩
  have hq := value_first (u := (sameIter ⟨1 / 2, 0, 0⟩).q b.e 0) (code_mass Basis.Props.rounding_id).phi0 (twoTris 2 flat3 b.e).elt (fun d _ => rfl)
    (facePt (rule (twoScheme twoMesh I slv) (.bnd b)) b.f gp)
  refine ⟨?_, ?_⟩
  · refine Eq.trans ?_ hq.symm
    simp only [sameIter, hh, Swe.comp]
    rfl
  · simp only [sameIter, hh]
    ring

end Verif.Ihdg.Props
