import Verif.Props.IhdgWater
import Verif.Lemmas.GnRows
import Verif.Props.CondenseRegular

/-!
# C102: the energy of the linearized implicit scheme at rest

At rest over a flat bed, in a closed basin, the equations of a Newton iteration have an energy: the squares of the changes of level and flow and of the jumps
between elements and traces (`energy`). So they have one solution (`rest_sole`), whatever the degree.
-/

namespace Verif.Ihdg.Props
open Verif.Swe Verif.Swe.Props Verif.Geometry Verif.Geometry.Props Verif.Element Verif.Edge Verif.Edge.Props Verif.Ehdg Verif.Ehdg.Props
open Verif.Gn (nd)
open Verif.Gn.Props (sideSum_congr sideSum_add sideSum_mul sideSum_sum)

variable {S : Scheme ℝ} {it : Iter ℝ} {H : ℝ} {dq dqhat : ℕ → ℕ → ℝ}

/-! ### Integrals -/

/-- Integral over an element by its quadrature rule. -/
noncomputable def inElt (S : Scheme ℝ) (e : ℕ) (f : P2 ℝ → ℝ) : ℝ := (((S.dat e).elt.gps S.v.N).map fun wz => f wz.2 * (wz.1 * |jdet (S.dat e).elt.tri|)).sum

/-- Integral over an edge. -/
noncomputable def onEdge (S : Scheme ℝ) (ed : Edg ℝ) (f : ℕ → ℝ) : ℝ := ∑ gp ∈ Finset.range (rule S ed).length, f gp * (weight (rule S ed) gp * surf S ed)

/-- The normal that points out of a side's element. -/
noncomputable def outward (S : Scheme ℝ) (ed : Edg ℝ) (s : Sd) : P2 ℝ := if s.ex then ⟨-(nrm S ed).x, -(nrm S ed).y⟩ else nrm S ed

theorem inElt_add (e : ℕ) (f g : P2 ℝ → ℝ) : inElt S e f + inElt S e g = inElt S e fun z => f z + g z := by
  unfold inElt
  rw [map_add']
  exact congrArg _ (List.map_congr_left fun _ _ => by ring)

theorem inElt_mul (e : ℕ) (c : ℝ) (f : P2 ℝ → ℝ) : c * inElt S e f = inElt S e fun z => c * f z := by
  unfold inElt
  rw [map_mul']
  exact congrArg _ (List.map_congr_left fun _ _ => by ring)

theorem inElt_sum (e n : ℕ) (f : ℕ → P2 ℝ → ℝ) : ∑ i ∈ Finset.range n, inElt S e (f i) = inElt S e fun z => ∑ i ∈ Finset.range n, f i z := by
  induction n with
  | zero => simp [inElt]
  | succ n ih => rw [Finset.sum_range_succ, ih, inElt_add]; simp only [Finset.sum_range_succ]

theorem inElt_congr {e : ℕ} {f g : P2 ℝ → ℝ} (h : ∀ wz ∈ (S.dat e).elt.gps S.v.N, f wz.2 = g wz.2) : inElt S e f = inElt S e g := by
  unfold inElt
  exact congrArg _ (List.map_congr_left fun wz hwz => by rw [h wz hwz])

theorem onEdge_add (ed : Edg ℝ) (f g : ℕ → ℝ) : onEdge S ed f + onEdge S ed g = onEdge S ed fun gp => f gp + g gp := by
  unfold onEdge
  rw [← Finset.sum_add_distrib]
  exact Finset.sum_congr rfl fun _ _ => by ring

theorem onEdge_mul (ed : Edg ℝ) (c : ℝ) (f : ℕ → ℝ) : c * onEdge S ed f = onEdge S ed fun gp => c * f gp := by
  unfold onEdge
  rw [Finset.mul_sum]
  exact Finset.sum_congr rfl fun _ _ => by ring

theorem onEdge_sum (ed : Edg ℝ) (n : ℕ) (f : ℕ → ℕ → ℝ) : ∑ i ∈ Finset.range n, onEdge S ed (f i) = onEdge S ed fun gp => ∑ i ∈ Finset.range n, f i gp := by
  unfold onEdge
  rw [Finset.sum_comm]
  exact Finset.sum_congr rfl fun _ _ => by rw [Finset.sum_mul]

theorem onEdge_congr {ed : Edg ℝ} {f g : ℕ → ℝ} (h : ∀ gp < (rule S ed).length, f gp = g gp) : onEdge S ed f = onEdge S ed g :=
  Finset.sum_congr rfl fun gp hgp => by rw [h gp (Finset.mem_range.1 hgp)]

theorem onEdge_list (ed : Edg ℝ) (l : List Sd) (f : Sd → ℕ → ℝ) : (l.map fun s => onEdge S ed (f s)).sum = onEdge S ed fun gp => (l.map fun s => f s gp).sum := by
  induction l with
  | nil => simp [onEdge]
  | cons a l ih => simp only [List.map_cons, List.sum_cons, ih, onEdge_add]

theorem onEdge_opp (hsym : SymLine S) {ed : Edg ℝ} (hed : ed ∈ edgesOf S.m) (s : Sd) (f : ℕ → ℝ) : onEdge S ed f = onEdge S ed fun gp => f (opp S ed s gp) := by
  unfold onEdge
  rw [sum_opp (S := S) ed s fun g gp => f g * (weight (rule S ed) gp * surf S ed)]
  refine Finset.sum_congr rfl fun gp hgp => ?_
  have : weight (rule S ed) (opp S ed s gp) = weight (rule S ed) gp := by
    unfold opp
    split_ifs
    · exact hsym ed hed gp (Finset.mem_range.1 hgp)
    · rfl
  rw [this]

theorem opp_twice {ed : Edg ℝ} {s : Sd} {gp : ℕ} (hgp : gp < (rule S ed).length) : opp S ed s (opp S ed s gp) = gp := by
  unfold opp
  split_ifs <;> omega

/-! ### Testing with a polynomial -/

theorem phi_test (e : ℕ) (c : ℕ → ℝ) (g : P2 ℝ → ℝ) :
    ∑ i ∈ Finset.range (ndof (S.dat e).elt.p), c i * (S.dat e).elt.intPhi S.v.N g i = inElt S e fun z => (S.dat e).elt.value S.v.N c z * g z := by
  have : ∀ i, c i * (S.dat e).elt.intPhi S.v.N g i = inElt S e fun z => c i * S.v.N.basis.phi i z * g z := by
    intro i
    unfold Elt.intPhi inElt
    rw [map_mul']
    exact congrArg _ (List.map_congr_left fun _ _ => by ring)
  simp only [this]
  rw [inElt_sum]
  refine inElt_congr fun wz _ => ?_
  simp only [Elt.value, sum_range_list]
  rw [Finset.sum_mul]

theorem dphi_test (e dir : ℕ) (c : ℕ → ℝ) (g : P2 ℝ → ℝ) :
    ∑ i ∈ Finset.range (ndof (S.dat e).elt.p), c i * (S.dat e).elt.intDPhi S.v.N dir g i = inElt S e fun z => (S.dat e).elt.deriv S.v.N dir c z * g z := by
  have : ∀ i, c i * (S.dat e).elt.intDPhi S.v.N dir g i = inElt S e fun z => c i * (S.dat e).elt.dphi S.v.N dir i z * g z := by
    intro i
    unfold Elt.intDPhi inElt Elt.dphi
    rw [map_mul']
    exact congrArg _ (List.map_congr_left fun _ _ => by ring)
  simp only [this]
  rw [inElt_sum]
  refine inElt_congr fun wz _ => ?_
  simp only [Elt.deriv, sum_range_list]
  rw [Finset.sum_mul]

theorem face_test (e : ℕ) (c : ℕ → ℝ) (t : ℝ) (g : Edg ℝ → ℕ → Sd → ℕ → ℝ) :
    ∑ i ∈ Finset.range (ndof (S.dat e).elt.p), c i * sideSum (edgesOf S.m).zipIdx e (fun ed k s => t * ((List.range (rule S ed).length).map fun gp => g ed k s gp *
      (S.v.N.basis.phi i (facePt (rule S ed) s.f gp) * (weight (rule S ed) gp * surf S ed))).sum) =
      t * sideSum (edgesOf S.m).zipIdx e fun ed k s => onEdge S ed fun gp => (S.dat s.e).elt.value S.v.N c (facePt (rule S ed) s.f gp) * g ed k s gp := by
  simp only [sideSum_mul]
  rw [sideSum_sum]
  refine sideSum_congr fun x _ s _ hse => ?_
  have : ∀ i, c i * (t * ((List.range (rule S x.1).length).map fun gp => g x.1 x.2 s gp *
      (S.v.N.basis.phi i (facePt (rule S x.1) s.f gp) * (weight (rule S x.1) gp * surf S x.1))).sum) =
      onEdge S x.1 fun gp => t * (c i * S.v.N.basis.phi i (facePt (rule S x.1) s.f gp) * g x.1 x.2 s gp) := by
    intro i
    unfold onEdge
    rw [sum_range_list, Finset.mul_sum, Finset.mul_sum]
    exact Finset.sum_congr rfl fun _ _ => by ring
  simp only [this]
  rw [onEdge_sum, onEdge_mul]
  refine onEdge_congr fun gp _ => ?_
  simp only [Elt.value, sum_range_list, hse]
  rw [Finset.sum_mul, Finset.mul_sum]

/-! ### The state -/

/-- Water of depth `H` at rest, at all points the scheme looks at. -/
structure Still (S : Scheme ℝ) (H : ℝ) (it : Iter ℝ) : Prop where
  g : 0 < S.v.src.g
  pos : 0 < H
  inner : ∀ e ∈ S.m.elts, ∀ wz ∈ (S.dat e).elt.gps S.v.N, (inner S (S.dat e) (it.q e) wz.2).1.qx = 0 ∧ (inner S (S.dat e) (it.q e) wz.2).1.qy = 0 ∧
    (inner S (S.dat e) (it.q e) wz.2).2.h = H
  hat : ∀ k ed, (edgesOf S.m)[k]? = some ed → ∀ gp < (rule S ed).length, (hat S ed (it.hat k) gp).qx = 0 ∧ (hat S ed (it.hat k) gp).qy = 0 ∧
    (hatAux S ed (it.hat k) gp).h = H
  side : ∀ k ed, (edgesOf S.m)[k]? = some ed → ∀ s ∈ ed.sides, ∀ gp < (rule S ed).length, sideQ S it.q ed s gp = Ihdg.hat S ed (it.hat k) (opp S ed s gp)

/-- Integration by parts: the rules of elements and faces fit together for products of two functions of an element. -/
def Parts (S : Scheme ℝ) : Prop :=
  ∀ e ∈ S.m.elts, ∀ dir < 2, ∀ u w : ℕ → ℝ,
    (inElt S e fun z => (S.dat e).elt.deriv S.v.N dir u z * (S.dat e).elt.value S.v.N w z + (S.dat e).elt.deriv S.v.N dir w z * (S.dat e).elt.value S.v.N u z) =
      sideSum (edgesOf S.m).zipIdx e fun ed _ s => onEdge S ed fun gp => nd (outward S ed s) dir *
        ((S.dat s.e).elt.value S.v.N u (facePt (rule S ed) s.f gp) * (S.dat s.e).elt.value S.v.N w (facePt (rule S ed) s.f gp))

/-- Change of the state at a Gauss point of a side. -/
noncomputable def chg (S : Scheme ℝ) (dq : ℕ → ℕ → ℝ) (ed : Edg ℝ) (s : Sd) (gp : ℕ) : Q ℝ := qAt S.v.N (S.dat s.e).elt (incr (dq s.e)) (facePt (rule S ed) s.f gp)

/-- Change of the trace. -/
noncomputable def chgHat (S : Scheme ℝ) (dqhat : ℕ → ℕ → ℝ) (ed : Edg ℝ) (k gp : ℕ) : Q ℝ := hat S ed (incr (dqhat k)) gp

/-- The flux of a side, to first order. -/
theorem still_flux (h : Still S H it) {k : ℕ} {ed : Edg ℝ} (hk : (edgesOf S.m)[k]? = some ed) {s : Sd} (hs : s ∈ ed.sides) {gp : ℕ} (hgp : gp < (rule S ed).length) (q y : Q ℝ) :
    let c := S.v.sq (S.v.src.g * H)
    let n := outward S ed s
    lin (dfDq S ed (it.hat k) s gp) q 0 + lin (dfDhat S it.q ed (it.hat k) s gp) y 0 = c * q.ze - c * y.ze + (n.x * y.qx + n.y * y.qy) ∧
    lin (dfDq S ed (it.hat k) s gp) q 1 + lin (dfDhat S it.q ed (it.hat k) s gp) y 1 = c * q.qx - c * y.qx + S.v.src.g * H * n.x * y.ze ∧
    lin (dfDq S ed (it.hat k) s gp) q 2 + lin (dfDhat S it.q ed (it.hat k) s gp) y 2 = c * q.qy - c * y.qy + S.v.src.g * H * n.y * y.ze := by
  have hd : dtauDelq S it.q ed (it.hat k) s gp = 0 := by
    ext r j
    simp only [dtauDelq, h.side k ed hk s hs gp hgp, Matrix.of_apply, Matrix.zero_apply]
    have h0 : ∀ x : Q ℝ, x - x = ⟨0, 0, 0⟩ := fun x => by ext <;> simp [sub_ze, sub_qx, sub_qy]
    rw [h0]
    fin_cases r <;> simp [mulQ, ofComp, Swe.comp, Matrix.mulVec, dotProduct, Fin.sum_univ_three]
  obtain ⟨h1, h2, h3⟩ := h.hat k ed hk _ (opp_lt (s := s) hgp)
  simp only [dfDhat, hd, dfDq, tauAt, tauLF, dFnDq, h1, h2, h3, vn, cel, outward]
  have hz : |(0 : ℝ)| = 0 := abs_zero
  refine ⟨?_, ?_, ?_⟩ <;>
    (by_cases hx : s.ex = true <;>
      simp [hx, lin, Matrix.mulVec, dotProduct, Fin.sum_univ_three, Swe.comp, Matrix.one_apply, hz] <;> ring)

/-! ### One element -/

/-- What a side adds to the energy of its element. -/
noncomputable def power (S : Scheme ℝ) (H : ℝ) (dq dqhat : ℕ → ℕ → ℝ) (ed : Edg ℝ) (k : ℕ) (s : Sd) (gp : ℕ) : ℝ :=
  let c := S.v.sq (S.v.src.g * H)
  let n := outward S ed s
  let q := chg S dq ed s gp
  let y := chgHat S dqhat ed k (opp S ed s gp)
  S.v.src.g * H * q.ze * (c * q.ze - c * y.ze + (n.x * y.qx + n.y * y.qy)) + q.qx * (c * q.qx - c * y.qx + S.v.src.g * H * n.x * y.ze) +
    q.qy * (c * q.qy - c * y.qy + S.v.src.g * H * n.y * y.ze) - S.v.src.g * H * (q.ze * (n.x * q.qx + n.y * q.qy))

/-- Squares of the changes of an element. -/
noncomputable def square (S : Scheme ℝ) (H : ℝ) (dq : ℕ → ℕ → ℝ) (e : ℕ) : ℝ :=
  inElt S e fun z => S.v.src.g * H * (S.dat e).elt.value S.v.N (incr (dq e) 0) z ^ 2 + (S.dat e).elt.value S.v.N (incr (dq e) 1) z ^ 2 +
    (S.dat e).elt.value S.v.N (incr (dq e) 2) z ^ 2

theorem still_dsrc (hfr : S.v.src.bottomFriction = false) (d : EltData ℝ) (u : Fin 3 → ℕ → ℝ) (z : P2 ℝ) : dsrcAt S d u z = 0 := by
  simp only [dsrcAt, dsource, hfr, Bool.false_eq_true, if_false]
  ext i j
  fin_cases i <;> fin_cases j <;> rfl

/-- The equations of an element, tested with its own changes. -/
theorem elt_energy (h : Still S H it) (hp : Parts S) (hfr : S.v.src.bottomFriction = false) {e : ℕ} (he : e ∈ S.m.elts) :
    S.v.src.g * H * ∑ i ∈ Finset.range (ndof (S.dat e).elt.p), incr (dq e) 0 i * rowLin S it dq dqhat e i 0 +
      ∑ i ∈ Finset.range (ndof (S.dat e).elt.p), incr (dq e) 1 i * rowLin S it dq dqhat e i 1 +
      ∑ i ∈ Finset.range (ndof (S.dat e).elt.p), incr (dq e) 2 i * rowLin S it dq dqhat e i 2 =
    1 / S.dt * square S H dq e + (1 - S.theta) * sideSum (edgesOf S.m).zipIdx e fun ed k s => onEdge S ed (power S H dq dqhat ed k s) := by
  have split : ∀ (a : Fin 3), ∑ i ∈ Finset.range (ndof (S.dat e).elt.p), incr (dq e) a i * rowLin S it dq dqhat e i a =
      (inElt S e fun z => (S.dat e).elt.value S.v.N (incr (dq e) a) z * (Swe.comp (qAt S.v.N (S.dat e).elt (incr (dq e)) z) a / S.dt)) -
      (1 - S.theta) * ((inElt S e fun z => (S.dat e).elt.deriv S.v.N 0 (incr (dq e) a) z * lin (dFxDq S.v.src.g (inner S (S.dat e) (it.q e) z).1 (inner S (S.dat e) (it.q e) z).2)
        (qAt S.v.N (S.dat e).elt (incr (dq e)) z) a) +
        inElt S e fun z => (S.dat e).elt.deriv S.v.N 1 (incr (dq e) a) z * lin (dFyDq S.v.src.g (inner S (S.dat e) (it.q e) z).1 (inner S (S.dat e) (it.q e) z).2)
        (qAt S.v.N (S.dat e).elt (incr (dq e)) z) a) +
      (1 - S.theta) * ((sideSum (edgesOf S.m).zipIdx e fun ed k s => onEdge S ed fun gp => (S.dat s.e).elt.value S.v.N (incr (dq e) a) (facePt (rule S ed) s.f gp) *
        lin (dfDq S ed (it.hat k) s gp) (chg S dq ed s gp) a) +
        sideSum (edgesOf S.m).zipIdx e fun ed k s => onEdge S ed fun gp => (S.dat s.e).elt.value S.v.N (incr (dq e) a) (facePt (rule S ed) s.f gp) *
        lin (dfDhat S it.q ed (it.hat k) s gp) (chgHat S dqhat ed k (opp S ed s gp)) a) := by
    intro a
    have hz : ∀ i, (S.dat e).elt.intPhi S.v.N (fun z => lin (dsrcAt S (S.dat e) (it.q e) z) (qAt S.v.N (S.dat e).elt (incr (dq e)) z) a) i = 0 := by
      intro i
      simp [still_dsrc hfr, lin, Elt.intPhi]
    simp only [rowLin, hz, add_zero, mul_add, mul_sub, Finset.sum_add_distrib, Finset.sum_sub_distrib]
    rw [phi_test, face_test, face_test]
    have hm : ∀ (t : ℝ) (F : ℕ → ℝ), ∑ i ∈ Finset.range (ndof (S.dat e).elt.p), incr (dq e) a i * (t * F i) = t * ∑ i ∈ Finset.range (ndof (S.dat e).elt.p), incr (dq e) a i * F i := by
      intro t F
      rw [Finset.mul_sum]
      exact Finset.sum_congr rfl fun _ _ => by ring
    rw [hm, hm, dphi_test, dphi_test]
    simp only [chg, chgHat]
    ring
  rw [split 0, split 1, split 2]
  have p0 := hp e he 0 (by omega) (incr (dq e) 0) (incr (dq e) 1)
  have p1 := hp e he 1 (by omega) (incr (dq e) 0) (incr (dq e) 2)
  -- volume
  have hV : S.v.src.g * H * ((inElt S e fun z => (S.dat e).elt.deriv S.v.N 0 (incr (dq e) 0) z * lin (dFxDq S.v.src.g (inner S (S.dat e) (it.q e) z).1 (inner S (S.dat e) (it.q e) z).2)
        (qAt S.v.N (S.dat e).elt (incr (dq e)) z) 0) +
        inElt S e fun z => (S.dat e).elt.deriv S.v.N 1 (incr (dq e) 0) z * lin (dFyDq S.v.src.g (inner S (S.dat e) (it.q e) z).1 (inner S (S.dat e) (it.q e) z).2)
        (qAt S.v.N (S.dat e).elt (incr (dq e)) z) 0) +
      ((inElt S e fun z => (S.dat e).elt.deriv S.v.N 0 (incr (dq e) 1) z * lin (dFxDq S.v.src.g (inner S (S.dat e) (it.q e) z).1 (inner S (S.dat e) (it.q e) z).2)
        (qAt S.v.N (S.dat e).elt (incr (dq e)) z) 1) +
        inElt S e fun z => (S.dat e).elt.deriv S.v.N 1 (incr (dq e) 1) z * lin (dFyDq S.v.src.g (inner S (S.dat e) (it.q e) z).1 (inner S (S.dat e) (it.q e) z).2)
        (qAt S.v.N (S.dat e).elt (incr (dq e)) z) 1) +
      ((inElt S e fun z => (S.dat e).elt.deriv S.v.N 0 (incr (dq e) 2) z * lin (dFxDq S.v.src.g (inner S (S.dat e) (it.q e) z).1 (inner S (S.dat e) (it.q e) z).2)
        (qAt S.v.N (S.dat e).elt (incr (dq e)) z) 2) +
        inElt S e fun z => (S.dat e).elt.deriv S.v.N 1 (incr (dq e) 2) z * lin (dFyDq S.v.src.g (inner S (S.dat e) (it.q e) z).1 (inner S (S.dat e) (it.q e) z).2)
        (qAt S.v.N (S.dat e).elt (incr (dq e)) z) 2) =
      S.v.src.g * H * (inElt S e fun z => (S.dat e).elt.deriv S.v.N 0 (incr (dq e) 0) z * (S.dat e).elt.value S.v.N (incr (dq e) 1) z +
          (S.dat e).elt.deriv S.v.N 0 (incr (dq e) 1) z * (S.dat e).elt.value S.v.N (incr (dq e) 0) z) +
        S.v.src.g * H * (inElt S e fun z => (S.dat e).elt.deriv S.v.N 1 (incr (dq e) 0) z * (S.dat e).elt.value S.v.N (incr (dq e) 2) z +
          (S.dat e).elt.deriv S.v.N 1 (incr (dq e) 2) z * (S.dat e).elt.value S.v.N (incr (dq e) 0) z) := by
    simp only [inElt_mul, inElt_add]
    refine inElt_congr fun wz hwz => ?_
    obtain ⟨h1, h2, h3⟩ := h.inner e he wz hwz
    simp [lin, Matrix.mulVec, dotProduct, Fin.sum_univ_three, Swe.comp, dFxDq, dFyDq, h1, h2, h3, qAt]
    ring
  have hM : S.v.src.g * H * (inElt S e fun z => (S.dat e).elt.value S.v.N (incr (dq e) 0) z * (Swe.comp (qAt S.v.N (S.dat e).elt (incr (dq e)) z) 0 / S.dt)) +
      (inElt S e fun z => (S.dat e).elt.value S.v.N (incr (dq e) 1) z * (Swe.comp (qAt S.v.N (S.dat e).elt (incr (dq e)) z) 1 / S.dt)) +
      (inElt S e fun z => (S.dat e).elt.value S.v.N (incr (dq e) 2) z * (Swe.comp (qAt S.v.N (S.dat e).elt (incr (dq e)) z) 2 / S.dt)) = 1 / S.dt * square S H dq e := by
    unfold square
    simp only [inElt_mul, inElt_add]
    refine inElt_congr fun wz hwz => ?_
    simp [Swe.comp, qAt]
    ring
  have hF : S.v.src.g * H * ((sideSum (edgesOf S.m).zipIdx e fun ed k s => onEdge S ed fun gp => (S.dat s.e).elt.value S.v.N (incr (dq e) 0) (facePt (rule S ed) s.f gp) *
        lin (dfDq S ed (it.hat k) s gp) (chg S dq ed s gp) 0) +
        sideSum (edgesOf S.m).zipIdx e fun ed k s => onEdge S ed fun gp => (S.dat s.e).elt.value S.v.N (incr (dq e) 0) (facePt (rule S ed) s.f gp) *
        lin (dfDhat S it.q ed (it.hat k) s gp) (chgHat S dqhat ed k (opp S ed s gp)) 0) +
      ((sideSum (edgesOf S.m).zipIdx e fun ed k s => onEdge S ed fun gp => (S.dat s.e).elt.value S.v.N (incr (dq e) 1) (facePt (rule S ed) s.f gp) *
        lin (dfDq S ed (it.hat k) s gp) (chg S dq ed s gp) 1) +
        sideSum (edgesOf S.m).zipIdx e fun ed k s => onEdge S ed fun gp => (S.dat s.e).elt.value S.v.N (incr (dq e) 1) (facePt (rule S ed) s.f gp) *
        lin (dfDhat S it.q ed (it.hat k) s gp) (chgHat S dqhat ed k (opp S ed s gp)) 1) +
      ((sideSum (edgesOf S.m).zipIdx e fun ed k s => onEdge S ed fun gp => (S.dat s.e).elt.value S.v.N (incr (dq e) 2) (facePt (rule S ed) s.f gp) *
        lin (dfDq S ed (it.hat k) s gp) (chg S dq ed s gp) 2) +
        sideSum (edgesOf S.m).zipIdx e fun ed k s => onEdge S ed fun gp => (S.dat s.e).elt.value S.v.N (incr (dq e) 2) (facePt (rule S ed) s.f gp) *
        lin (dfDhat S it.q ed (it.hat k) s gp) (chgHat S dqhat ed k (opp S ed s gp)) 2) +
      (-(S.v.src.g * H)) * (sideSum (edgesOf S.m).zipIdx e fun ed _ s => onEdge S ed fun gp => nd (outward S ed s) 0 *
        ((S.dat s.e).elt.value S.v.N (incr (dq e) 0) (facePt (rule S ed) s.f gp) * (S.dat s.e).elt.value S.v.N (incr (dq e) 1) (facePt (rule S ed) s.f gp))) +
      (-(S.v.src.g * H)) * (sideSum (edgesOf S.m).zipIdx e fun ed _ s => onEdge S ed fun gp => nd (outward S ed s) 1 *
        ((S.dat s.e).elt.value S.v.N (incr (dq e) 0) (facePt (rule S ed) s.f gp) * (S.dat s.e).elt.value S.v.N (incr (dq e) 2) (facePt (rule S ed) s.f gp))) =
      sideSum (edgesOf S.m).zipIdx e fun ed k s => onEdge S ed (power S H dq dqhat ed k s) := by
    simp only [sideSum_mul, sideSum_add, onEdge_mul, onEdge_add]
    refine sideSum_congr fun x hx s hs hse => onEdge_congr fun gp hgp => ?_
    obtain ⟨hk, hed⟩ := edge_get (S := S) hx
    have hx' : (edgesOf S.m)[x.2]? = some x.1 := List.getElem?_eq_some_iff.2 ⟨hk, hed⟩
    obtain ⟨f0, f1, f2⟩ := still_flux h hx' hs hgp (chg S dq x.1 s gp) (chgHat S dqhat x.1 x.2 (opp S x.1 s gp))
    have v0 : (S.dat s.e).elt.value S.v.N (incr (dq e) 0) (facePt (rule S x.1) s.f gp) = (chg S dq x.1 s gp).ze := by rw [← hse]; rfl
    have v1 : (S.dat s.e).elt.value S.v.N (incr (dq e) 1) (facePt (rule S x.1) s.f gp) = (chg S dq x.1 s gp).qx := by rw [← hse]; rfl
    have v2 : (S.dat s.e).elt.value S.v.N (incr (dq e) 2) (facePt (rule S x.1) s.f gp) = (chg S dq x.1 s gp).qy := by rw [← hse]; rfl
    simp only [power, v0, v1, v2, nd, if_true, one_ne_zero, if_false]
    linear_combination S.v.src.g * H * (chg S dq x.1 s gp).ze * f0 + (chg S dq x.1 s gp).qx * f1 + (chg S dq x.1 s gp).qy * f2
  rw [p0, p1] at hV
  linear_combination hM - (1 - S.theta) * hV + (1 - S.theta) * hF

/-! ### Edges -/

/-- The equations of the edges without right-hand sides, at the Gauss points. -/
theorem edge_hom {q0 : State ℝ} {prev : ℕ → ℕ → ℝ} (hb : Closed S) (h : EdgeEq (skel S) (hom (blocks S q0 prev it)) dq dqhat) {k : ℕ} {ed : Edg ℝ}
    (hk : (edgesOf S.m)[k]? = some ed) {gp : ℕ} (hgp : gp < (rule S ed).length) (a : Fin 3) :
    (ed.sides.map fun s => lin (gDelta S it.q ed (it.hat k) s (opp S ed s gp)) (chg S dq ed s (opp S ed s gp)) a).sum +
      lin (gHat S it.q ed (it.hat k) gp) (chgHat S dqhat ed k gp) a = 0 := by
  obtain ⟨hk1, hed⟩ := List.getElem?_eq_some_iff.1 hk
  subst hed
  clear hk
  have hk := hk1
  have hE := hb.fits _ (List.getElem_mem hk)
  have hk' : k < (skel S).edges.length := by simpa [skel] using hk
  have hp := hE.points (fun gp => ((((edgesOf S.m)[k].sides.map fun s => lin (gDelta S it.q (edgesOf S.m)[k] (it.hat k) s (opp S (edgesOf S.m)[k] s gp))
      (chg S dq (edgesOf S.m)[k] s (opp S (edgesOf S.m)[k] s gp)) a).sum) + lin (gHat S it.q (edgesOf S.m)[k] (it.hat k) gp) (chgHat S dqhat (edgesOf S.m)[k] k gp) a) *
      ((tab S (edgesOf S.m)[k]).w gp * (tab S (edgesOf S.m)[k]).J)) ?_ gp hgp
  · exact (mul_eq_zero.1 hp).resolve_right (hE.pos gp hgp).ne'
  intro i hi
  have hG := h k hk' (3 * i + a.val) (by rw [esize_eq hk]; omega)
  rw [esize_eq hk] at hG
  have hr := edge_row q0 prev it dq dqhat hb.wf.nodup hk hk' hi a
  rw [show (tab S (edgesOf S.m)[k]).ngp = (rule S (edgesOf S.m)[k]).length from rfl]
  refine Eq.trans (Finset.sum_congr rfl fun gp _ => ?_) (hr.symm.trans hG)
  simp only [intLam, chg, chgHat]
  ring

/-- Square of the jump between an element and the trace. -/
noncomputable def jump (S : Scheme ℝ) (H : ℝ) (dq dqhat : ℕ → ℕ → ℝ) (ed : Edg ℝ) (k : ℕ) (s : Sd) (gp : ℕ) : ℝ :=
  let q := chg S dq ed s gp
  let y := chgHat S dqhat ed k (opp S ed s gp)
  S.v.src.g * H * (q.ze - y.ze) ^ 2 + (q.qx - y.qx) ^ 2 + (q.qy - y.qy) ^ 2

theorem speed_pos (hb : Closed S) (h : Still S H it) : 0 < S.v.sq (S.v.src.g * H) ∧ S.v.sq (S.v.src.g * H) * S.v.sq (S.v.src.g * H) = S.v.src.g * H := by
  have hp := mul_pos h.g h.pos
  obtain ⟨h1, h2⟩ := hb.basin.sqrt _ hp.le
  refine ⟨lt_of_le_of_ne h1 fun h0 => ?_, h2⟩
  rw [← h0, zero_mul] at h2
  exact hp.ne h2

/-- With the edges' equations what the sides of an edge add is the square of the jumps. -/
theorem edge_energy {q0 : State ℝ} {prev : ℕ → ℕ → ℝ} (hb : Closed S) (hs : Still S H it) (h : EdgeEq (skel S) (hom (blocks S q0 prev it)) dq dqhat) {k : ℕ} {ed : Edg ℝ}
    (hk : (edgesOf S.m)[k]? = some ed) {gp : ℕ} (hgp : gp < (rule S ed).length) :
    (ed.sides.map fun s => power S H dq dqhat ed k s (opp S ed s gp)).sum = S.v.sq (S.v.src.g * H) * (ed.sides.map fun s => jump S H dq dqhat ed k s (opp S ed s gp)).sum := by
  have hm := List.mem_of_getElem? hk
  obtain ⟨hc, -⟩ := speed_pos hb hs
  have he := fun a => edge_hom hb h hk hgp a
  cases ed with
  | int i =>
    have hi : i.kind = .internal := by
      have : i ∈ S.m.ints := by simpa [edgesOf] using hm
      exact (hb.basin.ints i this).2.2.2
    have hr : (rule S (.int i)).length - ((rule S (.int i)).length - gp - 1) - 1 = gp := by omega
    have hgp' : (rule S (.int i)).length - gp - 1 < (rule S (.int i)).length := by omega
    obtain ⟨a0, a1, a2⟩ := still_flux hs hk (s := ⟨i.ein, i.fin, false⟩) (by simp [Edg.sides]) hgp (chg S dq (.int i) ⟨i.ein, i.fin, false⟩ gp) (chgHat S dqhat (.int i) k gp)
    obtain ⟨b0, b1, b2⟩ := still_flux hs hk (s := ⟨i.eex, i.fex, true⟩) (by simp [Edg.sides]) hgp' (chg S dq (.int i) ⟨i.eex, i.fex, true⟩ ((rule S (.int i)).length - gp - 1))
      (chgHat S dqhat (.int i) k gp)
    have he0 := he 0
    have he1 := he 1
    have he2 := he 2
    simp only [Edg.sides, gDelta, gHat, hi, opp, List.map_cons, List.map_nil, List.sum_cons, List.sum_nil, if_true, if_false, Bool.false_eq_true, add_zero] at he0 he1 he2
    have hl : ∀ (A B : M3 ℝ) (q : Q ℝ) (a : Fin 3), lin (A + B) q a = lin A q a + lin B q a := fun A B q a => by simp [lin, Matrix.add_mulVec]
    rw [hl] at he0 he1 he2
    simp only [outward, if_true, if_false, Bool.false_eq_true] at a0 a1 a2 b0 b1 b2
    simp only [Edg.sides, List.map_cons, List.map_nil, List.sum_cons, List.sum_nil, power, jump, opp_twice hgp, outward, if_true, if_false, Bool.false_eq_true, add_zero]
    simp only [opp, if_true, if_false, Bool.false_eq_true]
    set qi := chg S dq (.int i) ⟨i.ein, i.fin, false⟩ gp
    set qe := chg S dq (.int i) ⟨i.eex, i.fex, true⟩ ((rule S (.int i)).length - gp - 1)
    set y := chgHat S dqhat (.int i) k gp
    set c := S.v.sq (S.v.src.g * H)
    have e0 : qe.ze = 2 * y.ze - qi.ze := by
      have : c * (qe.ze + qi.ze - 2 * y.ze) = 0 := by linear_combination he0 - a0 - b0
      linarith [(mul_eq_zero.1 this).resolve_left hc.ne']
    have e1 : qe.qx = 2 * y.qx - qi.qx := by
      have : c * (qe.qx + qi.qx - 2 * y.qx) = 0 := by linear_combination he1 - a1 - b1
      linarith [(mul_eq_zero.1 this).resolve_left hc.ne']
    have e2 : qe.qy = 2 * y.qy - qi.qy := by
      have : c * (qe.qy + qi.qy - 2 * y.qy) = 0 := by linear_combination he2 - a2 - b2
      linarith [(mul_eq_zero.1 this).resolve_left hc.ne']
    rw [e0, e1, e2]
    ring
  | bnd b =>
    have hbm : b ∈ S.m.bnds := by simpa [edgesOf] using hm
    obtain ⟨h1, h2, h3⟩ := hb.basin.bnds b hbm
    have hu : (nrm S (.bnd b)).x ^ 2 + (nrm S (.bnd b)).y ^ 2 = 1 := (normal_spec hb.basin.sqrt (S.dat b.e).elt.tri (hb.basin.ccw _ h1) b.f h2).1
    have he0 := he 0
    have he1 := he 1
    have he2 := he 2
    simp only [Edg.sides, gDelta, gHat, h3, opp, List.map_cons, List.map_nil, List.sum_cons, List.sum_nil, if_false, Bool.false_eq_true, add_zero, lin, landDelta, Matrix.mulVec, dotProduct,
      Fin.sum_univ_three, Swe.comp, Matrix.add_apply, Matrix.neg_apply, Matrix.one_fin_three, Matrix.of_apply, Matrix.cons_val', Matrix.cons_val_zero, Matrix.cons_val_one,
      Matrix.cons_val, Matrix.cons_val_fin_one] at he0 he1 he2
    norm_num at he0 he1 he2
    simp only [Edg.sides, List.map_cons, List.map_nil, List.sum_cons, List.sum_nil, power, jump, opp_twice hgp, outward, if_false, Bool.false_eq_true, add_zero]
    simp only [opp, if_false, Bool.false_eq_true]
    set q := chg S dq (.bnd b) ⟨b.e, b.f, false⟩ gp
    set y := chgHat S dqhat (.bnd b) k gp
    set c := S.v.sq (S.v.src.g * H)
    set n := nrm S (.bnd b)
    have e0 : y.ze = q.ze := by linarith
    have e1 : y.qx = q.qx - (n.x * q.qx + n.y * q.qy) * n.x := by linear_combination he1
    have e2 : y.qy = q.qy - (n.x * q.qx + n.y * q.qy) * n.y := by linear_combination he2
    rw [e0, e1, e2]
    linear_combination (-(S.v.src.g * H * q.ze * (n.x * q.qx + n.y * q.qy)) - c * (n.x * q.qx + n.y * q.qy) ^ 2) * hu

/-! ### The whole mesh -/

/-- **C102** The energy of a change which solves the equations of a Newton iteration without right-hand sides. -/
theorem energy {q0 : State ℝ} {prev : ℕ → ℕ → ℝ} (hb : Closed S) (hs : Still S H it) (hp : Parts S) (hfr : S.v.src.bottomFriction = false)
    (h1 : ElementEq (skel S) (hom (blocks S q0 prev it)) dq dqhat) (h2 : EdgeEq (skel S) (hom (blocks S q0 prev it)) dq dqhat) :
    (S.m.elts.map fun e => 1 / S.dt * square S H dq e).sum + (1 - S.theta) * S.v.sq (S.v.src.g * H) *
      ((edgesOf S.m).zipIdx.map fun x => onEdge S x.1 fun gp => (x.1.sides.map fun s => jump S H dq dqhat x.1 x.2 s (opp S x.1 s gp)).sum).sum = 0 := by
  have hE : ∀ e ∈ S.m.elts, 1 / S.dt * square S H dq e + (1 - S.theta) * (sideSum (edgesOf S.m).zipIdx e fun ed k s => onEdge S ed (power S H dq dqhat ed k s)) = 0 := by
    intro e he
    rw [← elt_energy hs hp hfr he]
    have hz : ∀ a : Fin 3, ∑ i ∈ Finset.range (ndof (S.dat e).elt.p), incr (dq e) a i * rowLin S it dq dqhat e i a = 0 := by
      intro a
      refine Finset.sum_eq_zero fun i hi => mul_eq_zero_of_right _ ?_
      rw [← element_row q0 prev it dq dqhat hb.wf.nodup hb.sym he i a]
      exact h1 e he (3 * i + a.val) (by simp only [skel]; have := Finset.mem_range.1 hi; omega)
    rw [hz, hz, hz]
    ring
  have hsum : (S.m.elts.map fun e => 1 / S.dt * square S H dq e + (1 - S.theta) *
      (sideSum (edgesOf S.m).zipIdx e fun ed k s => onEdge S ed (power S H dq dqhat ed k s))).sum = 0 := by
    refine List.sum_eq_zero fun r hr => ?_
    obtain ⟨e, he, rfl⟩ := List.mem_map.1 hr
    exact hE e he
  rw [← map_add', ← map_mul' _ (fun e => sideSum _ e _), sum_sides _ hb.basin.nodup _ fun x hx s hs => by
    obtain ⟨hk, hed⟩ := edge_get (S := S) hx
    exact sides_mem hb.basin (by rw [← hed]; exact List.getElem_mem hk) s hs] at hsum
  have h3 : ∀ x ∈ (edgesOf S.m).zipIdx, (x.1.sides.map fun s => onEdge S x.1 (power S H dq dqhat x.1 x.2 s)).sum =
      S.v.sq (S.v.src.g * H) * onEdge S x.1 fun gp => (x.1.sides.map fun s => jump S H dq dqhat x.1 x.2 s (opp S x.1 s gp)).sum := by
    intro x hx
    obtain ⟨hk, hed⟩ := edge_get (S := S) hx
    have hm : x.1 ∈ edgesOf S.m := by rw [← hed]; exact List.getElem_mem hk
    have hx' : (edgesOf S.m)[x.2]? = some x.1 := List.getElem?_eq_some_iff.2 ⟨hk, hed⟩
    rw [onEdge_mul, List.map_congr_left fun s _ => onEdge_opp hb.sym hm s (power S H dq dqhat x.1 x.2 s), onEdge_list]
    exact onEdge_congr fun gp hgp => edge_energy hb hs h2 hx' hgp
  rw [List.map_congr_left h3, ← map_mul' (edgesOf S.m).zipIdx] at hsum
  linear_combination hsum

/-- Integrals of squares are positive: the quadrature rule of each element is good enough for products of its basis functions. -/
def Definite (S : Scheme ℝ) : Prop :=
  ∀ e ∈ S.m.elts, ∀ u : ℕ → ℝ, 0 ≤ (inElt S e fun z => (S.dat e).elt.value S.v.N u z ^ 2) ∧
    ((inElt S e fun z => (S.dat e).elt.value S.v.N u z ^ 2) = 0 → ∀ d < ndof (S.dat e).elt.p, u d = 0)

theorem onEdge_nonneg (hb : Closed S) {ed : Edg ℝ} (hed : ed ∈ edgesOf S.m) {f : ℕ → ℝ} (hf : ∀ gp < (rule S ed).length, 0 ≤ f gp) : 0 ≤ onEdge S ed f :=
  Finset.sum_nonneg fun gp hgp => mul_nonneg (hf gp (Finset.mem_range.1 hgp)) ((hb.fits ed hed).pos gp (Finset.mem_range.1 hgp)).le

theorem onEdge_zero (hb : Closed S) {ed : Edg ℝ} (hed : ed ∈ edgesOf S.m) {f : ℕ → ℝ} (hf : ∀ gp < (rule S ed).length, 0 ≤ f gp) (h0 : onEdge S ed f = 0) :
    ∀ gp < (rule S ed).length, f gp = 0 := by
  intro gp hgp
  have hz := (Finset.sum_eq_zero_iff_of_nonneg fun gp hgp => mul_nonneg (hf gp (Finset.mem_range.1 hgp)) ((hb.fits ed hed).pos gp (Finset.mem_range.1 hgp)).le).1 h0 gp (Finset.mem_range.2 hgp)
  exact (mul_eq_zero.1 hz).resolve_right ((hb.fits ed hed).pos gp hgp).ne'

theorem square_split (e : ℕ) : square S H dq e = S.v.src.g * H * (inElt S e fun z => (S.dat e).elt.value S.v.N (incr (dq e) 0) z ^ 2) +
    (inElt S e fun z => (S.dat e).elt.value S.v.N (incr (dq e) 1) z ^ 2) + inElt S e fun z => (S.dat e).elt.value S.v.N (incr (dq e) 2) z ^ 2 := by
  unfold square
  rw [inElt_mul, inElt_add, inElt_add]

theorem square_nonneg (hs : Still S H it) (hd : Definite S) {e : ℕ} (he : e ∈ S.m.elts) : 0 ≤ square S H dq e := by
  rw [square_split]
  exact add_nonneg (add_nonneg (mul_nonneg (mul_pos hs.g hs.pos).le (hd e he _).1) (hd e he _).1) (hd e he _).1

theorem square_zero (hs : Still S H it) (hd : Definite S) {e : ℕ} (he : e ∈ S.m.elts) (h0 : square S H dq e ≤ 0) : ∀ i < 3 * ndof (S.dat e).elt.p, dq e i = 0 := by
  rw [square_split] at h0
  have p0 := hd e he (incr (dq e) 0)
  have p1 := hd e he (incr (dq e) 1)
  have p2 := hd e he (incr (dq e) 2)
  have hg := mul_pos hs.g hs.pos
  have q0 := mul_nonneg hg.le p0.1
  have z0 := p0.2 ((mul_eq_zero.1 (le_antisymm (by linarith [p1.1, p2.1]) q0)).resolve_left hg.ne')
  have z1 := p1.2 (le_antisymm (by linarith [p2.1]) p1.1)
  have z2 := p2.2 (le_antisymm (by linarith [p1.1]) p2.1)
  intro i hi
  obtain h | h | h : i % 3 = 0 ∨ i % 3 = 1 ∨ i % 3 = 2 := by omega
  · have := z0 (i / 3) (by omega)
    simpa [incr, show 3 * (i / 3) = i by omega] using this
  · have := z1 (i / 3) (by omega)
    simpa [incr, show 3 * (i / 3) + 1 = i by omega] using this
  · have := z2 (i / 3) (by omega)
    simpa [incr, show 3 * (i / 3) + 2 = i by omega] using this

theorem chg_zero {e : ℕ} (h : ∀ i < 3 * ndof (S.dat e).elt.p, dq e i = 0) (z : P2 ℝ) : qAt S.v.N (S.dat e).elt (incr (dq e)) z = ⟨0, 0, 0⟩ := by
  have : ∀ a : Fin 3, (S.dat e).elt.value S.v.N (incr (dq e) a) z = 0 := by
    intro a
    simp only [Elt.value, sum_range_list]
    exact Finset.sum_eq_zero fun d hd => by
      have := Finset.mem_range.1 hd
      rw [incr, h _ (by omega), zero_mul]
  simp only [qAt, this]

/-- **C102** At rest over a flat bed in a closed basin the equations of a Newton iteration have one solution at most. -/
theorem rest_sole (hb : Closed S) (hs : Still S H it) (hp : Parts S) (hd : Definite S) (hfr : S.v.src.bottomFriction = false) (hdt : 0 < S.dt) (hth : S.theta ≤ 1)
    (q0 : State ℝ) (prev : ℕ → ℕ → ℝ) : Sole (skel S) (blocks S q0 prev it) := by
  intro dq dqhat h1 h2
  have hE := energy hb hs hp hfr h1 h2
  obtain ⟨hc, -⟩ := speed_pos hb hs
  have hj : ∀ ed k s gp, 0 ≤ jump S H dq dqhat ed k s gp := fun ed k s gp =>
    add_nonneg (add_nonneg (mul_nonneg (mul_pos hs.g hs.pos).le (sq_nonneg _)) (sq_nonneg _)) (sq_nonneg _)
  have h3 : 0 ≤ ((edgesOf S.m).zipIdx.map fun x => onEdge S x.1 fun gp => (x.1.sides.map fun s => jump S H dq dqhat x.1 x.2 s (opp S x.1 s gp)).sum).sum := by
    refine List.sum_nonneg fun r hr => ?_
    obtain ⟨x, hx, rfl⟩ := List.mem_map.1 hr
    obtain ⟨hk, hed⟩ := edge_get (S := S) hx
    refine onEdge_nonneg hb (by rw [← hed]; exact List.getElem_mem hk) fun gp _ => List.sum_nonneg fun r hr => ?_
    obtain ⟨s, _, rfl⟩ := List.mem_map.1 hr
    exact hj _ _ _ _
  have h4 := mul_nonneg (mul_nonneg (sub_nonneg.2 hth) hc.le) h3
  have hdt' : 0 < 1 / S.dt := one_div_pos.2 hdt
  have hterm : ∀ e ∈ S.m.elts, 0 ≤ 1 / S.dt * square S H dq e := fun e he => mul_nonneg hdt'.le (square_nonneg hs hd he)
  have hz : ∀ e ∈ S.m.elts, ∀ i < 3 * ndof (S.dat e).elt.p, dq e i = 0 := by
    intro e he
    have hle := List.single_le_sum (l := S.m.elts.map fun e => 1 / S.dt * square S H dq e)
      (by intro r hr; obtain ⟨e, he, rfl⟩ := List.mem_map.1 hr; exact hterm e he) _ (List.mem_map.2 ⟨e, he, rfl⟩)
    refine square_zero hs hd he ?_
    by_contra hn
    have := mul_pos hdt' (not_le.1 hn)
    linarith
  refine ⟨hz, fun k hk j hj => ?_⟩
  have hk' : k < (edgesOf S.m).length := by simpa [skel] using hk
  have hx' : (edgesOf S.m)[k]? = some (edgesOf S.m)[k] := List.getElem?_eq_getElem hk'
  have hm := List.getElem_mem hk'
  rw [esize_eq hk'] at hj
  set ed := (edgesOf S.m)[k] with hed
  have hq : ∀ s ∈ ed.sides, ∀ gp, chg S dq ed s gp = ⟨0, 0, 0⟩ := fun s hs gp => chg_zero (hz s.e (sides_mem hb.basin hm s hs)) _
  have hy : ∀ gp < (rule S ed).length, ∀ a, Swe.comp (chgHat S dqhat ed k gp) a = 0 := by
    intro gp hgp a
    have he := edge_hom hb h2 hx' hgp
    have hl0 : ∀ (M : M3 ℝ) (a : Fin 3), lin M ⟨0, 0, 0⟩ a = 0 := by
      intro M a
      simp [lin, Matrix.mulVec, dotProduct, Fin.sum_univ_three, Swe.comp]
    have hg : ∀ a, lin (gHat S it.q ed (it.hat k) gp) (chgHat S dqhat ed k gp) a = 0 := by
      intro a
      have hz : (ed.sides.map fun s => lin (gDelta S it.q ed (it.hat k) s (opp S ed s gp)) (chg S dq ed s (opp S ed s gp)) a).sum = 0 := by
        refine List.sum_eq_zero fun r hr => ?_
        obtain ⟨s, hs, rfl⟩ := List.mem_map.1 hr
        rw [hq s hs, hl0]
      have := he a
      rw [hz, zero_add] at this
      exact this
    clear_value ed
    cases ed with
    | int i =>
      have hi : i.kind = .internal := by
        have : i ∈ S.m.ints := by simpa [edgesOf] using hm
        exact (hb.basin.ints i this).2.2.2
      have hgp' : (rule S (.int i)).length - gp - 1 < (rule S (.int i)).length := by omega
      have hr : (rule S (.int i)).length - ((rule S (.int i)).length - gp - 1) - 1 = gp := by omega
      obtain ⟨a0, a1, a2⟩ := still_flux hs hx' (s := ⟨i.ein, i.fin, false⟩) (by simp [Edg.sides]) hgp ⟨0, 0, 0⟩ (chgHat S dqhat (.int i) k gp)
      obtain ⟨b0, b1, b2⟩ := still_flux hs hx' (s := ⟨i.eex, i.fex, true⟩) (by simp [Edg.sides]) hgp' ⟨0, 0, 0⟩ (chgHat S dqhat (.int i) k gp)
      have hl : ∀ (A B : M3 ℝ) (q : Q ℝ) (a : Fin 3), lin (A + B) q a = lin A q a + lin B q a := fun A B q a => by simp [lin, Matrix.add_mulVec]
      have he0 := hg 0
      have he1 := hg 1
      have he2 := hg 2
      simp only [gHat, hi, hl] at he0 he1 he2
      simp only [outward, if_true, if_false, Bool.false_eq_true, hl0, zero_add, mul_zero] at a0 a1 a2 b0 b1 b2
      rw [a0, b0] at he0
      rw [a1, b1] at he1
      rw [a2, b2] at he2
      set y := chgHat S dqhat (.int i) k gp
      set c := S.v.sq (S.v.src.g * H)
      have e0 : y.ze = 0 := (mul_eq_zero.1 (show c * y.ze = 0 by linear_combination -he0 / 2)).resolve_left hc.ne'
      have e1 : y.qx = 0 := (mul_eq_zero.1 (show c * y.qx = 0 by linear_combination -he1 / 2)).resolve_left hc.ne'
      have e2 : y.qy = 0 := (mul_eq_zero.1 (show c * y.qy = 0 by linear_combination -he2 / 2)).resolve_left hc.ne'
      rcases (by fin_cases a <;> simp : a = 0 ∨ a = 1 ∨ a = 2) with rfl | rfl | rfl
      · exact e0
      · exact e1
      · exact e2
    | bnd b =>
      have hbm : b ∈ S.m.bnds := by simpa [edgesOf] using hm
      have := hg a
      simp only [gHat, (hb.basin.bnds b hbm).2.2, lin, Matrix.one_mulVec] at this
      exact this
  have hf := (hb.fits ed hm).functions (incr (dqhat k) ⟨j % 3, by omega⟩) (fun gp hgp => ?_) (j / 3) (by omega)
  · simpa [incr, show 3 * (j / 3) + j % 3 = j by omega] using hf
  · have := hy gp hgp ⟨j % 3, by omega⟩
    rw [chgHat, hat, comp_ofComp] at this
    exact this

/-- **C102** At rest the matrix of each element is regular. -/
theorem rest_local (hb : Closed S) (hs : Still S H it) (hp : Parts S) (hd : Definite S) (hfr : S.v.src.bottomFriction = false) (hdt : 0 < S.dt) (hth : S.theta ≤ 1)
    (q0 : State ℝ) (prev : ℕ → ℕ → ℝ) {e : ℕ} (he : e ∈ S.m.elts) : Gn.Props.Regular ((skel S).size e) ((blocks S q0 prev it).dl e) := by
  intro x hx
  obtain ⟨hc, hcc⟩ := speed_pos hb hs
  have hE := elt_energy (dq := fun _ => x) (dqhat := fun _ _ => 0) hs hp hfr he
  have hz : ∀ a : Fin 3, ∑ i ∈ Finset.range (ndof (S.dat e).elt.p), incr x a i * rowLin S it (fun _ => x) (fun _ _ => 0) e i a = 0 := by
    intro a
    refine Finset.sum_eq_zero fun i hi => mul_eq_zero_of_right _ ?_
    rw [← element_row q0 prev it (fun _ => x) (fun _ _ => 0) hb.wf.nodup hb.sym he i a]
    have h0 := hx (3 * i + a.val) (by simp only [skel]; have := Finset.mem_range.1 hi; omega)
    rw [h0, zero_add]
    refine List.sum_eq_zero fun r hr => ?_
    obtain ⟨_, _, rfl⟩ := List.mem_map.1 hr
    refine List.sum_eq_zero fun r hr => ?_
    obtain ⟨_, _, rfl⟩ := List.mem_map.1 hr
    exact Finset.sum_eq_zero fun _ _ => mul_zero _
  rw [hz, hz, hz] at hE
  have hnn : 0 ≤ sideSum (edgesOf S.m).zipIdx e fun ed k s => onEdge S ed (power S H (fun _ => x) (fun _ _ => 0) ed k s) := by
    refine List.sum_nonneg fun r hr => ?_
    obtain ⟨y, hy, rfl⟩ := List.mem_map.1 hr
    refine List.sum_nonneg fun r hr => ?_
    obtain ⟨s, hsm, rfl⟩ := List.mem_map.1 hr
    obtain ⟨hk, hed⟩ := edge_get (S := S) hy
    have hm : y.1 ∈ edgesOf S.m := by rw [← hed]; exact List.getElem_mem hk
    refine onEdge_nonneg hb hm fun gp _ => ?_
    have hu : (outward S y.1 s).x ^ 2 + (outward S y.1 s).y ^ 2 = 1 := by
      have : (nrm S y.1).x ^ 2 + (nrm S y.1).y ^ 2 = 1 := by
        cases hy1 : y.1 with
        | int i =>
          rw [hy1] at hm
          have : i ∈ S.m.ints := by simpa [edgesOf] using hm
          obtain ⟨h1, -, h2, -⟩ := hb.basin.ints i this
          exact (normal_spec hb.basin.sqrt (S.dat i.ein).elt.tri (hb.basin.ccw _ h1) i.fin h2).1
        | bnd b =>
          rw [hy1] at hm
          have : b ∈ S.m.bnds := by simpa [edgesOf] using hm
          obtain ⟨h1, h2, -⟩ := hb.basin.bnds b this
          exact (normal_spec hb.basin.sqrt (S.dat b.e).elt.tri (hb.basin.ccw _ h1) b.f h2).1
      unfold outward
      split_ifs
      · simpa using this
      · exact this
    have hy0 : ∀ g, chgHat S (fun _ _ => 0) y.1 y.2 g = ⟨0, 0, 0⟩ := by
      intro g
      have : ∀ a, ugp (tab S y.1) (incr (fun _ => (0 : ℝ)) a) g = 0 := fun a => by simp [ugp, incr]
      simp only [chgHat, hat, this]
      rfl
    simp only [power, hy0]
    set q := chg S (fun _ => x) y.1 s gp
    set n := outward S y.1 s
    set c := S.v.sq (S.v.src.g * H)
    rw [← hcc]
    have key : c * c * q.ze * (c * q.ze - c * 0 + (n.x * 0 + n.y * 0)) + q.qx * (c * q.qx - c * 0 + c * c * n.x * 0) + q.qy * (c * q.qy - c * 0 + c * c * n.y * 0) -
        c * c * (q.ze * (n.x * q.qx + n.y * q.qy)) =
        c * ((c * q.ze - (n.x * q.qx + n.y * q.qy) / 2) ^ 2 + 3 / 4 * (n.x * q.qx + n.y * q.qy) ^ 2 + (n.x * q.qy - n.y * q.qx) ^ 2) := by
      linear_combination -c * (q.qx ^ 2 + q.qy ^ 2) * hu
    rw [key]
    positivity
  have h4 := mul_nonneg (sub_nonneg.2 hth) hnn
  refine square_zero (dq := fun _ => x) hs hd he ?_
  by_contra hn
  have := mul_pos (one_div_pos.2 hdt) (not_le.1 hn)
  linarith

/-- **C102** At rest each Newton iteration succeeds if the libraries succeed with regular matrices. -/
theorem rest_newton (hb : Closed S) (hs : Still S H it) (hp : Parts S) (hd : Definite S) (hfr : S.v.src.bottomFriction = false) (hdt : 0 < S.dt) (hth : S.theta ≤ 1)
    (hc : Gn.Props.Complete S.I S.slv) (q0 : State ℝ) (prev : ℕ → ℕ → ℝ) : ∃ it' x, newton S q0 prev it = some (it', x) := by
  have hf : finite S it.q = true := by
    simp only [finite, List.all_eq_true]
    intro e _ wz _
    simp [dsource, hfr]
  have hi : (inverses S.I (blocks S q0 prev it) (skel S) (skel S).elts).isSome := (inverses_isSome S.I _ _ _).2 fun e he =>
    hc.inv _ _ (rest_local hb hs hp hd hfr hdt hth q0 prev he)
  obtain ⟨inv, hi⟩ := Option.isSome_iff_exists.1 hi
  have hr := serial_regular hb.inv hb.wf (rest_sole hb hs hp hd hfr hdt hth q0 prev) hi
  obtain ⟨x, hx⟩ := Option.isSome_iff_exists.1 (hc.slv _ _ (assembleRhs (skel S) (number (skel S)) (blocks S q0 prev it) inv) hr)
  unfold newton
  rw [if_pos hf]
  unfold condense
  simp only [hi, Option.bind_eq_bind, Option.bind_some, hx]
  exact ⟨_, _, rfl⟩

end Verif.Ihdg.Props
