import Verif.Model.SweInit
import Verif.Props.GnGrad
import Verif.Props.FreeStream
import Verif.Props.LakeRun

/-!
# C105: the initial data represent the input

The bathymetry is the piecewise linear interpolant of the values at the nodes, so it is continuous, with the right slopes; constant initial
conditions are represented exactly; initial functions are represented exactly if they are polynomials of the degree of the elements, and otherwise
by the polynomial that the quadrature rule cannot distinguish from them; both sides of an interface get the same projection factor.

`Rules N F P 0` and `Orthogonal N F P` say that the rules are exact and the basis orthogonal (C41, C37).
-/

namespace Verif.Swe.Props
open Verif.Geometry Verif.Geometry.Props Verif.Element Verif.Tri Verif.Gn.Props Verif.Basis MvPolynomial

/-- Linear interpolation between the values at the corners of the master triangle. -/
noncomputable def between (w : ℕ → ℝ) (z : P2 ℝ) : ℝ := w 0 + (z.x + 1) / 2 * (w 1 - w 0) + (z.y + 1) / 2 * (w 2 - w 0)

/-- The same as a polynomial. -/
noncomputable def betweenPoly (w : ℕ → ℝ) : MvPolynomial (Fin 2) ℝ :=
  C (w 0 + (w 1 - w 0) / 2 + (w 2 - w 0) / 2) + C ((w 1 - w 0) / 2) * X 0 + C ((w 2 - w 0) / 2) * X 1

theorem between_eval (w : ℕ → ℝ) (z : P2 ℝ) : eval ![z.x, z.y] (betweenPoly w) = between w z := by
  simp [betweenPoly, between]; ring

theorem psi_between (w : ℕ → ℝ) (z : P2 ℝ) : w 0 * psi 0 z + w 1 * psi 1 z + w 2 * psi 2 z = between w z := by
  simp [psi, between]; ring

section projection
variable {N : Numerics ℝ} {F : ℕ → MvPolynomial (Fin 2) ℝ} {P : ℕ} {ε : ℝ}

/-! ### Projection -/

/-- The coefficients of a polynomial, up to the error of the rules. -/
theorem project_near (hR : Rules N F P ε) {e : Elt ℝ} (hp : e.p ≤ P) (ht : jdet e.tri ≠ 0) {f : P2 ℝ → ℝ} {G : MvPolynomial (Fin 2) ℝ} (hG : G.totalDegree ≤ e.p)
    (h : ∀ z : P2 ℝ, z.y ≠ 1 → f z = eval ![z.x, z.y] G) {d : ℕ} (hd : d < ndof e.p) :
    |e.intPhi N f d * (N.basis.minv d / |jdet e.tri|) - N.basis.minv d * I2L (G * F d)| ≤ |N.basis.minv d| * (ε * absCoeffs (G * F d)) := by
  have hdeg : (G * F d).totalDegree ≤ 2 * e.p := (totalDegree_mul _ _).trans (by have := hR.degree _ hp d hd; omega)
  have ha := tri_approx (r := N.tri (2 * e.p)) (hR.tri _ hp) (G * F d) hdeg
  have hj0 : |jdet e.tri| ≠ 0 := (abs_pos.2 ht).ne'
  have hint : e.intPhi N f d = |jdet e.tri| * triL (N.tri (2 * e.p)) (G * F d) := by
    simp only [Elt.intPhi, Elt.gps, triL, LinearMap.coe_mk, AddHom.coe_mk]
    rw [← List.sum_map_mul_left]
    congr 1
    refine List.map_congr_left fun wz hwz => ?_
    have hz := hR.pts _ hp wz hwz
    rw [h _ hz, (hR.basis d (lt_of_lt_of_le hd (ndof_mono hp)) wz.2 (Or.inl hz)).1]
    simp only [map_mul]
    ring
  have : e.intPhi N f d * (N.basis.minv d / |jdet e.tri|) - N.basis.minv d * I2L (G * F d) = N.basis.minv d * (triL (N.tri (2 * e.p)) (G * F d) - I2L (G * F d)) := by
    rw [hint]; field_simp
  rw [this, abs_mul]
  exact mul_le_mul_of_nonneg_left ha (abs_nonneg _)

theorem project_coef (hR : Rules N F P 0) {e : Elt ℝ} (hp : e.p ≤ P) (ht : jdet e.tri ≠ 0) {f : P2 ℝ → ℝ} {G : MvPolynomial (Fin 2) ℝ} (hG : G.totalDegree ≤ e.p)
    (h : ∀ z : P2 ℝ, z.y ≠ 1 → f z = eval ![z.x, z.y] G) {d : ℕ} (hd : d < ndof e.p) :
    e.intPhi N f d * (N.basis.minv d / |jdet e.tri|) = N.basis.minv d * I2L (G * F d) := by
  have := project_near hR hp ht hG h hd
  rw [zero_mul, mul_zero, abs_nonpos_iff, sub_eq_zero] at this
  exact this

theorem value_eval (hR : Rules N F P ε) {e : Elt ℝ} (hp : e.p ≤ P) (u : ℕ → ℝ) {z : P2 ℝ} (hz : Reg z) :
    e.value N u z = eval ![z.x, z.y] (∑ d ∈ Finset.range (ndof e.p), C (u d) * F d) := by
  unfold Elt.value
  rw [sum_range_list, map_sum]
  refine Finset.sum_congr rfl fun d hd => ?_
  rw [map_mul, eval_C, (hR.basis d (lt_of_lt_of_le (Finset.mem_range.mp hd) (ndof_mono hp)) z hz).1]

theorem deriv_eval (hR : Rules N F P ε) {e : Elt ℝ} (hp : e.p ≤ P) (u : ℕ → ℝ) (dir : ℕ) {z : P2 ℝ} (hz : Reg z) :
    e.deriv N dir u z = eval ![z.x, z.y] (dPoly e.tri dir (∑ d ∈ Finset.range (ndof e.p), C (u d) * F d)) := by
  unfold Elt.deriv dPoly Elt.dphi
  rw [sum_range_list, map_add, map_mul, map_mul, eval_C, eval_C, map_sum, map_sum, map_sum, map_sum, Finset.mul_sum, Finset.mul_sum, ← Finset.sum_add_distrib]
  refine Finset.sum_congr rfl fun d hd => ?_
  have hb := hR.basis d (lt_of_lt_of_le (Finset.mem_range.mp hd) (ndof_mono hp)) z hz
  rw [hb.2.1, hb.2.2]
  have hd : ∀ i : Fin 2, eval ![z.x, z.y] (pderiv i (C (u d) * F d)) = u d * eval ![z.x, z.y] (pderiv i (F d)) := by
    intro i
    rw [pderiv_C_mul, map_mul, eval_C]
  rw [hd, hd]
  ring

/-- The projection of a polynomial of the degree of the element is the polynomial. -/
theorem project_poly (hR : Rules N F P 0) (hO : Orthogonal N F P) {e : Elt ℝ} (hp : e.p ≤ P) (ht : jdet e.tri ≠ 0) {f : P2 ℝ → ℝ} {G : MvPolynomial (Fin 2) ℝ}
    (hG : G.totalDegree ≤ e.p) (h : ∀ z : P2 ℝ, z.y ≠ 1 → f z = eval ![z.x, z.y] G) :
    ∑ d ∈ Finset.range (ndof e.p), C (e.intPhi N f d * (N.basis.minv d / |jdet e.tri|)) * F d = G := by
  conv_rhs => rw [expansion hO hR.degree hp hG]
  refine Finset.sum_congr rfl fun d hd => ?_
  rw [project_coef hR hp ht hG h (Finset.mem_range.mp hd)]

/-! ### Values at nodes -/

theorem node_poly (hR : Rules N F P 0) (hO : Orthogonal N F P) {e : Elt ℝ} (hp : e.p ≤ P) (h1 : 1 ≤ e.p) (ht : jdet e.tri ≠ 0) (w : ℕ → ℝ) :
    ∑ d ∈ Finset.range (ndof e.p), C (e.projectNode N w d) * F d = betweenPoly w :=
  project_poly hR hO hp ht ((linear_degree _ _ _).trans h1) fun z _ => by rw [between_eval, ← psi_between]

/-- Coefficients of constant values at the nodes, for elements of any degree. -/
theorem node_const (hR : Rules N F P 0) (hO : Orthogonal N F P) {e : Elt ℝ} (hp : e.p ≤ P) (ht : jdet e.tri ≠ 0) (c : ℝ) {d : ℕ} (hd : d < ndof e.p) :
    e.projectNode N (fun _ => c) d = if d = 0 then c else 0 := by
  have hF0 : F 0 = 1 := by
    refine reg_funext fun z hz => ?_
    rw [← (hR.basis 0 (ndof_pos P) z hz).1, hR.phi0, map_one]
  have h := project_coef (f := fun z => c * psi 0 z + c * psi 1 z + c * psi 2 z) (G := C c) hR hp ht (by rw [totalDegree_C]; omega)
    (fun z _ => by simp [psi]; ring) hd
  unfold Elt.projectNode
  rw [h]
  have hd' := lt_of_lt_of_le hd (ndof_mono hp)
  have : (C c * F d : MvPolynomial (Fin 2) ℝ) = c • (F 0 * F d) := by rw [hF0, one_mul, smul_eq_C_mul]
  rw [this, map_smul, smul_eq_mul, I2L_eq hO (ndof_pos P) hd']
  by_cases h0 : d = 0
  · subst h0; rw [if_pos rfl, if_pos rfl, mul_comm, mul_assoc, inv_mul_cancel₀ (hO 0 hd').1, mul_one]
  · rw [if_neg (Ne.symm h0), if_neg h0, mul_zero, mul_zero]

/-- **C105** The projection of a function in space satisfies the normal equations of the rule: tested with every basis function of the element, it is
the function. In particular its mean over the element is that of the function. -/
theorem projectF_normal (hR : Rules N F P 0) (hO : Orthogonal N F P) {e : Elt ℝ} (hp : e.p ≤ P) (ht : jdet e.tri ≠ 0) (f : P2 ℝ → ℝ) {d : ℕ} (hd : d < ndof e.p) :
    ((N.tri (2 * e.p)).map fun wz => wz.1 * (e.value N (e.projectF N f) wz.2 * N.basis.phi d wz.2)).sum =
      ((N.tri (2 * e.p)).map fun wz => wz.1 * (f (pointOf e.tri wz.2) * N.basis.phi d wz.2)).sum := by
  have hd' := lt_of_lt_of_le hd (ndof_mono hp)
  have hj0 : |jdet e.tri| ≠ 0 := (abs_pos.2 ht).ne'
  set G := ∑ k ∈ Finset.range (ndof e.p), C (e.projectF N f k) * F k with hGdef
  have hG : G.totalDegree ≤ e.p := totalDegree_finsetSum_le fun k hk =>
    (totalDegree_mul _ _).trans (by rw [totalDegree_C, zero_add]; exact hR.degree _ hp k (Finset.mem_range.mp hk))
  have h1 : ((N.tri (2 * e.p)).map fun wz => wz.1 * (e.value N (e.projectF N f) wz.2 * N.basis.phi d wz.2)).sum = triL (N.tri (2 * e.p)) (G * F d) := by
    simp only [triL, LinearMap.coe_mk, AddHom.coe_mk]
    congr 1
    refine List.map_congr_left fun wz hwz => ?_
    have hz : Reg wz.2 := Or.inl (hR.pts _ hp wz hwz)
    rw [value_eval hR hp _ hz, (hR.basis d hd' wz.2 hz).1, map_mul]
  have ha := tri_approx (r := N.tri (2 * e.p)) (hR.tri _ hp) (G * F d) ((totalDegree_mul _ _).trans (by have := hR.degree _ hp d hd; omega))
  rw [zero_mul, abs_nonpos_iff, sub_eq_zero] at ha
  rw [h1, ha, hGdef, I2L_sum, Finset.sum_eq_single d]
  · rw [I2L_eq hO hd' hd', if_pos rfl]
    unfold Elt.projectF Elt.intPhi Elt.gps
    have hm := (hO d hd').1
    rw [mul_comm, ← mul_assoc, mul_comm (N.basis.minv d)⁻¹, mul_assoc, show (N.basis.minv d)⁻¹ * (N.basis.minv d / |jdet e.tri|) = |jdet e.tri|⁻¹ by field_simp,
      ← List.sum_map_mul_right]
    congr 1
    refine List.map_congr_left fun wz _ => ?_
    simp only [pointOf_eq]
    field_simp
  · intro b hb hne
    rw [I2L_eq hO (lt_of_lt_of_le (Finset.mem_range.mp hb) (ndof_mono hp)) hd', if_neg hne, mul_zero]
  · intro h; exact absurd (Finset.mem_range.mpr hd) h

/-- **C105** An initial function that is a polynomial of the degree of the element is represented exactly. -/
theorem projectF_exact (hR : Rules N F P 0) (hO : Orthogonal N F P) {e : Elt ℝ} (hp : e.p ≤ P) (ht : jdet e.tri ≠ 0) {f : P2 ℝ → ℝ} {Q : MvPolynomial (Fin 2) ℝ}
    (hQ : Q.totalDegree ≤ e.p) (h : ∀ x : P2 ℝ, f x = eval ![x.x, x.y] Q) {z : P2 ℝ} (hz : Reg z) : e.value N (e.projectF N f) z = f (pointOf e.tri z) := by
  rw [value_eval hR hp _ hz, h, ← pull_eval]
  congr 1
  exact project_poly hR hO hp ht ((pull_degree _ _).trans hQ) fun z _ => by rw [h, pointOf_eq, pull_eval]

end projection

/-! ### Shapes -/

section shapes

theorem shape_cases (a b c : P3 ℝ) : shapeOf a b c = ⟨a, b, c⟩ ∨ shapeOf a b c = ⟨c, b, a⟩ := by
  unfold shapeOf; split_ifs
  · exact Or.inr rfl
  · exact Or.inl rfl

/-- Elements are counterclockwise. -/
theorem shape_ccw {a b c : P3 ℝ} (h : jdet ⟨a.flat, b.flat, c.flat⟩ ≠ 0) : 0 < jdet (shapeOf a b c).tri := by
  unfold shapeOf
  split_ifs with hc
  · simp only [Shape.tri, cross_jdet] at hc ⊢
    linarith
  · exact lt_of_le_of_ne (not_lt.mp hc) (Ne.symm h)

theorem shape_id {a b c : P3 ℝ} (h : 0 < jdet ⟨a.flat, b.flat, c.flat⟩) : shapeOf a b c = ⟨a, b, c⟩ := by
  unfold shapeOf; rw [if_neg (not_lt.mpr h.le)]

theorem zs_corner (s : Shape ℝ) {k : ℕ} (hk : k < 3) : between s.zs (Basis.Props.corner k) = s.zs k := by
  interval_cases k <;> simp [between, Basis.Props.corner]

end shapes

/-! ### Initial data of a mesh -/

section setup
variable {S : Setup ℝ} {F : ℕ → MvPolynomial (Fin 2) ℝ} {P : ℕ}

/-- The nodes after projection. -/
noncomputable def finalNode (S : Setup ℝ) (n : ℕ) : P3 ℝ := preprocessNodes S.env.cos S.env.pi S.inp.sys S.inp.sph S.nodes n

/-- The nodes of an element. -/
def nodesOf (S : Setup ℝ) (e : ℕ) : List ℕ := [(S.corners e).1, (S.corners e).2.1, (S.corners e).2.2]

/-- The nodes of the element are not on a line. -/
def Proper (S : Setup ℝ) (e : ℕ) : Prop :=
  jdet ⟨(finalNode S (S.corners e).1).flat, (finalNode S (S.corners e).2.1).flat, (finalNode S (S.corners e).2.2).flat⟩ ≠ 0

theorem elt_ccw {e : ℕ} (h : Proper S e) : 0 < jdet (S.dat e).elt.tri := shape_ccw h

/-- **C105** Bathymetry: its coefficients represent the linear interpolant of the values at the nodes of the element. -/
theorem bath_between (hR : Rules S.env.N F P 0) (hO : Orthogonal S.env.N F P) (hP : S.p ≤ P) (h1 : 1 ≤ S.p) {e : ℕ} (h : Proper S e) {z : P2 ℝ} (hz : Reg z) :
    (S.dat e).elt.value S.env.N (S.dat e).bath z = between (S.shape e).zs z := by
  rw [value_eval hR (e := (S.dat e).elt) hP _ hz, ← between_eval]
  congr 1
  exact node_poly hR hO (e := S.elt e) hP h1 (elt_ccw h).ne' _

/-- **C105** At the position of each of its nodes, the bathymetry of the element is that of the node, whatever the order of the nodes. -/
theorem bath_at_nodes (hR : Rules S.env.N F P 0) (hO : Orthogonal S.env.N F P) (hP : S.p ≤ P) (h1 : 1 ≤ S.p) {e : ℕ} (h : Proper S e) {n : ℕ} (hn : n ∈ nodesOf S e) :
    ∃ z, Reg z ∧ pointOf (S.dat e).elt.tri z = (finalNode S n).flat ∧ (S.dat e).elt.value S.env.N (S.dat e).bath z = (finalNode S n).z := by
  have main : ∀ k < 3, vertex (S.shape e).tri k = (finalNode S n).flat → (S.shape e).zs k = (finalNode S n).z →
      ∃ z, Reg z ∧ pointOf (S.dat e).elt.tri z = (finalNode S n).flat ∧ (S.dat e).elt.value S.env.N (S.dat e).bath z = (finalNode S n).z := by
    intro k hk e1 e2
    refine ⟨Basis.Props.corner k, corner_reg k, ?_, ?_⟩
    · rw [corner_point _ hk]; exact e1
    · rw [bath_between hR hO hP h1 h (corner_reg k), zs_corner _ hk, e2]
  have hs : S.shape e = shapeOf (finalNode S (S.corners e).1) (finalNode S (S.corners e).2.1) (finalNode S (S.corners e).2.2) := rfl
  simp only [nodesOf, List.mem_cons, List.not_mem_nil, or_false] at hn
  rcases shape_cases (finalNode S (S.corners e).1) (finalNode S (S.corners e).2.1) (finalNode S (S.corners e).2.2) with hc | hc
  · rcases hn with rfl | rfl | rfl
    · exact main 0 (by omega) (by rw [hs, hc]; rfl) (by rw [hs, hc]; rfl)
    · exact main 1 (by omega) (by rw [hs, hc]; rfl) (by rw [hs, hc]; rfl)
    · exact main 2 (by omega) (by rw [hs, hc]; rfl) (by rw [hs, hc]; rfl)
  · rcases hn with rfl | rfl | rfl
    · exact main 2 (by omega) (by rw [hs, hc]; rfl) (by rw [hs, hc]; rfl)
    · exact main 1 (by omega) (by rw [hs, hc]; rfl) (by rw [hs, hc]; rfl)
    · exact main 0 (by omega) (by rw [hs, hc]; rfl) (by rw [hs, hc]; rfl)

/-- **C105** Slopes of the bathymetry: those of the plane through the values at the three nodes. -/
theorem bath_slope (hR : Rules S.env.N F P 0) (hO : Orthogonal S.env.N F P) (hP : S.p ≤ P) (h1 : 1 ≤ S.p) {e : ℕ} (h : Proper S e) {a b c : ℝ}
    (hpl : ∀ n ∈ nodesOf S e, (finalNode S n).z = affine a b c (finalNode S n).flat) {z : P2 ℝ} (hz : Reg z) :
    (S.dat e).elt.deriv S.env.N 0 (S.dat e).bath z = b ∧ (S.dat e).elt.deriv S.env.N 1 (S.dat e).bath z = c := by
  have hpoly : ∑ d ∈ Finset.range (ndof (S.dat e).elt.p), C ((S.dat e).bath d) * F d = pull (S.dat e).elt.tri (affPoly a b c) := by
    refine (node_poly hR hO (e := S.elt e) hP h1 (elt_ccw h).ne' _).trans (reg_funext fun z hz => ?_)
    rw [between_eval, pull_eval, affPoly_eval]
    have hs : S.shape e = shapeOf (finalNode S (S.corners e).1) (finalNode S (S.corners e).2.1) (finalNode S (S.corners e).2.2) := rfl
    have n0 := hpl (S.corners e).1 (by simp [nodesOf])
    have n1 := hpl (S.corners e).2.1 (by simp [nodesOf])
    have n2 := hpl (S.corners e).2.2 (by simp [nodesOf])
    have ht : (S.dat e).elt.tri = (S.shape e).tri := rfl
    rcases shape_cases (finalNode S (S.corners e).1) (finalNode S (S.corners e).2.1) (finalNode S (S.corners e).2.2) with hc | hc
    · rw [ht, hs, hc]
      simp only [between, Shape.zs, Shape.tri, pointOf, affine, P3.flat] at n0 n1 n2 ⊢
      norm_num
      rw [n0, n1, n2]; ring
    · rw [ht, hs, hc]
      simp only [between, Shape.zs, Shape.tri, pointOf, affine, P3.flat] at n0 n1 n2 ⊢
      norm_num
      rw [n0, n1, n2]; ring
  have d0 := pull_deriv (S.dat e).elt.tri (elt_ccw h).ne' 0 (affPoly a b c)
  have d1 := pull_deriv (S.dat e).elt.tri (elt_ccw h).ne' 1 (affPoly a b c)
  have e0 : pderiv 0 (affPoly a b c) = C b := by
    simp [affPoly, pderiv_X_of_ne (show (1 : Fin 2) ≠ 0 by decide), pderiv_X_self]
  have e1 : pderiv 1 (affPoly a b c) = C c := by
    simp [affPoly, pderiv_X_of_ne (show (0 : Fin 2) ≠ 1 by decide), pderiv_X_self]
  rw [e0] at d0
  rw [e1] at d1
  rw [deriv_eval hR (e := (S.dat e).elt) hP _ _ hz, deriv_eval hR (e := (S.dat e).elt) hP _ _ hz, hpoly]
  constructor
  · rw [show dPoly (S.dat e).elt.tri 0 (pull (S.dat e).elt.tri (affPoly a b c)) = _ from d0, pull_eval, eval_C]
  · rw [show dPoly (S.dat e).elt.tri 1 (pull (S.dat e).elt.tri (affPoly a b c)) = _ from d1, pull_eval, eval_C]

/-! ### Interfaces -/

/-- Ends of a face of a counterclockwise triangle, with their bathymetry. -/
def start3 (s : Shape ℝ) (f : ℕ) : P3 ℝ := if f = 0 then s.b else if f = 1 then s.c else s.a
def end3 (s : Shape ℝ) (f : ℕ) : P3 ℝ := if f = 0 then s.c else if f = 1 then s.a else s.b

/-- Both sides of the interface have the same end nodes, run through in opposite directions. -/
structure Shared (S : Setup ℝ) (i : Iface ℝ) : Prop where
  fin : i.fin < 3
  fex : i.fex < 3
  tail : start3 (S.shape i.eex) i.fex = end3 (S.shape i.ein) i.fin
  head : end3 (S.shape i.eex) i.fex = start3 (S.shape i.ein) i.fin

theorem start3_flat (s : Shape ℝ) (f : ℕ) : startOf s.tri f = (start3 s f).flat ∧ endOf s.tri f = (end3 s f).flat := by
  unfold startOf endOf start3 end3 Shape.tri
  constructor <;> split_ifs <;> rfl

theorem between_face (s : Shape ℝ) {f : ℕ} (hf : f < 3) (x : ℝ) :
    between s.zs (boundaryToMaster f x) = (1 - x) / 2 * (start3 s f).z + (1 + x) / 2 * (end3 s f).z := by
  interval_cases f <;> simp [between, boundaryToMaster, Shape.zs, start3, end3] <;> ring

/-- The two sides of an interface are the same edge. -/
theorem shared_edges {i : Iface ℝ} (h : Shared S i) :
    startOf (S.dat i.eex).elt.tri i.fex = endOf (S.dat i.ein).elt.tri i.fin ∧ endOf (S.dat i.eex).elt.tri i.fex = startOf (S.dat i.ein).elt.tri i.fin := by
  show startOf (S.shape i.eex).tri i.fex = endOf (S.shape i.ein).tri i.fin ∧ endOf (S.shape i.eex).tri i.fex = startOf (S.shape i.ein).tri i.fin
  rw [(start3_flat _ _).1, (start3_flat _ _).2, (start3_flat _ _).1, (start3_flat _ _).2, h.tail, h.head]
  exact ⟨rfl, rfl⟩

/-- **C105** The bathymetry is continuous: the two sides of an interface with common end nodes see the same value at each Gauss point. -/
theorem bath_continuous (hR : Rules S.env.N F P 0) (hO : Orthogonal S.env.N F P) (hS : SymRules S.env.N P) (hP : S.p ≤ P) (h1 : 1 ≤ S.p) {i : Iface ℝ}
    (hin : Proper S i.ein) (hex : Proper S i.eex) (h : Shared S i) {gp : ℕ} (hgp : gp < (i.rule S.v S.dat).length) :
    (S.dat i.ein).elt.value S.env.N (S.dat i.ein).bath (facePt (i.rule S.v S.dat) i.fin gp) =
      (S.dat i.eex).elt.value S.env.N (S.dat i.eex).bath (facePt (i.rule S.v S.dat) i.fex ((i.rule S.v S.dat).length - gp - 1)) := by
  have hr : i.rule S.v S.dat = S.env.N.line (2 * S.p + 1) := by
    show faceRule S.env.N (max S.p S.p) = _
    rw [max_self]; rfl
  rw [hr] at hgp ⊢
  unfold facePt
  rw [bath_between hR hO hP h1 hin (face_regular _ _), bath_between hR hO hP h1 hex (face_regular _ _), between_face _ h.fin, between_face _ h.fex, h.tail, h.head,
    hS S.p hP gp hgp]
  ring

/-! ### Projection factor -/

theorem ys_between (s : Shape ℝ) (z : P2 ℝ) : s.ys 0 * psi 0 z + s.ys 1 * psi 1 z + s.ys 2 * psi 2 z = (pointOf s.tri z).y := by
  simp [psi, Shape.ys, pointOf, Shape.tri, P3.flat]; ring

/-- **C105** The projection factor at a point of an element is that of the position of the point. -/
theorem factor_at (cos : ℝ → ℝ) (pi : ℝ) (sph : Spherical ℝ) (s : Shape ℝ) (z : P2 ℝ) : spAt cos pi sph s.ys z = spOf cos pi sph (pointOf s.tri z) := by
  unfold spAt spOf; rw [ys_between]

theorem sp_fold (cos : ℝ → ℝ) (pi : ℝ) (sph : Spherical ℝ) (ys : ℕ → ℝ) (pt : ℕ → P2 ℝ) (n : ℕ) (old : (ℕ → ℝ) × (ℕ → ℝ)) :
    ∀ k ≤ n, let r := (List.range k).foldl (fun a gp => (Function.update a.1 gp (spAt cos pi sph ys (pt gp)), Function.update a.2 (n - gp - 1) (spAt cos pi sph ys (pt gp)))) old
      (∀ gp < k, r.1 gp = spAt cos pi sph ys (pt gp) ∧ r.2 (n - gp - 1) = spAt cos pi sph ys (pt gp)) := by
  intro k
  induction k with
  | zero => intro _ r gp h; omega
  | succ k ih =>
    intro hk r gp hgp
    simp only [r, List.range_succ, List.foldl_append, List.foldl_cons, List.foldl_nil]
    by_cases h : gp = k
    · subst h; simp
    · rw [Function.update_of_ne h, Function.update_of_ne (by omega)]
      exact ih (by omega) gp (by omega)

/-- **C105** The loop over an interface, which reads only the interior side, gives each side at each Gauss point the factor of its position, for rules that are
symmetric and sides that are the same edge. -/
theorem factor_sides (cos : ℝ → ℝ) (pi : ℝ) (sph : Spherical ℝ) {i : Iface ℝ} (h : Shared S i) (r : List (ℝ × ℝ))
    (hr : ∀ gp < r.length, (r.getD (r.length - gp - 1) (0, 0)).2 = -(r.getD gp (0, 0)).2) (old : (ℕ → ℝ) × (ℕ → ℝ)) {gp : ℕ} (hgp : gp < r.length) :
    let o := spFace cos pi sph (S.shape i.ein).ys (facePt r i.fin) r.length old
    o.1 gp = spOf cos pi sph (edgePoint (S.shape i.ein).tri i.fin (r.getD gp (0, 0)).2) ∧
      o.2 gp = spOf cos pi sph (edgePoint (S.shape i.eex).tri i.fex (r.getD gp (0, 0)).2) := by
  have key := sp_fold cos pi sph (S.shape i.ein).ys (facePt r i.fin) r.length old r.length le_rfl
  have pt : ∀ k, pointOf (S.shape i.ein).tri (facePt r i.fin k) = edgePoint (S.shape i.ein).tri i.fin (r.getD k (0, 0)).2 := fun k => by
    unfold facePt; rw [← pointOf_eq, edgePoint_eq _ h.fin]
  refine ⟨?_, ?_⟩
  · rw [show (spFace cos pi sph (S.shape i.ein).ys (facePt r i.fin) r.length old).1 gp = _ from (key gp hgp).1, factor_at, pt]
  · have k2 := (key (r.length - gp - 1) (by omega)).2
    rw [show r.length - (r.length - gp - 1) - 1 = gp by omega] at k2
    rw [show (spFace cos pi sph (S.shape i.ein).ys (facePt r i.fin) r.length old).2 gp = _ from k2, factor_at, pt, hr gp hgp]
    have he := shared_edges h
    rw [← (edge_reversed (t := (S.shape i.ein).tri) (t' := (S.shape i.eex).tri) he.1 he.2 _).1]

/-! ### Initial state -/

/-- The input gives the state `U` everywhere. -/
def Starts (S : Setup ℝ) (U : Q ℝ) : Prop := S.inp.ic = .constant U ∨ S.inp.ic = .default U

theorem init_const (hR : Rules S.env.N F P 0) (hO : Orthogonal S.env.N F P) (hP : S.p ≤ P) {U : Q ℝ} (hU : Starts S U) {e : ℕ} (h : Proper S e) (var : Fin 3) {d : ℕ}
    (hd : d < ndof S.p) : initQ S.env.N S.env.bcq S.inp.ic (S.elt e) var d = if d = 0 then Swe.comp U var else 0 := by
  have key := node_const hR hO (e := S.elt e) hP (elt_ccw h).ne' (Swe.comp U var) hd
  rcases hU with hU | hU <;> rw [hU] <;> exact key

/-- The nodes of the shape are those of the element, in some order. -/
theorem zs_nodes (e : ℕ) (p : ℝ → Prop) : (∀ x < 3, p ((S.shape e).zs x)) ↔ ∀ n ∈ nodesOf S e, p (finalNode S n).z := by
  have hs : S.shape e = shapeOf (finalNode S (S.corners e).1) (finalNode S (S.corners e).2.1) (finalNode S (S.corners e).2.2) := rfl
  have h3 : (∀ x < 3, p ((S.shape e).zs x)) ↔ p (S.shape e).a.z ∧ p (S.shape e).b.z ∧ p (S.shape e).c.z := by
    constructor
    · intro h; exact ⟨h 0 (by omega), h 1 (by omega), h 2 (by omega)⟩
    · rintro ⟨h0, h1, h2⟩ x hx
      interval_cases x
      · exact h0
      · exact h1
      · exact h2
  rw [h3]
  simp only [nodesOf, List.mem_cons, List.not_mem_nil, or_false, forall_eq_or_imp, forall_eq]
  rcases shape_cases (finalNode S (S.corners e).1) (finalNode S (S.corners e).2.1) (finalNode S (S.corners e).2.2) with hc | hc
  · rw [hs, hc]
  · rw [hs, hc]; tauto

/-- **C105** Wet flags of a uniform start: an element is wet if and only if all its nodes are deeper than `h_o` by more than the threshold; without wetting and
drying all elements are. -/
theorem init_wet (hR : Rules S.env.N F P 0) (hO : Orthogonal S.env.N F P) (hP : S.p ≤ P) (h1 : 1 ≤ S.p) {U : Q ℝ} (hU : Starts S U) {e : ℕ} (h : Proper S e) :
    (S.inp.wd = none → S.wet0 e = true) ∧
    ∀ ho, S.inp.wd = some ho → 0 < ho → (S.wet0 e = true ↔ ∀ n ∈ nodesOf S e, ho + threshold ho < U.ze + (finalNode S n).z) := by
  refine ⟨fun hn => ?_, fun ho hs h0 => ?_⟩
  · simp only [Setup.wet0, Setup.start, hn]
  · simp only [Setup.wet0, Setup.start, hs]
    have := (init_wet_dry (ho := ho) (threshold_range h0).1 (ndof_three h1) (S.shape e).zs (rowsOf (initQ S.env.N S.env.bcq S.inp.ic (S.elt e)))).2.1
    rw [this, ← zs_nodes (S := S) e fun z => ho + threshold ho < U.ze + z]
    have hv : ∀ x < 3, basisToLinear (ndof S.p) (rowsOf (initQ S.env.N S.env.bcq S.inp.ic (S.elt e))).ze x = U.ze := fun x hx =>
      rest_vertex (ndof_pos _) (fun d hd => init_const hR hO hP hU h 0 hd) hx
    constructor
    · intro hh x hx
      have := hh x hx
      rwa [depthAt, hv x hx] at this
    · intro hh x hx
      rw [depthAt, hv x hx]; exact hh x hx

/-- All nodes of the elements are deep enough. -/
def Deep (S : Setup ℝ) (elts : List ℕ) (U : Q ℝ) : Prop :=
  ∀ ho, S.inp.wd = some ho → 0 < ho ∧ ∀ e ∈ elts, ∀ n ∈ nodesOf S e, ho + threshold ho < U.ze + (finalNode S n).z

/-- **C105** A uniform start is represented exactly, with wetting and drying if the water is deep enough. -/
theorem init_uniform (hR : Rules S.env.N F P 0) (hO : Orthogonal S.env.N F P) (hP : S.p ≤ P) (h1 : 1 ≤ S.p) {U : Q ℝ} (hU : Starts S U) {elts : List ℕ}
    (h : ∀ e ∈ elts, Proper S e) (hd : Deep S elts U) : Uniform S.dat elts U S.q0 ∧ ∀ e ∈ elts, S.wet0 e = true := by
  have hw : ∀ e ∈ elts, S.wet0 e = true := by
    intro e he
    obtain ⟨w1, w2⟩ := init_wet hR hO hP h1 hU (h e he)
    cases hs : S.inp.wd with
    | none => exact w1 hs
    | some ho => exact (w2 ho hs (hd ho hs).1).mpr ((hd ho hs).2 e he)
  refine ⟨fun e he d hdd var => ?_, hw⟩
  have hq : S.q0 e = initQ S.env.N S.env.bcq S.inp.ic (S.elt e) := by
    have hwe := hw e he
    simp only [Setup.wet0, Setup.q0, Setup.start] at hwe ⊢
    cases hs : S.inp.wd with
    | none => rfl
    | some ho =>
      simp only [hs] at hwe ⊢
      rw [(init_wet_dry (threshold_range (hd ho hs).1).1 (ndof_three h1) _ _).2.2.1 hwe, ofRows_rowsOf]
  rw [hq]
  exact init_const hR hO hP hU (h e he) var hdd

/-- A uniform start without discharge is a lake at rest. -/
theorem uniform_rest {dat : ℕ → EltData ℝ} {elts : List ℕ} {L : ℝ} {q : State ℝ} (h : Uniform dat elts ⟨L, 0, 0⟩ q) : AtRest dat elts L q := by
  intro e he d hd
  exact ⟨by simpa [Swe.comp] using h e he d hd 0, by simpa [Swe.comp] using h e he d hd 1, by simpa [Swe.comp] using h e he d hd 2⟩

/-- **C105** With wetting and drying, every element has at least the depth `h_o` at its corners before the first step, and dry ones no discharge, whatever the
initial condition. -/
theorem init_depth (h1 : 1 ≤ S.p) {ho : ℝ} (hs : S.inp.wd = some ho) (h0 : 0 < ho) (e : ℕ) :
    (∀ x < 3, ho ≤ basisToLinear (ndof S.p) (S.q0 e 0) x + (S.shape e).zs x) ∧ (S.wet0 e = false → ∀ d, S.q0 e 1 d = 0 ∧ S.q0 e 2 d = 0) := by
  have key := init_wet_dry (ho := ho) (threshold_range h0).1 (ndof_three h1) (S.shape e).zs (rowsOf (initQ S.env.N S.env.bcq S.inp.ic (S.elt e)))
  simp only [Setup.wet0, Setup.q0, Setup.start, hs]
  exact ⟨key.1, fun hw => (key.2.2.2 hw).1⟩

/-! ### Lake at rest from the input -/

/-- What is required of input and mesh: no spherical projection, elements that are not degenerate, all faces covered, common nodes at interfaces, quiet
boundaries. -/
structure LakeInput (S : Setup ℝ) (m : Mesh ℝ) (L t ramp : ℝ) : Prop where
  sqrt : IsSqrt S.env.sq
  flat : S.inp.sph.enabled = false
  source : S.env.src.functionSource = true → ∀ x, S.env.fs t x = ⟨0, 0, 0⟩
  nodup : m.elts.Nodup
  proper : ∀ e ∈ m.elts, Proper S e
  cover : ∀ e ∈ m.elts, (facesOf m e).Perm [0, 1, 2]
  ends : ∀ i ∈ m.ints, i.ein ∈ m.elts ∧ i.eex ∈ m.elts
  shared : ∀ i ∈ m.ints, Shared S i
  owner : ∀ b ∈ m.bnds, b.e ∈ m.elts
  quiet : ∀ b ∈ m.bnds, Quiet S.env L t ramp b.kind

theorem edge_shared {i : Iface ℝ} (h : Shared S i) :
    edge (S.dat i.eex).elt.tri i.fex = ⟨-(edge (S.dat i.ein).elt.tri i.fin).x, -(edge (S.dat i.ein).elt.tri i.fin).y⟩ := by
  have he := shared_edges h
  unfold edge
  rw [(start_vertex _ h.fex).1, (start_vertex _ h.fex).2, (start_vertex _ h.fin).1, (start_vertex _ h.fin).2, he.1, he.2]
  simp only [P2.mk.injEq]
  constructor <;> ring

/-- **C105** The data that the program makes from such an input satisfy what the theorem on lakes at rest (C48) requires. -/
theorem rest_input (hR : Rules S.env.N F P 0) (hO : Orthogonal S.env.N F P) (hS : SymRules S.env.N P) (hP : S.p ≤ P) (h1 : 1 ≤ S.p) {m : Mesh ℝ} {L t ramp : ℝ}
    (h : LakeInput S m L t ramp) : RestMesh S.v S.dat m P L t ramp where
  sqrt := h.sqrt
  sp x := by
    show spOf S.env.cos S.env.pi S.inp.sph x = 1
    simp [spOf, h.flat]
  source := h.source
  nodup := h.nodup
  ccw e he := elt_ccw (h.proper e he)
  degree e _ := hP
  cover := h.cover
  ends := h.ends
  edges i hi := edge_shared (h.shared i hi)
  bath i hi _ gp hgp := bath_continuous hR hO hS hP h1 (h.proper _ (h.ends i hi).1) (h.proper _ (h.ends i hi).2) (h.shared i hi) hgp
  owner := h.owner
  quiet b hb := by
    have := h.quiet b hb
    unfold Quiet at this ⊢
    split at this <;> simp_all [Setup.v]

/-- **C105** From the input to the end of the run: a lake over any bathymetry that is given at the nodes, with uniform initial level and no discharge, stays at
rest for any number of stages of any scheme, with or without wetting and drying and limiter. -/
theorem lake_from_input (hR : Rules S.env.N F P 0) (hO : Orthogonal S.env.N F P) (hS : SymRules S.env.N P) (hP : S.p ≤ P) (h1 : 1 ≤ S.p) {m : Mesh ℝ} {L : ℝ}
    (hU : Starts S ⟨L, 0, 0⟩) (hd : Deep S m.elts ⟨L, 0, 0⟩) {tab : Stepper.Tableau} {ns o : ℕ} (htab : Stepper.tableau ns o = some tab)
    (hrow : (ns, o) ∈ [(1, 1), (2, 2), (3, 3), (4, 3), (6, 3), (7, 4), (8, 4)]) (dt : ℝ) (sl : Option (SlParams ℝ)) (temp : ℕ → ℕ → ℝ) (junk : State ℝ)
    (time ramp : ℕ → ℝ) (hm : ∀ n, LakeInput S m L (time n) (ramp n)) (slots : List (Stepper.Slot (State ℝ))) (hlen : ns + 1 ≤ slots.length) (rhs : State ℝ)
    (h0 : slots[0]? = some ⟨S.q0, rhs⟩) (n : ℕ) :
    ∃ s sl', runSerial S.v S.dat m tab ns dt ⟨S.wdParams temp, sl⟩ junk time ramp n ⟨slots, 0, S.wet0, false⟩ = .ok s ∧ s.emptied = false ∧
      s.slots[s.stage]? = some sl' ∧ AtRest S.dat m.elts L sl'.q ∧ ∀ e ∈ m.elts, s.wet e = true := by
  obtain ⟨u1, u2⟩ := init_uniform hR hO hP h1 hU (hm 0).proper hd
  refine lake_at_rest (v := S.v) (dat := S.dat) hR htab hrow dt ⟨S.wdParams temp, sl⟩ (fun w hw => ?_) (fun e _ => h1) junk time ramp (fun n => rest_input hR hO hS hP h1 (hm n)) slots hlen
    ⟨S.q0, rhs⟩ h0 (uniform_rest u1) S.wet0 u2 n
  simp only [Setup.wdParams, Option.map_eq_some_iff] at hw
  obtain ⟨ho, hs, rfl⟩ := hw
  obtain ⟨h0, hall⟩ := hd ho hs
  refine ⟨(threshold_range h0).1, (threshold_range h0).2, fun e he => ?_⟩
  exact (zs_nodes (S := S) e fun z => ho + threshold ho < L + z).mpr (hall e he)

/-! ### Weights of the partitioner -/

theorem and_fold (g : P3 ℝ → ℝ) (ho : ℝ) (ns : List (P3 ℝ)) : ∀ w : Bool,
    (ns.foldl (fun wet n => wet && decide (g n ≥ ho)) w) = true ↔ w = true ∧ ∀ n ∈ ns, ho ≤ g n := by
  induction ns with
  | nil => intro w; simp
  | cons n ns ih =>
    intro w
    rw [List.foldl_cons, ih, List.forall_mem_cons]
    simp [and_assoc]

theorem partWet_constant (ic : ℝ → P2 ℝ → Q ℝ) (U : Q ℝ) (ho : ℝ) (ns : List (P3 ℝ)) : partWet ic (.constant U) ho ns = true ↔ ∀ n ∈ ns, ho ≤ U.ze + n.z := by
  have := and_fold (fun n => U.ze + n.z) ho ns true
  simpa [partWet] using this

/-- Initial function: the partitioner evaluates it at the coordinates in the file. -/
theorem weight_function (ic : ℝ → P2 ℝ → Q ℝ) (ho : ℝ) (ns : List (P3 ℝ)) : partWet ic .function ho ns = true ↔ ∀ n ∈ ns, ho ≤ (ic 0 n.flat).ze + n.z := by
  have := and_fold (fun n => (ic 0 n.flat).ze + n.z) ho ns true
  simpa [partWet] using this

/-- The nodes of the element in the file. -/
def rawNodes (S : Setup ℝ) (e : ℕ) : List (P3 ℝ) := (nodesOf S e).map S.nodes

theorem final_z (n : ℕ) : (finalNode S n).z = (S.nodes n).z := by
  unfold finalNode preprocessNodes; split_ifs <;> rfl

/-- **C105** Constant initial condition: an element that starts wet has the weight of a wet one; one that starts dry has that of a dry one, unless all its nodes
are at least `h_o` deep and one of them by no more than the threshold. -/
theorem weight_constant (hR : Rules S.env.N F P 0) (hO : Orthogonal S.env.N F P) (hP : S.p ≤ P) (h1 : 1 ≤ S.p) {U : Q ℝ} (hU : S.inp.ic = .constant U) {e : ℕ}
    (h : Proper S e) {ho : ℝ} (hs : S.inp.wd = some ho) (h0 : 0 < ho) :
    (S.wet0 e = true → partWet S.env.bcq S.inp.ic ho (rawNodes S e) = true) ∧
    (S.wet0 e = false → partWet S.env.bcq S.inp.ic ho (rawNodes S e) = true → ∃ n ∈ nodesOf S e, ho ≤ U.ze + (S.nodes n).z ∧ U.ze + (S.nodes n).z ≤ ho + threshold ho) := by
  have hw := (init_wet hR hO hP h1 (Or.inl hU) h).2 ho hs h0
  have hp : partWet S.env.bcq S.inp.ic ho (rawNodes S e) = true ↔ ∀ n ∈ nodesOf S e, ho ≤ U.ze + (S.nodes n).z := by
    rw [hU, partWet_constant]
    simp [rawNodes]
  have ht := (threshold_range h0).1
  refine ⟨fun h => hp.mpr fun n hn => ?_, fun h hh => ?_⟩
  · have := hw.mp h n hn
    rw [final_z] at this; linarith
  · by_contra hc
    push Not at hc
    have : S.wet0 e = true := hw.mpr fun n hn => by rw [final_z]; exact hc n hn (hp.mp hh n hn)
    rw [h] at this; cases this

/-- Default initial condition: the partitioner counts every element as wet. -/
theorem weight_default (ic : ℝ → P2 ℝ → Q ℝ) (U : Q ℝ) {ho : ℝ} (h0 : 0 < ho) (ns : List (P3 ℝ)) : partWet ic (.default U) ho ns = true := by
  have := (and_fold (fun _ => 2 * ho) ho ns true).mpr ⟨rfl, fun n _ => by linarith⟩
  simpa [partWet] using this

end setup

end Verif.Swe.Props
