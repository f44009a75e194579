import Verif.Props.GnDeriv

/-!
Cases for C91: exact rules for cubic elements, and a mesh of two cubic elements with a cubic bed.
-/

namespace Verif.Gn.Props
open Verif.Geometry Verif.Geometry.Props Verif.Element Verif.Swe Verif.Swe.Props Verif.Tri MvPolynomial Verif.Basis

/-- Exact rules for degree three: Newton-Cotes formulas. -/
noncomputable def cubicN : Numerics ℝ where
  basis := dubiner (dofPair id)
  tri _ := [((3 / 35), ⟨(-1), (-2 / 3)⟩), ((-9 / 140), ⟨(-1), (-1 / 3)⟩), ((16 / 105), ⟨(-1), 0⟩), ((-9 / 140), ⟨(-1), (1 / 3)⟩), ((3 / 35), ⟨(-1), (2 / 3)⟩), ((3 / 35), ⟨(-2 / 3), (-1)⟩), ((6 / 35), ⟨(-2 / 3), (-2 / 3)⟩), ((6 / 35), ⟨(-2 / 3), (-1 / 3)⟩), ((6 / 35), ⟨(-2 / 3), 0⟩), ((6 / 35), ⟨(-2 / 3), (1 / 3)⟩), ((3 / 35), ⟨(-2 / 3), (2 / 3)⟩), ((-9 / 140), ⟨(-1 / 3), (-1)⟩), ((6 / 35), ⟨(-1 / 3), (-2 / 3)⟩), ((-9 / 70), ⟨(-1 / 3), (-1 / 3)⟩), ((6 / 35), ⟨(-1 / 3), 0⟩), ((-9 / 140), ⟨(-1 / 3), (1 / 3)⟩), ((16 / 105), ⟨0, (-1)⟩), ((6 / 35), ⟨0, (-2 / 3)⟩), ((6 / 35), ⟨0, (-1 / 3)⟩), ((16 / 105), ⟨0, 0⟩), ((-9 / 140), ⟨(1 / 3), (-1)⟩), ((6 / 35), ⟨(1 / 3), (-2 / 3)⟩), ((-9 / 140), ⟨(1 / 3), (-1 / 3)⟩), ((3 / 35), ⟨(2 / 3), (-1)⟩), ((3 / 35), ⟨(2 / 3), (-2 / 3)⟩)]
  line _ := [((41 / 420), (-1)), ((18 / 35), (-2 / 3)), ((9 / 140), (-1 / 3)), ((68 / 105), 0), ((9 / 140), (1 / 3)), ((18 / 35), (2 / 3)), ((41 / 420), 1)]

theorem cubic_orthogonal : Orthogonal cubicN (dubF id) 3 := by
  intro d hd
  have hn : ndof 3 ≤ ndof 10 := by decide
  obtain ⟨h1, h2⟩ := code_orthogonal Basis.Props.rounding_id d (lt_of_lt_of_le hd hn)
  exact ⟨h1, fun d' hd' => h2 d' (lt_of_lt_of_le hd' hn)⟩

theorem cubic_symmetric : SymRules cubicN 3 := by
  intro p _ gp hgp
  have h7 : gp < 7 := by simpa [cubicN] using hgp
  interval_cases gp <;> norm_num [cubicN]

theorem cubic_rules : Rules cubicN (dubF id) 3 0 := by
  have hr := Basis.Props.rounding_id
  have hb : ∀ p ≤ 3, ∀ d < ndof p, (dofPair id d).1 + (dofPair id d).2 ≤ p := fun p hp d hd => (pair_bound hr (by omega) hd).1
  refine ⟨(code_mass hr).phi0, ?_, ?_, ?_, ?_, ?_⟩
  · intro p hp d hd
    exact (Basis.Props.dubPoly_degree _ _).trans (hb p hp d hd)
  · intro d hd z hz
    exact dub_basis (by have := hb 3 le_rfl d hd; omega) z hz
  · intro p hp wz hwz
    have h1 : wz.2.y ∈ ((cubicN.tri (2 * p)).map fun x => x.2.y) := List.mem_map_of_mem (f := fun x : ℝ × P2 ℝ => x.2.y) hwz
    simp only [cubicN, List.map_cons, List.map_nil, List.mem_cons, List.not_mem_nil, or_false] at h1
    intro h; rw [h] at h1; norm_num at h1
  · intro p hp i j hij
    rw [Quadrature.Props.m2_integral, abs_nonpos_iff]
    have hi : i ≤ 6 := by omega
    have hj : j ≤ 6 - i := by omega
    clear hij
    interval_cases i <;> interval_cases j <;> norm_num [cubicN, Quadrature.Props.m2num, Quadrature.Props.m2den, Quadrature.Props.m1]
  · intro p hp k hk
    rw [Quadrature.Props.m1_integral, abs_nonpos_iff]
    have : k ≤ 7 := by omega
    interval_cases k <;> norm_num [cubicN, Quadrature.Props.m1]

theorem two_grad {p P : ℕ} (hp : p ≤ P) (b : ℕ → ℕ → ℝ) : GradMesh (twoTris p b) twoMesh P := by
  refine ⟨(two_closed id p b).ccw, fun _ _ => hp, ?_, ?_, ?_, ?_⟩
  · intro e he
    rcases (by simpa [twoMesh] using he : e = 0 ∨ e = 1) with rfl | rfl <;> decide
  · intro i hi
    obtain rfl : i = _ := by simpa [twoMesh] using hi
    simp [twoMesh]
  · intro j hj
    obtain rfl : j = _ := by simpa [twoMesh] using hj
    simp [twoTris, startOf, endOf]
  · intro b hb
    rcases (by simpa [twoMesh] using hb : b = _ ∨ b = _ ∨ b = _ ∨ b = _) with rfl | rfl | rfl | rfl <;> simp [twoMesh]

/-- Coefficients of a polynomial in space. -/
noncomputable def coefs (N : Numerics ℝ) (F : ℕ → MvPolynomial (Fin 2) ℝ) (dat : ℕ → EltData ℝ) (Q : MvPolynomial (Fin 2) ℝ) (e d : ℕ) : ℝ :=
  N.basis.minv d * I2L (pull (dat e).elt.tri Q * F d)

/-- Any polynomial of the degree of the elements can be represented. -/
theorem coefs_agree {v : Env ℝ} {dat : ℕ → EltData ℝ} {m : Mesh ℝ} {F : ℕ → MvPolynomial (Fin 2) ℝ} {P : ℕ} {ε : ℝ} (hR : Rules v.N F P ε) (hO : Orthogonal v.N F P)
    (hd : ∀ e ∈ m.elts, (dat e).elt.p ≤ P) {Q : MvPolynomial (Fin 2) ℝ} (hdeg : ∀ e ∈ m.elts, Q.totalDegree ≤ (dat e).elt.p) :
    Agrees dat m (rowOf v dat (coefs v.N F dat Q)) Q := by
  intro e he z hz
  rw [← pull_eval]
  conv_rhs => rw [expansion hO hR.degree (hd e he) ((pull_degree _ _).trans (hdeg e he))]
  exact bath_value hR (d := ⟨(dat e).elt, coefs v.N F dat Q e, (dat e).src⟩) (hd e he) hz

/-- A bed that is a cubic polynomial: its third derivatives are exact. -/
example (Q : MvPolynomial (Fin 2) ℝ) (hQ : Q.totalDegree ≤ 3) (z : P2 ℝ) (hz : z.y ≠ 1) :
    let v := plainEnv cubicN Real.sqrt
    let dat := twoTris 3 (coefs cubicN (dubF id) (twoTris 3 fun _ _ => 0) Q)
    rowOf v dat (dddbath v dat twoMesh 3) 1 z = eval ![(pointOf (dat 1).elt.tri z).x, (pointOf (dat 1).elt.tri z).y] (pderiv 1 (pderiv 1 (pderiv 0 Q))) := by
  intro v dat
  have hm : GradMesh dat twoMesh 3 := two_grad le_rfl _
  have ha : Agrees dat twoMesh (bathRow v dat) Q :=
    coefs_agree (v := v) (dat := dat) (m := twoMesh) cubic_rules cubic_orthogonal (fun _ _ => le_rfl) (fun _ _ => hQ)
  exact (bath_exact (v := v) cubic_rules cubic_orthogonal cubic_symmetric real_isSqrt hm ha (fun _ _ => hQ) 0 1 1).2.2 1 (by simp [twoMesh]) z (Or.inl hz)

end Verif.Gn.Props
