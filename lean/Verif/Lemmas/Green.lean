import Verif.Lemmas.TriIntegral
import Mathlib.Algebra.MvPolynomial.PDeriv
import Mathlib.Analysis.Calculus.Deriv.Mul
import Mathlib.Analysis.Calculus.Deriv.Add
import Mathlib.MeasureTheory.Integral.IntervalIntegral.FundThmCalculus

/-!
Helper lemmas: derivatives of polynomials in two variables and Green's formula on the master triangle.
-/

namespace Verif.Tri
open MvPolynomial

/-- Chain rule along a curve. -/
theorem poly_deriv (F : MvPolynomial (Fin 2) ℝ) {a b : ℝ → ℝ} {a' b' t : ℝ} (ha : HasDerivAt a a' t) (hb : HasDerivAt b b' t) :
    HasDerivAt (fun s => eval ![a s, b s] F) (eval ![a t, b t] (pderiv 0 F) * a' + eval ![a t, b t] (pderiv 1 F) * b') t := by
  induction F using MvPolynomial.induction_on with
  | C c => simpa using hasDerivAt_const t c
  | add F G hF hG =>
    simp only [map_add]
    exact (hF.add hG).congr_deriv (by ring)
  | mul_X F i hF =>
    simp only [map_mul, eval_X]
    fin_cases i
    · refine (hF.mul ha).congr_deriv ?_
      simp; ring
    · refine (hF.mul hb).congr_deriv ?_
      simp; ring

theorem poly_deriv1 (F : MvPolynomial (Fin 2) ℝ) (x y : ℝ) : HasDerivAt (fun t => eval ![t, y] F) (eval ![x, y] (pderiv 0 F)) x := by
  simpa using poly_deriv F (hasDerivAt_id x) (hasDerivAt_const x y)

theorem poly_deriv2 (F : MvPolynomial (Fin 2) ℝ) (x y : ℝ) : HasDerivAt (fun t => eval ![x, t] F) (eval ![x, y] (pderiv 1 F)) y := by
  simpa using poly_deriv F (hasDerivAt_const y x) (hasDerivAt_id y)

theorem poly_cont (F : MvPolynomial (Fin 2) ℝ) {a b : ℝ → ℝ} (ha : Continuous a) (hb : Continuous b) : Continuous fun s => eval ![a s, b s] F := by
  have h : Continuous fun p : ℝ × ℝ => eval ![p.1, p.2] F := C2_poly F
  exact Continuous.comp (g := fun p : ℝ × ℝ => eval ![p.1, p.2] F) (f := fun s => (a s, b s)) h (by fun_prop)

theorem poly_ftc (F : MvPolynomial (Fin 2) ℝ) (y l u : ℝ) : ∫ x in l..u, eval ![x, y] (pderiv 0 F) = eval ![u, y] F - eval ![l, y] F :=
  intervalIntegral.integral_eq_sub_of_hasDerivAt (fun x _ => poly_deriv1 F x y)
    ((poly_cont (pderiv 0 F) continuous_id continuous_const).intervalIntegrable _ _)

/-- Every polynomial is a derivative. -/
theorem poly_anti (F : MvPolynomial (Fin 2) ℝ) : ∃ P, pderiv 0 P = F := by
  induction F using MvPolynomial.induction_on' with
  | monomial s a =>
    refine ⟨monomial (s + Finsupp.single 0 1) (a / (s 0 + 1)), ?_⟩
    rw [pderiv_monomial]
    have : ((s 0 : ℝ) + 1) ≠ 0 := by positivity
    simp [this]
  | add F G hF hG =>
    obtain ⟨P, rfl⟩ := hF
    obtain ⟨R, rfl⟩ := hG
    exact ⟨P + R, map_add _ _ _⟩

theorem pd_comm (F : MvPolynomial (Fin 2) ℝ) : pderiv 1 (pderiv 0 F) = pderiv 0 (pderiv 1 F) := by
  induction F using MvPolynomial.induction_on with
  | C c => simp
  | add F G hF hG => simp [hF, hG]
  | mul_X F i hF =>
    fin_cases i <;> simp [hF] <;> ring

/-- Green's formula, first direction. -/
theorem green1 (F : MvPolynomial (Fin 2) ℝ) : I2 (fun x y => eval ![x, y] (pderiv 0 F)) =
    (∫ s in (-1 : ℝ)..1, eval ![-s, s] F) - ∫ s in (-1 : ℝ)..1, eval ![-1, s] F := by
  unfold I2
  simp only [poly_ftc]
  exact intervalIntegral.integral_sub ((poly_cont F continuous_neg continuous_id).intervalIntegrable _ _)
    ((poly_cont F continuous_const continuous_id).intervalIntegrable _ _)

/-- Green's formula, second direction. -/
theorem green2 (F : MvPolynomial (Fin 2) ℝ) : I2 (fun x y => eval ![x, y] (pderiv 1 F)) =
    (∫ s in (-1 : ℝ)..1, eval ![-s, s] F) - ∫ s in (-1 : ℝ)..1, eval ![s, -1] F := by
  obtain ⟨P, rfl⟩ := poly_anti F
  unfold I2
  have hc : ∀ y x : ℝ, eval ![x, y] (pderiv 1 (pderiv 0 P)) = eval ![x, y] (pderiv 0 (pderiv 1 P)) := fun y x => by
    rw [pd_comm]
  simp only [hc, poly_ftc]
  have hd : ∀ y : ℝ, HasDerivAt (fun y => eval ![-y, y] P - eval ![-1, y] P)
      (eval ![-y, y] (pderiv 1 P) - eval ![-1, y] (pderiv 1 P) - eval ![-y, y] (pderiv 0 P)) y := by
    intro y
    have h1 := poly_deriv P (hasDerivAt_neg y) (hasDerivAt_id y)
    exact (h1.sub (poly_deriv2 P (-1) y)).congr_deriv (by simp; ring)
  have hi : ∀ (Q : MvPolynomial (Fin 2) ℝ), IntervalIntegrable (fun y : ℝ => eval ![-y, y] Q) MeasureTheory.volume (-1) 1 := fun Q =>
    (poly_cont Q continuous_neg continuous_id).intervalIntegrable _ _
  have hj : ∀ (Q : MvPolynomial (Fin 2) ℝ), IntervalIntegrable (fun y : ℝ => eval ![-1, y] Q) MeasureTheory.volume (-1) 1 := fun Q =>
    (poly_cont Q continuous_const continuous_id).intervalIntegrable _ _
  have h := intervalIntegral.integral_eq_sub_of_hasDerivAt (a := -1) (b := 1) (fun y _ => hd y) (((hi _).sub (hj _)).sub (hi _))
  rw [intervalIntegral.integral_sub ((hi _).sub (hj _)) (hi _)] at h
  simp only [neg_neg, sub_self] at h
  linarith

/-- Reflection of the parameter of a face. -/
theorem face_neg (f : ℝ → ℝ) : ∫ s in (-1 : ℝ)..1, f (-s) = ∫ s in (-1 : ℝ)..1, f s := by
  rw [intervalIntegral.integral_comp_neg]; simp

end Verif.Tri
