import Mathlib.Analysis.SpecialFunctions.Integrals.Basic
import Mathlib.MeasureTheory.Integral.DominatedConvergence
import Mathlib.Algebra.MvPolynomial.Eval
import Mathlib.Topology.Algebra.MvPolynomial

/-!
Helper lemmas: the integral over the master triangle is linear on continuous functions.
-/

namespace Verif.Tri

/-- The integral over the master triangle. -/
noncomputable def I2 (f : ℝ → ℝ → ℝ) : ℝ := ∫ y in (-1 : ℝ)..1, ∫ x in (-1 : ℝ)..(-y), f x y

/-- Jointly continuous. -/
def C2 (f : ℝ → ℝ → ℝ) : Prop := Continuous fun p : ℝ × ℝ => f p.1 p.2

theorem C2.inner {f : ℝ → ℝ → ℝ} (hf : C2 f) (y a b : ℝ) : IntervalIntegrable (fun x => f x y) MeasureTheory.volume a b :=
  (Continuous.comp hf (by fun_prop : Continuous fun x : ℝ => (x, y))).intervalIntegrable _ _

theorem C2.outer {f : ℝ → ℝ → ℝ} (hf : C2 f) : Continuous fun y : ℝ => ∫ x in (-1 : ℝ)..(-y), f x y :=
  intervalIntegral.continuous_parametric_intervalIntegral_of_continuous (f := fun y x => f x y)
    (Continuous.comp hf (by fun_prop : Continuous fun p : ℝ × ℝ => (p.2, p.1))) continuous_neg

theorem I2_add {f g : ℝ → ℝ → ℝ} (hf : C2 f) (hg : C2 g) : I2 (fun x y => f x y + g x y) = I2 f + I2 g := by
  unfold I2
  rw [← intervalIntegral.integral_add (hf.outer.intervalIntegrable _ _) (hg.outer.intervalIntegrable _ _)]
  congr 1
  funext y
  exact intervalIntegral.integral_add (hf.inner y _ _) (hg.inner y _ _)

theorem I2_smul (c : ℝ) (f : ℝ → ℝ → ℝ) : I2 (fun x y => c * f x y) = c * I2 f := by
  unfold I2
  simp only [intervalIntegral.integral_const_mul]

theorem C2.add {f g : ℝ → ℝ → ℝ} (hf : C2 f) (hg : C2 g) : C2 fun x y => f x y + g x y := Continuous.add hf hg
theorem C2.smul {f : ℝ → ℝ → ℝ} (c : ℝ) (hf : C2 f) : C2 fun x y => c * f x y := Continuous.mul continuous_const hf
theorem C2.zero : C2 fun _ _ => 0 := continuous_const

theorem C2_sum (n : ℕ) (c : ℕ → ℝ) (f : ℕ → ℝ → ℝ → ℝ) (hf : ∀ i, i < n → C2 (f i)) : C2 fun x y => ∑ i ∈ Finset.range n, c i * f i x y := by
  induction n with
  | zero => simpa using C2.zero
  | succ n ih =>
    simp only [Finset.sum_range_succ]
    exact (ih fun i hi => hf i (by omega)).add ((hf n (by omega)).smul _)

theorem I2_sum (n : ℕ) (c : ℕ → ℝ) (f : ℕ → ℝ → ℝ → ℝ) (hf : ∀ i, i < n → C2 (f i)) :
    I2 (fun x y => ∑ i ∈ Finset.range n, c i * f i x y) = ∑ i ∈ Finset.range n, c i * I2 (f i) := by
  induction n with
  | zero => simp [I2]
  | succ n ih =>
    simp only [Finset.sum_range_succ]
    rw [I2_add (C2_sum n c f fun i hi => hf i (by omega)) ((hf n (by omega)).smul _), ih fun i hi => hf i (by omega), I2_smul]

/-- Values where z2 = 1 do not matter. -/
theorem I2_congr {f g : ℝ → ℝ → ℝ} (h : ∀ x y, y ≠ 1 → f x y = g x y) : I2 f = I2 g := by
  unfold I2
  congr 1
  funext y
  by_cases hy : y = 1
  · subst hy; simp
  · congr 1; funext x; exact h x y hy

theorem C2_poly (F : MvPolynomial (Fin 2) ℝ) : C2 fun x y => MvPolynomial.eval ![x, y] F := by
  unfold C2
  have h := MvPolynomial.continuous_eval F
  exact h.comp (continuous_pi fun i => by fin_cases i <;> simp <;> fun_prop)

end Verif.Tri
