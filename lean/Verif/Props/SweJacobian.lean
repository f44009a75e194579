import Verif.Model.SweJacobian
import Verif.Props.SweFlux
import Mathlib.Analysis.Calculus.Deriv.Mul
import Mathlib.Analysis.Calculus.Deriv.Inv
import Mathlib.Analysis.Calculus.Deriv.Add
import Mathlib.Analysis.Calculus.Deriv.Abs
import Mathlib.Analysis.SpecialFunctions.Sqrt
import Mathlib.Tactic.FinCases
import Mathlib.Tactic.LinearCombination

/-!
# C47, C63: flux Jacobian, eigendecomposition, stabilization parameter
-/

namespace Verif.Swe.Props
open Verif.Swe Verif.Geometry Verif.Geometry.Props Matrix

variable {K : Type} [Field K] [LinearOrder K] [IsStrictOrderedRing K]

/-! ### Eigendecomposition, over any ordered field with a square root -/

theorem cel_sq {sq : K → K} (hs : IsSqrt sq) {g h : K} (hg : 0 < g) (hh : 0 < h) : 0 < cel sq g h ∧ cel sq g h * cel sq g h = g * h := by
  have h1 := hs (g * h) (mul_pos hg hh).le
  refine ⟨lt_of_le_of_ne h1.1 fun h0 => ?_, h1.2⟩
  have h2 := h1.2
  rw [show sq (g * h) = 0 from h0.symm] at h2
  have := mul_pos hg hh
  rw [← h2] at this
  simp at this

/-- The matrices of right and left eigenvectors are inverse to each other. -/
theorem eigenvectors_inverse {sq : K → K} (hs : IsSqrt sq) {g h : K} (hg : 0 < g) (hh : 0 < h) (u v : K) {n : P2 K} (hn : Unit n) :
    matR sq g h u v n * invR sq g h u v n = 1 ∧ invR sq g h u v n * matR sq g h u v n = 1 := by
  obtain ⟨hc, hcc⟩ := cel_sq hs hg hh
  have hc0 := hc.ne'
  have hn' : n.x ^ 2 + n.y ^ 2 = 1 := hn
  have key : matR sq g h u v n * invR sq g h u v n = 1 := by
    ext i j
    fin_cases i <;> fin_cases j <;>
      simp [matR, invR, vn, Matrix.mul_apply, Fin.sum_univ_three] <;> field_simp <;> grind
  refine ⟨key, ?_⟩
  exact mul_eq_one_comm.mp key

/-- The eigendecomposition gives the coded Jacobian of the normal flux. -/
theorem decomposition {sq : K → K} (hs : IsSqrt sq) {g : K} (hg : 0 < g) (q : Q K) (a : Aux K) (hh : 0 < a.h) {n : P2 K} (hn : Unit n) :
    getA sq g q a n = dFnDq g q a n := by
  obtain ⟨hc, hcc⟩ := cel_sq hs hg hh
  have hc0 := hc.ne'
  have hn' : n.x ^ 2 + n.y ^ 2 = 1 := hn
  have hh0 := hh.ne'
  have hcc' : cel sq g a.h ^ 2 = g * a.h := by rw [pow_two, hcc]
  ext i j
  fin_cases i <;> fin_cases j <;>
    simp [getA, dFnDq, matR, matL, invR, vn, Matrix.mul_apply, Fin.sum_univ_three] <;>
    generalize q.qx / a.h = u <;> generalize q.qy / a.h = v <;> field_simp <;> grind

/-- The three characteristic speeds. -/
def speeds (sq : K → K) (g : K) (q : Q K) (b : K) (n : P2 K) : Fin 3 → K :=
  let un := (q.qx * n.x + q.qy * n.y) / (q.ze + b)
  ![un - sq (g * (q.ze + b)), un, un + sq (g * (q.ze + b))]

omit [IsStrictOrderedRing K] in
theorem matL_diag (sq : K → K) (g : K) (q : Q K) (a : Aux K) (ha : a.h = q.ze + a.bath) (n : P2 K) :
    matL sq g a.h (q.qx / a.h) (q.qy / a.h) n = Matrix.diagonal (speeds sq g q a.bath n) ∧
    absL sq g a.h (q.qx / a.h) (q.qy / a.h) n = Matrix.diagonal (fun i => |speeds sq g q a.bath n i|) := by
  have e : vn (q.qx / a.h) (q.qy / a.h) n = (q.qx * n.x + q.qy * n.y) / a.h := by simp only [vn]; ring
  constructor <;> ext i j <;> fin_cases i <;> fin_cases j <;> simp [matL, absL, speeds, e, cel, ← ha]

/-- The columns of R are eigenvectors: A has the characteristic speeds as eigenvalues, |A| their absolute values, A+ and A- the positive and
negative parts. -/
theorem eigenvalues {sq : K → K} (hs : IsSqrt sq) {g : K} (hg : 0 < g) (q : Q K) (a : Aux K) (ha : a.h = q.ze + a.bath) (hh : 0 < a.h)
    {n : P2 K} (hn : Unit n) (R : M3 K) (hR : R = matR sq g a.h (q.qx / a.h) (q.qy / a.h) n) :
    R.det ≠ 0 ∧
    getA sq g q a n * R = R * Matrix.diagonal (speeds sq g q a.bath n) ∧
    getAbsA sq g q a n * R = R * Matrix.diagonal (fun i => |speeds sq g q a.bath n i|) ∧
    getAplus sq g q a n * R = R * Matrix.diagonal (fun i => max (speeds sq g q a.bath n i) 0) ∧
    getAminus sq g q a n * R = R * Matrix.diagonal (fun i => min (speeds sq g q a.bath n i) 0) := by
  obtain ⟨h1, h2⟩ := eigenvectors_inverse hs hg hh (q.qx / a.h) (q.qy / a.h) hn
  obtain ⟨d1, d2⟩ := matL_diag sq g q a ha n
  rw [← hR] at h1 h2
  refine ⟨?_, ?_, ?_, ?_, ?_⟩
  · intro h0
    have := congrArg Matrix.det h1
    rw [Matrix.det_mul, h0, zero_mul, Matrix.det_one] at this
    exact zero_ne_one this
  · simp only [getA, ← hR, d1]
    rw [Matrix.mul_assoc, h2, Matrix.mul_one]
  · simp only [getAbsA, ← hR, d2]
    rw [Matrix.mul_assoc, h2, Matrix.mul_one]
  · simp only [getAplus, ← hR, d1, d2]
    rw [Matrix.mul_assoc, h2, Matrix.mul_one, Matrix.diagonal_add, Matrix.smul_mul, ← Matrix.mul_smul, ← Matrix.diagonal_smul]
    congr 2
    funext i
    simp only [Pi.smul_apply, smul_eq_mul]
    rcases le_total 0 (speeds sq g q a.bath n i) with h | h
    · rw [abs_of_nonneg h, max_eq_left h]; ring
    · rw [abs_of_nonpos h, max_eq_right h]; ring
  · simp only [getAminus, ← hR, d1, d2]
    rw [Matrix.mul_assoc, h2, Matrix.mul_one, Matrix.diagonal_sub, Matrix.smul_mul, ← Matrix.mul_smul, ← Matrix.diagonal_smul]
    congr 2
    funext i
    simp only [Pi.smul_apply, smul_eq_mul]
    rcases le_total 0 (speeds sq g q a.bath n i) with h | h
    · rw [abs_of_nonneg h, min_eq_right h]; ring
    · rw [abs_of_nonpos h, min_eq_left h]; ring

/-! ### Derivatives, over the real numbers -/

/-- A variable of the state. -/
def getVar (q : Q ℝ) (j : Fin 3) : ℝ := ![q.ze, q.qx, q.qy] j

/-- The state with one variable replaced. -/
def setVar (q : Q ℝ) (j : Fin 3) (x : ℝ) : Q ℝ := if j = 0 then ⟨x, q.qx, q.qy⟩ else if j = 1 then ⟨q.ze, x, q.qy⟩ else ⟨q.ze, q.qx, x⟩

/-- The auxiliary values of a state over the bathymetry. -/
def auxAt (b sp : ℝ) (q : Q ℝ) : Aux ℝ := ⟨b, q.ze + b, sp⟩

/-- `d` is the matrix of partial derivatives of the entries of `f` by variable `j`. -/
def DerivBy (f : Q ℝ → M3 ℝ) (d : M3 ℝ) (q : Q ℝ) (j : Fin 3) : Prop :=
  ∀ r s, HasDerivAt (fun x => f (setVar q j x) r s) (d r s) (getVar q j)

theorem setVar_self (q : Q ℝ) (j : Fin 3) : setVar q j (getVar q j) = q := by fin_cases j <;> rfl

/-- Derivative of variable `i` by variable `j`. -/
def kron (i j : Fin 3) : ℝ := if i = j then 1 else 0

theorem ze_deriv (q : Q ℝ) (j : Fin 3) : HasDerivAt (fun x => (setVar q j x).ze) (kron 0 j) (getVar q j) := by
  fin_cases j
  · exact hasDerivAt_id _
  · exact hasDerivAt_const _ _
  · exact hasDerivAt_const _ _

theorem qx_deriv (q : Q ℝ) (j : Fin 3) : HasDerivAt (fun x => (setVar q j x).qx) (kron 1 j) (getVar q j) := by
  fin_cases j
  · exact hasDerivAt_const _ _
  · exact hasDerivAt_id _
  · exact hasDerivAt_const _ _

theorem qy_deriv (q : Q ℝ) (j : Fin 3) : HasDerivAt (fun x => (setVar q j x).qy) (kron 2 j) (getVar q j) := by
  fin_cases j
  · exact hasDerivAt_const _ _
  · exact hasDerivAt_const _ _
  · exact hasDerivAt_id _

theorem h_deriv (q : Q ℝ) (b : ℝ) (j : Fin 3) : HasDerivAt (fun x => (setVar q j x).ze + b) (kron 0 j) (getVar q j) :=
  (ze_deriv q j).add_const b

theorem u_deriv (q : Q ℝ) (b : ℝ) (hw : 0 < q.ze + b) (j : Fin 3) :
    HasDerivAt (fun x => (setVar q j x).qx / ((setVar q j x).ze + b)) ((kron 1 j - q.qx / (q.ze + b) * kron 0 j) / (q.ze + b)) (getVar q j) := by
  have h := (qx_deriv q j).div (h_deriv q b j) (by rw [setVar_self]; exact hw.ne')
  refine h.congr_deriv ?_
  rw [setVar_self]
  have := hw.ne'
  field_simp

theorem v_deriv (q : Q ℝ) (b : ℝ) (hw : 0 < q.ze + b) (j : Fin 3) :
    HasDerivAt (fun x => (setVar q j x).qy / ((setVar q j x).ze + b)) ((kron 2 j - q.qy / (q.ze + b) * kron 0 j) / (q.ze + b)) (getVar q j) := by
  have h := (qy_deriv q j).div (h_deriv q b j) (by rw [setVar_self]; exact hw.ne')
  refine h.congr_deriv ?_
  rw [setVar_self]
  have := hw.ne'
  field_simp

theorem pe_deriv (g : ℝ) (q : Q ℝ) (b : ℝ) (j : Fin 3) :
    HasDerivAt (fun x => pe g (setVar q j x) b) (g * (q.ze + b) * kron 0 j) (getVar q j) := by
  have z := ze_deriv q j
  have h := (((z.pow 2).div_const 2).add (z.mul_const b)).const_mul g
  refine h.congr_deriv ?_
  rw [setVar_self]
  simp
  ring

/-- The coded Jacobians are the derivatives of the coded fluxes. -/
theorem jacobian_derivative (g b sp : ℝ) (q : Q ℝ) (hw : 0 < q.ze + b) (n : P2 ℝ) (r j : Fin 3) :
    HasDerivAt (fun x => getVar (fluxN g (setVar q j x) (auxAt b sp (setVar q j x)) n) r) (dFnDq g q (auxAt b sp q) n r j) (getVar q j) ∧
    HasDerivAt (fun x => getVar (fluxX g (setVar q j x) (auxAt b sp (setVar q j x))) r) (dFxDq g q (auxAt b sp q) r j) (getVar q j) ∧
    HasDerivAt (fun x => getVar (fluxY g (setVar q j x) (auxAt b sp (setVar q j x))) r) (dFyDq g q (auxAt b sp q) r j) (getVar q j) := by
  have hx := qx_deriv q j
  have hy := qy_deriv q j
  have hu := u_deriv q b hw j
  have hv := v_deriv q b hw j
  have hp := pe_deriv g q b j
  have h0 := hw.ne'
  refine ⟨?_, ?_, ?_⟩
  · fin_cases r
    · refine ((hx.mul_const n.x).add (hy.mul_const n.y)).congr_deriv ?_
      fin_cases j <;> simp [kron, dFnDq]
    · refine (((((hu.mul hx).add hp).mul_const n.x)).add ((hu.mul hy).mul_const n.y)).congr_deriv ?_
      simp only [setVar_self]
      fin_cases j <;> simp [kron, dFnDq, auxAt] <;> field_simp <;> ring
    · refine (((hu.mul hy).mul_const n.x).add (((hv.mul hy).add hp).mul_const n.y)).congr_deriv ?_
      simp only [setVar_self]
      fin_cases j <;> simp [kron, dFnDq, auxAt] <;> field_simp <;> first | ring1 | (norm_num; done)
  · fin_cases r
    · refine hx.congr_deriv ?_
      fin_cases j <;> simp [kron, dFxDq]
    · refine ((hu.mul hx).add hp).congr_deriv ?_
      simp only [setVar_self]
      fin_cases j <;> simp [kron, dFxDq, auxAt] <;> field_simp <;> ring
    · refine (hu.mul hy).congr_deriv ?_
      simp only [setVar_self]
      fin_cases j <;> simp [kron, dFxDq, auxAt] <;> field_simp
  · fin_cases r
    · refine hy.congr_deriv ?_
      fin_cases j <;> simp [kron, dFyDq]
    · refine (hu.mul hy).congr_deriv ?_
      simp only [setVar_self]
      fin_cases j <;> simp [kron, dFyDq, auxAt] <;> field_simp
    · refine ((hv.mul hy).add hp).congr_deriv ?_
      simp only [setVar_self]
      fin_cases j <;> simp [kron, dFyDq, auxAt] <;> field_simp <;> ring

theorem derivBy_mul {f f2 : Q ℝ → M3 ℝ} {d d2 : M3 ℝ} {q : Q ℝ} {j : Fin 3} (h : DerivBy f d q j) (h2 : DerivBy f2 d2 q j) :
    DerivBy (fun p => f p * f2 p) (d * f2 q + f q * d2) q j := by
  intro r s
  simp only [Matrix.mul_apply, Matrix.add_apply, Fin.sum_univ_three]
  have k : ∀ i, HasDerivAt (fun x => f (setVar q j x) r i * f2 (setVar q j x) i s) (d r i * f2 q i s + f q r i * d2 i s) (getVar q j) := by
    intro i
    have := (h r i).mul (h2 i s)
    simp only [setVar_self] at this
    exact this
  refine (((k 0).add (k 1)).add (k 2)).congr_deriv ?_
  ring

theorem derivBy_add {f f2 : Q ℝ → M3 ℝ} {d d2 : M3 ℝ} {q : Q ℝ} {j : Fin 3} (h : DerivBy f d q j) (h2 : DerivBy f2 d2 q j) :
    DerivBy (fun p => f p + f2 p) (d + d2) q j := fun r s => (h r s).add (h2 r s)

theorem derivBy_sub {f f2 : Q ℝ → M3 ℝ} {d d2 : M3 ℝ} {q : Q ℝ} {j : Fin 3} (h : DerivBy f d q j) (h2 : DerivBy f2 d2 q j) :
    DerivBy (fun p => f p - f2 p) (d - d2) q j := fun r s => (h r s).sub (h2 r s)

theorem derivBy_smul {f : Q ℝ → M3 ℝ} {d : M3 ℝ} {q : Q ℝ} {j : Fin 3} (c : ℝ) (h : DerivBy f d q j) :
    DerivBy (fun p => c • f p) (c • d) q j := fun r s => (h r s).const_mul c

section Parts
variable (g b sp : ℝ) (q : Q ℝ) (n : P2 ℝ)


theorem dcel_eq (hg : 0 < g) {h : ℝ} (h0 : 0 < h) : dcel Real.sqrt g h = cel Real.sqrt g h / (2 * h) := by
  simp only [dcel, cel]
  have : g / h = g * h / h ^ 2 := by field_simp
  rw [this, Real.sqrt_div (mul_pos hg h0).le, Real.sqrt_sq h0.le]
  field_simp

theorem cel_deriv (hg : 0 < g) (hw : 0 < q.ze + b) (j : Fin 3) :
    HasDerivAt (fun x => cel Real.sqrt g ((setVar q j x).ze + b)) (dcel Real.sqrt g (q.ze + b) * kron 0 j) (getVar q j) := by
  have h := ((h_deriv q b j).const_mul g).sqrt (by rw [setVar_self]; exact (mul_pos hg hw).ne')
  refine h.congr_deriv ?_
  rw [setVar_self, dcel_eq g hg hw, cel]
  have hc := (cel_sq real_isSqrt hg hw)
  simp only [cel] at hc
  have h1 := hc.1.ne'
  have h2 := hw.ne'
  rw [div_mul_eq_mul_div, div_eq_div_iff (by positivity) (by positivity)]
  linear_combination (-2 * kron 0 j) * hc.2

theorem vn_deriv (hw : 0 < q.ze + b) (j : Fin 3) :
    HasDerivAt (fun x => vn ((setVar q j x).qx / ((setVar q j x).ze + b)) ((setVar q j x).qy / ((setVar q j x).ze + b)) n)
      ((kron 1 j * n.x + kron 2 j * n.y - vn (q.qx / (q.ze + b)) (q.qy / (q.ze + b)) n * kron 0 j) / (q.ze + b)) (getVar q j) := by
  refine (((u_deriv q b hw j).mul_const n.x).add ((v_deriv q b hw j).mul_const n.y)).congr_deriv ?_
  have := hw.ne'
  simp only [vn]
  field_simp
  ring

theorem abs_deriv {f : ℝ → ℝ} {d t : ℝ} (h : HasDerivAt f d t) (h0 : f t ≠ 0) : HasDerivAt (fun x => |f x|) (d * sgn (f t)) t := by
  rcases lt_or_gt_of_ne h0 with h1 | h1
  · have := (hasDerivAt_abs_neg h1).comp t h
    refine this.congr_deriv ?_
    simp [sgn, h1, not_lt.mpr h1.le]
  · have := (hasDerivAt_abs_pos h1).comp t h
    refine this.congr_deriv ?_
    simp [sgn, h1, not_lt.mpr h1.le]

theorem matR_deriv (hg : 0 < g) (hw : 0 < q.ze + b) (j : Fin 3) :
    DerivBy (fun p => matR Real.sqrt g (p.ze + b) (p.qx / (p.ze + b)) (p.qy / (p.ze + b)) n)
      (![dRze Real.sqrt g (q.ze + b) (q.qx / (q.ze + b)) (q.qy / (q.ze + b)) n, dRqx (q.ze + b), dRqy (q.ze + b)] j) q j := by
  have hu := u_deriv q b hw j
  have hv := v_deriv q b hw j
  have hc := cel_deriv g b q hg hw j
  intro r s
  fin_cases r <;> fin_cases s
  · refine (hasDerivAt_const _ (1 : ℝ)).congr_deriv ?_
    fin_cases j <;> simp [dRze, dRqx, dRqy]
  · refine (hasDerivAt_const _ (0 : ℝ)).congr_deriv ?_
    fin_cases j <;> simp [dRze, dRqx, dRqy]
  · refine (hasDerivAt_const _ (1 : ℝ)).congr_deriv ?_
    fin_cases j <;> simp [dRze, dRqx, dRqy]
  · refine (hu.sub (hc.mul_const n.x)).congr_deriv ?_
    fin_cases j <;> simp [dRze, dRqx, dRqy, kron]
  · refine (hasDerivAt_const _ (-n.y)).congr_deriv ?_
    fin_cases j <;> simp [dRze, dRqx, dRqy]
  · refine (hu.add (hc.mul_const n.x)).congr_deriv ?_
    fin_cases j <;> simp [dRze, dRqx, dRqy, kron]
  · refine (hv.sub (hc.mul_const n.y)).congr_deriv ?_
    fin_cases j <;> simp [dRze, dRqx, dRqy, kron]
  · refine (hasDerivAt_const _ n.x).congr_deriv ?_
    fin_cases j <;> simp [dRze, dRqx, dRqy]
  · refine (hv.add (hc.mul_const n.y)).congr_deriv ?_
    fin_cases j <;> simp [dRze, dRqx, dRqy, kron]

theorem matL_deriv (hg : 0 < g) (hw : 0 < q.ze + b) (j : Fin 3) :
    DerivBy (fun p => matL Real.sqrt g (p.ze + b) (p.qx / (p.ze + b)) (p.qy / (p.ze + b)) n)
      (![dLze Real.sqrt g (q.ze + b) (q.qx / (q.ze + b)) (q.qy / (q.ze + b)) n, dLqx (q.ze + b) n, dLqy (q.ze + b) n] j) q j := by
  have hu := vn_deriv b q n hw j
  have hc := cel_deriv g b q hg hw j
  intro r s
  fin_cases r <;> fin_cases s
  · refine (hu.sub hc).congr_deriv ?_
    fin_cases j <;> simp [dLze, dLqx, dLqy, kron, vn]
  · refine (hasDerivAt_const _ (0 : ℝ)).congr_deriv ?_
    fin_cases j <;> simp [dLze, dLqx, dLqy]
  · refine (hasDerivAt_const _ (0 : ℝ)).congr_deriv ?_
    fin_cases j <;> simp [dLze, dLqx, dLqy]
  · refine (hasDerivAt_const _ (0 : ℝ)).congr_deriv ?_
    fin_cases j <;> simp [dLze, dLqx, dLqy]
  · refine hu.congr_deriv ?_
    fin_cases j <;> simp [dLze, dLqx, dLqy, kron, vn]
  · refine (hasDerivAt_const _ (0 : ℝ)).congr_deriv ?_
    fin_cases j <;> simp [dLze, dLqx, dLqy]
  · refine (hasDerivAt_const _ (0 : ℝ)).congr_deriv ?_
    fin_cases j <;> simp [dLze, dLqx, dLqy]
  · refine (hasDerivAt_const _ (0 : ℝ)).congr_deriv ?_
    fin_cases j <;> simp [dLze, dLqx, dLqy]
  · refine (hu.add hc).congr_deriv ?_
    fin_cases j <;> simp [dLze, dLqx, dLqy, kron, vn]

theorem absL_deriv (hg : 0 < g) (hw : 0 < q.ze + b) (h3 : ∀ i, speeds Real.sqrt g q b n i ≠ 0) (j : Fin 3) :
    DerivBy (fun p => absL Real.sqrt g (p.ze + b) (p.qx / (p.ze + b)) (p.qy / (p.ze + b)) n)
      (![dabsLze Real.sqrt g (q.ze + b) (q.qx / (q.ze + b)) (q.qy / (q.ze + b)) n,
         dabsLqx Real.sqrt g (q.ze + b) (q.qx / (q.ze + b)) (q.qy / (q.ze + b)) n,
         dabsLqy Real.sqrt g (q.ze + b) (q.qx / (q.ze + b)) (q.qy / (q.ze + b)) n] j) q j := by
  have hu := vn_deriv b q n hw j
  have hc := cel_deriv g b q hg hw j
  have e : vn (q.qx / (q.ze + b)) (q.qy / (q.ze + b)) n = (q.qx * n.x + q.qy * n.y) / (q.ze + b) := by simp only [vn]; ring
  have k0 := abs_deriv (hu.fun_sub hc) (by simp only [setVar_self, e]; exact h3 0)
  have k1 := abs_deriv hu (by simp only [setVar_self, e]; exact h3 1)
  have k2 := abs_deriv (hu.fun_add hc) (by simp only [setVar_self, e]; exact h3 2)
  intro r s
  fin_cases r <;> fin_cases s
  · refine k0.congr_deriv ?_
    simp only [setVar_self]
    fin_cases j <;> simp [dabsLze, dabsLqx, dabsLqy, kron, vn]
  · refine (hasDerivAt_const _ (0 : ℝ)).congr_deriv ?_
    fin_cases j <;> simp [dabsLze, dabsLqx, dabsLqy]
  · refine (hasDerivAt_const _ (0 : ℝ)).congr_deriv ?_
    fin_cases j <;> simp [dabsLze, dabsLqx, dabsLqy]
  · refine (hasDerivAt_const _ (0 : ℝ)).congr_deriv ?_
    fin_cases j <;> simp [dabsLze, dabsLqx, dabsLqy]
  · refine k1.congr_deriv ?_
    simp only [setVar_self]
    fin_cases j <;> simp [dabsLze, dabsLqx, dabsLqy, kron, vn]
  · refine (hasDerivAt_const _ (0 : ℝ)).congr_deriv ?_
    fin_cases j <;> simp [dabsLze, dabsLqx, dabsLqy]
  · refine (hasDerivAt_const _ (0 : ℝ)).congr_deriv ?_
    fin_cases j <;> simp [dabsLze, dabsLqx, dabsLqy]
  · refine (hasDerivAt_const _ (0 : ℝ)).congr_deriv ?_
    fin_cases j <;> simp [dabsLze, dabsLqx, dabsLqy]
  · refine k2.congr_deriv ?_
    simp only [setVar_self]
    fin_cases j <;> simp [dabsLze, dabsLqx, dabsLqy, kron, vn]

theorem invR_deriv (hg : 0 < g) (hw : 0 < q.ze + b) (j : Fin 3) :
    DerivBy (fun p => invR Real.sqrt g (p.ze + b) (p.qx / (p.ze + b)) (p.qy / (p.ze + b)) n)
      (![dinvRze Real.sqrt g (q.ze + b) (q.qx / (q.ze + b)) (q.qy / (q.ze + b)) n, dinvRqx Real.sqrt g (q.ze + b) n,
         dinvRqy Real.sqrt g (q.ze + b) n] j) q j := by
  have hu := u_deriv q b hw j
  have hv := v_deriv q b hw j
  have hn := vn_deriv b q n hw j
  have hc := cel_deriv g b q hg hw j
  have hcc := cel_sq real_isSqrt hg hw
  have c0 := hcc.1.ne'
  have h0 := hw.ne'
  have g0 := hg.ne'
  have c1 : 2 * cel Real.sqrt g ((setVar q j (getVar q j)).ze + b) ≠ 0 := by rw [setVar_self]; positivity
  have c2 : g * (q.ze + b) = cel Real.sqrt g (q.ze + b) * cel Real.sqrt g (q.ze + b) := hcc.2.symm
  have hc2 := hc.const_mul 2
  have inv := fun k : ℝ => (hasDerivAt_const (getVar q j) k).div hc2 c1
  rw [dcel_eq g hg hw] at hc hc2 inv
  intro r s
  fin_cases r <;> fin_cases s
  · refine ((hc.fun_add hn).div hc2 c1).congr_deriv ?_
    simp only [setVar_self]
    fin_cases j <;> simp [dinvRze, dinvRqx, dinvRqy, kron] <;>
      generalize vn (q.qx / (q.ze + b)) (q.qy / (q.ze + b)) n = un <;> field_simp <;> try ring
  · refine (inv (-n.x)).congr_deriv ?_
    simp only [setVar_self]
    fin_cases j <;> simp [dinvRze, dinvRqx, dinvRqy, kron, dcel_eq g hg hw, c2] <;> field_simp
  · refine (inv (-n.y)).congr_deriv ?_
    simp only [setVar_self]
    fin_cases j <;> simp [dinvRze, dinvRqx, dinvRqy, kron, dcel_eq g hg hw, c2] <;> field_simp
  · refine ((hu.mul_const n.y).sub (hv.mul_const n.x)).congr_deriv ?_
    fin_cases j <;> simp [dinvRze, dinvRqx, dinvRqy, kron] <;> field_simp <;> ring
  · refine (hasDerivAt_const _ (-n.y)).congr_deriv ?_
    fin_cases j <;> simp [dinvRze, dinvRqx, dinvRqy]
  · refine (hasDerivAt_const _ (n.x)).congr_deriv ?_
    fin_cases j <;> simp [dinvRze, dinvRqx, dinvRqy]
  · refine ((hc.fun_sub hn).div hc2 c1).congr_deriv ?_
    simp only [setVar_self]
    fin_cases j <;> simp [dinvRze, dinvRqx, dinvRqy, kron] <;>
      generalize vn (q.qx / (q.ze + b)) (q.qy / (q.ze + b)) n = un <;> field_simp <;> try ring
  · refine (inv (n.x)).congr_deriv ?_
    simp only [setVar_self]
    fin_cases j <;> simp [dinvRze, dinvRqx, dinvRqy, kron, dcel_eq g hg hw, c2] <;> field_simp
  · refine (inv (n.y)).congr_deriv ?_
    simp only [setVar_self]
    fin_cases j <;> simp [dinvRze, dinvRqx, dinvRqy, kron, dcel_eq g hg hw, c2] <;> field_simp

theorem triple {R L I : Q ℝ → M3 ℝ} {dR dL dI : M3 ℝ} {j : Fin 3} (h1 : DerivBy R dR q j) (h2 : DerivBy L dL q j) (h3 : DerivBy I dI q j) :
    DerivBy (fun p => R p * L p * I p) (dR * L q * I q + R q * dL * I q + R q * L q * dI) q j := by
  have h := derivBy_mul (derivBy_mul h1 h2) h3
  rw [Matrix.add_mul] at h
  exact h

/-- The coded derivatives of A are the partial derivatives of A. -/
theorem dA_derivative (hg : 0 < g) (hw : 0 < q.ze + b) (j : Fin 3) :
    DerivBy (fun p => getA Real.sqrt g p (auxAt b sp p) n)
      (![getdAze Real.sqrt g q (auxAt b sp q) n, getdAqx Real.sqrt g q (auxAt b sp q) n, getdAqy Real.sqrt g q (auxAt b sp q) n] j) q j := by
  have h := triple q (matR_deriv g b q n hg hw j) (matL_deriv g b q n hg hw j) (invR_deriv g b q n hg hw j)
  fin_cases j <;> exact h

/-- The coded derivatives of |A|, A+ and A- are the partial derivatives, where no characteristic speed vanishes. -/
theorem dabsA_derivative (hg : 0 < g) (hw : 0 < q.ze + b) (h3 : ∀ i, speeds Real.sqrt g q b n i ≠ 0) (j : Fin 3) :
    DerivBy (fun p => getAbsA Real.sqrt g p (auxAt b sp p) n)
      (![getdAbsAze Real.sqrt g q (auxAt b sp q) n, getdAbsAqx Real.sqrt g q (auxAt b sp q) n, getdAbsAqy Real.sqrt g q (auxAt b sp q) n] j) q j ∧
    DerivBy (fun p => getAplus Real.sqrt g p (auxAt b sp p) n)
      (![getdAplusZe Real.sqrt g q (auxAt b sp q) n, getdAplusQx Real.sqrt g q (auxAt b sp q) n, getdAplusQy Real.sqrt g q (auxAt b sp q) n] j) q j ∧
    DerivBy (fun p => getAminus Real.sqrt g p (auxAt b sp p) n)
      (![getdAminusZe Real.sqrt g q (auxAt b sp q) n, getdAminusQx Real.sqrt g q (auxAt b sp q) n, getdAminusQy Real.sqrt g q (auxAt b sp q) n] j) q j := by
  have hR := matR_deriv g b q n hg hw j
  have hL := matL_deriv g b q n hg hw j
  have hA := absL_deriv g b q n hg hw h3 j
  have hI := invR_deriv g b q n hg hw j
  have h := triple q hR hA hI
  have hp := derivBy_smul (1 / 2) (triple q hR (derivBy_add hL hA) hI)
  have hm := derivBy_smul (1 / 2) (triple q hR (derivBy_sub hL hA) hI)
  refine ⟨?_, ?_, ?_⟩
  · fin_cases j <;> exact h
  · simp only [getAplus, Matrix.smul_mul]
    fin_cases j <;> exact hp
  · simp only [getAminus, Matrix.smul_mul]
    fin_cases j <;> exact hm

/-- The coded derivatives of the stabilization parameter are its partial derivatives, where the normal velocity does not vanish. -/
theorem tau_derivative (hg : 0 < g) (hw : 0 < q.ze + b) (h1 : q.qx * n.x + q.qy * n.y ≠ 0) (j : Fin 3) :
    DerivBy (fun p => tauLF Real.sqrt g p (auxAt b sp p) n)
      (![dtauZe Real.sqrt g q (auxAt b sp q) n, dtauQx q (auxAt b sp q) n, dtauQy q (auxAt b sp q) n] j) q j := by
  have hu := vn_deriv b q n hw j
  have hc := cel_deriv g b q hg hw j
  have e : vn (q.qx / (q.ze + b)) (q.qy / (q.ze + b)) n = (q.qx * n.x + q.qy * n.y) / (q.ze + b) := by simp only [vn]; ring
  have k1 := abs_deriv hu (by simp only [setVar_self, e]; exact div_ne_zero h1 hw.ne')
  intro r s
  simp only [tauLF, auxAt, Matrix.smul_apply, smul_eq_mul]
  refine ((hc.add k1).mul_const _).congr_deriv ?_
  simp only [setVar_self]
  fin_cases j <;> simp [dtauZe, dtauQx, dtauQy, kron]

/-- The stabilization parameter bounds every characteristic speed and is reached by one of them. -/
theorem tau_bounds {sq : K → K} (hs : IsSqrt sq) {g : K} (hg : 0 < g) (q : Q K) (a : Aux K) (ha : a.h = q.ze + a.bath) (hh : 0 < a.h)
    (n : P2 K) : ∃ t : K, tauLF sq g q a n = Matrix.diagonal (fun _ => t) ∧ (∀ i, |speeds sq g q a.bath n i| ≤ t) ∧
      ∃ i, |speeds sq g q a.bath n i| = t := by
  obtain ⟨hc, -⟩ := cel_sq hs hg hh
  have e : vn (q.qx / a.h) (q.qy / a.h) n = (q.qx * n.x + q.qy * n.y) / a.h := by simp only [vn]; ring
  have es : speeds sq g q a.bath n = ![(q.qx * n.x + q.qy * n.y) / a.h - cel sq g a.h, (q.qx * n.x + q.qy * n.y) / a.h,
      (q.qx * n.x + q.qy * n.y) / a.h + cel sq g a.h] := by simp only [speeds, cel, ha]
  refine ⟨cel sq g a.h + |(q.qx * n.x + q.qy * n.y) / a.h|, ?_, ?_, ?_⟩
  · simp only [tauLF, e]
    ext i j
    simp [Matrix.one_apply, Matrix.diagonal_apply]
  · intro i
    rw [es]
    generalize (q.qx * n.x + q.qy * n.y) / a.h = un
    fin_cases i
    · exact (abs_sub _ _).trans (by rw [abs_of_pos hc, add_comm])
    · exact le_add_of_nonneg_left hc.le
    · exact (abs_add_le _ _).trans (by rw [abs_of_pos hc, add_comm])
  · rw [es]
    generalize (q.qx * n.x + q.qy * n.y) / a.h = un
    rcases le_total 0 un with h | h
    · refine ⟨2, ?_⟩
      show |un + cel sq g a.h| = _
      rw [abs_of_nonneg h, abs_of_nonneg (add_nonneg h hc.le), add_comm]
    · refine ⟨0, ?_⟩
      show |un - cel sq g a.h| = _
      rw [abs_of_nonpos h, abs_of_nonpos (by linarith)]
      ring

end Parts

/-! ### Non-vacuity -/

/-- A wet state over ℚ, gravity 1 and depth 4, flow to the right: Jacobian and its splitting. -/
example : getA sqQ 1 ⟨1, 4, 0⟩ ⟨3, 4, 1⟩ ⟨1, 0⟩ = !![0, 1, 0; 3, 2, 0; 0, 0, 1] := by decide +kernel
example : getAplus sqQ 1 ⟨1, 4, 0⟩ ⟨3, 4, 1⟩ ⟨1, 0⟩ + getAminus sqQ 1 ⟨1, 4, 0⟩ ⟨3, 4, 1⟩ ⟨1, 0⟩ = getA sqQ 1 ⟨1, 4, 0⟩ ⟨3, 4, 1⟩ ⟨1, 0⟩ := by
  decide +kernel
example : speeds sqQ 1 ⟨1, 4, 0⟩ 3 ⟨1, 0⟩ = ![-1, 1, 3] := by decide +kernel
example : tauLF sqQ 1 ⟨1, 4, 0⟩ ⟨3, 4, 1⟩ ⟨1, 0⟩ = !![3, 0, 0; 0, 3, 0; 0, 0, 3] := by decide +kernel
/-- The state used above is wet with nonzero speeds, so the theorems on derivatives apply to it. -/
example : 0 < (1 : ℝ) + 3 ∧ ∀ i, speeds Real.sqrt 1 ⟨1, 4, 0⟩ 3 ⟨1, 0⟩ i ≠ 0 := by
  have h4 : Real.sqrt (1 * (1 + 3)) = 2 := by
    rw [show (1 * (1 + 3) : ℝ) = 2 ^ 2 by norm_num]; exact Real.sqrt_sq (by norm_num)
  refine ⟨by norm_num, fun i => ?_⟩
  simp only [speeds, h4]
  fin_cases i <;> norm_num


end Verif.Swe.Props
