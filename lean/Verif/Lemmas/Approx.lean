import Verif.Lemmas.Green
import Verif.Model.Element
import Mathlib.Algebra.Order.BigOperators.Group.Finset

/-!
Helper lemmas: errors of integration rules on polynomials, from their errors on monomials.
-/

namespace Verif.Tri
open MvPolynomial Verif.Element Verif.Geometry

/-- Sum of the absolute values of the coefficients. -/
noncomputable def absCoeffs (F : MvPolynomial (Fin 2) ℝ) : ℝ := ∑ s ∈ F.support, |F.coeff s|

theorem absCoeffs_nonneg (F : MvPolynomial (Fin 2) ℝ) : 0 ≤ absCoeffs F := Finset.sum_nonneg fun _ _ => abs_nonneg _

/-- A linear functional that is small on monomials. -/
theorem small_on (D : MvPolynomial (Fin 2) ℝ →ₗ[ℝ] ℝ) {ε : ℝ} {n : ℕ} (h : ∀ s : Fin 2 →₀ ℕ, s 0 + s 1 ≤ n → |D (monomial s 1)| ≤ ε)
    (F : MvPolynomial (Fin 2) ℝ) (hF : F.totalDegree ≤ n) : |D F| ≤ ε * absCoeffs F := by
  have h1 : D F = ∑ s ∈ F.support, F.coeff s * D (monomial s 1) := by
    conv_lhs => rw [F.as_sum]
    rw [map_sum]
    refine Finset.sum_congr rfl fun s _ => ?_
    rw [← smul_eq_mul, ← map_smul, smul_monomial, smul_eq_mul, mul_one]
  rw [h1, absCoeffs, Finset.mul_sum]
  refine (Finset.abs_sum_le_sum_abs _ _).trans (Finset.sum_le_sum fun s hs => ?_)
  rw [abs_mul, mul_comm]
  refine mul_le_mul_of_nonneg_right (h s ?_) (abs_nonneg _)
  have := le_totalDegree hs
  have he : (s.sum fun _ e => e) = s 0 + s 1 := by
    rw [Finsupp.sum_fintype _ _ (fun _ => rfl), Fin.sum_univ_two]
  omega

/-- The integral over the master triangle as a linear functional. -/
noncomputable def I2L : MvPolynomial (Fin 2) ℝ →ₗ[ℝ] ℝ where
  toFun F := I2 fun x y => eval ![x, y] F
  map_add' F G := by simp only [map_add]; exact I2_add (C2_poly F) (C2_poly G)
  map_smul' c F := by simp only [smul_eval, RingHom.id_apply, smul_eq_mul]; exact I2_smul c _

/-- A rule on the triangle as a linear functional. -/
noncomputable def triL (r : List (ℝ × P2 ℝ)) : MvPolynomial (Fin 2) ℝ →ₗ[ℝ] ℝ where
  toFun F := (r.map fun wz => wz.1 * eval ![wz.2.x, wz.2.y] F).sum
  map_add' F G := by
    induction r with
    | nil => simp
    | cons a r ih => simp only [List.map_cons, List.sum_cons, map_add] at ih ⊢; rw [ih]; ring
  map_smul' c F := by
    induction r with
    | nil => simp
    | cons a r ih => simp only [List.map_cons, List.sum_cons, smul_eval, RingHom.id_apply, smul_eq_mul] at ih ⊢; rw [ih]; ring

/-- A rule on a face as a linear functional. -/
noncomputable def faceL (r : List (ℝ × ℝ)) (f : ℕ) : MvPolynomial (Fin 2) ℝ →ₗ[ℝ] ℝ where
  toFun F := (r.map fun wx => wx.1 * eval ![(boundaryToMaster f wx.2).x, (boundaryToMaster f wx.2).y] F).sum
  map_add' F G := by
    induction r with
    | nil => simp
    | cons a r ih => simp only [List.map_cons, List.sum_cons, map_add] at ih ⊢; rw [ih]; ring
  map_smul' c F := by
    induction r with
    | nil => simp
    | cons a r ih => simp only [List.map_cons, List.sum_cons, smul_eval, RingHom.id_apply, smul_eq_mul] at ih ⊢; rw [ih]; ring

theorem face_cont (f : ℕ) (F : MvPolynomial (Fin 2) ℝ) :
    Continuous fun s : ℝ => eval ![(boundaryToMaster f s).x, (boundaryToMaster f s).y] F := by
  apply poly_cont <;> (unfold boundaryToMaster; split_ifs <;> fun_prop)

/-- The integral along a face of the master triangle. -/
noncomputable def faceI (f : ℕ) : MvPolynomial (Fin 2) ℝ →ₗ[ℝ] ℝ where
  toFun F := ∫ s in (-1 : ℝ)..1, eval ![(boundaryToMaster f s).x, (boundaryToMaster f s).y] F
  map_add' F G := by
    simp only [map_add]
    exact intervalIntegral.integral_add ((face_cont f F).intervalIntegrable _ _) ((face_cont f G).intervalIntegrable _ _)
  map_smul' c F := by
    simp only [smul_eval, RingHom.id_apply, smul_eq_mul]
    exact intervalIntegral.integral_const_mul _ _

theorem eval_mono (s : Fin 2 →₀ ℕ) (x y : ℝ) : eval ![x, y] (monomial s 1) = x ^ s 0 * y ^ s 1 := by
  rw [eval_monomial, Finsupp.prod_fintype _ _ (fun _ => pow_zero _), Fin.prod_univ_two]
  simp

/-- A rule on the triangle. -/
theorem tri_approx {r : List (ℝ × P2 ℝ)} {ε : ℝ} {n : ℕ}
    (h : ∀ i j, i + j ≤ n → |(r.map fun wz => wz.1 * (wz.2.x ^ i * wz.2.y ^ j)).sum - I2 fun x y => x ^ i * y ^ j| ≤ ε)
    (F : MvPolynomial (Fin 2) ℝ) (hF : F.totalDegree ≤ n) : |triL r F - I2L F| ≤ ε * absCoeffs F := by
  refine small_on (triL r - I2L) (fun s hs => ?_) F hF
  have := h (s 0) (s 1) hs
  simpa only [LinearMap.sub_apply, triL, I2L, LinearMap.coe_mk, AddHom.coe_mk, eval_mono] using this

/-- A rule on the line used on a face. -/
theorem face_approx {r : List (ℝ × ℝ)} {ε : ℝ} {n f : ℕ} (hf : f < 3)
    (h : ∀ k, k ≤ n → |(r.map fun wx => wx.1 * wx.2 ^ k).sum - ∫ x in (-1 : ℝ)..1, x ^ k| ≤ ε)
    (F : MvPolynomial (Fin 2) ℝ) (hF : F.totalDegree ≤ n) : |faceL r f F - faceI f F| ≤ ε * absCoeffs F := by
  refine small_on (faceL r f - faceI f) (fun s hs => ?_) F hF
  simp only [LinearMap.sub_apply, faceL, faceI, LinearMap.coe_mk, AddHom.coe_mk, eval_mono]
  -- on the face the monomial is a power up to sign
  obtain ⟨k, c, hk, hc, he⟩ : ∃ (k : ℕ) (c : ℝ), k ≤ n ∧ |c| = 1 ∧ ∀ t : ℝ, (boundaryToMaster f t).x ^ s 0 * (boundaryToMaster f t).y ^ s 1 = c * t ^ k := by
    have h3 : f = 0 ∨ f = 1 ∨ f = 2 := by omega
    rcases h3 with rfl | rfl | rfl
    · refine ⟨s 0 + s 1, (-1) ^ s 0, hs, by simp, fun t => ?_⟩
      simp only [boundaryToMaster, if_true]
      rw [neg_pow, pow_add]; ring
    · refine ⟨s 1, (-1) ^ s 0 * (-1) ^ s 1, by omega, by simp [abs_mul], fun t => ?_⟩
      simp only [boundaryToMaster, if_true, one_ne_zero, if_false]
      rw [neg_pow t]; ring
    · refine ⟨s 0, (-1) ^ s 1, by omega, by simp, fun t => ?_⟩
      simp only [boundaryToMaster, if_true, OfNat.ofNat_ne_zero, if_false, OfNat.ofNat_ne_one]
      ring
  simp only [he]
  have h1 : (r.map fun wx : ℝ × ℝ => wx.1 * (c * wx.2 ^ k)).sum = c * (r.map fun wx : ℝ × ℝ => wx.1 * wx.2 ^ k).sum := by
    rw [← List.sum_map_mul_left]
    congr 1
    exact List.map_congr_left fun _ _ => by ring
  rw [h1, intervalIntegral.integral_const_mul, ← mul_sub, abs_mul, hc, one_mul]
  exact h k hk

/-- Green's formula with faces. -/
theorem green (F : MvPolynomial (Fin 2) ℝ) : I2L (pderiv 0 F) = faceI 0 F - faceI 1 F ∧ I2L (pderiv 1 F) = faceI 0 F - faceI 2 F := by
  constructor
  · have := green1 F
    simp only [I2L, faceI, LinearMap.coe_mk, AddHom.coe_mk, boundaryToMaster, if_true, one_ne_zero, if_false]
    rw [face_neg fun s => eval ![-1, s] F]
    exact this
  · have := green2 F
    simp only [I2L, faceI, LinearMap.coe_mk, AddHom.coe_mk, boundaryToMaster, if_true, OfNat.ofNat_ne_zero, if_false, OfNat.ofNat_ne_one]
    exact this

end Verif.Tri
