import Verif.Props.Orthogonal
import Mathlib.Data.Fin.VecNotation

/-!
# C39: values and derivatives of the Dubiner functions, the collapsed vertex included
-/

namespace Verif.Basis.Props
open Verif.Basis Verif.Basis.Lemmas Verif.Geometry

/-- The Dubiner function as a polynomial function of z1 and z2. -/
noncomputable def dub (p q : ℕ) (x y : ℝ) : ℝ :=
  (1 / 2) ^ p * (∑ k ∈ Finset.range (p + 1), jc p 0 0 k * (-x - y) ^ k * (1 - y) ^ (p - k)) * (jp q (2 * p + 1) 0 : Polynomial ℝ).eval ((1 - y) / 2)

theorem hom_eval (p : ℕ) (s v : ℝ) (hv : v ≠ 0) :
    ∑ k ∈ Finset.range (p + 1), jc p 0 0 k * s ^ k * v ^ (p - k) = v ^ p * (jp p 0 0 : Polynomial ℝ).eval (s / v) := by
  unfold jp
  rw [Polynomial.eval_finsetSum, Finset.mul_sum]
  apply Finset.sum_congr rfl
  intro k hk
  simp only [Finset.mem_range] at hk
  simp only [Polynomial.eval_mul, Polynomial.eval_C, Polynomial.eval_pow, Polynomial.eval_X]
  rw [div_pow]
  have : v ^ p = v ^ (p - k) * v ^ k := by rw [← pow_add]; congr 1; omega
  rw [this]
  field_simp

theorem phi_eq_dub (p q : ℕ) (h : p + q ≤ 800) (x y : ℝ) (hy : y ≠ 1) : phi p q (⟨x, y⟩ : P2 ℝ) = dub p q x y := by
  have hv : 1 - y ≠ 0 := fun e => hy (by linarith)
  rw [phi_regular p q x y hy, jacobi_eq (by omega) (by omega), jacobi_eq (by omega) (by omega)]
  unfold dub
  rw [hom_eval p (-x - y) (1 - y) hv]
  have e : (1 - (2 * (1 + x) / (1 - y) - 1)) / 2 = (-x - y) / (1 - y) := by field_simp; ring
  rw [e, div_pow, one_div, inv_pow]
  ring

theorem pow_half (p : ℕ) (v : ℝ) (hv : v ≠ 0) : (p : ℝ) / 2 * (v / 2) ^ ((p : ℤ) - 1) = (p : ℝ) / v * (v / 2) ^ p := by
  rw [zpow_sub₀ (div_ne_zero hv two_ne_zero), zpow_natCast, zpow_one]
  field_simp

/-- At regular points the routines return the partial derivatives of the function. -/
theorem regular_derivs (p q : ℕ) (h : p + q ≤ 800) (x y : ℝ) (hy : y ≠ 1) :
    HasDerivAt (fun t => dub p q t y) (dphi1 p q (⟨x, y⟩ : P2 ℝ)) x ∧ HasDerivAt (fun t => dub p q x t) (dphi2 p q (⟨x, y⟩ : P2 ℝ)) y := by
  have hv : 1 - y ≠ 0 := fun e => hy (by linarith)
  constructor
  · have hf : (fun t => dub p q t y) = fun t => jacobi p 0 0 (2 * (1 + t) / (1 - y) - 1) * ((1 - y) / 2) ^ p * jacobi q (2 * p + 1) 0 y := by
      funext t; rw [← phi_eq_dub p q h t y hy, phi_regular p q t y hy]
    rw [hf]
    have hn : HasDerivAt (fun t : ℝ => 2 * (1 + t) / (1 - y) - 1) (2 / (1 - y)) x := by
      have := ((((hasDerivAt_id x).const_add 1).const_mul 2).div_const (1 - y)).sub_const 1
      simpa using this
    have := (((jacobi_deriv (n := p) (a := 0) (b := 0) (by omega) (by omega) (2 * (1 + x) / (1 - y) - 1)).comp x hn).mul_const
      (((1 - y) / 2) ^ p)).mul_const (jacobi q (2 * p + 1) 0 y)
    refine this.congr_deriv ?_
    unfold dphi1 n1
    rw [if_neg hy]
    ring
  · have hf : (fun t => dub p q x t) =ᶠ[nhds y] fun t => jacobi p 0 0 (2 * (1 + x) / (1 - t) - 1) * ((1 - t) / 2) ^ p * jacobi q (2 * p + 1) 0 t := by
      filter_upwards [isOpen_ne.mem_nhds hy] with t ht
      rw [← phi_eq_dub p q h x t ht, phi_regular p q x t ht]
    have hB : HasDerivAt (fun t : ℝ => 1 - t) (-1) y := by simpa using (hasDerivAt_id y).const_sub 1
    have hn : HasDerivAt (fun t : ℝ => 2 * (1 + x) / (1 - t) - 1) (2 * (1 + x) / (1 - y) ^ 2) y := by
      have := (((hB.inv hv).const_mul (2 * (1 + x))).sub_const 1)
      refine this.congr_deriv ?_
      field_simp
    have h1 := (jacobi_deriv (n := p) (a := 0) (b := 0) (by omega) (by omega) (2 * (1 + x) / (1 - y) - 1)).comp y hn
    have h2 := (hB.div_const 2).pow p
    have h3 := jacobi_deriv (n := q) (a := 2 * p + 1) (b := 0) (by omega) (by omega) y
    refine (((h1.mul h2).mul h3).congr_deriv ?_).congr_of_eventuallyEq hf
    unfold dphi2 n1
    rw [if_neg hy]
    simp only [Pi.mul_apply, Pi.pow_apply, Function.comp_apply]
    rw [pow_half p _ hv]
    cases p with
    | zero =>
      simp only [pow_zero, Nat.cast_zero]
      field_simp
      ring
    | succ p =>
      simp only [Nat.add_sub_cancel]
      rw [pow_succ ((1 - y) / 2) p]
      field_simp
      ring

/-! ### The collapsed vertex -/

theorem singular1_eq (q : ℕ) : (singular1 q : ℝ × ℝ).1 = ((q : ℝ) + 2) * (q + 3) / 2 ∧ (singular1 q : ℝ × ℝ).2 = ((q : ℝ) + 1) * (q + 2) * (q + 3) / 6 := by
  induction q with
  | zero => simp [singular1]; norm_num
  | succ q ih =>
    simp only [singular1, ih.1, ih.2]
    push_cast
    constructor <;> ring

theorem singular2_eq (q : ℕ) : (singular2 q : ℝ × ℝ).1 = ((q : ℝ) + 1) * (q + 2) / 4 ∧ (singular2 q : ℝ × ℝ).2 = (q : ℝ) * (q + 1) * (q + 2) / 12 := by
  induction q with
  | zero => simp [singular2]; norm_num
  | succ q ih =>
    simp only [singular2, ih.1, ih.2]
    push_cast
    constructor <;> ring

theorem jp_at_zero (n a b : ℕ) : (jp n a b : Polynomial ℝ).eval 0 = ((n + a).choose n : ℝ) := by
  rw [← Polynomial.coeff_zero_eq_eval_zero, jp_coeff]
  simp only [jc, Nat.add_zero, Nat.choose_zero_right, pow_zero, one_mul, Nat.cast_one, mul_one]
  rw [← Nat.choose_symm_add, Nat.add_comm]

theorem choose_three (q : ℕ) : ((q + 3).choose q : ℝ) = ((q : ℝ) + 1) * (q + 2) * (q + 3) / 6 := by
  have h : (q + 3).choose q = (q + 3).choose 3 := by rw [← Nat.choose_symm (by omega : 3 ≤ q + 3)]; congr 1
  rw [h]
  have := Nat.descFactorial_eq_factorial_mul_choose (q + 3) 3
  have h3 : (q + 3).descFactorial 3 = (q + 1) * ((q + 2) * (q + 3)) := by
    simp [Nat.descFactorial]
  rw [h3] at this
  have h' : (((q + 1) * ((q + 2) * (q + 3)) : ℕ) : ℝ) = ((Nat.factorial 3 * (q + 3).choose 3 : ℕ) : ℝ) := by exact_mod_cast this
  push_cast [Nat.factorial] at h'
  linarith

/-- Value and derivatives at the vertex (-1, 1). -/
theorem singular_point (p q : ℕ) :
    phi p q (⟨-1, 1⟩ : P2 ℝ) = dub p q (-1) 1 ∧ HasDerivAt (fun t => dub p q t 1) (dphi1 p q (⟨-1, 1⟩ : P2 ℝ)) (-1) ∧
      HasDerivAt (fun t => dub p q (-1) t) (dphi2 p q (⟨-1, 1⟩ : P2 ℝ)) 1 := by
  have hn : n1 (⟨-1, 1⟩ : P2 ℝ) = none := by simp [n1]
  have hz : ((1 : ℝ) - 1) / 2 = 0 := by norm_num
  -- along z2 = 1 only the last term is left
  have h1 : ∀ x : ℝ, dub p q x 1 = (1 / 2) ^ p * (jc p 0 0 p * (-x - 1) ^ p) * ((q + (2 * p + 1)).choose q : ℝ) := by
    intro x
    unfold dub
    rw [hz, jp_at_zero, Finset.sum_eq_single p]
    · simp
    · intro k hk hkp
      simp only [Finset.mem_range] at hk
      rw [sub_self, zero_pow (by omega), mul_zero]
    · intro hp; simp at hp
  -- along z1 = -1 the sum is a multiple of (1 - z2)^p
  have h2 : ∀ y : ℝ, dub p q (-1) y = (1 / 2) ^ p * ((∑ k ∈ Finset.range (p + 1), jc p 0 0 k) * (1 - y) ^ p) *
      (jp q (2 * p + 1) 0 : Polynomial ℝ).eval ((1 - y) / 2) := by
    intro y
    unfold dub
    congr 2
    rw [Finset.sum_mul]
    apply Finset.sum_congr rfl
    intro k hk
    simp only [Finset.mem_range] at hk
    have : (1 - y) ^ p = (1 - y) ^ k * (1 - y) ^ (p - k) := by rw [← pow_add]; congr 1; omega
    rw [this]
    ring
  have hA : HasDerivAt (fun t : ℝ => -t - 1) (-1) (-1) := by simpa using ((hasDerivAt_id (-1 : ℝ)).neg).sub_const 1
  have hB : HasDerivAt (fun t : ℝ => 1 - t) (-1) 1 := by simpa using (hasDerivAt_id (1 : ℝ)).const_sub 1
  have hC : HasDerivAt (fun t : ℝ => (1 - t) / 2) (-(1 / 2)) 1 := by
    have := hB.div_const 2
    rwa [neg_div] at this
  have hQ : HasDerivAt (fun t : ℝ => (jp q (2 * p + 1) 0 : Polynomial ℝ).eval ((1 - t) / 2))
      (-(1 / 2) * (Polynomial.derivative (jp q (2 * p + 1) 0 : Polynomial ℝ)).eval 0) 1 := by
    have h := (jp q (2 * p + 1) 0 : Polynomial ℝ).hasDerivAt ((1 - 1) / 2)
    have := h.comp (1 : ℝ) hC
    refine this.congr_deriv ?_
    rw [hz]
    ring
  have e1 : (fun t => dub p q t 1) = fun x => (1 / 2) ^ p * (jc p 0 0 p * (-x - 1) ^ p) * ((q + (2 * p + 1)).choose q : ℝ) := funext h1
  have e2 : (fun t => dub p q (-1) t) = fun y => (1 / 2) ^ p * ((∑ k ∈ Finset.range (p + 1), jc p 0 0 k) * (1 - y) ^ p) *
      (jp q (2 * p + 1) 0 : Polynomial ℝ).eval ((1 - y) / 2) := funext h2
  have d1 := (((hA.pow p).const_mul (jc p 0 0 p : ℝ)).const_mul ((1 / 2 : ℝ) ^ p)).mul_const ((q + (2 * p + 1)).choose q : ℝ)
  have d2 := (((hB.pow p).const_mul (∑ k ∈ Finset.range (p + 1), (jc p 0 0 k : ℝ))).const_mul ((1 / 2 : ℝ) ^ p)).mul hQ
  rw [e1, e2]
  refine ⟨?_, d1.congr_deriv ?_, d2.congr_deriv ?_⟩
  · rw [h1]
    unfold phi
    rw [hn]
    cases p with
    | zero => simp [jc]
    | succ p => simp
  · unfold dphi1
    rw [hn]
    match p with
    | 0 => simp
    | 1 =>
      have := choose_three q
      simp [jc, (singular1_eq q).2, this]
    | p + 2 => simp
  · unfold dphi2
    rw [hn]
    match p with
    | 0 =>
      simp only [pow_zero, Nat.cast_zero, zero_add, Finset.range_one, Finset.sum_singleton, if_true]
      rw [(singular2_eq q).2]
      cases q with
      | zero => simp [jp_zero, jc]
      | succ q =>
        rw [jp_derivative]
        simp only [Polynomial.eval_mul, Polynomial.eval_neg, Polynomial.eval_C, jp_at_zero]
        have hc : ((q + (2 * 0 + 1 + 1)).choose q : ℝ) = ((q : ℝ) + 1) * (q + 2) / 2 := by
          have h : (q + 2).choose q = (q + 2).choose 2 := by rw [← Nat.choose_symm (by omega : 2 ≤ q + 2)]; congr 1
          change ((q + 2).choose q : ℝ) = _
          rw [h, Nat.cast_choose_two]
          push_cast
          ring
        rw [hc]
        simp [jc]
        ring
    | 1 =>
      have := choose_three q
      have hq := (singular2_eq (q + 1)).2
      simp [jc, Finset.sum_range_succ, jp_at_zero, this, hq]
      ring
    | p + 2 => simp

/-! ### The polynomial -/

open MvPolynomial in
/-- `dub` as a polynomial in two variables. -/
noncomputable def dubPoly (p q : ℕ) : MvPolynomial (Fin 2) ℝ :=
  C ((1 / 2) ^ p) * (∑ k ∈ Finset.range (p + 1), C (jc p 0 0 k) * (-X 0 - X 1) ^ k * (1 - X 1) ^ (p - k)) *
    ∑ k ∈ Finset.range (q + 1), C (jc q (2 * p + 1) 0 k) * (C (1 / 2) * (1 - X 1)) ^ k

theorem dubPoly_eval (p q : ℕ) (x y : ℝ) : MvPolynomial.eval ![x, y] (dubPoly p q) = dub p q x y := by
  unfold dubPoly dub jp
  simp only [map_mul, map_sum, MvPolynomial.eval_C, map_pow, map_sub, map_neg, map_one, MvPolynomial.eval_X, Polynomial.eval_finsetSum,
    Polynomial.eval_mul, Polynomial.eval_C, Polynomial.eval_pow, Polynomial.eval_X, Matrix.cons_val_zero, Matrix.cons_val_one]
  congr 1
  apply Finset.sum_congr rfl
  intro k _
  congr 2
  ring

open MvPolynomial in
theorem dubPoly_degree (p q : ℕ) : (dubPoly p q).totalDegree ≤ p + q := by
  have hl1 : (-X 0 - X 1 : MvPolynomial (Fin 2) ℝ).totalDegree ≤ 1 := by
    refine (totalDegree_sub _ _).trans ?_
    rw [totalDegree_neg, totalDegree_X, totalDegree_X]
    simp
  have hl2 : (1 - X 1 : MvPolynomial (Fin 2) ℝ).totalDegree ≤ 1 := by
    refine (totalDegree_sub _ _).trans ?_
    rw [totalDegree_one, totalDegree_X]
    simp
  unfold dubPoly
  refine (totalDegree_mul _ _).trans (add_le_add ?_ ?_)
  · refine (totalDegree_mul _ _).trans ?_
    rw [totalDegree_C, zero_add]
    refine totalDegree_finsetSum_le ?_
    intro k hk
    simp only [Finset.mem_range] at hk
    refine (totalDegree_mul _ _).trans ?_
    have a1 := totalDegree_mul (C (jc p 0 0 k) : MvPolynomial (Fin 2) ℝ) ((-X 0 - X 1) ^ k)
    have a2 := totalDegree_pow (-X 0 - X 1 : MvPolynomial (Fin 2) ℝ) k
    have a3 := totalDegree_pow (1 - X 1 : MvPolynomial (Fin 2) ℝ) (p - k)
    rw [totalDegree_C] at a1
    have b1 := Nat.mul_le_mul (le_refl k) hl1
    have b2 := Nat.mul_le_mul (le_refl (p - k)) hl2
    omega
  · refine totalDegree_finsetSum_le ?_
    intro k hk
    simp only [Finset.mem_range] at hk
    have a1 := totalDegree_mul (C (jc q (2 * p + 1) 0 k) : MvPolynomial (Fin 2) ℝ) ((C (1 / 2) * (1 - X 1)) ^ k)
    have a2 := totalDegree_pow (C (1 / 2) * (1 - X 1) : MvPolynomial (Fin 2) ℝ) k
    have a3 := totalDegree_mul (C (1 / 2) : MvPolynomial (Fin 2) ℝ) (1 - X 1)
    rw [totalDegree_C] at a1 a3
    have b1 := Nat.mul_le_mul (le_refl k) (a3.trans (by omega : 0 + (1 - X 1 : MvPolynomial (Fin 2) ℝ).totalDegree ≤ 1))
    omega

/-- C39: each basis function is a polynomial of degree at most p + q; the value and derivative routines return its value and its partial
derivatives at all points of the triangle, the collapsed vertex included. -/
theorem dubiner_polynomial (p q : ℕ) (h : p + q ≤ 800) : ∃ F : MvPolynomial (Fin 2) ℝ, F.totalDegree ≤ p + q ∧
    ∀ z : P2 ℝ, (z.y ≠ 1 ∨ z = ⟨-1, 1⟩) →
      phi p q z = MvPolynomial.eval ![z.x, z.y] F ∧
      HasDerivAt (fun x => MvPolynomial.eval ![x, z.y] F) (dphi1 p q z) z.x ∧
      HasDerivAt (fun y => MvPolynomial.eval ![z.x, y] F) (dphi2 p q z) z.y := by
  refine ⟨dubPoly p q, dubPoly_degree p q, ?_⟩
  rintro ⟨x, y⟩ hz
  simp only [dubPoly_eval]
  rcases hz with hz | hz
  · exact ⟨phi_eq_dub p q h x y hz, regular_derivs p q h x y hz⟩
  · simp only [P2.mk.injEq] at hz
    obtain ⟨rfl, rfl⟩ := hz
    exact singular_point p q

example : phi 0 2 (⟨-1, 1⟩ : P2 ℚ) = 3 ∧ dphi1 1 2 (⟨-1, 1⟩ : P2 ℚ) = 10 ∧ dphi2 0 2 (⟨-1, 1⟩ : P2 ℚ) = 6 ∧ dphi2 1 2 (⟨-1, 1⟩ : P2 ℚ) = 5 ∧
    phi 2 1 (⟨0, -1 / 2⟩ : P2 ℚ) = -9 / 64 := by decide +kernel

end Verif.Basis.Props
