import Verif.Model.Basis
import Mathlib.Algebra.Polynomial.Derivative
import Mathlib.Algebra.Polynomial.Eval.Coeff
import Mathlib.Algebra.Polynomial.Degree.Lemmas
import Mathlib.Data.Nat.Choose.Basic
import Mathlib.Tactic.Ring
import Mathlib.Tactic.FieldSimp
import Mathlib.Tactic.LinearCombination

/-!
# Jacobi polynomials in the variable t = (1 - x) / 2
-/

namespace Verif.Basis.Lemmas
open Polynomial Verif.Basis

variable {K : Type} [Field K] [CharZero K]

/-- Coefficient of t^k. -/
def jc (n a b k : ℕ) : K := (-1) ^ k * ((n + a).choose (a + k) : K) * ((n + a + b + k).choose k : K)

/-- The Jacobi polynomial as a polynomial in t. -/
noncomputable def jp (n a b : ℕ) : K[X] := ∑ k ∈ Finset.range (n + 1), C (jc n a b k) * X ^ k

omit [CharZero K] in
theorem jc_zero {n a b k : ℕ} (h : n < k) : jc n a b k = (0 : K) := by
  unfold jc
  rw [Nat.choose_eq_zero_of_lt (by omega)]
  simp

omit [CharZero K] in
theorem jp_coeff (n a b k : ℕ) : (jp n a b : K[X]).coeff k = jc n a b k := by
  unfold jp
  simp only [finset_sum_coeff, coeff_C_mul, coeff_X_pow, mul_ite, mul_one, mul_zero]
  rw [Finset.sum_ite_eq]
  by_cases h : k ∈ Finset.range (n + 1)
  · rw [if_pos h]
  · rw [if_neg h, jc_zero]
    simpa using h

omit [CharZero K] in
theorem jp_degree (n a b : ℕ) : (jp n a b : K[X]).natDegree ≤ n := by
  rw [natDegree_le_iff_coeff_eq_zero]
  intro N h
  rw [jp_coeff, jc_zero h]

/-! Ratios of binomial coefficients. -/

theorem ch_up (n a k : ℕ) : ((n + a).choose (a + k) : K) = ((n + 1 + a).choose (a + k) : K) * ((n : K) + 1 - k) / ((n : K) + 1 + a) := by
  have hne : (n : K) + 1 + a ≠ 0 := by exact_mod_cast (by omega : n + 1 + a ≠ 0)
  rw [eq_div_iff hne]
  by_cases hk : k ≤ n + 1
  · have h := Nat.choose_mul_succ_eq (n + a) (a + k)
    have h' : ((n + a).choose (a + k) : K) * ((n + a + 1 : ℕ) : K) = ((n + a + 1).choose (a + k) : K) * ((n + a + 1 - (a + k) : ℕ) : K) := by
      exact_mod_cast h
    have e : n + a + 1 = n + 1 + a := by omega
    have e' : n + a + 1 - (a + k) = n + 1 - k := by omega
    rw [e', Nat.cast_sub hk, e] at h'
    push_cast at h'
    linear_combination h'
  · rw [Nat.choose_eq_zero_of_lt (by omega), Nat.choose_eq_zero_of_lt (by omega)]
    simp

theorem ch_diag (n a k : ℕ) : ((n + a).choose (a + k) : K) = ((n + 1 + a).choose (a + (k + 1)) : K) * ((a : K) + k + 1) / ((n : K) + 1 + a) := by
  have hne : (n : K) + 1 + a ≠ 0 := by exact_mod_cast (by omega : n + 1 + a ≠ 0)
  rw [eq_div_iff hne]
  have h := Nat.add_one_mul_choose_eq (n + a) (a + k)
  have e : n + a + 1 = n + 1 + a := by omega
  have e' : a + k + 1 = a + (k + 1) := by omega
  rw [e, e'] at h
  have h' : ((n + 1 + a : ℕ) : K) * ((n + a).choose (a + k) : K) = ((n + 1 + a).choose (a + (k + 1)) : K) * ((a + (k + 1) : ℕ) : K) := by exact_mod_cast h
  push_cast at h'
  linear_combination h'

/-- C(m+1+k, k) from C(m+k, k). -/
theorem ch_m (m k : ℕ) : ((m + 1 + k).choose k : K) = ((m + k).choose k : K) * ((m : K) + 1 + k) / ((m : K) + 1) := by
  have hne : (m : K) + 1 ≠ 0 := by exact_mod_cast (by omega : m + 1 ≠ 0)
  rw [eq_div_iff hne]
  have h := Nat.choose_mul_succ_eq (m + k) k
  have e : m + k + 1 = m + 1 + k := by omega
  have e' : m + k + 1 - k = m + 1 := by omega
  rw [e'] at h
  rw [e] at h
  have h' : ((m + k).choose k : K) * ((m + 1 + k : ℕ) : K) = ((m + 1 + k).choose k : K) * ((m + 1 : ℕ) : K) := by exact_mod_cast h
  push_cast at h'
  linear_combination -h'

/-- C(m+1+k, k) from C(m+k+1, k+1). -/
theorem ch_k (m k : ℕ) : ((m + 1 + k).choose k : K) = ((m + (k + 1)).choose (k + 1) : K) * ((k : K) + 1) / ((m : K) + 1) := by
  have hne : (m : K) + 1 ≠ 0 := by exact_mod_cast (by omega : m + 1 ≠ 0)
  rw [eq_div_iff hne]
  have h := Nat.choose_succ_right_eq (m + 1 + k) k
  have e' : m + 1 + k - k = m + 1 := by omega
  rw [e'] at h
  have e : m + 1 + k = m + (k + 1) := by omega
  rw [e] at h ⊢
  have h' : ((m + (k + 1)).choose (k + 1) : K) * ((k + 1 : ℕ) : K) = ((m + (k + 1)).choose k : K) * ((m + 1 : ℕ) : K) := by exact_mod_cast h
  push_cast at h'
  linear_combination -h'

/-! The coefficients of the recurrence as exact numbers. -/

def r1 (i a b : ℕ) : K := 2 * ((i : K) + 1) * (i + a + b + 1) * (2 * i + a + b)
def r2 (i a b : ℕ) : K := (2 * (i : K) + a + b + 1) * (a * a - b * b)
def r3 (i a b : ℕ) : K := (2 * (i : K) + a + b) * (2 * i + a + b + 1) * (2 * i + a + b + 2)
def r4 (i a b : ℕ) : K := 2 * ((i : K) + a) * (i + b) * (2 * i + a + b + 2)

theorem jc_recurrence_zero (m a b : ℕ) :
    r1 (m + 1) a b * jc (m + 2) a b 0 = (r2 (m + 1) a b + r3 (m + 1) a b) * jc (m + 1) a b 0 - r4 (m + 1) a b * (jc m a b 0 : K) := by
  have h1 := ch_up (K := K) m a 0
  have h2 := ch_up (K := K) (m + 1) a 0
  have e2 : m + 1 + 1 + a = m + 2 + a := by omega
  rw [e2] at h2
  simp only [jc, Nat.choose_zero_right, pow_zero]
  rw [h1, h2]
  have n1 : (m : K) + 1 + a ≠ 0 := by exact_mod_cast (by omega : m + 1 + a ≠ 0)
  have n2 : (m : K) + 1 + 1 + a ≠ 0 := by exact_mod_cast (by omega : m + 1 + 1 + a ≠ 0)
  simp only [r1, r2, r3, r4]
  push_cast
  field_simp
  ring

theorem jc_recurrence_succ (m a b k : ℕ) :
    r1 (m + 1) a b * jc (m + 2) a b (k + 1) =
      (r2 (m + 1) a b + r3 (m + 1) a b) * jc (m + 1) a b (k + 1) - 2 * r3 (m + 1) a b * jc (m + 1) a b k - r4 (m + 1) a b * (jc m a b (k + 1) : K) := by
  have h1 := ch_up (K := K) m a (k + 1)
  have h2 := ch_up (K := K) (m + 1) a (k + 1)
  have h3 := ch_diag (K := K) (m + 1) a k
  have e2 : m + 1 + 1 + a = m + 2 + a := by omega
  rw [e2] at h2 h3
  have g1 := ch_m (K := K) (m + a + b) (k + 1)
  have g2 := ch_m (K := K) (m + a + b + 1) (k + 1)
  have g3 := ch_k (K := K) (m + a + b) k
  have f1 : m + 1 + a + b + (k + 1) = m + a + b + 1 + (k + 1) := by omega
  have f2 : m + 2 + a + b + (k + 1) = m + a + b + 1 + 1 + (k + 1) := by omega
  have f3 : m + 1 + a + b + k = m + a + b + 1 + k := by omega
  simp only [jc, f1, f2, f3]
  rw [g2, g1, g3, h1, h2, h3]
  have n1 : (m : K) + 1 + a ≠ 0 := by exact_mod_cast (by omega : m + 1 + a ≠ 0)
  have n2 : (m : K) + 1 + 1 + a ≠ 0 := by exact_mod_cast (by omega : m + 1 + 1 + a ≠ 0)
  have n3 : (m : K) + a + b + 1 ≠ 0 := by exact_mod_cast (by omega : m + a + b + 1 ≠ 0)
  have n4 : (m : K) + a + b + 1 + 1 ≠ 0 := by exact_mod_cast (by omega : m + a + b + 1 + 1 ≠ 0)
  simp only [r1, r2, r3, r4]
  push_cast
  field_simp
  ring

/-- The three term recurrence; x = 1 - 2 t. -/
theorem jp_recurrence (m a b : ℕ) :
    C (r1 (m + 1) a b) * jp (m + 2) a b =
      (C (r2 (m + 1) a b) + C (r3 (m + 1) a b) * (1 - 2 * X)) * jp (m + 1) a b - C (r4 (m + 1) a b) * (jp m a b : K[X]) := by
  have e : (C (r2 (m + 1) a b) + C (r3 (m + 1) a b) * (1 - 2 * X)) * jp (m + 1) a b =
      C (r2 (m + 1) a b + r3 (m + 1) a b) * jp (m + 1) a b - C (2 * r3 (m + 1) a b) * (X * (jp (m + 1) a b : K[X])) := by
    simp only [C_add, C_mul]
    have : (C (2 : K) : K[X]) = 2 := rfl
    rw [this]; ring
  rw [e]
  ext k
  simp only [coeff_sub, coeff_C_mul, jp_coeff]
  cases k with
  | zero =>
    simp only [coeff_X_mul_zero, mul_zero, sub_zero]
    exact jc_recurrence_zero m a b
  | succ k =>
    simp only [coeff_X_mul, jp_coeff]
    exact jc_recurrence_succ m a b k

omit [CharZero K] in
theorem jp_zero (a b : ℕ) : (jp 0 a b : K[X]) = 1 := by
  simp [jp, jc]

omit [CharZero K] in
theorem jp_one (a b : ℕ) : (jp 1 a b : K[X]) = C ((a : K) + 1) - C ((a : K) + b + 2) * X := by
  simp only [jp, jc, Finset.sum_range_succ, Finset.range_zero, Finset.sum_empty]
  have h : (1 + a).choose a = a + 1 := by rw [Nat.add_comm, Nat.choose_succ_self_right]
  have h' : (1 + a).choose (a + 1) = 1 := by rw [Nat.add_comm]; exact Nat.choose_self _
  simp only [Nat.add_zero, h, h', Nat.choose_zero_right, Nat.choose_one_right, pow_zero, pow_one, zero_add, mul_one, one_mul]
  push_cast
  simp only [C_mul, C_add, C_neg, C_1]
  have : (C (2 : K) : K[X]) = 2 := rfl
  simp only [this]
  ring

/-- The derivative with respect to t. -/
theorem jp_derivative (n a b : ℕ) : derivative (jp (n + 1) a b : K[X]) = -C ((n : K) + a + b + 2) * jp n (a + 1) (b + 1) := by
  ext k
  rw [coeff_derivative, neg_mul, coeff_neg, coeff_C_mul, jp_coeff, jp_coeff]
  have e1 : n + 1 + a = n + (a + 1) := by omega
  have e2 : a + (k + 1) = a + 1 + k := by omega
  have g := ch_k (K := K) (n + 1 + a + b) k
  have e3 : n + (a + 1) + (b + 1) + k = n + 1 + a + b + 1 + k := by omega
  have n3 : ((n + 1 + a + b : ℕ) : K) + 1 ≠ 0 := by exact_mod_cast (by omega : n + 1 + a + b + 1 ≠ 0)
  simp only [jc, e3]
  rw [g, ← e1, e2]
  field_simp
  push_cast
  ring

/-- One step of the Rodrigues formula: (t^(a+1) (1-t)^(b+1) Q)' = n t^a (1-t)^b P. -/
theorem jp_rodrigues (n a b : ℕ) :
    X * (1 - X) * derivative (jp n (a + 1) (b + 1)) + (C ((a : K) + 1) * (1 - X) - C ((b : K) + 1) * X) * jp n (a + 1) (b + 1) =
      C ((n : K) + 1) * (jp (n + 1) a b : K[X]) := by
  have e : X * (1 - X) * derivative (jp n (a + 1) (b + 1)) + (C ((a : K) + 1) * (1 - X) - C ((b : K) + 1) * X) * jp n (a + 1) (b + 1) =
      X * derivative (jp n (a + 1) (b + 1)) - X * (X * derivative (jp n (a + 1) (b + 1))) + C ((a : K) + 1) * jp n (a + 1) (b + 1) -
        C ((a : K) + b + 2) * (X * jp n (a + 1) (b + 1)) := by
    have : (C (2 : K) : K[X]) = 2 := rfl
    simp only [C_add, C_1, this]
    ring
  rw [e]
  ext k
  simp only [coeff_sub, coeff_add, coeff_C_mul, jp_coeff]
  cases k with
  | zero =>
    simp only [coeff_X_mul_zero, mul_zero, sub_zero, zero_add]
    have h := ch_diag (K := K) n (a + 0) 0
    have hh := Nat.add_one_mul_choose_eq (n + a) a
    simp only [jc, Nat.choose_zero_right, pow_zero, Nat.add_zero]
    have e1 : n + (a + 1) = n + a + 1 := by omega
    have e2 : n + 1 + a = n + a + 1 := by omega
    rw [e1, e2]
    have h1 := Nat.choose_succ_right_eq (n + a + 1) a
    have e3 : n + a + 1 - a = n + 1 := by omega
    rw [e3] at h1
    have h' : ((n + a + 1).choose (a + 1) : K) * ((a + 1 : ℕ) : K) = ((n + a + 1).choose a : K) * ((n + 1 : ℕ) : K) := by exact_mod_cast h1
    push_cast at h' ⊢
    linear_combination h'
  | succ k =>
    simp only [coeff_X_mul, jp_coeff]
    -- coefficients of X * derivative at k + 1 and k
    have hd : ∀ j : ℕ, (X * derivative (jp n (a + 1) (b + 1) : K[X])).coeff j = (j : K) * jc n (a + 1) (b + 1) j := by
      intro j
      cases j with
      | zero => simp
      | succ j => rw [coeff_X_mul, coeff_derivative, jp_coeff]; push_cast; ring
    have hd1 : (derivative (jp n (a + 1) (b + 1) : K[X])).coeff k = ((k : K) + 1) * jc n (a + 1) (b + 1) (k + 1) := by
      rw [coeff_derivative, jp_coeff]; ring
    rw [hd, hd1]
    -- everything in terms of C(n+1+a, a+k+1) and C(n+1+a+b+k+1, k+1)
    have h1 : ((n + (a + 1)).choose (a + 1 + (k + 1)) : K) * ((a : K) + k + 2) = ((n + 1 + a).choose (a + (k + 1)) : K) * ((n : K) - k) := by
      by_cases hk : k ≤ n
      · have := Nat.choose_succ_right_eq (n + 1 + a) (a + (k + 1))
        have e' : n + 1 + a - (a + (k + 1)) = n - k := by omega
        rw [e'] at this
        have h' : ((n + 1 + a).choose (a + (k + 1) + 1) : K) * ((a + (k + 1) + 1 : ℕ) : K) = ((n + 1 + a).choose (a + (k + 1)) : K) * ((n - k : ℕ) : K) := by
          exact_mod_cast this
        rw [Nat.cast_sub hk] at h'
        have e1 : n + (a + 1) = n + 1 + a := by omega
        have e2 : a + 1 + (k + 1) = a + (k + 1) + 1 := by omega
        rw [e1, e2]
        push_cast at h' ⊢
        linear_combination h'
      · rw [Nat.choose_eq_zero_of_lt (by omega : n + (a + 1) < a + 1 + (k + 1)), Nat.choose_eq_zero_of_lt (by omega : n + 1 + a < a + (k + 1))]
        simp
    have n0 : (a : K) + k + 2 ≠ 0 := by exact_mod_cast (by omega : a + k + 2 ≠ 0)
    rw [← eq_div_iff n0] at h1
    have g1 := ch_m (K := K) (n + 1 + a + b) (k + 1)
    have g2 := ch_k (K := K) (n + 1 + a + b) k
    have n3 : ((n + 1 + a + b : ℕ) : K) + 1 ≠ 0 := by exact_mod_cast (by omega : n + 1 + a + b + 1 ≠ 0)
    have f1 : n + (a + 1) + (b + 1) + (k + 1) = n + 1 + a + b + 1 + (k + 1) := by omega
    have f2 : n + (a + 1) + (b + 1) + k = n + 1 + a + b + 1 + k := by omega
    have f3 : ((n + (a + 1)).choose (a + 1 + k) : K) = ((n + 1 + a).choose (a + (k + 1)) : K) := by
      congr 2 <;> omega
    simp only [jc, f1, f2, f3]
    rw [h1, g1, g2]
    push_cast at n3 ⊢
    field_simp
    ring

end Verif.Basis.Lemmas
