import Verif.Model.Quadrature
import Mathlib.Algebra.Order.Ring.Nat
import Mathlib.Data.Nat.Log
import Mathlib.Tactic.Linarith
import Mathlib.Tactic.Ring

/-!
# C40: the rounding of the tables

The model of doubles in `Verif.Model.Quadrature` rounds to the nearest number with 53 binary digits.
-/

namespace Verif.Quadrature.Props

/-- **C40.** Rounding does not depend on the sign. -/
theorem rnd_neg (x : ℤ) (den : ℕ) : rnd (-x) den = -rnd x den := by
  have h0 : rndNat 0 den = 0 := by simp [rndNat]
  rcases x with (_ | a) | a
  · simp [rnd, h0]
  · rfl
  · rw [Int.neg_negSucc]
    simp [rnd]

/-- **C40.** The rounded number has at most 53 binary digits before `2 ^ s`, and is off by at most half of `2 ^ s`. -/
theorem rnd_near (num : ℕ) {den : ℕ} (hd : 0 < den) :
    ∃ s m, rndNat num den = m * 2 ^ s ∧ m ≤ 2 ^ 53 ∧ (s = 0 ∨ 2 ^ 52 ≤ m) ∧
      2 * (m * 2 ^ s * den) ≤ 2 * (num * 2 ^ 80) + den * 2 ^ s ∧ 2 * (num * 2 ^ 80) ≤ 2 * (m * 2 ^ s * den) + den * 2 ^ s := by
  generalize hs : Nat.log2 (num * 2 ^ 80 / den) + 1 - 53 = s
  have hD : 0 < den * 2 ^ s := by positivity
  have hdm := Nat.div_add_mod (num * 2 ^ 80) (den * 2 ^ s)
  have hlt := Nat.mod_lt (num * 2 ^ 80) hD
  have hq : num * 2 ^ 80 / (den * 2 ^ s) = num * 2 ^ 80 / den / 2 ^ s := (Nat.div_div_eq_div_mul _ _ _).symm
  have hrn : rndNat num den = (if 2 * (num * 2 ^ 80 % (den * 2 ^ s)) > den * 2 ^ s || (2 * (num * 2 ^ 80 % (den * 2 ^ s)) == den * 2 ^ s &&
      num * 2 ^ 80 / (den * 2 ^ s) % 2 == 1) then num * 2 ^ 80 / (den * 2 ^ s) + 1 else num * 2 ^ 80 / (den * 2 ^ s)) * 2 ^ s := by
    rw [rndNat, hs]
  generalize hN : num * 2 ^ 80 = N at *
  have hup : N / (den * 2 ^ s) < 2 ^ 53 := by
    rw [hq, Nat.div_lt_iff_lt_mul (by positivity), ← Nat.pow_add]
    refine lt_of_lt_of_le (Nat.lt_log2_self (n := N / den)) (Nat.pow_le_pow_right (by omega) (by omega))
  have hlo : s = 0 ∨ 2 ^ 52 ≤ N / (den * 2 ^ s) := by
    by_cases h : s = 0
    · exact Or.inl h
    · right
      rw [hq, Nat.le_div_iff_mul_le (by positivity), ← Nat.pow_add]
      have hne : N / den ≠ 0 := by
        intro e
        rw [e] at hs
        simp at hs
        exact h hs.symm
      refine le_trans (Nat.pow_le_pow_right (by omega) ?_) (Nat.log2_self_le hne)
      omega
  generalize hm : N / (den * 2 ^ s) = m at *
  generalize hr : N % (den * 2 ^ s) = r at *
  have e1 : m * 2 ^ s * den = den * 2 ^ s * m := by ring
  have e2 : (m + 1) * 2 ^ s * den = den * 2 ^ s * m + den * 2 ^ s := by ring
  generalize hX : den * 2 ^ s = D at *
  by_cases hc : (decide (2 * r > D) || (2 * r == D && m % 2 == 1)) = true
  · refine ⟨s, m + 1, by rw [hrn, if_pos hc], by omega, by omega, ?_, ?_⟩ <;> rw [e2]
    · simp only [Bool.or_eq_true, decide_eq_true_eq, Bool.and_eq_true, beq_iff_eq] at hc
      omega
    · omega
  · refine ⟨s, m, by rw [hrn, if_neg hc], by omega, hlo, ?_, ?_⟩ <;> rw [e1]
    · omega
    · simp only [Bool.or_eq_true, decide_eq_true_eq, Bool.and_eq_true, beq_iff_eq, not_or] at hc
      omega

/-- One third: 53 digits, rounded down by a third of the last digit. -/
example : rndNat 1 3 = 6004799503160661 * 2 ^ 26 ∧ rnd (-1) 3 = -(6004799503160661 * 2 ^ 26) := by decide +kernel

end Verif.Quadrature.Props
