import Verif.Props.Quadrature

/-!
# C41: the decimals of the Gauss-Legendre tables

`Verif.Props.Quadrature` speaks about the doubles the tables are rounded to. Here the decimals written in the source are shown to be the
Gauss-Legendre rules to 26 digits, so that an error in any of the digits that matter for a double is excluded.
-/

namespace Verif.Quadrature.Props
open Verif.Quadrature

/-- |num / 10^(31 e) - a / b| ≤ 10^-26, for b > 0. -/
def near10 (num : ℤ) (e : ℕ) (a : ℤ) (b : ℕ) : Bool := decide (((b : ℤ) * num - a * ((10 ^ (31 * e) : ℕ) : ℤ)).natAbs * 10 ^ 26 ≤ b * 10 ^ (31 * e))

/-- Checks the moments k, k+1, …, k+f-1; the terms are (w x^k, x). -/
def moments10 : ℕ → ℕ → List (ℤ × ℤ) → Bool
  | 0, _, _ => true
  | f + 1, k, ts => near10 (ts.map Prod.fst).sum (k + 1) (m1 k) (k + 1) && moments10 f (k + 1) (ts.map fun t => (t.1 * t.2, t.2))

set_option maxRecDepth 100000 in
theorem table_ok : (List.range 34).all (fun n => moments10 (2 * n) 0 (gaussData n)) = true := by decide +kernel

theorem near10_spec {num : ℤ} {e : ℕ} {a : ℤ} {b : ℕ} (hb : 0 < b) (h : near10 num e a b = true) :
    |(num : ℝ) / 10 ^ (31 * e) - (a : ℝ) / b| ≤ 1 / 10 ^ 26 := by
  simp only [near10, decide_eq_true_eq] at h
  have hb' : (0 : ℝ) < b := by exact_mod_cast hb
  have h2 : (0 : ℝ) < 10 ^ (31 * e) := by positivity
  have h3 : (0 : ℝ) < 10 ^ 26 := by positivity
  have hR : |((b : ℝ) * num - a * 10 ^ (31 * e))| * 10 ^ 26 ≤ b * 10 ^ (31 * e) := by
    have h' : ((((b : ℤ) * num - a * 10 ^ (31 * e)).natAbs * 10 ^ 26 : ℕ) : ℝ) ≤ ((b * 10 ^ (31 * e) : ℕ) : ℝ) := by exact_mod_cast h
    push_cast [Nat.cast_natAbs] at h'
    norm_num at h' ⊢
    exact h'
  have e1 : (num : ℝ) / 10 ^ (31 * e) - (a : ℝ) / b = ((b : ℝ) * num - a * 10 ^ (31 * e)) / (b * 10 ^ (31 * e)) := by
    field_simp
  rw [e1, abs_div, abs_of_pos (mul_pos hb' h2), div_le_div_iff₀ (mul_pos hb' h2) h3]
  linarith

theorem moments10_spec (f k : ℕ) (ts : List (ℤ × ℤ)) (h : moments10 f k ts = true) (j : ℕ) (hj : j < f) :
    near10 (ts.map fun t => t.1 * t.2 ^ j).sum (k + j + 1) (m1 (k + j)) (k + j + 1) = true := by
  induction f generalizing k ts j with
  | zero => omega
  | succ f ih =>
    simp only [moments10, Bool.and_eq_true] at h
    obtain ⟨h1, h2⟩ := h
    cases j with
    | zero =>
      have : (ts.map fun t => t.1 * t.2 ^ 0) = ts.map Prod.fst := by simp
      rw [this]
      exact h1
    | succ j =>
      have := ih (k + 1) _ h2 j (by omega)
      rw [List.map_map] at this
      have e : (ts.map ((fun t : ℤ × ℤ => t.1 * t.2 ^ j) ∘ fun t => (t.1 * t.2, t.2))) = ts.map fun t => t.1 * t.2 ^ (j + 1) := by
        apply List.map_congr_left
        intro t _
        simp only [Function.comp_apply]
        ring
      rw [e] at this
      have e' : k + 1 + j = k + (j + 1) := by omega
      rwa [e'] at this

/-- The n-point table, read as decimals, integrates every power below 2n with an error of at most 10^-26. -/
theorem gauss_table (n : ℕ) (hn : n ≤ 33) (k : ℕ) (hk : k < 2 * n) :
    |((gaussData n).map fun wx => ((wx.1 : ℝ) / 10 ^ 31) * ((wx.2 : ℝ) / 10 ^ 31) ^ k).sum - ∫ x in (-1 : ℝ)..1, x ^ k| ≤ 1 / 10 ^ 26 := by
  have h := table_ok
  rw [List.all_eq_true] at h
  have hm := moments10_spec (2 * n) 0 _ (h n (by simp; omega)) k hk
  rw [Nat.zero_add] at hm
  have := near10_spec (by omega) hm
  rw [m1_integral]
  have e : ((gaussData n).map fun wx => ((wx.1 : ℝ) / 10 ^ 31) * ((wx.2 : ℝ) / 10 ^ 31) ^ k).sum
      = ((((gaussData n).map fun t => t.1 * t.2 ^ k).sum : ℤ) : ℝ) / 10 ^ (31 * (k + 1)) := by
    clear hm this h
    induction gaussData n with
    | nil => simp
    | cons a r ih =>
      simp only [List.map_cons, List.sum_cons, ih]
      push_cast
      rw [add_div, div_pow, ← pow_mul, Nat.mul_add, pow_add]
      congr 1
      rw [Nat.mul_one]
      field_simp
  rw [e]
  push_cast at this ⊢
  exact this

/-- The tables for 1 to 33 points are there. -/
example : ((List.range 34).map fun n => (gaussData n).length) = List.range 34 := by decide +kernel

end Verif.Quadrature.Props
