import Verif.Lemmas.Jacobi
import Mathlib.Analysis.Calculus.Deriv.Polynomial
import Mathlib.Analysis.Calculus.IteratedDeriv.Defs
import Mathlib.Analysis.Calculus.Deriv.Comp
import Mathlib.Analysis.Calculus.Deriv.Pow
import Mathlib.Analysis.Calculus.Deriv.Mul
import Mathlib.Tactic.Positivity
import Mathlib.Tactic.Linarith
import Mathlib.Tactic.IntervalCases

/-!
# C35, C36, C38: numbering of basis functions, Jacobi polynomials, linear part
-/

namespace Verif.Basis.Props
open Polynomial Verif.Basis Verif.Basis.Lemmas Verif.Geometry

section Field
variable {K : Type} [Field K] [CharZero K]

/-! ### No overflow -/

theorem lt32 {N x : ℕ} (hN : N ≤ 1625) (h : x ≤ N * N * N) : x < 2 ^ 32 := by
  have : N * N * N ≤ 1625 * 1625 * 1625 := Nat.mul_le_mul (Nat.mul_le_mul hN hN) hN
  omega

omit [CharZero K] in
theorem a1_cast {i a b N : ℕ} (hi : 2 * i + 2 + a + b ≤ N) (hN : N ≤ 1625) : (a1 i a b : K) = r1 i a b := by
  unfold a1 u32 r1
  rw [Nat.mod_eq_of_lt]
  · push_cast; ring
  · apply lt32 hN
    exact Nat.mul_le_mul (Nat.mul_le_mul (by omega) (by omega)) (by omega)

omit [CharZero K] in
theorem a3_cast {i a b N : ℕ} (hi : 2 * i + 2 + a + b ≤ N) (hN : N ≤ 1625) : (a3 i a b : K) = r3 i a b := by
  unfold a3 u32 r3
  rw [Nat.mod_eq_of_lt]
  · push_cast; ring
  · apply lt32 hN
    exact Nat.mul_le_mul (Nat.mul_le_mul (by omega) (by omega)) (by omega)

omit [CharZero K] in
theorem a4_cast {i a b N : ℕ} (hi : 2 * i + 2 + a + b ≤ N) (hN : N ≤ 1625) : (a4 i a b : K) = r4 i a b := by
  unfold a4 u32 r4
  rw [Nat.mod_eq_of_lt]
  · push_cast; ring
  · apply lt32 hN
    refine Nat.mul_le_mul ?_ (by omega)
    have : 2 * (i + a) * (i + b) ≤ (2 * i + a + b) * (2 * i + a + b) := by nlinarith
    exact this.trans (Nat.mul_le_mul (by omega) (by omega))

theorem usub_eq {a b : ℕ} (h : b ≤ a) (ha : a < 2 ^ 32) : usub a b = a - b := by
  unfold usub u32
  rw [Nat.mod_eq_of_lt (a := b) (by omega)]
  omega

omit [CharZero K] in
theorem a2_cast {i a b N : ℕ} (hi : 2 * i + 2 + a + b ≤ N) (hN : N ≤ 1625) (hab : b ≤ a) : (a2 i a b : K) = r2 i a b := by
  have ha : a * a ≤ N * N := Nat.mul_le_mul (by omega) (by omega)
  have hN2 : N * N ≤ 1625 * 1625 := Nat.mul_le_mul hN hN
  have hbb : b * b ≤ a * a := Nat.mul_le_mul hab hab
  unfold a2
  rw [usub_eq hbb (by omega)]
  unfold u32 r2
  rw [Nat.mod_eq_of_lt]
  · rw [Nat.cast_mul, Nat.cast_sub hbb]; push_cast; ring
  · apply lt32 hN
    have : (2 * i + a + b + 1) * (a * a - b * b) ≤ N * (N * N) := Nat.mul_le_mul (by omega) (by omega)
    linarith

omit [CharZero K] in
theorem linear_cast {a b : ℕ} (h : a + b + 2 ≤ 1625) (hab : b ≤ a) (x : K) : linear a b x = ((a : K) - b + ((a : K) + b + 2) * x) / 2 := by
  unfold linear
  rw [usub_eq hab (by omega)]
  unfold u32
  rw [Nat.mod_eq_of_lt (by omega), Nat.cast_sub hab]
  push_cast
  ring

theorem r1_ne (i a b : ℕ) : (r1 (i + 1) a b : K) ≠ 0 := by
  unfold r1
  have : ((2 * (i + 1 + 1) * (i + 1 + a + b + 1) * (2 * (i + 1) + a + b) : ℕ) : K) ≠ 0 := by
    rw [Nat.cast_ne_zero]
    positivity
  push_cast at this ⊢
  exact this

theorem r3_ne (i a b : ℕ) : (r3 (i + 1) a b : K) ≠ 0 := by
  unfold r3
  have : (((2 * (i + 1) + a + b) * (2 * (i + 1) + a + b + 1) * (2 * (i + 1) + a + b + 2) : ℕ) : K) ≠ 0 := by
    rw [Nat.cast_ne_zero]
    positivity
  push_cast at this ⊢
  exact this

/-! ### The loop computes the Jacobi polynomials -/

theorem rec_eval (m a b : ℕ) (x : K) :
    (jp (m + 2) a b : K[X]).eval ((1 - x) / 2) =
      ((r2 (m + 1) a b + r3 (m + 1) a b * x) * (jp (m + 1) a b : K[X]).eval ((1 - x) / 2) -
        r4 (m + 1) a b * (jp m a b : K[X]).eval ((1 - x) / 2)) / r1 (m + 1) a b := by
  rw [eq_div_iff (r1_ne m a b)]
  have h := congrArg (eval ((1 - x) / 2)) (jp_recurrence (K := K) m a b)
  simp only [eval_mul, eval_C, eval_sub, eval_add, eval_one, eval_X, eval_ofNat] at h
  rw [mul_comm, h]
  ring

theorem linear_eval {a b : ℕ} (h : a + b + 2 ≤ 1625) (hab : b ≤ a) (x : K) : linear a b x = (jp 1 a b : K[X]).eval ((1 - x) / 2) := by
  rw [linear_cast h hab, jp_one]
  simp only [eval_mul, eval_C, eval_sub, eval_X]
  ring

theorem rows_inv (a b : ℕ) (hab : b ≤ a) (x : K) (m : ℕ) (hN : 2 * (m + 1) + a + b ≤ 1625) :
    let J := (List.range' 1 m).foldl (rowStep a b x) (rows0 a b x)
    J ((m + 1) % 3) = (jp (m + 1) a b : K[X]).eval ((1 - x) / 2) ∧ J (m % 3) = (jp m a b : K[X]).eval ((1 - x) / 2) := by
  induction m with
  | zero =>
    refine ⟨?_, ?_⟩
    · change linear a b x = _
      exact linear_eval (by omega) hab x
    · change (1 : K) = _
      rw [jp_zero, eval_one]
  | succ m ih =>
    obtain ⟨h1, h2⟩ := ih (by omega)
    rw [List.range'_concat, List.foldl_append]
    simp only [List.foldl_cons, List.foldl_nil]
    have e : 1 + 1 * m = m + 1 := by omega
    rw [e]
    refine ⟨?_, ?_⟩
    · simp only [rowStep, if_true]
      have e' : m + 1 - 1 = m := by omega
      rw [e', h1, h2, rec_eval, a1_cast (N := 2 * (m + 1 + 1) + a + b) (by omega) hN, a2_cast (N := 2 * (m + 1 + 1) + a + b) (by omega) hN hab,
        a3_cast (N := 2 * (m + 1 + 1) + a + b) (by omega) hN, a4_cast (N := 2 * (m + 1 + 1) + a + b) (by omega) hN]
    · simp only [rowStep]
      rw [if_neg (by omega)]
      exact h1

/-- The computed value is that of the polynomial with the explicit coefficients. The bound excludes `uint` overflow. -/
theorem jacobi_eq {n a b : ℕ} (hN : 2 * n + a + b ≤ 1625) (hab : b ≤ a) (x : K) :
    jacobi n a b x = (jp n a b : K[X]).eval ((1 - x) / 2) := by
  unfold jacobi
  by_cases h0 : n = 0
  · rw [if_pos h0, h0, jp_zero, eval_one]
  · rw [if_neg h0]
    by_cases h1 : n = 1
    · rw [if_pos h1, h1]
      exact linear_eval (by omega) hab x
    · rw [if_neg h1]
      have := (rows_inv a b hab x (n - 1) (by omega)).1
      have e : n - 1 + 1 = n := by omega
      rw [e] at this
      exact this

theorem jacobiDeriv_eq {n a b : ℕ} (hN : 2 * n + a + b ≤ 1625) (hab : b ≤ a) (x : K) :
    jacobiDeriv n a b x = -(1 / 2) * (derivative (jp n a b : K[X])).eval ((1 - x) / 2) := by
  unfold jacobiDeriv
  by_cases h0 : n = 0
  · rw [if_pos h0, h0, jp_zero]
    simp
  · rw [if_neg h0]
    obtain ⟨m, rfl⟩ : ∃ m, n = m + 1 := ⟨n - 1, by omega⟩
    have hu : u32 (a + b + (m + 1) + 1) = a + b + m + 2 := by unfold u32; omega
    rw [hu, jp_derivative]
    simp only [eval_mul, eval_neg, eval_C]
    by_cases h1 : m + 1 = 1
    · rw [if_pos h1]
      have : m = 0 := by omega
      subst this
      rw [jp_zero, eval_one]
      push_cast
      ring
    · rw [if_neg h1, Nat.add_sub_cancel, jacobi_eq (by omega) (by omega)]
      push_cast
      ring

end Field

/-! ### C38 -/

/-- C38: the derivative routine returns the derivative of the polynomial routine. -/
theorem jacobi_deriv {n a b : ℕ} (hN : 2 * n + a + b ≤ 1625) (hab : b ≤ a) (x : ℝ) :
    HasDerivAt (fun y : ℝ => jacobi n a b y) (jacobiDeriv n a b x) x := by
  have hf : (fun y : ℝ => jacobi n a b y) = fun y => (jp n a b : ℝ[X]).eval ((1 - y) / 2) := by
    funext y; exact jacobi_eq hN hab y
  rw [hf, jacobiDeriv_eq hN hab]
  have h1 : HasDerivAt (fun y : ℝ => (1 - y) / 2) (-(1 / 2)) x := by
    have := ((hasDerivAt_id x).const_sub 1).div_const 2
    rwa [neg_div] at this
  have h2 := ((jp n a b : ℝ[X]).hasDerivAt ((1 - x) / 2)).comp x h1
  exact h2.congr_deriv (by ring)

/-- The weighted product with the polynomial, differentiated once. -/
theorem rodrigues_step (n a b : ℕ) (x : ℝ) :
    HasDerivAt (fun y : ℝ => (1 - y) ^ (a + 1) * (1 + y) ^ (b + 1) * (jp n (a + 1) (b + 1) : ℝ[X]).eval ((1 - y) / 2))
      (-2 * ((n : ℝ) + 1) * ((1 - x) ^ a * (1 + x) ^ b * (jp (n + 1) a b : ℝ[X]).eval ((1 - x) / 2))) x := by
  have hA : HasDerivAt (fun y : ℝ => 1 - y) (-1) x := by
    simpa using (hasDerivAt_id x).const_sub 1
  have hB : HasDerivAt (fun y : ℝ => 1 + y) 1 x := by
    simpa using (hasDerivAt_id x).const_add 1
  have h1 : HasDerivAt (fun y : ℝ => (1 - y) / 2) (-(1 / 2)) x := by
    have := hA.div_const 2
    rwa [neg_div] at this
  have hP := ((jp n (a + 1) (b + 1) : ℝ[X]).hasDerivAt ((1 - x) / 2)).comp x h1
  have := ((hA.pow (a + 1)).mul (hB.pow (b + 1))).mul hP
  refine this.congr_deriv ?_
  have h := congrArg (eval ((1 - x) / 2)) (jp_rodrigues (K := ℝ) n a b)
  simp only [eval_mul, eval_C, eval_sub, eval_add, eval_one, eval_X] at h
  simp only [Nat.add_sub_cancel, Pi.mul_apply, Pi.pow_apply, Function.comp_apply]
  push_cast
  rw [pow_succ (1 - x), pow_succ (1 + x)]
  linear_combination (-2 * (1 - x) ^ a * (1 + x) ^ b) * h

theorem rodrigues_jp (n a b : ℕ) :
    iteratedDeriv n (fun y : ℝ => (1 - y) ^ (a + n) * (1 + y) ^ (b + n)) =
      fun x => (-2) ^ n * (n.factorial : ℝ) * ((1 - x) ^ a * (1 + x) ^ b * (jp n a b : ℝ[X]).eval ((1 - x) / 2)) := by
  induction n generalizing a b with
  | zero => funext x; simp [jp_zero]
  | succ n ih =>
    have e1 : a + (n + 1) = a + 1 + n := by omega
    have e2 : b + (n + 1) = b + 1 + n := by omega
    rw [iteratedDeriv_succ, e1, e2, ih (a + 1) (b + 1)]
    funext x
    have h := (rodrigues_step n a b x).const_mul ((-2) ^ n * (n.factorial : ℝ))
    rw [h.deriv, Nat.factorial_succ]
    push_cast
    ring

/-- C38: Rodrigues' formula. -/
theorem jacobi_rodrigues {n a b : ℕ} (hN : 2 * n + a + b ≤ 1625) (hab : b ≤ a) (x : ℝ) :
    iteratedDeriv n (fun y : ℝ => (1 - y) ^ (a + n) * (1 + y) ^ (b + n)) x =
      (-1) ^ n * 2 ^ n * (n.factorial : ℝ) * (1 - x) ^ a * (1 + x) ^ b * jacobi n a b x := by
  rw [rodrigues_jp, jacobi_eq hN hab, ← mul_pow]
  norm_num
  ring

/-- C38: the value at 1, the classical normalisation. -/
theorem jacobi_at_one {n a b : ℕ} (hN : 2 * n + a + b ≤ 1625) (hab : b ≤ a) : jacobi n a b (1 : ℝ) = ((n + a).choose n : ℝ) := by
  rw [jacobi_eq hN hab]
  have : ((1 : ℝ) - 1) / 2 = 0 := by norm_num
  rw [this, ← coeff_zero_eq_eval_zero, jp_coeff]
  simp only [jc, Nat.add_zero, Nat.choose_zero_right, pow_zero, one_mul, Nat.cast_one, mul_one]
  rw [← Nat.choose_symm_add, Nat.add_comm]

example : jacobi 4 0 0 (1 / 2 : ℚ) = -37 / 128 ∧ jacobi 3 5 0 (1 / 2 : ℚ) = 827 / 64 ∧ jacobiDeriv 4 0 0 (1 / 2 : ℚ) = -25 / 16 := by decide +kernel

/-- The bound is sharp: from here on the coefficients overflow. -/
example : a3 811 2 0 = 1624 * 1625 * 1626 ∧ a3 811 3 0 ≠ 1625 * 1626 * 1627 := by decide +kernel

/-! ### C35 -/

/-- Rounding of doubles: monotone, exact on integers below 2^53, relative error at most 2^-53. -/
structure Rounding (rd : ℝ → ℝ) : Prop where
  mono : Monotone rd
  int : ∀ n : ℕ, n < 2 ^ 53 → rd n = n
  rel : ∀ x : ℝ, 0 ≤ x → |rd x - x| ≤ x / 2 ^ 53

theorem rounding_id : Rounding id := ⟨monotone_id, fun _ _ => rfl, fun x hx => by simp; positivity⟩

theorem tri_spec {rd : ℝ → ℝ} (hr : Rounding rd) (T dof : ℕ) (h1 : T * (T + 1) ≤ 2 * dof) (h2 : 2 * dof + 2 ≤ (T + 1) * (T + 2)) (hT : T < 2 ^ 17) :
    ⌈rd (-3 + rd (Real.sqrt (1 + 8 * ((dof : ℝ) + 1)))) / 2⌉₊ = T := by
  set s := Real.sqrt (1 + 8 * ((dof : ℝ) + 1)) with hs
  have hpos : (0 : ℝ) ≤ 1 + 8 * ((dof : ℝ) + 1) := by positivity
  have hss : s * s = 1 + 8 * ((dof : ℝ) + 1) := Real.mul_self_sqrt hpos
  have hs0 : 0 ≤ s := Real.sqrt_nonneg _
  have h1' : (T : ℝ) * (T + 1) ≤ 2 * dof := by exact_mod_cast h1
  have h2' : 2 * (dof : ℝ) + 2 ≤ (T + 1) * (T + 2) := by exact_mod_cast h2
  have hup : s ≤ 2 * T + 3 := by
    by_contra hc
    push Not at hc
    have hT0 : (0 : ℝ) ≤ T := Nat.cast_nonneg T
    nlinarith
  have hTr : (T : ℝ) < 2 ^ 17 := by exact_mod_cast hT
  have hT0 : (0 : ℝ) ≤ T := Nat.cast_nonneg T
  have hrs : rd s ≤ 2 * T + 3 := by
    have := hr.mono hup
    have e := hr.int (2 * T + 3) (by omega)
    push_cast at e
    rwa [e] at this
  have hry : rd (-3 + rd s) ≤ 2 * T := by
    have := hr.mono (by push_cast; linarith : -3 + rd s ≤ ((2 * T : ℕ) : ℝ))
    have e := hr.int (2 * T) (by omega)
    rw [e] at this
    push_cast at this
    exact this
  by_cases hz : T = 0
  · subst hz
    rw [Nat.ceil_eq_zero]
    push_cast at hry
    linarith
  · have hT1 : (1 : ℝ) ≤ T := by exact_mod_cast (by omega : 1 ≤ T)
    rw [Nat.ceil_eq_iff hz]
    refine ⟨?_, by linarith⟩
    rw [Nat.cast_sub (by omega), Nat.cast_one]
    -- distance of the root from the odd integer below
    have hlow : (2 * (T : ℝ) + 1) + 1 / 2 ^ 17 ≤ s := by
      by_contra hc
      push Not at hc
      have : s * s < (2 * (T : ℝ) + 1 + 1 / 2 ^ 17) * (2 * (T : ℝ) + 1 + 1 / 2 ^ 17) := by nlinarith
      nlinarith
    have r1 := (abs_le.mp (hr.rel s hs0)).1
    have hy : 2 * (T : ℝ) - 2 + 1 / 2 ^ 18 ≤ -3 + rd s := by nlinarith
    have r2 := (abs_le.mp (hr.rel (-3 + rd s) (by nlinarith))).1
    nlinarith

theorem exists_tri (dof : ℕ) : ∃ T, T * (T + 1) ≤ 2 * dof ∧ 2 * dof + 2 ≤ (T + 1) * (T + 2) := by
  induction dof with
  | zero => exact ⟨0, by omega, by omega⟩
  | succ d ih =>
    obtain ⟨T, h1, h2⟩ := ih
    by_cases h : 2 * (d + 1) + 2 ≤ (T + 1) * (T + 2)
    · exact ⟨T, by omega, h⟩
    · have heven : 2 * ((T + 1) * (T + 2) / 2) = (T + 1) * (T + 2) := Nat.mul_div_cancel' (Nat.even_mul_succ_self (T + 1)).two_dvd
      have e : (T + 1) * (T + 1 + 1) = (T + 1) * (T + 2) := rfl
      exact ⟨T + 1, by omega, by nlinarith⟩

/-- C35: the number of a basis function from its degrees. -/
theorem dof_of_pair {rd : ℝ → ℝ} (hr : Rounding rd) (dof : ℕ) (hd : dof < 2 ^ 32) :
    let pq := dofPair rd dof
    2 * dof = (pq.1 + pq.2) * (pq.1 + pq.2 + 1) + 2 * pq.1 := by
  obtain ⟨T, h1, h2⟩ := exists_tri dof
  have hT : T < 2 ^ 17 := by
    by_contra hc
    push Not at hc
    have : 2 ^ 17 * (2 ^ 17 + 1) ≤ T * (T + 1) := Nat.mul_le_mul hc (by omega)
    omega
  have e := tri_spec hr T dof h1 h2 hT
  have heven : 2 * ((T + 1) * T / 2) = (T + 1) * T := Nat.mul_div_cancel' (by rw [Nat.mul_comm]; exact (Nat.even_mul_succ_self T).two_dvd)
  simp only [dofPair, e]
  have hle : dof - (T + 1) * T / 2 ≤ T := by
    have : (T + 1) * (T + 2) = (T + 1) * T + 2 * (T + 1) := by ring
    omega
  have e2 : dof - (T + 1) * T / 2 + (T - (dof - (T + 1) * T / 2)) = T := by omega
  rw [e2]
  have : T * (T + 1) = (T + 1) * T := by ring
  omega

theorem pair_unique {p q p' q' : ℕ} (h : (p + q) * (p + q + 1) + 2 * p = (p' + q') * (p' + q' + 1) + 2 * p') : p = p' ∧ q = q' := by
  have hs : p + q = p' + q' := by
    rcases lt_trichotomy (p + q) (p' + q') with hl | he | hl
    · exfalso
      obtain ⟨d, hd⟩ : ∃ d, p' + q' = p + q + 1 + d := ⟨p' + q' - (p + q + 1), by omega⟩
      rw [hd] at h
      nlinarith
    · exact he
    · exfalso
      obtain ⟨d, hd⟩ : ∃ d, p + q = p' + q' + 1 + d := ⟨p + q - (p' + q' + 1), by omega⟩
      rw [hd] at h
      nlinarith
  rw [hs] at h
  omega

/-- C35: the numbering is a bijection onto the pairs of degrees with p + q ≤ P. -/
theorem dof_bijection {rd : ℝ → ℝ} (hr : Rounding rd) (P : ℕ) (hP : P < 2 ^ 16) :
    Set.BijOn (dofPair rd) {dof | dof < (P + 1) * (P + 2) / 2} {pq | pq.1 + pq.2 ≤ P} := by
  have heven : 2 * ((P + 1) * (P + 2) / 2) = (P + 1) * (P + 2) := Nat.mul_div_cancel' (Nat.even_mul_succ_self (P + 1)).two_dvd
  have hb : (P + 1) * (P + 2) ≤ 2 ^ 16 * (2 ^ 16 + 1) := Nat.mul_le_mul (by omega) (by omega)
  refine ⟨?_, ?_, ?_⟩
  · intro dof hd
    simp only [Set.mem_ofPred_eq] at hd ⊢
    have h := dof_of_pair hr dof (by omega)
    simp only at h
    by_contra hc
    push Not at hc
    have : (P + 1) * (P + 2) ≤ ((dofPair rd dof).1 + (dofPair rd dof).2) * ((dofPair rd dof).1 + (dofPair rd dof).2 + 1) :=
      Nat.mul_le_mul (by omega) (by omega)
    omega
  · intro d hd d' hd' he
    simp only [Set.mem_ofPred_eq] at hd hd'
    have h := dof_of_pair hr d (by omega)
    have h' := dof_of_pair hr d' (by omega)
    simp only at h h'
    rw [he] at h
    omega
  · rintro ⟨p, q⟩ hpq
    simp only [Set.mem_ofPred_eq] at hpq
    have he : 2 * ((p + q) * (p + q + 1) / 2) = (p + q) * (p + q + 1) := Nat.mul_div_cancel' (Nat.even_mul_succ_self (p + q)).two_dvd
    have hle : (p + q) * (p + q + 1) + 2 * (p + q + 1) ≤ (P + 1) * (P + 2) := by
      have : (p + q + 1) * (p + q + 2) ≤ (P + 1) * (P + 2) := Nat.mul_le_mul (by omega) (by omega)
      nlinarith
    refine ⟨(p + q) * (p + q + 1) / 2 + p, ?_, ?_⟩
    · simp only [Set.mem_ofPred_eq]
      omega
    · have h := dof_of_pair hr ((p + q) * (p + q + 1) / 2 + p) (by omega)
      simp only at h
      have : ((dofPair rd ((p + q) * (p + q + 1) / 2 + p)).1 + (dofPair rd ((p + q) * (p + q + 1) / 2 + p)).2) *
          ((dofPair rd ((p + q) * (p + q + 1) / 2 + p)).1 + (dofPair rd ((p + q) * (p + q + 1) / 2 + p)).2 + 1) +
          2 * (dofPair rd ((p + q) * (p + q + 1) / 2 + p)).1 = (p + q) * (p + q + 1) + 2 * p := by omega
      obtain ⟨e1, e2⟩ := pair_unique this
      exact Prod.ext e1 e2

/-- C35: the total degree does not decrease with the number. -/
theorem degree_monotone {rd : ℝ → ℝ} (hr : Rounding rd) {d d' : ℕ} (h : d ≤ d') (hd : d' < 2 ^ 32) :
    (dofPair rd d).1 + (dofPair rd d).2 ≤ (dofPair rd d').1 + (dofPair rd d').2 := by
  have h1 := dof_of_pair hr d (by omega)
  have h2 := dof_of_pair hr d' hd
  simp only at h1 h2
  by_contra hc
  push Not at hc
  have : ((dofPair rd d').1 + (dofPair rd d').2 + 1) * ((dofPair rd d').1 + (dofPair rd d').2 + 2) ≤
      ((dofPair rd d).1 + (dofPair rd d).2) * ((dofPair rd d).1 + (dofPair rd d).2 + 1) := Nat.mul_le_mul (by omega) (by omega)
  nlinarith

/-- The first three functions. -/
theorem first_dofs {rd : ℝ → ℝ} (hr : Rounding rd) : dofPair rd 0 = (0, 0) ∧ dofPair rd 1 = (0, 1) ∧ dofPair rd 2 = (1, 0) := by
  refine ⟨?_, ?_, ?_⟩
  all_goals
    apply Prod.ext_iff.mpr
    apply pair_unique
  · have := dof_of_pair hr 0 (by omega); simp only at this ⊢; omega
  · have := dof_of_pair hr 1 (by omega); simp only at this ⊢; omega
  · have := dof_of_pair hr 2 (by omega); simp only at this ⊢; omega

example : dofPair id 4 = (1, 1) := by
  apply Prod.ext_iff.mpr
  apply pair_unique
  have := dof_of_pair rounding_id 4 (by omega)
  simp only at this ⊢
  omega

/-! ### C36 -/

/-- The vertices of the master triangle. -/
def corner (v : ℕ) : P2 ℝ := if v = 0 then ⟨-1, -1⟩ else if v = 1 then ⟨1, -1⟩ else ⟨-1, 1⟩

/-- C36: the rows of the first matrix are the values of the first three basis functions at the vertices. -/
theorem basisLinear_spec {rd : ℝ → ℝ} (hr : Rounding rd) (dof v : ℕ) (hd : dof < 3) (hv : v < 3) :
    (basisLinear dof v : ℝ) = phi (dofPair rd dof).1 (dofPair rd dof).2 (corner v) := by
  obtain ⟨e0, e1, e2⟩ := first_dofs hr
  have hu : u32 (1 + 0 + 2) = 3 := by decide
  have hu' : usub 1 0 = 1 := by decide
  have hu0 : u32 (0 + 0 + 2) = 2 := by decide
  have hu0' : usub 0 0 = 0 := by decide
  interval_cases dof
  · rw [e0]
    interval_cases v <;> simp [basisLinear, phi, corner, n1, jacobi] <;> norm_num
  · rw [e1]
    interval_cases v <;> simp [basisLinear, phi, corner, n1, jacobi, linear, hu, hu'] <;> norm_num
  · rw [e2]
    interval_cases v <;> simp [basisLinear, phi, corner, n1, jacobi, linear, hu0, hu0'] <;> norm_num

/-- C36: vertex values → coefficients → vertex values. -/
theorem vertex_round_trip {K : Type} [Field K] [CharZero K] (w : ℕ → K) (ndof : ℕ) (h : 3 ≤ ndof) (v : ℕ) (hv : v < 3) :
    basisToLinear ndof (linearToBasis w) v = w v := by
  have hcut : ∀ u : ℕ → K, basisToLinear ndof u v = basisToLinear 3 u v := by
    intro u
    obtain ⟨d, rfl⟩ : ∃ d, ndof = 3 + d := ⟨ndof - 3, by omega⟩
    unfold basisToLinear
    rw [List.range_add, List.map_append, List.sum_append]
    have : ((List.map (fun d => u d * basisLinear d v) (List.map (fun x => 3 + x) (List.range d))).sum) = 0 := by
      rw [List.map_map]
      apply List.sum_eq_zero
      intro x hx
      simp only [List.mem_map, Function.comp_apply] at hx
      obtain ⟨i, _, rfl⟩ := hx
      simp only [basisLinear]
      rw [if_neg (by omega), if_neg (by omega), if_neg (by omega), mul_zero]
    rw [this, add_zero]
  rw [hcut]
  interval_cases v <;> simp [basisToLinear, linearToBasis, basisLinear, linearBasis, List.range_succ] <;> ring

/-- C36: coefficients → vertex values → coefficients keeps the linear part and drops the rest; the mean is kept. -/
theorem coeff_round_trip {K : Type} [Field K] [CharZero K] (u : ℕ → K) (dof : ℕ) :
    linearToBasis (basisToLinear 3 u) dof = if dof < 3 then u dof else 0 := by
  by_cases h : dof < 3
  · rw [if_pos h]
    interval_cases dof <;> simp [basisToLinear, linearToBasis, basisLinear, linearBasis, List.range_succ] <;> ring
  · rw [if_neg h]
    have h0 : dof ≠ 0 := by omega
    have h1 : dof ≠ 1 := by omega
    have h2 : dof ≠ 2 := by omega
    simp [linearToBasis, linearBasis, List.range_succ, h0, h1, h2]

/-- C36: the zeroth coefficient is the mean of the vertex values. -/
theorem mean_coeff {K : Type} [Field K] [CharZero K] (w : ℕ → K) : linearToBasis w 0 = (w 0 + w 1 + w 2) / 3 := by
  simp [linearToBasis, linearBasis, List.range_succ]
  ring

end Verif.Basis.Props
