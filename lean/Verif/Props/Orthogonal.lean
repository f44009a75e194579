import Verif.Props.Basis
import Mathlib.Analysis.SpecialFunctions.Integrals.Basic
import Mathlib.Analysis.Calculus.Deriv.Inv
import Mathlib.Algebra.MvPolynomial.Degrees
import Mathlib.Topology.Algebra.Polynomial

/-!
# C37, C39: orthogonality of the bases, values and derivatives of the Dubiner functions
-/

namespace Verif.Basis.Props
open Polynomial Verif.Basis Verif.Basis.Lemmas Verif.Geometry intervalIntegral

/-! ### Weighted integrals of polynomials on [0, 1] -/

/-- ∫ t^a f(t) dt over [0, 1]. -/
noncomputable def L (a : ℕ) (f : ℝ[X]) : ℝ := ∫ t in (0 : ℝ)..1, t ^ a * f.eval t

theorem intble (a : ℕ) (f : ℝ[X]) (u v : ℝ) : IntervalIntegrable (fun t : ℝ => t ^ a * f.eval t) MeasureTheory.volume u v :=
  ((continuous_pow a).mul f.continuous).intervalIntegrable u v

theorem L_add (a : ℕ) (f g : ℝ[X]) : L a (f + g) = L a f + L a g := by
  unfold L
  rw [← integral_add (intble a f 0 1) (intble a g 0 1)]
  congr 1; funext t; simp only [eval_add]; ring

theorem L_sub (a : ℕ) (f g : ℝ[X]) : L a (f - g) = L a f - L a g := by
  unfold L
  rw [← integral_sub (intble a f 0 1) (intble a g 0 1)]
  congr 1; funext t; simp only [eval_sub]; ring

theorem L_smul (a : ℕ) (c : ℝ) (f : ℝ[X]) : L a (C c * f) = c * L a f := by
  unfold L
  rw [← integral_const_mul]
  congr 1; funext t; simp only [eval_mul, eval_C]; ring

theorem L_zero (a : ℕ) : L a 0 = 0 := by simp [L]

/-- The integral of a polynomial of positive degree vanishes. -/
theorem L_jp (a n : ℕ) : L a (jp (n + 1) a 0) = 0 := by
  have hd : ∀ t ∈ Set.uIcc (0 : ℝ) 1, HasDerivAt (fun y : ℝ => y ^ (a + 1) * (1 - y) * (jp n (a + 1) 1 : ℝ[X]).eval y)
      (((n : ℝ) + 1) * (t ^ a * (jp (n + 1) a 0 : ℝ[X]).eval t)) t := by
    intro t _
    have hA : HasDerivAt (fun y : ℝ => y ^ (a + 1)) ((a + 1 : ℕ) * t ^ a) t := by simpa using hasDerivAt_pow (a + 1) t
    have hB : HasDerivAt (fun y : ℝ => 1 - y) (-1) t := by simpa using (hasDerivAt_id t).const_sub 1
    refine ((hA.mul hB).mul ((jp n (a + 1) 1 : ℝ[X]).hasDerivAt t)).congr_deriv ?_
    have h := congrArg (eval t) (jp_rodrigues (K := ℝ) n a 0)
    simp only [eval_mul, eval_C, eval_sub, eval_add, eval_one, eval_X] at h
    simp only [Pi.mul_apply]
    push_cast at h ⊢
    rw [pow_succ]
    linear_combination t ^ a * h
  have h := integral_eq_sub_of_hasDerivAt hd ((intble a (jp (n + 1) a 0) 0 1).const_mul _)
  rw [integral_const_mul] at h
  simp only [one_pow, sub_self, mul_zero, zero_mul, ne_eq, Nat.succ_ne_zero, not_false_eq_true, zero_pow] at h
  have hn : (n : ℝ) + 1 ≠ 0 := by positivity
  exact (mul_eq_zero.mp h).resolve_left hn

/-- Multiplication by t via the recurrence. -/
theorem jp_mul_X (m a b : ℕ) : C (2 * r3 (m + 1) a b) * (X * (jp (m + 1) a b : ℝ[X])) =
    C (r2 (m + 1) a b + r3 (m + 1) a b) * jp (m + 1) a b - C (r4 (m + 1) a b) * jp m a b - C (r1 (m + 1) a b) * jp (m + 2) a b := by
  have h := jp_recurrence (K := ℝ) m a b
  simp only [C_add, C_mul]
  have : (C (2 : ℝ) : ℝ[X]) = 2 := rfl
  rw [this]
  linear_combination h

theorem L_pow_jp (a k : ℕ) : ∀ n, k < n → L a (X ^ k * jp n a 0) = 0 := by
  induction k with
  | zero =>
    intro n hn
    obtain ⟨m, rfl⟩ : ∃ m, n = m + 1 := ⟨n - 1, by omega⟩
    simpa using L_jp a m
  | succ k ih =>
    intro n hn
    obtain ⟨m, rfl⟩ : ∃ m, n = m + 1 := ⟨n - 1, by omega⟩
    have h := congrArg (fun f => L a (X ^ k * f)) (jp_mul_X m a 0)
    have e1 : (X ^ k * (C (2 * r3 (m + 1) a 0) * (X * (jp (m + 1) a 0 : ℝ[X])))) = C (2 * r3 (m + 1) a 0) * (X ^ (k + 1) * jp (m + 1) a 0) := by ring
    have e2 : X ^ k * (C (r2 (m + 1) a 0 + r3 (m + 1) a 0) * jp (m + 1) a 0 - C (r4 (m + 1) a 0) * jp m a 0 - C (r1 (m + 1) a 0) * (jp (m + 2) a 0 : ℝ[X])) =
        C (r2 (m + 1) a 0 + r3 (m + 1) a 0) * (X ^ k * jp (m + 1) a 0) - C (r4 (m + 1) a 0) * (X ^ k * jp m a 0) -
          C (r1 (m + 1) a 0) * (X ^ k * jp (m + 2) a 0) := by ring
    rw [e1, e2, L_sub, L_sub, L_smul, L_smul, L_smul, L_smul, ih (m + 1) (by omega), ih m (by omega), ih (m + 2) (by omega)] at h
    simp only [mul_zero, sub_zero] at h
    have hne : (2 : ℝ) * r3 (m + 1) a 0 ≠ 0 := mul_ne_zero two_ne_zero (r3_ne m a 0)
    exact (mul_eq_zero.mp h).resolve_left hne

theorem L_lower (a n : ℕ) (f : ℝ[X]) (hf : f.natDegree < n) : L a (f * jp n a 0) = 0 := by
  rw [f.as_sum_range_C_mul_X_pow, Finset.sum_mul]
  have : ∀ s : Finset ℕ, (∀ k ∈ s, k < n) → L a (∑ i ∈ s, C (f.coeff i) * X ^ i * jp n a 0) = 0 := by
    intro s
    induction s using Finset.induction_on with
    | empty => intro _; simp [L_zero]
    | insert k s hk ih =>
      intro h
      rw [Finset.sum_insert hk, L_add, ih (fun j hj => h j (Finset.mem_insert_of_mem hj)), mul_assoc, L_smul,
        L_pow_jp a k n (h k (Finset.mem_insert_self k s))]
      simp
  apply this
  intro k hk
  simp only [Finset.mem_range] at hk
  omega

theorem L_orth (a : ℕ) {m n : ℕ} (h : m ≠ n) : L a (jp m a 0 * jp n a 0) = 0 := by
  rcases lt_or_gt_of_ne h with h | h
  · exact L_lower a n _ (lt_of_le_of_lt (jp_degree m a 0) h)
  · rw [mul_comm]
    exact L_lower a m _ (lt_of_le_of_lt (jp_degree n a 0) h)

theorem L_one (a : ℕ) : L a 1 = 1 / ((a : ℝ) + 1) := by
  unfold L
  simp

/-- ∫ t P_n P_{n+1}. -/
theorem L_X (a n : ℕ) : 2 * r3 (n + 1) a 0 * L a (X * jp n a 0 * jp (n + 1) a 0) = -(r4 (n + 1) a 0 * L a (jp n a 0 * jp n a 0)) := by
  have h := congrArg (fun f => L a (jp n a 0 * f)) (jp_mul_X n a 0)
  have e1 : (jp n a 0 * (C (2 * r3 (n + 1) a 0) * (X * (jp (n + 1) a 0 : ℝ[X])))) = C (2 * r3 (n + 1) a 0) * (X * jp n a 0 * jp (n + 1) a 0) := by ring
  have e2 : jp n a 0 * (C (r2 (n + 1) a 0 + r3 (n + 1) a 0) * jp (n + 1) a 0 - C (r4 (n + 1) a 0) * jp n a 0 - C (r1 (n + 1) a 0) * (jp (n + 2) a 0 : ℝ[X])) =
      C (r2 (n + 1) a 0 + r3 (n + 1) a 0) * (jp n a 0 * jp (n + 1) a 0) - C (r4 (n + 1) a 0) * (jp n a 0 * jp n a 0) -
        C (r1 (n + 1) a 0) * (jp n a 0 * jp (n + 2) a 0) := by ring
  rw [e1, e2, L_sub, L_sub, L_smul, L_smul, L_smul, L_smul, L_orth a (by omega : n ≠ n + 1), L_orth a (by omega : n ≠ n + 2)] at h
  linarith

theorem L_norm (a n : ℕ) : L a (jp n a 0 * jp n a 0) = 1 / (2 * (n : ℝ) + a + 1) := by
  induction n with
  | zero => rw [jp_zero, one_mul, L_one]; simp
  | succ n ih =>
    have hX := L_X a n
    rw [ih] at hX
    cases n with
    | zero =>
      have h1 : L a (jp 1 a 0 * jp 1 a 0) = -((a : ℝ) + 2) * L a (X * jp 0 a 0 * jp 1 a 0) := by
        have e : (jp 1 a 0 * jp 1 a 0 : ℝ[X]) = C ((a : ℝ) + 1) * jp 1 a 0 - C ((a : ℝ) + 2) * (X * jp 0 a 0 * jp 1 a 0) := by
          rw [jp_zero]
          nth_rewrite 1 [jp_one]
          simp only [Nat.cast_zero, add_zero]
          ring
        rw [e, L_sub, L_smul, L_smul, L_jp a 0]
        ring
      rw [zero_add, h1]
      simp only [r3, r4, zero_add] at hX
      push_cast at hX ⊢
      have p1 : (a : ℝ) + 1 ≠ 0 := by positivity
      have p2 : (2 : ℝ) * 1 + a + 1 ≠ 0 := by positivity
      have p3 : (2 : ℝ) + a ≠ 0 := by positivity
      have p4 : (2 : ℝ) + a + 2 ≠ 0 := by positivity
      rw [eq_div_iff p2]
      have hne : (2 : ℝ) * ((2 * 1 + a + 0) * (2 * 1 + a + 0 + 1) * (2 * 1 + a + 0 + 2)) ≠ 0 := by positivity
      have hX' := (eq_div_iff hne).mpr ((mul_comm _ _).trans hX)
      rw [hX']
      field_simp
      ring
    | succ m =>
      have h1 : r1 (m + 1) a 0 * L a (jp (m + 2) a 0 * jp (m + 2) a 0) = -(2 * r3 (m + 1) a 0 * L a (X * jp (m + 1) a 0 * jp (m + 2) a 0)) := by
        have h := congrArg (fun f => L a (f * jp (m + 2) a 0)) (jp_mul_X m a 0)
        have e1 : (C (2 * r3 (m + 1) a 0) * (X * (jp (m + 1) a 0 : ℝ[X])) * jp (m + 2) a 0) = C (2 * r3 (m + 1) a 0) * (X * jp (m + 1) a 0 * jp (m + 2) a 0) := by ring
        have e2 : (C (r2 (m + 1) a 0 + r3 (m + 1) a 0) * jp (m + 1) a 0 - C (r4 (m + 1) a 0) * jp m a 0 - C (r1 (m + 1) a 0) * (jp (m + 2) a 0 : ℝ[X])) * jp (m + 2) a 0 =
            C (r2 (m + 1) a 0 + r3 (m + 1) a 0) * (jp (m + 1) a 0 * jp (m + 2) a 0) - C (r4 (m + 1) a 0) * (jp m a 0 * jp (m + 2) a 0) -
              C (r1 (m + 1) a 0) * (jp (m + 2) a 0 * jp (m + 2) a 0) := by ring
        rw [e1, e2, L_sub, L_sub, L_smul, L_smul, L_smul, L_smul, L_orth a (by omega : m + 1 ≠ m + 2), L_orth a (by omega : m ≠ m + 2)] at h
        linarith
      have hne3 : (2 : ℝ) * r3 (m + 2) a 0 ≠ 0 := mul_ne_zero two_ne_zero (r3_ne (m + 1) a 0)
      have hX' := (eq_div_iff hne3).mpr ((mul_comm _ _).trans hX)
      rw [hX'] at h1
      have h2 := (eq_div_iff (r1_ne m a 0)).mpr ((mul_comm _ _).trans h1)
      rw [h2]
      simp only [r1, r3, r4]
      push_cast
      have p1 : (2 : ℝ) * (m + 1 + 1) + a + 1 ≠ 0 := by positivity
      have p2 : (2 : ℝ) * (m + 1) + a + 1 ≠ 0 := by positivity
      have p3 : (m : ℝ) + 1 + a + 0 + 1 ≠ 0 := by positivity
      have p4 : (2 : ℝ) * (m + 1) + a + 0 ≠ 0 := by positivity
      have p5 : (2 : ℝ) * (m + 1 + 1) + a + 0 ≠ 0 := by positivity
      have p6 : (2 : ℝ) * (m + 1 + 1) + a + 0 + 1 ≠ 0 := by positivity
      have p7 : (2 : ℝ) * (m + 1 + 1) + a + 0 + 2 ≠ 0 := by positivity
      have p8 : (m : ℝ) + 1 + 1 ≠ 0 := by positivity
      field_simp
      ring

theorem L_spec (a m n : ℕ) : L a (jp m a 0 * jp n a 0) = if m = n then 1 / (2 * (n : ℝ) + a + 1) else 0 := by
  by_cases h : m = n
  · subst h; rw [if_pos rfl, L_norm]
  · rw [if_neg h, L_orth a h]

/-- Substitution x = 1 - 2 t. -/
theorem subst_x (f : ℝ → ℝ) : ∫ x in (-1 : ℝ)..1, f ((1 - x) / 2) = 2 * ∫ t in (0 : ℝ)..1, f t := by
  have h := integral_comp_mul_add (a := (-1 : ℝ)) (b := 1) f (c := -(1 / 2)) (by norm_num) (1 / 2)
  have e : (fun x : ℝ => f (-(1 / 2) * x + 1 / 2)) = fun x => f ((1 - x) / 2) := by funext x; congr 1; ring
  rw [e] at h
  rw [h]
  norm_num
  rw [integral_symm]
  ring

/-- Jacobi polynomials are orthogonal with the weight ((1-x)/2)^a. -/
theorem jacobi_orth (a m n : ℕ) (hm : 2 * m + a ≤ 1625) (hn : 2 * n + a ≤ 1625) :
    ∫ x in (-1 : ℝ)..1, ((1 - x) / 2) ^ a * (jacobi m a 0 x * jacobi n a 0 x) = if m = n then 2 / (2 * (n : ℝ) + a + 1) else 0 := by
  have e : (fun x : ℝ => ((1 - x) / 2) ^ a * (jacobi m a 0 x * jacobi n a 0 x)) =
      fun x => (fun t => t ^ a * (jp m a 0 * jp n a 0 : ℝ[X]).eval t) ((1 - x) / 2) := by
    funext x
    rw [jacobi_eq (by omega) (by omega), jacobi_eq (by omega) (by omega)]
    simp only [eval_mul]
  rw [e]
  refine (subst_x (fun t => t ^ a * (jp m a 0 * jp n a 0 : ℝ[X]).eval t)).trans ?_
  have := L_spec a m n
  unfold L at this
  rw [this]
  split
  · ring
  · ring

/-- C37: the Legendre functions are orthogonal and the stored numbers are the inverses of the squared norms. -/
theorem legendre_orthogonal (i j : ℕ) (hi : i ≤ 800) (hj : j ≤ 800) :
    ∫ x in (-1 : ℝ)..1, legendre i x * legendre j x = if i = j then (legendreMinv i j)⁻¹ else 0 := by
  have h := jacobi_orth 0 i j (by omega) (by omega)
  simp only [pow_zero, one_mul] at h
  unfold legendre
  rw [h]
  by_cases e : i = j
  · subst e
    rw [if_pos rfl, if_pos rfl]
    unfold legendreMinv
    rw [if_pos rfl]
    push_cast
    rw [inv_div]
    congr 1
    ring
  · rw [if_neg e, if_neg e]

theorem phi_regular (p q : ℕ) (z1 z2 : ℝ) (h : z2 ≠ 1) :
    phi p q (⟨z1, z2⟩ : P2 ℝ) = jacobi p 0 0 (2 * (1 + z1) / (1 - z2) - 1) * ((1 - z2) / 2) ^ p * jacobi q (2 * p + 1) 0 z2 := by
  unfold phi n1
  rw [if_neg h]

/-- C37: the Dubiner functions are orthogonal on the master triangle and the stored numbers are the inverses of the squared norms. -/
theorem dubiner_orthogonal (p q p' q' : ℕ) (h : p + q ≤ 800) (h' : p' + q' ≤ 800) :
    ∫ z2 in (-1 : ℝ)..1, ∫ z1 in (-1 : ℝ)..(-z2), phi p q (⟨z1, z2⟩ : P2 ℝ) * phi p' q' ⟨z1, z2⟩ =
      if p = p' ∧ q = q' then (minv p q)⁻¹ else 0 := by
  have hinner : ∀ z2 : ℝ, ∫ z1 in (-1 : ℝ)..(-z2), phi p q (⟨z1, z2⟩ : P2 ℝ) * phi p' q' ⟨z1, z2⟩ =
      (∫ x in (-1 : ℝ)..1, legendre p x * legendre p' x) *
        (((1 - z2) / 2) ^ (p + p' + 1) * (jacobi q (2 * p + 1) 0 z2 * jacobi q' (2 * p' + 1) 0 z2)) := by
    intro z2
    by_cases hz : z2 = 1
    · subst hz
      rw [integral_same]
      simp
    · have hz' : 1 - z2 ≠ 0 := fun e => hz (by linarith)
      have e : (fun z1 : ℝ => phi p q (⟨z1, z2⟩ : P2 ℝ) * phi p' q' ⟨z1, z2⟩) = fun z1 =>
          (fun x => legendre p x * legendre p' x) (2 / (1 - z2) * z1 + (2 / (1 - z2) - 1)) *
            (((1 - z2) / 2) ^ (p + p') * (jacobi q (2 * p + 1) 0 z2 * jacobi q' (2 * p' + 1) 0 z2)) := by
        funext z1
        rw [phi_regular p q z1 z2 hz, phi_regular p' q' z1 z2 hz]
        have e1 : 2 / (1 - z2) * z1 + (2 / (1 - z2) - 1) = 2 * (1 + z1) / (1 - z2) - 1 := by field_simp; ring
        simp only [legendre, e1]
        rw [pow_add]
        ring
      have hc := integral_comp_mul_add (a := (-1 : ℝ)) (b := -z2) (fun x => legendre p x * legendre p' x) (div_ne_zero two_ne_zero hz')
        (2 / (1 - z2) - 1)
      rw [e, integral_mul_const]
      refine (congrArg (fun y => y * _) hc).trans ?_
      have b1 : 2 / (1 - z2) * -1 + (2 / (1 - z2) - 1) = -1 := by ring
      have b2 : 2 / (1 - z2) * -z2 + (2 / (1 - z2) - 1) = 1 := by field_simp; ring
      rw [b1, b2, smul_eq_mul, pow_succ]
      rw [inv_div]
      ring
  simp only [hinner]
  rw [integral_const_mul, legendre_orthogonal p p' (by omega) (by omega)]
  by_cases hp : p = p'
  · subst hp
    rw [if_pos rfl]
    have h2 := jacobi_orth (2 * p + 1) q q' (by omega) (by omega)
    have e : p + p + 1 = 2 * p + 1 := by omega
    rw [e, h2]
    by_cases hq : q = q'
    · subst hq
      rw [if_pos rfl, if_pos ⟨rfl, rfl⟩]
      unfold legendreMinv minv
      rw [if_pos rfl]
      push_cast
      have p1 : (2 : ℝ) * p + 1 ≠ 0 := by positivity
      have p2 : (p : ℝ) + q + 1 ≠ 0 := by positivity
      have p3 : (2 : ℝ) * q + (2 * p + 1) + 1 ≠ 0 := by positivity
      field_simp
      ring
    · rw [if_neg hq, if_neg (fun h => hq h.2), mul_zero]
  · rw [if_neg hp, if_neg (fun h => hp h.1), zero_mul]

/-- C36: the mean of a function over the triangle is its zeroth coefficient. -/
theorem mean_is_coeff (p q : ℕ) (h : p + q ≤ 800) :
    (∫ z2 in (-1 : ℝ)..1, ∫ z1 in (-1 : ℝ)..(-z2), phi p q (⟨z1, z2⟩ : P2 ℝ)) / 2 = if p = 0 ∧ q = 0 then 1 else 0 := by
  have hone : ∀ z : P2 ℝ, phi 0 0 z = 1 := by
    intro z
    unfold phi
    cases n1 z <;> simp [jacobi]
  have := dubiner_orthogonal p q 0 0 h (by omega)
  simp only [hone, mul_one] at this
  rw [this]
  split
  · rename_i hh
    obtain ⟨rfl, rfl⟩ := hh
    simp [minv]
  · simp

end Verif.Basis.Props
