import Verif.Model.Decimal
import Verif.Props.Text
import Mathlib.Algebra.Order.Round
import Mathlib.Tactic.Linarith
import Mathlib.Tactic.Positivity
import Mathlib.Tactic.NormNum
import Mathlib.Tactic.FieldSimp
import Mathlib.Tactic.Ring

/-!
# What survives being printed with fifteen digits (C18)
-/

namespace Verif.Decimal.Props
open Verif.Decimal

variable {near near' : ℚ → ℤ}

theorem unit_pos {b : ℕ} (hb : 1 < b) (p : ℤ) (x : ℚ) : 0 < unit b p x := by
  unfold unit
  have : (0 : ℚ) < b := by exact_mod_cast (lt_trans Nat.zero_lt_one hb)
  exact zpow_pos this _

theorem round_zero (h : Nearest near) (b : ℕ) (p : ℤ) : Verif.Decimal.round near b p 0 = 0 := by
  have h0 := h 0
  rw [sub_zero] at h0
  have : near 0 = 0 := by
    have : |(near 0 : ℚ)| < 1 := lt_of_le_of_lt h0 (by norm_num)
    have : |near 0| < 1 := by exact_mod_cast this
    exact Int.abs_lt_one_iff.1 this
  unfold Verif.Decimal.round
  rw [zero_div, this, Int.cast_zero, zero_mul]

theorem round_err (h : Nearest near) {b : ℕ} (hb : 1 < b) (p : ℤ) (x : ℚ) : |Verif.Decimal.round near b p x - x| ≤ unit b p x / 2 := by
  have hu := unit_pos hb p x
  have h1 := h (x / unit b p x)
  unfold Verif.Decimal.round
  have e : (near (x / unit b p x) : ℚ) * unit b p x - x = (near (x / unit b p x) - x / unit b p x) * unit b p x := by
    field_simp
  rw [e, abs_mul, abs_of_pos hu]
  nlinarith

theorem unit_le {b : ℕ} (hb : 1 < b) (p : ℤ) {x : ℚ} (hx : x ≠ 0) : unit b p x ≤ |x| / (b : ℚ) ^ p := by
  have hp : (0 : ℚ) < b := by exact_mod_cast (lt_trans Nat.zero_lt_one hb)
  unfold unit
  rw [zpow_sub₀ hp.ne']
  exact div_le_div_of_nonneg_right (Int.zpow_log_le_self hb (abs_pos.2 hx)) (zpow_pos hp _).le

/-- Numbers close to a whole number round to it. -/
theorem near_int (h : Nearest near) {z : ℚ} {M : ℤ} (hz : |z - M| < 1 / 2) : near z = M := by
  have h1 := h z
  have h2 : |((near z - M : ℤ) : ℚ)| < 1 := by
    push_cast
    calc |(near z : ℚ) - M| = |((near z : ℚ) - z) + (z - M)| := by ring_nf
      _ ≤ |(near z : ℚ) - z| + |z - M| := abs_add_le _ _
      _ < 1 := by linarith
  have : |near z - M| < 1 := by exact_mod_cast h2
  have := Int.abs_lt_one_iff.1 this
  omega

/-- A number with at most `p + 1` places. -/
def Places (b : ℕ) (p : ℕ) (x : ℚ) : Prop := ∃ (m k : ℤ), |m| < (b : ℤ) ^ (p + 1) ∧ x = m * (b : ℚ) ^ k

theorem places_unit {b : ℕ} (hb : 1 < b) {p : ℕ} {x : ℚ} (hx : x ≠ 0) (h : Places b p x) : ∃ M : ℤ, x = M * unit b p x := by
  obtain ⟨m, k, hm, e⟩ := h
  have hp : (0 : ℚ) < b := by exact_mod_cast (lt_trans Nat.zero_lt_one hb)
  have hb1 : (1 : ℚ) < b := by exact_mod_cast hb
  have hk : 0 ≤ k - (Int.log b |x| - p) := by
    by_contra hk
    push Not at hk
    have h1 := Int.zpow_log_le_self hb (abs_pos.2 hx)
    have h2 : |x| = (|m| : ℤ) * (b : ℚ) ^ k := by
      rw [e, abs_mul, abs_of_pos (zpow_pos hp k)]; push_cast; rfl
    have h3 : ((|m| : ℤ) : ℚ) < (b : ℚ) ^ (p + 1) := by exact_mod_cast hm
    have h4 : |x| < (b : ℚ) ^ ((p : ℤ) + 1 + k) := by
      rw [h2, zpow_add₀ hp.ne']
      have e' : (b : ℚ) ^ ((p : ℤ) + 1) = (b : ℚ) ^ (p + 1) := by exact_mod_cast zpow_natCast (b : ℚ) (p + 1)
      rw [e']
      exact mul_lt_mul_of_pos_right h3 (zpow_pos hp k)
    have h5 : (b : ℚ) ^ (Int.log b |x|) < (b : ℚ) ^ ((p : ℤ) + 1 + k) := lt_of_le_of_lt h1 h4
    have h6 := (zpow_lt_zpow_iff_right₀ hb1).1 h5
    omega
  obtain ⟨n, hn⟩ := Int.eq_ofNat_of_zero_le hk
  refine ⟨m * (b : ℤ) ^ n, ?_⟩
  conv_lhs => rw [e]
  push_cast
  rw [mul_assoc]
  congr 1
  unfold unit
  rw [← zpow_natCast, ← zpow_add₀ hp.ne']
  congr 1
  omega

/-- A number with few enough places is not changed. -/
theorem round_places (h : Nearest near) {b : ℕ} (hb : 1 < b) {p : ℕ} {x : ℚ} (hx : Places b p x) : Verif.Decimal.round near b p x = x := by
  by_cases h0 : x = 0
  · rw [h0, round_zero h]
  obtain ⟨M, hM⟩ := places_unit hb h0 hx
  have hu := unit_pos hb p x
  have : near (x / unit b p x) = M := near_int h (by
    have : x / unit b p x = M := by rw [div_eq_iff hu.ne']; exact hM
    rw [this, sub_self, abs_zero]; norm_num)
  unfold Verif.Decimal.round
  rw [this, ← hM]

/-- The result of rounding has few places. -/
theorem places_round (h : Nearest near) {b : ℕ} (hb : 1 < b) (p : ℕ) (x : ℚ) : Places b p (Verif.Decimal.round near b p x) := by
  have hp : (0 : ℚ) < b := by exact_mod_cast (lt_trans Nat.zero_lt_one hb)
  by_cases h0 : x = 0
  · rw [h0, round_zero h]
    exact ⟨0, 0, by rw [abs_zero]; exact pow_pos (by exact_mod_cast (lt_trans Nat.zero_lt_one hb)) _, by simp⟩
  have hu := unit_pos hb p x
  have hz : |x / unit b p x| < (b : ℚ) ^ (p + 1) := by
    rw [abs_div, abs_of_pos hu, div_lt_iff₀ hu]
    refine lt_of_lt_of_eq (Int.lt_zpow_succ_log_self hb |x|) ?_
    unfold unit
    rw [← zpow_natCast, ← zpow_add₀ hp.ne']
    congr 1
    push_cast
    ring
  have hn := h (x / unit b p x)
  have hle : |near (x / unit b p x)| ≤ (b : ℤ) ^ (p + 1) := by
    have : (|near (x / unit b p x)| : ℚ) < (b : ℚ) ^ (p + 1) + 1 := by
      have := abs_sub_abs_le_abs_sub (near (x / unit b p x) : ℚ) (x / unit b p x)
      linarith
    have : |near (x / unit b p x)| < (b : ℤ) ^ (p + 1) + 1 := by exact_mod_cast this
    omega
  unfold Verif.Decimal.round
  rcases lt_or_eq_of_le hle with hl | hl
  · exact ⟨_, _, hl, rfl⟩
  · have hbp : (b : ℤ) ^ p < (b : ℤ) ^ (p + 1) := by
      have : (1 : ℤ) < b := by exact_mod_cast hb
      exact pow_lt_pow_right₀ this (Nat.lt_succ_self p)
    have hpos : (0 : ℤ) ≤ (b : ℤ) ^ (p + 1) := by positivity
    have e : ∀ u : ℚ, ((b : ℤ) ^ (p + 1) : ℤ) * u = ((b : ℤ) ^ p : ℤ) * ((b : ℚ) * u) := fun u => by push_cast; ring
    have eu : (b : ℚ) * unit b p x = (b : ℚ) ^ (Int.log b |x| - p + 1) := by
      unfold unit
      rw [zpow_add_one₀ hp.ne']; ring
    rcases (abs_eq hpos).1 hl with h1 | h1
    · exact ⟨(b : ℤ) ^ p, _, by rw [abs_of_nonneg (by positivity)]; exact hbp, by rw [h1, e, eu]⟩
    · exact ⟨-(b : ℤ) ^ p, _, by rw [abs_neg, abs_of_nonneg (by positivity)]; exact hbp, by
        rw [h1, Int.cast_neg, neg_mul, e, eu]; push_cast; ring⟩

/-- Fifteen digits survive a change to a number that differs by less than the distance of doubles. -/
theorem digits_stable (h : Nearest near) {x y : ℚ} (hx : Places 10 14 x) (hy : |y - x| ≤ |x| / 2 ^ 53) : toDigits near y = x := by
  by_cases h0 : x = 0
  · rw [h0] at hy ⊢
    have : y = 0 := by simpa using hy
    rw [this]
    exact round_zero h 10 14
  have hx0 := abs_pos.2 h0
  have hyx : |y| ≤ |x| + |x| / 2 ^ 53 := by
    have := abs_sub_abs_le_abs_sub y x; linarith
  have hxy : |x| - |x| / 2 ^ 53 ≤ |y| := by
    have := abs_sub_abs_le_abs_sub x y
    rw [abs_sub_comm] at this; linarith
  have hy0 : 0 < |y| := by
    have : |x| / 2 ^ 53 < |x| := div_lt_self hx0 (by norm_num)
    linarith
  obtain ⟨M, hM⟩ := places_unit (by norm_num) h0 hx
  have hu := unit_pos (b := 10) (by norm_num) ((14 : ℕ) : ℤ) x
  have l1 := Int.zpow_log_le_self (b := 10) (by norm_num) hx0
  have l2 := Int.lt_zpow_succ_log_self (b := 10) (by norm_num) |x|
  have l3 := Int.zpow_log_le_self (b := 10) (by norm_num) hy0
  have l4 := Int.lt_zpow_succ_log_self (b := 10) (by norm_num) |y|
  have hten : (1 : ℚ) < ((10 : ℕ) : ℚ) := by norm_num
  have eM : |x| = (|M| : ℤ) * unit 10 ((14 : ℕ) : ℤ) x := by
    conv_lhs => rw [hM]
    rw [abs_mul, abs_of_pos hu]; push_cast; rfl
  have e14 : ((10 : ℕ) : ℚ) ^ (Int.log 10 |x|) = 10 ^ 14 * unit 10 ((14 : ℕ) : ℤ) x := by
    unfold unit
    rw [zpow_sub₀ (by norm_num)]
    norm_num
    field_simp
  have e15 : ((10 : ℕ) : ℚ) ^ (Int.log 10 |x| + 1) = 10 ^ 15 * unit 10 ((14 : ℕ) : ℤ) x := by
    rw [zpow_add_one₀ (by norm_num), e14]; norm_num; ring
  have hMlt : |M| < 10 ^ 15 := by
    rw [e15, eM] at l2
    have := lt_of_mul_lt_mul_right l2 hu.le
    exact_mod_cast this
  have hMge : 10 ^ 14 ≤ |M| := by
    rw [e14, eM] at l1
    have := le_of_mul_le_mul_right l1 hu
    exact_mod_cast this
  generalize hU : unit 10 ((14 : ℕ) : ℤ) x = U at *
  -- the decade of `y`
  have up : Int.log 10 |y| ≤ Int.log 10 |x| := by
    by_contra hc
    push Not at hc
    have h1 : ((10 : ℕ) : ℚ) ^ (Int.log 10 |x| + 1) ≤ ((10 : ℕ) : ℚ) ^ (Int.log 10 |y|) := (zpow_le_zpow_iff_right₀ hten).2 (by omega)
    rw [e15] at h1
    have h2 : 10 ^ 15 * U ≤ |x| + |x| / 2 ^ 53 := h1.trans (l3.trans hyx)
    have h3 : ((|M| : ℤ) : ℚ) ≤ 10 ^ 15 - 1 := by
      have : |M| ≤ 10 ^ 15 - 1 := by omega
      exact_mod_cast this
    rw [eM] at h2
    nlinarith
  have z1 : |y - x| ≤ (|M| : ℤ) * U / 2 ^ 53 := by rw [eM] at hy; exact hy
  rcases lt_or_eq_of_le up with hlt | heq
  · -- `x` is a power of ten and `y` below it
    have h1 : ((10 : ℕ) : ℚ) ^ (Int.log 10 |y| + 1) ≤ ((10 : ℕ) : ℚ) ^ (Int.log 10 |x|) := (zpow_le_zpow_iff_right₀ hten).2 (by omega)
    rw [e14] at h1
    have h2 : |x| - |x| / 2 ^ 53 < 10 ^ 14 * U := lt_of_le_of_lt hxy (lt_of_lt_of_le l4 h1)
    have h3 : |M| = 10 ^ 14 := by
      by_contra hne
      have h4 : (10 ^ 14 + 1 : ℤ) ≤ |M| := by omega
      have h5 : (10 ^ 14 + 1 : ℚ) ≤ ((|M| : ℤ) : ℚ) := by exact_mod_cast h4
      have h6 : ((|M| : ℤ) : ℚ) < 10 ^ 15 := by exact_mod_cast hMlt
      rw [eM] at h2
      nlinarith
    have hl : Int.log 10 |y| = Int.log 10 |x| - 1 := by
      by_contra hne
      have h5 : ((10 : ℕ) : ℚ) ^ (Int.log 10 |y| + 1) ≤ ((10 : ℕ) : ℚ) ^ (Int.log 10 |x| - 1) := (zpow_le_zpow_iff_right₀ hten).2 (by omega)
      rw [zpow_sub_one₀ (by norm_num), e14] at h5
      have h6 : |x| - |x| / 2 ^ 53 < 10 ^ 14 * U * ((10 : ℕ) : ℚ)⁻¹ := lt_of_le_of_lt hxy (lt_of_lt_of_le l4 h5)
      rw [eM, h3] at h6
      norm_num at h6
      nlinarith
    have hv : unit 10 14 y = U / 10 := by
      rw [← hU]
      unfold unit
      rw [hl, show Int.log 10 |x| - 1 - 14 = (Int.log 10 |x| - ((14 : ℕ) : ℤ)) - 1 by push_cast; ring, zpow_sub_one₀ (by norm_num)]
      rfl
    unfold toDigits Verif.Decimal.round
    rw [hv]
    have hr : near (y / (U / 10)) = M * 10 := by
      apply near_int h
      have e : y / (U / 10) - ((M * 10 : ℤ) : ℚ) = (y - x) / (U / 10) := by
        rw [hM]; push_cast; field_simp
      rw [e, abs_div, abs_of_pos (show 0 < U / 10 by positivity), div_lt_iff₀ (by positivity)]
      rw [h3] at z1
      refine lt_of_le_of_lt z1 ?_
      norm_num
      nlinarith
    rw [hr, hM]
    push_cast
    ring
  · have hv : unit 10 14 y = U := by
      rw [← hU]
      unfold unit
      rw [heq]; rfl
    unfold toDigits Verif.Decimal.round
    rw [hv]
    have hr : near (y / U) = M := by
      apply near_int h
      have e : y / U - (M : ℚ) = (y - x) / U := by
        conv_rhs => rw [hM]
        field_simp
      rw [e, abs_div, abs_of_pos hu, div_lt_iff₀ hu]
      have h6 : ((|M| : ℤ) : ℚ) < 10 ^ 15 := by exact_mod_cast hMlt
      refine lt_of_le_of_lt z1 ?_
      nlinarith
    rw [hr, ← hM]

theorem double_err (h : Nearest near) (x : ℚ) : |toDouble near x - x| ≤ |x| / 2 ^ 53 := by
  by_cases h0 : x = 0
  · rw [h0]; unfold toDouble; rw [round_zero h]; simp
  have h1 := round_err h (b := 2) (by norm_num) 52 x
  have h2 := unit_le (b := 2) (by norm_num) 52 h0
  have e : |x| / ((2 : ℕ) : ℚ) ^ (52 : ℤ) = 2 * (|x| / 2 ^ 53) := by norm_num; ring
  rw [e] at h2
  unfold toDouble
  linarith

/-- Decimal numbers of fifteen digits survive being read into a double and printed again. -/
theorem digits_survive (h : Nearest near) (h' : Nearest near') {x : ℚ} (hx : Places 10 14 x) : toDigits near (toDouble near' x) = x :=
  digits_stable h hx (double_err h' x)

/-- Hence a double that has been read from such a number survives being printed and read again. -/
theorem double_survives (h : Nearest near) (h' : Nearest near') {x : ℚ} (hx : Places 10 14 x) :
    toDouble near' (toDigits near (toDouble near' x)) = toDouble near' x := by rw [digits_survive h h' hx]

/-- And whatever has been printed and read once is not changed by being printed and read again. -/
theorem trip_twice (h : Nearest near) (h' : Nearest near') (x : ℚ) :
    toDouble near' (toDigits near (toDouble near' (toDigits near x))) = toDouble near' (toDigits near x) :=
  double_survives h h' (places_round h (by norm_num) 14 x)

/-! ### The text -/

open Verif Verif.Util Verif.Text

theorem val_append (s t : List Char) : val (s ++ t) = val s * 10 ^ t.length + val t := by
  unfold val
  rw [List.foldl_append]
  generalize s.foldl (fun a c => 10 * a + (c.toNat - 48)) 0 = a
  have : ∀ (t : List Char) (a b : ℕ), t.foldl (fun a c => 10 * a + (c.toNat - 48)) (a + b) = a * 10 ^ t.length + t.foldl (fun a c => 10 * a + (c.toNat - 48)) b := by
    intro t
    induction t with
    | nil => intro a b; simp
    | cons c t ih =>
      intro a b
      rw [List.foldl_cons, List.foldl_cons, show 10 * (a + b) + (c.toNat - 48) = 10 * a + (10 * b + (c.toNat - 48)) by ring, ih]
      rw [List.length_cons, pow_succ]
      ring
  simpa using this t a 0

theorem val_zeros (k : ℕ) : val (List.replicate k '0') = 0 := by
  induction k with
  | zero => rfl
  | succ k ih => rw [List.replicate_succ', val_append, ih]; rfl

theorem strip_spec (s : List Char) : ∃ k, s = strip s ++ List.replicate k '0' := by
  refine ⟨(s.reverse.takeWhile (· == '0')).length, ?_⟩
  have h := List.takeWhile_append_dropWhile (p := (· == '0')) (l := s.reverse)
  have e : s.reverse.takeWhile (· == '0') = List.replicate (s.reverse.takeWhile (· == '0')).length '0' := by
    refine List.eq_replicate_of_mem fun c hc => ?_
    have := List.all_takeWhile (p := (· == '0')) (l := s.reverse)
    simpa using List.all_eq_true.1 this c hc
  have := congrArg List.reverse h
  rw [List.reverse_append, List.reverse_reverse] at this
  rw [← this]
  conv_rhs => rw [this]
  unfold strip
  congr 1
  conv_lhs => rw [e]
  rw [List.reverse_replicate]

theorem dec_length {n k : ℕ} (h1 : 10 ^ k ≤ n) (h2 : n < 10 ^ (k + 1)) : (dec n).length = k + 1 := by
  have h0 : n ≠ 0 := by
    have : 0 < 10 ^ k := by positivity
    omega
  unfold dec
  rw [if_neg h0, List.length_map, List.length_reverse]
  refine le_antisymm ?_ ?_
  · exact (Nat.digits_length_le_iff (by norm_num) n).2 h2
  · exact (Nat.lt_digits_length_iff (by norm_num) n).2 h1

/-- Digits. -/
def Digs (s : List Char) : Prop := ∀ c ∈ s, isDig c = true

theorem digs_append {s t : List Char} (hs : Digs s) (ht : Digs t) : Digs (s ++ t) := by
  intro c hc
  rcases List.mem_append.1 hc with h | h
  · exact hs c h
  · exact ht c h

theorem digs_zeros (k : ℕ) : Digs (List.replicate k '0') := by
  intro c hc
  rw [List.eq_of_mem_replicate hc]; decide

theorem digs_sub {s t : List Char} (hs : Digs s) (h : ∀ c ∈ t, c ∈ s) : Digs t := fun c hc => hs c (h c hc)

/-- The end of a number: nothing or a power of ten. -/
inductive Power : List Char → ℤ → Prop
  | none : Power [] 0
  | some (E : ℤ) : Power (expo E) E

theorem power_exp {t : List Char} {E : ℤ} (h : Power t E) : takeExp t = some E := by
  cases h with
  | none => rfl
  | some E =>
    unfold expo
    have hd : Digs (if E.natAbs < 10 then '0' :: dec E.natAbs else dec E.natAbs) := by
      split_ifs
      · exact digs_append (s := ['0']) (by intro c hc; rw [List.mem_singleton.1 hc]; decide) dec_isDig
      · exact dec_isDig
    have hne : (if E.natAbs < 10 then '0' :: dec E.natAbs else dec E.natAbs) ≠ [] := by
      split_ifs
      · exact List.cons_ne_nil _ _
      · exact dec_ne_nil _
    have hv : val (if E.natAbs < 10 then '0' :: dec E.natAbs else dec E.natAbs) = E.natAbs := by
      split_ifs
      · rw [show '0' :: dec E.natAbs = ['0'] ++ dec E.natAbs from rfl, val_append, show val ['0'] = 0 from rfl, Nat.zero_mul, Nat.zero_add]; exact dec_value _
      · exact dec_value _
    generalize (if E.natAbs < 10 then '0' :: dec E.natAbs else dec E.natAbs) = d at hd hne hv
    have ha : d.all isDig = true := List.all_eq_true.2 hd
    simp only [takeExp, true_or, if_true]
    by_cases hE : E < 0
    · rw [if_pos hE]
      simp only [takeSign, if_true]
      rw [if_neg (by simp [hne, ha]), hv]
      congr 1; omega
    · rw [if_neg hE]
      have e : takeSign ('+' :: d) = (false, d) := rfl
      simp only [e]
      rw [if_neg (by simp [hne, ha]), hv]
      simp only [Bool.false_eq_true, if_false]
      congr 1; omega

theorem power_start {t : List Char} {E : ℤ} (h : Power t E) : Ends t ∧ takeFrac t = ([], t) := by
  cases h with
  | none => exact ⟨ends_nil, rfl⟩
  | some E => exact ⟨ends_cons (by decide), rfl⟩

theorem written_text (neg : Bool) {A F t : List Char} {E : ℤ} (hA : A ≠ []) (dA : Digs A) (dF : Digs F) (ht : Power t E) :
    written ((if neg then ['-'] else []) ++ (joined A F ++ t)) = some ((if neg then -1 else 1) * ((val (A ++ F) : ℚ) * 10 ^ (E - (F.length : ℤ)))) := by
  have hs : takeSign ((if neg then ['-'] else []) ++ (joined A F ++ t)) = (neg, joined A F ++ t) := by
    cases neg
    · obtain ⟨c, A', rfl⟩ := List.exists_cons_of_ne_nil hA
      have hc := dA c List.mem_cons_self
      simp only [Bool.false_eq_true, if_false, List.nil_append, joined, List.cons_append, takeSign]
      rw [if_neg (by rintro rfl; exact absurd hc (by decide)), if_neg (by rintro rfl; exact absurd hc (by decide))]
    · rfl
  have hj : joined A F ++ t = A ++ ((if F = [] then [] else '.' :: F) ++ t) := by unfold joined; rw [List.append_assoc]
  have hf : Ends ((if F = [] then [] else '.' :: F) ++ t) ∧ takeFrac ((if F = [] then [] else '.' :: F) ++ t) = (F, t) := by
    by_cases h : F = []
    · rw [if_pos h, List.nil_append, h]; exact power_start ht
    · rw [if_neg h]
      refine ⟨ends_cons (by decide), ?_⟩
      simp only [List.cons_append, takeFrac, if_true]
      rw [takeWhile_all dF, dropWhile_all dF, (ends_dropWhile (power_start ht).1).1, (ends_dropWhile (power_start ht).1).2, List.append_nil]
  unfold written
  simp only [hs]
  rw [hj, takeWhile_all dA, dropWhile_all dA, (ends_dropWhile hf.1).1, (ends_dropWhile hf.1).2, List.append_nil, hf.2]
  simp only
  rw [if_neg (by simp [hA]), power_exp ht, Option.map_some]

/-- The text of a positive number with fifteen digits stands for it. -/
theorem body_written {r : ℚ} (hr : 0 < r) (hp : Places 10 14 r) (neg : Bool) :
    written ((if neg then ['-'] else []) ++ body r) = some ((if neg then -1 else 1) * r) := by
  obtain ⟨M, hM⟩ := places_unit (by norm_num) hr.ne' hp
  have hu := unit_pos (b := 10) (by norm_num) ((14 : ℕ) : ℤ) r
  have l1 := Int.zpow_log_le_self (R := ℚ) (b := 10) (by norm_num) hr
  have l2 := Int.lt_zpow_succ_log_self (b := 10) (by norm_num) r
  have eu : unit 10 ((14 : ℕ) : ℤ) r = (10 : ℚ) ^ (Int.log 10 r - 14) := by unfold unit; rw [abs_of_pos hr]; rfl
  rw [eu] at hM hu
  unfold body
  generalize Int.log 10 r = E at *
  have e14 : ((10 : ℕ) : ℚ) ^ E = 10 ^ 14 * 10 ^ (E - 14) := by
    rw [← zpow_natCast, ← zpow_add₀ (by norm_num)]; norm_num
  have e15 : ((10 : ℕ) : ℚ) ^ (E + 1) = 10 ^ 15 * 10 ^ (E - 14) := by
    rw [zpow_add_one₀ (by norm_num), e14]; norm_num; ring
  rw [e14] at l1
  rw [e15] at l2
  have hfl : (r / 10 ^ (E - 14)).floor = M := by
    rw [show r / 10 ^ (E - 14) = (M : ℚ) by rw [div_eq_iff hu.ne']; exact hM]
    exact Int.floor_intCast (R := ℚ) M
  rw [hM] at l1 l2
  have h1 : (10 : ℚ) ^ 14 ≤ M := le_of_mul_le_mul_right l1 hu
  have h2 : (M : ℚ) < 10 ^ 15 := lt_of_mul_lt_mul_right l2 hu.le
  have h1' : (10 : ℤ) ^ 14 ≤ M := by exact_mod_cast h1
  have h2' : M < (10 : ℤ) ^ 15 := by exact_mod_cast h2
  obtain ⟨D, rfl⟩ := Int.eq_ofNat_of_zero_le (show 0 ≤ M by omega)
  have hD1 : 10 ^ 14 ≤ D := by omega
  have hD2 : D < 10 ^ (14 + 1) := by omega
  have hlen := dec_length hD1 hD2
  have hval : val (dec D) = D := dec_value D
  have hdig : Digs (dec D) := dec_isDig
  obtain ⟨k, hk⟩ := strip_spec (dec D)
  have hfl' : (r / 10 ^ (E - 14)).floor.toNat = D := by rw [hfl]; rfl
  simp only [hfl']
  generalize hs : strip (dec D) = s at *
  have ds : Digs s := digs_sub hdig fun c hc => by rw [hk]; exact List.mem_append_left _ hc
  have hl : s.length + k = 15 := by
    rw [hk, List.length_append, List.length_replicate] at hlen; exact hlen
  have hv : val s * 10 ^ k = D := by
    rw [hk, val_append, List.length_replicate, val_zeros, Nat.add_zero] at hval; exact hval
  have hr' : r = (val s : ℚ) * 10 ^ (E + 1 - (s.length : ℤ)) := by
    rw [hM, ← hv]
    push_cast
    rw [mul_assoc, ← zpow_natCast, ← zpow_add₀ (by norm_num)]
    congr 2
    omega
  have hsne : s ≠ [] := by
    rintro rfl
    have : val ([] : List Char) = 0 := rfl
    rw [this, Nat.zero_mul] at hv
    omega
  by_cases hE : -4 ≤ E ∧ E < 15
  · rw [if_pos hE]
    by_cases h0 : E < 0
    · rw [if_pos h0]
      have := written_text neg (A := ['0']) (F := List.replicate (-E - 1).toNat '0' ++ s) (t := []) (E := 0) (List.cons_ne_nil _ _)
        (by intro c hc; rw [List.mem_singleton.1 hc]; decide) (digs_append (digs_zeros _) ds) Power.none
      rw [List.append_nil] at this
      rw [this, hr', val_append, val_append, val_zeros, show val ['0'] = 0 from rfl, Nat.zero_mul, Nat.zero_mul, Nat.zero_add, Nat.zero_add,
        List.length_append, List.length_replicate]
      congr 4
      omega
    · rw [if_neg h0]
      have hA : s.take (E + 1).toNat ++ List.replicate ((E + 1).toNat - s.length) '0' ≠ [] := by
        intro h
        have h := congrArg List.length h
        rw [List.length_append, List.length_take, List.length_replicate] at h
        have := List.length_pos_iff.2 hsne
        simp only [List.length_nil] at h
        omega
      have := written_text neg (F := s.drop (E + 1).toNat) (t := []) (E := 0) hA
        (digs_append (digs_sub ds fun c hc => List.mem_of_mem_take hc) (digs_zeros _)) (digs_sub ds fun c hc => List.mem_of_mem_drop hc) Power.none
      rw [List.append_nil] at this
      rw [this]
      congr 2
      rw [hr']
      by_cases hle : s.length ≤ (E + 1).toNat
      · rw [List.take_of_length_le hle, List.drop_of_length_le hle, List.append_nil, val_append, List.length_replicate, val_zeros, Nat.add_zero]
        push_cast
        rw [mul_assoc, ← zpow_natCast, ← zpow_add₀ (by norm_num)]
        congr 2
        simp only [List.length_nil]
        omega
      · rw [show (E + 1).toNat - s.length = 0 by omega, List.replicate_zero, List.append_nil, List.take_append_drop, List.length_drop]
        congr 2
        omega
  · rw [if_neg hE]
    have hA : s.take 1 ≠ [] := by
      obtain ⟨c, t, rfl⟩ := List.exists_cons_of_ne_nil hsne
      exact List.cons_ne_nil _ _
    have := written_text neg (F := s.drop 1) (t := expo E) hA
      (digs_sub ds fun c hc => List.mem_of_mem_take hc) (digs_sub ds fun c hc => List.mem_of_mem_drop hc) (Power.some E)
    rw [this, hr', List.take_append_drop, List.length_drop]
    have := List.length_pos_iff.2 hsne
    congr 4
    omega

/-- What is read is the double nearest to the number printed. -/
theorem print_read (h : Nearest near) (near' : ℚ → ℤ) (x : ℚ) :
    readDouble near' (printDouble near x) = some (toDouble near' (toDigits near x)) := by
  have hp := places_round h (b := 10) (by norm_num) 14 x
  unfold readDouble printDouble
  change Places 10 14 (toDigits near x) at hp
  generalize toDigits near x = r at hp
  by_cases h0 : r = 0
  · rw [if_pos h0, h0]
    have e := written_text false (A := ['0']) (F := []) (t := []) (E := 0) (List.cons_ne_nil _ _) (by intro c hc; rw [List.mem_singleton.1 hc]; decide)
      (fun c hc => absurd hc List.not_mem_nil) Power.none
    have e' : written ['0'] = some 0 := by
      refine Eq.trans e ?_
      rw [show val (['0'] ++ []) = 0 from rfl]
      simp
    rw [e']; rfl
  rw [if_neg h0]
  have ha : 0 < |r| := abs_pos.2 h0
  have hpa : Places 10 14 |r| := by
    obtain ⟨m, k, hm, e⟩ := hp
    refine ⟨|m|, k, by rwa [abs_abs], ?_⟩
    rw [e, abs_mul, abs_of_pos (zpow_pos (show (0 : ℚ) < ((10 : ℕ) : ℚ) by norm_num) k)]; push_cast; rfl
  have hb := body_written ha hpa (decide (r < 0))
  simp only [decide_eq_true_eq] at hb
  rw [hb, Option.map_some]
  congr 2
  split_ifs with hn
  · rw [abs_of_neg hn]; ring
  · rw [abs_of_nonneg (not_lt.1 hn)]; ring

/-- The letters of a number. -/
def Letter (c : Char) : Prop := isDig c = true ∨ c = '.' ∨ c = '-' ∨ c = '+' ∨ c = 'e'

theorem letter_word {c : Char} (h : Letter c) : c.toNat ≠ 32 ∧ ¬ (9 ≤ c.toNat ∧ c.toNat ≤ 13) := by
  rcases h with h | rfl | rfl | rfl | rfl
  · simp only [isDig, Bool.and_eq_true, decide_eq_true_eq] at h
    omega
  all_goals decide

theorem joined_letters {A F : List Char} (hA : Digs A) (hF : Digs F) : ∀ c ∈ joined A F, Letter c := by
  intro c hc
  unfold joined at hc
  rcases List.mem_append.1 hc with h | h
  · exact Or.inl (hA c h)
  · split_ifs at h
    · exact absurd h List.not_mem_nil
    · rcases List.mem_cons.1 h with rfl | h
      · exact Or.inr (Or.inl rfl)
      · exact Or.inl (hF c h)

theorem digs_strip (n : ℕ) : Digs (strip (dec n)) := by
  obtain ⟨k, hk⟩ := strip_spec (dec n)
  refine digs_sub (s := dec n) dec_isDig fun c hc => ?_
  rw [hk]; exact List.mem_append_left _ hc

theorem body_letters (r : ℚ) : ∀ c ∈ body r, Letter c := by
  have ds := fun n => digs_strip n
  unfold body
  simp only
  split_ifs
  · exact joined_letters (by intro c hc; rw [List.mem_singleton.1 hc]; decide) (digs_append (digs_zeros _) (ds _))
  · exact joined_letters (digs_append (digs_sub (ds _) fun c hc => List.mem_of_mem_take hc) (digs_zeros _)) (digs_sub (ds _) fun c hc => List.mem_of_mem_drop hc)
  · intro c hc
    rcases List.mem_append.1 hc with h | h
    · exact joined_letters (digs_sub (ds _) fun c hc => List.mem_of_mem_take hc) (digs_sub (ds _) fun c hc => List.mem_of_mem_drop hc) c h
    · unfold expo at h
      rcases List.mem_cons.1 h with rfl | h
      · exact Or.inr (Or.inr (Or.inr (Or.inr rfl)))
      rcases List.mem_cons.1 h with rfl | h
      · split_ifs
        · exact Or.inr (Or.inr (Or.inl rfl))
        · exact Or.inr (Or.inr (Or.inr (Or.inl rfl)))
      split_ifs at h
      · rcases List.mem_cons.1 h with rfl | h
        · exact Or.inl (by decide)
        · exact Or.inl (dec_isDig c h)
      · exact Or.inl (dec_isDig c h)

theorem print_letters (x : ℚ) : ∀ c ∈ printDouble near x, Letter c := by
  unfold printDouble
  simp only
  split_ifs
  · intro c hc; rw [List.mem_singleton.1 hc]; exact Or.inl (by decide)
  · intro c hc
    rcases List.mem_append.1 hc with h | h
    · rw [List.mem_singleton.1 h]; exact Or.inr (Or.inr (Or.inl rfl))
    · exact body_letters _ c h
  · intro c hc
    rcases List.mem_append.1 hc with h | h
    · exact absurd h List.not_mem_nil
    · exact body_letters _ c h

/-- Being printed and read again. -/
def trip (near near' : ℚ → ℤ) (x : ℚ) : ℚ := toDouble near' (toDigits near x)

theorem prints (h : Nearest near) (near' : ℚ → ℤ) (x : ℚ) : Text.Props.Prints (codec near near') (trip near near') x where
  ne := fun h0 => by
    have := print_read h near' x
    change printDouble near x = [] at h0
    rw [h0] at this
    simp [readDouble, written, takeSign, takeFrac] at this
  word := fun c hc => letter_word (print_letters x c hc)
  back := print_read h near' x

/-! ### The metadata file -/

/-- Metadata that the file can hold: names and type codes without white space, numbers of 32 bits, no key twice. -/
structure Writable (m : Meta ℚ) : Prop where
  name_ne : m.name ≠ []
  name_word : ∀ c ∈ m.name, c.toNat ≠ 32 ∧ ¬ (9 ≤ c.toNat ∧ c.toNat ≤ 13)
  nelts : m.elements.length < 2 ^ 32
  elt_ids : ∀ x ∈ m.elements, x.1 < 2 ^ 32
  elt_keys : (m.elements.map Prod.fst).Nodup
  elts : ∀ x ∈ m.elements, Text.Props.EltOK x.2
  nnodes : m.nodes.length < 2 ^ 32
  node_ids : ∀ x ∈ m.nodes, x.1 < 2 ^ 32
  node_keys : (m.nodes.map Prod.fst).Nodup

theorem writable_ok (h : Nearest near) (near' : ℚ → ℤ) {m : Meta ℚ} (hm : Writable m) : Text.Props.MetaOK (codec near near') (trip near near') m :=
  ⟨hm.name_ne, hm.name_word, hm.nelts, hm.elt_ids, hm.elt_keys, hm.elts, hm.nnodes, hm.node_ids, hm.node_keys, fun _ _ => ⟨prints h _ _, prints h _ _, prints h _ _⟩⟩

/-- A coordinate read from a text with fifteen significant digits at most. -/
def Short (near' : ℚ → ℤ) (x : ℚ) : Prop := ∃ d, Places 10 14 d ∧ x = toDouble near' d

theorem trip_short (h : Nearest near) (h' : Nearest near') {x : ℚ} (hx : Short near' x) : trip near near' x = x := by
  obtain ⟨d, hd, rfl⟩ := hx
  exact double_survives h h' hd

theorem lookup_mem {α : Type} {l : List (ℕ × α)} {k : ℕ} {x : α} (h : l.lookup k = some x) : (k, x) ∈ l := by
  induction l with
  | nil => cases h
  | cons a l ih =>
    rw [List.lookup] at h
    split at h
    · rename_i hk
      rw [beq_iff_eq] at hk
      cases h
      rw [hk]; exact List.mem_cons_self
    · exact List.mem_cons_of_mem _ (ih h)

/-- C18: with coordinates that have been read from texts with fifteen significant digits at most, as in the mesh files, the metadata file restores
everything exactly. Partial: coordinates with more digits are changed (`digits_lost`), type codes that are white space are lost (`meta_space_lost`). -/
theorem meta_exact_partial (h : Nearest near) (h' : Nearest near') {m : Meta ℚ} (hm : Writable m)
    (hd : ∀ x ∈ m.nodes, Short near' x.2.1 ∧ Short near' x.2.2.1 ∧ Short near' x.2.2.2) :
    ∃ m', rdMeta (codec near near') (wrMeta (codec near near') m) = some m' ∧ m'.name = m.name ∧ (∀ id, m'.elements.lookup id = m.elements.lookup id) ∧
      ∀ id, m'.nodes.lookup id = m.nodes.lookup id := by
  obtain ⟨m', h1, h2, h3, h4⟩ := Text.Props.meta_round_trip_partial (writable_ok h near' hm)
  refine ⟨m', h1, h2, h3, fun id => ?_⟩
  rw [h4]
  cases e : m.nodes.lookup id with
  | none => rfl
  | some p =>
    have hp := hd (id, p) (lookup_mem e)
    rw [Option.map_some, trip_short h h' hp.1, trip_short h h' hp.2.1, trip_short h h' hp.2.2]

/-- What has been written and read once is restored exactly from then on: the partitioner and the program work with the same coordinates. -/
theorem trip_trip (h : Nearest near) (h' : Nearest near') (x : ℚ) : trip near near' (trip near near' x) = trip near near' x := trip_twice h h' x

/-- And it differs from the coordinate by little. -/
theorem trip_close (h : Nearest near) (h' : Nearest near') (x : ℚ) : |trip near near' x - x| ≤ |x| * (6 / 10 ^ 15) := by
  by_cases h0 : x = 0
  · rw [h0]; unfold trip toDigits; rw [round_zero h]; unfold toDouble; rw [round_zero h']; simp
  have h1 := round_err h (b := 10) (by norm_num) 14 x
  have h2 := unit_le (b := 10) (by norm_num) 14 h0
  have e : |x| / ((10 : ℕ) : ℚ) ^ (14 : ℤ) = |x| * (1 / 10 ^ 14) := by norm_num; ring
  rw [e] at h2
  have h3 := double_err h' (toDigits near x)
  have h4 : |toDigits near x - x| ≤ |x| * (1 / 10 ^ 14) / 2 := by unfold toDigits; linarith
  have h5 : |toDigits near x| ≤ 2 * |x| := by
    have := abs_sub_abs_le_abs_sub (toDigits near x) x
    have := abs_nonneg x
    linarith
  have h6 : |trip near near' x - x| ≤ |toDouble near' (toDigits near x) - toDigits near x| + |toDigits near x - x| := by
    unfold trip
    calc |toDouble near' (toDigits near x) - x| = |(toDouble near' (toDigits near x) - toDigits near x) + (toDigits near x - x)| := by ring_nf
      _ ≤ _ := abs_add_le _ _
  have := abs_nonneg x
  norm_num at h3 h4 ⊢
  linarith

/-- A double. -/
def IsDouble (x : ℚ) : Prop := Places 2 52 x

/-- C18 is false of the code for other coordinates: one plus the distance of doubles is printed as one. -/
theorem digits_lost (h : Nearest near) (h' : Nearest near') : IsDouble (1 + 1 / 2 ^ 52) ∧ trip near near' (1 + 1 / 2 ^ 52) ≠ 1 + 1 / 2 ^ 52 := by
  refine ⟨⟨2 ^ 52 + 1, -52, by norm_num, by norm_num⟩, ?_⟩
  have h1 : Places 10 14 1 := ⟨1, 0, by norm_num, by norm_num⟩
  have h2 : Places 2 52 1 := ⟨1, 0, by norm_num, by norm_num⟩
  have h3 : toDigits near (1 + 1 / 2 ^ 52) = 1 := by
    have e : Int.log 10 |(1 + 1 / 2 ^ 52 : ℚ)| = 0 := by decide +kernel
    have hu : unit 10 14 (1 + 1 / 2 ^ 52) = 1 / 10 ^ 14 := by unfold unit; rw [e]; norm_num
    unfold toDigits Verif.Decimal.round
    rw [hu, near_int h (M := 10 ^ 14)]
    · norm_num
    · norm_num
  unfold trip
  rw [h3]
  have : toDouble near' 1 = 1 := round_places h' (by norm_num) h2
  rw [this]
  norm_num

/-- There are roundings. -/
theorem round_nearest : Nearest _root_.round := fun x => by
  rw [abs_sub_comm]; exact abs_sub_round x

/-- Some numbers as the streams print them. -/
example : printDouble _root_.round (-5) = "-5".toList ∧ printDouble _root_.round (1 / 4) = "0.25".toList ∧ printDouble _root_.round (1 / 3) = "0.333333333333333".toList ∧
    printDouble _root_.round 1234500 = "1234500".toList ∧ printDouble _root_.round (1 / 10 ^ 7) = "1e-07".toList ∧
    printDouble _root_.round (15 * 10 ^ 19 + 1) = "1.5e+20".toList ∧ printDouble _root_.round 0 = "0".toList ∧ printDouble _root_.round (25 / 2) = "12.5".toList := by decide +kernel

/-- And read. -/
example : readDouble _root_.round "-12.5e-1".toList = some (-5 / 4) ∧ readDouble _root_.round ".5".toList = some (1 / 2) ∧ readDouble _root_.round "x".toList = none ∧
    readDouble _root_.round "1e".toList = none := by decide +kernel

/-- A mesh that fits: the hypotheses of `meta_exact_partial` hold. -/
example : Writable ⟨['m'], [(0, ⟨[0, 1, 2], [0, 0, 0], [0, 1, 2]⟩)], [(0, (1 / 2, 0, 3))]⟩ ∧ Short _root_.round (1 / 2) := by
  refine ⟨⟨by decide, by decide, by decide, by decide, by decide, ?_, by decide, by simp, by decide⟩, 1 / 2, ⟨5, -1, by norm_num, by norm_num⟩, ?_⟩
  · intro x hx
    rw [List.mem_singleton.1 hx]
    exact ⟨rfl, rfl, by decide, by decide, by decide, by decide, by decide⟩
  · exact (round_places round_nearest (by norm_num) ⟨1, -1, by norm_num, by norm_num⟩).symm

end Verif.Decimal.Props
