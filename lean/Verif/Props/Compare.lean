import Verif.Model.Compare
import Verif.Lemmas.Text
import Mathlib.Algebra.Order.Field.Basic
import Mathlib.Tactic.Linarith
import Mathlib.Tactic.Positivity
import Mathlib.Tactic.NormNum

/-!
# The comparison of serial and parallel errors (C130)
-/

namespace Verif.Compare.Props
open Verif.Text Verif.Compare

/-- A nonnegative number as printed by a stream with `setprecision`: digits, perhaps a point and more digits, perhaps a power of ten. -/
structure Printed where
  whole : List Char
  fraction : Option (List Char)
  power : Option (Bool × List Char)
  whole_ne : whole ≠ []
  whole_dig : ∀ c ∈ whole, isDig c = true
  frac_dig : ∀ f ∈ fraction, ∀ c ∈ f, isDig c = true

/-- The part before the power. -/
def Printed.front (n : Printed) : List Char := n.whole ++ (match n.fraction with | none => [] | some f => '.' :: f)

/-- The power, as `e-07` or `e+20`. -/
def Printed.back (n : Printed) : List Char :=
  match n.power with
  | none => []
  | some (neg, d) => 'e' :: (if neg then '-' else '+') :: d

/-- The number before the power. -/
def Printed.mantissa (n : Printed) : ℚ :=
  digits n.whole + (match n.fraction with | none => 0 | some f => digits f / 10 ^ f.length)

/-- The number. -/
def Printed.number (n : Printed) : ℚ :=
  match n.power with
  | none => n.mantissa
  | some (neg, d) => if neg then n.mantissa / 10 ^ (digits d).num.toNat else n.mantissa * 10 ^ (digits d).num.toNat

/-- `simulation.hpp` line 91, `simulation_ompi.hpp` line 112: the line of the error. -/
def Printed.line (n : Printed) : List Char := label ++ (n.front ++ n.back)

/-- An output with the error `n`: what follows does not look like an error. -/
def Reports (out : List (List Char)) (n : Printed) : Prop :=
  ∃ before after, out = before ++ n.line :: after ∧ ∀ l ∈ after, search l = none

theorem tail_ends (n : Printed) : Ends ((match n.fraction with | none => [] | some f => '.' :: f) ++ n.back) := by
  cases h : n.fraction with
  | none =>
    simp only [List.nil_append]
    unfold Printed.back
    cases n.power with
    | none => exact ends_nil
    | some p => exact ends_cons (by decide)
  | some f => exact ends_cons (by decide)

theorem back_ends (n : Printed) : Ends n.back := by
  unfold Printed.back
  cases n.power with
  | none => exact ends_nil
  | some p => exact ends_cons (by decide)

theorem group1_front (n : Printed) : group1 (n.front ++ n.back) = some n.front := by
  have hd := ends_dropWhile (tail_ends n)
  have e : n.front ++ n.back = n.whole ++ ((match n.fraction with | none => [] | some f => '.' :: f) ++ n.back) := by
    unfold Printed.front; rw [List.append_assoc]
  unfold group1
  rw [e, takeWhile_all n.whole_dig, dropWhile_all n.whole_dig, hd.1, hd.2, List.append_nil, if_pos n.whole_ne]
  congr 1
  unfold Printed.front
  congr 1
  cases h : n.fraction with
  | none =>
    simp only [List.nil_append]
    unfold Printed.back
    cases n.power with
    | none => rfl
    | some p => rfl
  | some f =>
    simp only [List.cons_append, frac, if_true]
    rw [takeWhile_all (n.frac_dig f (by rw [h]; rfl)), (ends_dropWhile (back_ends n)).2, List.append_nil]

theorem sign_front (n : Printed) : sign (n.front ++ n.back) = n.front ++ n.back := by
  unfold Printed.front
  obtain ⟨c, t, hc⟩ := List.exists_cons_of_ne_nil n.whole_ne
  rw [hc]
  simp only [List.cons_append, sign]
  rw [if_neg]
  have := n.whole_dig c (by rw [hc]; exact List.mem_cons_self)
  rintro (rfl | rfl) <;> exact absurd this (by decide)

theorem search_line (n : Printed) : search n.line = some n.front := by
  have h : here n.line = some n.front := by
    unfold here Printed.line
    rw [if_pos (List.prefix_append _ _), List.drop_left, sign_front, group1_front]
  have hl : n.line ≠ [] := by
    unfold Printed.line label
    exact fun h => absurd (congrArg List.length h) (by simp)
  obtain ⟨c, t, hc⟩ := List.exists_cons_of_ne_nil hl
  rw [hc] at h ⊢
  rw [search, h, Option.some_or]

theorem value_front (n : Printed) : value n.front = n.mantissa := by
  unfold value Printed.front Printed.mantissa
  cases h : n.fraction with
  | none =>
    simp only [List.append_nil]
    have e1 := takeWhile_all n.whole_dig []
    have e2 := dropWhile_all n.whole_dig []
    simp only [List.append_nil, List.takeWhile_nil, List.dropWhile_nil] at e1 e2
    rw [e1, e2]
    simp [digits]
  | some f =>
    have hd := ends_dropWhile (r := '.' :: f) (ends_cons (by decide))
    simp only
    rw [takeWhile_all n.whole_dig, dropWhile_all n.whole_dig, hd.1, hd.2, List.append_nil, List.tail_cons]

theorem errorOf_reports {out : List (List Char)} {n : Printed} (h : Reports out n) : errorOf out = some n.mantissa := by
  obtain ⟨before, after, rfl, ha⟩ := h
  unfold errorOf
  rw [List.foldl_append, List.foldl_cons, search_line, Option.map_some, Option.some_or, value_front]
  have : ∀ (l : List (List Char)) (e : Option ℚ), (∀ x ∈ l, search x = none) →
      l.foldl (fun e x => ((search x).map value).or e) e = e := by
    intro l
    induction l with
    | nil => intro e _; rfl
    | cons x l ih =>
      intro e hx
      rw [List.foldl_cons, hx x List.mem_cons_self, Option.map_none, Option.none_or]
      exact ih e fun y hy => hx y (List.mem_cons_of_mem _ hy)
  exact this after _ ha

/-- What the script decides: it compares what stands before the powers of ten. -/
theorem accepts_mantissas {s o : List (List Char)} {n m : Printed} (hs : Reports s n) (ho : Reports o m) :
    accepts s o = true ↔ |n.mantissa - m.mantissa| < 100 * eps * max n.mantissa m.mantissa := by
  unfold accepts
  rw [errorOf_reports hs, errorOf_reports ho]
  simp only [decide_eq_true_eq]
  rw [show eps * max n.mantissa m.mantissa * 100 = 100 * eps * max n.mantissa m.mantissa by ring]

/-- C130, where errors are printed without power of ten, or with the same: the script accepts two runs exactly if their errors agree up to a hundred roundings. -/
theorem compare_partial {s o : List (List Char)} {n m : Printed} (hs : Reports s n) (ho : Reports o m) (hp : n.power = m.power) :
    accepts s o = true ↔ |n.number - m.number| < 100 * eps * max n.number m.number := by
  rw [accepts_mantissas hs ho]
  unfold Printed.number
  rw [← hp]
  cases n.power with
  | none => rfl
  | some p =>
    obtain ⟨neg, d⟩ := p
    simp only
    have h10 : (0 : ℚ) < 10 ^ (digits d).num.toNat := by positivity
    generalize (10 : ℚ) ^ (digits d).num.toNat = c at h10
    cases neg
    · simp only [Bool.false_eq_true, if_false]
      rw [← sub_mul, abs_mul, abs_of_pos h10, ← max_mul_of_nonneg _ _ h10.le, ← mul_assoc, mul_lt_mul_iff_left₀ h10]
    · simp only [if_true]
      rw [← sub_div, abs_div, abs_of_pos h10, max_div_div_right h10.le, ← mul_div_assoc, div_lt_div_iff_of_pos_right h10]

/-- Without an error in the output of both runs it does not accept. -/
theorem needs_errors {s o : List (List Char)} (h : (∀ l ∈ s, search l = none) ∨ ∀ l ∈ o, search l = none) : accepts s o = false := by
  have : ∀ (l : List (List Char)), (∀ x ∈ l, search x = none) → errorOf l = none := by
    intro l
    unfold errorOf
    induction l with
    | nil => intro _; rfl
    | cons x l ih =>
      intro hx
      rw [List.foldl_cons, hx x List.mem_cons_self, Option.map_none, Option.none_or]
      exact ih fun y hy => hx y (List.mem_cons_of_mem _ hy)
  unfold accepts
  rcases h with h | h
  · rw [this _ h]
  · rw [this _ h]
    cases errorOf s <;> rfl

/-- `1.5e-05`, an error of a fine mesh. -/
def small : Printed := ⟨['1'], some ['5'], some (true, ['0', '5']), by decide, by decide, by decide⟩

/-- `1.5e+20`, the error of a run gone wrong. -/
def huge : Printed := ⟨['1'], some ['5'], some (false, ['2', '0']), by decide, by decide, by decide⟩

/-- `0`. -/
def none' : Printed := ⟨['0'], none, none, by decide, by decide, by decide⟩

example : small.line = "L2 error: 1.5e-05".toList ∧ huge.line = "L2 error: 1.5e+20".toList ∧ none'.line = "L2 error: 0".toList := by decide +kernel

theorem reports_one (n : Printed) : Reports [n.line] n := ⟨[], [], rfl, by simp⟩

/-- C130 is false of the script: it accepts a parallel run with an error of `1.5e+20` beside a serial run with an error of `1.5e-05`. -/
theorem power_dropped : Reports [small.line] small ∧ Reports [huge.line] huge ∧ accepts [small.line] [huge.line] = true ∧
    ¬ |small.number - huge.number| < 100 * eps * max small.number huge.number := by
  refine ⟨reports_one _, reports_one _, by decide +kernel, by decide +kernel⟩

/-- And it rejects two runs without any error, though they agree. -/
theorem zero_rejected : accepts [none'.line] [none'.line] = false := by decide +kernel

/-- The same error in both runs is accepted. -/
example : accepts ["Starting".toList, small.line, "done".toList] [small.line] = true := by decide +kernel

end Verif.Compare.Props
