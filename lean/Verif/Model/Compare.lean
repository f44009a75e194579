import Verif.Model.Text
import Mathlib.Data.Rat.Defs
import Mathlib.Algebra.Order.Field.Rat
import Mathlib.Algebra.Order.Group.Abs

/-!
# The script that compares the errors of two runs

`scripts/correctness/compare_l2_errors.py`, the last step of `test_swe_parallel_correctness.sh` (line 81) and of `test_rkdg_parallel_weirs.sh` (line 82).

Simplifications: doubles are exact numbers, so `np.float64` gives the number written; of the output of the script only its exit code is modelled.
-/

namespace Verif.Compare
open Verif.Text

/-- The letters of the pattern before the number, line 9. -/
def label : List Char := "L2 error: ".toList

/-- `[+-]?`. -/
def sign : List Char → List Char
  | [] => []
  | c :: s => if c = '+' ∨ c = '-' then s else c :: s

/-- `(\.\d*)?` -/
def frac : List Char → List Char
  | [] => []
  | c :: s => if c = '.' then c :: s.takeWhile isDig else []

/-- `\d+(\.\d*)?|\.\d+`, line 9: the letters in the first group. -/
def group1 (s : List Char) : Option (List Char) :=
  if s.takeWhile isDig ≠ [] then some (s.takeWhile isDig ++ frac (s.dropWhile isDig))
  else if 2 ≤ (frac s).length then some (frac s) else none

/-- The pattern at one place; what follows the first group is optional. -/
def here (s : List Char) : Option (List Char) :=
  if label <+: s then group1 (sign (s.drop label.length)) else none

/-- `re.search`, line 18: the first place. -/
def search : List Char → Option (List Char)
  | [] => here []
  | c :: s => (here (c :: s)).or (search s)

/-- The number of a list of digits. -/
def digits (s : List Char) : ℚ := (s.foldl (fun a c => 10 * a + (c.toNat - 48)) 0 : ℕ)

/-- `np.float64(match.group(1))`, line 22: the number written by digits with at most one point. -/
def value (s : List Char) : ℚ :=
  digits (s.takeWhile isDig) + digits (s.dropWhile isDig).tail / 10 ^ (s.dropWhile isDig).tail.length

/-- Lines 16-22: the last line with an error counts; `none`: there is none. -/
def errorOf (lines : List (List Char)) : Option ℚ :=
  lines.foldl (fun e l => ((search l).map value).or e) none

/-- `np.finfo(np.float64).eps`. -/
def eps : ℚ := 1 / 2 ^ 52

/-- Lines 24-39: whether the exit code is 0. -/
def accepts (serial ompi : List (List Char)) : Bool :=
  match errorOf serial, errorOf ompi with
  | some a, some b => decide (|a - b| < eps * max a b * 100)
  | _, _ => false

end Verif.Compare
