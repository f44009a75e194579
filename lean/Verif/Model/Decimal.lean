import Mathlib.Data.Int.Log
import Mathlib.Data.Rat.Floor
import Mathlib.Algebra.Order.Field.Rat
import Verif.Model.Text

/-!
# Doubles in text files

What `operator<<` of a stream with `std::setprecision(15)` and `operator>>` do with doubles: `mesh_metadata.hpp` lines 11-18, `adcirc_format.cpp` line 161,
`simulation.hpp` line 91, `simulation_ompi.hpp` line 112. The stream prints as `printf` does with `%.15g` and reads as `strtod` does.

Simplifications: exponents of doubles are not limited, there are no infinities, NaN and signed zeros; how ties of rounding go is left open (`near`).
-/

namespace Verif.Decimal
open Verif Verif.Util Verif.Text

/-- Rounding to a whole number; how ties go is left open. -/
def Nearest (near : ℚ → ℤ) : Prop := ∀ x, |(near x : ℚ) - x| ≤ 1 / 2

/-- The value of a unit of the last of `p` places of `x` after the first in base `b`. -/
def unit (b : ℕ) (p : ℤ) (x : ℚ) : ℚ := (b : ℚ) ^ (Int.log b |x| - p)

/-- `x` rounded to `p + 1` places in base `b`. -/
def round (near : ℚ → ℤ) (b : ℕ) (p : ℤ) (x : ℚ) : ℚ := near (x / unit b p x) * unit b p x

/-- The double nearest to a number. -/
def toDouble (near : ℚ → ℤ) : ℚ → ℚ := round near 2 52

/-- The number printed with `setprecision(15)`. -/
def toDigits (near : ℚ → ℤ) : ℚ → ℚ := round near 10 14

/-- `%.15g` removes zeros at the end. -/
def strip (s : List Char) : List Char := (s.reverse.dropWhile (· == '0')).reverse

/-- Digits before and after the point, which is left out if nothing follows. -/
def joined (A F : List Char) : List Char := A ++ if F = [] then [] else '.' :: F

/-- The power of ten, with two digits at least. -/
def expo (E : ℤ) : List Char :=
  'e' :: (if E < 0 then '-' else '+') :: (if E.natAbs < 10 then '0' :: dec E.natAbs else dec E.natAbs)

/-- A positive number of fifteen digits: with a power of ten if it is smaller than 0.0001 or not smaller than 10 ^ 15. -/
def body (r : ℚ) : List Char :=
  let E := Int.log 10 r
  let s := strip (dec (r / 10 ^ (E - 14)).floor.toNat)
  if -4 ≤ E ∧ E < 15 then
    if E < 0 then joined ['0'] (List.replicate (-E - 1).toNat '0' ++ s)
    else joined (s.take (E + 1).toNat ++ List.replicate ((E + 1).toNat - s.length) '0') (s.drop (E + 1).toNat)
  else joined (s.take 1) (s.drop 1) ++ expo E

/-- `s << std::setprecision(15) << x`. -/
def printDouble (near : ℚ → ℤ) (x : ℚ) : List Char :=
  let r := toDigits near x
  if r = 0 then ['0'] else (if r < 0 then ['-'] else []) ++ body |r|

/-- A sign: is it negative, and the rest. -/
def takeSign : List Char → Bool × List Char
  | [] => (false, [])
  | c :: s => if c = '-' then (true, s) else if c = '+' then (false, s) else (false, c :: s)

/-- A point and digits, and the rest. -/
def takeFrac : List Char → List Char × List Char
  | [] => ([], [])
  | c :: s => if c = '.' then (s.takeWhile isDig, s.dropWhile isDig) else ([], c :: s)

/-- The number of a list of digits. -/
def val (s : List Char) : ℕ := s.foldl (fun a c => 10 * a + (c.toNat - 48)) 0

/-- The power of ten at the end of a number. -/
def takeExp : List Char → Option ℤ
  | [] => some 0
  | c :: s =>
    if c = 'e' ∨ c = 'E' then
      let t := takeSign s
      if t.2 = [] ∨ ¬ t.2.all isDig then none else some (if t.1 then -(val t.2 : ℤ) else val t.2)
    else none

/-- The number written in a word (`strtod`). -/
def written (w : List Char) : Option ℚ :=
  let t := takeSign w
  let A := t.2.takeWhile isDig
  let u := takeFrac (t.2.dropWhile isDig)
  if A ++ u.1 = [] then none
  else (takeExp u.2).map fun x : ℤ => (if t.1 then -1 else 1) * ((val (A ++ u.1) : ℚ) * 10 ^ (x - (u.1.length : ℤ)))

/-- The double read from a word. -/
def readDouble (near : ℚ → ℤ) (w : List Char) : Option ℚ := (written w).map (toDouble near)

/-- The printer and the parser. -/
def codec (near near' : ℚ → ℤ) : Codec ℚ := ⟨printDouble near, readDouble near'⟩

end Verif.Decimal
