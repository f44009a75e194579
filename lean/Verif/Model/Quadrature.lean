import Verif.Model.QuadTables

/-!
# Quadrature rules

Models `GetRule` and `GetNumGP` of `source/integration/integrations_1D/integration_gausslegendre_1D.cpp` and
`source/integration/integrations_2D/integration_dunavant_2D.cpp`.

Here doubles are modelled as they are stored: a double is an integer in units of 2^-80, literals and results of arithmetic are rounded to
53 significant bits, ties to even. All numbers of the tables have magnitude at least 2^-27 or are zero, so that the unit is fine enough.
-/

namespace Verif.Quadrature

/-- The double nearest to num / den, in units of 2^-80. -/
def rndNat (num den : Nat) : Nat :=
  let q := num * 2 ^ 80 / den
  let s := Nat.log2 q + 1 - 53
  let d := den * 2 ^ s
  let m := num * 2 ^ 80 / d
  let r := num * 2 ^ 80 % d
  (if 2 * r > d || (2 * r == d && m % 2 == 1) then m + 1 else m) * 2 ^ s

/-- Rounding with sign. -/
def rnd (num : Int) (den : Nat) : Int :=
  match num with
  | .ofNat a => .ofNat (rndNat a den)
  | .negSucc a => -.ofNat (rndNat (a + 1) den)

/-- Rounding of an exact result given in units of 2^-80. -/
def fl (n : Int) : Int := rnd n (2 ^ 80)

/-- One in units of 2^-80. -/
def one : Int := 2 ^ 80

/-- `integration_gausslegendre_1D.cpp` lines 28-30 (`GetNumGP`): ceil((p + 1) / 2). -/
def numGP1 (p : Nat) : Nat := (p + 2) / 2

/-- Lines 4-26 (`GetRule`): weights and points; `none` if the program stops with an error. -/
def rule1 (p : Nat) : Option (List (Int × Int)) :=
  if p > 65 then none else some ((gaussData (numGP1 p)).map fun wx => (rnd wx.1 (10 ^ 31), rnd wx.2 (10 ^ 31)))

/-- `integration_dunavant_2D.cpp` lines 78-124 (`GetNumGP`). -/
def numGP2 (p : Nat) : Nat := [1, 1, 3, 4, 6, 7, 12, 13, 16, 19, 25, 27, 33, 37, 42, 48, 52, 61, 70, 73, 79].getD p 0

/-- Lines 33-70: the points of one orbit: weight, z1, z2. -/
def orbit (perm : Nat) (d : Int × Int × Int × Int) : List (Int × Int × Int) :=
  let w := fl (2 * rnd d.1 (10 ^ 15))
  let z (l : Int) : Int := fl (fl (2 * rnd l (10 ^ 15)) - one)
  let z0 := z d.2.1
  let z1 := z d.2.2.1
  let z2 := z d.2.2.2
  if perm = 1 then [(w, z0, z1)]
  else if perm = 3 then [(w, z0, z1), (w, z1, z2), (w, z2, z0)]
  else if perm = 6 then [(w, z0, z1), (w, z1, z2), (w, z2, z0), (w, z1, z0), (w, z2, z1), (w, z0, z2)]
  else []

/-- Lines 4-76 (`GetRule`). -/
def rule2 (p : Nat) : Option (List (Int × Int × Int)) :=
  if p > 20 then none
  else if (permData p).length ≠ (orbitData p).length then none
  else some (((permData p).zip (orbitData p)).flatMap fun x => orbit x.1 x.2)

end Verif.Quadrature
