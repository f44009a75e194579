/-!
Outcomes of modelled functions: a value, an exception (`throw`, `abort` with a message) or undefined behaviour.
-/

namespace Verif

/-- How a C++ function can fail to return a value. -/
inductive Fail where
  /-- a C++ exception -/
  | exc
  /-- undefined behaviour (out-of-range access, division by zero, uninitialised read, …) -/
  | ub
deriving DecidableEq, Repr

/-- Result of a modelled function. -/
abbrev Res (α : Type) := Except Fail α

/-- `v[i]` of a `std::vector`: out of range is undefined behaviour. -/
def idx {α : Type} (l : List α) (i : Nat) : Res α :=
  match l[i]? with
  | some x => .ok x
  | none => .error .ub

/-- `.at(i)` of a `std::vector`: out of range is an exception. -/
def atIdx {α : Type} (l : List α) (i : Nat) : Res α :=
  match l[i]? with
  | some x => .ok x
  | none => .error .exc

/-- `.at(k)` of a map: a missing key is an exception. -/
def atKey {α β : Type} [BEq α] (m : List (α × β)) (k : α) : Res β :=
  match m.lookup k with
  | some x => .ok x
  | none => .error .exc


end Verif
