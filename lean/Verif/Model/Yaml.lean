import Verif.Model.Basic
import Mathlib.Data.Nat.Notation

/-!
# YAML nodes

The part of the interface of yaml-cpp that `source/preprocessor/input_parameters.hpp` and `source/problem/SWE/problem_input/swe_inputs.cpp` use.

Simplifications: sequences do not occur; a node is null, a scalar (its text) or a map (pairs in the order of the file). Converting text to numbers
and back is a parameter. Text of a whole file is not modelled: a file is its root node.
-/

namespace Verif.Input

/-- A node. -/
inductive Yaml where
  | null
  | scalar (text : String)
  | map (entries : List (String × Yaml))

/-- Conversions between text and values of type `V` (double), unsigned integers and booleans. `nullText` is what a null node gives as a string:
an exception or a text, depending on the version of the library. -/
structure Scalars (V : Type) where
  toDouble : String → Option V
  ofDouble : V → String
  toUint : String → Option ℕ
  ofUint : ℕ → String
  toBool : String → Option Bool
  ofBool : Bool → String
  nullText : Option String

/-- `node[key]` tested for being defined, of a node that is not `const`: null counts as an empty map, a scalar throws. -/
def Yaml.get (n : Yaml) (k : String) : Res (Option Yaml) :=
  match n with
  | .null => .ok none
  | .scalar _ => .error .exc
  | .map l => .ok (l.lookup k)

/-- `node[key]` where the key is known to be there. -/
def Yaml.at (n : Yaml) (k : String) : Res Yaml :=
  match n.get k with
  | .ok (some y) => .ok y
  | .ok none => .error .exc
  | .error e => .error e

/-- `node[k1] && node[k2] && …`. -/
def Yaml.hasAll (n : Yaml) : List String → Res Bool
  | [] => .ok true
  | k :: ks => do
    match ← n.get k with
    | none => return false
    | some _ => n.hasAll ks

def orThrow {α : Type} : Option α → Res α
  | some x => .ok x
  | none => .error .exc

/-- `as<std::string>()`. -/
def Yaml.asString {V : Type} (S : Scalars V) : Yaml → Res String
  | .null => orThrow S.nullText
  | .scalar s => .ok s
  | .map _ => .error .exc

/-- `as<double>()`. -/
def Yaml.asDouble {V : Type} (S : Scalars V) : Yaml → Res V
  | .scalar s => orThrow (S.toDouble s)
  | _ => .error .exc

/-- `as<uint>()`. -/
def Yaml.asUint {V : Type} (S : Scalars V) : Yaml → Res ℕ
  | .scalar s => orThrow (S.toUint s)
  | _ => .error .exc

/-- `as<bool>()`. -/
def Yaml.asBool {V : Type} (S : Scalars V) : Yaml → Res Bool
  | .scalar s => orThrow (S.toBool s)
  | _ => .error .exc

def Yaml.isNull : Yaml → Bool
  | .null => true
  | _ => false

/-- `node[key].as<double>()`. -/
def Yaml.doubleAt {V : Type} (S : Scalars V) (n : Yaml) (k : String) : Res V := do (← n.at k).asDouble S

/-- `node[key].as<std::string>()`. -/
def Yaml.stringAt {V : Type} (S : Scalars V) (n : Yaml) (k : String) : Res String := do (← n.at k).asString S

/-- `node[key].as<uint>()`. -/
def Yaml.uintAt {V : Type} (S : Scalars V) (n : Yaml) (k : String) : Res ℕ := do (← n.at k).asUint S

/-- `node[key].as<bool>()`. -/
def Yaml.boolAt {V : Type} (S : Scalars V) (n : Yaml) (k : String) : Res Bool := do (← n.at k).asBool S

/-- An entry that is written only in some cases. -/
def entryOf (k : String) : Option Yaml → List (String × Yaml)
  | some y => [(k, y)]
  | none => []

end Verif.Input
