import Verif.Model.Basic
import Verif.Model.SweFlux
import Verif.Model.Geometry
import Mathlib.Data.Nat.Notation
import Mathlib.Logic.Function.Basic

/-!
# Boundary condition files

Models `source/problem/SWE/problem_input/swe_inputs.cpp` lines 212-313 (`read_bcis`), the data of `swe_inputs.hpp` lines 24-83, the search for data
in `problem_preprocessor/swe_pre_create_bound.hpp` lines 41-54 and 77-90 and `swe_pre_create_intface.hpp` lines 56-77, and the constructors and
`Initialize` of `discretization_RKDG/boundary_conditions/rkdg_swe_bc_tide.hpp` and `rkdg_swe_bc_flow.hpp` (lines 32-71, which are the same apart
from names) and of `interface_specializations/rkdg_swe_is_levee.hpp` lines 35-60.

Simplifications: a file is a list of lines, a line a list of tokens; a token is the text of an unsigned integer (then it is also that of a number),
of a number, or of something else. Reading something else where a number is expected is outside the model (reported as undefined behaviour).
Extraction from an exhausted line leaves the variable as it was; an uninitialised variable is `none`, and using it is undefined behaviour.
Tide and flow data are the same type. A `std::map` is a function to `Option`.
-/

namespace Verif.Bcis

variable {K : Type}

/-- A word of a line. -/
structure Tok (K : Type) where
  nat : Option ℕ
  num : Option K

/-- `std::ifstream` and the string `line`; `nl` says whether the file ends with a newline. -/
structure Src (K : Type) where
  rest : List (List (Tok K))
  line : List (Tok K)
  eof : Bool
  nl : Bool

/-- `std::getline(file, line)`: at the end of the file the string is emptied, unless the end had been seen before. -/
def getline (s : Src K) : Src K × Bool :=
  match s.rest with
  | l :: r => ({ s with rest := r, line := l, eof := r.isEmpty && !s.nl }, true)
  | [] => if s.eof then (s, false) else ({ s with line := [], eof := true }, false)

/-- `stream >> n` of an unsigned integer. -/
def takeNat (l : List (Tok K)) (old : Option ℕ) : Res (Option ℕ × List (Tok K)) :=
  match l with
  | [] => .ok (old, [])
  | t :: r => match t.nat with
    | some n => .ok (some n, r)
    | none => .error .ub

/-- `stream >> x` of a double. -/
def takeNum (l : List (Tok K)) (old : Option K) : Res (Option K × List (Tok K)) :=
  match l with
  | [] => .ok (old, [])
  | t :: r => match t.num with
    | some x => .ok (some x, r)
    | none => .error .ub

/-- Using a variable. -/
def use {α : Type} : Option α → Res α
  | some x => .ok x
  | none => .error .ub

/-- `TideNode`, `FlowNode`. -/
structure NodeData (K : Type) where
  frequency : List K
  forcing : List K
  equilibrium : List K
  amplitude : List K
  phase : List K
deriving DecidableEq, Repr

/-- A node without data, as `std::map::operator[]` creates it. -/
def NodeData.empty : NodeData K := ⟨[], [], [], [], []⟩

/-- `tide_nodes`, `flow_nodes`. -/
abbrev Nodes (K : Type) := ℕ → Option (NodeData K)

/-- `LeveeInput`. -/
structure LeveeData (K : Type) where
  barrier : K
  sub : K
  super : K
deriving DecidableEq, Repr

/-- The data of `Inputs` that are read. -/
structure Data (K : Type) where
  tide : List (Nodes K)
  flow : List (Nodes K)
  levee : ℕ × ℕ → Option (LeveeData K)

/-- The local variables of a tide or flow section. -/
structure Vars (K : Type) where
  freq : Option K
  fact : Option K
  eq : Option K
  node : Option ℕ
  amp : Option K
  phase : Option K

/-- Lines 251-258: append to the data of a node. -/
def addRow (m : Nodes K) (f ff eq : K) (node : ℕ) (amp ph : K) : Nodes K :=
  let d := (m node).getD .empty
  Function.update m node (some ⟨d.frequency ++ [f], d.forcing ++ [ff], d.equilibrium ++ [eq], d.amplitude ++ [amp], d.phase ++ [ph]⟩)

/-- Lines 246-258. -/
def readRow (s : Src K) (v : Vars K) (m : Nodes K) : Res (Src K × Vars K × Nodes K) := do
  let s := (getline s).1
  let (node, l) ← takeNat s.line v.node
  let (amp, l) ← takeNum l v.amp
  let (ph, _) ← takeNum l v.phase
  let m' := addRow m (← use v.freq) (← use v.fact) (← use v.eq) (← use node) (← use amp) (← use ph)
  return (s, { v with node := node, amp := amp, phase := ph }, m')

/-- Lines 245-259. -/
def readRows : ℕ → Src K → Vars K → Nodes K → Res (Src K × Vars K × Nodes K)
  | 0, s, v, m => .ok (s, v, m)
  | n + 1, s, v, m => do
    let (s, v, m) ← readRow s v m
    readRows n s v m

/-- Lines 240-243. -/
def readConHead (s : Src K) (v : Vars K) : Res (Src K × Vars K) := do
  let s := (getline s).1
  let (f, l) ← takeNum s.line v.freq
  let (ff, l) ← takeNum l v.fact
  let (eq, _) ← takeNum l v.eq
  return (s, { v with freq := f, fact := ff, eq := eq })

/-- Lines 239-260. -/
def readCons (nnodes : ℕ) : ℕ → Src K → Vars K → Nodes K → Res (Src K × Nodes K)
  | 0, s, _, m => .ok (s, m)
  | n + 1, s, v, m => do
    let (s, v) ← readConHead s v
    let (s, v, m) ← readRows nnodes s v m
    readCons nnodes n s v m

/-- Lines 229-260 for tide, 264-295 for flow. -/
def readForcing (nnodes : ℕ) (s : Src K) : Res (Src K × Nodes K) := do
  let s := (getline s).1
  let (ncon, _) ← takeNat s.line none
  readCons nnodes (← use ncon) s ⟨none, none, none, none, none, none⟩ fun _ => none

/-- Lines 302-309; the coefficients are new variables for each line, the nodes are not. -/
def readLevees : ℕ → Src K → Option ℕ → Option ℕ → (ℕ × ℕ → Option (LeveeData K)) → Res (Src K × (ℕ × ℕ → Option (LeveeData K)))
  | 0, s, _, _, m => .ok (s, m)
  | n + 1, s, front, back, m => do
    let s := (getline s).1
    let (front, l) ← takeNat s.line front
    let (back, l) ← takeNat l back
    let (h, l) ← takeNum l none
    let (c1, l) ← takeNum l none
    let (c2, _) ← takeNum l none
    let key := (← use front, ← use back)
    let d := ⟨← use h, ← use c1, ← use c2⟩
    readLevees n s front back (Function.update m key (some d))

/-- Lines 228-311: one section. -/
def readSection (btype nnodes : ℕ) (s : Src K) (d : Data K) : Res (Src K × Data K) :=
  if btype = 1 then do
    let (s, m) ← readForcing nnodes s
    return (s, { d with tide := d.tide ++ [m] })
  else if btype = 2 then do
    let (s, m) ← readForcing nnodes s
    return (s, { d with flow := d.flow ++ [m] })
  else if btype = 129 then do
    let (s, m) ← readLevees nnodes s none none d.levee
    return (s, { d with levee := m })
  else .ok (s, d)

/-- The number of nodes is only used by some sections. -/
def nodesUsed (btype : ℕ) (nnodes : Option ℕ) : Res ℕ :=
  if btype = 1 ∨ btype = 2 ∨ btype = 129 then use nnodes else .ok 0

/-- Lines 224-312; every pass of the loop takes a line, so `fuel` larger than the number of lines is enough. -/
def readLoop : ℕ → Src K → Option ℕ → Option ℕ → Data K → Res (Data K)
  | 0, _, _, _, d => .ok d
  | fuel + 1, s, btype, nnodes, d =>
    match getline s with
    | (_, false) => .ok d
    | (s, true) => do
      let (btype, l) ← takeNat s.line btype
      let (nnodes, _) ← takeNat l nnodes
      let bt ← use btype
      let (s, d) ← readSection bt (← nodesUsed bt nnodes) s d
      readLoop fuel s btype nnodes d

/-- `read_bcis` into empty data. -/
def readBcis (nl : Bool) (file : List (List (Tok K))) : Res (Data K) :=
  readLoop (file.length + 1) ⟨file, [], false, nl⟩ none none ⟨[], [], fun _ => none⟩

/-! ### Use of the data -/

/-- `get_tide_data`, `get_flow_data`: all nodes or nothing. -/
def getData (m : Nodes K) (ids : List ℕ) : Option (List (NodeData K)) := if ids.all fun n => (m n).isSome then ids.mapM m else none

/-- `swe_pre_create_bound.hpp` lines 41-54, 77-90: the first boundary with data of all nodes. -/
def findData (bs : List (Nodes K)) (ids : List ℕ) : Res (List (NodeData K)) :=
  match bs.findSome? fun m => getData m ids with
  | some l => .ok l
  | none => .error .exc

/-- `swe_pre_create_intface.hpp` lines 58-77: data of one pair of nodes. -/
def findLevee (m : ℕ × ℕ → Option (LeveeData K)) (front back : ℕ) : Res (LeveeData K) :=
  match m (front, back) with
  | some d => .ok d
  | none => match m (back, front) with
    | some d => .ok d
    | none => .error .exc

/-- The loop over the nodes of a levee; `front` and `back` are the nodes of the interior and of the exterior side. -/
def findLevees (m : ℕ × ℕ → Option (LeveeData K)) (front back : List ℕ) : Res (List (LeveeData K)) :=
  (List.range front.length).mapM fun n => do findLevee m (← idx front n) (← idx back (front.length - n - 1))

/-- `Tide::Tide`, `Flow::Flow`: rows of amplitudes and phases, by constituent. -/
structure Forcing (K : Type) where
  frequency : List K
  forcing : List K
  equilibrium : List K
  amplitude : List (List K)
  phase : List (List K)
deriving DecidableEq, Repr

def mkForcing (l : List (NodeData K)) : Res (Forcing K) := do
  let h ← idx l 0
  let n := h.frequency.length
  let amp ← (List.range n).mapM fun c => l.mapM fun d => idx d.amplitude c
  let ph ← (List.range n).mapM fun c => l.mapM fun d => idx d.phase c
  return ⟨h.frequency, h.forcing, h.equilibrium, amp, ph⟩

section
open Verif.Geometry Verif.Swe
variable [Field K]

/-- `boundary.hpp` lines 167-173 (`ComputeBoundaryNodalUgp`) at one Gauss point: values at the two nodes of a face, weighted. A row of another length
does not fit the matrix. -/
def nodalAt (u : List K) (z : K) : Res K :=
  match u with
  | [a, b] => .ok (a * boundaryPsi 0 z + b * boundaryPsi 1 z)
  | _ => .error .ub

/-- `Initialize`, and the constituents used in `ComputeFlux` at one Gauss point. -/
def Forcing.atGp (f : Forcing K) (z : K) : Res (List (Constituent K)) :=
  (List.range f.frequency.length).mapM fun c => do
    let a ← nodalAt (← idx f.amplitude c) z
    let p ← nodalAt (← idx f.phase c) z
    return ⟨← idx f.frequency c, ← idx f.forcing c, ← idx f.equilibrium c, a, p⟩

/-- `Levee::Levee` and `Initialize` at one Gauss point. -/
def leveeAtGp (l : List (LeveeData K)) (z : K) : Res (LeveeGp K) := do
  return ⟨← nodalAt (l.map (·.barrier)) z, ← nodalAt (l.map (·.sub)) z, ← nodalAt (l.map (·.super)) z⟩

end

end Verif.Bcis
