import Verif.Model.Basic
import Verif.Model.Util
import Verif.Model.Adcirc
import Verif.Model.MeshMeta
import Verif.Model.Comm

/-!
# From mesh metadata to interfaces and boundaries

Models `source/preprocessor/initialize_mesh.hpp` lines 55-76, `source/geometry/element.hpp` lines 273-297,
`source/problem/SWE/problem_preprocessor/swe_pre_create_{intface,bound,dbound}.hpp` for the shallow water problem.

Simplifications: a raw boundary is the pair of element and face with its end nodes (polynomial order, basis and shape references
are functions of the element); the outer map (boundary type ↦ inner map) is given by the list of all insertions, the inner maps are
lists sorted by key; the specialisation objects are represented by the boundary data they get.
-/

namespace Verif.Assemble
open Verif Verif.Util Verif.MeshMeta

/-- Key of a raw boundary. -/
abbrev Key := ℕ × ℕ

/-- `geometry/raw_boundary.hpp`: element, `bound_id`, `node_ID`. -/
structure Raw where
  elem : ℕ
  face : ℕ
  nodes : List ℕ
deriving DecidableEq, Repr

/-- `operator<` of `std::pair<uint, uint>`. -/
def keyLt (a b : Key) : Bool := decide (a.1 < b.1) || (decide (a.1 = b.1) && decide (a.2 < b.2))

/-- `std::map::emplace`: keeps the order, does nothing if the key is present. -/
def emplace {α : Type} (k : Key) (v : α) : List (Key × α) → List (Key × α)
  | [] => [(k, v)]
  | x :: xs => if keyLt k x.1 then (k, v) :: x :: xs else if k = x.1 then x :: xs else x :: emplace k v xs

/-- `shape_straighttriangle.cpp` lines 14-21 (`GetBoundaryNodeID`). -/
def boundaryNodes (nodes : List ℕ) (bound : ℕ) : Res (List ℕ) := do
  let a ← idx nodes ((bound + 1) % 3)
  let b ← idx nodes ((bound + 2) % 3)
  pure [a, b]

/-- `element.hpp` lines 285-295: the key under which a face is stored. -/
def faceKey (id : ℕ) (e : Elt) (bound : ℕ) (t : ℕ) : Res Key :=
  if isInternal t then do
    let nb ← idx e.nbr bound
    pure (id, nb)
  else pure (id, bound)

/-- `element.hpp` lines 282-296, one iteration. -/
def rawFace (id : ℕ) (e : Elt) (bound : ℕ) : Res (ℕ × Key × Raw) := do
  let nodes ← boundaryNodes e.nodes bound
  let t ← idx e.btype bound
  let k ← faceKey id e bound t
  pure (t, k, ⟨id, bound, nodes⟩)

/-- `element.hpp` lines 273-297 (`CreateRawBoundaries`): the insertions made for one element. -/
def rawElement (x : ℕ × Elt) : Res (List (ℕ × Key × Raw)) := (List.range x.2.btype.length).mapM (rawFace x.1 x.2)

/-- `initialize_mesh.hpp` line 64: all insertions, in the iteration order of the elements. -/
def rawAll (els : Elts) : Res (List (ℕ × Key × Raw)) := do
  let l ← els.mapM rawElement
  pure l.flatten

/-- The inner map of boundary type `t`. -/
def inner (all : List (ℕ × Key × Raw)) (t : ℕ) : List (Key × Raw) :=
  (all.filter fun x => x.1 = t).foldl (fun m x => emplace x.2.1 x.2.2 m) []

/-- `swe_pre_create_intface.hpp` lines 18-31: the loop over internal raw boundaries. Each entry is erased after it has been
looked at, so that the map is the rest of the list. -/
def pairUp : List (Key × Raw) → List (Raw × Raw)
  | [] => []
  | x :: xs =>
    match (x :: xs).lookup (x.1.2, x.1.1) with
    | some r => (x.2, r) :: pairUp xs
    | none => pairUp xs

section data
variable {L T F : Type}

/-- lines 52-70: the data of one node pair, `levee_data` being a `std::map`. -/
def leveeNode (data : List (Key × L)) (a b : ℕ) : Res L :=
  match data.lookup (a, b) with
  | some x => .ok x
  | none =>
    match data.lookup (b, a) with
    | some x => .ok x
    | none => .error .exc

/-- lines 51-70: the loop over the nodes, `fuel` of them left. -/
def leveeNodes (data : List (Key × L)) (a b : List ℕ) : ℕ → ℕ → Res (List L)
  | 0, _ => .ok []
  | fuel + 1, node => do
    let x ← idx a node
    let y ← idx b (a.length - node - 1)
    let d ← leveeNode data x y
    let rest ← leveeNodes data a b fuel (node + 1)
    pure (d :: rest)

/-- lines 42-77: the loop over levee raw boundaries. -/
def pairLevee (data : List (Key × L)) : List (Key × Raw) → Res (List (Raw × Raw × List L))
  | [] => .ok []
  | x :: xs =>
    match (x :: xs).lookup (x.1.2, x.1.1) with
    | some r => do
      let l ← leveeNodes data x.2.nodes r.nodes x.2.nodes.length 0
      let rest ← pairLevee data xs
      pure ((x.2, r, l) :: rest)
    | none => pairLevee data xs

/-- `swe_inputs.hpp` lines 37-49 and 64-76 (`get_tide_data`, `get_flow_data`). -/
def segmentData (nodes : List (ℕ × T)) (ids : List ℕ) : Option (List T) := ids.mapM fun i => nodes.lookup i

/-- `swe_pre_create_bound.hpp` lines 48-62 (= 85-99): the first boundary that has data for all nodes. -/
def nodalData (bounds : List (List (ℕ × T))) (ids : List ℕ) : Res (List T) :=
  match bounds.findSome? (segmentData · ids) with
  | some d => .ok d
  | none => .error .exc

/-- `swe_pre_create_bound.hpp` lines 43-66 (= 80-103). -/
def boundsWithData (bounds : List (List (ℕ × T))) (m : List (Key × Raw)) : Res (List (Raw × List T)) :=
  m.mapM fun x => do
    let d ← nodalData bounds x.2.nodes
    pure (x.2, d)

/-- The problem input used here. -/
structure Input (L T F : Type) where
  levee : List (Key × L)
  tide : List (List (ℕ × T))
  flow : List (List (ℕ × F))

/-- The mesh after `initialize_mesh_interfaces_boundaries`. -/
structure Mesh (L T F : Type) where
  internal : List (Raw × Raw)
  levee : List (Raw × Raw × List L)
  land : List Raw
  tide : List (Raw × List T)
  flow : List (Raw × List F)
  function : List Raw
  distributed : List (List (Comm.DBound L))
deriving DecidableEq

/-- `swe_pre_create_dbound.hpp` lines 25-130: all rank boundaries; the two maps are searched one after the other. -/
def createDistributed (data : List (Key × L)) : List (Key × Comm.Raw) → List (List (Key × ℕ)) →
    Res (List (List (Comm.DBound L)) × List (Key × Comm.Raw))
  | raw, [] => .ok ([], raw)
  | raw, es :: rest => do
    let x ← Comm.createRankBoundary .rkdg data raw es
    let y ← createDistributed data x.2.1 rest
    pure (x.1 :: y.1, y.2)

/-- `initialize_mesh.hpp` lines 70-75: the types whose inner map is not empty, given the remaining distributed raw boundaries.
All types are `uchar`. -/
def unprocessed (all : List (ℕ × Key × Raw)) (dist : List (Key × Comm.Raw)) : Bool :=
  !dist.isEmpty || (List.range 256).any fun t =>
    !(t = Adcirc.internal || t = Adcirc.levee || t = Adcirc.land || t = Adcirc.tide || t = Adcirc.flow || t = Adcirc.function ||
      t = Util.distributed Adcirc.internal || t = Util.distributed Adcirc.levee) && !(inner all t).isEmpty

/-- `initialize_mesh.hpp` lines 55-76 (`initialize_mesh_interfaces_boundaries`) for the shallow water problem. `ranks` lists for
each rank boundary its entries (element, face) with the polynomial order. -/
def assemble (els : Elts) (inp : Input L T F) (ranks : List (List (Key × ℕ))) : Res (Mesh L T F) := do
  let all ← rawAll els
  let internal := pairUp (inner all Adcirc.internal)
  let levee ← pairLevee inp.levee (inner all Adcirc.levee)
  let land := (inner all Adcirc.land).map Prod.snd
  let tide ← boundsWithData inp.tide (inner all Adcirc.tide)
  let flow ← boundsWithData inp.flow (inner all Adcirc.flow)
  let function := (inner all Adcirc.function).map Prod.snd
  let raw := (inner all (Util.distributed Adcirc.internal)).map (fun x => (x.1, Comm.Raw.plain)) ++
    (inner all (Util.distributed Adcirc.levee)).map (fun x => (x.1, Comm.Raw.levee x.2.nodes))
  let d ← createDistributed inp.levee raw ranks
  if unprocessed all d.2 then .error .exc
  else pure ⟨internal, levee, land, tide, flow, function, d.1⟩

end data

end Verif.Assemble
