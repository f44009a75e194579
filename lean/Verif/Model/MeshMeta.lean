import Verif.Model.Adcirc
import Verif.Model.Util

/-!
# Model of the mesh metadata

Models `source/preprocessor/mesh_metadata.{hpp,cpp}`: adjacency from a fort.14 mesh, the metadata file, and the
distributed boundary file.

Simplifications: hash maps are association lists in iteration order (the order is a parameter where the code iterates over
a map it has built); coordinates are exact.
-/

namespace Verif.MeshMeta
open Verif Verif.Adcirc

/-- `general_definitions.hpp`: `DEFAULT_ID`, the largest `uint`. -/
def DEFAULT_ID : ℕ := 2 ^ 32 - 1

/-- `mesh_metadata.hpp` lines 28-36 (`ElementMetaData`). -/
structure Elt where
  nodes : List ℕ
  nbr : List ℕ
  btype : List ℕ
deriving DecidableEq, Repr

/-- `MeshMetaData::elements` (`mesh_metadata.hpp` line 90). -/
abbrev Elts := List (ℕ × Elt)

/-- `mesh_metadata.cpp` lines 37-38, 76-77: the 64-bit key of the edge with nodes `a`, `b` (32-bit numbers). The shift is
done in 64 bits. -/
def edgeKey (a b : ℕ) : ℕ := ((min a b) <<< 32) % 2 ^ 64 ||| max a b

/-- Element id and face number. -/
abbrev Face := ℕ × ℕ

/-- `mesh_metadata.cpp` lines 35-38: the faces of an element with their keys; face `k` has the nodes `(k+1)%3`, `(k+2)%3`. -/
def faces : ℕ × ℕ × ℕ × ℕ × ℕ → List (ℕ × Face)
  | (id, _, n0, n1, n2) =>
    let node := [n0, n1, n2]
    (List.range 3).map fun k => (edgeKey (node.getD ((k + 1) % 3) 0) (node.getD ((k + 2) % 3) 0), (id, k))

/-- `edge_dictionary` (line 32). -/
abbrev Dict := List (ℕ × (Face × Face))

/-- `mesh_metadata.cpp` lines 40-45: enter one face. -/
def addEdge (d : Dict) (f : ℕ × Face) : Dict :=
  if (d.lookup f.1).isSome then d.map fun (k, x) => if k = f.1 then (k, (x.1, f.2)) else (k, x)
  else d ++ [(f.1, (f.2, (DEFAULT_ID, 0)))]

/-- `mesh_metadata.cpp` lines 34-47: the two nested loops. -/
def edgeDict (elements : List (ℕ × ℕ × ℕ × ℕ × ℕ)) : Dict := (elements.flatMap faces).foldl addEdge []

/-- `this->elements.at(id).neighbor_ID[k] = nb; this->elements.at(id).boundary_type[k] = bt`. -/
def setFace (els : Elts) (f : Face) (nb bt : ℕ) : Res Elts :=
  match els.lookup f.1 with
  | none => .error .exc
  | some _ => .ok (els.map fun (i, e) =>
      if i = f.1 then (i, { e with nbr := e.nbr.set f.2 nb, btype := e.btype.set f.2 bt }) else (i, e))

/-- `mesh_metadata.cpp` lines 49-83: one entry of the dictionary. -/
def processEdge {W R : Type} (m : Fort14 W R) (d : Dict) (els : Elts) (edge : ℕ × (Face × Face)) : Res Elts := do
  let (A, B) := edge.2
  if B.1 ≠ DEFAULT_ID then
    let els ← setFace els A B.1 internal
    setFace els B A.1 internal
  else
    let (_, n0, n1, n2) ← atKey m.elements A.1
    let node := [n0, n1, n2]
    let p0 := node.getD ((A.2 + 1) % 3) 0
    let p1 := node.getD ((A.2 + 2) % 3) 0
    let bt ← getIbtype m p0 p1
    let els ← setFace els A DEFAULT_ID bt
    if Util.isInternal bt then
      let (q0, q1) ← getInternalNodePair m p0 p1
      let x ← atKey d (edgeKey q0 q1)
      setFace els A x.1.1 bt
    else return els

/-- `mesh_metadata.cpp` lines 18-29: elements before adjacency is known (zero-initialised vectors of length 3). -/
def initElts (elements : List (ℕ × ℕ × ℕ × ℕ × ℕ)) : Elts :=
  elements.map fun (id, _, n0, n1, n2) => (id, ⟨[n0, n1, n2], [0, 0, 0], [0, 0, 0]⟩)

/-- `mesh_metadata.cpp` lines 3-85, the elements. `order` is the dictionary in the iteration order of the hash map. -/
def build {W R : Type} (m : Fort14 W R) (order : Dict) : Res Elts :=
  order.foldlM (processEdge m (edgeDict m.elements)) (initElts m.elements)

end Verif.MeshMeta
