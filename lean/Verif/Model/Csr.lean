import Verif.Model.Basic
import Mathlib.Data.List.Sort
import Mathlib.Data.Rat.Defs

/-!
# Model of the graphs passed to METIS

Models `CSRMat` in `partitioner/csrmat.hpp` and the two graphs made in `partitioner/partition.cpp`.

Simplifications: weights are exact rational numbers; `int` prefix sums do not overflow; hash maps are association lists in
iteration order; the statistics printed are left out.
-/

namespace Verif.Csr
open Verif

/-- `std::unordered_map<int, std::vector<double>>`. -/
abbrev NodeW := List (ℤ × List ℚ)
/-- `std::unordered_map<std::pair<int, int>, double>`. -/
abbrev EdgeW := List ((ℤ × ℤ) × ℚ)

/-- `csrmat.hpp` lines 47-52: the elements of `edge_sets[src]`. -/
def edgeSet (ew : EdgeW) (src : ℤ) : List ℤ :=
  (ew.flatMap fun p => (if p.1.1 = src then [p.1.2] else []) ++ (if p.1.2 = src then [p.1.1] else [])).dedup

/-- `csrmat.hpp` lines 53-59: `_edges[src]`, sorted; empty where `_edges.count(src) == 0`. -/
def edges (ew : EdgeW) (src : ℤ) : List ℤ := (edgeSet ew src).insertionSort (· ≤ ·)

/-- `csrmat.hpp` lines 17-44: `_nodes`, sorted; an exception if the numbers of constraints differ. -/
def mkNodes (nw : NodeW) : Res (List ℤ) :=
  if nw.all fun p => decide (p.2.length = (nw.headD (0, [])).2.length) then
    .ok ((nw.map Prod.fst).insertionSort (· ≤ ·))
  else .error .exc

/-- `csrmat.hpp` lines 69-78. -/
def xadj (ew : EdgeW) (nodes : List ℤ) : List ℕ := nodes.scanl (fun a id => a + (edges ew id).length) 0

/-- `csrmat.hpp` lines 82-86: `mapping`; later assignments overwrite earlier ones. -/
def mapping (nodes : List ℤ) : List (ℤ × ℕ) := nodes.zipIdx.reverse

/-- `csrmat.hpp` lines 80-95: column indices; `mapping.at` may throw. -/
def adj (ew : EdgeW) (nodes : List ℤ) : Res (List ℕ) := do
  let rows ← nodes.mapM fun src => (edges ew src).mapM fun dst => atKey (mapping nodes) dst
  pure rows.flatten

/-- `csrmat.hpp` lines 117-126: the weight of the edge from `src` to `dst`. -/
def weight (ew : EdgeW) (src dst : ℤ) : ℚ := ((ew.lookup (src, dst)).getD 0) + ((ew.lookup (dst, src)).getD 0)

/-- `csrmat.hpp` lines 111-130. -/
def edgeWgts (ew : EdgeW) (nodes : List ℤ) : List ℚ := nodes.flatMap fun src => (edges ew src).map (weight ew src)

/-- `csrmat.hpp` lines 100-109; `at` may throw. -/
def nodeWgts (nw : NodeW) (nodes : List ℤ) : Res (List ℚ) := do
  let rows ← nodes.mapM fun id => do
    let w ← atKey nw id
    (List.range (nw.headD (0, [])).2.length).mapM fun c => atIdx w c
  pure rows.flatten

/-- What is passed to METIS (`csrmat.hpp` lines 245-280). -/
structure Csr where
  nodes : List ℤ
  xadj : List ℕ
  adj : List ℕ
  vwgt : List ℚ
  adjwgt : List ℚ

/-- `CSRMat(nw, ew)` and its accessors. -/
def make (nw : NodeW) (ew : EdgeW) : Res Csr := do
  let nodes ← mkNodes nw
  let a ← adj ew nodes
  let v ← nodeWgts nw nodes
  pure ⟨nodes, xadj ew nodes, a, v, edgeWgts ew nodes⟩

/-- `partition.cpp` lines 68-78: `submesh_edge_weight`, from `edge_weights` and `elt2partition`. -/
def submeshEdges (e2p : List (ℤ × ℤ)) (ew : EdgeW) : Res EdgeW :=
  ew.foldlM (fun (m : EdgeW) e => do
    let a ← atKey e2p e.1.1
    let b ← atKey e2p e.1.2
    let k := (min a b, max a b)
    pure (match m.lookup k with
      | some _ => m.map fun x => if x.1 = k then (x.1, x.2 + e.2) else x
      | none => m ++ [(k, e.2)])) []

end Verif.Csr
