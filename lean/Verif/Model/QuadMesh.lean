import Verif.Model.Basic
import Verif.Model.Adcirc
import Mathlib.Algebra.Field.Defs
import Mathlib.Data.Nat.Cast.Defs

/-!
# The mesh generator: mesh_generators/quad_mesh_generator.cpp

Simplifications: doubles are elements of a field, `uint` arithmetic is exact (the number of nodes and twice the number of
triangles are below 2^32), the bathymetry is a parameter, the writing of numbers as decimal text is not modelled.
-/

namespace Verif.QuadMesh
open Verif

/-- `for (uint i = start; i < stop; i += step)`. -/
def forRange (start stop step : ℕ) : List ℕ := List.range' start ((stop - start + step - 1) / step) step

/-- Array initialised by assignments `v[k] = x` (out of range: undefined behaviour). -/
def writeAll {α : Type} : List (Option α) → List (ℕ × α) → Res (List (Option α))
  | l, [] => .ok l
  | l, w :: ws => if w.1 < l.length then writeAll (l.set w.1 (some w.2)) ws else .error .ub

/-- lines 12-15, with the three coordinates. -/
structure Node (K : Type) where
  id : ℕ
  x : K
  y : K
  z : K
deriving DecidableEq, Repr

/-- lines 17-21 -/
structure Elt where
  id : ℕ
  type : ℕ
  nodes : List ℕ
deriving DecidableEq, Repr

/-- lines 9: `enum Pattern` -/
inductive Pattern | simple | zigzag | checker
deriving DecidableEq, Repr

/-- lines 383-387: the number is first converted to the underlying type `uchar`; then numbers above 2 are refused. -/
def parsePattern (k : ℕ) : Res Pattern :=
  match k % 256 with
  | 0 => .ok .simple
  | 1 => .ok .zigzag
  | 2 => .ok .checker
  | _ => .error .exc

/-- One coordinate of the bilinear map, lines 110-123, at grid position (i, j). -/
def blend {K : Type} [Field K] (m n : ℕ) (p1 p2 p3 p4 : K) (i j : ℕ) : K :=
  let dxi : K := 2 / m
  let deta : K := 2 / n
  let xi := -1 + dxi * i
  let eta := -1 + deta * j
  let N1 := (1 - xi) * (1 - eta) / 4
  let N2 := (1 + xi) * (1 - eta) / 4
  let N3 := (1 + xi) * (1 + eta) / 4
  let N4 := (1 - xi) * (1 + eta) / 4
  p1 * N1 + p2 * N2 + p3 * N3 + p4 * N4

/-- The four corners, counterclockwise from the lower left one (lines 61-72). -/
structure Quad (K : Type) where
  x1 : K
  y1 : K
  x2 : K
  y2 : K
  x3 : K
  y3 : K
  x4 : K
  y4 : K

/-- Assignments of the loop over nodes, lines 107-131. -/
def nodeWrites {K : Type} [Field K] (q : Quad K) (bath : K → K → K) (m n : ℕ) : List (ℕ × Node K) :=
  (forRange 0 (m + 1) 1).flatMap fun i => (forRange 0 (n + 1) 1).map fun j =>
    let x := blend m n q.x1 q.x2 q.x3 q.x4 i j
    let y := blend m n q.y1 q.y2 q.y3 q.y4 i j
    (j * (m + 1) + i, ⟨j * (m + 1) + i, x, y, bath x y⟩)

/-- The two assignments for a cell divided by the diagonal from lower left to upper right
(lines 468-477, 487-496, 518-527). -/
def slash (m i j : ℕ) : List (ℕ × Elt) :=
  [(2 * i + 2 * m * j, ⟨2 * i + 2 * m * j, 3, [i + (m + 1) * j, i + m + 2 + (m + 1) * j, i + m + 1 + (m + 1) * j]⟩),
   (2 * i + 2 * m * j + 1, ⟨2 * i + 2 * m * j + 1, 3, [i + (m + 1) * j, i + 1 + (m + 1) * j, i + m + 2 + (m + 1) * j]⟩)]

/-- The two assignments for a cell divided by the other diagonal (lines 502-511, 532-541). -/
def backslash (m i j : ℕ) : List (ℕ × Elt) :=
  [(2 * i + 2 * m * j, ⟨2 * i + 2 * m * j, 3, [i + (m + 1) * j, i + 1 + (m + 1) * j, i + m + 1 + (m + 1) * j]⟩),
   (2 * i + 2 * m * j + 1, ⟨2 * i + 2 * m * j + 1, 3, [i + 1 + (m + 1) * j, i + m + 2 + (m + 1) * j, i + m + 1 + (m + 1) * j]⟩)]

/-- Assignments made by `simple_pattern_tri` (464-480), `zigzag_pattern_tri` (482-513), `checker_pattern_tri` (515-545). -/
def triWrites : Pattern → ℕ → ℕ → List (ℕ × Elt)
  | .simple, m, n => (forRange 0 n 1).flatMap fun j => (forRange 0 m 1).flatMap fun i => slash m i j
  | .zigzag, m, n =>
    ((forRange 0 n 2).flatMap fun j => (forRange 0 m 1).flatMap fun i => slash m i j) ++
      ((forRange 1 n 2).flatMap fun j => (forRange 0 m 1).flatMap fun i => backslash m i j)
  | .checker, m, n =>
    ((forRange 0 n 1).flatMap fun j => (forRange (j % 2) m 2).flatMap fun i => slash m i j) ++
      ((forRange 0 n 1).flatMap fun j => (forRange ((j + 1) % 2) m 2).flatMap fun i => backslash m i j)

/-- Node lists of the four sides, lines 149-164: bottom, right, top, left. -/
def sides (m n : ℕ) : List (List ℕ) :=
  [(List.range (m + 1)).map fun i => i, (List.range (n + 1)).map fun i => m + i * (m + 1),
   (List.range (m + 1)).map fun i => i + (m + 1) * n, (List.range (n + 1)).map fun i => i * (m + 1)]

/-- What the program writes. -/
structure Mesh (K : Type) where
  nodes : List (Node K)
  elements : List Elt
  sides : List (List ℕ)

/-- An array slot never assigned is default constructed; using it (`element.nodes[0]` of an empty vector, lines 181-188)
is undefined behaviour. For a node it would be an indeterminate value. -/
def allSet {α : Type} (l : List (Option α)) : Res (List α) := l.mapM fun o => match o with | some x => .ok x | none => .error .ub

/-- `main`, lines 96-188. -/
def generate {K : Type} [Field K] (q : Quad K) (bath : K → K → K) (pat : ℕ) (m n : ℕ) : Res (Mesh K) := do
  let pat ← parsePattern pat
  let ns ← writeAll (List.replicate ((m + 1) * (n + 1)) none) (nodeWrites q bath m n)
  let nodes ← allSet ns
  let es ← writeAll (List.replicate (2 * m * n) none) (triWrites pat m n)
  let elements ← allSet es
  pure ⟨nodes, elements, sides m n⟩

/-! ### The mesh file written, lines 166-262 -/

/-- Code in the header of a land boundary, lines 219-259. -/
def fortCode (t : ℕ) : ℕ :=
  if t = Adcirc.land then 0 else if t = Adcirc.flow then 2 else if t = Adcirc.function then 77 else 88

/-- Lines of a list of nodes. -/
def nodeLines {W K : Type} (l : List ℕ) : Adcirc.Stream W K := l.map fun k => [.nat k]

/-- `main`, lines 166-262, without the comments at the ends of the lines. `types` are the boundary types of the four sides
(land, tide, flow, function or outflow: lines 402-415 refuse others). -/
def file {W K : Type} (title : W) (m n : ℕ) (M : Mesh K) (types : List ℕ) : Adcirc.Stream W K :=
  let boundaries := types.zip M.sides
  let tides := boundaries.filter fun b => b.1 = Adcirc.tide
  let lands := boundaries.filter fun b => b.1 ≠ Adcirc.tide
  [[.word title], [.nat (2 * m * n), .nat ((m + 1) * (n + 1))]] ++
    (M.nodes.map fun A => [.nat A.id, .real A.x, .real A.y, .real A.z]) ++
    (M.elements.map fun e => [.nat e.id, .nat e.type, .nat (e.nodes.getD 0 0), .nat (e.nodes.getD 1 0), .nat (e.nodes.getD 2 0)]) ++
    [[.nat tides.length], [.nat (tides.map fun b => b.2.length).sum]] ++
    (tides.flatMap fun b => [.nat b.2.length] :: nodeLines b.2) ++
    [[.nat lands.length], [.nat (lands.map fun b => b.2.length).sum]] ++
    (lands.flatMap fun b => [.nat b.2.length, .nat (fortCode b.1)] :: nodeLines b.2) ++
    [[.nat 0], [.nat 0]]

end Verif.QuadMesh
