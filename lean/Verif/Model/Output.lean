import Verif.Model.SweStage

/-!
# Output files

Models `source/simulation/writer.hpp` (lines 98-349), `source/problem/SWE/problem_postprocessor/swe_post_write_vtk.hpp`, `swe_post_write_vtu.hpp`,
`swe_post_write_modal.hpp` and, in `source/geometry/element.hpp`, `InitializeVTK`, `WriteCellDataVTK` and `WritePointDataVTK` (lines 507-534).

Simplifications: a file is its sequence of words (XML tags are words of their own); line breaks and tabs are white space and only the modal files, whose lines are
significant, are lists of lines. Printing of numbers is a parameter: `pt` for `file << double` with the default precision, `fl` for `file << (float)x`; a quotient with
denominator zero is printed as `nan` or `inf`, one word here. The merge of the temporary files into the file of a step is concatenation. Counters do not overflow.
`VTKElementTypes::straight_triangle` is 5. The directory exists and can be written.
-/

namespace Verif.Output
open Verif.Geometry Verif.Element Verif.Swe

/-- Words of a file. -/
inductive Tok (W : Type) where
  /-- letters, a keyword or a tag -/
  | w (s : String)
  /-- an unsigned integer or a bit -/
  | n (k : ℕ)
  /-- a printed number -/
  | x (v : W)
  /-- `nan`, `inf` -/
  | bad
deriving DecidableEq, Repr

/-- How numbers are printed: coordinates, values, times. -/
structure Printer (K W : Type) where
  pt : K → W
  fl : K → W
  sci : K → W
  time : K → W

/-- What the files show of the simulation: the elements in the order of the mesh, data, flags `wet` and `went_completely_dry`, and the state `state[0].q`. -/
structure Scene (K : Type) where
  N : Numerics K
  sq : K → K
  elts : List ℕ
  dat : ℕ → EltData K
  q : State K
  wet : ℕ → Bool
  dry : ℕ → Bool

variable {K W : Type} [Field K] [LinearOrder K]

/-! ### Geometry -/

/-- `writer.hpp` lines 197-200, 262-265: `InitializeVTK` of one element appends its points and cells. -/
def initOne (div : ℕ) (dat : ℕ → EltData K) (s : List (P2 K) × List (ℕ × ℕ × ℕ)) (e : ℕ) : List (P2 K) × List (ℕ × ℕ × ℕ) :=
  (s.1 ++ vtkGlobal (dat e).elt.tri div, s.2 ++ vtkCells div s.1.length)

/-- All elements. -/
def initAll (div : ℕ) (S : Scene K) : List (P2 K) × List (ℕ × ℕ × ℕ) := S.elts.foldl (initOne div S.dat) ([], [])

/-- `element.hpp` lines 514-534 for all elements: the values of a function of the element at points of the master triangle. -/
def sample {α : Type} (S : Scene K) (pts : List (P2 K)) (f : ℕ → P2 K → α) : List α := S.elts.flatMap fun e => pts.map (f e)

/-- State. -/
def Scene.at (S : Scene K) (e : ℕ) (z : P2 K) : Q K := qAt S.N (S.dat e).elt (S.q e) z

/-- Bathymetry. -/
def Scene.bathAt (S : Scene K) (e : ℕ) (z : P2 K) : K := (S.dat e).elt.value S.N (S.dat e).bath z

/-- `swe_post_write_vtk.hpp` lines 21-29: a value for each cell of each element. -/
def perCell {α : Type} (div : ℕ) (S : Scene K) (f : ℕ → α) : List α := S.elts.flatMap fun e => List.replicate (div * div) (f e)

/-- `operator<<(bool)`. -/
def bit (b : Bool) : Tok W := .n (if b then 1 else 0)

/-! ### Legacy VTK -/

/-- `writer.hpp` lines 202-255. -/
def vtkGeom (P : Printer K W) (div : ℕ) (S : Scene K) : List (Tok W) :=
  let g := initAll div S
  [.w "#", .w "vtk", .w "DataFile", .w "Version", .w "3.0", .w "OUTPUT", .w "DATA", .w "ASCII", .w "DATASET", .w "UNSTRUCTURED_GRID",
    .w "POINTS", .n g.1.length, .w "double"] ++
  g.1.flatMap (fun p => [.x (P.pt p.x), .x (P.pt p.y), .x (P.pt 0)]) ++
  [.w "CELLS", .n g.2.length, .n (g.2.map fun _ => 4).sum] ++
  g.2.flatMap (fun c => [.n 3, .n c.1, .n c.2.1, .n c.2.2]) ++
  [.w "CELL_TYPES", .n g.2.length] ++ g.2.map fun _ => .n 5

/-- One array with its heading. -/
def scalars (name type : String) (l : List (Tok W)) : List (Tok W) :=
  [.w "SCALARS", .w name, .w type, .n 1, .w "LOOKUP_TABLE", .w "default"] ++ l

/-- `swe_post_write_vtk.hpp` lines 31-87. -/
def vtkData (P : Printer K W) (div : ℕ) (S : Scene K) : List (Tok W) :=
  let qc := sample S (vtkPostCell div) S.at
  let bc := sample S (vtkPostCell div) S.bathAt
  let qp := sample S (vtkPostPoint div) S.at
  let bp := sample S (vtkPostPoint div) S.bathAt
  [.w "CELL_DATA", .n qc.length] ++ scalars "ze_cell" "double" (qc.map fun q => .x (P.fl q.ze)) ++ scalars "qx_cell" "double" (qc.map fun q => .x (P.fl q.qx)) ++
  scalars "qy_cell" "double" (qc.map fun q => .x (P.fl q.qy)) ++ scalars "bath_cell" "double" (bc.map fun b => .x (P.fl b)) ++
  scalars "ID" "unsigned_int" (perCell div S fun e => .n e) ++ scalars "wet_dry" "bit" (perCell div S fun e => bit (S.wet e)) ++
  scalars "went_completely_dry" "bit" (perCell div S fun e => bit (S.dry e)) ++
  [.w "POINT_DATA", .n qp.length] ++ scalars "ze_point" "double" (qp.map fun q => .x (P.fl q.ze)) ++ scalars "qx_point" "double" (qp.map fun q => .x (P.fl q.qx)) ++
  scalars "qy_point" "double" (qp.map fun q => .x (P.fl q.qy)) ++ scalars "bath_point" "double" (bp.map fun b => .x (P.fl b))

/-- `writer.hpp` lines 136-146: the file of a step. -/
def vtkFile (P : Printer K W) (div : ℕ) (S : Scene K) : List (Tok W) := vtkGeom P div S ++ vtkData P div S

/-! ### VTU -/

/-- A `DataArray` with its attributes; `name` is empty for the array of points, which has none. -/
def dataArray (name : String) (l : List (Tok W)) : List (Tok W) := [.w "<DataArray", .w name, .w ">"] ++ l ++ [.w "</DataArray>"]

/-- `writer.hpp` lines 267-274. -/
def vtuHead (div : ℕ) (S : Scene K) : List (Tok W) :=
  [.w "<VTKFile", .w "<UnstructuredGrid>", .w "<Piece", .n (initAll div S).1.length, .n (initAll div S).2.length, .w ">"]

/-- The running sum of lines 315-329. -/
def offsets (first : ℕ) : List (ℕ × ℕ × ℕ) → List ℕ
  | [] => []
  | _ :: l => (first + 3) :: offsets (first + 3) l

/-- Lines 276-347. -/
def vtuFoot (P : Printer K W) (div : ℕ) (S : Scene K) : List (Tok W) :=
  let g := initAll div S
  [.w "<Points>"] ++ dataArray "" (g.1.flatMap fun p => [.x (P.pt p.x), .x (P.pt p.y), .x (P.pt 0)]) ++ [.w "</Points>", .w "<Cells>"] ++
  dataArray "connectivity" (g.2.flatMap fun c => [.n c.1, .n c.2.1, .n c.2.2]) ++ dataArray "offsets" ((offsets 0 g.2).map .n) ++
  dataArray "types" (g.2.map fun _ => .n 5) ++ [.w "</Cells>", .w "</Piece>", .w "</UnstructuredGrid>", .w "</VTKFile>"]

/-- `swe_post_write_vtu.hpp` lines 56-60: the magnitude of the discharge over the depth. -/
def speedTok (P : Printer K W) (sq : K → K) (q : Q K) (b : K) : Tok W :=
  if q.ze + b = 0 then .bad else .x (P.fl (sq (q.qx * q.qx + q.qy * q.qy) / (q.ze + b)))

/-- Lines 31-99. -/
def vtuData (P : Printer K W) (div : ℕ) (S : Scene K) : List (Tok W) :=
  let qc := sample S (vtkPostCell div) S.at
  let bc := sample S (vtkPostCell div) S.bathAt
  let qp := sample S (vtkPostPoint div) S.at
  let bp := sample S (vtkPostPoint div) S.bathAt
  [.w "<PointData>"] ++ dataArray "ze_point" (qp.map fun q => .x (P.fl q.ze)) ++ dataArray "qx_point" (qp.map fun q => .x (P.fl q.qx)) ++
  dataArray "qy_point" (qp.map fun q => .x (P.fl q.qy)) ++ dataArray "bath_point" (bp.map fun b => .x (P.fl b)) ++
  dataArray "velocity_point" (List.zipWith (speedTok P S.sq) qp bp) ++ [.w "</PointData>", .w "<CellData>"] ++
  dataArray "ze_cell" (qc.map fun q => .x (P.fl q.ze)) ++ dataArray "qx_cell" (qc.map fun q => .x (P.fl q.qx)) ++
  dataArray "qy_cell" (qc.map fun q => .x (P.fl q.qy)) ++ dataArray "bath_cell" (bc.map fun b => .x (P.fl b)) ++
  dataArray "ID" (perCell div S fun e => .n e) ++ dataArray "wet_dry" (perCell div S fun e => bit (S.wet e)) ++
  dataArray "went_completely_dry" (perCell div S fun e => bit (S.dry e)) ++ [.w "</CellData>"]

/-- `writer.hpp` lines 171-182. -/
def vtuFile (P : Printer K W) (div : ℕ) (S : Scene K) : List (Tok W) := vtuHead div S ++ vtuData P div S ++ vtuFoot P div S

/-! ### Modal output -/

/-- `swe_post_write_modal.hpp` lines 24-31 and the same for the other variables: the lines that one call adds to the file of a row of coefficients. -/
def modalLines (P : Printer K W) (S : Scene K) (t : K) (u : ℕ → ℕ → K) : List (List (Tok W)) :=
  [.x (P.time t)] :: S.elts.flatMap fun e => (List.range (ndof (S.dat e).elt.p)).map fun d => [.n e, .x (P.sci (u e d))]

/-- Lines 17-22: at step 0 the file is begun, later it is continued; lines 190-192 of `writer.hpp`: every `freq` steps (`freq` = 0 would be undefined; it is excluded by the theorems). -/
def writeModal (freq step : ℕ) (lines file : List (List (Tok W))) : List (List (Tok W)) :=
  if step % freq = 0 then (if step = 0 then lines else file ++ lines) else file

/-- The file after the steps 0 to `n` of a run whose states are `S k` at times `t k`; `old` is what the file had before. -/
def modalRun (P : Printer K W) (freq : ℕ) (S : ℕ → Scene K) (t : ℕ → K) (u : ℕ → ℕ → ℕ → K) (old : List (List (Tok W))) : ℕ → List (List (Tok W))
  | 0 => writeModal freq 0 (modalLines P (S 0) (t 0) (u 0)) old
  | n + 1 => writeModal freq (n + 1) (modalLines P (S (n + 1)) (t (n + 1)) (u (n + 1))) (modalRun P freq S t u old n)

end Verif.Output
