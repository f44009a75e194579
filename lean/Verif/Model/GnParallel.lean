import Verif.Model.GnCondense

/-!
# Global problem of the dispersive correction on several ranks

Models `source/problem/Green-Naghdi/discretization_EHDG/kernels_preprocessor/ehdg_gn_pre_init_global_prob.hpp` (lines 90-204), the numbering in
`kernels_preprocessor/ehdg_gn_pre_ompi.hpp` and `kernels_processor/ehdg_gn_proc_ompi_sol_glob_prob.hpp`, for all ranks together.

Simplifications: as in `GnCondense`. The ranks share arrays indexed by the number of the element in the whole mesh. `dc_global_dof_indx` of an edge is always
assigned together with that of its faces, one copy is kept, at the faces. `dc_local_dof_indx` of an edge is kept at its own (interior) face. The number a
distributed boundary receives is that of the other side (C25, C26), the conversion to a floating point number and back changes nothing. Offsets do not
overflow. `front()` of the empty vector on ranks other than the first, an argument which MPI ignores there, is taken to be harmless. PETSc sums the values
set by all ranks (`ADD_VALUES`), the solver solves the system.
-/

namespace Verif.Gn
open Verif.Ihdg Verif.Ehdg

/-- An edge of a submesh: interface, boundary, distributed boundary with the face on the other side. -/
inductive PEdge where
  | int (c c' : Face)
  | bnd (c : Face)
  | dist (c ex : Face)
deriving DecidableEq, Repr

/-- The faces on this submesh. -/
def PEdge.faces : PEdge → List Face
  | .int c c' => [c, c']
  | .bnd c => [c]
  | .dist c _ => [c]

def PEdge.own : PEdge → Face
  | .int c _ => c
  | .bnd c => c
  | .dist c _ => c

/-- All elements; the edges of every rank, submesh by submesh, interfaces before boundaries before distributed boundaries; locality and submesh of the
elements; `get_ndof`; unknowns of an edge. -/
structure PSkel where
  elts : List ℕ
  ranks : List (List PEdge)
  home : ℕ → ℕ × ℕ
  ndof : ℕ → ℕ
  m : ℕ

def PSkel.edges (P : PSkel) : List PEdge := P.ranks.flatten

/-- The sizes, for what is done within an element. -/
def PSkel.sizes (P : PSkel) : Skel := ⟨P.elts, [], P.ndof, P.m⟩

/-- `locality_in < locality_ex || (locality_in == locality_ex && submesh_in < submesh_ex)`. -/
def before (a b : ℕ × ℕ) : Bool := decide (a.1 < b.1) || (decide (a.1 = b.1) && decide (a.2 < b.2))

/-! ### Numbering -/

/-- Numbers of faces and local numbers of edges, which stay until they are overwritten; for every rank the vector `dc_global_dof_indx` of the global numbers in
the order of the local ones; number of unknown blocks (`n_dc_global_dofs`). -/
structure PIndex where
  face : ℕ → ℕ → ℕ
  loc : ℕ → ℕ → ℕ
  globals : List (List ℕ)
  total : ℕ

/-- The rank gives the edge a number: lines 27-30, 67-69, 102-107 of the preprocessor (all elements `wet`), lines 410-413, 427-428, 446-448 of the processor. -/
def takes (home : ℕ → ℕ × ℕ) (wet : ℕ → Bool) : PEdge → Bool
  | .dist c ex => (wet c.e || wet ex.e) && before (home c.e) (home ex.e)
  | x => wetEdge wet x.faces

/-- All faces of an edge get a number. -/
def setFaces (face : ℕ → ℕ → ℕ) (x : PEdge) (n : ℕ) : ℕ → ℕ → ℕ := x.faces.foldl (fun a c => setIdx a c n) face

/-- Lines 401-456: `dc_global_dof_offset` and the numbers within the rank. -/
def takeNumber (home : ℕ → ℕ × ℕ) (wet : ℕ → Bool) (s : ℕ × (ℕ → ℕ → ℕ)) (x : PEdge) : ℕ × (ℕ → ℕ → ℕ) :=
  if takes home wet x then (s.1 + 1, setFaces s.2 x s.1) else s

/-- All ranks, with the offsets gathered. -/
def takeNumbers (home : ℕ → ℕ × ℕ) (wet : ℕ → Bool) (s : List ℕ × (ℕ → ℕ → ℕ)) (r : List PEdge) : List ℕ × (ℕ → ℕ → ℕ) :=
  let a := r.foldl (takeNumber home wet) (0, s.2)
  (s.1 ++ [a.1], a.2)

/-- Partial sums. -/
def sums : ℕ → List ℕ → List ℕ
  | _, [] => []
  | a, n :: l => (a + n) :: sums (a + n) l

/-- Lines 499-504: `rotate`, `front() = 0`, partial sums. -/
def offsets (counts : List ℕ) : List ℕ := sums 0 (0 :: counts.dropLast)

/-- Lines 513-563: the offset of the rank is added. -/
def shiftNumber (home : ℕ → ℕ × ℕ) (wet : ℕ → Bool) (off : ℕ) (face : ℕ → ℕ → ℕ) (x : PEdge) : ℕ → ℕ → ℕ :=
  if takes home wet x then setFaces face x (face x.own.e x.own.f + off) else face

/-- Lines 605-611: the other rank's number. -/
def receive (home : ℕ → ℕ × ℕ) (sent face : ℕ → ℕ → ℕ) : PEdge → ℕ → ℕ → ℕ
  | .dist c ex => if before (home ex.e) (home c.e) then setIdx face c (sent ex.e ex.f) else face
  | _ => face

/-- Lines 567-618: local numbers of the edges at wet elements. -/
def localNumber (home : ℕ → ℕ × ℕ) (wet : ℕ → Bool) (sent : ℕ → ℕ → ℕ) (s : (ℕ → ℕ → ℕ) × (ℕ → ℕ → ℕ) × List ℕ) (x : PEdge) :
    (ℕ → ℕ → ℕ) × (ℕ → ℕ → ℕ) × List ℕ :=
  if wetEdge wet x.faces then
    let face := receive home sent s.1 x
    (face, setIdx s.2.1 x.own s.2.2.length, s.2.2 ++ [face x.own.e x.own.f])
  else s

def localNumbers (home : ℕ → ℕ × ℕ) (wet : ℕ → Bool) (sent : ℕ → ℕ → ℕ) (s : (ℕ → ℕ → ℕ) × (ℕ → ℕ → ℕ) × List (List ℕ)) (r : List PEdge) :
    (ℕ → ℕ → ℕ) × (ℕ → ℕ → ℕ) × List (List ℕ) :=
  let a := r.foldl (localNumber home wet sent) (s.1, s.2.1, [])
  (a.1, a.2.1, s.2.2 ++ [a.2.2])

/-- `reset_PETSC_solver`, lines 386-640. -/
def renumberP (P : PSkel) (wet : ℕ → Bool) (t : PIndex) : PIndex :=
  let a := P.ranks.foldl (takeNumbers P.home wet) ([], t.face)
  let sent := (P.ranks.zip (offsets a.1)).foldl (fun f r => r.1.foldl (shiftNumber P.home wet r.2) f) a.2
  let b := P.ranks.foldl (localNumbers P.home wet sent) (sent, t.loc, [])
  ⟨b.1, b.2.1, b.2.2, a.1.sum⟩

/-- `preprocessor_ompi` (`ehdg_gn_pre_ompi.hpp`, lines 43-140): the same with all edges. -/
def initialP (P : PSkel) : PIndex := renumberP P (fun _ => true) ⟨fun _ _ => 0, fun _ _ => 0, [], 0⟩

/-! ### The system -/

variable {K : Type} [Field K] [LinearOrder K]

/-- Lines 46-48, 55-57, 102-103, 128-129: the edge's own block; `hh` is `w1_hat_w1_hat` of the edge with the given own face. -/
def ownP (P : PSkel) (wet : ℕ → Bool) (b : DcBlocks K) (hh : ℕ → ℕ → ℕ → ℕ → K) (l : Local K) (x : PEdge) (i j : ℕ) : K :=
  hh x.own.e x.own.f i j - ((x.faces.filter fun c => wet c.e).map fun c => through P.sizes b l c c.f i j).sum

/-- Lines 62-90, 105-117, 131-143, 156-287: what an edge adds to the matrix. -/
def tripletsP (P : PSkel) (t : PIndex) (wet : ℕ → Bool) (b : DcBlocks K) (hh : ℕ → ℕ → ℕ → ℕ → K) (l : Local K) (x : PEdge) : List (ℕ × ℕ × K) :=
  if wetEdge wet x.faces then
    triplets (rangeAt P.sizes (t.face x.own.e x.own.f)) (rangeAt P.sizes (t.face x.own.e x.own.f)) (ownP P wet b hh l x) ++
      (x.faces.filter fun c => wet c.e).flatMap fun c => ((List.range 3).filter (· ≠ c.f)).flatMap fun f =>
        triplets (rangeAt P.sizes (t.face x.own.e x.own.f)) (rangeAt P.sizes (t.face c.e f)) fun i j => -through P.sizes b l c f i j
  else []

/-- `w1_hat_rhs` of an edge: lines 41, 49, 58, 104, 130. -/
def edgeRhs (P : PSkel) (wet : ℕ → Bool) (b : DcBlocks K) (l : Local K) (x : PEdge) (i : ℕ) : K :=
  (x.faces.filter fun c => wet c.e).foldl (fun v c => v - mulV (2 * P.ndof c.e) (hatSchur P.sizes b l c) (l.rhs c.e) i) 0

/-- `VecSetValuesBlocked` with `ADD_VALUES`. -/
def addBlock (v : ℕ → K) (o n : ℕ) (x : ℕ → K) (i : ℕ) : K := if o ≤ i ∧ i < o + n then v i + x (i - o) else v i

def rhsP (P : PSkel) (t : PIndex) (wet : ℕ → Bool) (b : DcBlocks K) (l : Local K) (v : ℕ → K) (x : PEdge) : ℕ → K :=
  if wetEdge wet x.faces then addBlock v (t.face x.own.e x.own.f * P.m) P.m (edgeRhs P wet b l x) else v

/-- Matrix and right-hand side. -/
def assembleP (P : PSkel) (t : PIndex) (wet : ℕ → Bool) (b : DcBlocks K) (hh : ℕ → ℕ → ℕ → ℕ → K) (l : Local K) : (ℕ → ℕ → K) × (ℕ → K) :=
  (fromTriplets (P.edges.flatMap (tripletsP P t wet b hh l)), P.edges.foldl (rhsP P t wet b l) fun _ => 0)

/-- Lines 296-319: `dc_solution` of a rank, by `dc_scatter`. -/
def scattered (P : PSkel) (gs : List ℕ) (x : ℕ → K) (i : ℕ) : K := x (gs.getD (i / P.m) 0 * P.m + i % P.m)

/-- Lines 328-372: one edge. The part of the vector is taken of every edge, wet or dry. -/
def backP (P : PSkel) (t : PIndex) (wet : ℕ → Bool) (l : Local K) (gs : List ℕ) (x : ℕ → K) (r : ℕ → ℕ → K) (y : PEdge) : Option (ℕ → ℕ → K) :=
  if t.loc y.own.e y.own.f * P.m + P.m ≤ gs.length * P.m then
    some ((y.faces.filter fun c => wet c.e).foldl (fun r c => Function.update r c.e fun i =>
      r c.e i - mulV P.m (l.hat c.e c.f) (fun j => scattered P gs x (t.loc y.own.e y.own.f * P.m + j)) i) r)
  else none

/-- `ompi_solve_global_dc_problem` on all ranks; as `solveDc`. -/
def solveP (I : Inverse K) (slv : Solver K) (P : PSkel) (wd : Bool) (wet : ℕ → Bool) (t0 : PIndex) (b : DcBlocks K) (hh : ℕ → ℕ → ℕ → ℕ → K) :
    Option (PIndex × (ℕ → K) × (ℕ → ℕ → K)) := do
  let t := if wd then renumberP P wet t0 else t0
  let l ← elimAll I slv P.sizes wet b P.elts
  let (A, r) := assembleP P t wet b hh l
  let x ← slv (t.total * P.m) A r
  let w ← (P.ranks.zip t.globals).foldlM (fun w r => r.1.foldlM (backP P t wet l r.2 x) w) l.rhs
  return (t, x, w)

end Verif.Gn
