import Verif.Model.GnParallel

/-!
# Global problem of the implicit discretization on several ranks

Models the parallel part of `source/problem/SWE/discretization_IHDG/kernels_preprocessor/ihdg_swe_pre_init_global_prob.hpp` (lines 107-316), the numbering in
`kernels_preprocessor/ihdg_swe_pre_ompi.hpp` (lines 34-157) and `kernels_processor/ihdg_swe_proc_ompi_sol_glob_prob.hpp`, for all ranks together.

Simplifications: as in `Condense` and `GnParallel`. `global_dof_indx` of an edge and of its faces is always a list of consecutive numbers, as many as the edge
has unknowns: only the first is kept, at the faces. `sol_offset` of an edge is kept at its own face. PETSc sums the values set by all ranks.
-/

namespace Verif.Ihdg
open Verif.Ehdg
open Verif.Gn (PEdge before takes setFaces shiftNumber receive offsets setIdx)

/-- All elements; the edges of every rank and submesh, interfaces before boundaries before distributed boundaries; locality and submesh of the elements; unknowns
of the elements; unknowns of the edge at a face. -/
structure PSkeleton where
  elts : List ℕ
  ranks : List (List (List PEdge))
  home : ℕ → ℕ × ℕ
  size : ℕ → ℕ
  esize : ℕ → ℕ → ℕ

/-- All submeshes. -/
def PSkeleton.subs (P : PSkeleton) : List (List PEdge) := P.ranks.flatten

/-- All edges; a cut edge occurs twice. -/
def PSkeleton.edges (P : PSkeleton) : List PEdge := P.subs.flatten

def PSkeleton.esz (P : PSkeleton) (x : PEdge) : ℕ := P.esize x.own.e x.own.f

/-- The sizes, for what is done within an element. -/
def PSkeleton.sizes (P : PSkeleton) : Skeleton := ⟨P.elts, [], P.size, fun _ => 0⟩

/-! ### Numbering -/

/-- First numbers at the faces, places of the edges in the vector of their rank, these vectors, number of all unknowns (`n_global_dofs`). -/
structure PNumbering where
  face : ℕ → ℕ → ℕ
  sol : ℕ → ℕ → ℕ
  globals : List (List ℕ)
  total : ℕ

/-- Consecutive numbers. -/
def fromTo (a n : ℕ) : List ℕ := (List.range n).map (· + a)

/-- `ihdg_swe_pre_init_global_prob.hpp` lines 37-47, 78-87, 124-135: an edge within its submesh. -/
def takeIdx (P : PSkeleton) (s : ℕ × (ℕ → ℕ → ℕ)) (x : PEdge) : ℕ × (ℕ → ℕ → ℕ) :=
  if takes P.home (fun _ => true) x then (s.1 + P.esz x, setFaces s.2 x s.1) else s

/-- `ihdg_swe_pre_ompi.hpp` lines 37-45: the submeshes of a rank, each from 0, with their numbers of unknowns. -/
def takeSub (P : PSkeleton) (s : List ℕ × (ℕ → ℕ → ℕ)) (r : List PEdge) : List ℕ × (ℕ → ℕ → ℕ) :=
  let a := r.foldl (takeIdx P) (0, s.2)
  (s.1 ++ [a.1], a.2)

def takeRank (P : PSkeleton) (s : List (List ℕ) × (ℕ → ℕ → ℕ)) (r : List (List PEdge)) : List (List ℕ) × (ℕ → ℕ → ℕ) :=
  let a := r.foldl (takeSub P) ([], s.2)
  (s.1 ++ [a.1], a.2)

/-- Lines 49-60, 86-97, 125: offsets of all submeshes of all ranks. -/
def finalOffsets (counts : List (List ℕ)) : List (List ℕ) :=
  (counts.zip (offsets (counts.map List.sum))).map fun c => (offsets c.1).map (· + c.2)

/-- Lines 266-316 of `ihdg_swe_pre_init_global_prob.hpp`: numbers received, places in the vector of the rank. -/
def placeIdx (P : PSkeleton) (sent : ℕ → ℕ → ℕ) (s : (ℕ → ℕ → ℕ) × (ℕ → ℕ → ℕ) × List ℕ) (x : PEdge) : (ℕ → ℕ → ℕ) × (ℕ → ℕ → ℕ) × List ℕ :=
  let face := receive P.home sent s.1 x
  (face, setIdx s.2.1 x.own s.2.2.length, s.2.2 ++ fromTo (face x.own.e x.own.f) (P.esz x))

def placeRank (P : PSkeleton) (sent : ℕ → ℕ → ℕ) (s : (ℕ → ℕ → ℕ) × (ℕ → ℕ → ℕ) × List (List ℕ)) (r : List (List PEdge)) :
    (ℕ → ℕ → ℕ) × (ℕ → ℕ → ℕ) × List (List ℕ) :=
  let a := r.flatten.foldl (placeIdx P sent) (s.1, s.2.1, [])
  (a.1, a.2.1, s.2.2 ++ [a.2.2])

/-- `preprocessor_ompi`: the numbers of all edges. -/
def numberP (P : PSkeleton) : PNumbering :=
  let a := P.ranks.foldl (takeRank P) ([], fun _ _ => 0)
  let sent := (P.ranks.zip (finalOffsets a.1)).foldl (fun f r => (r.1.zip r.2).foldl (fun f s => s.1.foldl (shiftNumber P.home (fun _ => true) s.2) f) f) a.2
  let b := P.ranks.foldl (placeRank P sent) (sent, fun _ _ => 0, [])
  ⟨b.1, b.2.1, b.2.2, (a.1.map List.sum).sum⟩

/-! ### The system -/

variable {K : Type} [Field K] [LinearOrder K]

/-- The matrices and right-hand sides which the kernels leave; `delta_hat_global` and `rhs_global` of an edge by its own face. -/
structure PBlocks (K : Type) where
  dl : ℕ → ℕ → ℕ → K
  rl : ℕ → ℕ → K
  dh : ℕ → ℕ → ℕ → ℕ → K
  dg : ℕ → ℕ → ℕ → ℕ → K
  hg : ℕ → ℕ → ℕ → ℕ → K
  hr : ℕ → ℕ → ℕ → K

/-- What is done within an element needs no edges. -/
def PBlocks.elt (b : PBlocks K) : Blocks K := ⟨b.dl, b.rl, b.dh, b.dg, fun _ _ _ => 0, fun _ _ => 0⟩

/-- `ihdg_swe_proc_ompi_sol_glob_prob.hpp` lines 28-30, 74-75, 104-105. -/
def ownP (P : PSkeleton) (b : PBlocks K) (inv : ℕ → ℕ → ℕ → K) (x : PEdge) (i j : ℕ) : K :=
  b.hg x.own.e x.own.f i j - (x.faces.map fun c => mul (P.size c.e) (mul (P.size c.e) (b.dg c.e c.f) (inv c.e)) (b.dh c.e c.f) i j).sum

/-- Lines 32-33, 77, 107. -/
def ownRhsP (P : PSkeleton) (b : PBlocks K) (inv : ℕ → ℕ → ℕ → K) (x : PEdge) (i : ℕ) : K :=
  b.hr x.own.e x.own.f i - (x.faces.map fun c => mulV (P.size c.e) (mul (P.size c.e) (b.dg c.e c.f) (inv c.e)) (b.rl c.e) i).sum

/-- Lines 148-194, 209-236, 251-278 (`MatSetValues`): what an edge adds to the matrix. -/
def tripletsP (P : PSkeleton) (t : PNumbering) (b : PBlocks K) (inv : ℕ → ℕ → ℕ → K) (x : PEdge) : List (ℕ × ℕ × K) :=
  let rows := fromTo (t.face x.own.e x.own.f) (P.esz x)
  triplets rows rows (ownP P b inv x) ++ x.faces.flatMap fun c => ((List.range 3).filter (· ≠ c.f)).flatMap fun f =>
    triplets rows (fromTo (t.face c.e f) (P.esize c.e f)) (conBlock P.sizes b.elt inv c f)

/-- Lines 142-146, 203-207, 245-249 (`VecSetValues` with `ADD_VALUES`). -/
def addP (P : PSkeleton) (t : PNumbering) (b : PBlocks K) (inv : ℕ → ℕ → ℕ → K) (v : ℕ → K) (x : PEdge) (r : ℕ) : K :=
  v r + ((fromTo (t.face x.own.e x.own.f) (P.esz x)).zipIdx.map fun a => if a.1 = r then ownRhsP P b inv x a.2 else 0).sum

def assembleP (P : PSkeleton) (t : PNumbering) (b : PBlocks K) (inv : ℕ → ℕ → ℕ → K) : (ℕ → ℕ → K) × (ℕ → K) :=
  (fromTriplets (P.edges.flatMap (tripletsP P t b inv)), P.edges.foldl (addP P t b inv) fun _ => 0)

/-- Lines 294-305, 339, 357, 374: the part of the solution at an edge, from the vector of its rank. -/
def partP (t : PNumbering) (gs : List ℕ) (x : ℕ → K) (y : PEdge) (j : ℕ) : K := x (gs.getD (t.sol y.own.e y.own.f + j) 0)

/-- Lines 326-380: right-hand sides of the elements and changes of the traces, by own face; the part of the vector must exist. -/
def backP (P : PSkeleton) (t : PNumbering) (b : PBlocks K) (gs : List ℕ) (x : ℕ → K) (s : (ℕ → ℕ → K) × (ℕ → ℕ → ℕ → K)) (y : PEdge) :
    Option ((ℕ → ℕ → K) × (ℕ → ℕ → ℕ → K)) :=
  if t.sol y.own.e y.own.f + P.esz y ≤ gs.length then
    some (y.faces.foldl (fun r c => Function.update r c.e fun i => r c.e i - mulV (P.esz y) (b.dh c.e c.f) (partP t gs x y) i) s.1,
      fun e f => if e = y.own.e ∧ f = y.own.f then partP t gs x y else s.2 e f)
  else none

/-- `ompi_solve_global_problem` on all ranks: changes of the elements, changes of the traces by own face, solution of the global system. -/
def condenseP (I : Inverse K) (slv : Solver K) (P : PSkeleton) (b : PBlocks K) : Option ((ℕ → ℕ → K) × (ℕ → ℕ → ℕ → K) × (ℕ → K)) := do
  let t := numberP P
  let inv ← inverses I b.elt P.sizes P.elts
  let x ← slv t.total (assembleP P t b inv).1 (assembleP P t b inv).2
  let w ← (P.ranks.zip t.globals).foldlM (fun w r => r.1.flatten.foldlM (backP P t b r.2 x) w) (b.rl, fun _ _ _ => 0)
  return (fun e => mulV (P.size e) (inv e) (w.1 e), w.2, x)

end Verif.Ihdg
