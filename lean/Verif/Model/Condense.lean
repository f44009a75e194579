import Verif.Model.EhdgTrace
import Mathlib.Algebra.BigOperators.Group.List.Basic

/-!
# Global problem of the implicit discretization: numbering and static condensation

Models `source/problem/SWE/discretization_IHDG/kernels_preprocessor/ihdg_swe_pre_init_global_prob.hpp` (numbering of the unknowns) and
`kernels_processor/ihdg_swe_proc_serial_sol_glob_prob.hpp` (elimination of the element unknowns, assembly, solution, back substitution).

Simplifications: doubles are elements of a field. The skeleton is the list of its edges, interfaces first, then boundaries, each with its faces: two
for an interface, one for a boundary. Matrices are functions of row and column, their sizes are kept separately. The inverse of a matrix and the
solution of the sparse system are parameters which may fail. The sparse matrix is built as Eigen does, adding entries of equal position; with Blaze
the sparse solver is not implemented (`use_blaze.hpp`).
-/

namespace Verif.Ihdg
open Verif.Ehdg Verif.Edge

variable {K : Type}

/-- Face `f` of element `e`: `data.boundary[f]`. -/
structure Face where
  e : ℕ
  f : ℕ
deriving DecidableEq, Repr

/-- Elements and edges with the number of unknowns of each, and the number of faces of an element (`get_nbound`, 3). -/
structure Skeleton where
  elts : List ℕ
  edges : List (List Face)
  size : ℕ → ℕ
  esize : ℕ → ℕ

/-! ### Numbering -/

/-- `global_dof_indx` of the edges and of the faces, and the offset. -/
structure Numbering where
  off : ℕ
  edge : ℕ → List ℕ
  face : ℕ → ℕ → List ℕ

/-- `boundary.global_dof_indx = edge_internal.global_dof_indx`. -/
def setFace (t : ℕ → ℕ → List ℕ) (c : Face) (l : List ℕ) : ℕ → ℕ → List ℕ := fun e f => if e = c.e ∧ f = c.f then l else t e f

/-- `ihdg_swe_pre_init_global_prob.hpp` lines 37-47, 78-87: one edge. -/
def numberEdge (s : Skeleton) (t : Numbering) (x : List Face × ℕ) : Numbering :=
  let l := (List.range (s.esize x.2)).map (· + t.off)
  ⟨t.off + s.esize x.2, Function.update t.edge x.2 l, x.1.foldl (fun a c => setFace a c l) t.face⟩

/-- Lines 19-103, with `off` the initial value of `global_dof_offset` (0, `ihdg_swe_pre_serial.hpp`). -/
def number (s : Skeleton) : Numbering := s.edges.zipIdx.foldl (numberEdge s) ⟨0, fun _ => [], fun _ _ => []⟩

/-! ### The system -/

/-- The matrices and right-hand sides which the kernels leave: `delta_local`, `rhs_local` of elements; `delta_hat_local`, `delta_global` of faces;
`delta_hat_global`, `rhs_global` of edges. -/
structure Blocks (K : Type) where
  dl : ℕ → ℕ → ℕ → K
  rl : ℕ → ℕ → K
  dh : ℕ → ℕ → ℕ → ℕ → K
  dg : ℕ → ℕ → ℕ → ℕ → K
  dhg : ℕ → ℕ → ℕ → K
  rg : ℕ → ℕ → K

variable [Field K] [LinearOrder K]

/-- Product of matrices, `n` the common size. -/
def mul (n : ℕ) (a b : ℕ → ℕ → K) (i j : ℕ) : K := ∑ k ∈ Finset.range n, a i k * b k j

/-- Product of a matrix and a vector. -/
def mulV (n : ℕ) (a : ℕ → ℕ → K) (x : ℕ → K) (i : ℕ) : K := ∑ k ∈ Finset.range n, a i k * x k

/-- The inverse of a square matrix of a size, `none` if the library fails. -/
abbrev Inverse (K : Type) := ℕ → (ℕ → ℕ → K) → Option (ℕ → ℕ → K)

/-- `ihdg_swe_proc_serial_sol_glob_prob.hpp` lines 15-19; `inv e` is `delta_local_inv` of element `e`. -/
def inverses (I : Inverse K) (b : Blocks K) (s : Skeleton) : List ℕ → Option (ℕ → ℕ → ℕ → K)
  | [] => some fun _ _ _ => 0
  | e :: l => do
    let m ← I (s.size e) (b.dl e)
    let t ← inverses I b s l
    return Function.update t e m

/-- Lines 32-34, 95: the edge's own block. -/
def ownBlock (s : Skeleton) (b : Blocks K) (inv : ℕ → ℕ → ℕ → K) (faces : List Face) (k : ℕ) (i j : ℕ) : K :=
  b.dhg k i j - (faces.map fun c => mul (s.size c.e) (mul (s.size c.e) (b.dg c.e c.f) (inv c.e)) (b.dh c.e c.f) i j).sum

/-- Lines 36-37, 97. -/
def ownRhs (s : Skeleton) (b : Blocks K) (inv : ℕ → ℕ → ℕ → K) (faces : List Face) (k : ℕ) (i : ℕ) : K :=
  b.rg k i - (faces.map fun c => mulV (s.size c.e) (mul (s.size c.e) (b.dg c.e c.f) (inv c.e)) (b.rl c.e) i).sum

/-- Lines 54-55, 73-74, 114-115: coupling of the edge at face `c` to the edge at face `f` of the same element. -/
def conBlock (s : Skeleton) (b : Blocks K) (inv : ℕ → ℕ → ℕ → K) (c : Face) (f : ℕ) (i j : ℕ) : K :=
  mul (s.size c.e) (mul (s.size c.e) (fun i j => -b.dg c.e c.f i j) (inv c.e)) (b.dh c.e f) i j

/-- Lines 41-46, 59-64: the entries of a block, rows and columns numbered by lists. -/
def triplets (rows cols : List ℕ) (m : ℕ → ℕ → K) : List (ℕ × ℕ × K) :=
  rows.zipIdx.flatMap fun r => cols.zipIdx.map fun c => (r.1, c.1, m r.2 c.2)

/-- Lines 41-84, 101-125: everything an edge adds to the sparse matrix. -/
def edgeTriplets (s : Skeleton) (t : Numbering) (b : Blocks K) (inv : ℕ → ℕ → ℕ → K) (x : List Face × ℕ) : List (ℕ × ℕ × K) :=
  triplets (t.edge x.2) (t.edge x.2) (ownBlock s b inv x.1 x.2) ++
    x.1.flatMap fun c => ((List.range 3).filter (· ≠ c.f)).flatMap fun f => triplets (t.edge x.2) (t.face c.e f) (conBlock s b inv c f)

/-- `SparseMatrixMeta::get_sparse_matrix` of `use_eigen.hpp` (`setFromTriplets`): entries of equal position are added. -/
def fromTriplets (l : List (ℕ × ℕ × K)) (r c : ℕ) : K := ((l.filter fun x => x.1 = r ∧ x.2.1 = c).map fun x => x.2.2).sum

/-- Assignment to a subvector. -/
def setSub (v : ℕ → K) (o n : ℕ) (x : ℕ → K) (i : ℕ) : K := if o ≤ i ∧ i < o + n then x (i - o) else v i

/-- Lines 39, 99: the right-hand side of the sparse system; `global_dof_indx[0]` of an empty list is not defined, 0 here. -/
def assembleRhs (s : Skeleton) (t : Numbering) (b : Blocks K) (inv : ℕ → ℕ → ℕ → K) : ℕ → K :=
  s.edges.zipIdx.foldl (fun v x => setSub v ((t.edge x.2).headD 0) (t.edge x.2).length (ownRhs s b inv x.1 x.2)) fun _ => 0

/-- Lines 21-128: the sparse matrix. -/
def assemble (s : Skeleton) (t : Numbering) (b : Blocks K) (inv : ℕ → ℕ → ℕ → K) : ℕ → ℕ → K :=
  fromTriplets (s.edges.zipIdx.flatMap (edgeTriplets s t b inv))

/-- Lines 132-168: the traces' contributions are removed from the right-hand sides of the elements. -/
def removeTraces (t : Numbering) (b : Blocks K) (x : ℕ → K) (rl : ℕ → ℕ → K) (y : List Face × ℕ) : ℕ → ℕ → K :=
  y.1.foldl (fun rl c => Function.update rl c.e fun i =>
    rl c.e i - mulV (t.edge y.2).length (b.dh c.e c.f) (fun j => x ((t.edge y.2).headD 0 + j)) i) rl

/-- Lines 144, 162: the change of the trace of an edge. -/
def edgePart (t : Numbering) (x : ℕ → K) (k j : ℕ) : K := x ((t.edge k).headD 0 + j)

/-- Lines 15-180: changes of the element and of the edge unknowns. -/
def condense (I : Inverse K) (slv : Solver K) (s : Skeleton) (b : Blocks K) : Option ((ℕ → ℕ → K) × (ℕ → K)) := do
  let t := number s
  let inv ← inverses I b s s.elts
  let x ← slv t.off (assemble s t b inv) (assembleRhs s t b inv)
  let rl := s.edges.zipIdx.foldl (removeTraces t b x) b.rl
  return (fun e => mulV (s.size e) (inv e) (rl e), x)

end Verif.Ihdg
