import Verif.Model.Condense

/-!
# Global problem of the dispersive correction (Green-Naghdi): numbering and static condensation

Models `source/problem/Green-Naghdi/discretization_EHDG/kernels_preprocessor/ehdg_gn_pre_init_global_prob.hpp` (`initialize_global_dc_problem_serial`)
and `kernels_processor/ehdg_gn_proc_serial_sol_glob_prob.hpp`.

Simplifications: as in `Condense`. All edges have the same number of unknowns (`m`, twice `mesh.GetP() + 1`). A system with a matrix as right-hand
side is solved column by column. `subvector` of a range outside of a vector fails (an exception of Blaze, an assertion of Eigen). The matrix is
preserved by `solve_sle` (true of Eigen; `solve_sle` of `use_blaze.hpp` overwrites it with its factors).
-/

namespace Verif.Gn
open Verif.Ihdg Verif.Ehdg

variable {K : Type}

/-- Elements, edges (interfaces, two faces, before boundaries, one face), `get_ndof` of the elements, unknowns of an edge. -/
structure Skel where
  elts : List ℕ
  edges : List (List Face)
  ndof : ℕ → ℕ
  m : ℕ

/-! ### Numbering -/

/-- `dc_global_dof_indx` of the edges and of the faces, and the number of numbered edges; all of it stays until it is overwritten. -/
structure Index where
  off : ℕ
  edge : ℕ → ℕ
  face : ℕ → ℕ → ℕ

/-- `boundary.dc_global_dof_indx = edge_internal.dc_global_dof_indx`. -/
def setIdx (t : ℕ → ℕ → ℕ) (c : Face) (n : ℕ) : ℕ → ℕ → ℕ := fun e f => if e = c.e ∧ f = c.f then n else t e f

/-- One edge takes the next number: lines 27-30, 67-69 of the preprocessor, lines 21-24, 35-37 of the processor. -/
def numberEdge (t : Index) (x : List Face × ℕ) : Index :=
  ⟨t.off + 1, Function.update t.edge x.2 t.off, x.1.foldl (fun a c => setIdx a c t.off) t.face⟩

/-- `initialize_global_dc_problem_serial`: all edges; `dc_global_dof_offset` is 0 before (`ehdg_gn_pre_serial.hpp`). -/
def initial (s : Skel) : Index := s.edges.zipIdx.foldl numberEdge ⟨0, fun _ => 0, fun _ _ => 0⟩

/-- An edge takes part if one of its elements is wet: lines 17-20, 33-34. -/
def wetEdge (wet : ℕ → Bool) (x : List Face) : Bool := x.any fun c => wet c.e

/-- Lines 9-43: with wetting and drying the edges at wet elements are numbered again. -/
def renumber (s : Skel) (wet : ℕ → Bool) (t : Index) : Index :=
  s.edges.zipIdx.foldl (fun t x => if wetEdge wet x.1 then numberEdge t x else t) { t with off := 0 }

/-! ### The system -/

/-- The matrices which the kernels leave: `w1_w1`, `w1_w2`, `w2_w1`, `w2_w2`, `w1_rhs` of elements; `w1_w1_hat`, `w2_w1_hat`, `w1_hat_w1`, `w1_hat_w2`
of faces; `w1_hat_w1_hat` of edges. -/
structure DcBlocks (K : Type) where
  a11 : ℕ → ℕ → ℕ → K
  a12 : ℕ → ℕ → ℕ → K
  a21 : ℕ → ℕ → ℕ → K
  a22 : ℕ → ℕ → ℕ → K
  r1 : ℕ → ℕ → K
  a1h : ℕ → ℕ → ℕ → ℕ → K
  a2h : ℕ → ℕ → ℕ → ℕ → K
  ah1 : ℕ → ℕ → ℕ → ℕ → K
  ah2 : ℕ → ℕ → ℕ → ℕ → K
  ahh : ℕ → ℕ → ℕ → K

variable [Field K] [LinearOrder K]

/-- `solve_sle` with a matrix of `c` columns on the right. -/
def solveCols (slv : Solver K) (n : ℕ) (A B : ℕ → ℕ → K) : ℕ → Option (ℕ → ℕ → K)
  | 0 => some B
  | c + 1 => do
    let t ← solveCols slv n A B c
    let x ← slv n A fun i => B i c
    return fun i j => if j = c then x i else t i j

/-- What lines 52-64 leave in a wet element: `w2_w2_inv`, `w1_w1_hat` of its faces, `w1_rhs`. -/
structure Local (K : Type) where
  inv : ℕ → ℕ → ℕ → K
  hat : ℕ → ℕ → ℕ → ℕ → K
  rhs : ℕ → ℕ → K

/-- Line 56: `w1_w1` with `w2` eliminated. -/
def schur (s : Skel) (b : DcBlocks K) (inv : ℕ → ℕ → K) (e i j : ℕ) : K :=
  b.a11 e i j - mul (s.ndof e) (mul (s.ndof e) (b.a12 e) inv) (b.a21 e) i j

/-- Lines 58-59: `w1_w1_hat` with `w2` eliminated. -/
def schurHat (s : Skel) (b : DcBlocks K) (inv : ℕ → ℕ → K) (e f i j : ℕ) : K :=
  b.a1h e f i j - mul (s.ndof e) (mul (s.ndof e) (b.a12 e) inv) (b.a2h e f) i j

/-- Lines 52-64: one wet element. -/
def elim (I : Inverse K) (slv : Solver K) (s : Skel) (b : DcBlocks K) (e : ℕ) :
    Option ((ℕ → ℕ → K) × (ℕ → ℕ → ℕ → K) × (ℕ → K)) := do
  let inv ← I (s.ndof e) (b.a22 e)
  let A := schur s b inv e
  let n := 2 * s.ndof e
  let h0 ← solveCols slv n A (schurHat s b inv e 0) s.m
  let h1 ← solveCols slv n A (schurHat s b inv e 1) s.m
  let h2 ← solveCols slv n A (schurHat s b inv e 2) s.m
  let r ← slv n A (b.r1 e)
  return (inv, fun f => if f = 0 then h0 else if f = 1 then h1 else h2, r)

/-- Lines 51-65: all wet elements. -/
def elimAll (I : Inverse K) (slv : Solver K) (s : Skel) (wet : ℕ → Bool) (b : DcBlocks K) : List ℕ → Option (Local K)
  | [] => some ⟨fun _ _ _ => 0, b.a1h, b.r1⟩
  | e :: l => do
    let t ← elimAll I slv s wet b l
    if wet e then
      let (inv, hat, r) ← elim I slv s b e
      return ⟨Function.update t.inv e inv, Function.update t.hat e hat, Function.update t.rhs e r⟩
    else return t

/-- Lines 82, 91, 152: `w1_hat_w1` with `w2` eliminated. -/
def hatSchur (s : Skel) (b : DcBlocks K) (l : Local K) (c : Face) (i j : ℕ) : K :=
  b.ah1 c.e c.f i j - mul (s.ndof c.e) (mul (s.ndof c.e) (b.ah2 c.e c.f) (l.inv c.e)) (b.a21 c.e) i j

/-- Lines 83-84, 92-93, 153-154: what the unknowns of an element at face `c` subtract from the coupling of the edge there to the edge at face `f`. -/
def through (s : Skel) (b : DcBlocks K) (l : Local K) (c : Face) (f i j : ℕ) : K :=
  mul (s.ndof c.e) (mul (s.ndof c.e) (b.ah2 c.e c.f) (l.inv c.e)) (b.a2h c.e f) i j +
    mul (2 * s.ndof c.e) (hatSchur s b l c) (l.hat c.e f) i j

/-- Lines 83, 92, 153: the edge's own block, wet sides only. -/
def ownDc (s : Skel) (wet : ℕ → Bool) (b : DcBlocks K) (l : Local K) (faces : List Face) (k i j : ℕ) : K :=
  b.ahh k i j - ((faces.filter fun c => wet c.e).map fun c => through s b l c c.f i j).sum

/-- Unknowns of the edge or face of number `n`. -/
def rangeAt (s : Skel) (n : ℕ) : List ℕ := (List.range s.m).map (n * s.m + ·)

/-- Lines 99-142, 158-181: what an edge adds to the sparse matrix. -/
def dcTriplets (s : Skel) (t : Index) (wet : ℕ → Bool) (b : DcBlocks K) (l : Local K) (x : List Face × ℕ) : List (ℕ × ℕ × K) :=
  if wetEdge wet x.1 then
    triplets (rangeAt s (t.edge x.2)) (rangeAt s (t.edge x.2)) (ownDc s wet b l x.1 x.2) ++
      (x.1.filter fun c => wet c.e).flatMap fun c => ((List.range 3).filter (· ≠ c.f)).flatMap fun f =>
        triplets (rangeAt s (t.edge x.2)) (rangeAt s (t.face c.e f)) fun i j => -through s b l c f i j
  else []

/-- Subtraction from a subvector. -/
def subSub (v : ℕ → K) (o n : ℕ) (x : ℕ → K) (i : ℕ) : K := if o ≤ i ∧ i < o + n then v i - x (i - o) else v i

/-- Lines 85-86, 94-95, 157: `subvector(w1_hat_rhs, …) -= …` at interfaces, `= …` at boundaries. -/
def rhsDc (s : Skel) (t : Index) (wet : ℕ → Bool) (b : DcBlocks K) (l : Local K) (v : ℕ → K) (x : List Face × ℕ) : ℕ → K :=
  if wetEdge wet x.1 then
    match x.1 with
    | [c] => setSub v (t.edge x.2 * s.m) s.m fun i => mulV (2 * s.ndof c.e) (fun i j => -hatSchur s b l c i j) (l.rhs c.e) i
    | cs => (cs.filter fun c => wet c.e).foldl (fun v c => subSub v (t.edge x.2 * s.m) s.m (mulV (2 * s.ndof c.e) (hatSchur s b l c) (l.rhs c.e))) v
  else v

/-- Lines 46-49, 66-183: matrix and right-hand side of the sparse system. -/
def assembleDc (s : Skel) (t : Index) (wet : ℕ → Bool) (b : DcBlocks K) (l : Local K) : (ℕ → ℕ → K) × (ℕ → K) :=
  (fromTriplets (s.edges.zipIdx.flatMap (dcTriplets s t wet b l)), s.edges.zipIdx.foldl (rhsDc s t wet b l) fun _ => 0)

/-- `subvector(w1_hat_rhs, dc_global_dof_indx * n, n)` is within the vector. -/
def inside (s : Skel) (t : Index) (k : ℕ) : Bool := t.edge k * s.m + s.m ≤ t.off * s.m

/-- Lines 187-213: one edge. The part of the vector is taken of every edge, wet or dry. -/
def backEdge (s : Skel) (t : Index) (wet : ℕ → Bool) (l : Local K) (x : ℕ → K) (r : ℕ → ℕ → K) (y : List Face × ℕ) : Option (ℕ → ℕ → K) :=
  if inside s t y.2 then
    some ((y.1.filter fun c => wet c.e).foldl (fun r c => Function.update r c.e fun i =>
      r c.e i - mulV s.m (l.hat c.e c.f) (fun j => x (t.edge y.2 * s.m + j)) i) r)
  else none

/-- `serial_solve_global_dc_problem`. `wd` is `PostProcessing::wetting_drying`. Returns the numbering, which stays for the next call, the solution of
the sparse system and `w1_rhs`, which is `w1` of the wet elements. -/
def solveDc (I : Inverse K) (slv : Solver K) (s : Skel) (wd : Bool) (wet : ℕ → Bool) (t0 : Index) (b : DcBlocks K) :
    Option (Index × (ℕ → K) × (ℕ → ℕ → K)) := do
  let t := if wd then renumber s wet t0 else t0
  let l ← elimAll I slv s wet b s.elts
  let (A, r) := assembleDc s t wet b l
  let x ← slv (t.off * s.m) A r
  let w ← s.edges.zipIdx.foldlM (backEdge s t wet l x) l.rhs
  return (t, x, w)

end Verif.Gn
