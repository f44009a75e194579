import Mathlib.Algebra.Order.Field.Basic

/-!
# Straight triangles, master triangle, edges

Models `source/shape/shapes_2D/shape_straighttriangle.cpp` and the maps of `source/master/elements_2D/master_triangle.tpp`.

Simplifications: doubles are elements of an ordered field `K`, `std::sqrt` and `std::hypot` use a parameter `sq : K → K` (the theorems
assume that it is a square root); `determinant` and `inverse` of the linear algebra library are the usual 2×2 formulas; the third
coordinate of nodes is dropped (no function of this file reads it).
-/

namespace Verif.Geometry

variable {K : Type} [Field K] [LinearOrder K]

/-- A point of the plane. -/
structure P2 (K : Type) where
  x : K
  y : K
deriving DecidableEq, Repr

/-- `StraightTriangle::nodal_coordinates`. -/
structure Tri (K : Type) where
  a : P2 K
  b : P2 K
  c : P2 K
deriving DecidableEq, Repr

/-- `nodal_coordinates[k]` for k < 3. -/
def vertex (t : Tri K) (k : ℕ) : P2 K := if k = 0 then t.a else if k = 1 then t.b else t.c

/-- A 2×2 matrix. -/
structure M2 (K : Type) where
  m00 : K
  m01 : K
  m10 : K
  m11 : K
deriving DecidableEq, Repr

/-- `determinant` for 2×2 matrices. -/
def det (m : M2 K) : K := m.m00 * m.m11 - m.m01 * m.m10

/-- `inverse` for 2×2 matrices. -/
def inv (m : M2 K) : M2 K := ⟨m.m11 / det m, -m.m01 / det m, -m.m10 / det m, m.m00 / det m⟩

/-- Lines 100-105, 131-136, 150-155: the Jacobian matrix of the map from the master triangle. -/
def jac (t : Tri K) : M2 K :=
  ⟨(t.b.x - t.a.x) / 2, (t.c.x - t.a.x) / 2, (t.b.y - t.a.y) / 2, (t.c.y - t.a.y) / 2⟩

/-- Lines 96-110 (`GetJdet`). -/
def jdet (t : Tri K) : K := det (jac t)

/-- Lines 4-12: the constructor swaps the coordinates of the first and the last node of a clockwise triangle. -/
def construct (a b c : P2 K) : Tri K := if jdet ⟨a, b, c⟩ < 0 then ⟨c, b, a⟩ else ⟨a, b, c⟩

/-- Lines 23-30 (`GetArea`). -/
def area (t : Tri K) : K :=
  1 / 2 * (t.a.x * (t.b.y - t.c.y) + t.b.x * (t.c.y - t.a.y) + t.c.x * (t.a.y - t.b.y))

/-- `std::hypot`. -/
def hypot (sq : K → K) (x y : K) : K := sq (x * x + y * y)

/-- Length of the side from vertex `i` to vertex `j`. -/
def side (sq : K → K) (t : Tri K) (i j : ℕ) : K :=
  hypot sq ((vertex t i).x - (vertex t j).x) ((vertex t i).y - (vertex t j).y)

/-- Lines 32-40 (`GetRadius`). -/
def radius (sq : K → K) (t : Tri K) : K := 1 / (4 * area t) * side sq t 0 1 * side sq t 1 2 * side sq t 2 0

/-- Lines 42-50 (`GetPerimeter`). -/
def perimeter (sq : K → K) (t : Tri K) : K := side sq t 0 1 + side sq t 1 2 + side sq t 2 0

/-- Lines 52-61 (`GetLengths`). -/
def lengths (sq : K → K) (t : Tri K) (k : ℕ) : K := side sq t ((k + 1) % 3) ((k + 2) % 3)

/-- Lines 63-77 (`GetBarycentricCoordinates`). -/
def barycentre (t : Tri K) : P2 K := ⟨(t.a.x + t.b.x + t.c.x) / 3, (t.a.y + t.b.y + t.c.y) / 3⟩

/-- Lines 79-93 (`GetMidpointCoordinates`). -/
def midpoint (t : Tri K) (k : ℕ) : P2 K :=
  ⟨((vertex t ((k + 1) % 3)).x + (vertex t ((k + 2) % 3)).x) / 2, ((vertex t ((k + 1) % 3)).y + (vertex t ((k + 2) % 3)).y) / 2⟩

/-- Lines 112-125 (`GetSurfaceJ`). -/
def surfaceJ (sq : K → K) (t : Tri K) (k : ℕ) : K :=
  sq (((vertex t ((k + 2) % 3)).x - (vertex t ((k + 1) % 3)).x) ^ 2 + ((vertex t ((k + 2) % 3)).y - (vertex t ((k + 1) % 3)).y) ^ 2) / 2

/-- Lines 127-141 (`GetJinv`); rows are master coordinates, columns global coordinates. -/
def jinv (t : Tri K) : M2 K := inv (jac t)

/-- Lines 143-176 (`GetSurfaceNormal`). -/
def normal (sq : K → K) (t : Tri K) (k : ℕ) : P2 K :=
  let cw := jdet t / |jdet t|
  let p := vertex t ((k + 1) % 3)
  let q := vertex t ((k + 2) % 3)
  let length := hypot sq (q.x - p.x) (q.y - p.y)
  ⟨cw * (q.y - p.y) / length, -cw * (q.x - p.x) / length⟩

/-- Lines 178-191 (`GetPsi`), one point (z1, z2) given as `P2`. -/
def psi (k : ℕ) (z : P2 K) : K := if k = 0 then -(z.x + z.y) / 2 else if k = 1 then (1 + z.x) / 2 else (1 + z.y) / 2

/-- Lines 193-222 (`GetDPsi`): derivatives with respect to x and y. -/
def dpsi (t : Tri K) (k : ℕ) : P2 K :=
  let j := jinv t
  if k = 0 then ⟨-(1 / 2) * j.m00 - 1 / 2 * j.m10, -(1 / 2) * j.m01 - 1 / 2 * j.m11⟩
  else if k = 1 then ⟨1 / 2 * j.m00, 1 / 2 * j.m01⟩
  else ⟨1 / 2 * j.m10, 1 / 2 * j.m11⟩

/-- Lines 224-237 (`GetBoundaryPsi`). -/
def boundaryPsi (k : ℕ) (z : K) : K := if k = 0 then (1 - z) / 2 else (1 + z) / 2

/-- Lines 239-257 (`LocalToGlobalCoordinates`). -/
def localToGlobal (t : Tri K) (z : P2 K) : P2 K :=
  ⟨t.a.x * psi 0 z + t.b.x * psi 1 z + t.c.x * psi 2 z, t.a.y * psi 0 z + t.b.y * psi 1 z + t.c.y * psi 2 z⟩

/-- Lines 264-271, 291-298: the matrix `T`. -/
def tmat (t : Tri K) : M2 K := ⟨t.b.x - t.a.x, t.c.x - t.a.x, t.b.y - t.a.y, t.c.y - t.a.y⟩

/-- Lines 276-278, 300-302: the vector `lambda`. -/
def lambda (t : Tri K) (p : P2 K) : P2 K :=
  let i := inv (tmat t)
  ⟨(p.x - t.a.x) * i.m00 + (p.y - t.a.y) * i.m01, (p.x - t.a.x) * i.m10 + (p.y - t.a.y) * i.m11⟩

/-- Lines 259-286 (`GlobalToLocalCoordinates`). -/
def globalToLocal (t : Tri K) (p : P2 K) : P2 K := ⟨2 * (lambda t p).x - 1, 2 * (lambda t p).y - 1⟩

/-- Lines 288-308 (`ContainsPoint`). -/
def containsPoint (t : Tri K) (p : P2 K) : Bool :=
  decide ((lambda t p).x ≥ 0) && decide ((lambda t p).y ≥ 0) && decide ((lambda t p).x + (lambda t p).y ≤ 1)

/-- `master_triangle.tpp` lines 83-118 (`BoundaryToMasterCoordinates`), one point; other face numbers leave the zeros. -/
def boundaryToMaster (k : ℕ) (z : K) : P2 K :=
  if k = 0 then ⟨-z, z⟩ else if k = 1 then ⟨-1, -z⟩ else if k = 2 then ⟨z, -1⟩ else ⟨0, 0⟩

/-! ### Tessellation for output, for `N_DIV` = n divisions -/

/-- Pairs (i, j) of a double loop `for i in is, for j < count i`. -/
def pairs (is : List ℕ) (count : ℕ → ℕ) : List (ℕ × ℕ) := is.flatMap fun i => (List.range (count i)).map fun j => (i, j)

/-- `shape_straighttriangle.cpp` lines 310-334 (`GetVTK`): the points of the tessellation. -/
def vtkGlobal (t : Tri K) (n : ℕ) : List (P2 K) :=
  (pairs (List.range (n + 1)) fun i => n - i + 1).map fun p =>
    let z1 : K := -1 + 2 / (n : K) * (p.2 : K)
    let z2 : K := -1 + 2 / (n : K) * (p.1 : K)
    ⟨t.a.x * (-(z1 + z2) / 2) + t.b.x * ((1 + z1) / 2) + t.c.x * ((1 + z2) / 2),
      t.a.y * (-(z1 + z2) / 2) + t.b.y * ((1 + z1) / 2) + t.c.y * ((1 + z2) / 2)⟩

/-- Lines 342, 355: `pt_ID`, number of the point (i, j) when `first` points have been written before. -/
def ptId (n first i j : ℕ) : ℕ := first + (n + 1) * (n + 2) / 2 - (n - i + 1) * (n - i + 2) / 2 + j

/-- Lines 338-362: the point numbers of the cells (VTK type 5 for all). -/
def vtkCells (n first : ℕ) : List (ℕ × ℕ × ℕ) :=
  ((pairs (List.range n) fun i => n - i).map fun p =>
    (ptId n first p.1 p.2, ptId n first p.1 p.2 + 1, ptId n first p.1 p.2 + (n + 1 - p.1))) ++
  ((pairs ((List.range (n - 1)).map (· + 1)) fun i => n - i).map fun p =>
    (ptId n first p.1 p.2, ptId n first p.1 p.2 + 1, ptId n first p.1 p.2 - (n + 2 - p.1) + 1))

/-- `master_triangle.tpp` lines 154-178 (`VTKPostCell`). -/
def vtkPostCell (n : ℕ) : List (P2 K) :=
  let dz : K := 2 / (n : K)
  ((pairs (List.range n) fun i => n - i).map fun p => ⟨-1 + dz * (p.2 : K) + dz / 3, -1 + dz * (p.1 : K) + dz / 3⟩) ++
  ((pairs ((List.range (n - 1)).map (· + 1)) fun i => n - i).map fun p =>
    ⟨-1 + dz * (p.2 : K) + 2 * dz / 3, -1 + dz * (p.1 : K) - dz / 3⟩)

/-- `master_triangle.tpp` lines 180-196 (`VTKPostPoint`). -/
def vtkPostPoint (n : ℕ) : List (P2 K) :=
  (pairs (List.range (n + 1)) fun i => n - i + 1).map fun p => ⟨-1 + 2 / (n : K) * (p.2 : K), -1 + 2 / (n : K) * (p.1 : K)⟩

/-! ### Linear interpolation on the master triangle: `master_triangle.tpp` lines 20-60 -/

/-- `chi_baryctr`. -/
def chiBary : ℕ → K := fun _ => 1 / 3

/-- `chi_midpts(vertex, midpoint)`. -/
def chiMid (v m : ℕ) : K := if v = m then 0 else 1 / 2

/-- `chi_gp(vertex)` at the point z. -/
def chi (v : ℕ) (z : P2 K) : K := if v = 0 then -(z.x + z.y) / 2 else if v = 1 then (1 + z.x) / 2 else (1 + z.y) / 2

/-- `dchi_baryctr[z1 | z2][vertex]`, which is also `dchi_gp`. -/
def dchi (d v : ℕ) : K :=
  if d = 0 then (if v = 0 then -(1 / 2) else if v = 1 then 1 / 2 else 0)
  else (if v = 0 then -(1 / 2) else if v = 1 then 0 else 1 / 2)

/-- `element.hpp` lines 169-190: derivatives of the vertex functions with respect to x (`dir` 0) and y (`dir` 1). -/
def dchiGlobal (t : Tri K) (dir v : ℕ) : K :=
  let j := jinv t
  if dir = 0 then dchi 0 v * j.m00 + dchi 1 v * j.m10 else dchi 0 v * j.m01 + dchi 1 v * j.m11

end Verif.Geometry
