import Verif.Model.Basis
import Verif.Model.Quadrature
import Mathlib.Algebra.BigOperators.Group.Finset.Basic

/-!
# Vector layout and edge trace spaces

Models `flatten` and `reshape` of `source/utilities/linear_algebra/use_blaze.hpp` and `use_eigen.hpp`, and
`source/geometry/edge_boundary.hpp`, `source/geometry/edge_interface.hpp`.

Simplifications: doubles are elements of a field. Vectors and matrices are functions of their indices, with the sizes kept separately. Normals and
surface Jacobian are the same at all Gauss points (straight sides).
-/

namespace Verif.Edge
open Verif.Basis

variable {K : Type} [Field K]

/-! ### Layout -/

/-- `use_blaze.hpp` lines 189-215, `use_eigen.hpp` lines 176-202 (`flatten`, row major): an array of rows one after another, `n` columns each. -/
def flatten {α : Type} (n : ℕ) (a : ℕ → ℕ → α) (k : ℕ) : α := a (k / n) (k % n)

/-- `use_blaze.hpp` lines 136-150, `use_eigen.hpp` lines 119-135 (`reshape`, row major): the matrix over the memory of a vector, `n` columns. -/
def reshape {α : Type} (n : ℕ) (x : ℕ → α) (i j : ℕ) : α := x (i * n + j)

/-- The same with `SO::ColumnMajor`, `m` rows. -/
def reshapeCol {α : Type} (m : ℕ) (x : ℕ → α) (i j : ℕ) : α := x (j * m + i)

/-- `flatten` with `SO::ColumnMajor`, `m` rows. -/
def flattenCol {α : Type} (m : ℕ) (a : ℕ → ℕ → α) (k : ℕ) : α := a (k % m) (k / m)

/-! ### Edges -/

/-- `std::swap` of two entries. -/
def swapAt {α : Type} (f : ℕ → α) (i j : ℕ) : ℕ → α := Function.update (Function.update f i (f j)) j (f i)

/-- `edge_boundary.hpp` lines 63-67, `edge_interface.hpp` lines 68-72: the Gauss points for a basis that runs clockwise. -/
def turned {α : Type} (ngp : ℕ) (pts : ℕ → α) : ℕ → α := (List.range (ngp / 2)).foldl (fun f gp => swapAt f gp (ngp - gp - 1)) pts

/-- The tables of an edge: rows of `lambda_gp`, `edge_data.ndof`, number of Gauss points, basis at the Gauss points, weights, surface Jacobian. -/
structure Tables (K : Type) where
  rows : ℕ
  ndof : ℕ
  ngp : ℕ
  lam : ℕ → ℕ → K
  w : ℕ → K
  J : K

/-- `edge_boundary.hpp` lines 47-117, `edge_interface.hpp` lines 50-136: `p` is the degree of the element (the larger of both at an interface), the
rule is the one of degree 2 p + 1. `ndof` is the length of the first row of `lambda_gp`. -/
def tables (p : ℕ) (rule : List (K × K)) (J : K) (ccw : Bool) : Tables K :=
  let pts := fun gp => (rule.getD gp (0, 0)).2
  let pts' := if ccw then pts else turned rule.length pts
  ⟨p + 1, rule.length, rule.length, fun dof gp => legendre dof (pts' gp), fun gp => (rule.getD gp (0, 0)).1, J⟩

variable (E : Tables K)

/-- `int_lambda_fact(gp, dof)`, `edge_boundary.hpp` lines 80-85. -/
def intLam (gp dof : ℕ) : K := E.lam dof gp * (E.w gp * E.J)

/-- `int_lambda_lambda_fact(gp, lookup)`, lines 87-96: column `ndof * dof_i + dof_j`. -/
def intLamLam (gp k : ℕ) : K := flatten E.ndof (fun i j => E.lam i gp * intLam E gp j) k

/-- `m_inv`, line 110. -/
def minv (i j : ℕ) : K := legendreMinv i j / E.J

/-- `ComputeUgp`, lines 127-133. -/
def ugp (u : ℕ → K) (gp : ℕ) : K := ∑ dof ∈ Finset.range E.ndof, u dof * E.lam dof gp

/-- `IntegrationLambda`, lines 135-142. -/
def integral (dof : ℕ) (u : ℕ → K) : K := ∑ gp ∈ Finset.range E.ngp, u gp * intLam E gp dof

/-- `IntegrationLambdaLambda`, lines 144-152. -/
def integral2 (i j : ℕ) (u : ℕ → K) : K := ∑ gp ∈ Finset.range E.ngp, u gp * intLamLam E gp (E.ndof * i + j)

/-- `L2Projection`, lines 119-125. -/
def project (u : ℕ → K) (dof : ℕ) : K := ∑ k ∈ Finset.range E.ndof, integral E k u * minv E k dof

end Verif.Edge
