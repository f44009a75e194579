import Verif.Model.Geometry
import Mathlib.Analysis.Real.Sqrt
import Mathlib.Algebra.Order.Floor.Semiring

/-!
# Polynomial bases

Models `source/basis/polynomials/basis_polynomials.cpp`, `source/basis/bases_1D/basis_legendre_1D.cpp` and
`source/basis/bases_2D/basis_dubiner_2D.cpp`, one evaluation point at a time.

Simplifications: doubles are elements of a field. `uint` products wrap at 2^32 as in the code. A NaN in `n1` is `none`.
-/

namespace Verif.Basis
open Verif.Geometry

variable {K : Type} [Field K]

/-- Conversion to `uint`. -/
def u32 (n : ℕ) : ℕ := n % 2 ^ 32

/-- Subtraction of `uint`s. -/
def usub (a b : ℕ) : ℕ := u32 (a + 2 ^ 32 - u32 b)

/-- `basis_polynomials.cpp` line 27. -/
def a1 (i a b : ℕ) : ℕ := u32 (2 * (i + 1) * (i + a + b + 1) * (2 * i + a + b))
/-- Line 28. -/
def a2 (i a b : ℕ) : ℕ := u32 ((2 * i + a + b + 1) * usub (a * a) (b * b))
/-- Line 29. -/
def a3 (i a b : ℕ) : ℕ := u32 ((2 * i + a + b) * (2 * i + a + b + 1) * (2 * i + a + b + 2))
/-- Line 30. -/
def a4 (i a b : ℕ) : ℕ := u32 (2 * (i + a) * (i + b) * (2 * i + a + b + 2))

/-- Lines 15, 22: the polynomial of degree one. -/
def linear (a b : ℕ) (x : K) : K := ((usub a b : K) + ((u32 (a + b + 2) : ℕ) : K) * x) / 2

/-- Lines 20-24: the three rows of `J` before the loop. -/
def rows0 (a b : ℕ) (x : K) : ℕ → K := fun r => if r = 0 then 1 else if r = 1 then linear a b x else 0

/-- Lines 32-34: the row `(i + 1) % 3` is overwritten. -/
def rowStep (a b : ℕ) (x : K) (J : ℕ → K) (i : ℕ) : ℕ → K := fun r =>
  if r = (i + 1) % 3 then (((a2 i a b : K) + (a3 i a b : K) * x) * J (i % 3) - (a4 i a b : K) * J ((i - 1) % 3)) / (a1 i a b : K) else J r

/-- Lines 4-43 (`jacobi_polynomial`). -/
def jacobi (n a b : ℕ) (x : K) : K :=
  if n = 0 then 1
  else if n = 1 then linear a b x
  else ((List.range' 1 (n - 1)).foldl (rowStep a b x) (rows0 a b x)) (n % 3)

/-- Lines 45-67 (`jacobi_polynomial_derivative`). -/
def jacobiDeriv (n a b : ℕ) (x : K) : K :=
  if n = 0 then 0
  else if n = 1 then ((u32 (a + b + n + 1) : ℕ) : K) / 2
  else jacobi (n - 1) (a + 1) (b + 1) x * (((u32 (a + b + n + 1) : ℕ) : K) / 2)

/-! ### Legendre basis: `basis_legendre_1D.cpp` -/

/-- Lines 4-21 (`GetPhi`). -/
def legendre (dof : ℕ) (x : K) : K := jacobi dof 0 0 x

/-- Lines 23-44 (`GetDPhi`). -/
def legendreDeriv (dof : ℕ) (x : K) : K := jacobiDeriv dof 0 0 x

/-- Lines 46-58 (`GetMinv`). -/
def legendreMinv (i j : ℕ) : K := if i = j then ((2 * i + 1 : ℕ) : K) / 2 else 0

/-! ### Dubiner basis: `basis_dubiner_2D.cpp` -/

/-- Lines 19-23, 49-53, 73-77: degrees (p, q) of a basis function. `rd` is the rounding of double operations; `1. + 8. * (dof + 1)` and
the division by two are exact. -/
noncomputable def dofPair (rd : ℝ → ℝ) (dof : ℕ) : ℕ × ℕ :=
  let tri := ⌈rd (-3 + rd (Real.sqrt (1 + 8 * ((dof : ℝ) + 1)))) / 2⌉₊
  let lower := (tri + 1) * tri / 2
  let p := dof - lower
  (p, tri - p)

/-- Lines 14, 44: the coordinate `n1`. It is NaN (`none`) at the vertex (-1, 1), the only point of the triangle with z2 = 1. -/
def n1 [DecidableEq K] (z : P2 K) : Option K := if z.y = 1 then none else some (2 * (1 + z.x) / (1 - z.y) - 1)

/-- Lines 85-111 (`ComputePhi`). -/
def phi [DecidableEq K] (p q : ℕ) (z : P2 K) : K :=
  match n1 z with
  | none => if p = 0 then (q : K) + 1 else 0
  | some n => jacobi p 0 0 n * ((1 - z.y) / 2) ^ p * jacobi q (2 * p + 1) 0 z.y

/-- Lines 177-193 (`ComputeSingularDPhiDZ1`). -/
def singular1 : ℕ → K × K
  | 0 => (3, 1)
  | q + 1 => let t := singular1 q; (t.1 + ((q + 1 : ℕ) : K) + 2, t.1 + t.2)

/-- Lines 195-211 (`ComputeSingularDPhiDZ2`). -/
def singular2 : ℕ → K × K
  | 0 => (1 / 2, 0)
  | q + 1 => let t := singular2 q; (t.1 + 1 / 2 * ((q + 1 + 1 : ℕ) : K), t.1 + t.2)

/-- Lines 113-139 (`ComputeDPhiDZ1`). -/
def dphi1 [DecidableEq K] (p q : ℕ) (z : P2 K) : K :=
  match n1 z with
  | none => if p = 1 then (singular1 q).2 else 0
  | some n => 2 / (1 - z.y) * jacobiDeriv p 0 0 n * ((1 - z.y) / 2) ^ p * jacobi q (2 * p + 1) 0 z.y

/-- Lines 141-175 (`ComputeDPhiDZ2`); `(int)(p - 1)` is -1 for p = 0. -/
def dphi2 [DecidableEq K] (p q : ℕ) (z : P2 K) : K :=
  match n1 z with
  | none => if p = 0 then 3 * (singular2 q).2 else if p = 1 then (singular2 (q + 1)).2 else 0
  | some n =>
    (1 + n) / (1 - z.y) * jacobiDeriv p 0 0 n * ((1 - z.y) / 2) ^ p * jacobi q (2 * p + 1) 0 z.y +
      jacobi p 0 0 n * (((1 - z.y) / 2) ^ p * jacobiDeriv q (2 * p + 1) 0 z.y -
        (p : K) / 2 * ((1 - z.y) / 2) ^ ((p : ℤ) - 1) * jacobi q (2 * p + 1) 0 z.y)

/-- Lines 65-83 (`GetMinv`): the diagonal entry of the basis function of degrees (p, q). -/
def minv (p q : ℕ) : K := ((2 * p + 1) * (p + q + 1) : ℕ) / 2

/-- Lines 213-234 (`GetBasisLinearT`): row of a dof, column of a vertex. -/
def basisLinear (dof v : ℕ) : K :=
  if dof = 0 then 1
  else if dof = 1 then (if v = 2 then 2 else -1)
  else if dof = 2 then (if v = 0 then -1 else if v = 1 then 1 else 0)
  else 0

/-- Lines 236-257 (`GetLinearBasisT`): row of a vertex, column of a dof. -/
def linearBasis (v dof : ℕ) : K :=
  if dof = 0 then 1 / 3
  else if dof = 1 then (if v = 2 then 1 / 3 else -1 / 6)
  else if dof = 2 then (if v = 0 then -1 / 2 else if v = 1 then 1 / 2 else 0)
  else 0

/-- `master_triangle.tpp` lines 124-128 (`ProjectBasisToLinear`): vertex values from the coefficients of the first `ndof` functions. -/
def basisToLinear (ndof : ℕ) (u : ℕ → K) (v : ℕ) : K := ((List.range ndof).map fun d => u d * basisLinear d v).sum

/-- Lines 130-134 (`ProjectLinearToBasis`): coefficients from vertex values. -/
def linearToBasis (w : ℕ → K) (dof : ℕ) : K := ((List.range 3).map fun v => w v * linearBasis v dof).sum

end Verif.Basis
