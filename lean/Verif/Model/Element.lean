import Verif.Model.Geometry
import Verif.Model.Basis

/-!
# Elements: integration and differentiation factors

Models what `source/master/elements_2D/master_triangle.tpp` lines 5-87, `source/geometry/element.hpp`, `source/geometry/boundary.hpp` and
`source/geometry/interface.hpp` compute from a basis, the integration rules and a straight triangle.

Simplifications: doubles are elements of an ordered field. The basis and the integration rules, template parameters of the code, are
parameters here; the matrix returned by `GetMinv` is diagonal and given by its diagonal. The matrices of factors are functions of the Gauss
point and the number of the basis function; products with them are sums over Gauss points or basis functions. A row of values at Gauss points
of an element is a function on the master triangle, evaluated at the points of the rule. Coefficients are functions of the number of the basis
function; only numbers below `ndof` are meaningful.
-/

namespace Verif.Element
open Verif.Geometry

variable {K : Type} [Field K] [LinearOrder K]

/-- A basis: values and derivatives of the functions on the master triangle, diagonal of the inverse mass matrix. -/
structure BasisFns (K : Type) where
  phi : ℕ → P2 K → K
  dphi1 : ℕ → P2 K → K
  dphi2 : ℕ → P2 K → K
  minv : ℕ → K

/-- `Basis::Dubiner_2D`; `pair` gives the two indices of a basis function (`GetPhi` lines 17-22, `Verif.Basis.dofPair`). -/
def dubiner (pair : ℕ → ℕ × ℕ) : BasisFns K where
  phi d := Basis.phi (pair d).1 (pair d).2
  dphi1 d := Basis.dphi1 (pair d).1 (pair d).2
  dphi2 d := Basis.dphi2 (pair d).1 (pair d).2
  minv d := Basis.minv (pair d).1 (pair d).2

/-- Basis and integration rules: weights and points by degree of exactness. -/
structure Numerics (K : Type) where
  basis : BasisFns K
  tri : ℕ → List (K × P2 K)
  line : ℕ → List (K × K)

/-- `master_triangle.tpp` line 11. -/
def ndof (p : ℕ) : ℕ := (p + 1) * (p + 2) / 2

/-- Polynomial degree and shape of an element. -/
structure Elt (K : Type) where
  p : ℕ
  tri : Tri K
deriving DecidableEq, Repr

/-- `master_triangle.tpp` line 9: the rule of the element. -/
def Elt.gps (N : Numerics K) (e : Elt K) : List (K × P2 K) := N.tri (2 * e.p)

/-- `element.hpp` lines 361-366 (`ComputeUgp`), `boundary.hpp` 152-158, `interface.hpp`: the value at a point. -/
def Elt.value (N : Numerics K) (e : Elt K) (u : ℕ → K) (z : P2 K) : K := ((List.range (ndof e.p)).map fun d => u d * N.basis.phi d z).sum

/-- An entry of a 2×2 matrix. -/
def entry (m : M2 K) (i j : ℕ) : K := if i = 0 then (if j = 0 then m.m00 else m.m01) else (if j = 0 then m.m10 else m.m11)

/-- `element.hpp` lines 203-214 (`dphi_gp`): derivative of basis function `d` in direction `dir`. -/
def Elt.dphi (N : Numerics K) (e : Elt K) (dir d : ℕ) (z : P2 K) : K :=
  0 + N.basis.dphi1 d z * entry (jinv e.tri) 0 dir + N.basis.dphi2 d z * entry (jinv e.tri) 1 dir

/-- Lines 368-374 (`ComputeDUgp`). -/
def Elt.deriv (N : Numerics K) (e : Elt K) (dir : ℕ) (u : ℕ → K) (z : P2 K) : K :=
  ((List.range (ndof e.p)).map fun d => u d * e.dphi N dir d z).sum

/-- Lines 455-460 (`IntegrationPhi`) with `int_phi_fact` of line 219. -/
def Elt.intPhi (N : Numerics K) (e : Elt K) (f : P2 K → K) (d : ℕ) : K :=
  ((e.gps N).map fun wz => f wz.2 * (N.basis.phi d wz.2 * wz.1 * |jdet e.tri|)).sum

/-- Lines 480-486 (`IntegrationDPhi`) with `int_dphi_fact` of lines 232-244. -/
def Elt.intDPhi (N : Numerics K) (e : Elt K) (dir : ℕ) (f : P2 K → K) (d : ℕ) : K :=
  ((e.gps N).map fun wz => f wz.2 *
    ((0 + N.basis.dphi1 d wz.2 * wz.1 * entry (jinv e.tri) 0 dir + N.basis.dphi2 d wz.2 * wz.1 * entry (jinv e.tri) 1 dir) * |jdet e.tri|)).sum

/-- Lines 499-504 (`ApplyMinv`) with `m_inv` of line 261. -/
def Elt.applyMinv (N : Numerics K) (e : Elt K) (rhs : ℕ → K) (d : ℕ) : K := rhs d * (N.basis.minv d / |jdet e.tri|)

/-- Lines 311-317 (`L2ProjectionNode`): coefficients from values at the nodes. -/
def Elt.projectNode (N : Numerics K) (e : Elt K) (w : ℕ → K) (d : ℕ) : K :=
  e.intPhi N (fun z => w 0 * psi 0 z + w 1 * psi 1 z + w 2 * psi 2 z) d * (N.basis.minv d / |jdet e.tri|)

/-- `boundary.hpp` line 82, with the degree of the element, and `interface.hpp` lines 123-127, with the larger of two degrees. -/
def faceRule (N : Numerics K) (p : ℕ) : List (K × K) := N.line (2 * p + 1)

/-- The weight of Gauss point `gp`. -/
def weight (r : List (K × K)) (gp : ℕ) : K := (r.getD gp (0, 0)).1

/-- Gauss point `gp` of face `f` in the master triangle. -/
def facePt (r : List (K × K)) (f gp : ℕ) : P2 K := boundaryToMaster f (r.getD gp (0, 0)).2

/-- `boundary.hpp` lines 194-200 (`IntegrationPhi`) with `int_phi_fact` of lines 105-110, and the two versions of `interface.hpp`; `J` is the
length factor `surface_J[0]`. -/
def Elt.intFace (N : Numerics K) (r : List (K × K)) (f : ℕ) (J : K) (F : ℕ → K) (d : ℕ) : K :=
  ((List.range r.length).map fun gp => F gp * (N.basis.phi d (facePt r f gp) * (weight r gp * J))).sum

end Verif.Element
