import Verif.Model.Element
import Verif.Model.Quadrature
import Mathlib.Analysis.Real.Sqrt

/-!
# The basis and the rules the program is compiled with

`source/problem/SWE/swe_definitions.hpp`, `source/geometry/mesh_definitions.hpp`: triangles use `Basis::Dubiner_2D`, `Integration::Dunavant_2D`
and `Integration::GaussLegendre_1D`. An unsupported degree (`GetRule` throws) gives an empty rule here; theorems assume supported degrees.
-/

namespace Verif.Element
open Verif.Geometry

/-- The number stored in a table, tables are in units of 2^-80. -/
noncomputable def tableVal (n : ℤ) : ℝ := (n : ℝ) / 2 ^ 80

/-- Dubiner basis, Dunavant and Gauss-Legendre rules; `rd` is the rounding of double operations. -/
noncomputable def codeNumerics (rd : ℝ → ℝ) : Numerics ℝ where
  basis := dubiner (Basis.dofPair rd)
  tri p := ((Quadrature.rule2 p).getD []).map fun x => (tableVal x.1, ⟨tableVal x.2.1, tableVal x.2.2⟩)
  line p := ((Quadrature.rule1 p).getD []).map fun x => (tableVal x.1, tableVal x.2)

end Verif.Element
