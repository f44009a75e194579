import Verif.Model.SweFlux
import Mathlib.Analysis.Complex.Trigonometric
import Mathlib.Analysis.SpecialFunctions.Trigonometric.Basic
import Mathlib.Analysis.SpecialFunctions.Exp

/-!
# The examples with known solutions

`examples/swe_manufactured_solution/*.hpp`, `examples/swe_parabolic_bowl/*.hpp`, `examples/gn_analytical_solution/*.hpp`: the functions copied over
`source/problem/SWE/problem_function_files/*.hpp` by the scripts of the examples; constants of the input files of the examples; `mesh_generators/bathymetry.hpp` and
the bed written by `scripts/correctness/test_swe_parallel_correctness.sh`.

Simplifications: doubles are real numbers; functions of the standard library are those of analysis. The alternatives in comments are left out.
-/

namespace Verif.Examples
open Verif.Swe

noncomputable section

/-! ### `examples/swe_manufactured_solution` -/

namespace Manufactured

/-- `manufactured_swe_initial_condition_functions.hpp` lines 32-38 (`ic_q`). -/
def ic (t x y : ℝ) : Q ℝ := ⟨Real.exp (Real.sin (3 * x) * Real.sin (3 * y) - Real.sin (3 * t)), Real.cos (x - 4 * t), Real.sin (y + 4 * t)⟩

/-- `manufactured_swe_true_solution_functions.hpp` lines 32-38 (`true_q`). -/
def trueQ (t x y : ℝ) : Q ℝ := ⟨Real.exp (Real.sin (3 * x) * Real.sin (3 * y) - Real.sin (3 * t)), Real.cos (x - 4 * t), Real.sin (y + 4 * t)⟩

/-- The exponential in `manufactured_swe_source_functions.hpp`. -/
def e (t x y : ℝ) : ℝ := Real.exp (-Real.sin (3 * t) + Real.sin (3 * x) * Real.sin (3 * y))

/-- `manufactured_swe_source_functions.hpp` lines 78-103 (`source_q`). -/
def source (t x y : ℝ) : Q ℝ where
  ze := -3 * e t x y * Real.cos (3 * t) + Real.cos (4 * t + y) + Real.sin (4 * t - x)
  qx := Real.cos (4 * t - x) * Real.cos (4 * t + y) / (2 + e t x y) - 4 * Real.sin (4 * t - x) +
    2 * Real.cos (4 * t - x) * Real.sin (4 * t - x) / (2 + e t x y) + 3 * e t x y * (2 + e t x y) * Real.cos (3 * x) * Real.sin (3 * y) -
    3 * e t x y * Real.cos (4 * t - x) ^ 2 * Real.cos (3 * x) * Real.sin (3 * y) / (2 + e t x y) ^ 2 -
    3 * e t x y * Real.cos (4 * t - x) * Real.cos (3 * y) * Real.sin (3 * x) * Real.sin (4 * t + y) / (2 + e t x y) ^ 2
  qy := 4 * Real.cos (4 * t + y) + 3 * e t x y * (2 + e t x y) * Real.cos (3 * y) * Real.sin (3 * x) +
    2 * Real.cos (4 * t + y) * Real.sin (4 * t + y) / (2 + e t x y) + Real.sin (4 * t - x) * Real.sin (4 * t + y) / (2 + e t x y) -
    3 * e t x y * Real.cos (4 * t - x) * Real.cos (3 * x) * Real.sin (3 * y) * Real.sin (4 * t + y) / (2 + e t x y) ^ 2 -
    3 * e t x y * Real.cos (3 * y) * Real.sin (3 * x) * Real.sin (4 * t + y) ^ 2 / (2 + e t x y) ^ 2

/-- `gravity` in `input_files/dgswemv2_input.15`. -/
def g : ℝ := 1

/-- The bed written by `test_swe_parallel_correctness.sh` lines 39-47. -/
def bath (_x _y : ℝ) : ℝ := 2

end Manufactured

/-- `mesh_generators/bathymetry.hpp` lines 4-14: the bed of the mesh generator as it is in the repository. -/
def generatorBath (_x _y : ℝ) : ℝ := 15 / 10

/-! ### `examples/swe_parabolic_bowl` -/

namespace Bowl

/-- `parabolic_bowl_initial_condition_functions.hpp` lines 12-14. -/
def alpha : ℝ := 1 / 10 ^ 7
def X : ℝ := 1
def Y : ℝ := -41884 / 100000

/-- `gravity` in `input_files/dgswemv2_input.15`. -/
def g : ℝ := 981 / 100

/-- `parabolic_bowl_bathymetry.hpp` lines 4-8. -/
def bath (x y : ℝ) : ℝ := -alpha * (x * x + y * y)

/-- `parabolic_bowl_initial_condition_functions.hpp` lines 7-28 (`ic_q`); `tau` is not used there. -/
def ic (_t x y : ℝ) : Q ℝ :=
  let r2 := x * x + y * y
  let bathymetry := -alpha * r2
  let water := 1 / (X + Y) + alpha * (Y * Y - X * X) / ((X + Y) * (X + Y)) * r2
  ⟨water - bathymetry, 0, 0⟩

/-- `input_files/mesh_generator_input.yml`: the basin is the square of the points with coordinates at most this in absolute value; `dgswemv2_input.15`: the run lasts this long. -/
def size : ℝ := 4000
def duration : ℝ := 3600

end Bowl

/-! ### `examples/gn_analytical_solution` -/

namespace Solitary

/-- `analytical_gn_initial_condition_functions.hpp` lines 8-15, `analytical_gn_true_solution_functions.hpp` lines 8-15. -/
def g : ℝ := 981 / 100
def ao : ℝ := 5 / 100
def Ho : ℝ := 5 / 10
def xo : ℝ := -5
def co : ℝ := Real.sqrt (g * (Ho + ao))
def w : ℝ := Real.sqrt (3 * ao) / (2 * Ho * Real.sqrt (Ho + ao))

/-- `analytical_gn_initial_condition_functions.hpp` lines 17-25 (`ic_q`). -/
def ic (t x _y : ℝ) : Q ℝ :=
  ⟨ao * (1 / Real.cosh (w * (x - xo - co * t))) ^ 2, co * ao * (1 / Real.cosh (w * (x - xo - co * t))) ^ 2, 0⟩

/-- `analytical_gn_true_solution_functions.hpp` lines 17-25 (`true_q`). -/
def trueQ (t x _y : ℝ) : Q ℝ :=
  ⟨ao * (1 / Real.cosh (w * (x - xo - co * t))) ^ 2, co * ao * (1 / Real.cosh (w * (x - xo - co * t))) ^ 2, 0⟩

/-- `analytical_gn_source_functions.hpp` lines 5-13 (`source_q`). -/
def source (_t _x _y : ℝ) : Q ℝ := ⟨0, 0, 0⟩

/-- `input_files/rectangular_mesh.14`: the bathymetry of all nodes. -/
def bath (_x _y : ℝ) : ℝ := 5 / 10

/-- `gn_definitions.hpp` line 24: `NDParameters::alpha`; nothing sets it. -/
def alpha : ℝ := 1159 / 1000

end Solitary

end

end Verif.Examples
