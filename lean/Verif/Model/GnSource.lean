import Mathlib.Algebra.Field.Basic
import Mathlib.Data.Nat.Notation

/-!
# Source of the dispersive correction

Models the pointwise part of `source/problem/Green-Naghdi/discretization_EHDG/kernels_processor/ehdg_gn_proc_source.hpp` and of
`dispersive_correction_kernel` (`ehdg_gn_proc_volume.hpp`).

Simplifications: doubles are elements of a field; the arrays at one Gauss point are a structure, their rows are natural numbers as in the enumerations
of `gn_definitions.hpp`: `dir` is 0 for x and 1 for y; row `2 * i + dir` is the derivative in direction `dir` of row `i` of the next lower array.
-/

namespace Verif.Gn

variable {K : Type} [Field K]

/-- What the kernels read at a Gauss point of an element. -/
structure Pt (K : Type) where
  /-- `aux_at_gp`, row `h` -/
  h : K
  /-- `dze` evaluated at the Gauss point -/
  dze : ℕ → K
  /-- `dbath_at_gp` -/
  dbath : ℕ → K
  /-- `ddbath_at_gp` -/
  ddbath : ℕ → K
  /-- `dddbath_at_gp` -/
  dddbath : ℕ → K
  /-- `u_at_gp` -/
  u : ℕ → K
  /-- `du_at_gp` -/
  du : ℕ → K
  /-- `ddu_at_gp` -/
  ddu : ℕ → K

/-- Line 62: `c1`. -/
def c1 (a : Pt K) : K := a.du 2 * a.du 1 + a.du 0 * a.du 0 + a.du 0 * a.du 3 + a.du 3 * a.du 3

/-- Lines 64-65: `c2`. -/
def c2 (a : Pt K) : K :=
  a.du 1 * a.ddu 4 + a.du 2 * a.ddu 2 + 2 * (a.du 0 * a.ddu 0) + a.du 3 * a.ddu 0 + a.du 0 * a.ddu 6 + 2 * (a.du 3 * a.ddu 6)

/-- Lines 67-68: `c3`. -/
def c3 (a : Pt K) : K :=
  a.du 1 * a.ddu 5 + a.du 2 * a.ddu 3 + 2 * (a.du 0 * a.ddu 1) + a.du 3 * a.ddu 1 + a.du 0 * a.ddu 7 + 2 * (a.du 3 * a.ddu 7)

/-- Lines 70-71: `c4`; the bed is counted upwards, so that all derivatives of the bathymetry change sign (lines 22-23, 48-60). -/
def c4 (a : Pt K) : K :=
  a.u 0 * a.u 0 * -a.ddbath 0 + a.u 0 * a.u 1 * -a.ddbath 1 + a.u 0 * a.u 1 * -a.ddbath 2 + a.u 1 * a.u 1 * -a.ddbath 3

/-- Lines 73-77: `c5`. -/
def c5 (a : Pt K) : K :=
  2 * (a.u 0 * a.du 0 * -a.ddbath 0) + a.u 0 * a.u 0 * -a.dddbath 0 + a.du 0 * a.u 1 * -a.ddbath 1 + a.u 0 * a.du 2 * -a.ddbath 1 +
    a.u 0 * a.u 1 * -a.dddbath 2 + a.du 0 * a.u 1 * -a.ddbath 2 + a.u 0 * a.du 2 * -a.ddbath 2 + a.u 0 * a.u 1 * -a.dddbath 4 +
    2 * (a.u 1 * a.du 2 * -a.ddbath 3) + a.u 1 * a.u 1 * -a.dddbath 6

/-- Lines 79-83: `c6`. -/
def c6 (a : Pt K) : K :=
  2 * (a.u 0 * a.du 1 * -a.ddbath 0) + a.u 0 * a.u 0 * -a.dddbath 1 + a.du 1 * a.u 1 * -a.ddbath 1 + a.u 0 * a.du 3 * -a.ddbath 1 +
    a.u 0 * a.u 1 * -a.dddbath 3 + a.du 1 * a.u 1 * -a.ddbath 2 + a.u 0 * a.du 3 * -a.ddbath 2 + a.u 0 * a.u 1 * -a.dddbath 5 +
    2 * (a.u 1 * a.du 3 * -a.ddbath 3) + a.u 1 * a.u 1 * -a.dddbath 7

/-- Lines 28-29: `hx`, `hy`, as they are in the code. -/
def dh (a : Pt K) (dir : ℕ) : K := a.dze dir + -a.dbath dir

/-- Lines 85-95: `w1_rhs_kernel_at_gp`; `al` is `NDParameters::alpha`. -/
def dcSource (g al : K) (a : Pt K) (dir : ℕ) : K :=
  2 * (a.h * a.h * c1 a * dh a dir) + 2 / 3 * (a.h * a.h * a.h * (if dir = 0 then c2 a else c3 a)) + a.h * c4 a * dh a dir +
    1 / 2 * (a.h * a.h * (if dir = 0 then c5 a else c6 a)) + a.h * a.h * c1 a * -a.dbath dir + a.h * c4 a * -a.dbath dir +
    g / al * (a.dze dir * a.h)

/-- `ehdg_gn_proc_volume.hpp` lines 100-101: the correction of the discharge, `w1` the solution of the global problem at the point. -/
def correction (g al h dze w1 : K) : K := g / al * (dze * h) - w1

end Verif.Gn
