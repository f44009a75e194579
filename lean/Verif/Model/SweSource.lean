import Verif.Model.SweFlux

/-!
# Source terms of the shallow water equations

Models, one Gauss point at a time, `source/problem/SWE/problem_source/swe_source.hpp` (`get_source`),
`source/problem/SWE/problem_preprocessor/swe_pre_init_prob_params.hpp` lines 5-31 (which terms are switched on), lines 164-209 of
`swe_pre_init_data.hpp` (Manning and Coriolis coefficients) and the derivatives of the source in
`source/problem/SWE/discretization_IHDG/kernels_processor/ihdg_swe_proc_source.hpp` lines 27-65.

Simplifications: doubles are elements of an ordered field, `std::sqrt` and the cube root are parameters `sq` and `cb`;
`std::pow(h, 4.0 / 3.0)` is `h * cb h`. In `getSource` a division by zero gives zero (theorems assume a wet state); in the derivatives, where
divisions by zero happen in wet states too, the result is then `none` (an infinity or NaN in the code). The static
variables of `SourceTerms` are fields of a structure.
-/

namespace Verif.Swe
open Verif.Geometry

variable {K : Type} [Field K] [LinearOrder K]

/-- The variables in `SWE::SourceTerms` and `Global` (`swe_definitions.hpp` 7-26) that the source looks at. -/
structure SourceTerms (K : Type) where
  g : K
  rhoWater : K
  functionSource : Bool
  bottomFriction : Bool
  meteoForcing : Bool
  tidePotential : Bool
  coriolis : Bool
  Cf : K
deriving DecidableEq, Repr

/-- Values of the static variables before `initialize_problem_parameters`. -/
def SourceTerms.default [OfScientific K] : SourceTerms K := ⟨9.81, 1000, false, false, false, false, false, 0⟩

/-- `BottomFrictionType`. -/
inductive Friction where | none | chezy | manning
deriving DecidableEq, Repr

/-- The part of `SWE::Inputs` that selects source terms; types with one nontrivial value are `Bool`. -/
structure SourceInputs (K : Type) where
  g : K
  rhoWater : K
  functionSource : Bool
  friction : Friction
  coefficient : K
  meteoForcing : Bool
  tidePotential : Bool
  coriolis : Bool

/-- `initialize_problem_parameters`, lines 5-31. -/
def SourceTerms.setup (s : SourceTerms K) (i : SourceInputs K) : SourceTerms K where
  g := i.g
  rhoWater := i.rhoWater
  functionSource := i.functionSource || s.functionSource
  bottomFriction := i.friction != .none || s.bottomFriction
  meteoForcing := i.meteoForcing || s.meteoForcing
  tidePotential := i.tidePotential || s.tidePotential
  coriolis := i.coriolis || s.coriolis
  Cf := if i.friction = .none then s.Cf else i.coefficient

/-- `SWE::Source` (`swe_data_source.hpp`) with the values at one Gauss point of what `get_source` could use. -/
structure EltSource (K : Type) where
  manning : Bool
  gn2 : K
  coriolisF : K
  tauS : P2 K
  dpAtm : P2 K
  dtidePot : P2 K

/-- `swe_pre_init_data.hpp` lines 175-193: Manning's coefficient of an element with nodes `nodes`, table read from the file (later lines
win); a node without an entry has coefficient 0 (`operator[]` of the map). -/
def gManning (g : K) (file : List (ℕ × K)) (nodes : List ℕ) : K :=
  g * ((nodes.map fun n => (file.reverse.lookup n).getD 0).sum / nodes.length) ^ 2

/-- Lines 199-208: the Coriolis parameter, `sin` a parameter. -/
def coriolisParam (sin : K → K) (omega R : K) (ys : List K) : K := 2 * omega * sin (ys.sum / ys.length / R)

/-- `swe_source.hpp` lines 30-42: the friction coefficient at a Gauss point. -/
def frictionCf (cb : K → K) (s : SourceTerms K) (e : EltSource K) (h : K) : K :=
  if e.manning then
    let Cf := e.gn2 / cb h
    if Cf < s.Cf then s.Cf else Cf
  else s.Cf

/-- Line 44. -/
def frictionStress (sq cb : K → K) (s : SourceTerms K) (e : EltSource K) (q : Q K) (h : K) : K :=
  frictionCf cb s e h * hypot sq (q.qx / h) (q.qy / h) / h

/-- `get_source` at one Gauss point: `db` the gradient of the bathymetry, `fs` the value of the function source. -/
def getSource (sq cb : K → K) (s : SourceTerms K) (e : EltSource K) (fs : Q K) (q : Q K) (a : Aux K) (db : P2 K) : Q K :=
  let r : Q K := ⟨0, s.g * (db.x * q.ze), s.g * (db.y * q.ze)⟩
  let r := if s.functionSource then r + fs else r
  if s.bottomFriction then
    let k := frictionStress sq cb s e q a.h
    ⟨r.ze, r.qx - k * q.qx, r.qy - k * q.qy⟩
  else r

/-! ### Derivatives for the implicit scheme -/

/-- A quotient which is not a number (or infinite) for denominator zero. -/
def fdiv (a b : K) : Option K := if b = 0 then none else some (a / b)

/-- `ihdg_swe_proc_source.hpp` lines 38-48: coefficient and its derivative with respect to the water level. -/
def frictionCfD (cb : K → K) (s : SourceTerms K) (e : EltSource K) (h : K) : K × K :=
  if e.manning then
    let Cf := e.gn2 / cb h
    let d := -e.gn2 / (h * cb h) / 3
    if Cf < s.Cf then (s.Cf, 0) else (Cf, d)
  else (s.Cf, 0)

/-- Derivatives of the two momentum sources, rows `qx_*` and `qy_*` of `dsource_dq_at_gp`. -/
structure SourceD (K : Type) where
  qx_ze : K
  qx_qx : K
  qx_qy : K
  qy_ze : K
  qy_qx : K
  qy_qy : K
deriving DecidableEq, Repr

/-- Lines 27-65. `none`: an entry is not a finite number. -/
def dsource (sq cb : K → K) (s : SourceTerms K) (e : EltSource K) (q : Q K) (a : Aux K) : Option (SourceD K) :=
  if s.bottomFriction then do
    let u ← fdiv q.qx a.h
    let v ← fdiv q.qy a.h
    let c := frictionCfD cb s e a.h
    let k := c.1 * hypot sq u v / a.h
    let C ← fdiv c.1 (hypot sq u v * a.h)
    let r ← fdiv (c.2 * k) c.1
    return ⟨-(-2 * k * u + r * q.qx), -(k + C * u * u), -(C * u * v), -(-2 * k * v + r * q.qy), -(C * u * v), -(k + C * v * v)⟩
  else some ⟨0, 0, 0, 0, 0, 0⟩

end Verif.Swe
