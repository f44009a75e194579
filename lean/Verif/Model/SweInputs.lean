import Verif.Model.Yaml
import Mathlib.Order.Defs.LinearOrder

/-!
# Settings of the shallow water problem

Models `source/problem/SWE/problem_input/swe_inputs.cpp` lines 4-210 (`Inputs::Inputs(YAML::Node&)`) and 315-441 (`as_yaml_node`), with the data
structures of `swe_inputs.hpp` lines 10-22 and 85-147.

Simplifications: doubles are elements of a type `V` with an order; warnings are not modelled. `meteo_forcing.frequency` has no initial value
(`swe_inputs.hpp` line 101): it is `none` unless it is read.
-/

namespace Verif.Input

/-- `InitialConditionsType`. -/
inductive IcType where
  | default
  | constant
  | function
deriving DecidableEq, Repr

/-- `BottomFrictionType`. -/
inductive BfType where
  | none
  | chezy
  | manning
deriving DecidableEq, Repr

structure Spherical (V : Type) where
  enable : Bool
  lon : V
  lat : V
  R : V
deriving DecidableEq

structure Initial (V : Type) where
  type : IcType
  ze : V
  qx : V
  qy : V
deriving DecidableEq

structure Friction (V : Type) where
  type : BfType
  coefficient : V
  file : String
deriving DecidableEq

structure Meteo (V : Type) where
  enable : Bool
  dataType : String
  raw : String
  file : String
  frequency : Option V
deriving DecidableEq

structure WetDry (V : Type) where
  enable : Bool
  ho : V
deriving DecidableEq

structure Slope (V : Type) where
  enable : Bool
  name : String
  M : V
  nu : V
deriving DecidableEq

/-- `SWE::Inputs` without the boundary data. -/
structure Settings (V : Type) where
  name : String
  g : V
  rhoAir : V
  rhoWater : V
  sp : Spherical V
  ic : Initial V
  functionSource : Bool
  bf : Friction V
  meteo : Meteo V
  tide : Bool
  coriolis : Bool
  wd : WetDry V
  sl : Slope V
deriving DecidableEq

variable {V : Type} [LinearOrder V]

/-- The initial values in `swe_inputs.hpp`. -/
structure Defaults (V : Type) where
  zero : V
  g : V
  rhoAir : V
  rhoWater : V
  R : V
  ho : V
  M : V
  nu : V

/-- Lines 8-24: a number with a default. -/
def readNumber (S : Scalars V) (n : Yaml) (k : String) (d : V) : Res V := do
  match ← n.get k with
  | some y => y.asDouble S
  | none => return d

/-- Lines 30-38. -/
def readSpherical (S : Scalars V) (d : Spherical V) (y : Yaml) : Res (Spherical V) := do
  if ← y.hasAll ["longitude_o", "latitude_o", "R"] then
    let lon ← y.doubleAt S "longitude_o"
    let lat ← y.doubleAt S "latitude_o"
    let R ← y.doubleAt S "R"
    return ⟨true, lon, lat, R⟩
  else return d

/-- Lines 49-58. -/
def readConstant (S : Scalars V) (d : Initial V) (y : Yaml) : Res (Initial V) := do
  if ← y.hasAll ["initial_surface_height", "initial_momentum_x", "initial_momentum_y"] then
    let ze ← y.doubleAt S "initial_surface_height"
    let qx ← y.doubleAt S "initial_momentum_x"
    let qy ← y.doubleAt S "initial_momentum_y"
    return ⟨.constant, ze, qx, qy⟩
  else return d

/-- Lines 45-66. -/
def readInitial (S : Scalars V) (d : Initial V) (y : Yaml) : Res (Initial V) := do
  if ← y.hasAll ["type"] then
    let t ← y.stringAt S "type"
    if t = "Constant" then readConstant S d y
    else if t = "Function" then return { d with type := .function }
    else return d
  else return d

/-- Lines 73-83 and 162-172: a switch. -/
def readSwitch (S : Scalars V) (d : Bool) (y : Yaml) : Res Bool := do
  if y.isNull then return d
  else
    let t ← y.asString S
    return if t = "Enable" then true else d

/-- Lines 93-103. -/
def readChezy (zero : V) (S : Scalars V) (d : Friction V) (y : Yaml) : Res (Friction V) := do
  if ← y.hasAll ["coefficient"] then
    let c ← y.doubleAt S "coefficient"
    if c < zero then throw .exc else return { d with type := .chezy, coefficient := c }
  else return d

/-- Lines 105-116. -/
def readManning (zero : V) (S : Scalars V) (y : Yaml) (d : Friction V) : Res (Friction V) := do
  if ← y.hasAll ["coefficient", "input_file"] then
    let c ← y.doubleAt S "coefficient"
    let f ← y.stringAt S "input_file"
    if c < zero then throw .exc else return ⟨.manning, c, f⟩
  else return d

/-- Lines 89-122. -/
def readFriction (zero : V) (S : Scalars V) (d : Friction V) (y : Yaml) : Res (Friction V) := do
  if ← y.hasAll ["type"] then
    let t ← y.stringAt S "type"
    if t = "Chezy" then readChezy zero S d y
    else if t = "Manning" then readManning zero S y d
    else return d
  else return d

/-- Lines 129-138. -/
def readMeteo (S : Scalars V) (d : Meteo V) (y : Yaml) : Res (Meteo V) := do
  if ← y.hasAll ["type", "raw_input_file", "input_file", "frequency"] then
    let t ← y.stringAt S "type"
    let r ← y.stringAt S "raw_input_file"
    let f ← y.stringAt S "input_file"
    let q ← y.doubleAt S "frequency"
    return ⟨true, t, r, f, some q⟩
  else return d

/-- Lines 145-155. -/
def readTide (S : Scalars V) (d : Bool) (y : Yaml) : Res Bool := do
  if ← y.hasAll ["type"] then
    let t ← y.stringAt S "type"
    return if t = "Test" then true else d
  else return d

/-- Lines 178-184. -/
def readWetDry (S : Scalars V) (d : WetDry V) (y : Yaml) : Res (WetDry V) := do
  if ← y.hasAll ["h_o"] then
    let h ← y.doubleAt S "h_o"
    return ⟨true, h⟩
  else return d

/-- Lines 194-202. -/
def readCockburn (S : Scalars V) (d : Slope V) (y : Yaml) : Res (Slope V) := do
  if ← y.hasAll ["M", "nu"] then
    let M ← y.doubleAt S "M"
    let nu ← y.doubleAt S "nu"
    return ⟨true, "Cockburn-Shu", M, nu⟩
  else return d

/-- Lines 190-208. -/
def readSlope (S : Scalars V) (d : Slope V) (y : Yaml) : Res (Slope V) := do
  if ← y.hasAll ["type"] then
    let t ← y.stringAt S "type"
    if t = "Cockburn-Shu" then readCockburn S d y else return d
  else return d

/-- A section that may be missing. -/
def section_ {α : Type} (n : Yaml) (k : String) (d : α) (f : α → Yaml → Res α) : Res α := do
  match ← n.get k with
  | some y => f d y
  | none => return d

/-- Default values. -/
def defSpherical (D : Defaults V) : Spherical V := ⟨false, D.zero, D.zero, D.R⟩
def defInitial (D : Defaults V) : Initial V := ⟨.default, D.zero, D.zero, D.zero⟩
def defFriction (D : Defaults V) : Friction V := ⟨.none, D.zero, ""⟩
def defMeteo : Meteo V := ⟨false, "", "", "", none⟩
def defWetDry (D : Defaults V) : WetDry V := ⟨false, D.ho⟩
def defSlope (D : Defaults V) : Slope V := ⟨false, "", D.M, D.nu⟩

/-- The constructor. A missing name is an assertion failure. -/
def readSwe (S : Scalars V) (D : Defaults V) (n : Yaml) : Res (Settings V) := do
  let name ← n.stringAt S "name"
  let g ← readNumber S n "gravity" D.g
  let ra ← readNumber S n "density_air" D.rhoAir
  let rw ← readNumber S n "density_water" D.rhoWater
  let sp ← section_ n "spherical_projection" (defSpherical D) (readSpherical S)
  let ic ← section_ n "initial_conditions" (defInitial D) (readInitial S)
  let fs ← section_ n "function_source" false (readSwitch S)
  let bf ← section_ n "bottom_friction" (defFriction D) (readFriction D.zero S)
  let me ← section_ n "meteo_forcing" defMeteo (readMeteo S)
  let ti ← section_ n "tide_potential" false (readTide S)
  let co ← section_ n "coriolis" false (readSwitch S)
  let wd ← section_ n "wetting_drying" (defWetDry D) (readWetDry S)
  let sl ← section_ n "slope_limiting" (defSlope D) (readSlope S)
  return ⟨name, g, ra, rw, sp, ic, fs, bf, me, ti, co, wd, sl⟩

/-- Lines 323-335. -/
def writeSpherical (S : Scalars V) (s : Spherical V) : Option Yaml :=
  if s.enable then some (.map [("type", .scalar "Enable"), ("longitude_o", .scalar (S.ofDouble s.lon)), ("latitude_o", .scalar (S.ofDouble s.lat)),
    ("R", .scalar (S.ofDouble s.R))])
  else none

/-- Lines 337-354. -/
def writeInitial (S : Scalars V) (s : Initial V) : Option Yaml :=
  match s.type with
  | .default => none
  | .constant => some (.map [("type", .scalar "Constant"), ("initial_surface_height", .scalar (S.ofDouble s.ze)),
      ("initial_momentum_x", .scalar (S.ofDouble s.qx)), ("initial_momentum_y", .scalar (S.ofDouble s.qy))])
  | .function => some (.map [("type", .scalar "Function")])

/-- Lines 356-362 and 408-414. -/
def writeSwitch (b : Bool) : Option Yaml := if b then some (.scalar "Enable") else none

/-- Lines 364-381. -/
def writeFriction (S : Scalars V) (s : Friction V) : Option Yaml :=
  match s.type with
  | .none => none
  | .chezy => some (.map [("type", .scalar "Chezy"), ("coefficient", .scalar (S.ofDouble s.coefficient))])
  | .manning => some (.map [("type", .scalar "Manning"), ("coefficient", .scalar (S.ofDouble s.coefficient)), ("input_file", .scalar s.file)])

/-- A number of type double as text; an uninitialised one is some text. -/
def freqText (S : Scalars V) : Option V → String
  | some x => S.ofDouble x
  | none => ""

/-- Lines 383-395. -/
def writeMeteo (S : Scalars V) (s : Meteo V) : Option Yaml :=
  if s.enable then some (.map [("type", .scalar s.dataType), ("raw_input_file", .scalar s.raw), ("input_file", .scalar s.file),
    ("frequency", .scalar (freqText S s.frequency))])
  else none

/-- Lines 397-406. -/
def writeTide (b : Bool) : Option Yaml := if b then some (.map [("type", .scalar "Test")]) else none

/-- Lines 416-425. -/
def writeWetDry (S : Scalars V) (s : WetDry V) : Option Yaml := if s.enable then some (.map [("h_o", .scalar (S.ofDouble s.ho))]) else none

/-- Lines 427-438. -/
def writeSlope (S : Scalars V) (s : Slope V) : Option Yaml :=
  if s.enable then some (.map [("type", .scalar s.name), ("M", .scalar (S.ofDouble s.M)), ("nu", .scalar (S.ofDouble s.nu))]) else none

/-- `as_yaml_node`. -/
def writeSwe (S : Scalars V) (s : Settings V) : Yaml :=
  .map (entryOf "name" (some (.scalar s.name)) ++ (entryOf "gravity" (some (.scalar (S.ofDouble s.g))) ++
    (entryOf "density_air" (some (.scalar (S.ofDouble s.rhoAir))) ++ (entryOf "density_water" (some (.scalar (S.ofDouble s.rhoWater))) ++
    (entryOf "spherical_projection" (writeSpherical S s.sp) ++ (entryOf "initial_conditions" (writeInitial S s.ic) ++
    (entryOf "function_source" (writeSwitch s.functionSource) ++ (entryOf "bottom_friction" (writeFriction S s.bf) ++
    (entryOf "meteo_forcing" (writeMeteo S s.meteo) ++ (entryOf "tide_potential" (writeTide s.tide) ++
    (entryOf "coriolis" (writeSwitch s.coriolis) ++ (entryOf "wetting_drying" (writeWetDry S s.wd) ++
    entryOf "slope_limiting" (writeSlope S s.sl)))))))))))))

end Verif.Input
