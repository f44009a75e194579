import Verif.Model.SweInputs
import Verif.Model.Partition

/-!
# The input file

Models `source/preprocessor/input_parameters.hpp` lines 19-72 (data), 95-261 (constructor), 263-273 (constructor of a submesh), 295-391 (`write_to`),
394-436 (problem specific part), and the rewriting of the input file at the end of `partitioner/partitioner.cpp` (lines 106-109).

Simplifications: a file is its root node. Times are of an abstract type: `readTime` stands for `strptime` into a zeroed structure followed by `timegm`,
which normalises the structure, `writeTime` for `strftime`, `seconds` for `difftime`. `steps f dt` stands for `(uint)std::ceil(f / dt)`. Members
which are only meaningful when a switch is set are combined with the switch (`Option`).
-/

namespace Verif.Input

/-- `CoordinateSystem`. -/
inductive CoordSys where
  | cartesian
  | polar
  | spherical
deriving DecidableEq, Repr

/-- Library functions on times and numbers. -/
structure Lib (V Tm : Type) where
  readTime : String → Tm
  writeTime : Tm → String
  seconds : Tm → Tm → V
  steps : V → V → ℕ
  zero : V

/-- `MeshInput` without the mesh. -/
structure MeshIn where
  format : String
  file : String
  bcis : String
  dbmd : String
  coord : CoordSys
deriving DecidableEq

/-- `StepperInput`. -/
structure StepIn (V Tm : Type) where
  start : Tm
  stop : Tm
  runTime : V
  dt : V
  nstages : ℕ
  order : ℕ
  ramp : V
deriving DecidableEq

/-- A kind of output that is switched on: its frequency in time and in steps. -/
structure Every (V : Type) where
  frequency : V
  step : ℕ
deriving DecidableEq

/-- `WriterInput`. -/
structure WriterIn (V : Type) where
  path : String
  log : Option (Bool × String)
  vtk : Option (Every V)
  vtu : Option (Every V)
  modal : Option (Every V)
deriving DecidableEq

/-- `LoadBalancerInput`. -/
structure BalanceIn (V : Type) where
  name : String
  frequency : V
deriving DecidableEq

/-- `InputParameters`. -/
structure File (V Tm P : Type) where
  order : ℕ
  mesh : MeshIn
  stepper : StepIn V Tm
  problem : P
  balance : Option (BalanceIn V)
  writer : Option (WriterIn V)
deriving DecidableEq

/-- `s.substr(0, s.find_last_of('.'))` with an ending attached. -/
def withEnding (s ending : String) : String := String.ofList (Partition.stem s.toList ++ ending.toList)

variable {V Tm P : Type}

/-- A node that has to be there. -/
def need (n : Yaml) (k : String) : Res Yaml := do
  match ← n.get k with
  | some y => return y
  | none => throw .exc

/-- Lines 126-135. -/
def readCoord (s : String) : Res CoordSys :=
  if s = "cartesian" then .ok .cartesian
  else if s = "polar" then .ok .polar
  else if s = "spherical" then .ok .spherical
  else .error .exc

/-- Lines 111-139. -/
def readMesh (S : Scalars V) (y : Yaml) : Res MeshIn := do
  if ← y.hasAll ["format", "file_name", "coordinate_system"] then
    let f ← y.stringAt S "format"
    if f = "Adcirc" ∨ f = "Meta" then
      let m ← y.stringAt S "file_name"
      let c ← y.stringAt S "coordinate_system"
      let cs ← readCoord c
      return ⟨f, m, withEnding m ".bcis", withEnding m ".dbmd", cs⟩
    else throw .exc
  else throw .exc

/-- Lines 166-167. -/
def readRamp (S : Scalars V) (L : Lib V Tm) (y : Yaml) : Res V := do
  match ← y.get "ramp_duration" with
  | some r => r.asDouble S
  | none => return L.zero

/-- Lines 149-171. -/
def readStep (S : Scalars V) (L : Lib V Tm) (y : Yaml) : Res (StepIn V Tm) := do
  if ← y.hasAll ["start_time", "end_time", "dt", "order", "nstages"] then
    let a ← y.stringAt S "start_time"
    let b ← y.stringAt S "end_time"
    let dt ← y.doubleAt S "dt"
    let o ← y.uintAt S "order"
    let ns ← y.uintAt S "nstages"
    let r ← readRamp S L y
    return ⟨L.readTime a, L.readTime b, L.seconds (L.readTime b) (L.readTime a), dt, ns, o, r⟩
  else throw .exc

/-- Lines 188-195. -/
def readBalance (S : Scalars V) (y : Yaml) : Res (BalanceIn V) := do
  if ← y.hasAll ["name", "rebalance_frequency"] then
    let n ← y.stringAt S "name"
    let f ← y.doubleAt S "rebalance_frequency"
    return ⟨n, f⟩
  else throw .exc

/-- Lines 206-208: `back()` of an empty string is undefined behaviour. -/
def slashed (s : String) : Res String :=
  match s.toList.getLast? with
  | none => .error .ub
  | some c => .ok (if c ≠ '/' then String.ofList (s.toList ++ ['/']) else s)

/-- Lines 215-222. -/
def readLog (S : Scalars V) (y : Yaml) : Res (Bool × String) := do
  if ← y.hasAll ["verbose", "name"] then
    let v ← y.boolAt S "verbose"
    let n ← y.stringAt S "name"
    return (v, n)
  else throw .exc

/-- Lines 226-234 for `vtk`, 238-246 for `vtu`, 250-258 for `modal`. -/
def readEvery (S : Scalars V) (L : Lib V Tm) (dt : V) (y : Yaml) : Res (Every V) := do
  if ← y.hasAll ["frequency"] then
    let f ← y.doubleAt S "frequency"
    return ⟨f, L.steps f dt⟩
  else throw .exc

/-- A part that may be missing. -/
def optional {α : Type} (n : Yaml) (k : String) (f : Yaml → Res α) : Res (Option α) := do
  match ← n.get k with
  | some y => return some (← f y)
  | none => return none

/-- Lines 200-259. -/
def readWriter (S : Scalars V) (L : Lib V Tm) (dt : V) (y : Yaml) : Res (WriterIn V) := do
  let p ← (← need y "path").asString S
  let path ← slashed p
  let log ← optional y "logfile" (readLog S)
  let vtk ← optional y "vtk" (readEvery S L dt)
  let vtu ← optional y "vtu" (readEvery S L dt)
  let modal ← optional y "modal" (readEvery S L dt)
  return ⟨path, log, vtk, vtu, modal⟩

/-- Lines 95-261. -/
def readFile (S : Scalars V) (L : Lib V Tm) (problem : Yaml → Res P) (n : Yaml) : Res (File V Tm P) := do
  let o ← (← need n "polynomial_order").asUint S
  let m ← readMesh S (← need n "mesh")
  let t ← readStep S L (← need n "timestepping")
  let p ← problem (← need n "problem")
  let b ← optional n "load_balancer" (readBalance S)
  let w ← optional n "output" (readWriter S L t.dt)
  return ⟨o, m, t, p, b, w⟩

/-- Lines 263-273: the names of the files of a submesh. -/
def forSubmesh (f : File V Tm P) (loc sub : ℕ) : Res (File V Tm P) := do
  let a ← Partition.insertBeforeDot f.mesh.file.toList (Partition.suffix loc sub)
  let b ← Partition.insertBeforeDot f.mesh.dbmd.toList (Partition.suffix loc sub)
  return { f with mesh := { f.mesh with file := String.ofList a, dbmd := String.ofList b } }

/-- Lines 394-401: the partitioner keeps the node. -/
def keepNode (y : Yaml) : Res Yaml := .ok y

/-- Lines 403-419 and 421-436: only certain names are accepted. -/
def readProblem [LinearOrder V] (S : Scalars V) (D : Defaults V) (names : List String) (y : Yaml) : Res (Settings V) := do
  let name ← y.stringAt S "name"
  if name ∈ names then readSwe S D y else throw .exc

def sweNames : List String := ["rkdg_swe", "ehdg_swe", "ihdg_swe"]
def gnNames : List String := ["ehdg_gn", "ihdg_gn"]

/-- Lines 311-317. -/
def writeCoord : CoordSys → String
  | .cartesian => "cartesian"
  | .polar => "polar"
  | .spherical => "spherical"

/-- Lines 306-320. -/
def writeMesh (m : MeshIn) : Yaml :=
  .map [("format", .scalar m.format), ("file_name", .scalar m.file), ("coordinate_system", .scalar (writeCoord m.coord))]

/-- Lines 322-338. -/
def writeStep (S : Scalars V) (L : Lib V Tm) (t : StepIn V Tm) : Yaml :=
  .map [("start_time", .scalar (L.writeTime t.start)), ("end_time", .scalar (L.writeTime t.stop)), ("dt", .scalar (S.ofDouble t.dt)),
    ("order", .scalar (S.ofUint t.order)), ("nstages", .scalar (S.ofUint t.nstages)), ("ramp_duration", .scalar (S.ofDouble t.ramp))]

/-- Lines 353-363. -/
def writeEvery (S : Scalars V) (e : Every V) : Yaml := .map [("frequency", .scalar (S.ofDouble e.frequency))]

/-- Lines 348-351. -/
def writeLog (S : Scalars V) (l : Bool × String) : Yaml := .map [("name", .scalar l.2), ("verbose", .scalar (S.ofBool l.1))]

/-- Lines 343-366. -/
def writeWriter (S : Scalars V) (w : WriterIn V) : Yaml :=
  .map (entryOf "path" (some (.scalar w.path)) ++ (entryOf "logfile" (w.log.map (writeLog S)) ++ (entryOf "vtk" (w.vtk.map (writeEvery S)) ++
    (entryOf "vtu" (w.vtu.map (writeEvery S)) ++ entryOf "modal" (w.modal.map (writeEvery S))))))

/-- Lines 369-376. -/
def writeBalance (S : Scalars V) (b : BalanceIn V) : Yaml :=
  .map [("name", .scalar b.name), ("rebalance_frequency", .scalar (S.ofDouble b.frequency))]

/-- Lines 295-378 (`write_to`). -/
def writeFile (S : Scalars V) (L : Lib V Tm) (problem : P → Yaml) (f : File V Tm P) : Yaml :=
  .map (entryOf "polynomial_order" (some (.scalar (S.ofUint f.order))) ++ (entryOf "mesh" (some (writeMesh f.mesh)) ++
    (entryOf "timestepping" (some (writeStep S L f.stepper)) ++ (entryOf "problem" (some (problem f.problem)) ++
    (entryOf "output" (f.writer.map (writeWriter S)) ++ entryOf "load_balancer" (f.balance.map (writeBalance S)))))))

/-- `partitioner.cpp` lines 106-108: the mesh of the rewritten file. Only the two members are changed. -/
def toMeta (f : File V Tm P) : File V Tm P := { f with mesh := { f.mesh with file := withEnding f.mesh.file ".meta", format := "Meta" } }

end Verif.Input
