import Verif.Model.Basic
import Verif.Model.Util
import Verif.Model.Stepper
import Mathlib.Algebra.Field.Defs

/-!
# Meteorological data over time

Models `source/problem/SWE/problem_parser/swe_parser.hpp`: `Parser::ParseInput`, `ParseMeteoInput`, `InterpolateMeteoData`.

Simplifications: the file system is a function from the file's step number to the records of the file (`none`: no such file; records up to the
first unreadable line); maps are functions into `Option`; `uint` arithmetic wraps at 2³² explicitly; doubles are elements of a field. Reading a
missing node's data (element 0 of an empty vector) and `% 0` are undefined behaviour. The pointers stored in the elements are
represented by the table of interpolated values itself.
-/

namespace Verif.Swe

variable {K : Type} [Field K]

/-- Wind stress (x, y) and pressure. -/
abbrev Wind (K : Type) := K × K × K

/-- One data set: node → record. -/
abbrev WindSet (K : Type) := ℕ → Option (Wind K)

/-- The members of `Parser` and what `ParseInput` leaves in the elements. -/
structure Meteo (K : Type) where
  /-- `node_meteo_data_step` -/
  sets : ℕ → Option (WindSet K)
  /-- keys of `node_meteo_data_interp` -/
  nodes : List ℕ
  /-- values of `node_meteo_data_interp` -/
  values : ℕ → Option (Wind K)

/-- A parser just constructed. -/
def Meteo.init : Meteo K := ⟨fun _ => none, [], fun _ => none⟩

/-- The content of the map after reading the records: later lines overwrite earlier ones. -/
def windSet (ls : List (ℕ × Wind K)) : WindSet K := fun n => ls.reverse.lookup n

/-- Lines 91-113 (and 115-138): read the data set number `k` if absent. The key is created by the first readable line. -/
def loadSet (files : ℕ → Option (List (ℕ × Wind K))) (k : ℕ) (sets : ℕ → Option (WindSet K)) : Res (ℕ → Option (WindSet K)) :=
  if (sets k).isSome then .ok sets
  else match files k with
    | none => .error .exc
    | some [] => .ok sets
    | some ls => .ok fun j => if j = k then some (windSet ls) else sets j

/-- `ParseMeteoInput`, lines 84-139. -/
def parseMeteo (files : ℕ → Option (List (ℕ × Wind K))) (freq step : ℕ) (sets : ℕ → Option (WindSet K)) : Res (ℕ → Option (WindSet K)) := do
  let old := (step + (2 ^ 32 - freq % 2 ^ 32)) % 2 ^ 32
  let sets := fun j => if j = old then none else sets j
  let sets ← loadSet files step sets
  loadSet files ((step + freq) % 2 ^ 32) sets

/-- Reading `node_meteo_data_step[k][node][0]`. -/
def windAt (sets : ℕ → Option (WindSet K)) (k n : ℕ) : Res (Wind K) :=
  match sets k with
  | none => .error .ub
  | some d => match d n with
    | none => .error .ub
    | some w => .ok w

/-- Lines 155-166: linear interpolation, component by component. -/
def interpWind (f : K) (a b : Wind K) : Wind K := (a.1 + f * (b.1 - a.1), a.2.1 + f * (b.2.1 - a.2.1), a.2.2 + f * (b.2.2 - a.2.2))

/-- The weight of line 152, and the two data sets used, lines 143-147. -/
def stepStart (freq step : ℕ) : ℕ := step - step % freq
def stepEnd (freq step : ℕ) : ℕ := (stepStart freq step + freq) % 2 ^ 32
def interpFactor (freq step : ℕ) (time dt : K) : K :=
  let ts := (stepStart freq step : K) * dt
  let te := (stepEnd freq step : K) * dt
  (time - ts) / (te - ts)

/-- `InterpolateMeteoData`, lines 141-167. -/
def interpolate (freq step : ℕ) (time dt : K) (sets : ℕ → Option (WindSet K)) : List ℕ → (ℕ → Option (Wind K)) → Res (ℕ → Option (Wind K))
  | [], v => .ok v
  | n :: ns, v => do
    let a ← windAt sets (stepStart freq step) n
    let b ← windAt sets (stepEnd freq step) n
    interpolate freq step time dt sets ns fun m => if m = n then some (interpWind (interpFactor freq step time dt) a b) else v m

/-- Lines 58-70: on the first call the nodes of the elements get entries. -/
def addNodes : List ℕ → List ℕ → List ℕ
  | [], l => l
  | n :: ns, l => addNodes ns (if n ∈ l then l else l ++ [n])

/-- Lines 53-55: new data are read at the first stage of a step that is a multiple of the frequency. -/
def refreshSets (files : ℕ → Option (List (ℕ × Wind K))) (freq step stage : ℕ) (sets : ℕ → Option (WindSet K)) : Res (ℕ → Option (WindSet K)) :=
  if step % freq = 0 ∧ stage = 0 then parseMeteo files freq step sets else .ok sets

/-- `ParseInput`, lines 51-81, with meteorological forcing on; `mesh` the node numbers of the elements in order. -/
def Meteo.parse (files : ℕ → Option (List (ℕ × Wind K))) (mesh : List ℕ) (freq : ℕ) (step stage : ℕ) (time dt : K) (p : Meteo K) : Res (Meteo K) :=
  if freq = 0 then .error .ub
  else do
    let sets ← refreshSets files freq step stage p.sets
    let nodes := if step = 0 ∧ stage = 0 then addNodes mesh p.nodes else p.nodes
    let values ← interpolate freq step time dt sets nodes p.values
    .ok ⟨sets, nodes, values⟩

/-- A read that the stepper model reports as out of range. -/
def ofOpt {α : Type} : Option α → Res α
  | none => .error .ub
  | some x => .ok x

/-- The first `n` stages of a run with the explicit stepper: `ParseInput` is called at the start of each stage
(`rkdg_swe_proc_serial_step.hpp` lines 15-20 and the parallel versions), the stepper is advanced at its end. -/
def meteoRun {K : Type} [Field K] [LinearOrder K] (files : ℕ → Option (List (ℕ × Wind K))) (mesh : List ℕ) (freq : ℕ) (tanh : K → K) (s0 : Stepper.Explicit K) : ℕ → Res (Meteo K)
  | 0 => .ok Meteo.init
  | n + 1 => do
    let p ← meteoRun files mesh freq tanh s0 n
    let s ← ofOpt (s0.incrN tanh n)
    let t ← ofOpt s.time
    p.parse files mesh freq s.step s.stage t s.dt

/-- Line 92: the name of the data file of a step; a name without a dot makes `insert` throw. -/
def meteoFile (base : List Char) (step : ℕ) : Res (List Char) :=
  if '.' ∈ base then
    let ext := (base.reverse.takeWhile (· ≠ '.')).length + 1
    .ok (base.take (base.length - ext) ++ '_' :: Verif.Util.dec step ++ base.drop (base.length - ext))
  else .error .exc

end Verif.Swe
