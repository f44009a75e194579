import Mathlib.Data.Nat.Digits.Defs
import Mathlib.Algebra.Order.Floor.Ring
import Mathlib.Data.Rat.Floor
import Verif.Model.Stepper

/-!
# Model of the utilities, thread ranges, output schedule

Models `source/utilities/{edge_types,heartbeat,heterogeneous_containers,tuple_helpers}.hpp`, the thread
partition of `source/simulation/ompi/simulation_ompi.hpp`, and the step count / output schedule of
`source/simulation/serial/simulation.hpp`, `source/simulation/writer.hpp`, `source/preprocessor/input_parameters.hpp`.
-/

namespace Verif.Util

/-! ### Decimal printing -/

/-- The character of a decimal digit. -/
def digitChar (d : ℕ) : Char := Char.ofNat (48 + d)

/-- `std::to_string(uint)` (used by `writer.hpp` lines 82-86, 143, 179; `simulation_ompi.hpp` lines 41-49;
`partitioner`): the decimal representation without leading zeros. Characters are modelled as `Char`. -/
def dec (n : ℕ) : List Char := if n = 0 then ['0'] else (Nat.digits 10 n).reverse.map digitChar

/-! ### Edge types -/

/-- `edge_types.hpp` line 4. -/
def INTERNAL : ℕ := 128
/-- `edge_types.hpp` line 5. -/
def DISTRIBUTED_OFFSET : ℕ := 64
/-- `edge_types.hpp` line 6. -/
def DISTRIBUTED : ℕ := INTERNAL + DISTRIBUTED_OFFSET
/-- `edge_types.hpp` lines 8-10. Codes are bytes (`uchar`), modelled as `ℕ`. -/
def isInternal (e : ℕ) : Bool := decide (e ≥ INTERNAL) && decide (e < DISTRIBUTED)
/-- `edge_types.hpp` lines 12-14. -/
def isDistributed (e : ℕ) : Bool := decide (e ≥ DISTRIBUTED)
/-- `edge_types.hpp` lines 16-18. -/
def isBoundary (e : ℕ) : Bool := decide (e < INTERNAL)
/-- `edge_types.hpp` lines 20-22: the sum is truncated to a byte. -/
def distributed (e : ℕ) : ℕ := (e + DISTRIBUTED_OFFSET) % 256

/-! ### Threads -/

/-- `simulation_ompi.hpp` line 69: units per thread; `size()` is 64-bit, the result is stored as `uint`. -/
def simPerThread (N T : ℕ) : ℕ := (N + T - 1) / T % 2 ^ 32
/-- `simulation_ompi.hpp` line 71 (`uint` product). -/
def beginSim (N T tid : ℕ) : ℕ := simPerThread N T * tid % 2 ^ 32
/-- `simulation_ompi.hpp` line 72. -/
def endSim (N T tid : ℕ) : ℕ := min (simPerThread N T * (tid + 1) % 2 ^ 32) (N % 2 ^ 32)
/-- `simulation_ompi.hpp` lines 76, 102 (and all `step_ompi` loops): `for (su = begin; su < end; ++su)`. -/
def unitsOf (N T tid : ℕ) : List ℕ := List.range' (beginSim N T tid) (endSim N T tid - beginSim N T tid)

/-! ### Steps and output -/

/-- `(uint)std::ceil(a / dt)`: `serial/simulation.hpp` line 47, `input_parameters.hpp` lines 229-230, 241-242, 253-254,
`swe_parser.hpp`.  `none` = division by zero or a value that does not fit in a `uint` (undefined conversion). -/
def ceilSteps (a dt : ℚ) : Option ℕ :=
  if dt = 0 then none
  else if 0 ≤ ⌈a / dt⌉ ∧ ⌈a / dt⌉ < 2 ^ 32 then some ⌈a / dt⌉.toNat else none

/-- `writer.hpp` line 123 (same at 153, 190): `stepper.GetStep() % frequency == 0`; `none` = modulo by zero. -/
def due (freq step : ℕ) : Option Bool := if freq = 0 then none else some (step % freq == 0)

/-- Effect of one `WriteOutput` for one format: the list of steps for which a file was written is extended. -/
def writeOutput (freq step : ℕ) (written : List ℕ) : Option (List ℕ) := do
  let d ← due freq step
  pure (if d then written ++ [step] else written)

/-- `serial/simulation.hpp` lines 75-81: the loop `for (uint step = 1; step <= n_steps; ++step)`, where each iteration runs
one full step and then `WriteOutput` with the stepper's step counter (`rkdg_swe_proc_serial_step.hpp` lines 15-25); after
`k` full steps this counter is `k` (see `explicit_clock`). -/
def runLoop (freq : ℕ) : ℕ → List ℕ → Option (List ℕ)
  | 0, written => some written
  | k + 1, written => (runLoop freq k written).bind (writeOutput freq (k + 1))

/-- `serial/simulation.hpp` lines 68-82 for one enabled format. `none` = undefined behaviour; for
`n_steps = 2^32 - 1` the `uint` loop condition never becomes false (non-termination). -/
def runOutput (freq nSteps : ℕ) : Option (List ℕ) :=
  if nSteps + 1 ≥ 2 ^ 32 then none
  else (writeOutput freq 0 []).bind (runLoop freq nSteps)

/-- `writer.hpp` lines 143, 179: `output_path + mesh name + "_data_" + step + ext`. -/
def dataFile (path mesh ext : List Char) (step : ℕ) : List Char := path ++ mesh ++ "_data_".toList ++ dec step ++ ext

/-! ### Heartbeat -/

/-- `heartbeat.hpp` lines 18-19 (clock ticks are integers). -/
structure HeartBeat where
  period : ℤ
  tNext : ℤ

/-- `heartbeat.hpp` lines 25-27: the constructor at time `now`; `none` = division by zero. Integer division truncates. -/
def HeartBeat.init (period now : ℤ) : Option HeartBeat :=
  if period = 0 then none else some ⟨period, (now.tdiv period + 2) * period⟩

/-- `heartbeat.hpp` lines 32-34: the `while` loop with a bound on the number of iterations; `none` = bound exceeded. -/
def advance (now period : ℤ) : ℕ → ℤ → Option ℤ
  | 0, t => if now > t then none else some t
  | fuel + 1, t => if now > t then advance now period fuel (t + period) else some t

/-- `heartbeat.hpp` lines 29-38: `Thump` at time `now`. With a positive period the loop needs at most
`now - t_next` iterations; otherwise it does not terminate (`none`). -/
def HeartBeat.thump (now : ℤ) (h : HeartBeat) : Option (Bool × HeartBeat) :=
  if now > h.tNext then (advance now h.period (now - h.tNext).toNat h.tNext).map fun t => (true, { h with tNext := t })
  else some (false, h)

/-- A sequence of polls; returns the results. -/
def HeartBeat.polls : List ℤ → HeartBeat → Option (List (ℤ × Bool) × HeartBeat)
  | [], h => some ([], h)
  | now :: ns, h => do
    let (b, h1) ← h.thump now
    let (rs, h2) ← HeartBeat.polls ns h1
    pure ((now, b) :: rs, h2)

/-! ### Heterogeneous containers -/

section het
variable {Ty : Type} [DecidableEq Ty] {α : Type}

/-- `tuple_helpers.hpp` lines 46-57: index of the first occurrence; `none` = does not compile (`has_type`). -/
def typeIndex (T : Ty) : List Ty → Option ℕ
  | [] => none
  | U :: Ts => if T = U then some 0 else (typeIndex T Ts).map (1 + ·)

/-- `heterogeneous_containers.hpp` line 19: one vector per type. Simplification: all objects have the Lean type `α`. -/
structure HetVec (Ty α : Type) where
  types : List Ty
  data : List (List α)

/-- Default construction: empty vectors. -/
def HetVec.empty (types : List Ty) : HetVec Ty α := ⟨types, types.map fun _ => []⟩

/-- `heterogeneous_containers.hpp` lines 24-30. -/
def HetVec.size (v : HetVec Ty α) : ℕ := v.data.foldl (fun s l => (s + l.length) % 2 ^ 32) 0

/-- `heterogeneous_containers.hpp` lines 38-43. -/
def HetVec.emplaceBack (v : HetVec Ty α) (T : Ty) (x : α) : Option (HetVec Ty α) := do
  let i ← typeIndex T v.types
  pure { v with data := v.data.modify i (· ++ [x]) }

/-- `heterogeneous_containers.hpp` lines 51-66; the inner `none` is `std::out_of_range`. -/
def HetVec.get (v : HetVec Ty α) (T : Ty) (k : ℕ) : Option (Option α) := do
  let i ← typeIndex T v.types
  let l ← v.data[i]?
  pure l[k]?

/-- A sequence of insertions. -/
def HetVec.insertAll : List (Ty × α) → HetVec Ty α → Option (HetVec Ty α)
  | [], v => some v
  | (T, x) :: ops, v => (v.emplaceBack T x).bind (HetVec.insertAll ops)

/-- `heterogeneous_containers.hpp` line 78: one map per type (association list, keys are unique by construction). -/
structure HetMap (Ty α : Type) where
  types : List Ty
  data : List (List (ℕ × α))

/-- Default construction: empty maps. -/
def HetMap.empty (types : List Ty) : HetMap Ty α := ⟨types, types.map fun _ => []⟩

/-- `std::map::emplace`: no effect if the key exists. -/
def mapEmplace (m : List (ℕ × α)) (k : ℕ) (x : α) : List (ℕ × α) :=
  if (m.lookup k).isSome then m else m ++ [(k, x)]

/-- `heterogeneous_containers.hpp` lines 97-102. -/
def HetMap.emplace (v : HetMap Ty α) (T : Ty) (k : ℕ) (x : α) : Option (HetMap Ty α) := do
  let i ← typeIndex T v.types
  pure { v with data := v.data.modify i (fun m => mapEmplace m k x) }

/-- `heterogeneous_containers.hpp` lines 110-125; the inner `none` is `std::out_of_range`. -/
def HetMap.get (v : HetMap Ty α) (T : Ty) (k : ℕ) : Option (Option α) := do
  let i ← typeIndex T v.types
  let l ← v.data[i]?
  pure (l.lookup k)

/-- `heterogeneous_containers.hpp` lines 83-89. -/
def HetMap.size (v : HetMap Ty α) : ℕ := v.data.foldl (fun s l => (s + l.length) % 2 ^ 32) 0

/-- A sequence of insertions. -/
def HetMap.insertAll : List (Ty × ℕ × α) → HetMap Ty α → Option (HetMap Ty α)
  | [], v => some v
  | (T, k, x) :: ops, v => (v.emplace T k x).bind (HetMap.insertAll ops)

end het

end Verif.Util
