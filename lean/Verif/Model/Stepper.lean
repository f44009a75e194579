import Mathlib.Data.Rat.Defs
import Mathlib.Algebra.Order.Field.Rat
import Mathlib.Data.Rat.Cast.Defs
import Mathlib.Algebra.Module.Defs
import Mathlib.Algebra.Order.Field.Basic

/-!
# Model of the time steppers

Models `source/simulation/stepper/explicit_ssp_rk_stepper.{hpp,cpp}`,
`source/simulation/stepper/implicit_stepper.hpp`,
`source/simulation/stepper/second_strang_stepper.hpp` and
`source/utilities/almost_equal.hpp`.

Simplifications: `double` is an exact field element; table entries are the exact decimal or rational
literals of the source.  `uint` counters wrap at `2^32` as in C++.
-/

namespace Verif.Stepper

/-- `explicit_ssp_rk_stepper.hpp` lines 14-15: the triangular coefficient arrays; row `i` has `i+1` entries
(`explicit_ssp_rk_stepper.cpp` lines 23-27). -/
structure Tableau where
  ark : List (List ℚ)
  brk : List (List ℚ)
deriving DecidableEq, Repr

/-- `explicit_ssp_rk_stepper.cpp` lines 30-32: the (1 stages, order 1) table. -/
def tab11 : Tableau where
  ark := [[1]]
  brk := [[1]]

/-- `explicit_ssp_rk_stepper.cpp` lines 35-41: the (2 stages, order 2) table. -/
def tab22 : Tableau where
  ark := [[1],
            [5/10, 5/10]]
  brk := [[1],
            [0, 5/10]]

/-- `explicit_ssp_rk_stepper.cpp` lines 44-53: the (3 stages, order 3) table. -/
def tab33 : Tableau where
  ark := [[1],
            [3/4, 1/4],
            [1/3, 0, 2/3]]
  brk := [[1],
            [0, 1/4],
            [0, 0, 2/3]]

/-- `explicit_ssp_rk_stepper.cpp` lines 56-66: the (4 stages, order 3) table. -/
def tab43 : Tableau where
  ark := [[1],
            [0, 1],
            [2/3, 0, 1/3],
            [0, 0, 0, 1]]
  brk := [[1/2],
            [0, 1/2],
            [0, 0, 1/6],
            [0, 0, 0, 1/2]]

/-- `explicit_ssp_rk_stepper.cpp` lines 69-83: the (5 stages, order 3) table. -/
def tab53 : Tableau where
  ark := [[1],
            [0, 1],
            [355909775063327/1000000000000000, 0, 644090224936674/1000000000000000],
            [367933791638137/1000000000000000, 0, 0, 632066208361863/1000000000000000],
            [0, 0, 237593836598569/1000000000000000, 0, 762406163401431/1000000000000000]]
  brk := [[377268915331368/1000000000000000],
            [0, 377268915331368/1000000000000000],
            [0, 0, 242995220537396/1000000000000000],
            [0, 0, 0, 23845893284629/100000000000000],
            [0, 0, 0, 0, 287632146308408/1000000000000000]]

/-- `explicit_ssp_rk_stepper.cpp` lines 86-102: the (6 stages, order 3) table. -/
def tab63 : Tableau where
  ark := [[1],
            [0, 1],
            [0, 0, 1],
            [476769811285196/1000000000000000, 98511733286064/1000000000000000, 0, 42471845542874/100000000000000],
            [0, 0, 0, 0, 1],
            [0, 0, 155221702560091/1000000000000000, 0, 0, 844778297439909/1000000000000000]]
  brk := [[284220721334261/1000000000000000],
            [0, 284220721334261/1000000000000000],
            [0, 0, 284220721334261/1000000000000000],
            [0, 0, 0, 12071378576593/100000000000000],
            [0, 0, 0, 0, 284220721334261/1000000000000000],
            [0, 0, 0, 0, 0, 2401034970659/10000000000000]]

/-- `explicit_ssp_rk_stepper.cpp` lines 105-124: the (7 stages, order 3) table. -/
def tab73 : Tableau where
  ark := [[1],
            [0, 1],
            [0, 0, 1],
            [184962588071072/1000000000000000, 0, 0, 815037411928928/1000000000000000],
            [18071865657038/100000000000000, 314831034403793/1000000000000000, 0, 0, 504450309025826/1000000000000000],
            [0, 0, 0, 0, 0, 1],
            [0, 0, 0, 120199/1000000, 0, 0, 879801/1000000]]
  brk := [[233213863663009/1000000000000000],
            [0, 233213863663009/1000000000000000],
            [0, 0, 233213863663009/1000000000000000],
            [0, 0, 0, 190078023865845/1000000000000000],
            [0, 0, 0, 0, 117644805593912/1000000000000000],
            [0, 0, 0, 0, 0, 233213863663009/1000000000000000],
            [0, 0, 0, 0, 0, 0, 205181790464579/1000000000000000]]

/-- `explicit_ssp_rk_stepper.cpp` lines 127-149: the (8 stages, order 3) table. -/
def tab83 : Tableau where
  ark := [[1],
            [0, 1],
            [0, 0, 1],
            [0, 0, 0, 1],
            [421366967085359/1000000000000000, 5949401107575/1000000000000000, 0, 0, 572683631807067/1000000000000000],
            [0, 4254010666365/1000000000000000, 0, 0, 0, 995745989333635/1000000000000000],
            [0, 0, 104380143093325/1000000000000000, 243265240906726/1000000000000000, 0, 0, 65235461599995/100000000000000],
            [0, 0, 0, 0, 0, 0, 0, 1]]
  brk := [[195804015330143/1000000000000000],
            [0, 195804015330143/1000000000000000],
            [0, 0, 195804015330143/1000000000000000],
            [0, 0, 0, 195804015330143/1000000000000000],
            [0, 0, 0, 0, 112133754621673/1000000000000000],
            [0, 0, 0, 0, 0, 194971062960412/1000000000000000],
            [0, 0, 0, 0, 0, 0, 127733653231944/1000000000000000],
            [0, 0, 0, 0, 0, 0, 0, 195804015330143/1000000000000000]]

/-- `explicit_ssp_rk_stepper.cpp` lines 152-170: the (5 stages, order 4) table. -/
def tab54 : Tableau where
  ark := [[1],
            [44437049406734/100000000000000, 55562950593266/100000000000000],
            [6201018513854/10000000000000, 0, 3798981486146/10000000000000],
            [17807995410773/100000000000000, 0, 0, 82192004589227/100000000000000],
            [683325884039/100000000000000, 0, 51723167208978/100000000000000, 12759831133288/100000000000000, 34833675773694/100000000000000]]
  brk := [[39175222700392/100000000000000],
            [0, 36841059262959/100000000000000],
            [0, 0, 25189177424738/100000000000000],
            [0, 0, 0, 54497475021237/100000000000000],
            [0, 0, 0, 8460416338212/100000000000000, 22600748319395/100000000000000]]

/-- `explicit_ssp_rk_stepper.cpp` lines 173-194: the (6 stages, order 4) table. -/
def tab64 : Tableau where
  ark := [[1],
            [30948026455053/100000000000000, 69051973544947/100000000000000],
            [54205244285557/100000000000000, 0, 45794755714443/100000000000000],
            [35984960863377/100000000000000, 0, 0, 64015039136623/100000000000000],
            [0, 0, 0, 0, 1],
            [5776282890116/100000000000000, 0, 44216432622405/100000000000000, 0, 10115567086469/100000000000000, 39891717401009/100000000000000]]
  brk := [[39270746575722/100000000000000],
            [0, 30154043149172/100000000000000],
            [0, 0, 19997937335132/100000000000000],
            [0, 0, 0, 27954483459696/100000000000000],
            [0, 0, 0, 0, 43668618869443/100000000000000],
            [0, 0, 915093153168/10000000000000, 0, 4417328437472/100000000000000, 14911300530736/100000000000000]]

/-- `explicit_ssp_rk_stepper.cpp` lines 197-222: the (7 stages, order 4) table. -/
def tab74 : Tableau where
  ark := [[1],
            [20161507213829/100000000000000, 79838492786171/100000000000000],
            [19469598207921/100000000000000, 0, 80530401792079/100000000000000],
            [58143386885601/100000000000000, 0, 0, 41856613114399/100000000000000],
            [1934367892154/100000000000000, 0, 0, 0, 98065632107846/100000000000000],
            [0, 0, 0, 0, 0, 1],
            [6006304558847/100000000000000, 0, 30152730794242/100000000000000, 10518998496676/100000000000000, 1483791154585/100000000000000, 0, 5183817499565/10000000000000]]
  brk := [[30111872706068/100000000000000],
            [0, 24040865318216/100000000000000],
            [0, 0, 24249212077315/100000000000000],
            [0, 0, 0, 1260381006008/10000000000000],
            [0, 0, 0, 0, 29529398308716/100000000000000],
            [0, 0, 0, 0, 0, 30111872706068/100000000000000],
            [0, 0, 9079551914158/100000000000000, 288835935488/10000000000000, 0, 0, 15609445267839/100000000000000]]

/-- `explicit_ssp_rk_stepper.cpp` lines 225-254: the (8 stages, order 4) table. -/
def tab84 : Tableau where
  ark := [[1],
            [10645325745007/100000000000000, 89354674254993/100000000000000],
            [0, 0, 1],
            [57175518477257/100000000000000, 0, 0, 42824481522743/100000000000000],
            [19161667219044/100000000000000, 0, 0, 0, 80838332780956/100000000000000],
            [0, 0, 0, 0, 0, 1],
            [0, 0, 0, 0, 0, 0, 1],
            [2580435327923/100000000000000, 0, 3629901341774/100000000000000, 31859181340256/100000000000000, 5186768980103/100000000000000, 394407621732/10000000000000, 511633747411/100000000000000, 52288003045213/100000000000000]]
  brk := [[24120020561311/100000000000000],
            [0, 21552365802797/100000000000000],
            [0, 0, 24120020561311/100000000000000],
            [0, 0, 0, 1032927374856/10000000000000],
            [0, 0, 0, 0, 19498222488188/100000000000000],
            [0, 0, 0, 0, 0, 24120020561311/100000000000000],
            [0, 0, 0, 0, 0, 0, 24120020561311/100000000000000],
            [0, 0, 875532949991/100000000000000, 6195575835101/100000000000000, 0, 951311994571/100000000000000, 0, 12611877085604/100000000000000]]

/-- `explicit_ssp_rk_stepper.cpp` lines 29-258: table selection in `InitializeCoefficients`; `none` is the
`std::logic_error("Fatal Error: invalid Runge-Kutta method entered!")` of line 257. -/
def tableau (nstages order : ℕ) : Option Tableau :=
  if nstages = 1 ∧ order = 1 then some tab11
  else if nstages = 2 ∧ order = 2 then some tab22
  else if nstages = 3 ∧ order = 3 then some tab33
  else if nstages = 4 ∧ order = 3 then some tab43
  else if nstages = 5 ∧ order = 3 then some tab53
  else if nstages = 6 ∧ order = 3 then some tab63
  else if nstages = 7 ∧ order = 3 then some tab73
  else if nstages = 8 ∧ order = 3 then some tab83
  else if nstages = 5 ∧ order = 4 then some tab54
  else if nstages = 6 ∧ order = 4 then some tab64
  else if nstages = 7 ∧ order = 4 then some tab74
  else if nstages = 8 ∧ order = 4 then some tab84
  else none

/-- Entry `(i,j)` of a triangular array, `none` if out of range (in C++: undefined behaviour for `[]`,
an exception for `.at`). -/
def entry (m : List (List ℚ)) (i j : ℕ) : Option ℚ := (m[i]?).bind (·[j]?)

/-- `explicit_ssp_rk_stepper.cpp` lines 262-270: row `i` of `crk`, given the rows before it.  The loops fill the
entries `k < i`; the entry `k = i` keeps its initial value `0` (line 26).
`none` = `.at` throws (never happens for the tables, see `Props`). -/
def crkRow (tab : Tableau) (rows : List (List ℚ)) (i : ℕ) : Option (List ℚ) := do
  let body ← (List.range i).mapM fun k => do
    let casum ← (List.range' (k + 1) (i - (k + 1))).foldlM (fun (acc : ℚ) l => do
      let c ← entry rows l k
      let a ← entry tab.ark i l
      pure (acc + c * a)) 0
    let b ← entry tab.brk i k
    pure (b + casum)
  pure (body ++ [0])

/-- `explicit_ssp_rk_stepper.cpp` lines 262-270: all rows of `crk`. -/
def crk (tab : Tableau) (nstages : ℕ) : Option (List (List ℚ)) :=
  (List.range nstages).foldlM (fun rows i => do
    let r ← crkRow tab rows i
    pure (rows ++ [r])) []

/-- `explicit_ssp_rk_stepper.cpp` lines 272-276: the stage offsets `drk`. -/
def drk (tab : Tableau) (nstages : ℕ) : Option (List ℚ) := do
  let c ← crk tab nstages
  (List.range nstages).mapM fun k =>
    (List.range k).foldlM (fun (acc : ℚ) l => do
      let x ← entry c (k - 1) l
      pure (acc + x)) 0

/-- `almost_equal.hpp` lines 16-22 with machine epsilon `eps` and `factor` as parameters. -/
def almostEqual {K : Type} [Field K] [LinearOrder K] (eps factor a b : K) : Bool :=
  if max |a| |b| < eps * factor then true
  else decide (|a - b| < max |a| |b| * eps * factor)

/-- `std::numeric_limits<double>::epsilon()` = 2⁻⁵². -/
def epsDouble (K : Type) [Field K] : K := 1 / 2 ^ 52

/-- `general_definitions.hpp` line 28: `uint` is a 32-bit unsigned integer. -/
def u32 : ℕ := 2 ^ 32

/-- `explicit_ssp_rk_stepper.hpp` lines 13-30: the data members. -/
structure Explicit (K : Type) where
  tab : Tableau
  drk : List ℚ
  order : ℕ
  nstages : ℕ
  dt : K
  step : ℕ
  stage : ℕ
  timestamp : ℕ
  t : K
  rampDuration : K
  ramp : K

section
variable {K : Type} [Field K] [LinearOrder K]

/-- The test `almost_equal(ramp_duration, 0)` with the default factor 100. -/
def noRamp (rampDuration : K) : Bool := almostEqual (epsDouble K) 100 rampDuration 0

/-- `explicit_ssp_rk_stepper.cpp` lines 3-14: the constructor.  `none` = `std::logic_error`. -/
def Explicit.init (order nstages : ℕ) (dt rampDuration : K) : Option (Explicit K) := do
  let tab ← tableau nstages order
  let d ← Stepper.drk tab nstages
  pure { tab := tab, drk := d, order := order, nstages := nstages, dt := dt, step := 0, stage := 0,
         timestamp := 0, t := 0, rampDuration := rampDuration,
         ramp := if noRamp rampDuration then 1 else 0 }

/-- `explicit_ssp_rk_stepper.hpp` line 46: `GetTimeAtCurrentStage`; `none` is an out-of-range `drk` access. -/
def Explicit.time (s : Explicit K) : Option K := (s.drk[s.stage]?).map fun d => s.t + s.dt * (d : K)

/-- `explicit_ssp_rk_stepper.hpp` lines 49-65: `operator++`.  `tanh` is a parameter (instantiated with
`Real.tanh` in the properties).  `none` covers the undefined cases `nstages = 0` and an out-of-range `drk`
index. -/
def Explicit.incr (tanh : K → K) (s : Explicit K) : Option (Explicit K) :=
  if s.nstages = 0 then none else
  let stage := (s.stage + 1) % u32 % s.nstages
  let timestamp := (s.timestamp + 1) % u32
  let s1 : Explicit K := { s with stage := stage, timestamp := timestamp }
  let s2 : Explicit K := if stage = 0 then { s1 with t := s1.t + s1.dt, step := (s1.step + 1) % u32 } else s1
  if noRamp s2.rampDuration then some s2
  else (s2.time).map fun tm => { s2 with ramp := tanh (2 * (tm / 86400) / s2.rampDuration) }

/-- `k` applications of `++`. -/
def Explicit.incrN (tanh : K → K) : ℕ → Explicit K → Option (Explicit K)
  | 0, s => some s
  | k + 1, s => (Explicit.incrN tanh k s).bind (Explicit.incr tanh)

end

/-! ### State update -/

/-- One entry of `elt.data.state`: the members used by the stepper (`swe_data_state.hpp`). -/
structure Slot (E : Type) where
  q : E
  solution : E

section
variable {K : Type} [Field K] {E : Type} [AddCommGroup E] [Module K E]

/-- `explicit_ssp_rk_stepper.hpp` lines 72-76: the accumulation loop for `next_state.q`.
`none` = out-of-range access. -/
def accumulate (tab : Tableau) (dt : K) (stage : ℕ) (slots : List (Slot E)) : Option E :=
  (List.range (stage + 1)).foldlM (fun (acc : E) s => do
    let a ← entry tab.ark stage s
    let b ← entry tab.brk stage s
    let sl ← slots[s]?
    pure (acc + ((a : K) • sl.q + (dt * (b : K)) • sl.solution))) 0

/-- Set the `q` member of slot `i` (out of range = undefined behaviour = `none`). -/
def setQ (slots : List (Slot E)) (i : ℕ) (q : E) : Option (List (Slot E)) := do
  let sl ← slots[i]?
  pure (slots.set i { sl with q := q })

/-- Set the `solution` member of slot `i`. -/
def setSolution (slots : List (Slot E)) (i : ℕ) (x : E) : Option (List (Slot E)) := do
  let sl ← slots[i]?
  pure (slots.set i { sl with solution := x })

/-- `explicit_ssp_rk_stepper.hpp` lines 67-81: `UpdateState`. The accumulation only reads slots `0..stage`, so
doing it before the store to slot `stage+1` is the same as the in-place accumulation of the source. -/
def updateState (tab : Tableau) (nstages : ℕ) (dt : K) (stage : ℕ) (slots : List (Slot E)) :
    Option (List (Slot E)) := do
  let v ← accumulate tab dt stage slots
  let slots ← setQ slots (stage + 1) v
  if stage + 1 = nstages then
    let s0 ← slots[0]?
    let sn ← slots[nstages]?
    let slots ← setQ slots 0 sn.q
    setQ slots nstages s0.q
  else pure slots

/-- `rkdg_swe_proc_serial_step.hpp` lines 28-67 (`stage_serial`) seen by one element: compute the right-hand side
from the current slot (`rhs i q`, abstracting all the kernels), store it as `solution`, `UpdateState`, `++` (stage
counter), then post-process (wetting/drying, limiting: `post`) the slot of the *new* stage. -/
def stageStep (tab : Tableau) (nstages : ℕ) (dt : K) (rhs : ℕ → E → E) (post : ℕ → E → E)
    (stage : ℕ) (slots : List (Slot E)) : Option (List (Slot E) × ℕ) := do
  let cur ← slots[stage]?
  let slots ← setSolution slots stage (rhs stage cur.q)
  let slots ← updateState tab nstages dt stage slots
  let stage' := (stage + 1) % nstages
  let new ← slots[stage']?
  let slots ← setQ slots stage' (post stage new.q)
  pure (slots, stage')

/-- `rkdg_swe_proc_serial_step.hpp` lines 9-26 (`step_serial`): the loop over the stages of one step. -/
def runStages (tab : Tableau) (nstages : ℕ) (dt : K) (rhs : ℕ → E → E) (post : ℕ → E → E) :
    ℕ → List (Slot E) × ℕ → Option (List (Slot E) × ℕ)
  | 0, st => some st
  | k + 1, st => (runStages tab nstages dt rhs post k st).bind fun st =>
      stageStep tab nstages dt rhs post st.2 st.1

/-- `serial/simulation.hpp` lines 60-62: the loop over time steps, each running all `nstages` stages.  Right-hand side
and post-processing may differ from step to step (forcing). -/
def runSteps (tab : Tableau) (nstages : ℕ) (dt : K) (rhs : ℕ → ℕ → E → E) (post : ℕ → ℕ → E → E) :
    ℕ → List (Slot E) × ℕ → Option (List (Slot E) × ℕ)
  | 0, st => some st
  | m + 1, st => (runSteps tab nstages dt rhs post m st).bind fun st =>
      runStages tab nstages dt (rhs m) (post m) nstages st

end

/-! ### Implicit stepper -/

/-- `implicit_stepper.hpp` lines 13-27. -/
structure Implicit (K : Type) where
  order : ℕ
  nstages : ℕ
  dt : K
  theta : K
  step : ℕ
  stage : ℕ
  timestamp : ℕ
  t : K
  rampDuration : K
  ramp : K
  rampNext : K

section
variable {K : Type} [Field K] [LinearOrder K]

/-- `implicit_stepper.hpp` lines 31-55: the constructor; `none` = `std::logic_error`. -/
def Implicit.init (tanh : K → K) (order nstages : ℕ) (dt rampDuration : K) : Option (Implicit K) :=
  let mk (n : ℕ) (theta : K) : Implicit K :=
    { order := order, nstages := n, dt := dt, theta := theta, step := 0, stage := 0, timestamp := 0, t := 0,
      rampDuration := rampDuration,
      ramp := if noRamp rampDuration then 1 else 0,
      rampNext := if noRamp rampDuration then 1 else tanh (2 * (dt / 86400) / rampDuration) }
  if order = 1 ∧ nstages = 1 then some (mk nstages 0)
  else if order = 2 ∧ nstages = 1 then some (mk nstages (1 / 2))
  else if order = 2 ∧ nstages = 2 then some (mk 1 (1 / 2))
  else none

/-- `implicit_stepper.hpp` line 69. -/
def Implicit.time (s : Implicit K) : K := s.t
/-- `implicit_stepper.hpp` line 70. -/
def Implicit.timeNext (s : Implicit K) : K := s.t + s.dt

/-- `implicit_stepper.hpp` lines 74-91: `operator++`; `none` = modulo by zero. -/
def Implicit.incr (tanh : K → K) (s : Implicit K) : Option (Implicit K) :=
  if s.nstages = 0 then none else
  let stage := (s.stage + 1) % u32 % s.nstages
  let timestamp := (s.timestamp + 1) % u32
  let s1 : Implicit K := { s with stage := stage, timestamp := timestamp }
  let s2 : Implicit K := if stage = 0 then { s1 with t := s1.t + s1.dt, step := (s1.step + 1) % u32 } else s1
  if noRamp s2.rampDuration then some s2
  else some { s2 with ramp := s2.rampNext, rampNext := tanh (2 * (s2.timeNext / 86400) / s2.rampDuration) }

/-- `k` applications of `++`. -/
def Implicit.incrN (tanh : K → K) : ℕ → Implicit K → Option (Implicit K)
  | 0, s => some s
  | k + 1, s => (Implicit.incrN tanh k s).bind (Implicit.incr tanh)

/-! ### Strang splitting -/

/-- `second_strang_stepper.hpp` lines 10-13 for two explicit steppers. -/
structure Strang (K : Type) where
  first : Explicit K
  second : Explicit K

/-- `second_strang_stepper.hpp` lines 17-19: both steppers are built from the same input, then the first one's
time step is halved. -/
def Strang.init (order nstages : ℕ) (dt rampDuration : K) : Option (Strang K) := do
  let f ← Explicit.init order nstages dt rampDuration
  let s ← Explicit.init order nstages dt rampDuration
  pure { first := { f with dt := f.dt / 2 }, second := s }

/-- `ehdg_gn_proc_serial_step.hpp` lines 10-45: one full step increments the first stepper once per stage, the
second once per stage, then the first once per stage again. -/
def Strang.fullStep (tanh : K → K) (s : Strang K) : Option (Strang K) := do
  let f ← Explicit.incrN tanh s.first.nstages s.first
  let g ← Explicit.incrN tanh s.second.nstages s.second
  let f ← Explicit.incrN tanh f.nstages f
  pure { first := f, second := g }

/-- `k` full steps. -/
def Strang.run (tanh : K → K) : ℕ → Strang K → Option (Strang K)
  | 0, s => some s
  | k + 1, s => (Strang.run tanh k s).bind (Strang.fullStep tanh)

end

end Verif.Stepper
