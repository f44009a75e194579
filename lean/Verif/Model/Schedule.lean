import Mathlib.Logic.Relation
import Mathlib.Data.List.Basic
import Mathlib.Logic.Function.Basic
import Mathlib.Data.List.FinRange
import Verif.Model.Util

/-!
# Threads, ranks and messages: the run as it is scheduled

Elsewhere in this model the ranks advance together: everybody sends, then everybody receives
(`Comm`, `SweRanks`, `EhdgRanks`).  Here the machine itself is modelled: every thread of every rank is
a straight line of operations on the simulation units it owns, the operations of different threads are
interleaved in any order, messages travel in channels, and a thread may have to wait.

Sources:

* `source/simulation/ompi/simulation_ompi.hpp` lines 62-91: the parallel region, the units of a thread
  and the loop over steps.
* `source/communication/ompi_communicator.cpp` lines 60-80: `SendAll`, `ReceiveAll`, `WaitAllSends` and
  `WaitAllReceives` start, or wait for, the persistent requests of one communication type.
* `source/problem/SWE/discretization_RKDG/kernels_processor/rkdg_swe_proc_ompi_step.hpp` lines 9-131,
  `source/problem/SWE/discretization_EHDG/kernels_processor/ehdg_swe_proc_ompi_step.hpp` lines 9-156,
  `source/problem/SWE/problem_slope_limiter/swe_CS_sl_ompi.hpp` lines 10-78: the text of a stage.
* `source/problem/SWE/discretization_RKDG/kernels_preprocessor/rkdg_swe_pre_ompi.hpp` and
  `source/problem/SWE/discretization_EHDG/kernels_preprocessor/ehdg_swe_pre_ompi.hpp`: the text of the
  preprocessor.

Simplifications: the kernels are parameters (functions of the memory of one unit and of the number of
times the stepper has been advanced); an operation is atomic (what could overlap is ruled out by
`ub` below and by the theorem that nobody reads the stepper while it is advanced); the abort after a
NaN and the log files are left out.
-/

namespace Verif.Schedule

/-- One line of the text of a stage, for one simulation unit. -/
inductive UOp (U C M B : Type) where
  /-- kernels that only touch the unit; they may read the stepper -/
  | work (f : U → ℕ → M → M)
  /-- `ReceiveAll(c)`: `MPI_Startall` of the receive requests -/
  | post (c : C)
  /-- the send kernels: write the send buffers of `c` -/
  | pack (c : C) (f : U → ℕ → M → U → B)
  /-- `SendAll(c)`: `MPI_Startall` of the send requests -/
  | send (c : C)
  /-- `WaitAllReceives(c)`: `MPI_Waitall` of the receive requests -/
  | waitR (c : C)
  /-- kernels that read the receive buffers of `c` -/
  | take (c : C) (f : U → ℕ → M → (U → Option B) → M)
  /-- `WaitAllSends(c)`: `MPI_Waitall` of the send requests -/
  | waitS (c : C)

/-- The requests and buffers of a unit for one communication type
(`ompi_communicator.hpp`, `OMPIRankBoundary`). -/
structure Req (U B : Type) where
  sbuf : U → B
  rbuf : U → B
  /-- all the messages sent to each neighbour, oldest first -/
  out : U → List B
  /-- receive requests are active -/
  rAct : Bool
  /-- send requests are active -/
  sAct : Bool
  posted : ℕ
  recvd : ℕ
  started : ℕ

/-- A simulation unit. -/
structure Loc (U C M B : Type) where
  mem : M
  com : C → Req U B

/-- Who owns what: the units of each thread, its rank, the master thread and the threads of each rank,
the neighbours of each unit, and which messages the MPI library buffers (`early u c n`: the `n`-th send
of `u` is complete before the receiver is there; the standard leaves this open). -/
structure Team (U R T C : Type) where
  units : T → List U
  rank : T → R
  master : R → T
  crew : R → List T
  nbrs : U → List U
  early : U → C → ℕ → Bool

/-- What an operation may do to the state. -/
inductive Out (α : Type) where
  | blocked
  | ub
  | next (a : α)

variable {U R T C M B : Type} [DecidableEq U] [DecidableEq R] [DecidableEq T] [DecidableEq C]

/-- Starting an active request is erroneous (MPI 4.1, 3.9), and so is writing a buffer that is being
sent or reading a buffer that is being received. -/
def legal (o : UOp U C M B) (x : Loc U C M B) : Bool :=
  match o with
  | .work _ => true
  | .post c => !(x.com c).rAct
  | .pack c _ => !(x.com c).sAct
  | .send c => !(x.com c).sAct
  | .waitR _ => true
  | .take c _ => !(x.com c).rAct
  | .waitS _ => true

/-- Whether the operation can go on.  The receives of `u` are complete when every neighbour has started
the matching send; the sends of `u` are complete when every neighbour has posted the matching receive,
or when the library has buffered the messages.  Waiting for inactive requests returns at once. -/
def ready (tm : Team U R T C) (o : UOp U C M B) (u : U) (xs : U → Loc U C M B) : Bool :=
  match o with
  | .waitR c => !((xs u).com c).rAct ||
      (tm.nbrs u).all fun v => decide (((xs u).com c).recvd < (((xs v).com c).out u).length)
  | .waitS c => !((xs u).com c).sAct || tm.early u c ((xs u).com c).started ||
      (tm.nbrs u).all fun v => decide (((xs u).com c).started ≤ ((xs v).com c).posted)
  | _ => true

/-- The operation on the requests `q` of one communication type. -/
def setCom (x : Loc U C M B) (c : C) (q : Req U B) : Loc U C M B :=
  { x with com := Function.update x.com c q }

/-- The messages in the receive buffers after the wait: the `recvd`-th message of each neighbour
(messages between two ends with the same tag do not overtake). -/
def arrivals (tm : Team U R T C) (c : C) (u : U) (xs : U → Loc U C M B) (q : Req U B) : U → B :=
  fun v => if v ∈ tm.nbrs u then ((((xs v).com c).out u)[q.recvd]?).getD (q.rbuf v) else q.rbuf v

/-- The receive buffers there are: one for each neighbour. -/
def heard (tm : Team U R T C) (u : U) (b : U → B) : U → Option B :=
  fun v => if v ∈ tm.nbrs u then some (b v) else none

/-- The effect of the operation on its unit, when the stepper has been advanced `n` times. -/
def eff (tm : Team U R T C) (o : UOp U C M B) (u : U) (n : ℕ) (xs : U → Loc U C M B) : Loc U C M B :=
  let x := xs u
  match o with
  | .work f => { x with mem := f u n x.mem }
  | .post c => setCom x c { x.com c with rAct := true, posted := (x.com c).posted + 1 }
  | .pack c f => setCom x c { x.com c with sbuf := f u n x.mem }
  | .send c => setCom x c { x.com c with
      sAct := true, started := (x.com c).started + 1,
      out := fun v => if v ∈ tm.nbrs u then (x.com c).out v ++ [(x.com c).sbuf v] else (x.com c).out v }
  | .waitR c => if (x.com c).rAct then setCom x c { x.com c with
      rAct := false, recvd := (x.com c).recvd + 1, rbuf := arrivals tm c u xs (x.com c) } else x
  | .take c f => { x with mem := f u n x.mem (heard tm u (x.com c).rbuf) }
  | .waitS c => setCom x c { x.com c with sAct := false }

/-- One operation of a thread. -/
inductive Op (U C M B : Type) where
  | unit (u : U) (o : UOp U C M B)
  /-- reach `#pragma omp barrier` -/
  | arrive
  /-- go on from it -/
  | leave
  /-- `++stepper` -/
  | tick

/-- One statement of the text all threads share. -/
inductive Phase (U C M B : Type) where
  /-- `for (su_id = begin_sim_id; su_id < end_sim_id; ++su_id) { ops }` -/
  | each (ops : List (UOp U C M B))
  | arrive
  | leave
  /-- `#pragma omp master { ++stepper }` -/
  | master

/-- `#pragma omp barrier` -/
def barrier : List (Phase U C M B) := [.arrive, .leave]

/-- What a thread executes for a statement. -/
def expand (tm : Team U R T C) (t : T) : Phase U C M B → List (Op U C M B)
  | .each ops => (tm.units t).flatMap fun u => ops.map (Op.unit u)
  | .arrive => [.arrive]
  | .leave => [.leave]
  | .master => if t = tm.master (tm.rank t) then [.tick] else []

/-- The program of a thread. -/
def code (tm : Team U R T C) (phs : List (Phase U C M B)) (t : T) : List (Op U C M B) :=
  phs.flatMap (expand tm t)

/-- The state of the whole machine: what each thread has still to do, the units, how often the stepper
of each rank has been advanced, and how many barriers each thread has reached. -/
structure St (U R T C M B : Type) where
  rest : T → List (Op U C M B)
  loc : U → Loc U C M B
  clock : R → ℕ
  arrived : T → ℕ

/-- Thread `t` takes its next operation. -/
def step (tm : Team U R T C) (t : T) (s : St U R T C M B) : Out (St U R T C M B) :=
  match s.rest t with
  | [] => .blocked
  | .unit u o :: r =>
    if legal o (s.loc u) then
      if ready tm o u s.loc then
        .next { s with
          rest := Function.update s.rest t r
          loc := Function.update s.loc u (eff tm o u (s.clock (tm.rank t)) s.loc) }
      else .blocked
    else .ub
  | .arrive :: r => .next { s with
      rest := Function.update s.rest t r
      arrived := Function.update s.arrived t (s.arrived t + 1) }
  | .leave :: r =>
    if (tm.crew (tm.rank t)).all fun t' => decide (s.arrived t ≤ s.arrived t') then
      .next { s with rest := Function.update s.rest t r }
    else .blocked
  | .tick :: r => .next { s with
      rest := Function.update s.rest t r
      clock := Function.update s.clock (tm.rank t) (s.clock (tm.rank t) + 1) }

/-- The machine before the parallel region. -/
def start (tm : Team U R T C) (phs : List (Phase U C M B)) (init : U → Loc U C M B) :
    St U R T C M B :=
  { rest := code tm phs, loc := init, clock := fun _ => 0, arrived := fun _ => 0 }

/-- Some thread moves. -/
def Move (tm : Team U R T C) (a b : St U R T C M B) : Prop := ∃ t, step tm t a = .next b

/-- The states some schedule leads to. -/
def Reach (tm : Team U R T C) (phs : List (Phase U C M B)) (init : U → Loc U C M B)
    (s : St U R T C M B) : Prop :=
  Relation.ReflTransGen (Move tm) (start tm phs init) s

/-! ## Lockstep -/

/-- The lines of the text for one unit, each with the number of times the stepper has been advanced
before it. -/
def lines (n : ℕ) : List (Phase U C M B) → List (ℕ × UOp U C M B)
  | [] => []
  | .each ops :: r => ops.map (fun o => (n, o)) ++ lines n r
  | .arrive :: r => lines n r
  | .leave :: r => lines n r
  | .master :: r => lines (n + 1) r

/-- All units take the lines together, one by one. -/
def lock (tm : Team U R T C) : List (ℕ × UOp U C M B) → (U → Loc U C M B) → U → Loc U C M B
  | [], xs => xs
  | (n, o) :: l, xs => lock tm l fun u => eff tm o u n xs

/-- No request is active and nothing has been sent. -/
def idle (x : Loc U C M B) : Prop := ∀ c, (x.com c).rAct = false ∧ (x.com c).sAct = false ∧
  (x.com c).posted = 0 ∧ (x.com c).recvd = 0 ∧ (x.com c).started = 0 ∧ ∀ v, (x.com c).out v = []

/-! ## Lockstep without requests -/

/-- Memories, buffers and the last message between two units. -/
structure Plain (U C M B : Type) where
  mem : U → M
  sbuf : C → U → U → B
  rbuf : C → U → U → B
  wire : C → U → U → B

/-- The receive buffers after an exchange. -/
def delivered (tm : Team U R T C) (wire rbuf : U → U → B) : U → U → B :=
  fun u v => if v ∈ tm.nbrs u then wire v u else rbuf u v

/-- One line, taken by all units together, with nothing to wait for. -/
def plain (tm : Team U R T C) (n : ℕ) (o : UOp U C M B) (p : Plain U C M B) : Plain U C M B :=
  match o with
  | .work f => { p with mem := fun u => f u n (p.mem u) }
  | .post _ => p
  | .pack c f => { p with sbuf := Function.update p.sbuf c fun u => f u n (p.mem u) }
  | .send c => { p with wire := Function.update p.wire c (p.sbuf c) }
  | .waitR c => { p with rbuf := Function.update p.rbuf c (delivered tm (p.wire c) (p.rbuf c)) }
  | .take c f => { p with mem := fun u => f u n (p.mem u) (heard tm u (p.rbuf c u)) }
  | .waitS _ => p

/-- All the lines. -/
def plainRun (tm : Team U R T C) : List (ℕ × UOp U C M B) → Plain U C M B → Plain U C M B
  | [], p => p
  | (n, o) :: l, p => plainRun tm l (plain tm n o p)

/-! ## The text -/

/-- `swe_definitions.hpp` lines 76-79 (the RKDG list, lines 71-73, is without `initGlobal`) and
`gn_definitions.hpp` lines 75-79 (`dbath`, `derivatives`). -/
inductive CommType where
  | coord
  | initGlobal
  | bound
  | bary
  | dbath
  | derivatives
  deriving DecidableEq

/-- The kernels of a problem, by where they stand in the text. -/
structure Kernels (U M B : Type) where
  /-- `initialize_data_parallel_pre_send` -/
  preSend : U → ℕ → M → M
  packCoord : U → ℕ → M → U → B
  takeCoord : U → ℕ → M → (U → Option B) → M
  /-- `initialize_global_problem_parallel_pre_send` (EHDG) -/
  globSend : U → ℕ → M → M
  packGlob : U → ℕ → M → U → B
  takeGlob : U → ℕ → M → (U → Option B) → M
  /-- `elt.data.resize` -/
  resize : U → ℕ → M → M
  /-- `WriteFirstStep` -/
  first : U → ℕ → M → M
  /-- `ParseInput` -/
  parse : U → ℕ → M → M
  /-- the distributed boundaries before the send: what stays in the unit, and what is sent -/
  gather : U → ℕ → M → M
  packBound : U → ℕ → M → U → B
  /-- work before receive -/
  before : U → ℕ → M → M
  /-- work after receive, with `UpdateState` -/
  after : U → ℕ → M → (U → Option B) → M
  /-- `wetting_drying_kernel` -/
  wetDry : U → ℕ → M → M
  /-- `slope_limiting_prepare_element_kernel` -/
  prepare : U → ℕ → M → M
  packBary : U → ℕ → M → U → B
  /-- interfaces and boundaries of the limiter -/
  prepFaces : U → ℕ → M → M
  /-- distributed boundaries of the limiter, trouble check and limiting -/
  limit : U → ℕ → M → (U → Option B) → M
  /-- `scrutinize_solution` -/
  check : U → ℕ → M → M
  /-- `WriteOutput` -/
  output : U → ℕ → M → M

/-- `rkdg_swe_pre_ompi.hpp` lines 14-42. -/
def rkdgPre (k : Kernels U M B) : List (Phase U CommType M B) :=
  [.each [.work k.preSend, .pack .coord k.packCoord],
   .each [.post .coord],
   .each [.send .coord],
   .each [.waitR .coord, .take .coord k.takeCoord],
   .each [.waitS .coord],
   .each [.work k.resize]]

/-- `ehdg_swe_pre_ompi.hpp` lines 14-54. -/
def ehdgPre (k : Kernels U M B) : List (Phase U CommType M B) :=
  [.each [.post .coord, .work k.preSend, .pack .coord k.packCoord, .send .coord],
   .each [.waitR .coord, .take .coord k.takeCoord],
   .each [.waitS .coord],
   .each [.post .initGlobal, .work k.globSend, .pack .initGlobal k.packGlob, .send .initGlobal],
   .each [.waitR .initGlobal, .take .initGlobal k.takeGlob],
   .each [.waitS .initGlobal],
   .each [.work k.resize]]

/-- `swe_CS_sl_ompi.hpp` lines 15-77. -/
def limiterText (k : Kernels U M B) : List (Phase U CommType M B) :=
  [.each [.post .bary, .work k.prepare, .pack .bary k.packBary, .send .bary],
   .each [.work k.prepFaces],
   .each [.waitR .bary, .take .bary k.limit],
   .each [.waitS .bary]]

/-- `rkdg_swe_proc_ompi_step.hpp` lines 32-131 and `ehdg_swe_proc_ompi_step.hpp` lines 32-156
(`stage_ompi`); `wd` and `sl` are `PostProcessing::wetting_drying` and `slope_limiting`. -/
def stageText (k : Kernels U M B) (wd sl : Bool) : List (Phase U CommType M B) :=
  [.each [.post .bound, .work k.gather, .pack .bound k.packBound, .send .bound],
   .each [.work k.before],
   .each [.waitR .bound, .take .bound k.after]] ++
  barrier ++ [.master] ++ barrier ++
  (if wd then [.each [.work k.wetDry]] else []) ++
  (if sl then limiterText k else []) ++
  [.each [.work k.check],
   .each [.waitS .bound]]

/-- `rkdg_swe_proc_ompi_step.hpp` lines 9-30 and `ehdg_swe_proc_ompi_step.hpp` lines 9-29
(`step_ompi`), with `ns` stages. -/
def stepText (k : Kernels U M B) (wd sl : Bool) (ns : ℕ) : List (Phase U CommType M B) :=
  (List.replicate ns (.each [.work k.parse] :: stageText k wd sl)).flatten ++ [.each [.work k.output]]

/-- `simulation_ompi.hpp` lines 62-93 (`Run`), after the preprocessor `pre`. -/
def runText (pre : List (Phase U CommType M B)) (k : Kernels U M B) (wd sl : Bool) (ns nsteps : ℕ) :
    List (Phase U CommType M B) :=
  pre ++ [.each [.work k.first]] ++ (List.replicate nsteps (stepText k wd sl ns)).flatten

/-- Ranks, threads and units: rank `r` has `nT r` threads and `nU r` units; thread `i` of the rank has
the units `simulation_ompi.hpp` lines 71-74 give it (`Util.unitsOf`, C10). -/
def simTeam (nR : ℕ) (nT nU : Fin nR → ℕ) (hT : ∀ r, 0 < nT r)
    (nbrs : (Σ r, Fin (nU r)) → List (Σ r, Fin (nU r))) (early : (Σ r, Fin (nU r)) → C → ℕ → Bool) :
    Team (Σ r, Fin (nU r)) (Fin nR) (Σ r, Fin (nT r)) C where
  units := fun t => (Util.unitsOf (nU t.1) (nT t.1) t.2.val).filterMap fun j =>
    if h : j < nU t.1 then some ⟨t.1, ⟨j, h⟩⟩ else none
  rank := fun t => t.1
  master := fun r => ⟨r, ⟨0, hT r⟩⟩
  crew := fun r => (List.finRange (nT r)).map fun i => ⟨r, i⟩
  nbrs := nbrs
  early := early

/-- A text that ends with a loop of every thread over all the units of its rank. -/
def startAll (tm : Team U R T C) (phs : List (Phase U C M B)) (ops : List (UOp U C M B))
    (post : List (Phase U C M B)) (init : U → Loc U C M B) : St U R T C M B :=
  { rest := fun t => code tm phs t ++
      ((tm.crew (tm.rank t)).flatMap tm.units).flatMap (fun u => ops.map (Op.unit u)) ++ code tm post t
    loc := init, clock := fun _ => 0, arrived := fun _ => 0 }

/-- `ehdg_gn_pre_ompi.hpp` lines 15-251 with `least squares` or the like for the gradient of the
bathymetry given by `m` exchanges; what the master thread does between the barriers in lines 40-249 is
left out. -/
def gnPre (k : Kernels U M B) (m : ℕ) : List (Phase U CommType M B) :=
  ehdgPre k ++
  [.each [.work k.preSend, .pack .coord k.packCoord],
   .each [.post .coord],
   .each [.send .coord],
   .each [.waitR .coord, .take .coord k.takeCoord],
   .each [.waitS .coord]] ++
  barrier ++ barrier ++
  (List.replicate m
    [.each [.post .dbath, .work k.globSend, .pack .dbath k.packGlob, .send .dbath],
     .each [.waitR .dbath, .take .dbath k.takeGlob],
     .each [.waitS .dbath]]).flatten

end Verif.Schedule
