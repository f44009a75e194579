import Verif.Model.Schedule

/-!
# Threads, messages and collective operations: the Green-Naghdi program as it is scheduled

The step of the Green-Naghdi program mixes the messages of `Verif.Model.Schedule` with places where the
master threads of all ranks do something together: the solution of the linear system of the dispersive
correction, and with `D_RECON_AVG` the averages of the derivatives at the nodes.  Such a place is always
`#pragma omp barrier`, `#pragma omp master { … }`, `#pragma omp barrier`, and what the masters do
contains operations all ranks must take part in (`VecAssemblyBegin`, `KSPSolve`, `VecScatterBegin`).

A text is a list of statements of `Verif.Model.Schedule` and of such places.  Between two of them the
threads of all ranks are interleaved in any order; a place is passed when all threads have reached it
(no master can leave the collective operation before all masters have entered it, and none enters it
before the threads of its rank have reached the barrier).

Simplifications: what all masters do at a place is one step (`Verif.Model.GnMeet` has the masters
one by one); messages are counted anew after a place (`renew`; by
`settled` none is under way there); both steppers are one counter, since the text says which one is
advanced; PETSc log stages are left out; otherwise as in `Verif.Model.Schedule`.
-/

namespace Verif.GnSchedule

open Verif.Schedule

variable {U R T C M B : Type} [DecidableEq U] [DecidableEq R] [DecidableEq T] [DecidableEq C]

/-- One statement of the text all threads share. -/
inductive Item (U C M B : Type) where
  | ph (p : Phase U C M B)
  /-- barrier, what the masters do together, barrier: the memories of all units before and after, and
  how often the steppers have been advanced -/
  | coll (f : ℕ → (U → M) → U → M)

/-- The statements up to the next place, and what comes from there. -/
def cut : List (Item U C M B) → List (Phase U C M B) × Option ((ℕ → (U → M) → U → M) × List (Item U C M B))
  | [] => ([], none)
  | .ph p :: r => (p :: (cut r).1, (cut r).2)
  | .coll f :: r => ([], some (f, r))

/-- A line after the steppers have been advanced `k` times. -/
def laterOp (k : ℕ) : UOp U C M B → UOp U C M B
  | .work f => .work fun u n => f u (k + n)
  | .post c => .post c
  | .pack c f => .pack c fun u n => f u (k + n)
  | .send c => .send c
  | .waitR c => .waitR c
  | .take c f => .take c fun u n => f u (k + n)
  | .waitS c => .waitS c

/-- A statement after the steppers have been advanced `k` times. -/
def later (k : ℕ) : Phase U C M B → Phase U C M B
  | .each ops => .each (ops.map (laterOp k))
  | .arrive => .arrive
  | .leave => .leave
  | .master => .master

/-- How often the text advances a stepper. -/
def ticks : List (Phase U C M B) → ℕ
  | [] => 0
  | .master :: r => ticks r + 1
  | _ :: r => ticks r

/-- The machine: the threads in the statements up to the next place, what comes from there, and how
often the steppers have been advanced at that place. -/
structure GSt (U R T C M B : Type) where
  st : St U R T C M B
  todo : Option ((ℕ → (U → M) → U → M) × List (Item U C M B))
  time : ℕ

/-- The threads take up the text `l` after `k` advances. -/
def enter (tm : Team U R T C) (l : List (Item U C M B)) (k : ℕ) (init : U → Loc U C M B) : GSt U R T C M B :=
  { st := start tm ((cut l).1.map (later k)) init, todo := (cut l).2, time := k + ticks (cut l).1 }

/-- Messages are counted anew. -/
def renew (q : Req U B) : Req U B := { q with out := fun _ => [], posted := 0, recvd := 0, started := 0 }

/-- The units after the masters have done `f`. -/
def passed (f : (U → M) → U → M) (xs : U → Loc U C M B) : U → Loc U C M B := fun u =>
  { mem := f (fun v => (xs v).mem) u, com := fun c => renew ((xs u).com c) }

/-- What can happen: some thread moves, or all threads are at the next place and the masters do what is
to be done there. -/
inductive GMove (tm : Team U R T C) : GSt U R T C M B → GSt U R T C M B → Prop
  | thread (g : GSt U R T C M B) (t : T) (s : St U R T C M B) (h : step tm t g.st = .next s) :
      GMove tm g { g with st := s }
  | masters (g : GSt U R T C M B) (f : ℕ → (U → M) → U → M) (l : List (Item U C M B))
      (hf : ∀ t, g.st.rest t = []) (h : g.todo = some (f, l)) :
      GMove tm g (enter tm l g.time (passed (f g.time) g.st.loc))

/-- The states some schedule leads to. -/
def GReach (tm : Team U R T C) (l : List (Item U C M B)) (init : U → Loc U C M B) (g : GSt U R T C M B) :
    Prop := Relation.ReflTransGen (GMove tm) (enter tm l 0 init) g

/-- All threads have come to the end. -/
def Ended (g : GSt U R T C M B) : Prop := (∀ t, g.st.rest t = []) ∧ g.todo = none

/-! ## The text -/

/-- One exchange of derivatives: what is done before sending, what is sent, what is done in between and
what is done with what is received. -/
structure Exch (U M B : Type) where
  pre : U → ℕ → M → M
  pack : U → ℕ → M → U → B
  mid : U → ℕ → M → M
  take : U → ℕ → M → (U → Option B) → M

/-- `greengauss_derivatives_ompi.hpp` lines 20-47, 52-77 and 80-103, `leastsquares_derivatives_ompi.hpp`
lines 14-62, 65-92, 97-133 and 136-159, `projection_derivatives_ompi.hpp` lines 14-105 and 109-175. -/
def exchange (e : Exch U M B) : List (Phase U CommType M B) :=
  [.each [.post .derivatives, .work e.pre, .pack .derivatives e.pack, .send .derivatives],
   .each [.work e.mid],
   .each [.waitR .derivatives, .take .derivatives e.take],
   .each [.waitS .derivatives]]

/-- `D_PROJECTION`, `D_GREENGAUSS`, `D_LEASTSQUARES` (`gn_definitions.hpp`). -/
inductive Method where
  | projection
  | greenGauss
  | leastSquares

/-- What is done at each point of the dispersive correction; `own` are the kernels of a reconstruction
from the unit and its neighbours (`D_RECON_INT`, `D_RECON_LS`), otherwise the averages at the nodes
(`D_RECON_AVG`) are taken by the masters. -/
structure Correction (U M B : Type) where
  /-- `ParseInput` with the second stepper -/
  parse : U → ℕ → M → M
  /-- `compute_dze_gg`, `compute_du_gg` -/
  gg : U → ℕ → M → M
  first : Exch U M B
  second : Exch U M B
  own : Option (Exch U M B × Exch U M B)
  /-- `reconstruct_dzedu` -/
  avg1 : ℕ → (U → M) → U → M
  /-- `reconstruct_ddu` -/
  avg2 : ℕ → (U → M) → U → M
  /-- `local_dc_…_kernel`, `global_dc_…_kernel` -/
  blocks : U → ℕ → M → M
  /-- the static condensation -/
  condense : U → ℕ → M → M
  /-- assembly, solution and distribution; each unit is given what it reads of `dc_solution` -/
  solve : ℕ → (U → M) → U → M
  /-- back-substitution -/
  back : U → ℕ → M → M
  /-- `dispersive_correction_kernel`, `ApplyMinv`, `UpdateState` -/
  update : U → ℕ → M → M

/-- `recon_int_derivatives.hpp` and `recon_ls_derivatives.hpp` between messages, or
`recon_avg_derivatives_ompi.hpp` lines 7-77 (`reconstruct_dzedu`) and 79-141 (`reconstruct_ddu`). -/
def reconstruct (own : Option (Exch U M B)) (avg : ℕ → (U → M) → U → M) : List (Item U CommType M B) :=
  match own with
  | some e => (exchange e).map .ph
  | none => [.coll avg]

/-- `compute_derivatives_ompi`. -/
def derivText (m : Method) (d : Correction U M B) : List (Item U CommType M B) :=
  match m with
  | .projection => (exchange d.first).map .ph ++ (exchange d.second).map .ph
  | .greenGauss => [.ph (.each [.work d.gg])] ++ reconstruct (d.own.map Prod.fst) d.avg1 ++
      (exchange d.second).map .ph ++ reconstruct (d.own.map Prod.snd) d.avg2
  | .leastSquares => (exchange d.first).map .ph ++ reconstruct (d.own.map Prod.fst) d.avg1 ++
      (exchange d.second).map .ph ++ reconstruct (d.own.map Prod.snd) d.avg2

/-- `ehdg_gn_proc_ompi_step.hpp` lines 65-121 (`dispersive_correction_ompi`) with
`ehdg_gn_proc_ompi_sol_glob_prob.hpp` lines 7-384, after `ParseInput` (lines 35-39). -/
def correctionText (m : Method) (d : Correction U M B) : List (Item U CommType M B) :=
  [.ph (.each [.work d.parse])] ++ derivText m d ++
  [.ph (.each [.work d.blocks]), .ph (.each [.work d.condense]), .coll d.solve,
   .ph (.each [.work d.back]), .ph (.each [.work d.update])] ++
  (barrier ++ [Phase.master] ++ barrier).map .ph

/-- `ehdg_gn_proc_ompi_step.hpp` lines 9-63 (`step_ompi`): `ns` stages of the shallow-water equations,
`nd` stages of the correction, `ns` stages of the shallow-water equations. -/
def gnStepText (m : Method) (k : Kernels U M B) (d : Correction U M B) (wd sl : Bool) (ns nd : ℕ) :
    List (Item U CommType M B) :=
  (List.replicate ns (.each [.work k.parse] :: stageText k wd sl)).flatten.map .ph ++
  (List.replicate nd (correctionText m d)).flatten ++
  (List.replicate ns (.each [.work k.parse] :: stageText k wd sl)).flatten.map .ph ++
  [.ph (.each [.work k.output])]

/-- `simulation_ompi.hpp` lines 84-91: the steps, after the preprocessor and `WriteFirstStep`. -/
def gnRunText (m : Method) (k : Kernels U M B) (d : Correction U M B) (wd sl : Bool) (ns nd nsteps : ℕ) :
    List (Item U CommType M B) :=
  (List.replicate nsteps (gnStepText m k d wd sl ns nd)).flatten

end Verif.GnSchedule
