import Mathlib.Data.Fintype.Defs
import Mathlib.Data.Fintype.Pi
import Mathlib.Logic.Function.Basic
import Mathlib.Logic.Relation

/-!
# Threads around a common linear system

`ihdg_swe_proc_ompi_step.hpp` lines 33-118 and `ihdg_swe_proc_ompi_sol_glob_prob.hpp`: in each Newton
iteration the threads of a rank treat their units, meet at a barrier, the master thread of each rank
assembles the system from all units of its rank and solves it together with the masters of the other
ranks (PETSc), and after a second barrier the threads update their units with the solution and look
at `global_data.converged` to decide whether to go on.  Unlike the texts of `Verif.Model.Schedule` the
number of iterations depends on what is computed.

A round is: kernels on the own units, barrier, master, barrier, kernels on the own units, decision.
The master either takes part in a collective operation (`coll`) or changes the shared data of its rank
alone (`++stepper`).

Simplifications: the loops over the own units before a barrier are one loop, and all kernels on one unit are one step
(they only touch the unit); so is what the master does before and after the
collective operation; the k-th collective operation of a rank matches the k-th of each other rank; a
collective operation is complete when all ranks have started it; the slope limiter and the abort after
a NaN are left out.
-/

namespace Verif.Rounds

/-- Who owns what: the rank and the units of each thread, the master thread of each rank, the thread of
each unit. -/
structure Crew (U R T : Type) where
  rank : T → R
  master : R → T
  units : T → List U
  own : U → T

/-- What happens in a round with control value `c`. `G` is the shared data of a rank. -/
structure Round (U R C M G P : Type) where
  /-- kernels before the first barrier -/
  before : C → G → U → M → M
  /-- whether the master takes part in a collective operation -/
  coll : C → Bool
  /-- what the master of a rank assembles from the units of its rank -/
  part : C → R → (U → Option M) → P
  /-- the collective operation: what the ranks have contributed, and the shared data of the rank -/
  act : C → R → (R → Option P) → G → G
  /-- the master alone -/
  solo : C → G → G
  /-- kernels after the second barrier -/
  after : C → G → U → M → M
  /-- the decision: `none` is the end -/
  next : C → G → Option C

/-- Where a thread is in its round. -/
inductive Pc where
  /-- the first `i` units have been treated -/
  | before (i : ℕ)
  | arriveA
  | leaveA
  | give
  | fetch
  | arriveB
  | leaveB
  | after (i : ℕ)
  | test
  deriving DecidableEq

/-- The machine: where each thread is and its control value (local variables such as `iter`), the
units, the shared data of the ranks, what each rank has contributed to collective operations, and the
number of barriers each thread has reached. -/
structure St (U R T C M G P : Type) where
  pc : T → Pc
  ctl : T → Option C
  mem : U → M
  glob : R → G
  gave : R → List P
  arrived : T → ℕ

variable {U R T C M G P : Type} [DecidableEq U] [DecidableEq R] [DecidableEq T] [Fintype R] [Fintype T]

/-- The units of rank `r`. -/
def seen (tm : Crew U R T) (r : R) (mem : U → M) : U → Option M :=
  fun u => if tm.rank (tm.own u) = r then some (mem u) else none

/-- All threads of the rank of `t` have reached the barrier `t` is at. -/
def open? (tm : Crew U R T) (t : T) (s : St U R T C M G P) : Bool :=
  decide (∀ t', tm.rank t' = tm.rank t → s.arrived t ≤ s.arrived t')

/-- All ranks have started the collective operation rank `r` is in. -/
def complete? (r : R) (s : St U R T C M G P) : Bool :=
  decide (∀ r', (s.gave r).length ≤ (s.gave r').length)

/-- Thread `t` goes to `p`. -/
def go (t : T) (p : Pc) (s : St U R T C M G P) : St U R T C M G P :=
  { s with pc := Function.update s.pc t p }

/-- Thread `t` reaches a barrier. -/
def reachBar (t : T) (p : Pc) (s : St U R T C M G P) : St U R T C M G P :=
  { go t p s with arrived := Function.update s.arrived t (s.arrived t + 1) }

/-- A kernel on unit `u`. -/
def treat (f : U → M → M) (u : U) (s : St U R T C M G P) : St U R T C M G P :=
  { s with mem := Function.update s.mem u (f u (s.mem u)) }

/-- The shared data of rank `r` change. -/
def setGlob (r : R) (g : G) (s : St U R T C M G P) : St U R T C M G P :=
  { s with glob := Function.update s.glob r g }

/-- The master of `r` starts a collective operation. -/
def contribute (r : R) (p : P) (s : St U R T C M G P) : St U R T C M G P :=
  { s with gave := Function.update s.gave r (s.gave r ++ [p]) }

/-- One step of thread `t` with control value `c`; `none`: it has to wait. -/
def stepAt (tm : Crew U R T) (k : Round U R C M G P) (t : T) (c : C) (s : St U R T C M G P) :
    Pc → Option (St U R T C M G P)
  | .before i =>
    match (tm.units t)[i]? with
    | some u => some (go t (.before (i + 1)) (treat (k.before c (s.glob (tm.rank t))) u s))
    | none => some (go t .arriveA s)
  | .arriveA => some (reachBar t .leaveA s)
  | .leaveA =>
    if open? tm t s then some (go t (if t = tm.master (tm.rank t) then .give else .arriveB) s) else none
  | .give =>
    if k.coll c then
      some (go t .fetch (contribute (tm.rank t) (k.part c (tm.rank t) (seen tm (tm.rank t) s.mem)) s))
    else some (go t .arriveB (setGlob (tm.rank t) (k.solo c (s.glob (tm.rank t))) s))
  | .fetch =>
    if complete? (tm.rank t) s then
      some (go t .arriveB (setGlob (tm.rank t) (k.act c (tm.rank t)
        (fun r => (s.gave r)[(s.gave (tm.rank t)).length - 1]?) (s.glob (tm.rank t))) s))
    else none
  | .arriveB => some (reachBar t .leaveB s)
  | .leaveB => if open? tm t s then some (go t (.after 0) s) else none
  | .after i =>
    match (tm.units t)[i]? with
    | some u => some (go t (.after (i + 1)) (treat (k.after c (s.glob (tm.rank t))) u s))
    | none => some (go t .test s)
  | .test => some { go t (.before 0) s with ctl := Function.update s.ctl t (k.next c (s.glob (tm.rank t))) }

/-- One step of thread `t`; `none`: it has to wait or is done. -/
def step (tm : Crew U R T) (k : Round U R C M G P) (t : T) (s : St U R T C M G P) :
    Option (St U R T C M G P) :=
  (s.ctl t).bind fun c => stepAt tm k t c s (s.pc t)

/-- The machine at the beginning. -/
def start (c : C) (mem : U → M) (glob : R → G) : St U R T C M G P where
  pc _ := .before 0
  ctl _ := some c
  mem := mem
  glob := glob
  gave _ := []
  arrived _ := 0

/-- `Run n a b`: some schedule leads from `a` to `b` in `n` steps. -/
inductive Run (tm : Crew U R T) (k : Round U R C M G P) : ℕ → St U R T C M G P → St U R T C M G P → Prop
  | refl (s) : Run tm k 0 s s
  | tail {n a b c} (t : T) : Run tm k n a b → step tm k t b = some c → Run tm k (n + 1) a c

/-! ## All threads together -/

/-- Control value, units and shared data between two rounds. -/
structure Snap (U R C M G : Type) where
  ctl : Option C
  mem : U → M
  glob : R → G

/-- The units after the kernels before the first barrier. -/
def middle (tm : Crew U R T) (k : Round U R C M G P) (c : C) (x : Snap U R C M G) : U → M :=
  fun u => k.before c (x.glob (tm.rank (tm.own u))) u (x.mem u)

/-- What rank `r` contributes. -/
def offer (tm : Crew U R T) (k : Round U R C M G P) (c : C) (x : Snap U R C M G) (r : R) : P :=
  k.part c r (seen tm r (middle tm k c x))

/-- The shared data after the master's part. -/
def result (tm : Crew U R T) (k : Round U R C M G P) (c : C) (x : Snap U R C M G) : R → G :=
  fun r => if k.coll c then k.act c r (fun r' => some (offer tm k c x r')) (x.glob r) else k.solo c (x.glob r)

/-- A round of all threads together; rank `r0` decides. -/
def round (tm : Crew U R T) (k : Round U R C M G P) (r0 : R) (x : Snap U R C M G) : Snap U R C M G :=
  match x.ctl with
  | none => x
  | some c =>
    { ctl := k.next c (result tm k c x r0)
      mem := fun u => k.after c (result tm k c x (tm.rank (tm.own u))) u (middle tm k c x u)
      glob := result tm k c x }

/-- `n` rounds. -/
def rounds (tm : Crew U R T) (k : Round U R C M G P) (r0 : R) (x : Snap U R C M G) : ℕ → Snap U R C M G
  | 0 => x
  | n + 1 => round tm k r0 (rounds tm k r0 x n)

/-! ## The implicit program -/

/-- The kernels of `ihdg_swe_proc_ompi_step.hpp` and `ihdg_swe_proc_ompi_sol_glob_prob.hpp`; they may
read the stepper, which has been advanced `n` times. -/
structure Newton (U R M P X Y : Type) where
  /-- `ParseInput` and `init_iteration` (lines 17-21, 39-41) -/
  init : ℕ → U → M → M
  /-- local and global kernels, condensation (lines 47-84; `sol_glob_prob` lines 12-131) -/
  kernels : ℕ → U → M → M
  /-- `VecSetValues`, `MatSetValues` over all units of the rank (`sol_glob_prob` lines 135-290) -/
  assemble : R → (U → Option M) → P
  /-- `KSPSolve` (line 292) -/
  solve : (R → Option P) → X
  /-- `VecScatter` and `vector_from_array` (lines 294-305) -/
  scatter : R → X → Y
  /-- `VecNorm` over all ranks, against `1e-8` (lines 307-319) -/
  small : X → Bool
  /-- `q_hat`, `q` and the local right-hand sides (lines 326-393) -/
  update : ℕ → Y → U → M → M
  /-- `std::swap`, `WriteOutput` (lines 98-106; 26-30) -/
  finish : ℕ → U → M → M

/-- What the threads of a rank share: `global_data.solution`, `global_data.converged` and the
stepper. -/
structure Shared (Y : Type) where
  solution : Y
  converged : Bool
  clock : ℕ

/-- Where the loops are: in iteration `it` (from zero) of stage `s`, or at `++stepper` of stage `s`. -/
inductive Ctl where
  | iter (s it : ℕ)
  | tick (s : ℕ)

section
variable {X Y : Type} (k : Newton U R M P X Y)

/-- `ihdg_swe_proc_ompi_step.hpp` lines 39-106 for `nst` stages in all. -/
def newtonRound (nst : ℕ) : Round U R Ctl M (Shared Y) P where
  before
    | .iter _ it => fun g u m => k.kernels g.clock u (if it = 0 then k.init g.clock u m else m)
    | .tick _ => fun _ _ m => m
  coll
    | .iter _ _ => true
    | .tick _ => false
  part _ r m := k.assemble r m
  act _ r ps g := { g with solution := k.scatter r (k.solve ps), converged := k.small (k.solve ps) }
  solo _ g := { g with clock := g.clock + 1 }
  after
    | .iter _ _ => fun g u m => k.update g.clock g.solution u m
    | .tick _ => fun g u m => k.finish g.clock u m
  next
    | .iter s it => fun g => some (if g.converged || it + 1 == 100 then .tick s else .iter s (it + 1))
    | .tick s => fun _ => if s + 1 < nst then some (.iter (s + 1) 0) else none

end

end Verif.Rounds
