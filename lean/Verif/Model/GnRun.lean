import Verif.Model.GnRanks
import Verif.Model.EhdgParallel

/-!
# Steps of the Green-Naghdi program

Models `step_ompi` of `source/problem/Green-Naghdi/discretization_EHDG/kernels_processor/ehdg_gn_proc_ompi_step.hpp` (lines 10-64), for all ranks together, and
the sequence of steps of the serial and of the parallel program.

Simplifications: as in `Gn`, `GnRanks`, `EhdgParallel`. What is given for each stage of the shallow water equations (time, fluxes at open boundaries, contents of
matrices that are not written) is a parameter for each of both parts of each step.
-/

namespace Verif.Gn
open Verif.Swe Verif.Ehdg

variable {K : Type} [Field K] [LinearOrder K] (D : Dc K) (W : Ranks K)

/-- What is given for the stages of one shallow water part of a step. -/
structure Part (K : Type) where
  time : ℕ → K
  faces : ℕ → Faces K
  junk : State K

/-- The right-hand side of a stage, serial. -/
def Part.rhs (p : Part K) (k : ℕ) (wet : ℕ → Bool) (q : State K) : State K := Ehdg.localRhs D.v D.dat D.m wet (p.time k) (p.faces k) q p.junk

/-- The right-hand side of a stage on several ranks; `junkD` is what the matrices of distributed levees hold. -/
def Part.rhsP (p : Part K) (junkD : Dbnd K → ℕ → Q K) (k : ℕ) (wet : ℕ → Bool) (q : State K) : Res (State K) :=
  Ehdg.parallelRhs D.v D.dat W.meshes wet (p.time k) (p.faces k) junkD q p.junk

/-- Steps of the serial program. -/
def strangRun (A B : Method K) (pp : PostParams K) (p1 p2 : ℕ → Part K) (corr troubled : ℕ → Bool) : ℕ → GnRun K → Res (GnRun K)
  | 0, s => .ok s
  | n + 1, s => do
    let s ← strangRun A B pp p1 p2 corr troubled n s
    strangStep D A B pp ((p1 n).rhs D) ((p2 n).rhs D) corr troubled s

/-- `ehdg_gn_proc_ompi_step.hpp` lines 10-64 (`step_ompi`). -/
def strangStepP (A B : Method K) (pp : PostParams K) (P1 P2 : ℕ → (ℕ → Bool) → State K → Res (State K)) (corr troubled : ℕ → Bool) (s : GnRunP K) :
    Res (GnRunP K) := do
  let r ← runParallelWith D.v D.dat W.meshes A.tab A.ns A.dt pp P1 A.ns s.run
  let s ← dcStagesP D W B.tab B.ns B.dt corr troubled B.ns { s with run := r }
  let r ← runParallelWith D.v D.dat W.meshes A.tab A.ns A.dt pp P2 A.ns s.run
  return { s with run := r }

/-- Steps of the parallel program. -/
def strangRunP (A B : Method K) (pp : PostParams K) (p1 p2 : ℕ → Part K) (junkD : Dbnd K → ℕ → Q K) (corr troubled : ℕ → Bool) : ℕ → GnRunP K → Res (GnRunP K)
  | 0, s => .ok s
  | n + 1, s => do
    let s ← strangRunP A B pp p1 p2 junkD corr troubled n s
    strangStepP D W A B pp ((p1 n).rhsP D W junkD) ((p2 n).rhsP D W junkD) corr troubled s

end Verif.Gn
