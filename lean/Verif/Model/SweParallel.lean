import Verif.Model.SweStage

/-!
# Stages on several submeshes

Models `source/problem/SWE/discretization_RKDG/kernels_processor/rkdg_swe_proc_ompi_step.hpp` (`stage_ompi`) and
`source/problem/SWE/problem_slope_limiter/swe_CS_sl_ompi.hpp`, for all submeshes of all ranks together.

Simplifications: as in `Verif.Model.SweStage`; the submeshes share one state indexed by the number of the element in the whole mesh, each
submesh writes its own elements only. A message holds what the other side sends in the same stage (C25, C26). The data prepared at the
beginning (limiter geometry, bathymetry at vertices) are the same as in the serial program. The detector sets a flag that is never read
(`troubled`), so it is left out.
-/

namespace Verif.Swe
open Verif.Geometry Verif.Element

variable {K : Type} [Field K] [LinearOrder K]

/-- `swe_CS_slope_limiter.hpp` lines 9-20: `q_at_baryctr`, computed for wet elements only. -/
def slBary (dat : ℕ → EltData K) (p : SlParams K) (s : Flow K) (e : ℕ) : V3 K :=
  if s.wet e then fun var => baryOf (vrtxOf (ndof (dat e).elt.p) (s.q e var)) else p.old e

/-- `swe_CS_slope_limiter.hpp` lines 48-73 (`slope_limiting_distributed_boundary_send_kernel`): the message about face `f` of element `e`, with
the depths at the Gauss points. -/
def slSend (v : Env K) (dat : ℕ → EltData K) (p : SlParams K) (s : Flow K) (e f : ℕ) : List K :=
  slMessage (s.wet e) (slBary dat p s e)
    ((List.range (faceRule v.N (dat e).elt.p).length).map fun gp => (ownSide v dat s.wet s.q e f gp).aux.h)

/-- The faces of a submesh as the limiter sees them, with the messages received. -/
def slMeshDist (v : Env K) (dat : ℕ → EltData K) (p : SlParams K) (s : Flow K) (m : Mesh K) : SlMesh K :=
  ⟨(slMesh m).ints, (slMesh m).bnds, m.dist.map fun b => ((b.e, b.f), slSend v dat p s b.e' b.f')⟩

/-- The limited coefficients of element `e`, by the submesh it belongs to; all messages are sent before the first element is limited. -/
def limitedParallel (v : Env K) (dat : ℕ → EltData K) (ms : List (Mesh K)) (p : SlParams K) (s : Flow K) : State K := fun e =>
  match ms.find? (fun m => decide (e ∈ m.elts)) with
  | some m => limitAll v.sq v.src.g p.M p.nu p.geo (fun e => ndof (dat e).elt.p) (slMeshDist v dat p s m) s.wet p.old p.store s.q e
  | none => s.q e

/-- `rkdg_swe_proc_ompi_step.hpp` lines 109-114. -/
def wdParallel (dat : ℕ → EltData K) (ms : List (Mesh K)) (w : Option (WdParams K)) (s : Flow K) : Res (Flow K) :=
  ms.foldlM (fun s m => wdAll dat m w s) s

/-- Lines 116-118. -/
def slParallel (v : Env K) (dat : ℕ → EltData K) (ms : List (Mesh K)) (p : Option (SlParams K)) (s : Flow K) : Flow K :=
  match p with
  | none => s
  | some p => { s with q := limitedParallel v dat ms p s }

/-- A stage on all submeshes with given right-hand side. -/
def stageParallelWith (v : Env K) (dat : ℕ → EltData K) (ms : List (Mesh K)) (tab : Stepper.Tableau) (ns : ℕ) (dt : K) (pp : PostParams K)
    (R : (ℕ → Bool) → State K → Res (State K)) (s : Run K) : Res (Run K) := do
  let cur ← slotOr s.slots[s.stage]?
  let rhs ← R s.wet cur.q
  let slots ← slotOr (Stepper.setSolution s.slots s.stage (solve v dat rhs))
  let slots ← slotOr (Stepper.updateState tab ns dt s.stage slots)
  let stage := (s.stage + 1) % ns
  let new ← slotOr slots[stage]?
  let f ← wdParallel dat ms pp.wd ⟨new.q, s.wet, s.emptied⟩
  let f := slParallel v dat ms pp.sl f
  let slots ← slotOr (Stepper.setQ slots stage f.q)
  return ⟨slots, stage, f.wet, f.emptied⟩

/-- Any number of stages. -/
def runParallelWith (v : Env K) (dat : ℕ → EltData K) (ms : List (Mesh K)) (tab : Stepper.Tableau) (ns : ℕ) (dt : K) (pp : PostParams K)
    (R : ℕ → (ℕ → Bool) → State K → Res (State K)) : ℕ → Run K → Res (Run K)
  | 0, s => .ok s
  | n + 1, s => do
    let s ← runParallelWith v dat ms tab ns dt pp R n s
    stageParallelWith v dat ms tab ns dt pp (R n) s

/-- Lines 33-132 (`stage_ompi`), all submeshes; time and ramp of the stage given. -/
def stageParallel (v : Env K) (dat : ℕ → EltData K) (ms : List (Mesh K)) (tab : Stepper.Tableau) (ns : ℕ) (dt : K) (pp : PostParams K)
    (junk : State K) (t ramp : K) (s : Run K) : Res (Run K) :=
  stageParallelWith v dat ms tab ns dt pp (fun wet q => parallelRhs v dat ms wet t ramp q junk) s

/-- Any number of stages. -/
def runParallel (v : Env K) (dat : ℕ → EltData K) (ms : List (Mesh K)) (tab : Stepper.Tableau) (ns : ℕ) (dt : K) (pp : PostParams K)
    (junk : State K) (time ramp : ℕ → K) : ℕ → Run K → Res (Run K)
  | 0, s => .ok s
  | n + 1, s => do
    let s ← runParallel v dat ms tab ns dt pp junk time ramp n s
    stageParallel v dat ms tab ns dt pp junk (time n) (ramp n) s

end Verif.Swe
