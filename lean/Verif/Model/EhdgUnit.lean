import Verif.Model.SweUnit
import Verif.Model.EhdgParallel

/-!
# The kernels of the explicit hybridized discretization in one simulation unit

Models what one simulation unit does in `source/problem/SWE/discretization_EHDG/kernels_processor/ehdg_swe_proc_ompi_step.hpp` (`stage_ompi`) and in the exchange
of the bathymetry in `kernels_preprocessor/ehdg_swe_pre_init_global_prob.hpp`, with its own memory and the messages received, as kernels of the machine
of `Verif.Model.Schedule`.

Simplifications: as in `Verif.Model.SweUnit` and `Verif.Model.EhdgParallel`. The memory has the bathymetry received once, not the mean value computed from it.
-/

namespace Verif.Ehdg
open Verif.Swe Verif.Geometry Verif.Element Verif.Schedule

variable {K : Type} [Field K] [LinearOrder K]

/-- The memory of a unit, with the messages about the bathymetry. -/
structure EMem (K : Type) where
  unit : UnitMem K
  bath : Mail K

/-- The part that is as in the RKDG program. -/
def theUnit (x : Res (EMem K)) : Res (UnitMem K) := do
  let x ← x
  return x.unit

/-- A kernel that works on that part. -/
def onUnit (f : Res (UnitMem K) → Res (UnitMem K)) (x : Res (EMem K)) : Res (EMem K) := do
  let x ← x
  let y ← f (.ok x.unit)
  return { x with unit := y }

/-- `ehdg_swe_proc_dbound.hpp` lines 30-48 with the flux of `ehdg_swe_dbc_distributed.hpp`: what is subtracted, given the messages about bathymetry and state. -/
def ehdgAmount (v : Env K) (dat : ℕ → EltData K) (wet : ℕ → Bool) (q : State K) (junk : Dbnd K → ℕ → Q K) (b : Dbnd K) (mb ms : List K) :
    Res (Option (Fin 3 → ℕ → K)) := do
  let r := faceRule v.N (dat b.e).elt.p
  let fs ← sequenceRes (dbndFlux v dat wet q junk b mb ms) r.length
  let wex ← decodeWet ms
  if wet b.e || wex then
    return some fun var dof => Elt.intFace v.N r b.f (surfaceJ v.sq (dat b.e).elt.tri b.f) (fun gp => comp ((fs.getD gp none).getD 0) var) dof
  else return none

/-- The kernel of a distributed boundary. -/
def ehdgDbound (v : Env K) (dat : ℕ → EltData K) (wet : ℕ → Bool) (q : State K) (junk : Dbnd K → ℕ → Q K) (bath mail : Mail K) (rhs : State K) (b : Dbnd K) :
    Res (State K) := do
  let a ← ehdgAmount v dat wet q junk b (bath b.e' b.f') (mail b.e' b.f')
  return subOpt rhs b.e a

/-- `ehdg_swe_pre_init_global_prob.hpp` lines 52-66: the bathymetry of the distributed boundaries. -/
def bathPack (v : Env K) (dat : ℕ → EltData K) (m : Mesh K) : Mail K := fun e f => if sendsFace m e f then bathMessage v dat e f else []

/-- The messages are kept. -/
def takeBath (x : Res (EMem K)) (mail : Mail K) : Res (EMem K) := do
  let x ← x
  return { x with bath := mail }

/-- `ehdg_swe_proc_ompi_step.hpp` lines 45-50, with the send kernel in `ehdg_swe_proc_dbound.hpp` lines 7-28. -/
def ehdgPack (v : Env K) (dat : ℕ → EltData K) (m : Mesh K) (ns n : ℕ) (x : Res (UnitMem K)) : Mail K := fun e f =>
  match x with
  | .ok x => match x.slots[n % ns]? with
    | some cur => if sendsFace m e f then stateMessage v dat x.wet cur.q e f else []
    | none => []
  | .error _ => []

/-- Lines 58-86: the kernels that need no message. -/
def ehdgBefore (v : Env K) (dat : ℕ → EltData K) (m : Mesh K) (ns : ℕ) (time : ℕ → K) (fx : ℕ → Faces K) (n : ℕ) (x : Res (UnitMem K)) : Res (UnitMem K) := do
  let x ← x
  let cur ← slotOr x.slots[n % ns]?
  return { x with rhs := localRhs v dat m x.wet (time n) (fx n) cur.q x.rhs }

/-- Lines 105-121: the distributed boundaries, the mass matrix and `UpdateState`. -/
def ehdgAfter (v : Env K) (dat : ℕ → EltData K) (m : Mesh K) (tab : Stepper.Tableau) (ns : ℕ) (dt : K) (junk : Dbnd K → ℕ → Q K) (n : ℕ) (bath mail : Mail K)
    (x : Res (UnitMem K)) : Res (UnitMem K) := do
  let x ← x
  let cur ← slotOr x.slots[n % ns]?
  let rhs ← m.dist.foldlM (ehdgDbound v dat x.wet cur.q junk bath mail) x.rhs
  let slots ← slotOr (Stepper.setSolution x.slots (n % ns) (solve v dat rhs))
  let slots ← slotOr (Stepper.updateState tab ns dt (n % ns) slots)
  return { x with slots := slots, rhs := rhs }

/-- With the bathymetry from the memory. -/
def ehdgAfterMem (v : Env K) (dat : ℕ → EltData K) (m : Mesh K) (tab : Stepper.Tableau) (ns : ℕ) (dt : K) (junk : Dbnd K → ℕ → Q K) (n : ℕ)
    (x : Res (EMem K)) (mail : Mail K) : Res (EMem K) := do
  let x ← x
  let y ← ehdgAfter v dat m tab ns dt junk n x.bath mail (.ok x.unit)
  return { x with unit := y }

/-- The kernels of the program. -/
def ehdgKernels {U : Type} (v : Env K) (dat : ℕ → EltData K) (sub : U → Mesh K) (owner : ℕ → U) (tab : Stepper.Tableau) (ns : ℕ) (dt : K) (pp : PostParams K)
    (time : ℕ → K) (fx : ℕ → Faces K) (junk : Dbnd K → ℕ → Q K) : Kernels U (Res (EMem K)) (Mail K) where
  preSend := fun _ _ x => x
  packCoord := fun _ _ _ _ _ _ => []
  takeCoord := fun _ _ x _ => x
  globSend := fun _ _ x => x
  packGlob := fun u _ _ _ => bathPack v dat (sub u)
  takeGlob := fun _ _ x h => takeBath x (mailOf owner h)
  resize := fun _ _ x => x
  first := fun _ _ x => x
  parse := fun _ _ x => x
  gather := fun _ _ x => x
  packBound := fun u n x _ => ehdgPack v dat (sub u) ns n (theUnit x)
  before := fun u n x => onUnit (ehdgBefore v dat (sub u) ns time fx n) x
  after := fun u n x h => ehdgAfterMem v dat (sub u) tab ns dt junk n x (mailOf owner h)
  wetDry := fun u n x => onUnit (unitWetDry dat (sub u) pp.wd ns n) x
  prepare := fun _ _ x => x
  packBary := fun u n x _ => unitPackBaryOpt v dat (sub u) pp.sl ns n (theUnit x)
  prepFaces := fun _ _ x => x
  limit := fun u n x h => onUnit (fun y => unitLimitOpt v dat (sub u) pp.sl ns n y (mailOf owner h)) x
  check := fun _ _ x => x
  output := fun _ _ x => x

end Verif.Ehdg
