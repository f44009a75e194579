import Verif.Model.SweParallel
import Verif.Model.Schedule

/-!
# The RKDG kernels of one simulation unit

Models what one simulation unit does in `source/problem/SWE/discretization_RKDG/kernels_processor/rkdg_swe_proc_ompi_step.hpp` (`stage_ompi`) and
`source/problem/SWE/problem_slope_limiter/swe_CS_sl_ompi.hpp`, with its own memory and the messages received, as kernels of the machine of
`Verif.Model.Schedule`.

Simplifications: as in `Verif.Model.SweStage`. There is one array for the right-hand side, not one in each slot; it is
overwritten before it is read. The memory of a unit is indexed by the number of the element in the whole mesh, but a unit is only
responsible for its own elements; what it holds for the others is arbitrary. A send buffer is a function from the faces of the sender to the message
about the face (C26 has the offsets). The numbers written by the preprocessor are given, so its kernels do nothing here; parsing, output and the check
for NaN are left out; an exception or undefined behaviour in a unit stays in its memory.
-/

namespace Verif.Swe
open Verif.Geometry Verif.Element Verif.Schedule

variable {K : Type} [Field K] [LinearOrder K]

/-- The memory of a unit: the stage slots, the wet flags, whether an element was emptied, and the right-hand side. -/
structure UnitMem (K : Type) where
  slots : List (Stepper.Slot (State K))
  wet : ℕ → Bool
  emptied : Bool
  rhs : State K

/-- Messages by face. -/
abbrev Mail (K : Type) := ℕ → ℕ → List K

/-- `rkdg_swe_proc_dbound.hpp` lines 31-54: what is subtracted from the right-hand side of the element, given the message `m`. -/
def dboundAmount (v : Env K) (dat : ℕ → EltData K) (wet : ℕ → Bool) (q : State K) (b : Dbnd K) (m : List K) : Res (Option (Fin 3 → ℕ → K)) := do
  let r := faceRule v.N (dat b.e).elt.p
  let wetEx ← decodeWet m
  let fl ← sequenceRes (dbndFlux v dat wet q b m) r.length
  if wet b.e || wetEx then
    let F := fun gp => (fl.getD gp none).getD 0
    return some fun var dof => Elt.intFace v.N r b.f (surfaceJ v.sq (dat b.e).elt.tri b.f) (fun gp => comp (F gp) var) dof
  else return none

/-- Subtract it, if there is anything. -/
def subOpt (rhs : State K) (e : ℕ) : Option (Fin 3 → ℕ → K) → State K
  | some x => subAt rhs e x
  | none => rhs

/-- The kernel of a distributed boundary. -/
def dboundMail (v : Env K) (dat : ℕ → EltData K) (wet : ℕ → Bool) (q : State K) (mail : Mail K) (rhs : State K) (b : Dbnd K) : Res (State K) := do
  let a ← dboundAmount v dat wet q b (mail b.e' b.f')
  return subOpt rhs b.e a

section
variable {U : Type}

/-- The message about a face of an element, in the buffer of the neighbour the element belongs to (`owner`, from the metadata of the distributed
boundaries). -/
def mailOf (owner : ℕ → U) (h : U → Option (Mail K)) : Mail K := fun e f =>
  match h (owner e) with
  | some b => b e f
  | none => []

/-- Whether the unit has a distributed boundary at the face. -/
def sendsFace (m : Mesh K) (e f : ℕ) : Bool := m.dist.any fun b => b.e == e && b.f == f

/-- `rkdg_swe_proc_ompi_step.hpp` lines 46-51, with the send kernel in `rkdg_swe_proc_dbound.hpp` lines 7-29. -/
def unitPack (v : Env K) (dat : ℕ → EltData K) (m : Mesh K) (ns n : ℕ) (x : Res (UnitMem K)) : Mail K := fun e f =>
  match x with
  | .ok x => match x.slots[n % ns]? with
    | some cur => if sendsFace m e f then message v dat x.wet cur.q e f else []
    | none => []
  | .error _ => []

/-- Lines 54-74: the kernels that need no message. -/
def unitBefore (v : Env K) (dat : ℕ → EltData K) (m : Mesh K) (ns : ℕ) (time ramp : ℕ → K) (n : ℕ) (x : Res (UnitMem K)) : Res (UnitMem K) := do
  let x ← x
  let cur ← slotOr x.slots[n % ns]?
  return { x with rhs := localRhs v dat m x.wet (time n) (ramp n) cur.q x.rhs }

/-- Lines 76-102: the distributed boundaries, the mass matrix and `UpdateState`. -/
def unitAfter (v : Env K) (dat : ℕ → EltData K) (m : Mesh K) (tab : Stepper.Tableau) (ns : ℕ) (dt : K) (n : ℕ) (x : Res (UnitMem K)) (mail : Mail K) :
    Res (UnitMem K) := do
  let x ← x
  let cur ← slotOr x.slots[n % ns]?
  let rhs ← m.dist.foldlM (dboundMail v dat x.wet cur.q mail) x.rhs
  let slots ← slotOr (Stepper.setSolution x.slots (n % ns) (solve v dat rhs))
  let slots ← slotOr (Stepper.updateState tab ns dt (n % ns) slots)
  return { x with slots := slots, rhs := rhs }

/-- Lines 109-114: wetting and drying of the unit, after the stepper was advanced. -/
def unitWetDry (dat : ℕ → EltData K) (m : Mesh K) (w : Option (WdParams K)) (ns n : ℕ) (x : Res (UnitMem K)) : Res (UnitMem K) := do
  let x ← x
  let new ← slotOr x.slots[n % ns]?
  let f ← wdAll dat m w ⟨new.q, x.wet, x.emptied⟩
  let slots ← slotOr (Stepper.setQ x.slots (n % ns) f.q)
  return { x with slots := slots, wet := f.wet, emptied := f.emptied }

/-- `swe_CS_sl_ompi.hpp` lines 15-38 with the send kernel of the limiter. -/
def unitPackBary (v : Env K) (dat : ℕ → EltData K) (m : Mesh K) (p : SlParams K) (ns n : ℕ) (x : Res (UnitMem K)) : Mail K := fun e f =>
  match x with
  | .ok x => match x.slots[n % ns]? with
    | some new => if sendsFace m e f then slSend v dat p ⟨new.q, x.wet, x.emptied⟩ e f else []
    | none => []
  | .error _ => []

/-- The faces of a unit as the limiter sees them. -/
def slMeshMail (m : Mesh K) (mail : Mail K) : SlMesh K :=
  ⟨(slMesh m).ints, (slMesh m).bnds, m.dist.map fun b => ((b.e, b.f), mail b.e' b.f')⟩

/-- The limited coefficients of the unit. -/
def unitLimited (v : Env K) (dat : ℕ → EltData K) (m : Mesh K) (p : SlParams K) (mail : Mail K) (wet : ℕ → Bool) (q : State K) : State K := fun e =>
  if e ∈ m.elts then limitAll v.sq v.src.g p.M p.nu p.geo (fun e => ndof (dat e).elt.p) (slMeshMail m mail) wet p.old p.store q e else q e

/-- `swe_CS_sl_ompi.hpp` lines 40-72. -/
def unitLimit (v : Env K) (dat : ℕ → EltData K) (m : Mesh K) (p : SlParams K) (ns n : ℕ) (x : Res (UnitMem K)) (mail : Mail K) : Res (UnitMem K) := do
  let x ← x
  let new ← slotOr x.slots[n % ns]?
  let slots ← slotOr (Stepper.setQ x.slots (n % ns) (unitLimited v dat m p mail x.wet new.q))
  return { x with slots := slots }

/-- The limiter if it is switched on. -/
def unitPackBaryOpt (v : Env K) (dat : ℕ → EltData K) (m : Mesh K) (p : Option (SlParams K)) (ns n : ℕ) (x : Res (UnitMem K)) : Mail K :=
  match p with
  | some p => unitPackBary v dat m p ns n x
  | none => fun _ _ => []

def unitLimitOpt (v : Env K) (dat : ℕ → EltData K) (m : Mesh K) (p : Option (SlParams K)) (ns n : ℕ) (x : Res (UnitMem K)) (mail : Mail K) :
    Res (UnitMem K) :=
  match p with
  | some p => unitLimit v dat m p ns n x mail
  | none => x

/-- The kernels of the RKDG program. -/
def rkdgKernels (v : Env K) (dat : ℕ → EltData K) (sub : U → Mesh K) (owner : ℕ → U) (tab : Stepper.Tableau) (ns : ℕ) (dt : K) (pp : PostParams K)
    (time ramp : ℕ → K) : Kernels U (Res (UnitMem K)) (Mail K) where
  preSend := fun _ _ x => x
  packCoord := fun _ _ _ _ _ _ => []
  takeCoord := fun _ _ x _ => x
  globSend := fun _ _ x => x
  packGlob := fun _ _ _ _ _ _ => []
  takeGlob := fun _ _ x _ => x
  resize := fun _ _ x => x
  first := fun _ _ x => x
  parse := fun _ _ x => x
  gather := fun _ _ x => x
  packBound := fun u n x _ => unitPack v dat (sub u) ns n x
  before := fun u n x => unitBefore v dat (sub u) ns time ramp n x
  after := fun u n x h => unitAfter v dat (sub u) tab ns dt n x (mailOf owner h)
  wetDry := fun u n x => unitWetDry dat (sub u) pp.wd ns n x
  prepare := fun _ _ x => x
  packBary := fun u n x _ => unitPackBaryOpt v dat (sub u) pp.sl ns n x
  prepFaces := fun _ _ x => x
  limit := fun u n x h => unitLimitOpt v dat (sub u) pp.sl ns n x (mailOf owner h)
  check := fun _ _ x => x
  output := fun _ _ x => x

end

end Verif.Swe
