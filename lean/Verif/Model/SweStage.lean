import Verif.Model.Element
import Verif.Model.SweFlux
import Verif.Model.SweSource
import Verif.Model.SweWetDry
import Verif.Model.SweLimiter
import Verif.Model.Stepper

/-!
# One stage of the RKDG scheme

Models the kernels in `source/problem/SWE/discretization_RKDG/kernels_processor` and their composition in `rkdg_swe_proc_serial_step.hpp`
(`stage_serial`, `step_serial`) and `rkdg_swe_proc_ompi_step.hpp` (`stage_ompi`), on a whole mesh.

Simplifications: doubles are elements of an ordered field; elements are numbered by natural numbers; arrays stored per element become functions
of the number of the element. `q e var dof` is the coefficient `state.q(var, dof)` of element `e`. Auxiliary data at Gauss points, computed once
by `swe_pre_init_data.hpp`, are recomputed where they are read. In the parallel version all submeshes share one state indexed by the number of
the element in the whole mesh, and the message of a distributed boundary is what the other side sends in the same stage (C26). The check for
NaN is not modelled. Function sources, boundary functions, cosine, π and square roots are parameters.
-/

namespace Verif.Swe
open Verif.Geometry Verif.Element

variable {K : Type} [Field K] [LinearOrder K]

/-- The coefficients of all elements, or a right-hand side. -/
abbrev State (K : Type) := ℕ → Fin 3 → ℕ → K

/-- Functions and parameters which the kernels use. -/
structure Env (K : Type) where
  N : Numerics K
  sq : K → K
  cb : K → K
  cos : K → K
  pi : K
  src : SourceTerms K
  /-- `cos_phi_o / cos(y / R)` or 1, `swe_pre_init_data.hpp` lines 33-49. -/
  sp : P2 K → K
  /-- `source_q`, at a time and a point. -/
  fs : K → P2 K → Q K
  /-- `ic_q`, used by the boundary condition `Function`. -/
  bcq : K → P2 K → Q K

/-- An element with its bathymetry coefficients and source data. -/
structure EltData (K : Type) where
  elt : Elt K
  bath : ℕ → K
  src : EltSource K

/-- Specializations of interfaces. Levee data at the Gauss points of the interior side. -/
inductive IntKind (K : Type) where
  | internal
  | levee (data : ℕ → LeveeGp K)

/-- Boundary conditions with their data at Gauss points. -/
inductive BndKind (K : Type) where
  | land
  | tide (cs : ℕ → List (Constituent K))
  | flow (cs : ℕ → List (Constituent K))
  | function

/-- An interface between face `fin` of `ein` and face `fex` of `eex`. -/
structure Iface (K : Type) where
  ein : ℕ
  fin : ℕ
  eex : ℕ
  fex : ℕ
  kind : IntKind K

/-- A boundary. -/
structure Bnd (K : Type) where
  e : ℕ
  f : ℕ
  kind : BndKind K

/-- A distributed boundary: own face, and the face of the element of another submesh with which it exchanges messages. -/
structure Dbnd (K : Type) where
  e : ℕ
  f : ℕ
  e' : ℕ
  f' : ℕ
  kind : IntKind K

/-- A mesh or a submesh. -/
structure Mesh (K : Type) where
  elts : List ℕ
  ints : List (Iface K)
  bnds : List (Bnd K)
  dist : List (Dbnd K)

/-- Value of all variables at a point of an element. -/
def qAt (N : Numerics K) (e : Elt K) (u : Fin 3 → ℕ → K) (z : P2 K) : Q K := ⟨e.value N (u 0) z, e.value N (u 1) z, e.value N (u 2) z⟩

/-- The row of a variable. -/
def comp (q : Q K) : Fin 3 → K := ![q.ze, q.qx, q.qy]

/-- Auxiliaries at a point of an element; `g` is the point in global coordinates. -/
def auxAt (v : Env K) (d : EltData K) (q : Q K) (z g : P2 K) : Aux K :=
  ⟨d.elt.value v.N d.bath z, q.ze + d.elt.value v.N d.bath z, v.sp g⟩

/-- `rkdg_swe_proc_volume.hpp` lines 9-35, of a wet element. -/
def volumeTerm (v : Env K) (d : EltData K) (u : Fin 3 → ℕ → K) : Fin 3 → ℕ → K :=
  let q := qAt v.N d.elt u
  let a := fun z => auxAt v d (q z) z (localToGlobal d.elt.tri z)
  fun var dof => d.elt.intDPhi v.N 0 (fun z => (a z).sp * comp (fluxX v.src.g (q z) (a z)) var) dof +
    d.elt.intDPhi v.N 1 (fun z => comp (fluxY v.src.g (q z) (a z)) var) dof

/-- `rkdg_swe_proc_source.hpp` lines 8-18, of a wet element. -/
def sourceTerm (v : Env K) (d : EltData K) (t : K) (u : Fin 3 → ℕ → K) : Fin 3 → ℕ → K :=
  let q := qAt v.N d.elt u
  let a := fun z => auxAt v d (q z) z (localToGlobal d.elt.tri z)
  fun var dof => d.elt.intPhi v.N (fun z => comp (getSource v.sq v.cb v.src d.src (v.fs t (localToGlobal d.elt.tri z)) (q z) (a z)
    ⟨d.elt.deriv v.N 0 d.bath z, d.elt.deriv v.N 1 d.bath z⟩) var) dof

/-- Subtract from the right-hand side of one element. -/
def subAt (rhs : State K) (e : ℕ) (x : Fin 3 → ℕ → K) : State K := Function.update rhs e (rhs e - x)

/-- `rkdg_swe_proc_volume.hpp`: the kernel, with the initial zero. -/
def volumeKernel (v : Env K) (dat : ℕ → EltData K) (wet : ℕ → Bool) (q : State K) (rhs : State K) (e : ℕ) : State K :=
  Function.update rhs e (if wet e then volumeTerm v (dat e) (q e) else 0)

/-- `rkdg_swe_proc_source.hpp`: the kernel. -/
def sourceKernel (v : Env K) (dat : ℕ → EltData K) (wet : ℕ → Bool) (t : K) (q : State K) (rhs : State K) (e : ℕ) : State K :=
  if wet e then Function.update rhs e (rhs e + sourceTerm v (dat e) t (q e)) else rhs

/-! ### Faces -/

/-- Rule of an interface. -/
def Iface.rule (v : Env K) (dat : ℕ → EltData K) (i : Iface K) : List (K × K) := faceRule v.N (max (dat i.ein).elt.p (dat i.eex).elt.p)

/-- `surface_J[0]` of an interface: of the interior side. -/
def Iface.J (v : Env K) (dat : ℕ → EltData K) (i : Iface K) : K := surfaceJ v.sq (dat i.ein).elt.tri i.fin

/-- The interior side at Gauss point `gp`. -/
def Iface.inside (v : Env K) (dat : ℕ → EltData K) (wet : ℕ → Bool) (q : State K) (i : Iface K) (gp : ℕ) : Side K :=
  let d := dat i.ein
  let z := facePt (i.rule v dat) i.fin gp
  let x := qAt v.N d.elt (q i.ein) z
  ⟨x, auxAt v d x z (localToGlobal d.elt.tri z), normal v.sq d.elt.tri i.fin, wet i.ein⟩

/-- The exterior side at Gauss point `gp` of the exterior side; its projection factor is that of the interior side at the opposite number
(`swe_pre_init_data.hpp` lines 79-98). -/
def Iface.outside (v : Env K) (dat : ℕ → EltData K) (wet : ℕ → Bool) (q : State K) (i : Iface K) (gp : ℕ) : Side K :=
  let d := dat i.eex
  let r := i.rule v dat
  let z := facePt r i.fex gp
  let x := qAt v.N d.elt (q i.eex) z
  let n := normal v.sq (dat i.ein).elt.tri i.fin
  ⟨x, auxAt v d x z (localToGlobal (dat i.ein).elt.tri (facePt r i.fin (r.length - gp - 1))), ⟨-n.x, -n.y⟩, wet i.eex⟩

/-- `ComputeFlux` at one pair of Gauss points. -/
def Iface.flux (v : Env K) (dat : ℕ → EltData K) (wet : ℕ → Bool) (q : State K) (i : Iface K) (gp : ℕ) : Q K × Q K :=
  let a := i.inside v dat wet q gp
  let b := i.outside v dat wet q ((i.rule v dat).length - gp - 1)
  match i.kind with
  | .internal => internal v.sq v.src.g a b
  | .levee l => levee v.sq v.src.g (l gp) a b

/-- `rkdg_swe_proc_intface.hpp` lines 6-27: what is subtracted on the interior side. -/
def Iface.inTerm (v : Env K) (dat : ℕ → EltData K) (wet : ℕ → Bool) (q : State K) (i : Iface K) : Fin 3 → ℕ → K := fun var dof =>
  Elt.intFace v.N (i.rule v dat) i.fin (i.J v dat) (fun gp => comp (i.flux v dat wet q gp).1 var) dof

/-- The same on the exterior side; the flux of its Gauss point `gp` was computed with Gauss point `ngp - gp - 1` of the interior side. -/
def Iface.exTerm (v : Env K) (dat : ℕ → EltData K) (wet : ℕ → Bool) (q : State K) (i : Iface K) : Fin 3 → ℕ → K := fun var dof =>
  Elt.intFace v.N (i.rule v dat) i.fex (i.J v dat) (fun gp => comp (i.flux v dat wet q ((i.rule v dat).length - gp - 1)).2 var) dof

/-- The kernel. -/
def interfaceKernel (v : Env K) (dat : ℕ → EltData K) (wet : ℕ → Bool) (q : State K) (rhs : State K) (i : Iface K) : State K :=
  if wet i.ein || wet i.eex then subAt (subAt rhs i.ein (i.inTerm v dat wet q)) i.eex (i.exTerm v dat wet q) else rhs

/-- `ComputeFlux` of a boundary condition at one Gauss point; `g` the point in global coordinates: `rkdg_swe_bc_land.hpp` lines 41-66, `rkdg_swe_bc_tide.hpp`
lines 71-98, `rkdg_swe_bc_flow.hpp` lines 73-103, `rkdg_swe_bc_function.hpp` lines 28-60. -/
def bndFlux (v : Env K) (t ramp : K) (k : BndKind K) (gp : ℕ) (q : Q K) (a : Aux K) (n g : P2 K) : Q K :=
  match k with
  | .land => landFlux v.sq v.src.g q a n
  | .tide cs => llf v.sq v.src.g q (tideEx v.cos v.pi ramp t (cs gp) q) a n
  | .flow cs => llf v.sq v.src.g q (flowEx v.cos v.pi ramp t (cs gp) n q) a n
  | .function => llf v.sq v.src.g q (v.bcq t g) a n

/-- `rkdg_swe_proc_bound.hpp` lines 6-19: what is subtracted. -/
def Bnd.term (v : Env K) (dat : ℕ → EltData K) (t ramp : K) (q : State K) (b : Bnd K) : Fin 3 → ℕ → K :=
  let d := dat b.e
  let r := faceRule v.N d.elt.p
  let F := fun gp =>
    let z := facePt r b.f gp
    let g := localToGlobal d.elt.tri z
    let x := qAt v.N d.elt (q b.e) z
    bndFlux v t ramp b.kind gp x (auxAt v d x z g) (normal v.sq d.elt.tri b.f) g
  fun var dof => Elt.intFace v.N r b.f (surfaceJ v.sq d.elt.tri b.f) (fun gp => comp (F gp) var) dof

/-- The kernel. -/
def boundaryKernel (v : Env K) (dat : ℕ → EltData K) (wet : ℕ → Bool) (t ramp : K) (q : State K) (rhs : State K) (b : Bnd K) : State K :=
  if wet b.e then subAt rhs b.e (b.term v dat t ramp q) else rhs

/-! ### Distributed boundaries -/

/-- The own side of a distributed boundary at Gauss point `gp` (`ComputeUgp` in the send kernel, normal and bathymetry as of a boundary). -/
def ownSide (v : Env K) (dat : ℕ → EltData K) (wet : ℕ → Bool) (q : State K) (e f gp : ℕ) : Side K :=
  let d := dat e
  let z := facePt (faceRule v.N d.elt.p) f gp
  let x := qAt v.N d.elt (q e) z
  ⟨x, auxAt v d x z (localToGlobal d.elt.tri z), normal v.sq d.elt.tri f, wet e⟩

/-- `rkdg_swe_proc_dbound.hpp` lines 7-29: the message about face `f` of element `e`. -/
def message (v : Env K) (dat : ℕ → EltData K) (wet : ℕ → Bool) (q : State K) (e f : ℕ) : List K :=
  encode (wet e) ((List.range (faceRule v.N (dat e).elt.p).length).map fun gp => (ownSide v dat wet q e f gp).q)

/-- Lines 31-54: what is subtracted, `none` if nothing is; the message of the other side is read Gauss point by Gauss point. -/
def dbndFlux (v : Env K) (dat : ℕ → EltData K) (wet : ℕ → Bool) (q : State K) (b : Dbnd K) (m : List K) (gp : ℕ) : Res (Option (Q K)) :=
  let n := (faceRule v.N (dat b.e).elt.p).length
  let s := ownSide v dat wet q b.e b.f gp
  match b.kind with
  | .internal => distributedAt v.sq v.src.g n s m gp
  | .levee l => distributedLeveeAt v.sq v.src.g n (l gp) s m gp

/-- All Gauss points: a missing number is undefined behaviour. -/
def sequenceRes {α : Type} (f : ℕ → Res α) : ℕ → Res (List α)
  | 0 => .ok []
  | n + 1 => do
    let l ← sequenceRes f n
    let x ← f n
    return l ++ [x]

/-- The distributed kernel. The decision whether to compute anything depends on the wet flags only, so all fluxes are present or none. -/
def dboundKernel (v : Env K) (dat : ℕ → EltData K) (wet : ℕ → Bool) (q : State K) (rhs : State K) (b : Dbnd K) : Res (State K) := do
  let r := faceRule v.N (dat b.e).elt.p
  let m := message v dat wet q b.e' b.f'
  let wetEx ← decodeWet m
  let fl ← sequenceRes (dbndFlux v dat wet q b m) r.length
  if wet b.e || wetEx then
    let F := fun gp => (fl.getD gp none).getD 0
    return subAt rhs b.e fun var dof => Elt.intFace v.N r b.f (surfaceJ v.sq (dat b.e).elt.tri b.f) (fun gp => comp (F gp) var) dof
  else return rhs

/-! ### The stage -/

/-- `rkdg_swe_proc_serial_step.hpp` lines 32-40: the right-hand side from all kernels but the distributed boundaries; `rhs` is the former one. -/
def localRhs (v : Env K) (dat : ℕ → EltData K) (m : Mesh K) (wet : ℕ → Bool) (t ramp : K) (q rhs : State K) : State K :=
  let r := m.elts.foldl (volumeKernel v dat wet q) rhs
  let r := m.elts.foldl (sourceKernel v dat wet t q) r
  let r := m.ints.foldl (interfaceKernel v dat wet q) r
  m.bnds.foldl (boundaryKernel v dat wet t ramp q) r

/-- Line 45. -/
def solve (v : Env K) (dat : ℕ → EltData K) (rhs : State K) : State K := fun e var => (dat e).elt.applyMinv v.N (rhs e var)

/-- `rkdg_swe_proc_ompi_step.hpp` lines 66-81, 105-106: the right-hand side on all submeshes; each submesh writes only its own elements. The
first loop runs over all submeshes before any distributed kernel. -/
def parallelRhs (v : Env K) (dat : ℕ → EltData K) (ms : List (Mesh K)) (wet : ℕ → Bool) (t ramp : K) (q rhs : State K) : Res (State K) :=
  let r := ms.foldl (fun r m => localRhs v dat m wet t ramp q r) rhs
  ms.foldlM (fun r m => m.dist.foldlM (dboundKernel v dat wet q) r) r

/-! ### Post-processing -/

/-- Wetting and drying: parameters and bathymetry at the vertices. -/
structure WdParams (K : Type) where
  ho : K
  thr : K
  bath : ℕ → ℕ → K
  bathMin : ℕ → K
  temp : ℕ → ℕ → K

/-- Limiter parameters, geometry and the contents of the arrays it does not always fill. -/
structure SlParams (K : Type) where
  M : K
  nu : K
  geo : ℕ → SlGeom K
  old : ℕ → V3 K
  store : SlStore K

/-- Switches and parameters of the post-processing. -/
structure PostParams (K : Type) where
  wd : Option (WdParams K)
  sl : Option (SlParams K)

def rowsOf (u : Fin 3 → ℕ → K) : Rows K := ⟨u 0, u 1, u 2⟩
def ofRows (r : Rows K) : Fin 3 → ℕ → K := ![r.ze, r.qx, r.qy]

/-- State and wet flags; `emptied` records whether an element was emptied. -/
structure Flow (K : Type) where
  q : State K
  wet : ℕ → Bool
  emptied : Bool

/-- Wetting and drying of one element. -/
def wdStep (dat : ℕ → EltData K) (w : WdParams K) (s : Flow K) (e : ℕ) : Res (Flow K) := do
  let o ← wetDry w.ho w.thr (ndof (dat e).elt.p) (w.bath e) (w.bathMin e) (w.temp e) (s.wet e) (rowsOf (s.q e))
  return ⟨Function.update s.q e (ofRows o.q), Function.update s.wet e o.wet, s.emptied || o.emptied⟩

/-- Lines 51-53. -/
def wdAll (dat : ℕ → EltData K) (m : Mesh K) (w : Option (WdParams K)) (s : Flow K) : Res (Flow K) :=
  match w with
  | none => .ok s
  | some w => m.elts.foldlM (wdStep dat w) s

/-- The faces as the limiter sees them. -/
def slMesh (m : Mesh K) : SlMesh K := ⟨m.ints.map fun i => ((i.ein, i.fin), (i.eex, i.fex)), m.bnds.map fun b => (b.e, b.f), []⟩

/-- Lines 55-57: the limited coefficients. -/
def limited (v : Env K) (dat : ℕ → EltData K) (m : Mesh K) (p : SlParams K) (s : Flow K) : State K := fun e =>
  if e ∈ m.elts then limitAll v.sq v.src.g p.M p.nu p.geo (fun e => ndof (dat e).elt.p) (slMesh m) s.wet p.old p.store s.q e else s.q e

/-- Lines 55-57. -/
def slAll (v : Env K) (dat : ℕ → EltData K) (m : Mesh K) (p : Option (SlParams K)) (s : Flow K) : Flow K :=
  match p with
  | none => s
  | some p => { s with q := limited v dat m p s }

/-- Data of a run: stage slots of all elements, stage number, wet flags. -/
structure Run (K : Type) where
  slots : List (Stepper.Slot (State K))
  stage : ℕ
  wet : ℕ → Bool
  emptied : Bool

/-- A missing slot is undefined behaviour. -/
def slotOr {α : Type} : Option α → Res α
  | some x => .ok x
  | none => .error .ub

/-- `rkdg_swe_proc_serial_step.hpp` lines 42-67 (`stage_serial`) after the kernels, the right-hand side given by `R` from the wet flags and the
state; the same text is in `ehdg_swe_proc_serial_step.hpp` lines 57-84. -/
def stageWith (v : Env K) (dat : ℕ → EltData K) (m : Mesh K) (tab : Stepper.Tableau) (ns : ℕ) (dt : K) (pp : PostParams K)
    (R : (ℕ → Bool) → State K → State K) (s : Run K) : Res (Run K) := do
  let cur ← slotOr s.slots[s.stage]?
  let slots ← slotOr (Stepper.setSolution s.slots s.stage (solve v dat (R s.wet cur.q)))
  let slots ← slotOr (Stepper.updateState tab ns dt s.stage slots)
  let stage := (s.stage + 1) % ns
  let new ← slotOr slots[stage]?
  let f ← wdAll dat m pp.wd ⟨new.q, s.wet, s.emptied⟩
  let f := slAll v dat m pp.sl f
  let slots ← slotOr (Stepper.setQ slots stage f.q)
  return ⟨slots, stage, f.wet, f.emptied⟩

/-- Any number of stages. -/
def runWith (v : Env K) (dat : ℕ → EltData K) (m : Mesh K) (tab : Stepper.Tableau) (ns : ℕ) (dt : K) (pp : PostParams K)
    (R : ℕ → (ℕ → Bool) → State K → State K) : ℕ → Run K → Res (Run K)
  | 0, s => .ok s
  | n + 1, s => do
    let s ← runWith v dat m tab ns dt pp R n s
    stageWith v dat m tab ns dt pp (R n) s

/-- `rkdg_swe_proc_serial_step.hpp` lines 28-67 (`stage_serial`), time and ramp of the stage given. `junk` is what the right-hand side held. -/
def stageSerial (v : Env K) (dat : ℕ → EltData K) (m : Mesh K) (tab : Stepper.Tableau) (ns : ℕ) (dt : K) (pp : PostParams K) (junk : State K)
    (t ramp : K) (s : Run K) : Res (Run K) :=
  stageWith v dat m tab ns dt pp (fun wet q => localRhs v dat m wet t ramp q junk) s

/-- Any number of stages; time and ramp of each are given. -/
def runSerial (v : Env K) (dat : ℕ → EltData K) (m : Mesh K) (tab : Stepper.Tableau) (ns : ℕ) (dt : K) (pp : PostParams K) (junk : State K)
    (time ramp : ℕ → K) (n : ℕ) (s : Run K) : Res (Run K) :=
  runWith v dat m tab ns dt pp (fun k wet q => localRhs v dat m wet (time k) (ramp k) q junk) n s

end Verif.Swe
