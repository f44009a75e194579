import Verif.Model.SweStage
import Verif.Model.SweJacobian

/-!
# The explicit hybridized discretization

Models `source/problem/SWE/discretization_EHDG`: interface fluxes, land boundary, distributed boundary, local kernels and their composition.

Simplifications: as in `SweFlux` and `SweStage`. Arrays with one column per Gauss point are functions of the number of the point, written with
`Function.update`. Normals are the same at all Gauss points of a face (straight sides). The flux matrices keep their former contents until they
are written; these are the parameters called `junk`. Boundaries other than land get their flux from a trace which is computed by a Newton
iteration (`compute_bc_trace.hpp`, modelled in `EhdgTrace`); here their fluxes are a parameter.
-/

namespace Verif.Ehdg
open Verif.Swe Verif.Geometry Verif.Element

variable {K : Type} [Field K] [LinearOrder K]

/-- A column of three numbers. -/
def ofComp (x : Fin 3 → K) : Q K := ⟨x 0, x 1, x 2⟩

/-- `tau * q`. -/
def mulQ (t : M3 K) (q : Q K) : Q K := ofComp (Matrix.mulVec t (comp q))

/-- `edge_internal` and the flux matrices of both sides of an interface. -/
structure Edge (K : Type) where
  qhat : ℕ → Q K
  aux : ℕ → Aux K
  tau : ℕ → M3 K
  fin : ℕ → Q K
  fex : ℕ → Q K

/-- `ehdg_swe_pre_init_global_prob.hpp` lines 14-22: bathymetry at an interface, the mean of both sides. The other rows are not set. -/
def bathHat (ngp : ℕ) (bin bex : ℕ → K) (gp : ℕ) : K := (bin gp + bex (ngp - gp - 1)) / 2

/-- `ehdg_swe_bc_land.hpp` lines 78-82: the trace at land. -/
def landHat (n : P2 K) (q : Q K) : Q K :=
  let qn := q.qx * n.x + q.qy * n.y
  ⟨q.ze, q.qx - qn * n.x, q.qy - qn * n.y⟩

/-- `ehdg_swe_bc_land.hpp` lines 68-89 (`ComputeFlux`): trace, stabilization matrix and flux for given auxiliaries. -/
def landFlux (sq : K → K) (g : K) (n : P2 K) (q : Q K) (a : Aux K) : Q K × M3 K × Q K :=
  let qh := landHat n q
  let t := tauLF sq g qh a n
  (qh, t, fluxN g qh a n + mulQ t (q - qh))

/-- `ehdg_swe_bc_land.hpp` lines 30-66 (`ComputeNumericalFlux`) at one Gauss point. -/
def landBoundary (sq : K → K) (g : K) (n : P2 K) (q : Q K) (bath : K) : Q K :=
  let qh := landHat n q
  let a : Aux K := ⟨bath, qh.ze + bath, 1⟩
  fluxN g qh a n + mulQ (tauLF sq g qh a n) (q - qh)

/-! ### `ehdg_swe_is_internal.hpp` -/

/-- Lines 35-60: trace, depth, trace flux of the interior side, stabilization matrix. -/
def start (sq : K → K) (g : K) (ngp : ℕ) (nin : P2 K) (qin qex : ℕ → Q K) (bath : ℕ → K) (junk : ℕ → Q K) : Edge K :=
  let qh := fun gp => Q.smul (1 / 2) (qin gp + qex (ngp - gp - 1))
  let a : ℕ → Aux K := fun gp => ⟨bath gp, (qh gp).ze + bath gp, 1⟩
  ⟨qh, a, fun gp => tauLF sq g (qh gp) (a gp) nin, fun gp => fluxN g (qh gp) (a gp) nin, junk⟩

/-- Lines 63-72: one turn of the loop that adds the stabilization. The matrix of the exterior side is filled from that of the interior side while
the latter is changed. -/
def stabilize (ngp : ℕ) (qin qex : ℕ → Q K) (s : Edge K) (gp : ℕ) : Edge K :=
  let gpe := ngp - gp - 1
  let fex := Function.update s.fex gp (-s.fin gpe)
  let fin := Function.update s.fin gp (s.fin gp + mulQ (s.tau gp) (qin gp - s.qhat gp))
  let fex := Function.update fex gpe (fex gpe + mulQ (s.tau gp) (qex gpe - s.qhat gp))
  { s with fin := fin, fex := fex }

/-- Lines 76-149: one turn of the loop that corrects the fluxes at dry elements. The version of `get_tau_LF` called in lines 99 and 133 ignores its
gravity. -/
def correct (sq : K → K) (g : K) (ngp : ℕ) (nin nex : P2 K) (win wex : Bool) (qin qex : ℕ → Q K) (s : Edge K) (gp : ℕ) : Edge K :=
  let gpe := ngp - gp - 1
  if (s.fin gp).ze > fluxTol then
    if !win then
      let l := landFlux sq g nex (qex gpe) (s.aux gp)
      { s with
        fin := Function.update s.fin gp 0
        qhat := Function.update s.qhat gp l.1
        tau := Function.update s.tau gp l.2.1
        fex := Function.update s.fex gpe l.2.2 }
    else if !wex then
      let t := tauLF sq g (s.qhat gp) (s.aux gp) nex
      let f := fluxN 0 (s.qhat gp) (s.aux gp) nex + mulQ t (qex gpe - s.qhat gp)
      { s with
        tau := Function.update s.tau gp t
        fex := Function.update s.fex gpe { f with ze := -(s.fin gp).ze } }
    else s
  else if (s.fin gp).ze < -fluxTol then
    if !wex then
      let l := landFlux sq g nin (qin gp) (s.aux gp)
      { s with
        fex := Function.update s.fex gpe 0
        qhat := Function.update s.qhat gp l.1
        tau := Function.update s.tau gp l.2.1
        fin := Function.update s.fin gp l.2.2 }
    else if !win then
      let t := tauLF sq g (s.qhat gp) (s.aux gp) nin
      let f := fluxN 0 (s.qhat gp) (s.aux gp) nin + mulQ t (qin gp - s.qhat gp)
      { s with
        tau := Function.update s.tau gp t
        fin := Function.update s.fin gp { f with ze := -(s.fex gpe).ze } }
    else s
  else s

/-- Lines 25-151 (`Internal::ComputeNumericalFlux`): the matrices of both sides. -/
def internal (sq : K → K) (g : K) (ngp : ℕ) (nin nex : P2 K) (win wex : Bool) (qin qex : ℕ → Q K) (bath : ℕ → K) (junkIn junkEx : ℕ → Q K) :
    (ℕ → Q K) × (ℕ → Q K) :=
  if win || wex then
    let s := start sq g ngp nin qin qex bath junkEx
    let s := (List.range ngp).foldl (stabilize ngp qin qex) s
    let s := (List.range ngp).foldl (correct sq g ngp nin nex win wex qin qex) s
    (s.fin, s.fex)
  else (junkIn, junkEx)

/-- `ehdg_swe_is_levee.hpp` lines 53-56: nothing is computed. -/
def levee (junkIn junkEx : ℕ → Q K) : (ℕ → Q K) × (ℕ → Q K) := (junkIn, junkEx)

/-! ### `ehdg_swe_dbc_distributed.hpp` -/

/-- `ehdg_swe_pre_init_global_prob.hpp` lines 63-67, 90-97: bathymetry at a distributed boundary, from the message of the other side. -/
def bathHatDist (ngp : ℕ) (b : ℕ → K) (m : List K) (j : ℕ) : Res K := do
  let x ← idx m (ngp - j - 1)
  return (b j + x) / 2

/-- Lines 62-138, at one Gauss point: the flux of the own side. -/
def distributed (sq : K → K) (g : K) (n : P2 K) (win wex : Bool) (q qex : Q K) (bath : K) : Q K :=
  let qh := Q.smul (1 / 2) (q + qex)
  let a : Aux K := ⟨bath, qh.ze + bath, 1⟩
  let t := tauLF sq g qh a n
  let f := fluxN g qh a n + mulQ t (q - qh)
  if f.ze > fluxTol then (if !win then 0 else f)
  else if f.ze < -fluxTol then
    if !wex then (landFlux sq g n q a).2.2
    else if !win then { fluxN 0 qh a n + mulQ t (q - qh) with ze := f.ze }
    else f
  else f

/-- Lines 39-140 (`ComputeNumericalFlux`) and `ehdg_swe_proc_dbound.hpp` lines 30-48: the message is read as in the RKDG discretization; `none` if
both elements are dry. -/
def distributedAt (sq : K → K) (g : K) (ngp : ℕ) (n : P2 K) (win : Bool) (q : Q K) (bath : K) (m : List K) (j : ℕ) : Res (Option (Q K)) := do
  let wex ← decodeWet m
  let qex ← decodeQ ngp m j
  if win || wex then return some (distributed sq g n win wex q qex bath)
  else return none

/-! ### Kernels -/

/-- `ehdg_swe_proc_volume.hpp` lines 9-27, of a wet element. The fluxes are not scaled with the projection factor. -/
def volumeTerm (v : Env K) (d : EltData K) (u : Fin 3 → ℕ → K) : Fin 3 → ℕ → K :=
  let q := qAt v.N d.elt u
  let a := fun z => auxAt v d (q z) z (localToGlobal d.elt.tri z)
  fun var dof => d.elt.intDPhi v.N 0 (fun z => comp (fluxX v.src.g (q z) (a z)) var) dof +
    d.elt.intDPhi v.N 1 (fun z => comp (fluxY v.src.g (q z) (a z)) var) dof

/-- What the flux matrices of interfaces and boundaries hold before a stage, and the fluxes of open boundaries. -/
structure Faces (K : Type) where
  junkIn : Iface K → ℕ → Q K
  junkEx : Iface K → ℕ → Q K
  openF : Bnd K → ℕ → Q K

/-- The flux matrices of an interface after the global step of a stage (`ehdg_swe_proc_serial_step.hpp` lines 32-43). -/
def faceFlux (v : Env K) (dat : ℕ → EltData K) (wet : ℕ → Bool) (q : State K) (x : Faces K) (i : Iface K) : (ℕ → Q K) × (ℕ → Q K) :=
  let n := (i.rule v dat).length
  let a := i.inside v dat wet q
  let b := i.outside v dat wet q
  match i.kind with
  | .internal => internal v.sq v.src.g n (a 0).n (b 0).n (wet i.ein) (wet i.eex) (fun gp => (a gp).q) (fun gp => (b gp).q)
      (bathHat n (fun gp => (a gp).aux.bath) fun gp => (b gp).aux.bath) (x.junkIn i) (x.junkEx i)
  | .levee _ => levee (x.junkIn i) (x.junkEx i)

/-- `ehdg_swe_proc_intface.hpp` lines 22-34: what is subtracted on the interior side. -/
def inTerm (v : Env K) (dat : ℕ → EltData K) (wet : ℕ → Bool) (q : State K) (x : Faces K) (i : Iface K) : Fin 3 → ℕ → K := fun var dof =>
  Elt.intFace v.N (i.rule v dat) i.fin (i.J v dat) (fun gp => comp ((faceFlux v dat wet q x i).1 gp) var) dof

/-- The same on the exterior side. -/
def exTerm (v : Env K) (dat : ℕ → EltData K) (wet : ℕ → Bool) (q : State K) (x : Faces K) (i : Iface K) : Fin 3 → ℕ → K := fun var dof =>
  Elt.intFace v.N (i.rule v dat) i.fex (i.J v dat) (fun gp => comp ((faceFlux v dat wet q x i).2 gp) var) dof

/-- The kernel. -/
def interfaceKernel (v : Env K) (dat : ℕ → EltData K) (wet : ℕ → Bool) (q : State K) (x : Faces K) (rhs : State K) (i : Iface K) : State K :=
  if wet i.ein || wet i.eex then subAt (subAt rhs i.ein (inTerm v dat wet q x i)) i.eex (exTerm v dat wet q x i) else rhs

/-- The flux of a boundary at a Gauss point. -/
def bndFlux (v : Env K) (dat : ℕ → EltData K) (q : State K) (x : Faces K) (b : Bnd K) (gp : ℕ) : Q K :=
  let d := dat b.e
  let z := facePt (faceRule v.N d.elt.p) b.f gp
  match b.kind with
  | .land => landBoundary v.sq v.src.g (normal v.sq d.elt.tri b.f) (qAt v.N d.elt (q b.e) z) (d.elt.value v.N d.bath z)
  | _ => x.openF b gp

/-- `ehdg_swe_proc_bound.hpp` lines 16-25: what is subtracted. -/
def bndTerm (v : Env K) (dat : ℕ → EltData K) (q : State K) (x : Faces K) (b : Bnd K) : Fin 3 → ℕ → K := fun var dof =>
  Elt.intFace v.N (faceRule v.N (dat b.e).elt.p) b.f (surfaceJ v.sq (dat b.e).elt.tri b.f) (fun gp => comp (bndFlux v dat q x b gp) var) dof

/-- The kernel. -/
def boundaryKernel (v : Env K) (dat : ℕ → EltData K) (wet : ℕ → Bool) (q : State K) (x : Faces K) (rhs : State K) (b : Bnd K) : State K :=
  if wet b.e then subAt rhs b.e (bndTerm v dat q x b) else rhs

/-- `ehdg_swe_proc_volume.hpp`: the kernel, with the initial zero. -/
def volumeKernel (v : Env K) (dat : ℕ → EltData K) (wet : ℕ → Bool) (q : State K) (rhs : State K) (e : ℕ) : State K :=
  Function.update rhs e (if wet e then volumeTerm v (dat e) (q e) else 0)

/-- `ehdg_swe_proc_serial_step.hpp` lines 31-55: the right-hand side. The source kernel (`ehdg_swe_proc_source.hpp`) is that of the RKDG
discretization. -/
def localRhs (v : Env K) (dat : ℕ → EltData K) (m : Mesh K) (wet : ℕ → Bool) (t : K) (x : Faces K) (q rhs : State K) : State K :=
  let r := m.elts.foldl (volumeKernel v dat wet q) rhs
  let r := m.elts.foldl (sourceKernel v dat wet t q) r
  let r := m.ints.foldl (interfaceKernel v dat wet q x) r
  m.bnds.foldl (boundaryKernel v dat wet q x) r

/-- Any number of stages (`ehdg_swe_proc_serial_step.hpp` lines 28-84): times of the stages and contents of the matrices are given. -/
def run (v : Env K) (dat : ℕ → EltData K) (m : Mesh K) (tab : Stepper.Tableau) (ns : ℕ) (dt : K) (pp : PostParams K) (junk : State K)
    (time : ℕ → K) (x : ℕ → Faces K) (n : ℕ) (s : Run K) : Res (Run K) :=
  runWith v dat m tab ns dt pp (fun k wet q => localRhs v dat m wet (time k) (x k) q junk) n s

end Verif.Ehdg
