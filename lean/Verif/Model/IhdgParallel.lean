import Verif.Model.Ihdg
import Verif.Model.CondenseP
import Verif.Model.GnRanks

/-!
# The implicit hybridized discretization on several ranks

Models, for all submeshes of all ranks together, `source/problem/SWE/discretization_IHDG`: the messages of `kernels_preprocessor/ihdg_swe_pre_init_global_prob.hpp`
(lines 185-318), `kernels_processor/ihdg_swe_proc_dbound.hpp`, `kernels_processor/ihdg_swe_proc_edge_dbound.hpp`,
`dist_boundary_conditions/ihdg_swe_dbc_distributed.hpp`, `kernels_processor/ihdg_swe_proc_ompi_step.hpp`.

Simplifications: as in `Ihdg`, `CondenseP` and `GnRanks`. The submeshes share arrays indexed by the number of the element in the whole mesh, each submesh writes
those of its own elements only. The trace of an edge is kept at its own face, so that a cut edge has two of them. The part of the message which the receiver has
room for but the sender did not fill is not read. Distributed levees compute nothing (`ihdg_swe_dbc_distributed_levee.hpp`): what their arrays hold is a
parameter. The mesh of `Scheme` is not used.
-/

namespace Verif.Ihdg
open Verif.Swe Verif.Geometry Verif.Element Verif.Edge Verif.Ehdg
open Verif.Gn (PEdge PEdg edgesP before ruleD byFaceP byOwnP)

variable {K : Type} [Field K] [LinearOrder K]

/-- The submeshes of every rank; locality and submesh of the elements; the state at the start; arrays of distributed levees. -/
structure Cluster (K : Type) where
  ranks : List (List (Mesh K))
  home : ℕ → ℕ × ℕ
  start : State K
  junkDelta : Dbnd K → ℕ → M3 K
  junkHat : Dbnd K → ℕ → M3 K
  junkRhs : Dbnd K → ℕ → Q K

def Cluster.meshes (W : Cluster K) : List (Mesh K) := W.ranks.flatten

variable (S : Scheme K) (W : Cluster K)

/-! ### Distributed boundaries -/

/-- The trace space: `swe_pre_create_edge_dbound.hpp` lines 27-35: the basis runs counterclockwise around the element of the side that comes first. -/
def cutTab (b : Dbnd K) : Tables K :=
  tables (S.dat b.e).elt.p (ruleD S.v S.dat b) (surfaceJ S.v.sq (S.dat b.e).elt.tri b.f) (before (W.home b.e) (W.home b.e'))

/-- `surface_normal`. -/
def cutNrm (b : Dbnd K) : P2 K := normal S.v.sq (S.dat b.e).elt.tri b.f

/-- `boundary.q_at_gp` (`ihdg_swe_proc_dbound.hpp` lines 15, 26). -/
def cutQ (q : State K) (b : Dbnd K) (gp : ℕ) : Q K := qAt S.v.N (S.dat b.e).elt (q b.e) (facePt (ruleD S.v S.dat b) b.f gp)

/-- Elements and edges of all ranks with their numbers of unknowns. -/
def skelP : PSkeleton where
  elts := W.meshes.flatMap Mesh.elts
  ranks := W.ranks.map fun r => r.map fun m => (edgesP m).map PEdg.skel
  home := W.home
  size e := 3 * ndof (S.dat e).elt.p
  esize := byFaceP W.meshes (fun ed _ => 3 * (tab S ed).ndof) (fun b => 3 * (cutTab S W b).ndof) 0

/-- `ihdg_swe_pre_init_global_prob.hpp` lines 194-230: what the side at face `f` of element `e` sends to a side in element `e'`. -/
def initMessage (e f e' : ℕ) : List K :=
  let r := faceRule S.v.N (S.dat e).elt.p
  let q := fun gp => qAt S.v.N (S.dat e).elt (W.start e) (facePt r f gp)
  (List.range r.length).flatMap (fun gp => [(q gp).ze, (q gp).qx, (q gp).qy]) ++
    (List.range r.length).map (fun gp => (S.dat e).elt.value S.v.N (S.dat e).bath (facePt r f gp)) ++
    if before (W.home e) (W.home e') then [((numberP (skelP S W)).face e f : K)] else []

/-- Lines 275-282: the state of the other side, from the message; column `ngp - gp - 1` is taken from place `gp`. -/
def messageQ (msg : List K) (ngp gp : ℕ) : Q K :=
  let g := ngp - gp - 1
  ⟨msg.getD (3 * g) 0, msg.getD (3 * g + 1) 0, msg.getD (3 * g + 2) 0⟩

/-- Lines 284-286. -/
def messageBath (msg : List K) (ngp gp : ℕ) : K := msg.getD (3 * ngp + (ngp - gp - 1)) 0

/-- Line 301: `message.back()` of a message with room for all parts. -/
def messageIndex (msg : List K) (ngp : ℕ) : K := msg.getD (4 * ngp) 0

/-- Lines 288-289: `aux_hat_at_gp`. -/
def cutBath (b : Dbnd K) (gp : ℕ) : K :=
  ((S.dat b.e).elt.value S.v.N (S.dat b.e).bath (facePt (ruleD S.v S.dat b) b.f gp) +
    messageBath (initMessage S W b.e' b.f' b.e) (ruleD S.v S.dat b).length gp) / 2

/-- Line 318 with `ihdg_swe_dbc_distributed.hpp` lines 31-44 (`ComputeInitTrace`). -/
def initCut (b : Dbnd K) : Option (Coef K) :=
  match b.kind with
  | .internal => some fun var => project (cutTab S W b) fun gp =>
      comp (cutQ S W.start b gp + messageQ (initMessage S W b.e' b.f' b.e) (ruleD S.v S.dat b).length gp) var / 2
  | .levee _ => none

/-- `q_hat_at_gp` (`ihdg_swe_proc_edge_dbound.hpp` lines 21, 59). -/
def cutHat (c : Coef K) (b : Dbnd K) (gp : ℕ) : Q K := ofComp fun var => ugp (cutTab S W b) (c var) gp

/-- `aux_hat_at_gp` (lines 23-25, 61-62). -/
def cutAux (c : Coef K) (b : Dbnd K) (gp : ℕ) : Aux K := ⟨cutBath S W b gp, (cutHat S W c b gp).ze + cutBath S W b gp, 1⟩

/-- `tau` (lines 33, 72). -/
def cutTau (c : Coef K) (b : Dbnd K) (gp : ℕ) : M3 K := tauLF S.v.sq S.v.src.g (cutHat S W c b gp) (cutAux S W c b gp) (cutNrm S b)

/-- `F_hat_at_gp` (lines 29-38, 66, 87). -/
def cutF (q : State K) (c : Coef K) (b : Dbnd K) (gp : ℕ) : Q K :=
  fluxN S.v.src.g (cutHat S W c b gp) (cutAux S W c b gp) (cutNrm S b) + mulQ (cutTau S W c b gp) (cutQ S q b gp - cutHat S W c b gp)

/-- `dtau_delq` (lines 73-85). -/
def cutDtau (q : State K) (c : Coef K) (b : Dbnd K) (gp : ℕ) : M3 K :=
  let qh := cutHat S W c b gp
  let a := cutAux S W c b gp
  let del := cutQ S q b gp - qh
  Matrix.of fun r k => comp (mulQ (![dtauZe S.v.sq S.v.src.g qh a (cutNrm S b), dtauQx qh a (cutNrm S b), dtauQy qh a (cutNrm S b)] k) del) r

/-- `dF_hat_dq_hat_at_gp` (lines 68, 89). -/
def cutDhat (q : State K) (c : Coef K) (b : Dbnd K) (gp : ℕ) : M3 K :=
  dFnDq S.v.src.g (cutHat S W c b gp) (cutAux S W c b gp) (cutNrm S b) + (cutDtau S W q c b gp - cutTau S W c b gp)

/-- `IntegrationPhiLambda`, `edge_boundary.hpp` lines 97-108. -/
def cutPhiLam (b : Dbnd K) (i j : ℕ) (F : ℕ → K) : K :=
  let T := cutTab S W b
  ∑ gp ∈ Finset.range T.ngp, F gp *
    flatten T.ndof (fun i j => S.v.N.basis.phi i (facePt (ruleD S.v S.dat b) b.f gp) * intLam T gp j) (T.ndof * i + j)

/-- The integral of the flux (lines 40-43, 106-107). -/
def cutR (q : State K) (c : Coef K) (b : Dbnd K) (r : ℕ) : K :=
  Elt.intFace S.v.N (ruleD S.v S.dat b) b.f (surfaceJ S.v.sq (S.dat b.e).elt.tri b.f) (fun gp => comp (cutF S W q c b gp) (varOf (r % 3))) (r / 3)

/-- Lines 95-104 and 88: `dF_hat_dq_at_gp` is the stabilization matrix. -/
def cutD (c : Coef K) (b : Dbnd K) (r k : ℕ) : K :=
  block (intFace2 S.v.N (ruleD S.v S.dat b) b.f (surfaceJ S.v.sq (S.dat b.e).elt.tri b.f) (k / 3) (r / 3)) (cutTau S W c b) r k

/-- `delta_hat_local`: lines 110-119. -/
def cutDh (q : State K) (c : Coef K) (b : Dbnd K) (r k : ℕ) : K := (1 - S.theta) * block (cutPhiLam S W b (r / 3) (k / 3)) (cutDhat S W q c b) r k

/-- `delta_global_kernel_at_gp`: `ihdg_swe_dbc_distributed.hpp` line 52. -/
def cutGDelta (c : Coef K) (b : Dbnd K) (gp : ℕ) : M3 K :=
  match b.kind with
  | .internal => cutTau S W c b gp
  | .levee _ => W.junkDelta b gp

/-- `delta_hat_global_kernel_at_gp`: line 53. -/
def cutGHat (q : State K) (c : Coef K) (b : Dbnd K) (gp : ℕ) : M3 K :=
  match b.kind with
  | .internal => cutDhat S W q c b gp
  | .levee _ => W.junkHat b gp

/-- `rhs_global_kernel_at_gp`: line 54. -/
def cutGRhs (q : State K) (c : Coef K) (b : Dbnd K) (gp : ℕ) : Q K :=
  match b.kind with
  | .internal => cutF S W q c b gp
  | .levee _ => W.junkRhs b gp

/-- `delta_global`: `ihdg_swe_proc_edge_dbound.hpp` lines 131-141. -/
def cutDg (c : Coef K) (b : Dbnd K) (r k : ℕ) : K := block (cutPhiLam S W b (k / 3) (r / 3)) (cutGDelta S W c b) r k

/-- `delta_hat_global`: lines 143-153. -/
def cutHg (q : State K) (c : Coef K) (b : Dbnd K) (r k : ℕ) : K := block (integral2 (cutTab S W b) (k / 3) (r / 3)) (cutGHat S W q c b) r k

/-- `rhs_global`: lines 155-156. -/
def cutHr (q : State K) (c : Coef K) (b : Dbnd K) (r : ℕ) : K := -integral (cutTab S W b) (r / 3) fun gp => comp (cutGRhs S W q c b gp) (varOf (r % 3))

/-! ### Matrices and right-hand sides -/

/-- An iterate: coefficients of the elements and of the traces, by own face of the edge. -/
structure PIter (K : Type) where
  q : State K
  hat : ℕ → ℕ → Coef K

def PIter.at (it : PIter K) (ed : Edg K) : Coef K := it.hat ed.own.e ed.own.f

/-- `ihdg_swe_proc_init_iter.hpp`, one edge. -/
def prevEdgeP (it : PIter K) (P : ℕ → ℕ → K) : PEdg K → ℕ → ℕ → K
  | .loc ed => ed.sides.foldl (prevSide S it.q ed (it.at ed)) P
  | .dist b => Function.update P b.e fun r => P b.e r + -cutR S W it.q (it.hat b.e b.f) b r

/-- One submesh. -/
def prevMesh (it : PIter K) (P : ℕ → ℕ → K) (m : Mesh K) : ℕ → ℕ → K := (edgesP m).foldl (prevEdgeP S W it) (m.elts.foldl (prevElt S it.q) P)

def rhsPrevP (it : PIter K) : ℕ → ℕ → K := if S.order2 then W.meshes.foldl (prevMesh S W it) fun _ _ => 0 else fun _ _ => 0

/-- `local_edge_*_kernel`, one edge. -/
def localEdgeP (it : PIter K) (L : Local K) : PEdg K → Local K
  | .loc ed => ed.sides.foldl (localSide S it.q ed (it.at ed)) L
  | .dist b => ⟨Function.update L.D b.e fun r k => L.D b.e r k + (1 - S.theta) * cutD S W (it.hat b.e b.f) b r k,
      Function.update L.R b.e fun r => L.R b.e r + -(1 - S.theta) * cutR S W it.q (it.hat b.e b.f) b r⟩

/-- `ihdg_swe_proc_ompi_step.hpp` lines 51-77: the local step of a submesh. -/
def localMesh (q0 : State K) (prev : ℕ → ℕ → K) (it : PIter K) (L : Local K) (m : Mesh K) : Local K :=
  (edgesP m).foldl (localEdgeP S W it) (m.elts.foldl (localElt S q0 it.q prev) L)

def localAllP (q0 : State K) (prev : ℕ → ℕ → K) (it : PIter K) : Local K := W.meshes.foldl (localMesh S W q0 prev it) ⟨fun _ _ _ => 0, fun _ _ => 0⟩

/-- The blocks of an iteration: lines 50-90. -/
def blocksP (q0 : State K) (prev : ℕ → ℕ → K) (it : PIter K) : PBlocks K where
  dl := (localAllP S W q0 prev it).D
  rl := (localAllP S W q0 prev it).R
  dh := byFaceP W.meshes (fun ed s => sideDh S it.q ed (it.at ed) s) (fun b => cutDh S W it.q (it.hat b.e b.f) b) fun _ _ => 0
  dg := byFaceP W.meshes (fun ed s => sideDg S it.q ed (it.at ed) s) (fun b => cutDg S W (it.hat b.e b.f) b) fun _ _ => 0
  hg := byOwnP W.meshes (fun ed => edgeDhg S it.q ed (it.at ed)) (fun b => cutHg S W it.q (it.hat b.e b.f) b) fun _ _ => 0
  hr := byOwnP W.meshes (fun ed => edgeRg S it.q ed (it.at ed)) (fun b => cutHr S W it.q (it.hat b.e b.f) b) fun _ => 0

/-- All entries of the derivative of the source are finite. -/
def finiteP (q : State K) : Bool :=
  (W.meshes.flatMap Mesh.elts).all fun e => ((S.dat e).elt.gps S.v.N).all fun wz =>
    let x := inner S (S.dat e) (q e) wz.2
    (dsource S.v.sq S.v.cb S.v.src (S.dat e).src x.1 x.2).isSome

/-- `ihdg_swe_proc_ompi_sol_glob_prob.hpp` lines 341-342, 361-362, 378-379, 391: the changes are added. -/
def advanceP (it : PIter K) (d : (ℕ → ℕ → K) × (ℕ → ℕ → ℕ → K)) : PIter K :=
  ⟨fun e var dof => if e ∈ (skelP S W).elts ∧ 3 * dof < (skelP S W).size e then it.q e var dof + reshapeCol 3 (d.1 e) var.val dof else it.q e var dof,
    fun e f var dof => if 3 * dof < (skelP S W).esize e f then it.hat e f var dof + reshapeCol 3 (d.2 e f) var.val dof else it.hat e f var dof⟩

/-- One Newton iteration: new iterate and the solution of the global system. -/
def newtonP (q0 : State K) (prev : ℕ → ℕ → K) (it : PIter K) : Option (PIter K × (ℕ → K)) :=
  if finiteP S W it.q then (condenseP S.I S.slv (skelP S W) (blocksP S W q0 prev it)).map fun d => (advanceP S W it (d.1, d.2.1), d.2.2) else none

/-- Lines 307-319: `VecNorm` over `VecGetSize`. -/
def convergedP (x : ℕ → K) : Bool :=
  let n := (numberP (skelP S W)).total
  decide (S.v.sq (∑ r ∈ Finset.range n, x r * x r) / (n : K) < 1 / 10 ^ 8)

/-- `ihdg_swe_proc_ompi_step.hpp` lines 45-97. -/
def iterateP (q0 : State K) (prev : ℕ → ℕ → K) : ℕ → PIter K → Option (PIter K)
  | 0, it => some it
  | fuel + 1, it => (newtonP S W q0 prev it).bind fun d => if convergedP S W d.2 then some d.1 else iterateP q0 prev fuel d.1

/-- Lines 40-112: the stage, without limiter and check for NaN. -/
def stageP (it : PIter K) : Option (PIter K) := iterateP S W it.q (rhsPrevP S W it) 100 it

/-- Steps with the times and ramps of the stepper, one stage each. -/
def stepsP (time ramp : ℕ → K) : ℕ → PIter K → Option (PIter K)
  | 0, it => some it
  | n + 1, it => (stepsP time ramp n it).bind (stageP { S with t := time n, tn := time (n + 1), rampn := ramp (n + 1) } W)

end Verif.Ihdg
