import Verif.Model.Ehdg
import Verif.Model.SweParallel

/-!
# The explicit hybridized discretization on several submeshes

Models `source/problem/SWE/discretization_EHDG/kernels_processor/ehdg_swe_proc_ompi_step.hpp` (`stage_ompi`), `ehdg_swe_proc_dbound.hpp` and the parallel part of
`kernels_preprocessor/ehdg_swe_pre_init_global_prob.hpp`, for all submeshes of all ranks together.

Simplifications: as in `Ehdg` and `SweParallel`. Distributed levees compute nothing (`ehdg_swe_dbc_distributed_levee.hpp` lines 58-61): what their flux matrices
hold is a parameter.
-/

namespace Verif.Ehdg
open Verif.Swe Verif.Geometry Verif.Element

variable {K : Type} [Field K] [LinearOrder K]

/-- `ehdg_swe_pre_init_global_prob.hpp` lines 52-66: bathymetry at the Gauss points of face `f` of element `e`, sent once. -/
def bathMessage (v : Env K) (dat : ℕ → EltData K) (e f : ℕ) : List K :=
  let r := faceRule v.N (dat e).elt.p
  (List.range r.length).map fun gp => (dat e).elt.value v.N (dat e).bath (facePt r f gp)

/-- `ehdg_swe_proc_dbound.hpp` lines 7-28: wetness and state of face `f` of element `e`, sent in every stage. -/
def stateMessage (v : Env K) (dat : ℕ → EltData K) (wet : ℕ → Bool) (q : State K) (e f : ℕ) : List K :=
  let r := faceRule v.N (dat e).elt.p
  encode (wet e) ((List.range r.length).map fun gp => qAt v.N (dat e).elt (q e) (facePt r f gp))

/-- Flux of a distributed boundary at a Gauss point (`ehdg_swe_dbc_distributed.hpp` lines 39-140) from the messages about bathymetry and state; `none` if nothing
is computed. -/
def dbndFlux (v : Env K) (dat : ℕ → EltData K) (wet : ℕ → Bool) (q : State K) (junk : Dbnd K → ℕ → Q K) (b : Dbnd K) (mb ms : List K) (gp : ℕ) :
    Res (Option (Q K)) := do
  let d := dat b.e
  let r := faceRule v.N d.elt.p
  let bath ← bathHatDist r.length (fun gp => d.elt.value v.N d.bath (facePt r b.f gp)) mb gp
  match b.kind with
  | .internal => distributedAt v.sq v.src.g r.length (normal v.sq d.elt.tri b.f) (wet b.e) (qAt v.N d.elt (q b.e) (facePt r b.f gp)) bath ms gp
  | .levee _ => return some (junk b gp)

/-- Lines 30-48 (`local_distributed_boundary_kernel`). -/
def dboundKernel (v : Env K) (dat : ℕ → EltData K) (wet : ℕ → Bool) (q : State K) (junk : Dbnd K → ℕ → Q K) (rhs : State K) (b : Dbnd K) : Res (State K) := do
  let r := faceRule v.N (dat b.e).elt.p
  let ms := stateMessage v dat wet q b.e' b.f'
  let fs ← sequenceRes (dbndFlux v dat wet q junk b (bathMessage v dat b.e' b.f') ms) r.length
  let wex ← decodeWet ms
  if wet b.e || wex then
    return subAt rhs b.e fun var dof => Elt.intFace v.N r b.f (surfaceJ v.sq (dat b.e).elt.tri b.f) (fun gp => comp ((fs.getD gp none).getD 0) var) dof
  else return rhs

/-- `ehdg_swe_proc_ompi_step.hpp` lines 58-124: the right-hand side on all submeshes. -/
def parallelRhs (v : Env K) (dat : ℕ → EltData K) (ms : List (Mesh K)) (wet : ℕ → Bool) (t : K) (x : Faces K) (junkD : Dbnd K → ℕ → Q K) (q rhs : State K) :
    Res (State K) :=
  let r := ms.foldl (fun r m => localRhs v dat m wet t x q r) rhs
  ms.foldlM (fun r m => m.dist.foldlM (dboundKernel v dat wet q junkD) r) r

/-- Any number of stages (lines 32-166); times of the stages and contents of the matrices are given. -/
def runParallel (v : Env K) (dat : ℕ → EltData K) (ms : List (Mesh K)) (tab : Stepper.Tableau) (ns : ℕ) (dt : K) (pp : PostParams K) (junk : State K)
    (time : ℕ → K) (x : ℕ → Faces K) (junkD : Dbnd K → ℕ → Q K) (n : ℕ) (s : Run K) : Res (Run K) :=
  runParallelWith v dat ms tab ns dt pp (fun k wet q => parallelRhs v dat ms wet (time k) (x k) junkD q junk) n s

end Verif.Ehdg
