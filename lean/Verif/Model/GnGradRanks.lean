import Verif.Model.GnGrad
import Verif.Model.GnRanks

/-!
# The derivatives by Green-Gauss and by least squares on several ranks

Models `source/problem/Green-Naghdi/problem_preprocessor/gn_pre_init_data.hpp` lines 81-142 and, in `source/problem/Green-Naghdi/discretization_EHDG`,
`kernels_processor/grad_methods/greengauss_derivatives_ompi.hpp`, `leastsquares_derivatives_ompi.hpp`, `recon_avg_derivatives_ompi.hpp`, the loops over distributed boundaries in
`greengauss_derivatives_serial.hpp`, `leastsquares_derivatives_serial.hpp`, `recon_int_derivatives.hpp`, `recon_ls_derivatives.hpp`, the files of the same names for the bathymetry in
`kernels_preprocessor/grad_methods`, and `kernels_preprocessor/ehdg_gn_pre_ompi.hpp` lines 144-246.

Simplifications: as in `GnGrad` and `GnRanks`: the submeshes share arrays indexed by the number of the element in the whole mesh. A message holds what the other side sends in the same round
(C25, C26). `ADD_VALUES` and the scatter of PETSc are a sum over ranks and reading from it. The set `nodeIDs` of a rank is a list without repetition, in any order.
-/

namespace Verif.Gn
open Verif.Swe Verif.Geometry Verif.Element Verif.Basis

variable {K : Type} [Field K] [LinearOrder K]

/-! ### Green-Gauss -/

/-- Own values at a distributed boundary: `greengauss_derivatives_serial.hpp` lines 86-103, 157-170, 218-232; `greengauss_dbath_serial.hpp` lines 62-72, 134-149, 190-211. -/
def ggDist (v : Env K) (dat : ℕ → EltData K) (F : Row K) (dir : ℕ) (r : ℕ → K) (b : Dbnd K) : ℕ → K :=
  addCell r b.e (1 / area (dat b.e).elt.tri * faceSum (ruleD v dat b) (surfaceJ v.sq (dat b.e).elt.tri b.f) fun gp =>
    F b.e (facePt (ruleD v dat b) b.f gp) * nd (normal v.sq (dat b.e).elt.tri b.f) dir)

/-- The loops in one submesh. -/
def ggLocal (v : Env K) (dat : ℕ → EltData K) (fi fe : Iface K → ℕ → K) (F : Row K) (dir : ℕ) (r : ℕ → K) (m : Mesh K) : ℕ → K :=
  m.dist.foldl (ggDist v dat F dir) (m.bnds.foldl (ggBnd v dat F dir) (m.ints.foldl (ggInt v dat fi fe dir) (m.elts.foldl (fun r e => Function.update r e 0) r)))

def ggWithP (v : Env K) (dat : ℕ → EltData K) (ms : List (Mesh K)) (fi fe : Iface K → ℕ → K) (F : Row K) (dir : ℕ) : ℕ → K :=
  ms.foldl (ggLocal v dat fi fe F dir) fun _ => 0

/-- As `gg`. -/
def ggP (v : Env K) (dat : ℕ → EltData K) (ms : List (Mesh K)) (F : Row K) (dir : ℕ) : ℕ → K := ggWithP v dat ms (ownIn v dat F) (ownEx v dat F) F dir

/-- As `ggHat`: averages at the interfaces of a submesh, own values at distributed boundaries. -/
def ggHatP (v : Env K) (dat : ℕ → EltData K) (ms : List (Mesh K)) (F : Row K) (dir : ℕ) : ℕ → K := ggWithP v dat ms (hatIn v dat F) (hatEx v dat F) F dir

/-! ### Neighbours -/

section
variable {α : Type}

/-- The value of the element on the other side comes with a message. -/
def nbDist (c : ℕ → α) (r : ℕ → ℕ → α) (b : Dbnd K) : ℕ → ℕ → α := setFace r b.e b.f (c b.e')

/-- As `nbs`: interfaces, boundaries, distributed boundaries of each submesh. -/
def nbsP (ms : List (Mesh K)) (c : ℕ → α) (w : ℕ → ℕ → α) (init : ℕ → ℕ → α) : ℕ → ℕ → α :=
  ms.foldl (fun r m => m.dist.foldl (nbDist c) (m.bnds.foldl (nbBnd w) (m.ints.foldl (nbInt c) r))) init

end

/-! ### Coordinates, interpolation coefficients -/

/-- `baryctr_coord_neigh` before the messages: lines 33-43; nothing is assigned at distributed boundaries. -/
def coordPre (dat : ℕ → EltData K) (ms : List (Mesh K)) : ℕ → ℕ → P2 K :=
  ms.foldl (fun r m => nbs m (fun e => barycentre (dat e).elt.tri) (fun e f => midpoint (dat e).elt.tri f) r) fun _ _ => ⟨0, 0⟩

/-- After them: lines 98-106. -/
def coordPost (dat : ℕ → EltData K) (ms : List (Mesh K)) : ℕ → ℕ → P2 K :=
  ms.foldl (fun r m => m.dist.foldl (nbDist fun e => barycentre (dat e).elt.tri) r) (coordPre dat ms)

/-- Columns of `D_transpose` from coordinates: lines 73-76, 136-139. -/
def dColOf (dat : ℕ → EltData K) (nb : ℕ → ℕ → P2 K) (e f : ℕ) : P2 K :=
  ⟨(nb e f).x - (barycentre (dat e).elt.tri).x, (nb e f).y - (barycentre (dat e).elt.tri).y⟩

/-- `is_distributed(elt.GetBoundaryType()[f])`. -/
def isCut (ms : List (Mesh K)) (e f : ℕ) : Bool := (ms.flatMap Mesh.dist).any fun b => b.e = e ∧ b.f = f

/-- Lines 51-70, 114-133: only pairs that satisfy `try`; `some none` if no coefficients are accepted. -/
def findIf (tryIt : ℕ → Bool) (t : Tri K) (nb : ℕ → P2 K) (f : ℕ) : List ℕ → Option (Option (Interp K))
  | [] => some none
  | perm :: rest =>
    if tryIt perm then
      match solveAlpha (midpoint t f) (barycentre t) (nb f) (nb ((f + perm + 1) % 3)) with
      | none => none
      | some a => if 0 ≤ snap a.1 ∧ 0 ≤ snap a.2 then some (some ⟨snap a.1, snap a.2, f, (f + perm + 1) % 3⟩) else findIf tryIt t nb f rest
    else findIf tryIt t nb f rest

/-- A pair with a distributed side: lines 54-55, 117-118. -/
def pairCut (cut : ℕ → Bool) (f perm : ℕ) : Bool := cut f || cut ((f + perm + 1) % 3)

/-- Coefficients of a side: those found after the messages replace those found before; `pre`, `post` are the coordinates. -/
def interpP (t : Tri K) (pre post : ℕ → P2 K) (cut : ℕ → Bool) (f : ℕ) : Option (Interp K) :=
  match findIf (fun perm => !pairCut cut f perm) t pre f [0, 1], findIf (pairCut cut f) t post f [0, 1] with
  | some x, some y => some ((y.or x).getD ⟨0, 0, 0, 0⟩)
  | _, _ => none

/-- The data are those that the program on several ranks computes; `inverse` is called before the messages too (line 77). -/
structure ReadyP (dat : ℕ → EltData K) (ms : List (Mesh K)) (g : GradData K) : Prop where
  pre : ∀ e ∈ ms.flatMap Mesh.elts, pCols (dColOf dat (coordPre dat ms) e) ≠ none
  P : ∀ e ∈ ms.flatMap Mesh.elts, pCols (dColOf dat (coordPost dat ms) e) = some (g.P e)
  a : ∀ e ∈ ms.flatMap Mesh.elts, ∀ f < 3, interpP (dat e).elt.tri (coordPre dat ms e) (coordPost dat ms e) (isCut ms e) f = some (g.a e f)

/-! ### Least squares and reconstructions -/

/-- As `lsq`. -/
def lsqP (ms : List (Mesh K)) (P : ℕ → ℕ → P2 K) (c : ℕ → K) (w : ℕ → ℕ → K) (dir e : ℕ) : K :=
  ((List.range 3).map fun f => nd (P e f) dir * (nbsP ms c w (fun _ _ => 0) e f - c e)).sum

def lsqLinP (ms : List (Mesh K)) (P : ℕ → ℕ → P2 K) (lin : ℕ → ℕ → K) (dir : ℕ) : ℕ → K :=
  lsqP ms P (fun e => atBary (lin e)) (fun e => atMid (lin e)) dir

/-- As `reconInt`, `reconLs`. -/
def reconIntP (ms : List (Mesh K)) (a : ℕ → ℕ → Interp K) (c : ℕ → K) (e : ℕ) : ℕ → K :=
  let nb := nbsP ms c (fun e _ => c e) fun _ _ => 0
  fromMids fun f => c e + (nb e (a e f).e0 - c e) * (a e f).a0 + (nb e (a e f).e1 - c e) * (a e f).a1

def reconLsP (dat : ℕ → EltData K) (ms : List (Mesh K)) (P : ℕ → ℕ → P2 K) (c : ℕ → K) (e : ℕ) : ℕ → K :=
  let nb := nbsP ms c (fun e _ => c e) fun _ _ => 0
  fromMids fun f => ((List.range 3).map fun k => (nb e k - c e) *
    ((P e k).x * (dxCol (dat e).elt.tri f).x + (P e k).y * (dxCol (dat e).elt.tri f).y)).sum + c e

/-- Addition of a vector with local numbers to the global one: `VecSetValues(…, ADD_VALUES)`. -/
def addLocal {M : Type} [AddCommMonoid M] (ids : List ℕ) (loc : ℕ → M) (x : ℕ → M) : ℕ → M :=
  ids.zipIdx.foldl (fun x p => Function.update x p.1 (x p.1 + loc p.2)) x

/-- Local sums of a rank: `recon_avg_derivatives_ompi.hpp` lines 11-26; `ids` are the numbers of its nodes in the order of their local numbers. -/
def localSums (node : ℕ → ℕ → ℕ) (ids : List ℕ) (ms : List (Mesh K)) (c : ℕ → K) : ℕ → K :=
  (ms.flatMap Mesh.elts).foldl (fun r e => (List.range 3).foldl (fun r v => addCell r (ids.idxOf (node e v)) (c e)) r) fun _ => 0

/-- `node_mult` of a rank: `ehdg_gn_pre_ompi.hpp` lines 200-212. -/
def localMult (node : ℕ → ℕ → ℕ) (ids : List ℕ) (ms : List (Mesh K)) : ℕ → ℕ :=
  (ms.flatMap Mesh.elts).foldl (fun r e => (List.range 3).foldl (fun r v => Function.update r (ids.idxOf (node e v)) (r (ids.idxOf (node e v)) + 1)) r) fun _ => 0

/-- The global vectors: lines 28-35; 214-221. -/
def globalSums (node : ℕ → ℕ → ℕ) (ids : List (Mesh K) → List ℕ) (rs : List (List (Mesh K))) (c : ℕ → K) : ℕ → K :=
  rs.foldl (fun x r => addLocal (ids r) (localSums node (ids r) r c) x) fun _ => 0

def globalMult (node : ℕ → ℕ → ℕ) (ids : List (Mesh K) → List ℕ) (rs : List (List (Mesh K))) : ℕ → ℕ :=
  rs.foldl (fun x r => addLocal (ids r) (localMult node (ids r) r) x) fun _ => 0

/-- Lines 37-67: local entry `j` is the global one of node `ids[j]`. -/
def reconAvgP (node : ℕ → ℕ → ℕ) (ids : List (Mesh K) → List ℕ) (rs : List (List (Mesh K))) (c : ℕ → K) (r : List (Mesh K)) (e v : ℕ) : K :=
  let j := (ids r).idxOf (node e v)
  globalSums node ids rs c ((ids r).getD j 0) / (globalMult node ids rs ((ids r).getD j 0) : K)

/-- The rank that has an element. -/
def rankOf (rs : List (List (Mesh K))) (e : ℕ) : List (Mesh K) := (rs.find? fun r => (r.flatMap Mesh.elts).contains e).getD []

/-- Values at vertices. -/
def reconP (dat : ℕ → EltData K) (ids : List (Mesh K) → List ℕ) (rs : List (List (Mesh K))) (g : GradData K) : Recon → (ℕ → K) → ℕ → ℕ → K
  | .avg, c => fun e => reconAvgP g.node ids rs c (rankOf rs e) e
  | .int, c => reconIntP rs.flatten g.a c
  | .ls, c => reconLsP dat rs.flatten g.P c

/-! ### The methods -/

section
variable (v : Env K) (dat : ℕ → EltData K) (ids : List (Mesh K) → List ℕ) (rs : List (List (Mesh K))) (g : GradData K) (k : Recon)

def ggLinP (F : Row K) (dir : ℕ) : ℕ → ℕ → K := reconP dat ids rs g k (ggP v dat rs.flatten F dir)

def lsLinP (lin : ℕ → ℕ → K) (dir : ℕ) : ℕ → ℕ → K := reconP dat ids rs g k (lsqLinP rs.flatten g.P lin dir)

/-- Green-Gauss: `dbath_lin`, `ddbath_lin`, `dddbath_lin` (`greengauss_dbath_ompi.hpp`). -/
def dbathGgR (r : ℕ) : ℕ → ℕ → K := ggLinP v dat ids rs g k (bathRow v dat) r
def ddbathGgR (r : ℕ) : ℕ → ℕ → K := reconP dat ids rs g k (ggHatP v dat rs.flatten (linRow v dat (dbathGgR v dat ids rs g k (r / 2))) (r % 2))
def dddbathGgR (r : ℕ) : ℕ → ℕ → K := ggLinP v dat ids rs g k (linRow v dat (ddbathGgR v dat ids rs g k (r / 2))) (r % 2)

/-- Least squares: `leastsquares_dbath_ompi.hpp`. -/
def dbathLsR (r : ℕ) : ℕ → ℕ → K := lsLinP dat ids rs g k (bathLin dat) r
def ddbathLsR (r : ℕ) : ℕ → ℕ → K := lsLinP dat ids rs g k (dbathLsR dat ids rs g k (r / 2)) (r % 2)
def dddbathLsR (r : ℕ) : ℕ → ℕ → K := lsLinP dat ids rs g k (ddbathLsR dat ids rs g k (r / 2)) (r % 2)

/-! ### What the kernels of a stage see -/

/-- `dze`, `du` in the array of states: slot, row, element, coefficient. -/
structure Slots (K : Type) where
  dze : ℕ → ℕ → ℕ → ℕ → K
  du : ℕ → ℕ → ℕ → ℕ → K

/-- The slot of the array that is assigned: `recon_int_derivatives.hpp` line 36, `recon_ls_derivatives.hpp` line 36, but `recon_avg_derivatives_ompi.hpp` lines 53, 123. -/
def slotOf (stage : ℕ) : Recon → ℕ
  | .avg => 0
  | .int => stage
  | .ls => stage

/-- Coefficients of reconstructed functions. -/
def coefs (lin : ℕ → ℕ → ℕ → K) (r e : ℕ) : ℕ → K := linearToBasis (lin r e)

/-- The derivatives that kernels of the stage read: `state[stage].dze` (`ehdg_gn_proc_volume.hpp` lines 93-94, `ehdg_gn_proc_source.hpp` lines 25-26), `internal.du_at_gp`, `internal.ddu_at_gp`. -/
structure Seen (K : Type) where
  dze : ℕ → ℕ → ℕ → K
  du : ℕ → ℕ → ℕ → K
  ddu : ℕ → ℕ → ℕ → K

/-- `greengauss_derivatives_ompi.hpp`; `compute_ddu_gg` reads `state[stage].du`. -/
def stageGg (stage : ℕ) (q : State K) (s : Slots K) : Slots K × Seen K :=
  let dze := coefs fun dir => ggLinP v dat ids rs g k (rowOf v dat fun e => q e 0) dir
  let du := coefs fun r => ggLinP v dat ids rs g k (uRow v dat q (r / 2)) (r % 2)
  let s' : Slots K := ⟨Function.update s.dze (slotOf stage k) dze, Function.update s.du (slotOf stage k) du⟩
  (s', ⟨s'.dze stage, du, coefs fun r => ggLinP v dat ids rs g k (rowOf v dat (s'.du stage (r / 2))) (r % 2)⟩)

/-- `leastsquares_derivatives_ompi.hpp`; the second derivatives come from `du_lin`. -/
def stageLs (stage : ℕ) (q : State K) (s : Slots K) : Slots K × Seen K :=
  let dze := coefs fun dir => lsLinP dat ids rs g k (zeLin dat q) dir
  let duL := fun r => lsLinP dat ids rs g k (uLin v dat q (r / 2)) (r % 2)
  let s' : Slots K := ⟨Function.update s.dze (slotOf stage k) dze, Function.update s.du (slotOf stage k) (coefs duL)⟩
  (s', ⟨s'.dze stage, coefs duL, coefs fun r => lsLinP dat ids rs g k (duL (r / 2)) (r % 2)⟩)

/-- What the kernels of the serial program see (`recon_avg_derivatives.hpp` lines 23, 52, 83 assign `state[stage]`). -/
def seenGg (m : Mesh K) (q : State K) : Seen K := ⟨coefs (dzeGg v dat m g k q), coefs (duGg v dat m g k q), coefs (dduGg v dat m g k q)⟩
def seenLs (m : Mesh K) (q : State K) : Seen K := ⟨coefs (dzeLs dat m g k q), coefs (duLs v dat m g k q), coefs (dduLs v dat m g k q)⟩

end

end Verif.Gn
