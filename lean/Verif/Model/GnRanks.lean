import Verif.Model.Gn
import Verif.Model.GnParallel

/-!
# The dispersive correction on several ranks: derivatives, kernels and stage

Models, for all submeshes of all ranks together, `source/problem/Green-Naghdi/discretization_EHDG`: `kernels_preprocessor/grad_methods/projection_dbath_ompi.hpp`,
`kernels_processor/grad_methods/projection_derivatives_ompi.hpp`, `kernels_processor/ehdg_gn_proc_edge_dbound.hpp`,
`dist_boundary_conditions/ehdg_gn_dbc_distributed.hpp`, `dispersive_correction_ompi` of `kernels_processor/ehdg_gn_proc_ompi_step.hpp`.

Simplifications: as in `Gn`, `GnDeriv`, `GnParallel` and `SweParallel`. The submeshes share arrays indexed by the number of the element in the whole mesh, each
submesh writes those of its own elements only. A message holds what the other side sends in the same round (C25, C26). Distributed levees compute nothing
(`ehdg_gn_dbc_distributed_levee.hpp`): what their arrays hold is a parameter. The mesh of `Dc` is not used.
-/

namespace Verif.Gn
open Verif.Swe Verif.Geometry Verif.Element Verif.Edge Verif.Ehdg Verif.Ihdg

variable {K : Type} [Field K] [LinearOrder K]

/-! ### Derivatives -/

/-- Gauss points of a distributed boundary: the degree of the own element. -/
def ruleD (v : Env K) (dat : ℕ → EltData K) (b : Dbnd K) : List (K × K) := faceRule v.N (dat b.e).elt.p

/-- Average of the own value and entry `ngp - gp - 1` of the message: `projection_dbath_ompi.hpp` lines 48-52, 107-113, 165-173;
`projection_derivatives_ompi.hpp` lines 64-78, 147-153. -/
def hatD (v : Env K) (dat : ℕ → EltData K) (F : Row K) (b : Dbnd K) (gp : ℕ) : K :=
  (F b.e (facePt (ruleD v dat b) b.f gp) + F b.e' (facePt (faceRule v.N (dat b.e').elt.p) b.f' ((ruleD v dat b).length - gp - 1))) / 2

/-- Lines 54-57, 115-120, 175-180; 81-91, 155-160. -/
def gradDist (v : Env K) (dat : ℕ → EltData K) (F : Row K) (dir : ℕ) (r : ℕ → ℕ → K) (b : Dbnd K) : ℕ → ℕ → K :=
  addAt r b.e (Elt.intFace v.N (ruleD v dat b) b.f (surfaceJ v.sq (dat b.e).elt.tri b.f) fun gp => hatD v dat F b gp * nd (normal v.sq (dat b.e).elt.tri b.f) dir)

/-- The loops of the serial program in a submesh. -/
def gradLocal (v : Env K) (dat : ℕ → EltData K) (F : Row K) (dir : ℕ) (r : ℕ → ℕ → K) (m : Mesh K) : ℕ → ℕ → K :=
  m.bnds.foldl (gradBnd v dat F dir) (m.ints.foldl (gradInt v dat F dir) (m.elts.foldl (gradElt v dat F dir) r))

/-- One round: the loops of the serial program in all submeshes, then the distributed boundaries of all submeshes, then `ApplyMinv`. -/
def gradP (v : Env K) (dat : ℕ → EltData K) (ms : List (Mesh K)) (F : Row K) (dir : ℕ) (e : ℕ) : ℕ → K :=
  (dat e).elt.applyMinv v.N (ms.foldl (fun r m => m.dist.foldl (gradDist v dat F dir) r) (ms.foldl (gradLocal v dat F dir) fun _ _ => 0) e)

/-- The derivatives that are kept, by row. -/
structure Derivs (K : Type) where
  dze : ℕ → ℕ → ℕ → K
  du : ℕ → ℕ → ℕ → K
  ddu : ℕ → ℕ → ℕ → K
  dbath : ℕ → ℕ → ℕ → K
  ddbath : ℕ → ℕ → ℕ → K
  dddbath : ℕ → ℕ → ℕ → K

/-- The derivatives of the whole bathymetry and flow, from a method for one row. -/
def derivs (v : Env K) (dat : ℕ → EltData K) (G : Row K → ℕ → ℕ → ℕ → K) (q : State K) : Derivs K :=
  let du := fun k => G (uRow v dat q (k / 2)) (k % 2)
  let dbath := fun k => G (bathRow v dat) k
  let ddbath := fun k => G (rowOf v dat (dbath (k / 2))) (k % 2)
  { dze := fun dir => G (rowOf v dat fun e => q e 0) dir
    du := du
    ddu := fun k => G (rowOf v dat (du (k / 2))) (k % 2)
    dbath := dbath
    ddbath := ddbath
    dddbath := fun k => G (rowOf v dat (ddbath (k / 2))) (k % 2) }

/-! ### Kernels that read derivatives: as in `Gn` -/

variable (D : Dc K) (R : Derivs K)

def bedR (e : ℕ) (z : P2 K) (c : ℕ) : K := -rowOf D.v D.dat (R.dbath c) e z

def massKernelR (e : ℕ) (z : P2 K) (a c : ℕ) : K := diag2 1 a c + D.al * (bedR D R e z a * bedR D R e z c)

def vol11R (q : State K) (e r s : ℕ) : K :=
  block2 (intPhiPhi D.v.N (D.dat e).elt (r / 2) (s / 2)) (massKernelR D R e) r s +
    intPhiDPhi D.v.N (D.dat e).elt (s / 2) (r % 2) (r / 2) fun z => -D.al / 2 * (depth D.v D.dat q e z * bedR D R e z (s % 2))

def vol12R (q : State K) (e r j : ℕ) : K :=
  intPhiDPhi D.v.N (D.dat e).elt (r / 2) (r % 2) j (fun _ => -D.al / 3) +
    intPhiPhi D.v.N (D.dat e).elt (r / 2) j fun z => -D.al / 2 * (bedR D R e z (r % 2) / depth D.v D.dat q e z)

def ptR (q : State K) (e : ℕ) (z : P2 K) : Pt K where
  h := depth D.v D.dat q e z
  dze k := rowOf D.v D.dat (R.dze k) e z
  dbath k := rowOf D.v D.dat (R.dbath k) e z
  ddbath k := rowOf D.v D.dat (R.ddbath k) e z
  dddbath k := rowOf D.v D.dat (R.dddbath k) e z
  u k := uRow D.v D.dat q k e z
  du k := rowOf D.v D.dat (R.du k) e z
  ddu k := rowOf D.v D.dat (R.ddu k) e z

def srcR (q : State K) (e r : ℕ) : K := (D.dat e).elt.intPhi D.v.N (fun z => dcSource D.v.src.g D.al (ptR D R q e z) (r % 2)) (r / 2)

def bedHatR (ed : Edg K) (s : Sd) (gp c : ℕ) : K :=
  match ed with
  | .int i => if s.ex then -hatEx D.v D.dat (rowOf D.v D.dat (R.dbath c)) i gp else -hatIn D.v D.dat (rowOf D.v D.dat (R.dbath c)) i gp
  | .bnd b => -rowOf D.v D.dat (R.dbath c) b.e (facePt (rule D.geo (.bnd b)) b.f gp)

def hat1KernelR (q : State K) (ed : Edg K) (s : Sd) (gp a c : ℕ) : K :=
  diag2 (D.al / 3 * D.tau) a c + D.al / 2 * (bedHatR D R ed s gp c * nd (nrmOf D ed s) a * hHat D q ed (opp D.geo ed s gp))

def side1hR (q : State K) (ed : Edg K) (s : Sd) (r k : ℕ) : K := block2 (intPhiLam D.geo ed s (r / 2) (k / 2)) (hat1KernelR D R q ed s) r k

/-- As `dcRhs`. -/
def dcRhsR (elts : List ℕ) (corr troubled : ℕ → Bool) (wet : ℕ → Bool) (q : State K) (w1 : ℕ → ℕ → K) : State K := fun e =>
  if decide (e ∈ elts) && wet e && corr e && !troubled e then
    let row := fun dir dof => (D.dat e).elt.intPhi D.v.N (fun z => correction D.v.src.g D.al (depth D.v D.dat q e z)
      (rowOf D.v D.dat (R.dze dir) e z) ((D.dat e).elt.value D.v.N (fun d => reshapeCol 2 (w1 e) dir d) z)) dof
    ![fun _ => 0, row 0, row 1]
  else fun _ _ => 0

/-! ### Distributed boundaries -/

/-- The submeshes of every rank; locality and submesh of the elements; arrays of distributed levees. -/
structure Ranks (K : Type) where
  ranks : List (List (Mesh K))
  home : ℕ → ℕ × ℕ
  junkHat : Dbnd K → ℕ → ℕ → ℕ → K
  junk1 : Dbnd K → ℕ → ℕ → ℕ → K
  junk2 : Dbnd K → ℕ → ℕ → K

variable (W : Ranks K)

def Ranks.meshes : List (Mesh K) := W.ranks.flatten

/-- `surface_normal`. -/
def normalD (b : Dbnd K) : P2 K := normal D.v.sq (D.dat b.e).elt.tri b.f

/-- The trace space: `swe_pre_create_edge_dbound.hpp` lines 27-35 (`gn_pre_create_edge_dbound.hpp` likewise): the basis runs counterclockwise around the element of the side that comes first. -/
def tabD (b : Dbnd K) : Tables K :=
  tables (D.dat b.e).elt.p (ruleD D.v D.dat b) (surfaceJ D.v.sq (D.dat b.e).elt.tri b.f) (before (W.home b.e) (W.home b.e'))

/-- `IntegrationPhiLambda`, `edge_boundary.hpp` lines 97-108. -/
def intPhiLamD (b : Dbnd K) (i j : ℕ) (F : ℕ → K) : K :=
  ∑ gp ∈ Finset.range (tabD D W b).ngp, F gp *
    flatten (tabD D W b).ndof (fun i j => D.v.N.basis.phi i (facePt (ruleD D.v D.dat b) b.f gp) * intLam (tabD D W b) gp j) ((tabD D W b).ndof * i + j)

/-- `ehdg_gn_proc_edge_dbound.hpp` lines 25-27, 44-54. -/
def dist11 (b : Dbnd K) (r k : ℕ) : K :=
  block2 (intFace2 D.v.N (ruleD D.v D.dat b) b.f (surfaceJ D.v.sq (D.dat b.e).elt.tri b.f) (r / 2) (k / 2)) (fun _ => diag2 (-D.al / 3 * D.tau)) r k

/-- Lines 17-23, 29-39. -/
def hat1KernelD (q : State K) (b : Dbnd K) (gp a c : ℕ) : K :=
  diag2 (D.al / 3 * D.tau) a c +
    D.al / 2 * (-hatD D.v D.dat (rowOf D.v D.dat (R.dbath c)) b gp * nd (normalD D b) a * hatD D.v D.dat (depth D.v D.dat q) b gp)

/-- Lines 56-64. -/
def dist1h (q : State K) (b : Dbnd K) (r k : ℕ) : K := block2 (intPhiLamD D W b (r / 2) (k / 2)) (hat1KernelD D R q b) r k

/-- Lines 41-42, 65-68. -/
def dist2h (q : State K) (b : Dbnd K) (i k : ℕ) : K :=
  intPhiLamD D W b i (k / 2) fun gp => -(nd (normalD D b) (k % 2) / hatD D.v D.dat (depth D.v D.dat q) b gp)

/-- `ehdg_gn_dbc_distributed.hpp` lines 27-29, 40-42. -/
def hatHatD (wet : ℕ → Bool) (b : Dbnd K) (gp : ℕ) : ℕ → ℕ → K :=
  match b.kind with
  | .internal => if wet b.e' then diag2 (-D.tau) else diag2 (-1)
  | .levee _ => W.junkHat b gp

/-- Lines 31-33, 44-50. -/
def hat1D (wet : ℕ → Bool) (b : Dbnd K) (gp : ℕ) : ℕ → ℕ → K :=
  match b.kind with
  | .internal => if wet b.e' then diag2 D.tau else tangential (normalD D b)
  | .levee _ => W.junk1 b gp

/-- Lines 35, 52. -/
def hat2D (wet : ℕ → Bool) (b : Dbnd K) (gp : ℕ) : ℕ → K :=
  match b.kind with
  | .internal => if wet b.e' then nd (normalD D b) else fun _ => 0
  | .levee _ => W.junk2 b gp

/-- `ehdg_gn_proc_edge_dbound.hpp` lines 94-102. -/
def disth1 (wet : ℕ → Bool) (b : Dbnd K) (r k : ℕ) : K := block2 (intPhiLamD D W b (k / 2) (r / 2)) (hat1D D W wet b) r k

/-- Lines 103-106. -/
def disth2 (wet : ℕ → Bool) (b : Dbnd K) (r j : ℕ) : K := intPhiLamD D W b j (r / 2) fun gp => hat2D D W wet b gp (r % 2)

/-- Lines 82-92. -/
def disthh (wet : ℕ → Bool) (b : Dbnd K) (r k : ℕ) : K := block2 (integral2 (tabD D W b) (r / 2) (k / 2)) (hatHatD D W wet b) r k

/-! ### The system -/

/-- Edge of a submesh. -/
inductive PEdg (K : Type) where
  | loc (ed : Edg K)
  | dist (b : Dbnd K)

/-- Interfaces, boundaries, distributed boundaries. -/
def edgesP (m : Mesh K) : List (PEdg K) := (edgesOf m).map .loc ++ m.dist.map .dist

/-- Arrays of faces. -/
def byFaceP {α : Type} (ms : List (Mesh K)) (g : Edg K → Sd → α) (gd : Dbnd K → α) (z : α) : ℕ → ℕ → α :=
  (ms.flatMap edgesP).foldl (fun t x => match x with
    | .loc ed => ed.sides.foldl (fun t s e f => if e = s.e ∧ f = s.f then g ed s else t e f) t
    | .dist b => fun e f => if e = b.e ∧ f = b.f then gd b else t e f) fun _ _ => z

/-- Arrays of edges, kept at the own face. -/
def byOwnP {α : Type} (ms : List (Mesh K)) (g : Edg K → α) (gd : Dbnd K → α) (z : α) : ℕ → ℕ → α :=
  (ms.flatMap edgesP).foldl (fun t x => match x with
    | .loc ed => fun e f => if e = ed.own.e ∧ f = ed.own.f then g ed else t e f
    | .dist b => fun e f => if e = b.e ∧ f = b.f then gd b else t e f) fun _ _ => z

/-- Addition of an edge to `w1_w1`. -/
def addP (wet : ℕ → Bool) (L : ℕ → ℕ → ℕ → K) : PEdg K → ℕ → ℕ → ℕ → K
  | .loc ed => ed.sides.foldl (local11Side D wet ed) L
  | .dist b => if wet b.e then Function.update L b.e fun r k => L b.e r k + dist11 D b r k else L

/-- `ehdg_gn_proc_ompi_step.hpp` lines 78-92, one submesh. -/
def local11P (wet : ℕ → Bool) (q : State K) (L : ℕ → ℕ → ℕ → K) (m : Mesh K) : ℕ → ℕ → ℕ → K :=
  (edgesP m).foldl (addP D wet) (m.elts.foldl (fun L e => Function.update L e (vol11R D R q e)) L)

/-- Lines 77-102: what the kernels leave; `w1_hat_w1_hat` is kept separately. -/
def dcBlocksP (wet : ℕ → Bool) (q : State K) : DcBlocks K where
  a11 := W.meshes.foldl (local11P D R wet q) fun _ _ _ => 0
  a12 := vol12R D R q
  a21 := vol21 D q
  a22 := vol22 D q
  r1 := srcR D R q
  a1h := byFaceP W.meshes (fun ed s => side1hR D R q ed s) (dist1h D R W q) fun _ _ => 0
  a2h := byFaceP W.meshes (fun ed s => side2h D q ed s) (dist2h D W q) fun _ _ => 0
  ah1 := byFaceP W.meshes (fun ed s => sideh1 D wet ed s) (disth1 D W wet) fun _ _ => 0
  ah2 := byFaceP W.meshes (fun ed s => sideh2 D wet ed s) (disth2 D W wet) fun _ _ => 0
  ahh _ _ _ := 0

/-- `w1_hat_w1_hat`. -/
def dcHatsP (wet : ℕ → Bool) : ℕ → ℕ → ℕ → ℕ → K := byOwnP W.meshes (edgehh D wet) (disthh D W wet) fun _ _ => 0

/-- Faces of an edge. -/
def PEdg.skel : PEdg K → PEdge
  | .loc (.int i) => .int ⟨i.ein, i.fin⟩ ⟨i.eex, i.fex⟩
  | .loc (.bnd b) => .bnd ⟨b.e, b.f⟩
  | .dist b => .dist ⟨b.e, b.f⟩ ⟨b.e', b.f'⟩

/-- Elements and edges of all ranks. -/
def dcSkelP : PSkel where
  elts := W.meshes.flatMap Mesh.elts
  ranks := W.ranks.map fun r => (r.flatMap edgesP).map PEdg.skel
  home := W.home
  ndof e := ndof (D.dat e).elt.p
  m := 2 * D.nlam

/-- State of a run. -/
structure GnRunP (K : Type) where
  run : Run K
  idx : PIndex

/-- `ehdg_gn_proc_ompi_step.hpp` lines 66-122 (`dispersive_correction_ompi`). -/
def dcStageP (tab : Stepper.Tableau) (ns : ℕ) (dt : K) (corr troubled : ℕ → Bool) (s : GnRunP K) : Res (GnRunP K) := do
  let cur ← slotOr s.run.slots[s.run.stage]?
  let R := derivs D.v D.dat (gradP D.v D.dat W.meshes) cur.q
  let (t, _, w1) ← slotFail (solveP D.I D.slv (dcSkelP D W) D.wd s.run.wet s.idx (dcBlocksP D R W s.run.wet cur.q) (dcHatsP D W s.run.wet))
  let slots ← slotOr (Stepper.setSolution s.run.slots s.run.stage (solve D.v D.dat (dcRhsR D R (W.meshes.flatMap Mesh.elts) corr troubled s.run.wet cur.q w1)))
  let slots ← slotOr (Stepper.updateState tab ns dt s.run.stage slots)
  return ⟨{ s.run with slots := slots, stage := (s.run.stage + 1) % ns }, t⟩

def dcStagesP (tab : Stepper.Tableau) (ns : ℕ) (dt : K) (corr troubled : ℕ → Bool) : ℕ → GnRunP K → Res (GnRunP K)
  | 0, s => .ok s
  | n + 1, s => do
    let s ← dcStagesP tab ns dt corr troubled n s
    dcStageP D W tab ns dt corr troubled s

end Verif.Gn
