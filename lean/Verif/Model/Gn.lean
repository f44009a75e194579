import Verif.Model.GnCondense
import Verif.Model.GnSource
import Verif.Model.GnDeriv
import Verif.Model.Ihdg

/-!
# The dispersive correction: kernels and step

Models `source/problem/Green-Naghdi/discretization_EHDG/kernels_processor`: `ehdg_gn_proc_volume.hpp`, `ehdg_gn_proc_source.hpp`,
`ehdg_gn_proc_edge_intface.hpp`, `ehdg_gn_proc_edge_bound.hpp`, `ehdg_gn_proc_serial_step.hpp`; `interface_specializations/ehdg_gn_is_internal.hpp`
and `boundary_conditions`.

Simplifications: as in `SweStage`, `Ihdg`, `GnCondense`, `GnSource` and `GnDeriv`. The arrays of dry elements, which the kernels leave as they are and
nothing reads, are computed here as those of wet ones. Levees compute nothing (`ehdg_gn_is_levee.hpp`): what their arrays hold is a parameter. Row
`2 * dof + dir` of `w1` belongs to coefficient `dof` of component `dir`. `source.dispersive_correction` and `slope_limit_state.troubled` of the elements are
parameters.
-/

namespace Verif.Gn
open Verif.Swe Verif.Geometry Verif.Element Verif.Edge Verif.Ehdg Verif.Ihdg

variable {K : Type} [Field K] [LinearOrder K]

/-- Mesh, parameters and libraries; `al`: `NDParameters::alpha`; `tau`: the literal -20 in the kernels; `wd`: `PostProcessing::wetting_drying`. -/
structure Dc (K : Type) where
  v : Env K
  dat : ℕ → EltData K
  m : Mesh K
  al : K
  tau : K
  I : Inverse K
  slv : Solver K
  wd : Bool
  /-- `mesh.GetP() + 1`, the unknowns of a component on an edge -/
  nlam : ℕ
  junkHat : Iface K → ℕ → ℕ → ℕ → K
  junk1 : Iface K → Bool → ℕ → ℕ → ℕ → K
  junk2 : Iface K → Bool → ℕ → ℕ → K

variable (D : Dc K)

/-- The geometry of the edges, as in `Ihdg`; what does not belong to it is zero. -/
def Dc.geo : Scheme K where
  v := D.v
  dat := D.dat
  m := D.m
  dt := 0
  theta := 0
  order2 := false
  t := 0
  tn := 0
  rampn := 0
  I := D.I
  slv := D.slv
  junkDelta _ _ _ := 0
  junkHat _ _ := 0
  junkRhs _ _ := 0

/-- The entry in row `r % 2` and column `s % 2` of `reshape(I(M))`, where `I` integrates the rows of an array with the flattened matrices `M` at the
Gauss points as columns. -/
def block2 {α : Type} (I : (α → K) → K) (M : α → ℕ → ℕ → K) (r s : ℕ) : K := reshape 2 (fun k => I fun x => flatten 2 (M x) k) (r % 2) (s % 2)

/-- A multiple of the unit matrix. -/
def diag2 (c : K) (a b : ℕ) : K := if a = b then c else 0

/-! ### Elements -/

/-- `bx`, `by`: `ehdg_gn_proc_volume.hpp` lines 15-16. -/
def bed (e : ℕ) (z : P2 K) (c : ℕ) : K := -rowOf D.v D.dat (dbath D.v D.dat D.m c) e z

/-- Lines 18-24: `w1_w1_kernel_at_gp`. -/
def massKernel (e : ℕ) (z : P2 K) (a c : ℕ) : K := diag2 1 a c + D.al * (bed D e z a * bed D e z c)

/-- Lines 42-47, 56-59, 66-77: `w1_w1` of an element. -/
def vol11 (q : State K) (e r s : ℕ) : K :=
  block2 (intPhiPhi D.v.N (D.dat e).elt (r / 2) (s / 2)) (massKernel D e) r s +
    intPhiDPhi D.v.N (D.dat e).elt (s / 2) (r % 2) (r / 2) fun z => -D.al / 2 * (depth D.v D.dat q e z * bed D e z (s % 2))

/-- Lines 26, 33-36, 61-62, 78-81: `w1_w2`. -/
def vol12 (q : State K) (e r j : ℕ) : K :=
  intPhiDPhi D.v.N (D.dat e).elt (r / 2) (r % 2) j (fun _ => -D.al / 3) +
    intPhiPhi D.v.N (D.dat e).elt (r / 2) j fun z => -D.al / 2 * (bed D e z (r % 2) / depth D.v D.dat q e z)

/-- Lines 27-28, 48-51: `w2_w1`. -/
def vol21 (q : State K) (e i s : ℕ) : K := intPhiDPhi D.v.N (D.dat e).elt (s / 2) (s % 2) i fun z => (depth D.v D.dat q e z)⁻¹

/-- Lines 29, 52: `w2_w2`. -/
def vol22 (q : State K) (e i j : ℕ) : K := intPhiPhi D.v.N (D.dat e).elt i j fun z => (depth D.v D.dat q e z ^ 3)⁻¹

/-- What the source kernel reads at a point of an element. -/
def ptAt (q : State K) (e : ℕ) (z : P2 K) : Pt K where
  h := depth D.v D.dat q e z
  dze k := rowOf D.v D.dat (dze D.v D.dat D.m q k) e z
  dbath k := rowOf D.v D.dat (dbath D.v D.dat D.m k) e z
  ddbath k := rowOf D.v D.dat (ddbath D.v D.dat D.m k) e z
  dddbath k := rowOf D.v D.dat (dddbath D.v D.dat D.m k) e z
  u k := uRow D.v D.dat q k e z
  du k := rowOf D.v D.dat (du D.v D.dat D.m q k) e z
  ddu k := rowOf D.v D.dat (ddu D.v D.dat D.m q k) e z

/-- `ehdg_gn_proc_source.hpp` lines 97-100: `w1_rhs`. -/
def srcDc (q : State K) (e r : ℕ) : K := (D.dat e).elt.intPhi D.v.N (fun z => dcSource D.v.src.g D.al (ptAt D q e z) (r % 2)) (r / 2)

/-! ### Edges -/

/-- `aux_hat_at_gp`, row `h`, at a point of the edge: `ehdg_gn_proc_edge_intface.hpp` lines 21-27, `ehdg_gn_proc_edge_bound.hpp` line 18. -/
def hHat (q : State K) (ed : Edg K) (gp : ℕ) : K :=
  match ed with
  | .int i => hatIn D.v D.dat (depth D.v D.dat q) i gp
  | .bnd b => depth D.v D.dat q b.e (facePt (rule D.geo (.bnd b)) b.f gp)

/-- `bx`, `by` at Gauss point `gp` of a side: lines 30-31, 60-61; 21-22. The values are those of the derivatives' preprocessing
(`projection_dbath_serial.hpp` lines 112-121, 139). -/
def bedHat (ed : Edg K) (s : Sd) (gp c : ℕ) : K :=
  match ed with
  | .int i => if s.ex then -hatEx D.v D.dat (rowOf D.v D.dat (dbath D.v D.dat D.m c)) i gp else -hatIn D.v D.dat (rowOf D.v D.dat (dbath D.v D.dat D.m c)) i gp
  | .bnd b => -rowOf D.v D.dat (dbath D.v D.dat D.m c) b.e (facePt (rule D.geo (.bnd b)) b.f gp)

/-- `surface_normal_in`, `surface_normal_ex`, `surface_normal`. -/
def nrmOf (ed : Edg K) (s : Sd) : P2 K := if s.ex then ⟨-(nrm D.geo ed).x, -(nrm D.geo ed).y⟩ else nrm D.geo ed

/-- Lines 35-38, 76-86, 109-119; 26-28, 45-55: what a side adds to `w1_w1` of its element. -/
def side11 (ed : Edg K) (s : Sd) (r k : ℕ) : K :=
  block2 (intFace2 D.v.N (rule D.geo ed) s.f (surf D.geo ed) (r / 2) (k / 2)) (fun _ => diag2 (-D.al / 3 * D.tau)) r k

/-- Lines 40-52, 65-68; 30-40: `w1_w1_hat_kernel_at_gp`. -/
def hat1Kernel (q : State K) (ed : Edg K) (s : Sd) (gp a c : ℕ) : K :=
  diag2 (D.al / 3 * D.tau) a c + D.al / 2 * (bedHat D ed s gp c * nd (nrmOf D ed s) a * hHat D q ed (opp D.geo ed s gp))

/-- Lines 88-96, 121-129; 57-65: `w1_w1_hat` of a side. -/
def side1h (q : State K) (ed : Edg K) (s : Sd) (r k : ℕ) : K := block2 (intPhiLam D.geo ed s (r / 2) (k / 2)) (hat1Kernel D q ed s) r k

/-- Lines 54-55, 70-71, 97-102, 130-135; 42-43, 66-69: `w2_w1_hat` of a side. -/
def side2h (q : State K) (ed : Edg K) (s : Sd) (i k : ℕ) : K :=
  intPhiLam D.geo ed s i (k / 2) fun gp => -(nd (nrmOf D ed s) (k % 2) / hHat D q ed (opp D.geo ed s gp))

/-- `w1_hat_w1_hat_kernel_at_gp`: `ehdg_gn_is_internal.hpp` lines 23-25, 49-51, 77-79; `ehdg_gn_bc_land.hpp` lines 21-23; `ehdg_gn_bc_tide.hpp` lines
23-25 and the same in `ehdg_gn_bc_flow.hpp`, `ehdg_gn_bc_function.hpp`. -/
def hatHatKernel (wet : ℕ → Bool) (ed : Edg K) (gp : ℕ) : ℕ → ℕ → K :=
  match ed with
  | .int i => match i.kind with
    | .internal => if wet i.ein && wet i.eex then diag2 (-2 * D.tau) else diag2 (-1)
    | .levee _ => D.junkHat i gp
  | .bnd b => match b.kind with
    | .land => diag2 (-1)
    | _ => diag2 (-D.tau)

/-- `I - n nᵀ`. -/
def tangential (n : P2 K) (a c : ℕ) : K := diag2 1 a c - nd n a * nd n c

/-- `w1_hat_w1_kernel_at_gp` of a side: lines 27-30, 53-59, 81-87; 25-31; 27-29. -/
def hat1Of (wet : ℕ → Bool) (ed : Edg K) (s : Sd) (gp : ℕ) : ℕ → ℕ → K :=
  match ed with
  | .int i => match i.kind with
    | .internal => if wet i.ein && wet i.eex then diag2 D.tau else tangential (nrmOf D (.int i) s)
    | .levee _ => D.junk1 i s.ex gp
  | .bnd b => match b.kind with
    | .land => tangential (nrmOf D (.bnd b) s)
    | _ => diag2 D.tau

/-- `w1_hat_w2_kernel_at_gp` of a side: lines 32-33, 61, 89; 33; 31. -/
def hat2Of (wet : ℕ → Bool) (ed : Edg K) (s : Sd) (gp : ℕ) : ℕ → K :=
  match ed with
  | .int i => match i.kind with
    | .internal => if wet i.ein && wet i.eex then nd (nrmOf D (.int i) s) else fun _ => 0
    | .levee _ => D.junk2 i s.ex gp
  | .bnd b => match b.kind with
    | .land => fun _ => 0
    | _ => nd (nrmOf D (.bnd b) s)

/-- `ehdg_gn_proc_edge_intface.hpp` lines 166-174, 187-195; `ehdg_gn_proc_edge_bound.hpp` lines 95-103: `w1_hat_w1` of a side. -/
def sideh1 (wet : ℕ → Bool) (ed : Edg K) (s : Sd) (r k : ℕ) : K := block2 (intPhiLam D.geo ed s (k / 2) (r / 2)) (hat1Of D wet ed s) r k

/-- Lines 175-180, 196-201; 104-107: `w1_hat_w2` of a side. -/
def sideh2 (wet : ℕ → Bool) (ed : Edg K) (s : Sd) (r j : ℕ) : K := intPhiLam D.geo ed s j (r / 2) fun gp => hat2Of D wet ed s gp (r % 2)

/-- Lines 152-162; 83-93: `w1_hat_w1_hat` of an edge. -/
def edgehh (wet : ℕ → Bool) (ed : Edg K) (r k : ℕ) : K := block2 (integral2 (tab D.geo ed) (r / 2) (k / 2)) (hatHatKernel D wet ed) r k

/-! ### The system -/

/-- `w1_w1` after the volume kernel of an element. -/
def local11Elt (q : State K) (L : ℕ → ℕ → ℕ → K) (e : ℕ) : ℕ → ℕ → ℕ → K := Function.update L e (vol11 D q e)

/-- Addition of a side, if its element is wet. -/
def local11Side (wet : ℕ → Bool) (ed : Edg K) (L : ℕ → ℕ → ℕ → K) (s : Sd) : ℕ → ℕ → ℕ → K :=
  if wet s.e then Function.update L s.e fun r k => L s.e r k + side11 D ed s r k else L

/-- `ehdg_gn_proc_serial_step.hpp` lines 53-61: `w1_w1` after the local kernels. -/
def local11 (wet : ℕ → Bool) (q : State K) : ℕ → ℕ → ℕ → K :=
  (edgesOf D.m).foldl (fun L ed => ed.sides.foldl (local11Side D wet ed) L) (D.m.elts.foldl (local11Elt D q) fun _ _ _ => 0)

/-- Lines 50-67: what the kernels leave. -/
def dcBlocks (wet : ℕ → Bool) (q : State K) : DcBlocks K where
  a11 := local11 D wet q
  a12 := vol12 D q
  a21 := vol21 D q
  a22 := vol22 D q
  r1 := srcDc D q
  a1h := byFace D.geo (fun ed _ s => side1h D q ed s) fun _ _ => 0
  a2h := byFace D.geo (fun ed _ s => side2h D q ed s) fun _ _ => 0
  ah1 := byFace D.geo (fun ed _ s => sideh1 D wet ed s) fun _ _ => 0
  ah2 := byFace D.geo (fun ed _ s => sideh2 D wet ed s) fun _ _ => 0
  ahh k := match (edgesOf D.m)[k]? with
    | some ed => edgehh D wet ed
    | none => fun _ _ => 0

/-- Elements and edges. -/
def dcSkel : Skel where
  elts := D.m.elts
  edges := (edgesOf D.m).map fun ed => ed.sides.map fun s => ⟨s.e, s.f⟩
  ndof e := ndof (D.dat e).elt.p
  m := 2 * D.nlam

/-- `ehdg_gn_proc_volume.hpp` lines 88-105: the right-hand side; `w1` by rows `2 * dof + dir` (`reshape` column major, as in the solver). -/
def dcRhs (corr troubled : ℕ → Bool) (wet : ℕ → Bool) (q : State K) (w1 : ℕ → ℕ → K) : State K := fun e =>
  if decide (e ∈ D.m.elts) && wet e && corr e && !troubled e then
    let row := fun dir dof => (D.dat e).elt.intPhi D.v.N (fun z => correction D.v.src.g D.al (depth D.v D.dat q e z)
      (rowOf D.v D.dat (dze D.v D.dat D.m q dir) e z) ((D.dat e).elt.value D.v.N (fun d => reshapeCol 2 (w1 e) dir d) z)) dof
    ![fun _ => 0, row 0, row 1]
  else fun _ _ => 0

/-- State of a run: as `Run`, with the numbering of the edges. -/
structure GnRun (K : Type) where
  run : Run K
  idx : Index

/-- A failing library or a read outside of a vector. -/
def slotFail {α : Type} : Option α → Res α
  | some x => .ok x
  | none => .error .exc

/-- `ehdg_gn_proc_serial_step.hpp` lines 47-82 (`dispersive_correction_serial`). -/
def dcStage (tab : Stepper.Tableau) (ns : ℕ) (dt : K) (corr troubled : ℕ → Bool) (s : GnRun K) : Res (GnRun K) := do
  let cur ← slotOr s.run.slots[s.run.stage]?
  let (t, _, w1) ← slotFail (solveDc D.I D.slv (dcSkel D) D.wd s.run.wet s.idx (dcBlocks D s.run.wet cur.q))
  let slots ← slotOr (Stepper.setSolution s.run.slots s.run.stage (solve D.v D.dat (dcRhs D corr troubled s.run.wet cur.q w1)))
  let slots ← slotOr (Stepper.updateState tab ns dt s.run.stage slots)
  return ⟨{ s.run with slots := slots, stage := (s.run.stage + 1) % ns }, t⟩

/-- `n` stages of the dispersive correction. -/
def dcStages (tab : Stepper.Tableau) (ns : ℕ) (dt : K) (corr troubled : ℕ → Bool) : ℕ → GnRun K → Res (GnRun K)
  | 0, s => .ok s
  | n + 1, s => do
    let s ← dcStages tab ns dt corr troubled n s
    dcStage D tab ns dt corr troubled s

/-- A stepper: coefficients, number of stages, time step. -/
structure Method (K : Type) where
  tab : Stepper.Tableau
  ns : ℕ
  dt : K

/-- `ehdg_gn_proc_serial_step.hpp` lines 10-45 (`step_serial`): a step of the shallow water equations, of the dispersive correction and again of the shallow
water equations. `R1`, `R2` are the right-hand sides of the stages of both shallow water steps, `stage` is zero at the beginning of each. -/
def strangStep (A B : Method K) (pp : PostParams K) (R1 R2 : ℕ → (ℕ → Bool) → State K → State K) (corr troubled : ℕ → Bool) (s : GnRun K) :
    Res (GnRun K) := do
  let r ← runWith D.v D.dat D.m A.tab A.ns A.dt pp R1 A.ns s.run
  let s ← dcStages D B.tab B.ns B.dt corr troubled B.ns { s with run := r }
  let r ← runWith D.v D.dat D.m A.tab A.ns A.dt pp R2 A.ns s.run
  return { s with run := r }

end Verif.Gn
