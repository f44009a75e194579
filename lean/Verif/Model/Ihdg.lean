import Verif.Model.Condense

/-!
# The implicit hybridized discretization

Models `source/problem/SWE/discretization_IHDG`: the kernels that fill the matrices and right-hand sides of a Newton iteration, the initial traces
and the serial stage (`ihdg_swe_proc_serial_step.hpp`).

Simplifications: as in `SweStage`, `Ehdg`, `Edge` and `Condense`. Both sides of an interface are treated by the same definitions, `Sd.ex` tells them
apart; Gauss point `gp` of the exterior side lies where Gauss point `ngp - gp - 1` of the interior side lies. The turns of a loop over Gauss points
touch different columns, so that a column is a function of the number of its Gauss point. Row `3 * dof + var` of a vector of unknowns belongs to
coefficient `dof` of variable `var`. An entry of the derivative of the source that is not a finite number makes the iteration fail (`none`). Levees
compute nothing (`ihdg_swe_is_levee.hpp`): what their arrays hold is a parameter.
-/

namespace Verif.Ihdg
open Verif.Swe Verif.Geometry Verif.Element Verif.Edge Verif.Ehdg

variable {K : Type} [Field K] [LinearOrder K]

/-! ### Integrals -/

/-- `element.hpp` lines 462-470 (`IntegrationPhiPhi`) with `int_phi_phi_fact` of lines 223-232. -/
def intPhiPhi (N : Numerics K) (e : Elt K) (i j : ℕ) (f : P2 K → K) : K :=
  ((e.gps N).map fun wz => f wz.2 * (N.basis.phi i wz.2 * (N.basis.phi j wz.2 * wz.1 * |jdet e.tri|))).sum

/-- Lines 489-498 (`IntegrationPhiDPhi`) with `int_phi_dphi_fact` of lines 248-259. -/
def intPhiDPhi (N : Numerics K) (e : Elt K) (i dir j : ℕ) (f : P2 K → K) : K :=
  ((e.gps N).map fun wz => f wz.2 * (N.basis.phi i wz.2 *
    ((0 + N.basis.dphi1 j wz.2 * wz.1 * entry (jinv e.tri) 0 dir + N.basis.dphi2 j wz.2 * wz.1 * entry (jinv e.tri) 1 dir) * |jdet e.tri|))).sum

/-- `boundary.hpp` lines 200-208, `interface.hpp` lines 288-296 and 362-370 (`IntegrationPhiPhi`, `IntegrationPhiPhiIN`, `IntegrationPhiPhiEX`). -/
def intFace2 (N : Numerics K) (r : List (K × K)) (f : ℕ) (J : K) (i j : ℕ) (F : ℕ → K) : K :=
  ((List.range r.length).map fun gp => F gp * (N.basis.phi i (facePt r f gp) * (N.basis.phi j (facePt r f gp) * (weight r gp * J)))).sum

/-- The entry in row `r % 3` and column `s % 3` of `reshape(I(M))`, where `I` integrates the rows of an array with the flattened matrices `M` at the
Gauss points as columns. -/
def block {α : Type} (I : (α → K) → K) (M : α → M3 K) (r s : ℕ) : K :=
  reshape 3 (fun k => I fun x => flatten 3 (fun i j => M x (varOf i) (varOf j)) k) (r % 3) (s % 3)

/-! ### Edges -/

/-- An edge of the skeleton. -/
inductive Edg (K : Type) where
  | int (i : Iface K)
  | bnd (b : Bnd K)

/-- A side of an edge. -/
structure Sd where
  e : ℕ
  f : ℕ
  ex : Bool
deriving DecidableEq, Repr

def Edg.sides : Edg K → List Sd
  | .int i => [⟨i.ein, i.fin, false⟩, ⟨i.eex, i.fex, true⟩]
  | .bnd b => [⟨b.e, b.f, false⟩]

/-- The side whose normal and surface Jacobian are used. -/
def Edg.own : Edg K → Sd
  | .int i => ⟨i.ein, i.fin, false⟩
  | .bnd b => ⟨b.e, b.f, false⟩

/-- Degree: `edge_interface.hpp` line 52, `edge_boundary.hpp` line 50. -/
def Edg.p (dat : ℕ → EltData K) : Edg K → ℕ
  | .int i => max (dat i.ein).elt.p (dat i.eex).elt.p
  | .bnd b => (dat b.e).elt.p

/-- Interfaces first, then boundaries. -/
def edgesOf (m : Mesh K) : List (Edg K) := m.ints.map .int ++ m.bnds.map .bnd

/-- Mesh, time step and libraries. `t`, `tn`: `GetTimeAtCurrentStage`, `GetTimeAtNextStage`; `rampn`: `GetRampNext`. -/
structure Scheme (K : Type) where
  v : Env K
  dat : ℕ → EltData K
  m : Mesh K
  dt : K
  theta : K
  order2 : Bool
  t : K
  tn : K
  rampn : K
  I : Inverse K
  slv : Solver K
  junkDelta : Iface K → Bool → ℕ → M3 K
  junkHat : Iface K → ℕ → M3 K
  junkRhs : Iface K → ℕ → Q K

variable (S : Scheme K)

def rule (ed : Edg K) : List (K × K) := faceRule S.v.N (ed.p S.dat)

/-- `surface_J[0]`. -/
def surf (ed : Edg K) : K := surfaceJ S.v.sq (S.dat ed.own.e).elt.tri ed.own.f

/-- `surface_normal` or `surface_normal_in`. -/
def nrm (ed : Edg K) : P2 K := normal S.v.sq (S.dat ed.own.e).elt.tri ed.own.f

def tab (ed : Edg K) : Tables K := tables (ed.p S.dat) (rule S ed) (surf S ed) true

/-- Number of the point of the edge at Gauss point `gp` of a side. -/
def opp (ed : Edg K) (s : Sd) (gp : ℕ) : ℕ := if s.ex then (rule S ed).length - gp - 1 else gp

/-- `boundary.q_at_gp` (`ihdg_swe_proc_intface.hpp`, `ihdg_swe_proc_bound.hpp`). -/
def sideQ (q : State K) (ed : Edg K) (s : Sd) (gp : ℕ) : Q K := qAt S.v.N (S.dat s.e).elt (q s.e) (facePt (rule S ed) s.f gp)

/-- Bathymetry at a Gauss point of a side. -/
def sideBath (ed : Edg K) (s : Sd) (gp : ℕ) : K := (S.dat s.e).elt.value S.v.N (S.dat s.e).bath (facePt (rule S ed) s.f gp)

/-- `ihdg_swe_pre_init_global_prob.hpp` lines 27-35, 74. -/
def bathAt (ed : Edg K) : ℕ → K :=
  match ed with
  | .int i => bathHat (rule S (.int i)).length (sideBath S (.int i) ⟨i.ein, i.fin, false⟩) (sideBath S (.int i) ⟨i.eex, i.fex, true⟩)
  | .bnd b => sideBath S (.bnd b) ⟨b.e, b.f, false⟩

/-- `q_hat_at_gp` (`ihdg_swe_proc_edge_intface.hpp` line 77, `ihdg_swe_proc_edge_bound.hpp` line 59). -/
def hat (ed : Edg K) (c : Coef K) (gp : ℕ) : Q K := ofComp fun var => ugp (tab S ed) (c var) gp

/-- `aux_hat_at_gp` (lines 79-80, 61-62). -/
def hatAux (ed : Edg K) (c : Coef K) (gp : ℕ) : Aux K := ⟨bathAt S ed gp, (hat S ed c gp).ze + bathAt S ed gp, 1⟩

/-- `tau` at a point of the edge (lines 90, 72). -/
def tauAt (ed : Edg K) (c : Coef K) (gp : ℕ) : M3 K := tauLF S.v.sq S.v.src.g (hat S ed c gp) (hatAux S ed c gp) (nrm S ed)

/-- `F_hat_at_gp` of a side (`ihdg_swe_proc_edge_intface.hpp` lines 84, 116, 119, 123; `ihdg_swe_proc_edge_bound.hpp` lines 66, 87). -/
def fhat (q : State K) (ed : Edg K) (c : Coef K) (s : Sd) (gp : ℕ) : Q K :=
  let j := opp S ed s gp
  let F := fluxN S.v.src.g (hat S ed c j) (hatAux S ed c j) (nrm S ed)
  (if s.ex then -F else F) + mulQ (tauAt S ed c j) (sideQ S q ed s gp - hat S ed c j)

/-- `dtau_delq` (lines 108-114, 83-85). -/
def dtauDelq (q : State K) (ed : Edg K) (c : Coef K) (s : Sd) (gp : ℕ) : M3 K :=
  let j := opp S ed s gp
  let qh := hat S ed c j
  let a := hatAux S ed c j
  let del := sideQ S q ed s gp - qh
  Matrix.of fun r k => comp (mulQ (![dtauZe S.v.sq S.v.src.g qh a (nrm S ed), dtauQx qh a (nrm S ed), dtauQy qh a (nrm S ed)] k) del) r

/-- `dF_hat_dq_at_gp` (lines 120, 124, 88). -/
def dfDq (ed : Edg K) (c : Coef K) (s : Sd) (gp : ℕ) : M3 K := tauAt S ed c (opp S ed s gp)

/-- `dF_hat_dq_hat_at_gp` (lines 86, 117, 121, 125; 68, 89). -/
def dfDhat (q : State K) (ed : Edg K) (c : Coef K) (s : Sd) (gp : ℕ) : M3 K :=
  let j := opp S ed s gp
  let D := dFnDq S.v.src.g (hat S ed c j) (hatAux S ed c j) (nrm S ed)
  (if s.ex then -D else D) + (dtauDelq S q ed c s gp - tauAt S ed c j)

/-! ### Boundary conditions -/

/-- `ihdg_swe_bc_tide.hpp` lines 151-158, `ihdg_swe_bc_flow.hpp` lines 156-162: the accumulation loop of the iteration. -/
def forcingIter (cos : K → K) (ramp t : K) (cs : List (Constituent K)) : K :=
  cs.foldl (fun s c => s + ramp * c.ff * c.amp * cos (c.freq * t + c.eq - c.phase)) 0

/-- `q_ex` of `ComputeGlobalKernels`: `ihdg_swe_bc_tide.hpp` lines 149-161, `ihdg_swe_bc_flow.hpp` lines 154-169, `ihdg_swe_bc_function.hpp` lines
112-131. Not used for land. -/
def exterior (q : State K) (b : Bnd K) (gp : ℕ) : Q K :=
  let x := sideQ S q (.bnd b) ⟨b.e, b.f, false⟩ gp
  match b.kind with
  | .land => x
  | .tide cs => ⟨forcingIter S.v.cos S.rampn S.tn (cs gp), x.qx, x.qy⟩
  | .flow cs => let qn := forcingIter S.v.cos S.rampn S.tn (cs gp)
    ⟨x.ze, qn * (nrm S (.bnd b)).x, qn * (nrm S (.bnd b)).y⟩
  | .function => S.v.bcq S.tn (localToGlobal (S.dat b.e).elt.tri (facePt (rule S (.bnd b)) b.f gp))

/-- What an open boundary knows. -/
def openOf (q : State K) (b : Bnd K) : OpenEdge K :=
  ⟨tab S (.bnd b), nrm S (.bnd b), bathAt S (.bnd b), sideQ S q (.bnd b) ⟨b.e, b.f, false⟩, exterior S q b⟩

/-- `ihdg_swe_bc_land.hpp` lines 68-73. -/
def landDelta (n : P2 K) : M3 K := -1 + !![0, 0, 0; 0, n.x * n.x, n.x * n.y; 0, n.x * n.y, n.y * n.y]

/-- `ihdg_swe_bc_land.hpp` lines 66, 77-80. -/
def landRhs (n : P2 K) (q qh : Q K) : Q K :=
  let qn := q.qx * n.x + q.qy * n.y
  let r := qh - q
  ⟨r.ze, r.qx + qn * n.x, r.qy + qn * n.y⟩

/-- `delta_global_kernel_at_gp` of a side: `ihdg_swe_is_internal.hpp` lines 61-62, `ihdg_swe_bc_land.hpp` 68-73, `ihdg_swe_bc_tide.hpp` 177,
`ihdg_swe_bc_flow.hpp` 185, `ihdg_swe_bc_function.hpp`. -/
def gDelta (q : State K) (ed : Edg K) (c : Coef K) (s : Sd) (gp : ℕ) : M3 K :=
  match ed with
  | .int i => match i.kind with
    | .internal => dfDq S (.int i) c s gp
    | .levee _ => S.junkDelta i s.ex gp
  | .bnd b => match b.kind with
    | .land => landDelta (nrm S (.bnd b))
    | _ => let o := openOf S q b
      getAplus S.v.sq S.v.src.g (traceAt o c gp) (traceAux o c gp) o.n

/-- `delta_hat_global_kernel_at_gp`: lines 64-65, 75, 168-178, 176-186. -/
def gHat (q : State K) (ed : Edg K) (c : Coef K) (gp : ℕ) : M3 K :=
  match ed with
  | .int i => match i.kind with
    | .internal => dfDhat S q (.int i) c ⟨i.ein, i.fin, false⟩ gp +
        dfDhat S q (.int i) c ⟨i.eex, i.fex, true⟩ ((rule S (.int i)).length - gp - 1)
    | .levee _ => S.junkHat i gp
  | .bnd b => match b.kind with
    | .land => 1
    | _ => dB S.v.sq S.v.src.g (openOf S q b) c gp

/-- `rhs_global_kernel_at_gp`: lines 67-68, 77-80, 179-180, 187-188. -/
def gRhs (q : State K) (ed : Edg K) (c : Coef K) (gp : ℕ) : Q K :=
  match ed with
  | .int i => match i.kind with
    | .internal => fhat S q (.int i) c ⟨i.ein, i.fin, false⟩ gp +
        fhat S q (.int i) c ⟨i.eex, i.fex, true⟩ ((rule S (.int i)).length - gp - 1)
    | .levee _ => S.junkRhs i gp
  | .bnd b => match b.kind with
    | .land => landRhs (nrm S (.bnd b)) (sideQ S q (.bnd b) ⟨b.e, b.f, false⟩ gp) (hat S (.bnd b) c gp)
    | _ => kernelB S.v.sq S.v.src.g (openOf S q b) c gp

/-- `IntegrationPhiLambdaIN`, `IntegrationPhiLambdaEX`, `IntegrationPhiLambda` with the factors of `edge_interface.hpp` lines 104-128 and
`edge_boundary.hpp` lines 97-108: column `ndof * i + j`. -/
def intPhiLam (ed : Edg K) (s : Sd) (i j : ℕ) (F : ℕ → K) : K :=
  let T := tab S ed
  ∑ gp ∈ Finset.range T.ngp, F gp *
    flatten T.ndof (fun i j => S.v.N.basis.phi i (facePt (rule S ed) s.f gp) * intLam T (opp S ed s gp) j) (T.ndof * i + j)

/-! ### Matrices and right-hand sides -/

/-- An iterate: coefficients of the elements and of the traces, by number of the edge. -/
structure Iter (K : Type) where
  q : State K
  hat : ℕ → Coef K

/-- `delta_local` and `rhs_local` of all elements. -/
structure Local (K : Type) where
  D : ℕ → ℕ → ℕ → K
  R : ℕ → ℕ → K

/-- State and auxiliaries in an element. -/
def inner (d : EltData K) (u : Fin 3 → ℕ → K) (z : P2 K) : Q K × Aux K :=
  let q := qAt S.v.N d.elt u z
  (q, auxAt S.v d q z (localToGlobal d.elt.tri z))

/-- `ihdg_swe_proc_volume.hpp` lines 64-75: `delta_local`. -/
def volD (d : EltData K) (u : Fin 3 → ℕ → K) (r s : ℕ) : K :=
  let x := inner S d u
  block (intPhiPhi S.v.N d.elt (s / 3) (r / 3)) (fun _ => (1 / S.dt) • (1 : M3 K)) r s -
    (1 - S.theta) * block (intPhiDPhi S.v.N d.elt (s / 3) 0 (r / 3)) (fun z => dFxDq S.v.src.g (x z).1 (x z).2) r s -
    (1 - S.theta) * block (intPhiDPhi S.v.N d.elt (s / 3) 1 (r / 3)) (fun z => dFyDq S.v.src.g (x z).1 (x z).2) r s

/-- The flux integral of `ihdg_swe_proc_volume.hpp` lines 31-33 and 79-80. -/
def fluxR (d : EltData K) (u : Fin 3 → ℕ → K) (r : ℕ) : K × K :=
  let x := inner S d u
  (d.elt.intDPhi S.v.N 0 (fun z => comp (fluxX S.v.src.g (x z).1 (x z).2) (varOf (r % 3))) (r / 3),
    d.elt.intDPhi S.v.N 1 (fun z => comp (fluxY S.v.src.g (x z).1 (x z).2) (varOf (r % 3))) (r / 3))

/-- Lines 77-83: `rhs_local`. -/
def volR (d : EltData K) (u0 u : Fin 3 → ℕ → K) (prev : ℕ → K) (r : ℕ) : K :=
  -d.elt.intPhi S.v.N (fun z => comp (qAt S.v.N d.elt u z - qAt S.v.N d.elt u0 z) (varOf (r % 3)) / S.dt) (r / 3) +
    (1 - S.theta) * (fluxR S d u r).1 + (1 - S.theta) * (fluxR S d u r).2 + S.theta * prev r

/-- The source in an element at a time. -/
def srcAt (d : EltData K) (t : K) (u : Fin 3 → ℕ → K) (z : P2 K) : Q K :=
  let x := inner S d u z
  getSource S.v.sq S.v.cb S.v.src d.src (S.v.fs t (localToGlobal d.elt.tri z)) x.1 x.2 ⟨d.elt.deriv S.v.N 0 d.bath z, d.elt.deriv S.v.N 1 d.bath z⟩

/-- `dsource_dq_at_gp` (`ihdg_swe_proc_source.hpp` lines 27-65); zero where it is not a finite number, see `finite`. -/
def dsrcAt (d : EltData K) (u : Fin 3 → ℕ → K) (z : P2 K) : M3 K :=
  let x := inner S d u z
  match dsource S.v.sq S.v.cb S.v.src d.src x.1 x.2 with
  | some D => !![0, 0, 0; D.qx_ze, D.qx_qx, D.qx_qy; D.qy_ze, D.qy_qx, D.qy_qy]
  | none => 0

/-- `ihdg_swe_proc_source.hpp` lines 73-80. -/
def srcD (d : EltData K) (u : Fin 3 → ℕ → K) (r s : ℕ) : K :=
  (1 - S.theta) * block (intPhiPhi S.v.N d.elt (s / 3) (r / 3)) (dsrcAt S d u) r s

/-- The integral of lines 16-17 and 83. -/
def srcR (d : EltData K) (t : K) (u : Fin 3 → ℕ → K) (r : ℕ) : K :=
  d.elt.intPhi S.v.N (fun z => comp (srcAt S d t u z) (varOf (r % 3))) (r / 3)

/-- The integral of the flux over a side. -/
def faceR (q : State K) (ed : Edg K) (c : Coef K) (s : Sd) (r : ℕ) : K :=
  Elt.intFace S.v.N (rule S ed) s.f (surf S ed) (fun gp => comp (fhat S q ed c s gp) (varOf (r % 3))) (r / 3)

/-- `ihdg_swe_proc_edge_intface.hpp` lines 138 and 153, with the pair of basis functions in this order; `ihdg_swe_proc_edge_bound.hpp` line 102, in
the other. -/
def faceD (ed : Edg K) (c : Coef K) (s : Sd) (r k : ℕ) : K :=
  match ed with
  | .int i => block (intFace2 S.v.N (rule S (.int i)) s.f (surf S (.int i)) (r / 3) (k / 3)) (dfDq S (.int i) c s) r k
  | .bnd b => block (intFace2 S.v.N (rule S (.bnd b)) s.f (surf S (.bnd b)) (k / 3) (r / 3)) (dfDq S (.bnd b) c s) r k

/-- `ihdg_swe_proc_init_iter.hpp`: `rhs_prev` of all elements from the old state and traces, zero unless the order is 2. -/
def prevElt (q : State K) (P : ℕ → ℕ → K) (e : ℕ) : ℕ → ℕ → K :=
  Function.update P e fun r => (fluxR S (S.dat e) (q e) r).1 + (fluxR S (S.dat e) (q e) r).2 + srcR S (S.dat e) S.t (q e) r

def prevSide (q : State K) (ed : Edg K) (c : Coef K) (P : ℕ → ℕ → K) (s : Sd) : ℕ → ℕ → K :=
  Function.update P s.e fun r => P s.e r + -faceR S q ed c s r

def prevEdge (it : Iter K) (P : ℕ → ℕ → K) (x : Edg K × ℕ) : ℕ → ℕ → K := x.1.sides.foldl (prevSide S it.q x.1 (it.hat x.2)) P

def rhsPrev (it : Iter K) : ℕ → ℕ → K :=
  if S.order2 then (edgesOf S.m).zipIdx.foldl (prevEdge S it) (S.m.elts.foldl (prevElt S it.q) fun _ _ => 0) else fun _ _ => 0

/-- Volume and source kernel of an element. -/
def localElt (q0 q : State K) (prev : ℕ → ℕ → K) (L : Local K) (e : ℕ) : Local K :=
  ⟨Function.update L.D e fun r s => volD S (S.dat e) (q e) r s - srcD S (S.dat e) (q e) r s,
    Function.update L.R e fun r => volR S (S.dat e) (q0 e) (q e) (prev e) r + (1 - S.theta) * srcR S (S.dat e) S.tn (q e) r⟩

/-- `ihdg_swe_proc_edge_intface.hpp` lines 130-158, `ihdg_swe_proc_edge_bound.hpp` lines 94-107: one side. -/
def localSide (q : State K) (ed : Edg K) (c : Coef K) (L : Local K) (s : Sd) : Local K :=
  ⟨Function.update L.D s.e fun r k => L.D s.e r k + (1 - S.theta) * faceD S ed c s r k,
    Function.update L.R s.e fun r => L.R s.e r + -(1 - S.theta) * faceR S q ed c s r⟩

def localEdge (it : Iter K) (L : Local K) (x : Edg K × ℕ) : Local K := x.1.sides.foldl (localSide S it.q x.1 (it.hat x.2)) L

/-- `ihdg_swe_proc_serial_step.hpp` lines 40-55. -/
def localAll (q0 : State K) (prev : ℕ → ℕ → K) (it : Iter K) : Local K :=
  (edgesOf S.m).zipIdx.foldl (localEdge S it) (S.m.elts.foldl (localElt S q0 it.q prev) ⟨fun _ _ _ => 0, fun _ _ => 0⟩)

/-- `delta_hat_local` of a side: `ihdg_swe_proc_edge_intface.hpp` lines 160-182, `ihdg_swe_proc_edge_bound.hpp` lines 109-119. -/
def sideDh (q : State K) (ed : Edg K) (c : Coef K) (s : Sd) (r k : ℕ) : K :=
  (1 - S.theta) * block (intPhiLam S ed s (r / 3) (k / 3)) (dfDhat S q ed c s) r k

/-- `delta_global` of a side: lines 194-216, 130-140. -/
def sideDg (q : State K) (ed : Edg K) (c : Coef K) (s : Sd) (r k : ℕ) : K :=
  block (intPhiLam S ed s (k / 3) (r / 3)) (gDelta S q ed c s) r k

/-- `delta_hat_global` of an edge: lines 218-227, with the pair in this order; 142-151, in the other. -/
def edgeDhg (q : State K) (ed : Edg K) (c : Coef K) (r k : ℕ) : K :=
  match ed with
  | .int i => block (integral2 (tab S (.int i)) (r / 3) (k / 3)) (gHat S q (.int i) c) r k
  | .bnd b => block (integral2 (tab S (.bnd b)) (k / 3) (r / 3)) (gHat S q (.bnd b) c) r k

/-- `rhs_global` of an edge: lines 229-230, 153-154. -/
def edgeRg (q : State K) (ed : Edg K) (c : Coef K) (r : ℕ) : K :=
  -integral (tab S ed) (r / 3) fun gp => comp (gRhs S q ed c gp) (varOf (r % 3))

/-- A table with one entry per face, written edge by edge. -/
def byFace {α : Type} (g : Edg K → ℕ → Sd → α) (z : α) : ℕ → ℕ → α :=
  (edgesOf S.m).zipIdx.foldl (fun t x => x.1.sides.foldl (fun t s e f => if e = s.e ∧ f = s.f then g x.1 x.2 s else t e f) t) fun _ _ => z

/-- The blocks of an iteration. -/
def blocks (q0 : State K) (prev : ℕ → ℕ → K) (it : Iter K) : Blocks K where
  dl := (localAll S q0 prev it).D
  rl := (localAll S q0 prev it).R
  dh := byFace S (fun ed k s => sideDh S it.q ed (it.hat k) s) fun _ _ => 0
  dg := byFace S (fun ed k s => sideDg S it.q ed (it.hat k) s) fun _ _ => 0
  dhg k := match (edgesOf S.m)[k]? with
    | some ed => edgeDhg S it.q ed (it.hat k)
    | none => fun _ _ => 0
  rg k := match (edgesOf S.m)[k]? with
    | some ed => edgeRg S it.q ed (it.hat k)
    | none => fun _ => 0

/-- Elements and edges with their numbers of unknowns. -/
def skel : Skeleton where
  elts := S.m.elts
  edges := (edgesOf S.m).map fun ed => ed.sides.map fun s => ⟨s.e, s.f⟩
  size e := 3 * ndof (S.dat e).elt.p
  esize k := match (edgesOf S.m)[k]? with
    | some ed => 3 * (tab S ed).ndof
    | none => 0

/-- All entries of the derivative of the source are finite. -/
def finite (q : State K) : Bool :=
  S.m.elts.all fun e => ((S.dat e).elt.gps S.v.N).all fun wz =>
    let x := inner S (S.dat e) (q e) wz.2
    (dsource S.v.sq S.v.cb S.v.src (S.dat e).src x.1 x.2).isSome

/-- `ihdg_swe_proc_serial_sol_glob_prob.hpp` lines 149-150, 166-167, 179: the changes are added. -/
def advance (it : Iter K) (d : (ℕ → ℕ → K) × (ℕ → K)) : Iter K :=
  ⟨fun e var dof => if e ∈ S.m.elts ∧ 3 * dof < (skel S).size e then it.q e var dof + reshapeCol 3 (d.1 e) var.val dof else it.q e var dof,
    fun k var dof => if 3 * dof < (skel S).esize k then it.hat k var dof + reshapeCol 3 (edgePart (number (skel S)) d.2 k) var.val dof
      else it.hat k var dof⟩

/-- One Newton iteration: new iterate and the solution of the global system. -/
def newton (q0 : State K) (prev : ℕ → ℕ → K) (it : Iter K) : Option (Iter K × (ℕ → K)) :=
  if finite S it.q then (condense S.I S.slv (skel S) (blocks S q0 prev it)).map fun d => (advance S it d, d.2) else none

/-- Lines 182-188. -/
def converged (x : ℕ → K) : Bool :=
  let n := (number (skel S)).off
  decide (S.v.sq (∑ r ∈ Finset.range n, x r * x r) / (n : K) < 1 / 10 ^ 8)

/-- `ihdg_swe_proc_serial_step.hpp` lines 35-72. -/
def iterate (q0 : State K) (prev : ℕ → ℕ → K) : ℕ → Iter K → Option (Iter K)
  | 0, it => some it
  | fuel + 1, it => (newton S q0 prev it).bind fun d => if converged S d.2 then some d.1 else iterate q0 prev fuel d.1

/-- Lines 33-82: the stage, without limiter and check for NaN. The first iterate is the old state (`ihdg_swe_proc_volume.hpp` line 17) with the
old traces. -/
def stage (it : Iter K) : Option (Iter K) := iterate S it.q (rhsPrev S it) 100 it

/-- `ihdg_swe_proc_serial_step.hpp` lines 16-22 and `serial_simulation.hpp`: steps with the times and ramps of the stepper, one stage each. -/
def steps (time ramp : ℕ → K) : ℕ → Iter K → Option (Iter K)
  | 0, it => some it
  | n + 1, it => (steps time ramp n it).bind (stage { S with t := time n, tn := time (n + 1), rampn := ramp (n + 1) })

/-! ### Initial traces -/

/-- `ComputeInitTrace` of an interface (`ihdg_swe_is_internal.hpp` lines 22-48) and of a land boundary (`ihdg_swe_bc_land.hpp` lines 24-49). For the other
boundaries the iteration of `EhdgTrace` runs from the zero trace; levees compute nothing. -/
def initTrace (q : State K) (ed : Edg K) : Option (Coef K) :=
  match ed with
  | .int i => match i.kind with
    | .internal => some fun var => project (tab S (.int i)) fun gp =>
        comp (sideQ S q (.int i) ⟨i.ein, i.fin, false⟩ gp + sideQ S q (.int i) ⟨i.eex, i.fex, true⟩ ((rule S (.int i)).length - gp - 1)) var / 2
    | .levee _ => none
  | .bnd b => match b.kind with
    | .land => some fun var => project (tab S (.bnd b)) fun gp =>
        comp (landHat (nrm S (.bnd b)) (sideQ S q (.bnd b) ⟨b.e, b.f, false⟩ gp)) var
    | _ => none

end Verif.Ihdg
