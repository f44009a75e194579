import Verif.Model.GnDeriv
import Verif.Model.SweLimiter
import Verif.Model.Stepper

/-!
# The other derivatives of the dispersive correction: Green-Gauss and least squares

Models `source/problem/Green-Naghdi/problem_preprocessor/gn_pre_init_data.hpp` lines 23-79 and, in
`source/problem/Green-Naghdi/discretization_EHDG`, `kernels_processor/grad_methods/greengauss_derivatives_serial.hpp`,
`leastsquares_derivatives_serial.hpp`, `recon_avg_derivatives.hpp`, `recon_int_derivatives.hpp`, `recon_ls_derivatives.hpp` and the files of the same names for the bathymetry in
`kernels_preprocessor/grad_methods`. They are selected at compile time by `D_GREENGAUSS`, `D_LEASTSQUARES`, `D_RECON_AVG`, ... in `gn_definitions.hpp`.

A derivative is first computed as one value for each element, the value at the barycentre, and then a linear function in each element is reconstructed from the
values in neighbouring elements, given by its values at the three vertices (`…_lin`) and by coefficients of the basis (`ProjectLinearToBasis`).

Simplifications: as in `GnDeriv`. One row is modelled at a time. Elements are triangles. What an array holds before its first assignment does not matter, zero is used; a
vector of interpolation coefficients that is never assigned is zero, as in Blaze. `solve_sle` and `inverse` of a singular matrix have no result. The method for the flow
variables and the one for the bathymetry are chosen separately in the code; with `D_RECON_AVG` the serial program needs `B_RECON_AVG` too, because only
`recon_avg_dbath.hpp` lines 8-33 set the numbers of nodes and the multiplicities. That is assumed.
-/

namespace Verif.Gn
open Verif.Swe Verif.Geometry Verif.Element Verif.Basis

variable {K : Type} [Field K] [LinearOrder K]

/-! ### Green-Gauss -/

/-- `Integration` on a face: `interface.hpp` lines 263-269, 337-343, `boundary.hpp`. -/
def faceSum (r : List (K × K)) (J : K) (F : ℕ → K) : K := ((List.range r.length).map fun gp => F gp * (weight r gp * J)).sum

/-- Addition to the value of one element. -/
def addCell (r : ℕ → K) (e : ℕ) (x : K) : ℕ → K := Function.update r e (r e + x)

/-- Own values at the Gauss points of both sides of an interface. -/
def ownIn (v : Env K) (dat : ℕ → EltData K) (F : Row K) (i : Iface K) (gp : ℕ) : K := F i.ein (facePt (i.rule v dat) i.fin gp)
def ownEx (v : Env K) (dat : ℕ → EltData K) (F : Row K) (i : Iface K) (gp : ℕ) : K := F i.eex (facePt (i.rule v dat) i.fex gp)

/-- Lines 40-67, 119-146, 178-206 of the derivatives; `fi`, `fe` are the values at the Gauss points of both sides. -/
def ggInt (v : Env K) (dat : ℕ → EltData K) (fi fe : Iface K → ℕ → K) (dir : ℕ) (r : ℕ → K) (i : Iface K) : ℕ → K :=
  let n := normal v.sq (dat i.ein).elt.tri i.fin
  addCell (addCell r i.ein (1 / area (dat i.ein).elt.tri * faceSum (i.rule v dat) (i.J v dat) fun gp => fi i gp * nd n dir)) i.eex
    (1 / area (dat i.eex).elt.tri * faceSum (i.rule v dat) (i.J v dat) fun gp => fe i gp * nd ⟨-n.x, -n.y⟩ dir)

/-- Lines 69-84, 148-163, 208-223. -/
def ggBnd (v : Env K) (dat : ℕ → EltData K) (F : Row K) (dir : ℕ) (r : ℕ → K) (b : Bnd K) : ℕ → K :=
  let d := dat b.e
  addCell r b.e (1 / area d.elt.tri * faceSum (faceRule v.N d.elt.p) (surfaceJ v.sq d.elt.tri b.f) fun gp =>
    F b.e (facePt (faceRule v.N d.elt.p) b.f gp) * nd (normal v.sq d.elt.tri b.f) dir)

/-- The loops, with zeros before them. -/
def ggWith (v : Env K) (dat : ℕ → EltData K) (m : Mesh K) (fi fe : Iface K → ℕ → K) (F : Row K) (dir : ℕ) : ℕ → K :=
  m.bnds.foldl (ggBnd v dat F dir) (m.ints.foldl (ggInt v dat fi fe dir) (m.elts.foldl (fun r e => Function.update r e 0) fun _ => 0))

/-- The derivative at barycentres from own values at the faces: level, velocity and its derivatives, bathymetry and its second derivatives. -/
def gg (v : Env K) (dat : ℕ → EltData K) (m : Mesh K) (F : Row K) (dir : ℕ) : ℕ → K := ggWith v dat m (ownIn v dat F) (ownEx v dat F) F dir

/-- The same from averages of both sides: first derivatives of the bathymetry (`greengauss_dbath_serial.hpp` lines 75-150). -/
def ggHat (v : Env K) (dat : ℕ → EltData K) (m : Mesh K) (F : Row K) (dir : ℕ) : ℕ → K := ggWith v dat m (hatIn v dat F) (hatEx v dat F) F dir

/-- The same in the program on several ranks: at a distributed boundary `greengauss_dbath_serial.hpp` lines 134-149 integrate the own values, the average with the received ones is
formed only afterwards (lines 212-221). `cut` are the edges between submeshes; elements on both sides of one have the same degree. -/
def ggCut (v : Env K) (dat : ℕ → EltData K) (m : Mesh K) (cut : Iface K → Bool) (F : Row K) (dir : ℕ) : ℕ → K :=
  ggWith v dat m (fun i => if cut i then ownIn v dat F i else hatIn v dat F i) (fun i => if cut i then ownEx v dat F i else hatEx v dat F i) F dir

/-! ### Neighbours -/

section
variable {α : Type}

/-- Assignment to an entry of an array with one entry for each face. -/
def setFace (r : ℕ → ℕ → α) (e f : ℕ) (x : α) : ℕ → ℕ → α := Function.update r e (Function.update (r e) f x)

/-- Both sides of an interface get the value of the other one. -/
def nbInt (c : ℕ → α) (r : ℕ → ℕ → α) (i : Iface K) : ℕ → ℕ → α := setFace (setFace r i.ein i.fin (c i.eex)) i.eex i.fex (c i.ein)

/-- A boundary gets a value of its own element. -/
def nbBnd (w : ℕ → ℕ → α) (r : ℕ → ℕ → α) (b : Bnd K) : ℕ → ℕ → α := setFace r b.e b.f (w b.e b.f)

/-- An array `…_neigh`: `c` are the values in the elements, `w` the ones for boundaries. -/
def nbs (m : Mesh K) (c : ℕ → α) (w : ℕ → ℕ → α) (init : ℕ → ℕ → α) : ℕ → ℕ → α := m.bnds.foldl (nbBnd w) (m.ints.foldl (nbInt c) init)

end

/-- `baryctr_coord_neigh`: `gn_pre_init_data.hpp` lines 33-43. -/
def nbCoord (dat : ℕ → EltData K) (m : Mesh K) : ℕ → ℕ → P2 K :=
  nbs m (fun e => barycentre (dat e).elt.tri) (fun e f => midpoint (dat e).elt.tri f) fun _ _ => ⟨0, 0⟩

/-- Columns of `D_transpose`: lines 73-76. -/
def dCol (dat : ℕ → EltData K) (m : Mesh K) (e f : ℕ) : P2 K :=
  ⟨(nbCoord dat m e f).x - (barycentre (dat e).elt.tri).x, (nbCoord dat m e f).y - (barycentre (dat e).elt.tri).y⟩

/-- Columns of `dX_transpose`: lines 28-30. -/
def dxCol (t : Tri K) (f : ℕ) : P2 K := ⟨(midpoint t f).x - (barycentre t).x, (midpoint t f).y - (barycentre t).y⟩

/-- `D_transpose * transpose(D_transpose)`. -/
def normalM (D : ℕ → P2 K) : M2 K :=
  ⟨((List.range 3).map fun f => (D f).x * (D f).x).sum, ((List.range 3).map fun f => (D f).x * (D f).y).sum,
    ((List.range 3).map fun f => (D f).y * (D f).x).sum, ((List.range 3).map fun f => (D f).y * (D f).y).sum⟩

/-- Columns of `P`: line 77. -/
def pCols (D : ℕ → P2 K) : Option (ℕ → P2 K) :=
  if Geometry.det (normalM D) = 0 then none
  else some fun f => ⟨(Geometry.inv (normalM D)).m00 * (D f).x + (Geometry.inv (normalM D)).m01 * (D f).y,
    (Geometry.inv (normalM D)).m10 * (D f).x + (Geometry.inv (normalM D)).m11 * (D f).y⟩

/-! ### Interpolation coefficients -/

/-- Line 56-59: `solve_sle`. -/
def solveAlpha (mid bary n1 n2 : P2 K) : Option (K × K) :=
  if Geometry.det (⟨n1.x - bary.x, n2.x - bary.x, n1.y - bary.y, n2.y - bary.y⟩ : M2 K) = 0 then none else some (slAlpha mid bary n1 n2)

/-- Lines 60-62. -/
def snap (x : K) : K := if Stepper.almostEqual (Stepper.epsDouble K) 100 x 0 then 0 else x

/-- Coefficients of a side and the two sides to whose neighbours they belong. -/
structure Interp (K : Type) where
  a0 : K
  a1 : K
  e0 : ℕ
  e1 : ℕ

/-- Lines 51-70: the permutations not tried yet. -/
def findInterp (t : Tri K) (nb : ℕ → P2 K) (f : ℕ) : List ℕ → Option (Interp K)
  | [] => some ⟨0, 0, 0, 0⟩
  | perm :: rest =>
    match solveAlpha (midpoint t f) (barycentre t) (nb f) (nb ((f + perm + 1) % 3)) with
    | none => none
    | some a => if 0 ≤ snap a.1 ∧ 0 ≤ snap a.2 then some ⟨snap a.1, snap a.2, f, (f + perm + 1) % 3⟩ else findInterp t nb f rest

/-- Lines 50-71 for one side. -/
def interp (t : Tri K) (nb : ℕ → P2 K) (f : ℕ) : Option (Interp K) := findInterp t nb f [0, 1]

/-! ### Least squares -/

/-- `compute_…_ls`: the derivative at the barycentre from the own value `c` there and values `w` at the midpoints; `P` of each element. -/
def lsq (m : Mesh K) (P : ℕ → ℕ → P2 K) (c : ℕ → K) (w : ℕ → ℕ → K) (dir e : ℕ) : K :=
  ((List.range 3).map fun f => nd (P e f) dir * (nbs m c w (fun _ _ => 0) e f - c e)).sum

/-- `ComputeLinearUbaryctr`. -/
def atBary (lin : ℕ → K) : K := lin 0 * chiBary 0 + lin 1 * chiBary 1 + lin 2 * chiBary 2

/-- `ComputeLinearUmidpts`. -/
def atMid (lin : ℕ → K) (f : ℕ) : K := lin 0 * chiMid 0 f + lin 1 * chiMid 1 f + lin 2 * chiMid 2 f

/-- With values at vertices: `leastsquares_derivatives_serial.hpp` lines 24-26, 42-44, 51-52. -/
def lsqLin (m : Mesh K) (P : ℕ → ℕ → P2 K) (lin : ℕ → ℕ → K) (dir : ℕ) : ℕ → K :=
  lsq m P (fun e => atBary (lin e)) (fun e => atMid (lin e)) dir

/-! ### Reconstruction -/

/-- `derivative.…_at_midpts * T`. -/
def fromMids (mid : ℕ → K) (v : ℕ) : K := ((List.range 3).map fun f => mid f * (if f = v then -1 else 1)).sum

/-- `recon_int_derivatives.hpp` lines 35-45; at boundaries the neighbour has the own value (lines 17-20). -/
def reconInt (m : Mesh K) (a : ℕ → ℕ → Interp K) (c : ℕ → K) (e : ℕ) : ℕ → K :=
  let nb := nbs m c (fun e _ => c e) fun _ _ => 0
  fromMids fun f => c e + (nb e (a e f).e0 - c e) * (a e f).a0 + (nb e (a e f).e1 - c e) * (a e f).a1

/-- `recon_ls_derivatives.hpp` lines 35-48. -/
def reconLs (dat : ℕ → EltData K) (m : Mesh K) (P : ℕ → ℕ → P2 K) (c : ℕ → K) (e : ℕ) : ℕ → K :=
  let nb := nbs m c (fun e _ => c e) fun _ _ => 0
  fromMids fun f => ((List.range 3).map fun k => (nb e k - c e) *
    ((P e k).x * (dxCol (dat e).elt.tri f).x + (P e k).y * (dxCol (dat e).elt.tri f).y)).sum + c e

/-- `derivatives_at_node`: `recon_avg_derivatives.hpp` lines 10-19; `node` are the numbers of the nodes of elements. -/
def nodeSums (node : ℕ → ℕ → ℕ) (m : Mesh K) (c : ℕ → K) : ℕ → K :=
  m.elts.foldl (fun r e => (List.range 3).foldl (fun r v => addCell r (node e v) (c e)) r) fun _ => 0

/-- `node_mult`: `recon_avg_dbath.hpp` lines 15-26. -/
def nodeMult (node : ℕ → ℕ → ℕ) (m : Mesh K) : ℕ → ℕ :=
  m.elts.foldl (fun r e => (List.range 3).foldl (fun r v => Function.update r (node e v) (r (node e v) + 1)) r) fun _ => 0

/-- Lines 21-32. -/
def reconAvg (node : ℕ → ℕ → ℕ) (m : Mesh K) (c : ℕ → K) (e v : ℕ) : K := nodeSums node m c (node e v) / (nodeMult node m (node e v) : K)

/-! ### The methods -/

/-- Data of the methods: `gn_pre_init_data.hpp`, numbers of nodes. -/
structure GradData (K : Type) where
  P : ℕ → ℕ → P2 K
  a : ℕ → ℕ → Interp K
  node : ℕ → ℕ → ℕ

/-- The data are those that lines 23-79 compute. -/
structure Ready (dat : ℕ → EltData K) (m : Mesh K) (g : GradData K) : Prop where
  P : ∀ e ∈ m.elts, pCols (dCol dat m e) = some (g.P e)
  a : ∀ e ∈ m.elts, ∀ f < 3, interp (dat e).elt.tri (nbCoord dat m e) f = some (g.a e f)

/-- Which reconstruction. -/
inductive Recon
  | avg
  | int
  | ls
deriving DecidableEq, Repr

/-- Values at vertices. -/
def recon (dat : ℕ → EltData K) (m : Mesh K) (g : GradData K) : Recon → (ℕ → K) → ℕ → ℕ → K
  | .avg, c => reconAvg g.node m c
  | .int, c => reconInt m g.a c
  | .ls, c => reconLs dat m g.P c

/-- `ProjectLinearToBasis` and `ComputeUgp`. -/
def linRow (v : Env K) (dat : ℕ → EltData K) (lin : ℕ → ℕ → K) : Row K := rowOf v dat fun e => linearToBasis (lin e)

section
variable (v : Env K) (dat : ℕ → EltData K) (m : Mesh K) (g : GradData K) (k : Recon)

/-- `…_lin` of a derivative with Green-Gauss, from the row. -/
def ggLin (F : Row K) (dir : ℕ) : ℕ → ℕ → K := recon dat m g k (gg v dat m F dir)

/-- `…_lin` of a derivative with least squares, from values at vertices. -/
def lsLin (lin : ℕ → ℕ → K) (dir : ℕ) : ℕ → ℕ → K := recon dat m g k (lsqLin m g.P lin dir)

/-- Green-Gauss: `dze_lin`, `du_lin`, `ddu_lin`. -/
def dzeGg (q : State K) (dir : ℕ) : ℕ → ℕ → K := ggLin v dat m g k (rowOf v dat fun e => q e 0) dir
def duGg (q : State K) (r : ℕ) : ℕ → ℕ → K := ggLin v dat m g k (uRow v dat q (r / 2)) (r % 2)
def dduGg (q : State K) (r : ℕ) : ℕ → ℕ → K := ggLin v dat m g k (linRow v dat (duGg v dat m g k q (r / 2))) (r % 2)

/-- Green-Gauss: `dbath_lin`, `ddbath_lin`, `dddbath_lin`. -/
def dbathGg (r : ℕ) : ℕ → ℕ → K := ggLin v dat m g k (bathRow v dat) r
def ddbathGg (r : ℕ) : ℕ → ℕ → K := recon dat m g k (ggHat v dat m (linRow v dat (dbathGg v dat m g k (r / 2))) (r % 2))
/-- `ddbath_lin` in the program on several ranks: `greengauss_dbath_ompi.hpp` lines 45-76. -/
def ddbathGgP (cut : Iface K → Bool) (r : ℕ) : ℕ → ℕ → K := recon dat m g k (ggCut v dat m cut (linRow v dat (dbathGg v dat m g k (r / 2))) (r % 2))
def dddbathGg (r : ℕ) : ℕ → ℕ → K := ggLin v dat m g k (linRow v dat (ddbathGg v dat m g k (r / 2))) (r % 2)

/-- `ze_lin`, `u_lin`, `bath_lin` (`leastsquares_derivatives_serial.hpp` lines 24, 42, `leastsquares_dbath_serial.hpp` line 18). -/
def zeLin (q : State K) (e : ℕ) : ℕ → K := basisToLinear (ndof (dat e).elt.p) (q e 0)
def uLin (q : State K) (r e : ℕ) : ℕ → K :=
  basisToLinear (ndof (dat e).elt.p) ((dat e).elt.applyMinv v.N ((dat e).elt.intPhi v.N (uRow v dat q r e)))
def bathLin (e : ℕ) : ℕ → K := basisToLinear (ndof (dat e).elt.p) (dat e).bath

/-- Least squares: `dze_lin`, `du_lin`, `ddu_lin`. Column-major flattening of a matrix with one row for each direction puts direction `dir` of row `i` in row `2 i + dir`. -/
def dzeLs (q : State K) (dir : ℕ) : ℕ → ℕ → K := lsLin dat m g k (zeLin dat q) dir
def duLs (q : State K) (r : ℕ) : ℕ → ℕ → K := lsLin dat m g k (uLin v dat q (r / 2)) (r % 2)
def dduLs (q : State K) (r : ℕ) : ℕ → ℕ → K := lsLin dat m g k (duLs v dat m g k q (r / 2)) (r % 2)

/-- Least squares: `dbath_lin`, `ddbath_lin`, `dddbath_lin`. -/
def dbathLs (r : ℕ) : ℕ → ℕ → K := lsLin dat m g k (bathLin dat) r
def ddbathLs (r : ℕ) : ℕ → ℕ → K := lsLin dat m g k (dbathLs dat m g k (r / 2)) (r % 2)
def dddbathLs (r : ℕ) : ℕ → ℕ → K := lsLin dat m g k (ddbathLs dat m g k (r / 2)) (r % 2)

end

end Verif.Gn
