import Verif.Model.SweStage

/-!
# Derivatives in the dispersive correction

Models `source/problem/Green-Naghdi/discretization_EHDG/kernels_processor/grad_methods/projection_derivatives_serial.hpp` and
`kernels_preprocessor/grad_methods/projection_dbath_serial.hpp`, the methods selected in `gn_definitions.hpp` (`D_PROJECTION`, `B_PROJECTION`).

Simplifications: as in `SweStage`. A row of values at Gauss points is a function of the number of the element and the point in the element, which is
evaluated at the Gauss points of elements and faces. All the loops of these files have the same form, which is defined once, for one row. What an array
holds before its first assignment does not matter, zero is used. Row `2 * i + dir` is the derivative in direction `dir` of row `i`.
-/

namespace Verif.Gn
open Verif.Swe Verif.Geometry Verif.Element

variable {K : Type} [Field K] [LinearOrder K]

/-- Values in elements. -/
abbrev Row (K : Type) := ℕ → P2 K → K

/-- Component of a normal. -/
def nd (n : P2 K) (dir : ℕ) : K := if dir = 0 then n.x else n.y

/-- Average of both sides at Gauss point `gp` of the interior side (lines 71-83, 139-160, 215-229 of the derivatives). -/
def hatIn (v : Env K) (dat : ℕ → EltData K) (F : Row K) (i : Iface K) (gp : ℕ) : K :=
  (F i.ein (facePt (i.rule v dat) i.fin gp) + F i.eex (facePt (i.rule v dat) i.fex ((i.rule v dat).length - gp - 1))) / 2

/-- The same stored at the exterior side. -/
def hatEx (v : Env K) (dat : ℕ → EltData K) (F : Row K) (i : Iface K) (gp : ℕ) : K := hatIn v dat F i ((i.rule v dat).length - gp - 1)

/-- Addition to the right-hand side of one element. -/
def addAt (r : ℕ → ℕ → K) (e : ℕ) (x : ℕ → K) : ℕ → ℕ → K := Function.update r e fun d => r e d + x d

/-- Elements: lines 51-53, 123-127, 201-205. -/
def gradElt (v : Env K) (dat : ℕ → EltData K) (F : Row K) (dir : ℕ) (r : ℕ → ℕ → K) (e : ℕ) : ℕ → ℕ → K :=
  Function.update r e fun d => -(dat e).elt.intDPhi v.N dir (F e) d

/-- Interfaces, levees too: lines 85-90, 162-169, 231-238. -/
def gradInt (v : Env K) (dat : ℕ → EltData K) (F : Row K) (dir : ℕ) (r : ℕ → ℕ → K) (i : Iface K) : ℕ → ℕ → K :=
  let n := normal v.sq (dat i.ein).elt.tri i.fin
  addAt (addAt r i.ein (Elt.intFace v.N (i.rule v dat) i.fin (i.J v dat) fun gp => hatIn v dat F i gp * nd n dir)) i.eex
    (Elt.intFace v.N (i.rule v dat) i.fex (i.J v dat) fun gp => hatEx v dat F i gp * nd ⟨-n.x, -n.y⟩ dir)

/-- Boundaries, with the own value: lines 99-108, 178-188, 246-253. -/
def gradBnd (v : Env K) (dat : ℕ → EltData K) (F : Row K) (dir : ℕ) (r : ℕ → ℕ → K) (b : Bnd K) : ℕ → ℕ → K :=
  let d := dat b.e
  addAt r b.e (Elt.intFace v.N (faceRule v.N d.elt.p) b.f (surfaceJ v.sq d.elt.tri b.f) fun gp =>
    F b.e (facePt (faceRule v.N d.elt.p) b.f gp) * nd (normal v.sq d.elt.tri b.f) dir)

/-- The three loops. -/
def gradRhs (v : Env K) (dat : ℕ → EltData K) (m : Mesh K) (F : Row K) (dir : ℕ) : ℕ → ℕ → K :=
  m.bnds.foldl (gradBnd v dat F dir) (m.ints.foldl (gradInt v dat F dir) (m.elts.foldl (gradElt v dat F dir) fun _ _ => 0))

/-- With `ApplyMinv`: coefficients of the derivative of a row (lines 18-36 of the derivatives, 15-31 of the bathymetry). -/
def grad (v : Env K) (dat : ℕ → EltData K) (m : Mesh K) (F : Row K) (dir : ℕ) (e : ℕ) : ℕ → K :=
  (dat e).elt.applyMinv v.N (gradRhs v dat m F dir e)

/-- `ComputeUgp`. -/
def rowOf (v : Env K) (dat : ℕ → EltData K) (c : ℕ → ℕ → K) : Row K := fun e z => (dat e).elt.value v.N (c e) z

/-- `aux_at_gp`, row `bath`. -/
def bathRow (v : Env K) (dat : ℕ → EltData K) : Row K := rowOf v dat fun e => (dat e).bath

/-- `aux_at_gp`, row `h` (lines 48-49, 67-70, 100-101). -/
def depth (v : Env K) (dat : ℕ → EltData K) (q : State K) : Row K := fun e z => (dat e).elt.value v.N (q e 0) z + bathRow v dat e z

/-- `u_at_gp` (lines 118-121) and `u_hat_at_gp` before averaging. -/
def uRow (v : Env K) (dat : ℕ → EltData K) (q : State K) (k : ℕ) : Row K := fun e z =>
  (dat e).elt.value v.N (q e (if k = 0 then 1 else 2)) z / depth v dat q e z

/-- `state.dze`. -/
def dze (v : Env K) (dat : ℕ → EltData K) (m : Mesh K) (q : State K) (dir : ℕ) : ℕ → ℕ → K := grad v dat m (rowOf v dat fun e => q e 0) dir

/-- `state.du`. -/
def du (v : Env K) (dat : ℕ → EltData K) (m : Mesh K) (q : State K) (k : ℕ) : ℕ → ℕ → K := grad v dat m (uRow v dat q (k / 2)) (k % 2)

/-- `state.ddu`. -/
def ddu (v : Env K) (dat : ℕ → EltData K) (m : Mesh K) (q : State K) (k : ℕ) : ℕ → ℕ → K := grad v dat m (rowOf v dat (du v dat m q (k / 2))) (k % 2)

/-- `state.dbath`. -/
def dbath (v : Env K) (dat : ℕ → EltData K) (m : Mesh K) (k : ℕ) : ℕ → ℕ → K := grad v dat m (bathRow v dat) k

/-- `state.ddbath`. -/
def ddbath (v : Env K) (dat : ℕ → EltData K) (m : Mesh K) (k : ℕ) : ℕ → ℕ → K := grad v dat m (rowOf v dat (dbath v dat m (k / 2))) (k % 2)

/-- `state.dddbath`. -/
def dddbath (v : Env K) (dat : ℕ → EltData K) (m : Mesh K) (k : ℕ) : ℕ → ℕ → K := grad v dat m (rowOf v dat (ddbath v dat m (k / 2))) (k % 2)

end Verif.Gn
