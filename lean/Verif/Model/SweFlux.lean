import Verif.Model.Geometry
import Verif.Model.Basic

/-!
# Shallow water fluxes of the RKDG discretization

Models, one Gauss point at a time, `source/problem/SWE/problem_flux/swe_flux.hpp`,
`source/problem/SWE/discretization_RKDG/numerical_fluxes/rkdg_swe_LLF_flux.hpp`, the boundary conditions, interface specializations and
distributed boundary conditions of `source/problem/SWE/discretization_RKDG`.

Simplifications: doubles are elements of an ordered field `K`, `std::sqrt` is a parameter `sq`, a division by zero gives zero (theorems about
quotients assume wet states). The cosine, π and the ramp of the time-dependent boundaries are parameters.
-/

namespace Verif.Swe
open Verif.Geometry

/-- `SWE::Variables` (`swe_definitions.hpp`): water level and discharge. -/
structure Q (K : Type) where
  ze : K
  qx : K
  qy : K
deriving DecidableEq, Repr

/-- `SWE::Auxiliaries`: bathymetry, depth, spherical projection factor. -/
structure Aux (K : Type) where
  bath : K
  h : K
  sp : K
deriving DecidableEq, Repr

variable {K : Type} [Field K] [LinearOrder K]

instance : Add (Q K) := ⟨fun a b => ⟨a.ze + b.ze, a.qx + b.qx, a.qy + b.qy⟩⟩
instance : Sub (Q K) := ⟨fun a b => ⟨a.ze - b.ze, a.qx - b.qx, a.qy - b.qy⟩⟩
instance : Neg (Q K) := ⟨fun a => ⟨-a.ze, -a.qx, -a.qy⟩⟩
instance : Zero (Q K) := ⟨⟨0, 0, 0⟩⟩
/-- Multiplication by a number. -/
def Q.smul (c : K) (a : Q K) : Q K := ⟨c * a.ze, c * a.qx, c * a.qy⟩

/-! ### `swe_flux.hpp` -/

/-- The term `pe`, lines 14-15. -/
def pe (g : K) (q : Q K) (bath : K) : K := g * (q.ze ^ 2 / 2 + q.ze * bath)

/-- Lines 5-25 (`get_F`), column of `F_x`. -/
def fluxX (g : K) (q : Q K) (a : Aux K) : Q K := ⟨q.qx, q.qx / a.h * q.qx + pe g q a.bath, q.qx / a.h * q.qy⟩

/-- Lines 5-25 (`get_F`), column of `F_y`. -/
def fluxY (g : K) (q : Q K) (a : Aux K) : Q K := ⟨q.qy, q.qx / a.h * q.qy, q.qy / a.h * q.qy + pe g q a.bath⟩

/-- Lines 27-70 (both versions of `get_Fn`). -/
def fluxN (g : K) (q : Q K) (a : Aux K) (n : P2 K) : Q K :=
  let u := q.qx / a.h
  let v := q.qy / a.h
  ⟨q.qx * n.x + q.qy * n.y, (u * q.qx + pe g q a.bath) * n.x + u * q.qy * n.y, u * q.qy * n.x + (v * q.qy + pe g q a.bath) * n.y⟩

/-! ### `rkdg_swe_LLF_flux.hpp` -/

/-- Lines 29-30: the speed bound of one side. -/
def speed (sq : K → K) (g : K) (q : Q K) (bath sp : K) (n : P2 K) : K :=
  |q.qx / (q.ze + bath) * n.x + q.qy / (q.ze + bath) * n.y| + sq (g * (q.ze + bath) * ((n.x * sp) ^ 2 + n.y ^ 2))

/-- Lines 40-47: `Fn_in`. -/
def fnIn (g : K) (q : Q K) (bath sp : K) (n : P2 K) : Q K :=
  let u := q.qx / (q.ze + bath)
  let v := q.qy / (q.ze + bath)
  ⟨sp * q.qx * n.x + q.qy * n.y, sp * (u * q.qx + pe g q bath) * n.x + u * q.qy * n.y,
    sp * (u * q.qy) * n.x + (v * q.qy + pe g q bath) * n.y⟩

/-- Lines 49-56: `Fn_ex`. -/
def fnEx (g : K) (q : Q K) (bath : K) (n : P2 K) : Q K :=
  let u := q.qx / (q.ze + bath)
  let v := q.qy / (q.ze + bath)
  ⟨q.qx * n.x + q.qy * n.y, (u * q.qx + pe g q bath) * n.x + u * q.qy * n.y, u * q.qy * n.x + (v * q.qy + pe g q bath) * n.y⟩

/-- Lines 7-59 (`LLF_flux`). -/
def llf (sq : K → K) (g : K) (qin qex : Q K) (a : Aux K) (n : P2 K) : Q K :=
  let lam := max (speed sq g qin a.bath a.sp n) (speed sq g qex a.bath a.sp n)
  Q.smul (1 / 2) (fnIn g qin a.bath a.sp n + fnEx g qex a.bath n + Q.smul lam (qin - qex))

/-! ### Boundary conditions -/

/-- `rkdg_swe_bc_land.hpp` lines 44-58, 80-91, 96-118 (`GetEX`): the mirror state. -/
def landEx (n : P2 K) (q : Q K) : Q K :=
  let qn := -(q.qx * n.x + q.qy * n.y)
  let qt := q.qx * (-n.y) + q.qy * n.x
  ⟨q.ze, qn * n.x + qt * (-n.y), qn * n.y + qt * n.x⟩

/-- Lines 41-93 (`ComputeFlux`). -/
def landFlux (sq : K → K) (g : K) (q : Q K) (a : Aux K) (n : P2 K) : Q K := llf sq g q (landEx n q) a n

/-- One tidal or flow constituent at a Gauss point: frequency, forcing factor, equilibrium argument, amplitude, phase. -/
structure Constituent (K : Type) where
  freq : K
  ff : K
  eq : K
  amp : K
  phase : K
deriving DecidableEq, Repr

/-- `rkdg_swe_bc_flow.hpp` lines 79-87, `rkdg_swe_bc_tide.hpp` lines 77-85: the accumulation loop. -/
def forcing (cos : K → K) (pi ramp t : K) (cs : List (Constituent K)) : K :=
  cs.foldl (fun s c => s + ramp * c.ff * c.amp * cos (c.freq * t + (c.eq - c.phase) * pi / 180)) 0

/-- `rkdg_swe_bc_flow.hpp` lines 75-104: the exterior state. -/
def flowEx (cos : K → K) (pi ramp t : K) (cs : List (Constituent K)) (n : P2 K) (q : Q K) : Q K :=
  ⟨q.ze, forcing cos pi ramp t cs * n.x, forcing cos pi ramp t cs * n.y⟩

/-- `rkdg_swe_bc_tide.hpp` lines 71-97: the exterior state. -/
def tideEx (cos : K → K) (pi ramp t : K) (cs : List (Constituent K)) (q : Q K) : Q K := ⟨forcing cos pi ramp t cs, q.qx, q.qy⟩

/-! ### Interfaces: `rkdg_swe_is_internal.hpp` -/

/-- What one side of an interface brings: the state and auxiliaries at its Gauss point, its normal, its wet flag. -/
structure Side (K : Type) where
  q : Q K
  aux : Aux K
  n : P2 K
  wet : Bool
deriving DecidableEq, Repr

/-- A threshold of `ComputeFlux`, 1e-12. -/
def fluxTol : K := 1 / 10 ^ 12

/-- Lines 42-98 (`Internal::ComputeFlux`), at one Gauss point: the fluxes of both sides. -/
def internal (sq : K → K) (g : K) (i e : Side K) : Q K × Q K :=
  let f := llf sq g i.q e.q i.aux i.n
  if f.ze > fluxTol then
    if !i.wet then (0, landFlux sq g e.q e.aux e.n)
    else if !e.wet then (f, { llf sq 0 e.q i.q e.aux e.n with ze := -f.ze })
    else (f, -f)
  else if f.ze < -fluxTol then
    if !e.wet then (landFlux sq g i.q i.aux i.n, 0)
    else if !i.wet then ({ llf sq 0 i.q e.q i.aux i.n with ze := -(-f).ze }, -f)
    else (f, -f)
  else (f, -f)

/-! ### Levees: `rkdg_swe_is_levee.hpp` -/

/-- Levee data at a Gauss point. -/
structure LeveeGp (K : Type) where
  H : K
  Csub : K
  Csuper : K
deriving DecidableEq, Repr

/-- `H_tolerance`. -/
def hTol : K := 1 / 100

/-- Lines 119-127, 149-157: the discharge over the crest for the heights above the crest on the higher and the lower side. -/
def overtopping (sq : K → K) (g : K) (l : LeveeGp K) (hi lo : K) : K :=
  if lo > 2 * hi / 3 then l.Csub * lo * sq (2 * g * (hi - lo)) else l.Csuper * (2 * hi / 3) * sq (g * (2 * hi / 3))

/-- Lines 99-173: exterior states of both sides and the gravity of both sides. -/
def leveeEx (sq : K → K) (g : K) (l : LeveeGp K) (i e : Side K) : (Q K × K) × (Q K × K) :=
  let hi := i.q.ze - l.H
  let he := e.q.ze - l.H
  if (hi ≤ hTol ∧ he ≤ hTol) ∨ |hi - he| ≤ hTol then ((landEx i.n i.q, g), (landEx e.n e.q, g))
  else if hi > he then
    let qn := overtopping sq g l hi he
    let qx := qn * i.n.x + 0 * (-i.n.y)
    let qy := qn * i.n.y + 0 * i.n.x
    ((⟨i.q.ze, qx, qy⟩, g), (⟨e.q.ze, qx, qy⟩, if !e.wet then 0 else g))
  else
    let qn := overtopping sq g l he hi
    let qx := qn * e.n.x + 0 * (-e.n.y)
    let qy := qn * e.n.y + 0 * e.n.x
    ((⟨i.q.ze, qx, qy⟩, if !i.wet then 0 else g), (⟨e.q.ze, qx, qy⟩, g))

/-- Lines 67-189 (`Levee::ComputeFlux`), at one Gauss point. -/
def levee (sq : K → K) (g : K) (l : LeveeGp K) (i e : Side K) : Q K × Q K :=
  let x := leveeEx sq g l i e
  (llf sq x.1.2 i.q x.1.1 i.aux i.n, llf sq x.2.2 e.q x.2.1 e.aux e.n)

/-! ### Distributed boundaries -/

/-- `rkdg_swe_proc_dbound.hpp` lines 8-29 (`distributed_boundary_send_kernel`): the message of one side. -/
def encode (wet : Bool) (qs : List (Q K)) : List K := (if wet then 1 else 0) :: qs.flatMap fun q => [q.ze, q.qx, q.qy]

/-- `rkdg_swe_dbc_distributed.hpp` lines 42-57, `rkdg_swe_dbc_distributed_levee.hpp` lines 66-77: the state stored for Gauss point `j` of the
receiving side; gp = ngp - j - 1. Reading beyond the message is undefined behaviour. -/
def decodeQ (ngp : ℕ) (m : List K) (j : ℕ) : Res (Q K) :=
  let gp := ngp - j - 1
  do
    let ze ← idx m (1 + 3 * gp + 0)
    let qx ← idx m (1 + 3 * gp + 1)
    let qy ← idx m (1 + 3 * gp + 2)
    return ⟨ze, qx, qy⟩

/-- `(bool)message[0]`. -/
def decodeWet (m : List K) : Res Bool := do
  let w ← idx m 0
  return decide (w ≠ 0)

/-- `rkdg_swe_dbc_distributed.hpp` lines 63-97, at one Gauss point: the flux of the own side. -/
def distributed (sq : K → K) (g : K) (i : Side K) (qex : Q K) (wetEx : Bool) : Q K :=
  let f := llf sq g i.q qex i.aux i.n
  if f.ze > fluxTol then (if !i.wet then 0 else f)
  else if f.ze < -fluxTol then
    if !wetEx then landFlux sq g i.q i.aux i.n
    else if !i.wet then { llf sq 0 i.q qex i.aux i.n with ze := f.ze }
    else f
  else f

/-- `rkdg_swe_dbc_distributed_levee.hpp` lines 86-156, at one Gauss point. -/
def distributedLevee (sq : K → K) (g : K) (l : LeveeGp K) (i : Side K) (qex : Q K) : Q K :=
  let hi := i.q.ze - l.H
  let he := qex.ze - l.H
  if (hi ≤ hTol ∧ he ≤ hTol) ∨ |hi - he| ≤ hTol then llf sq g i.q (landEx i.n i.q) i.aux i.n
  else if hi > he then
    let qn := overtopping sq g l hi he
    llf sq g i.q ⟨i.q.ze, qn * i.n.x + 0 * (-i.n.y), qn * i.n.y + 0 * i.n.x⟩ i.aux i.n
  else
    let qn := overtopping sq g l he hi
    llf sq (if !i.wet then 0 else g) i.q ⟨i.q.ze, -(qn * i.n.x + 0 * (-i.n.y)), -(qn * i.n.y + 0 * i.n.x)⟩ i.aux i.n

/-- `distributed_boundary_kernel` (`rkdg_swe_proc_dbound.hpp` lines 31-54) with the ordinary distributed condition: flux at Gauss point `j`,
`none` if the element and its neighbour are dry and nothing is computed. -/
def distributedAt (sq : K → K) (g : K) (ngp : ℕ) (i : Side K) (m : List K) (j : ℕ) : Res (Option (Q K)) := do
  let wetEx ← decodeWet m
  if i.wet || wetEx then
    let qex ← decodeQ ngp m j
    return some (distributed sq g i qex wetEx)
  else return none

/-- The same with a distributed levee. -/
def distributedLeveeAt (sq : K → K) (g : K) (ngp : ℕ) (l : LeveeGp K) (i : Side K) (m : List K) (j : ℕ) : Res (Option (Q K)) := do
  let wetEx ← decodeWet m
  if i.wet || wetEx then
    let qex ← decodeQ ngp m j
    return some (distributedLevee sq g l i qex)
  else return none

/-- `interface_kernel` (`rkdg_swe_proc_intface.hpp` lines 6-27): nothing is computed if both elements are dry. -/
def interfaceAt (flux : Side K → Side K → Q K × Q K) (i e : Side K) : Option (Q K × Q K) := if i.wet || e.wet then some (flux i e) else none

end Verif.Swe
