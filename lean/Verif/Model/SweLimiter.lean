import Verif.Model.SweJacobian
import Verif.Model.Basis

/-!
# Slope limiter and discontinuity detector

Models `source/problem/SWE/problem_slope_limiter/swe_CS_slope_limiter.hpp` (Cockburn-Shu limiter), `swe_trouble_check.hpp`, the preparation of the
geometric data in `source/problem/SWE/problem_preprocessor/swe_pre_init_data.hpp` lines 253-329 and 346-400, and the matrix `T` of
`source/problem/SWE/problem_data_structure/swe_data_slope_limit.hpp` lines 22-25.

Simplifications: triangles; doubles are elements of an ordered field with `sq` for the square root, so there is no negative zero and no NaN; the
quotients of lines 164, 165 and 184 with denominator zero are given the value they have in IEEE arithmetic. Variables are numbered 0 = ze,
1 = qx, 2 = qy. Arrays over elements are functions of the element number.
-/

namespace Verif.Swe
open Verif.Geometry Verif.Basis Matrix

variable {K : Type} [Field K] [LinearOrder K]

/-- `StatVector<double, 3>`. -/
abbrev V3 (K : Type) := Fin 3 → K

/-! ### Geometric data -/

/-- What the limiter keeps of the geometry of an element. -/
structure SlGeom (K : Type) where
  /-- `bath_at_baryctr`. -/
  bath : K
  median : Fin 3 → P2 K
  alpha : Fin 3 → K × K
  rsq : Fin 3 → K

/-- `swe_pre_init_data.hpp` lines 270-277. -/
def slMedian (sq : K → K) (mid bary : P2 K) : P2 K :=
  let mx := mid.x - bary.x
  let my := mid.y - bary.y
  ⟨mx / hypot sq mx my, my / hypot sq mx my⟩

/-- Lines 288-295: the barycentre mirrored at the midpoint of a boundary. -/
def mirror (mid bary : P2 K) : P2 K := ⟨2 * mid.x - bary.x, 2 * mid.y - bary.y⟩

/-- Lines 309-323: `inverse(A) * b`. -/
def slAlpha (mid bary n1 n2 : P2 K) : K × K :=
  let A : M2 K := ⟨n1.x - bary.x, n2.x - bary.x, n1.y - bary.y, n2.y - bary.y⟩
  let b0 := mid.x - bary.x
  let b1 := mid.y - bary.y
  ((inv A).m00 * b0 + (inv A).m01 * b1, (inv A).m10 * b0 + (inv A).m11 * b1)

/-- Line 324. -/
def slRsq (mid bary : P2 K) : K := (mid.x - bary.x) * (mid.x - bary.x) + (mid.y - bary.y) * (mid.y - bary.y)

/-- Lines 255-329 for a triangle with bathymetry `z` at the vertices; `nb` are the barycentres of the neighbours. -/
def slGeom (sq : K → K) (t : Tri K) (z : ℕ → K) (nb : Fin 3 → P2 K) : SlGeom K where
  bath := z 0 * chiBary 0 + z 1 * chiBary 1 + z 2 * chiBary 2
  median := fun b => slMedian sq (midpoint t b) (barycentre t)
  alpha := fun b => slAlpha (midpoint t b) (barycentre t) (nb b) (nb (b + 1))
  rsq := fun b => slRsq (midpoint t b) (barycentre t)

/-! ### The limiter -/

/-- Line 15 for one variable, as a function of the vertex. -/
def vrtxOf (ndof : ℕ) (u : ℕ → K) : V3 K := fun v => basisToLinear ndof u v

/-- Line 16, `ComputeLinearUbaryctr`. -/
def baryOf (w : V3 K) : K := w 0 * chiBary 0 + w 1 * chiBary 1 + w 2 * chiBary 2

/-- Line 18, `ComputeLinearUmidpts`. -/
def midOf (w : V3 K) (b : Fin 3) : K := w 0 * chiMid 0 b + w 1 * chiMid 1 b + w 2 * chiMid 2 b

/-- Lines 134-142. -/
def minmod (M nu rsq tilda delta : K) : K :=
  if |tilda| ≤ M * rsq then tilda
  else if decide (tilda < 0) = decide (delta < 0) then (if tilda < 0 then -1 else 1) * min |tilda| |nu * delta|
  else 0

/-- Lines 114-145: the column of `delta` for one side. `mid`, `bary`, `n1`, `n2` are the three variables at the midpoint, the barycentre and the
barycentres of the two neighbours. -/
def slDelta (sq : K → K) (g M nu : K) (geo : SlGeom K) (b : Fin 3) (mid bary n1 n2 : V3 K) : V3 K :=
  let h := bary 0 + geo.bath
  let u := bary 1 / h
  let v := bary 2 / h
  let R := matR sq g h u v (geo.median b)
  let I := invR sq g h u v (geo.median b)
  let tilda := fun i => (I *ᵥ mid) i - (I *ᵥ bary) i
  let delta := fun i => (geo.alpha b).1 * ((I *ᵥ n1) i - (I *ᵥ bary) i) + (geo.alpha b).2 * ((I *ᵥ n2) i - (I *ᵥ bary) i)
  R *ᵥ fun i => minmod M nu (geo.rsq b) (tilda i) (delta i)

/-- Lines 164-165: `std::min(1.0, a / b)`; `a / 0` is infinite or not a number, the minimum is then 1. -/
def theta (a b : K) : K := if b = 0 then 1 else min 1 (a / b)

/-- Lines 149-171 for one variable. -/
def balance (d : V3 K) : V3 K :=
  if 0 + d 0 + d 1 + d 2 ≠ 0 then
    let pos := 0 + max 0 (d 0) + max 0 (d 1) + max 0 (d 2)
    let neg := 0 + max 0 (-d 0) + max 0 (-d 1) + max 0 (-d 2)
    fun b => theta neg pos * max 0 (d b) - theta pos neg * max 0 (-d b)
  else d

/-- The matrix `T`. -/
def matT : M3 K := !![-1, 1, 1; 1, -1, 1; 1, 1, -1]

/-- `norm` of a row vector. -/
def norm3 (sq : K → K) (w : V3 K) : K := sq (w 0 * w 0 + w 1 * w 1 + w 2 * w 2)

/-- Line 184: `a / b > 1.0e-12`, with `a / 0` infinite for positive `a` and not a number for `a = 0`. -/
def changed (a b : K) : Bool := if b = 0 then decide (0 < a) else decide (1 / 10 ^ 12 < a / b)

/-- What is known about the neighbours of an element. -/
structure Neigh (K : Type) where
  wet : Fin 3 → Bool
  bary : Fin 3 → V3 K

/-- Lines 88-189 (`slope_limiting_kernel`) after lines 9-20; `q var dof` are the coefficients. -/
def limitElement (sq : K → K) (g M nu : K) (geo : SlGeom K) (ndof : ℕ) (wet : Bool) (nb : Neigh K) (q : Fin 3 → ℕ → K) : Fin 3 → ℕ → K :=
  if wet && nb.wet 0 && nb.wet 1 && nb.wet 2 then
    let lin : Fin 3 → V3 K := fun var => vrtxOf ndof (q var)
    let bary : V3 K := fun var => baryOf (lin var)
    let raw : Fin 3 → V3 K := fun b => slDelta sq g M nu geo b (fun var => midOf (lin var) b) bary (nb.bary b) (nb.bary (b + 1))
    let delta : Fin 3 → V3 K := fun var => balance fun b => raw b var
    let vrtx : Fin 3 → V3 K := fun var v => bary var + (delta var ᵥ* matT) v
    fun var => if changed (norm3 sq (vrtx var - lin var)) (norm3 sq (lin var)) then
        linearToBasis fun v => if v = 0 then vrtx var 0 else if v = 1 then vrtx var 1 else vrtx var 2
      else q var
  else q

/-! ### Data of the neighbours -/

/-- `wet_neigh` and `q_at_baryctr_neigh` of all elements, by element and side. -/
structure SlStore (K : Type) where
  wet : ℕ × ℕ → Bool
  bary : ℕ × ℕ → V3 K

/-- Lines 23-35; the interface joins the sides `a` and `b`. -/
def prepInterface (wet : ℕ → Bool) (bary : ℕ → V3 K) (s : SlStore K) (f : (ℕ × ℕ) × (ℕ × ℕ)) : SlStore K where
  wet := Function.update (Function.update s.wet f.1 (wet f.2.1)) f.2 (wet f.1.1)
  bary := if wet f.1.1 && wet f.2.1 then Function.update (Function.update s.bary f.1 (bary f.2.1)) f.2 (bary f.1.1) else s.bary

/-- Lines 38-46. -/
def prepBoundary (wet : ℕ → Bool) (bary : ℕ → V3 K) (s : SlStore K) (f : ℕ × ℕ) : SlStore K where
  wet := Function.update s.wet f (wet f.1)
  bary := if wet f.1 then Function.update s.bary f (bary f.1) else s.bary

/-- Lines 58-70: the message; `h` are the depths at the Gauss points. -/
def slMessage (wet : Bool) (bary : V3 K) (h : List K) : List K :=
  if wet then 1 :: bary 0 :: bary 1 :: bary 2 :: h else List.replicate (1 + 3 + h.length) 0

/-- Lines 80-85: the first four numbers of the received message. -/
def prepDistributed (s : SlStore K) (f : (ℕ × ℕ) × List K) : SlStore K where
  wet := Function.update s.wet f.1 (decide (f.2.getD 0 0 ≠ 0))
  bary := Function.update s.bary f.1 ![f.2.getD 1 0, f.2.getD 2 0, f.2.getD 3 0]

/-- The faces of a submesh: interfaces, boundaries, and distributed boundaries with the message received. -/
structure SlMesh (K : Type) where
  ints : List ((ℕ × ℕ) × (ℕ × ℕ))
  bnds : List (ℕ × ℕ)
  dist : List ((ℕ × ℕ) × List K)

/-- The loops of `swe_CS_sl_serial.hpp` lines 14-18 and `swe_CS_sl_ompi.hpp` lines 43-47, 65-67. -/
def prepare (m : SlMesh K) (wet : ℕ → Bool) (bary : ℕ → V3 K) (s : SlStore K) : SlStore K :=
  m.dist.foldl prepDistributed (m.bnds.foldl (prepBoundary wet bary) (m.ints.foldl (prepInterface wet bary) s))

/-- The neighbours of element `e` as the kernel reads them. -/
def neighOf (s : SlStore K) (e : ℕ) : Neigh K := ⟨fun b => s.wet (e, b), fun b => s.bary (e, b)⟩

/-- The whole limiter: `q_at_baryctr` is computed for wet elements only (lines 14-19); `old` is its former contents. -/
def limitAll (sq : K → K) (g M nu : K) (geo : ℕ → SlGeom K) (ndof : ℕ → ℕ) (m : SlMesh K) (wet : ℕ → Bool) (old : ℕ → V3 K) (s : SlStore K)
    (q : ℕ → Fin 3 → ℕ → K) (e : ℕ) : Fin 3 → ℕ → K :=
  let bary : ℕ → V3 K := fun e => if wet e then fun var => baryOf (vrtxOf (ndof e) (q e var)) else old e
  limitElement sq g M nu (geo e) (ndof e) (wet e) (neighOf (prepare m wet bary s) e) (q e)

/-! ### The detector: `swe_trouble_check.hpp` -/

/-- The row of the matrix `q_at_gp` with the given number. -/
def qRow (q : Q K) (i : ℕ) : K := if i = 0 then q.ze else if i = 1 then q.qx else q.qy

/-- Lines 29-35 and 68-70: the rows of `q_at_gp` are selected with `GlobalCoord::x` = 0 and `GlobalCoord::y` = 1. -/
def detectQn (n : P2 K) (q : Q K) : K := n.x * qRow q 0 + n.y * qRow q 1

/-- `Integration` over a boundary: weights times values. -/
def integrate (w u : List K) : K := (List.zipWith (· * ·) w u).sum

/-- Lines 37 and 72: is the side taken for an inflow side? -/
def inflowSide (w : List K) (n : List (P2 K)) (q : List (Q K)) : Bool := decide (integrate w (List.zipWith detectQn n q) < 0)

/-- Lines 39-44: differences of the depths at the Gauss points; the other side is numbered in the opposite direction. -/
def hdif (h hex : List K) : List K := List.zipWith (· - ·) h hex.reverse

/-- Lines 38-46 for the inside element of an interface, given the accumulated jump and perimeter. -/
def detectIn (w : List K) (n : List (P2 K)) (q : List (Q K)) (h hex : List K) (len : K) (s : K × K) : K × K :=
  if inflowSide w n q then (s.1 + |integrate w (hdif h hex)|, s.2 + len) else s

/-- Lines 63-84 for a distributed boundary of a wet element: the depths of the other side are those of the message. -/
def detectDist (w : List K) (n : List (P2 K)) (q : List (Q K)) (h msg : List K) (len : K) (s : K × K) : K × K :=
  if inflowSide w n q then (s.1 + |integrate w (hdif h (msg.drop 4))|, s.2 + len) else s

/-- Lines 90-103: is the element a seed? `scale` is the power of the radius, `h` the depths at the vertices. -/
def isSeed (wet : Bool) (scale : K) (I perimeter : K) (h : V3 K) : Bool :=
  wet && decide (perimeter ≠ 0) && decide (1 < I / (scale * perimeter * max (max (max 0 (h 0)) (h 1)) (h 2)))

/-- Lines 107-116: elements are given as pairs of a number and the numbers of the neighbours; one pass marks the elements of the area and
moves on to their neighbours. -/
def spread : ℕ → List (ℕ × List ℕ) → List ℕ → List ℕ
  | 0, _, _ => []
  | n + 1, elts, area =>
    let hit := elts.filter fun e => decide (e.1 ∈ area)
    hit.map Prod.fst ++ spread n elts (hit.flatMap Prod.snd)

/-- The elements with `troubled` set after the six passes. -/
def troubled (elts : List (ℕ × List ℕ)) (seeds : List ℕ) : List ℕ := spread 6 elts seeds

end Verif.Swe
