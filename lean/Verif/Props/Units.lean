import Verif.Props.Parallel
import Mathlib.Analysis.SpecialFunctions.Pow.Real

/-!
# The result does not depend on the units of length, height and time (C117)
-/

namespace Verif.Swe.Props
open Verif.Geometry Verif.Geometry.Props Verif.Element Verif.Swe

variable {K : Type} [Field K] [LinearOrder K] [IsStrictOrderedRing K]

/-- A change of units: how many new units an old unit of horizontal length, of height and of velocity is; `k` is the same for cube roots of heights. -/
structure Units (K : Type) [Field K] [LinearOrder K] where
  L : K
  H : K
  V : K
  k : K
  posL : 0 < L
  posH : 0 < H
  posV : 0 < V
  posk : 0 < k

namespace Units

/-- The unit of time. -/
def time (U : Units K) (t : K) : K := U.L / U.V * t
/-- A point in the new units. -/
def pt (U : Units K) (a : P2 K) : P2 K := ⟨U.L * a.x, U.L * a.y⟩
/-- From the new units to the old ones. -/
def back (U : Units K) (a : P2 K) : P2 K := ⟨a.x / U.L, a.y / U.L⟩
/-- Level and discharge. -/
def flow (U : Units K) (q : Q K) : Q K := ⟨U.H * q.ze, U.H * U.V * q.qx, U.H * U.V * q.qy⟩
/-- Fluxes are velocities times that. -/
def flux (U : Units K) (q : Q K) : Q K := ⟨U.V * (U.H * q.ze), U.V * (U.H * U.V * q.qx), U.V * (U.H * U.V * q.qy)⟩
/-- Rates are that by time. -/
def rate (U : Units K) (q : Q K) : Q K := ⟨U.V / U.L * (U.H * q.ze), U.V / U.L * (U.H * U.V * q.qx), U.V / U.L * (U.H * U.V * q.qy)⟩
/-- The unit of each variable. -/
def unit (U : Units K) : Fin 3 → K := ![U.H, U.H * U.V, U.H * U.V]
def rows (U : Units K) (u : Fin 3 → ℕ → K) : Fin 3 → ℕ → K := fun var dof => U.unit var * u var dof
def state (U : Units K) (q : State K) : State K := fun e => U.rows (q e)
/-- Integrals over elements of rates. -/
def totals (U : Units K) (u : Fin 3 → ℕ → K) : Fin 3 → ℕ → K := fun var dof => U.L * U.V * (U.unit var * u var dof)
def rhs (U : Units K) (q : State K) : State K := fun e => U.totals (q e)
/-- Rates. -/
def slope (U : Units K) (q : State K) : State K := fun e var dof => U.V / U.L * (U.unit var * q e var dof)
def tri (U : Units K) (t : Tri K) : Tri K := ⟨U.pt t.a, U.pt t.b, U.pt t.c⟩
/-- Gravity. -/
def grav (U : Units K) (g : K) : K := g * (U.V * U.V / U.H)
/-- An element: bathymetry is a height, `g n²` is an inverse slope times a cube root of a height. Terms which the program does not use are left as they are. -/
def data (U : Units K) (d : EltData K) : EltData K :=
  ⟨⟨d.elt.p, U.tri d.elt.tri⟩, fun k => U.H * d.bath k, ⟨d.src.manning, U.H / U.L * U.k * d.src.gn2, d.src.coriolisF, d.src.tauS, d.src.dpAtm, d.src.dtidePot⟩⟩
/-- Functions and parameters. -/
def env (U : Units K) (v : Env K) : Env K :=
  { v with
    src := { v.src with g := U.grav v.src.g, Cf := U.H / U.L * v.src.Cf }
    sp := fun x => v.sp (U.back x)
    fs := fun t x => U.rate (v.fs (U.V / U.L * t) (U.back x))
    bcq := fun t x => U.flow (v.bcq (U.V / U.L * t) (U.back x)) }
/-- Constituents of a forcing whose unit is `c`. -/
def cons (U : Units K) (c : K) (x : Constituent K) : Constituent K := ⟨U.V / U.L * x.freq, x.ff, x.eq, c * x.amp, x.phase⟩
def weir (U : Units K) (l : LeveeGp K) : LeveeGp K := ⟨U.H * l.H, l.Csub, l.Csuper⟩
def bndKind (U : Units K) : BndKind K → BndKind K
  | .land => .land
  | .tide cs => .tide fun gp => (cs gp).map (U.cons U.H)
  | .flow cs => .flow fun gp => (cs gp).map (U.cons (U.H * U.V))
  | .function => .function
def intKind (U : Units K) : IntKind K → IntKind K
  | .internal => .internal
  | .levee l => .levee fun gp => U.weir (l gp)
def iface (U : Units K) (i : Iface K) : Iface K := { i with kind := U.intKind i.kind }
def bnd (U : Units K) (b : Bnd K) : Bnd K := { b with kind := U.bndKind b.kind }
def mesh (U : Units K) (m : Mesh K) : Mesh K := { m with ints := m.ints.map U.iface, bnds := m.bnds.map U.bnd }
def aux (U : Units K) (a : Aux K) : Aux K := ⟨U.H * a.bath, U.H * a.h, a.sp⟩
def side (U : Units K) (a : Side K) : Side K := ⟨U.flow a.q, U.aux a.aux, a.n, a.wet⟩
def wd (U : Units K) (w : WdParams K) : WdParams K :=
  ⟨U.H * w.ho, U.H * w.thr, fun e k => U.H * w.bath e k, fun e => U.H * w.bathMin e, fun e k => U.H * w.temp e k⟩

end Units

/-- Square and cube roots know what units are. -/
structure Scales (U : Units K) (sq cb : K → K) : Prop where
  sq : ∀ a x, 0 < a → sq (a * a * x) = a * sq x
  cb : ∀ x, cb (U.H * x) = U.k * cb x

variable (U : Units K)

/-! ### Geometry -/

omit [IsStrictOrderedRing K] in
theorem back_scaled (a : P2 K) : U.back (U.pt a) = a := by
  have := U.posL.ne'
  cases a
  simp only [Units.back, Units.pt, P2.mk.injEq]
  constructor <;> field_simp

omit [IsStrictOrderedRing K] in
theorem vertex_scaled (t : Tri K) (k : ℕ) : vertex (U.tri t) k = U.pt (vertex t k) := by
  unfold vertex
  split
  · rfl
  · split <;> rfl

omit [IsStrictOrderedRing K] in
theorem det_scaled (t : Tri K) : jdet (U.tri t) = U.L * U.L * jdet t := by
  simp only [jdet, Geometry.det, jac, Units.tri, Units.pt]
  ring

theorem area_scaled (t : Tri K) : |jdet (U.tri t)| = U.L * U.L * |jdet t| := by
  rw [det_scaled, abs_mul, abs_of_pos (mul_pos U.posL U.posL)]

omit [IsStrictOrderedRing K] in
theorem hypot_scaled {cb sq : K → K} (hS : Scales U sq cb) {a : K} (ha : 0 < a) (x y : K) : hypot sq (a * x) (a * y) = a * hypot sq x y := by
  unfold hypot
  rw [← hS.sq _ _ ha]
  congr 1
  ring

omit [IsStrictOrderedRing K] in
theorem J_scaled {cb sq : K → K} (hS : Scales U sq cb) (t : Tri K) (k : ℕ) : surfaceJ sq (U.tri t) k = U.L * surfaceJ sq t k := by
  unfold surfaceJ
  rw [vertex_scaled, vertex_scaled, ← mul_div_assoc, ← hS.sq _ _ U.posL]
  congr 2
  simp only [Units.pt]
  ring

theorem normal_scaled {cb sq : K → K} (hS : Scales U sq cb) (t : Tri K) (k : ℕ) : normal sq (U.tri t) k = normal sq t k := by
  have hL := U.posL.ne'
  simp only [normal]
  rw [area_scaled, det_scaled, mul_div_mul_left _ _ (mul_ne_zero hL hL), vertex_scaled, vertex_scaled]
  simp only [Units.pt, ← mul_sub]
  rw [hypot_scaled U hS U.posL]
  generalize hypot sq _ _ = l
  generalize jdet t / |jdet t| = c
  rw [mul_left_comm, mul_div_mul_left _ _ hL, mul_left_comm, mul_div_mul_left _ _ hL]

omit [IsStrictOrderedRing K] in
theorem jinv_scaled (t : Tri K) (i j : ℕ) : Element.entry (jinv (U.tri t)) i j = U.L⁻¹ * Element.entry (jinv t) i j := by
  have hL := U.posL.ne'
  have hd := det_scaled U t
  unfold jdet at hd
  have key : ∀ x d : K, U.L * x / (U.L * U.L * d) = U.L⁻¹ * (x / d) := by
    intro x d
    rw [mul_assoc, mul_div_mul_left _ _ hL, div_mul_eq_div_div_swap, div_eq_inv_mul]
  unfold jinv Geometry.inv
  rw [hd]
  unfold Element.entry
  have h00 : (jac (U.tri t)).m00 = U.L * (jac t).m00 := by simp only [jac, Units.tri, Units.pt]; ring
  have h01 : (jac (U.tri t)).m01 = U.L * (jac t).m01 := by simp only [jac, Units.tri, Units.pt]; ring
  have h10 : (jac (U.tri t)).m10 = U.L * (jac t).m10 := by simp only [jac, Units.tri, Units.pt]; ring
  have h11 : (jac (U.tri t)).m11 = U.L * (jac t).m11 := by simp only [jac, Units.tri, Units.pt]; ring
  simp only [h00, h01, h10, h11, ← mul_neg, key]
  split <;> split <;> rfl

omit [IsStrictOrderedRing K] in
theorem global_scaled (t : Tri K) (z : P2 K) : localToGlobal (U.tri t) z = U.pt (localToGlobal t z) := by
  simp only [localToGlobal, Units.tri, Units.pt, P2.mk.injEq]
  constructor <;> ring

/-! ### Fluxes -/

omit [IsStrictOrderedRing K] in
theorem depth_scaled (x h : K) : U.H * U.V * x / (U.H * h) = U.V * (x / h) := by
  rw [mul_assoc, mul_div_mul_left _ _ U.posH.ne', mul_div_assoc]

theorem speed_scaled {cb sq : K → K} (hS : Scales U sq cb) (g : K) (q : Q K) (b sp : K) (n : P2 K) :
    speed sq (U.grav g) (U.flow q) (U.H * b) sp n = U.V * speed sq g q b sp n := by
  have hH := U.posH.ne'
  simp only [speed, Units.flow, ← mul_add U.H, depth_scaled]
  rw [mul_add U.V, ← hS.sq _ _ U.posV]
  congr 1
  · rw [← abs_of_pos U.posV, ← abs_mul, abs_of_pos U.posV]; congr 1; ring
  · congr 1
    unfold Units.grav
    field_simp

omit [IsStrictOrderedRing K] in
theorem pe_scaled (g : K) (q : Q K) (b : K) : pe (U.grav g) (U.flow q) (U.H * b) = U.V * (U.H * U.V) * pe g q b := by
  have hH := U.posH.ne'
  simp only [pe, Units.grav, Units.flow]
  generalize q.ze = z
  field_simp

omit [IsStrictOrderedRing K] in
theorem in_scaled (g : K) (q : Q K) (b sp : K) (n : P2 K) : fnIn (U.grav g) (U.flow q) (U.H * b) sp n = U.flux (fnIn g q b sp n) := by
  have hf : ∀ q, (U.flow q).ze = U.H * q.ze ∧ (U.flow q).qx = U.H * U.V * q.qx ∧ (U.flow q).qy = U.H * U.V * q.qy := fun _ => ⟨rfl, rfl, rfl⟩
  simp only [fnIn, pe_scaled, hf, ← mul_add U.H, depth_scaled, Units.flux, Q.mk.injEq]
  refine ⟨?_, ?_, ?_⟩ <;> ring

omit [IsStrictOrderedRing K] in
theorem ex_scaled (g : K) (q : Q K) (b : K) (n : P2 K) : fnEx (U.grav g) (U.flow q) (U.H * b) n = U.flux (fnEx g q b n) := by
  have hf : ∀ q, (U.flow q).ze = U.H * q.ze ∧ (U.flow q).qx = U.H * U.V * q.qx ∧ (U.flow q).qy = U.H * U.V * q.qy := fun _ => ⟨rfl, rfl, rfl⟩
  simp only [fnEx, pe_scaled, hf, ← mul_add U.H, depth_scaled, Units.flux, Q.mk.injEq]
  refine ⟨?_, ?_, ?_⟩ <;> ring

theorem llf_scaled {cb sq : K → K} (hS : Scales U sq cb) (g : K) (q q' : Q K) (a : Aux K) (n : P2 K) :
    llf sq (U.grav g) (U.flow q) (U.flow q') (U.aux a) n = U.flux (llf sq g q q' a n) := by
  have hb : (U.aux a).bath = U.H * a.bath := rfl
  have hp : (U.aux a).sp = a.sp := rfl
  simp only [llf, hb, hp, speed_scaled U hS, in_scaled, ex_scaled, ← mul_max_of_nonneg _ _ U.posV.le]
  generalize max (speed sq g q a.bath a.sp n) (speed sq g q' a.bath a.sp n) = lam
  generalize fnIn g q a.bath a.sp n = F
  generalize fnEx g q' a.bath n = G
  show Q.mk _ _ _ = Q.mk _ _ _
  simp only [Q.mk.injEq]
  refine ⟨?_, ?_, ?_⟩
  · show 1 / 2 * (U.V * (U.H * F.ze) + U.V * (U.H * G.ze) + U.V * lam * (U.H * q.ze - U.H * q'.ze)) = U.V * (U.H * (1 / 2 * (F.ze + G.ze + lam * (q.ze - q'.ze))))
    ring
  · show 1 / 2 * (U.V * (U.H * U.V * F.qx) + U.V * (U.H * U.V * G.qx) + U.V * lam * (U.H * U.V * q.qx - U.H * U.V * q'.qx)) =
      U.V * (U.H * U.V * (1 / 2 * (F.qx + G.qx + lam * (q.qx - q'.qx))))
    ring
  · show 1 / 2 * (U.V * (U.H * U.V * F.qy) + U.V * (U.H * U.V * G.qy) + U.V * lam * (U.H * U.V * q.qy - U.H * U.V * q'.qy)) =
      U.V * (U.H * U.V * (1 / 2 * (F.qy + G.qy + lam * (q.qy - q'.qy))))
    ring

omit [IsStrictOrderedRing K] in
theorem land_scaled (q : Q K) (n : P2 K) : landEx n (U.flow q) = U.flow (landEx n q) := by
  simp only [landEx, Units.flow, Q.mk.injEq]
  refine ⟨trivial, ?_, ?_⟩ <;> ring

theorem landFlux_scaled {cb sq : K → K} (hS : Scales U sq cb) (g : K) (q : Q K) (a : Aux K) (n : P2 K) :
    landFlux sq (U.grav g) (U.flow q) (U.aux a) n = U.flux (landFlux sq g q a n) := by
  rw [landFlux, land_scaled, llf_scaled U hS, landFlux]

omit [IsStrictOrderedRing K] in
theorem flux_neg (q : Q K) : -U.flux q = U.flux (-q) := by
  show Q.mk (-(U.V * (U.H * q.ze))) (-(U.V * (U.H * U.V * q.qx))) (-(U.V * (U.H * U.V * q.qy))) = Q.mk (U.V * (U.H * -q.ze)) (U.V * (U.H * U.V * -q.qx)) (U.V * (U.H * U.V * -q.qy))
  simp only [mul_neg]

omit [IsStrictOrderedRing K] in
theorem flux_zero : U.flux 0 = 0 := by
  show Q.mk (U.V * (U.H * 0)) (U.V * (U.H * U.V * 0)) (U.V * (U.H * U.V * 0)) = Q.mk 0 0 0
  simp

/-- A number is on the same side of a tolerance, which has no unit in the program, in both units. -/
def Plain (tol c x : K) : Prop := (tol < c * x ↔ tol < x) ∧ (c * x < -tol ↔ x < -tol)

/-- The tolerance of the flux is not decisive. -/
def ClearFlux (U : Units K) (f : Q K) (i e : Side K) : Prop := (i.wet = true ∧ e.wet = true) ∨ Plain fluxTol (U.V * U.H) f.ze

theorem internal_scaled {cb sq : K → K} (hS : Scales U sq cb) (g : K) (i e : Side K) (hc : ClearFlux U (llf sq g i.q e.q i.aux i.n) i e) :
    internal sq (U.grav g) (U.side i) (U.side e) = Prod.map U.flux U.flux (internal sq g i e) := by
  have hz : ∀ q : Q K, (U.flux q).ze = U.V * U.H * q.ze := fun q => (mul_assoc _ _ _).symm
  have hn : ∀ q : Q K, (-q).ze = -q.ze := fun _ => rfl
  have h0 : ∀ q q' : Q K, ∀ (a : Aux K) n, llf sq 0 (U.flow q) (U.flow q') (U.aux a) n = U.flux (llf sq 0 q q' a n) := by
    intro q q' a n
    rw [← llf_scaled U hS]
    congr 1
    simp [Units.grav]
  simp only [internal, Units.side, llf_scaled U hS, landFlux_scaled U hS, h0, flux_neg, hz, gt_iff_lt]
  generalize llf sq g i.q e.q i.aux i.n = f at hc ⊢
  have hw : ∀ (q : Q K) (z : K), { U.flux q with ze := U.V * U.H * z } = U.flux { q with ze := z } := by
    intro q z
    simp only [Units.flux, Q.mk.injEq, and_true]
    ring
  have hw' : ∀ (q : Q K) (z : K), { U.flux q with ze := -(U.V * U.H * z) } = U.flux { q with ze := -z } := by
    intro q z
    rw [← mul_neg]
    exact hw q _
  rcases hc with ⟨h1, h2⟩ | hp
  · simp only [h1, h2, Bool.not_true, Bool.false_eq_true, if_false, Prod.map]
    split <;> split <;> simp
    all_goals split <;> rfl
  · simp only [hp.1, hp.2]
    split
    · split
      · simp only [Prod.map, flux_zero]
      · split
        · simp only [Prod.map, hw']
        · rfl
    · split
      · split
        · simp only [Prod.map, flux_zero]
        · split
          · simp only [Prod.map, hn, neg_neg, mul_neg]
            exact congrArg (·, _) (hw _ _)
          · rfl
      · rfl

theorem overtopping_scaled {cb sq : K → K} (hS : Scales U sq cb) (g : K) (l : LeveeGp K) (x y : K) :
    overtopping sq (U.grav g) (U.weir l) (U.H * x) (U.H * y) = U.H * U.V * overtopping sq g l x y := by
  have hH := U.posH.ne'
  unfold overtopping
  have hc : (U.H * y > 2 * (U.H * x) / 3) = (y > 2 * x / 3) := by
    have : 2 * (U.H * x) / 3 = U.H * (2 * x / 3) := by ring
    rw [this, gt_iff_lt, gt_iff_lt, mul_lt_mul_iff_right₀ U.posH]
  have h1 : 2 * U.grav g * (U.H * x - U.H * y) = U.V * U.V * (2 * g * (x - y)) := by
    unfold Units.grav
    field_simp
  have h2 : U.grav g * (2 * (U.H * x) / 3) = U.V * U.V * (g * (2 * x / 3)) := by
    unfold Units.grav
    field_simp
  simp only [hc, h1, h2, hS.sq _ _ U.posV, Units.weir]
  split <;> ring

/-- The tolerance of heights over a weir is not decisive. -/
def ClearWeir (U : Units K) (l : LeveeGp K) (i e : Side K) : Prop :=
  ((U.H * (i.q.ze - l.H) ≤ hTol ∧ U.H * (e.q.ze - l.H) ≤ hTol) ∨ U.H * |(i.q.ze - l.H) - (e.q.ze - l.H)| ≤ hTol) ↔
    ((i.q.ze - l.H ≤ hTol ∧ e.q.ze - l.H ≤ hTol) ∨ |(i.q.ze - l.H) - (e.q.ze - l.H)| ≤ hTol)

theorem levee_scaled {cb sq : K → K} (hS : Scales U sq cb) (g : K) (l : LeveeGp K) (i e : Side K) (hc : ClearWeir U l i e) :
    levee sq (U.grav g) (U.weir l) (U.side i) (U.side e) = Prod.map U.flux U.flux (levee sq g l i e) := by
  have hg : ∀ (b : Bool) (g : K), (if b then 0 else U.grav g) = U.grav (if b then 0 else g) := by
    intro b g
    cases b
    · rfl
    · simp [Units.grav]
  have hex : leveeEx sq (U.grav g) (U.weir l) (U.side i) (U.side e) = Prod.map (Prod.map U.flow U.grav) (Prod.map U.flow U.grav) (leveeEx sq g l i e) := by
    have hz : ∀ q : Q K, (U.flow q).ze = U.H * q.ze := fun _ => rfl
    have hl : (U.weir l).H = U.H * l.H := rfl
    have ha : |U.H * (i.q.ze - l.H) - U.H * (e.q.ze - l.H)| = U.H * |(i.q.ze - l.H) - (e.q.ze - l.H)| := by
      rw [← mul_sub, abs_mul, abs_of_pos U.posH]
    simp only [leveeEx, Units.side, hz, hl, ← mul_sub U.H, land_scaled]
    simp only [← mul_sub U.H] at ha
    unfold ClearWeir at hc
    rw [show |U.H * (i.q.ze - l.H - (e.q.ze - l.H))| = U.H * |(i.q.ze - l.H) - (e.q.ze - l.H)| from ha]
    simp only [hc]
    split
    · rfl
    · simp only [gt_iff_lt, mul_lt_mul_iff_right₀ U.posH, overtopping_scaled U hS]
      split
      · simp only [Prod.map, Units.flow, Prod.mk.injEq, Q.mk.injEq]
        refine ⟨⟨⟨trivial, ?_, ?_⟩, trivial⟩, ⟨trivial, ?_, ?_⟩, hg _ _⟩ <;> ring
      · simp only [Prod.map, Units.flow, Prod.mk.injEq, Q.mk.injEq]
        refine ⟨⟨⟨trivial, ?_, ?_⟩, hg _ _⟩, ⟨trivial, ?_, ?_⟩, trivial⟩ <;> ring
  simp only [levee, hex]
  simp only [Prod.map, Units.side, Prod.mk.injEq]
  exact ⟨llf_scaled U hS _ _ _ _ _, llf_scaled U hS _ _ _ _ _⟩

omit [IsStrictOrderedRing K] in
theorem forcing_scaled (cos : K → K) (pi ramp t c : K) (cs : List (Constituent K)) :
    forcing cos pi ramp (U.time t) (cs.map (U.cons c)) = c * forcing cos pi ramp t cs := by
  have hL := U.posL.ne'
  have hV := U.posV.ne'
  have key : ∀ (cs : List (Constituent K)) (a : K), (cs.map (U.cons c)).foldl (fun s x => s + ramp * x.ff * x.amp * cos (x.freq * U.time t + (x.eq - x.phase) * pi / 180)) (c * a) =
      c * cs.foldl (fun s x => s + ramp * x.ff * x.amp * cos (x.freq * t + (x.eq - x.phase) * pi / 180)) a := by
    intro cs
    induction cs with
    | nil => intro a; rfl
    | cons x cs ih =>
      intro a
      have : U.V / U.L * x.freq * U.time t = x.freq * t := by
        unfold Units.time
        field_simp
      simp only [List.map_cons, List.foldl_cons]
      rw [← ih]
      congr 1
      simp only [Units.cons, this]
      ring
  have := key cs 0
  rw [mul_zero] at this
  exact this

theorem bnd_scaled (v : Env K) (hS : Scales U v.sq v.cb) (t ramp : K) (k : BndKind K) (gp : ℕ) (q : Q K) (a : Aux K) (n x : P2 K) :
    bndFlux (U.env v) (U.time t) ramp (U.bndKind k) gp (U.flow q) (U.aux a) n (U.pt x) = U.flux (bndFlux v t ramp k gp q a n x) := by
  have hL := U.posL.ne'
  have hV := U.posV.ne'
  cases k with
  | land => exact landFlux_scaled U hS _ _ _ _
  | tide cs =>
    have : tideEx v.cos v.pi ramp (U.time t) ((cs gp).map (U.cons U.H)) (U.flow q) = U.flow (tideEx v.cos v.pi ramp t (cs gp) q) := by
      simp only [tideEx, Units.flow, forcing_scaled]
    show llf v.sq (U.grav v.src.g) (U.flow q) (tideEx v.cos v.pi ramp (U.time t) ((cs gp).map (U.cons U.H)) (U.flow q)) (U.aux a) n = _
    rw [this]
    exact llf_scaled U hS _ _ _ _ _
  | flow cs =>
    have : flowEx v.cos v.pi ramp (U.time t) ((cs gp).map (U.cons (U.H * U.V))) n (U.flow q) = U.flow (flowEx v.cos v.pi ramp t (cs gp) n q) := by
      simp only [flowEx, Units.flow, forcing_scaled, Q.mk.injEq]
      refine ⟨trivial, ?_, ?_⟩ <;> ring
    show llf v.sq (U.grav v.src.g) (U.flow q) (flowEx v.cos v.pi ramp (U.time t) ((cs gp).map (U.cons (U.H * U.V))) n (U.flow q)) (U.aux a) n = _
    rw [this]
    exact llf_scaled U hS _ _ _ _ _
  | function =>
    have ht : U.V / U.L * U.time t = t := by
      unfold Units.time
      field_simp
    show llf v.sq (U.grav v.src.g) (U.flow q) (U.flow (v.bcq (U.V / U.L * U.time t) (U.back (U.pt x)))) (U.aux a) n = _
    rw [back_scaled, ht]
    exact llf_scaled U hS _ _ _ _ _

theorem source_scaled (v : Env K) (hS : Scales U v.sq v.cb) (d : EltData K) (fs q : Q K) (a : Aux K) (db : P2 K) :
    getSource v.sq v.cb (U.env v).src (U.data d).src (U.rate fs) (U.flow q) (U.aux a) ⟨U.H / U.L * db.x, U.H / U.L * db.y⟩ =
      U.rate (getSource v.sq v.cb v.src d.src fs q a db) := by
  have hL := U.posL.ne'
  have hH := U.posH.ne'
  have hf : frictionStress v.sq v.cb (U.env v).src (U.data d).src (U.flow q) (U.aux a).h = U.V / U.L * frictionStress v.sq v.cb v.src d.src q a.h := by
    unfold frictionStress
    have h1 : hypot v.sq ((U.flow q).qx / (U.aux a).h) ((U.flow q).qy / (U.aux a).h) = U.V * hypot v.sq (q.qx / a.h) (q.qy / a.h) := by
      rw [← hypot_scaled U hS U.posV]
      congr 1 <;> exact depth_scaled U _ _
    have h2 : frictionCf v.cb (U.env v).src (U.data d).src (U.aux a).h = U.H / U.L * frictionCf v.cb v.src d.src a.h := by
      have hk := U.posk.ne'
      have h3 : U.H / U.L * U.k * d.src.gn2 / v.cb (U.H * a.h) = U.H / U.L * (d.src.gn2 / v.cb a.h) := by
        rw [hS.cb, mul_comm (U.H / U.L), mul_assoc, mul_div_mul_left _ _ hk, mul_div_assoc]
      have h4 : ∀ x y : K, (U.H / U.L * x < U.H / U.L * y) = (x < y) := fun x y => by
        rw [mul_lt_mul_iff_right₀ (div_pos U.posH U.posL)]
      simp only [frictionCf, Units.env, Units.data, Units.aux, h3, h4]
      split
      · split <;> rfl
      · rfl
    rw [h1, h2]
    show U.H / U.L * _ * (U.V * _) / (U.H * a.h) = _
    generalize frictionCf v.cb v.src d.src a.h = c
    generalize hypot v.sq (q.qx / a.h) (q.qy / a.h) = s
    rw [show U.H / U.L * c * (U.V * s) = U.H * (U.V / U.L * (c * s)) by ring, mul_div_mul_left _ _ hH, mul_div_assoc]
  simp only [getSource, hf]
  have e0 : (⟨0, (U.env v).src.g * (U.H / U.L * db.x * (U.flow q).ze), (U.env v).src.g * (U.H / U.L * db.y * (U.flow q).ze)⟩ : Q K) =
      U.rate ⟨0, v.src.g * (db.x * q.ze), v.src.g * (db.y * q.ze)⟩ := by
    simp only [Units.rate, Units.env, Units.grav, Units.flow, Q.mk.injEq]
    refine ⟨by ring, ?_, ?_⟩ <;> field_simp
  have e1 : ∀ r : Q K, U.rate r + U.rate fs = U.rate (r + fs) := by
    intro r
    show Q.mk _ _ _ = Q.mk _ _ _
    simp only [Q.mk.injEq]
    refine ⟨?_, ?_, ?_⟩
    · show U.V / U.L * (U.H * r.ze) + U.V / U.L * (U.H * fs.ze) = U.V / U.L * (U.H * (r.ze + fs.ze))
      ring
    · show U.V / U.L * (U.H * U.V * r.qx) + U.V / U.L * (U.H * U.V * fs.qx) = U.V / U.L * (U.H * U.V * (r.qx + fs.qx))
      ring
    · show U.V / U.L * (U.H * U.V * r.qy) + U.V / U.L * (U.H * U.V * fs.qy) = U.V / U.L * (U.H * U.V * (r.qy + fs.qy))
      ring
  have e2 : (U.env v).src.functionSource = v.src.functionSource := rfl
  have e3 : (U.env v).src.bottomFriction = v.src.bottomFriction := rfl
  rw [e0, e1, e2, e3, ← apply_ite U.rate]
  generalize (if v.src.functionSource then _ else _ : Q K) = r
  generalize frictionStress v.sq v.cb v.src d.src q a.h = k
  split
  · simp only [Units.rate, Units.flow, Q.mk.injEq]
    refine ⟨trivial, ?_, ?_⟩ <;> ring
  · rfl

/-! ### Kernels -/

omit [LinearOrder K] [IsStrictOrderedRing K] in
theorem sum_scaled {α : Type} (l : List α) (c : K) (A B : α → K) (h : ∀ x ∈ l, A x = c * B x) : (l.map A).sum = c * (l.map B).sum := by
  induction l with
  | nil => simp
  | cons x l ih =>
    simp only [List.map_cons, List.sum_cons, h x List.mem_cons_self, ih fun y hy => h y (List.mem_cons_of_mem _ hy)]
    ring

omit [IsStrictOrderedRing K] in
theorem comp_flow (q : Q K) (var : Fin 3) : Swe.comp (U.flow q) var = U.unit var * Swe.comp q var := by fin_cases var <;> rfl
omit [IsStrictOrderedRing K] in
theorem comp_flux (q : Q K) (var : Fin 3) : Swe.comp (U.flux q) var = U.V * (U.unit var * Swe.comp q var) := by fin_cases var <;> rfl
omit [IsStrictOrderedRing K] in
theorem comp_rate (q : Q K) (var : Fin 3) : Swe.comp (U.rate q) var = U.V / U.L * (U.unit var * Swe.comp q var) := by fin_cases var <;> rfl

omit [LinearOrder K] [IsStrictOrderedRing K] in
theorem value_scaled (N : Numerics K) (e : Elt K) (c : K) (u : ℕ → K) (z : P2 K) : e.value N (fun d => c * u d) z = c * e.value N u z :=
  sum_scaled _ c _ _ fun _ _ => by ring

omit [IsStrictOrderedRing K] in
theorem qAt_scaled (N : Numerics K) (d : EltData K) (u : Fin 3 → ℕ → K) (z : P2 K) : qAt N (U.data d).elt (U.rows u) z = U.flow (qAt N d.elt u z) := by
  show Q.mk (d.elt.value N (fun k => U.H * u 0 k) z) (d.elt.value N (fun k => U.H * U.V * u 1 k) z) (d.elt.value N (fun k => U.H * U.V * u 2 k) z) = Q.mk _ _ _
  simp only [value_scaled, qAt]

omit [IsStrictOrderedRing K] in
theorem auxAt_scaled (v : Env K) (d : EltData K) (q : Q K) (z x : P2 K) : Swe.auxAt (U.env v) (U.data d) (U.flow q) z (U.pt x) = U.aux (Swe.auxAt v d q z x) := by
  have hb : (U.data d).elt.value v.N (U.data d).bath z = U.H * d.elt.value v.N d.bath z := value_scaled _ _ _ _ _
  show Aux.mk ((U.data d).elt.value v.N (U.data d).bath z) (U.H * q.ze + (U.data d).elt.value v.N (U.data d).bath z) (v.sp (U.back (U.pt x))) = Aux.mk _ _ _
  rw [hb, back_scaled, ← mul_add]
  rfl

omit [IsStrictOrderedRing K] in
theorem fluxX_scaled (g : K) (q : Q K) (a : Aux K) : fluxX (U.grav g) (U.flow q) (U.aux a) = U.flux (fluxX g q a) := by
  have hf : ∀ q, (U.flow q).qx = U.H * U.V * q.qx ∧ (U.flow q).qy = U.H * U.V * q.qy := fun _ => ⟨rfl, rfl⟩
  have ha : (U.aux a).bath = U.H * a.bath ∧ (U.aux a).h = U.H * a.h := ⟨rfl, rfl⟩
  simp only [fluxX, ha, pe_scaled, hf, depth_scaled, Units.flux, Q.mk.injEq]
  refine ⟨?_, ?_, ?_⟩ <;> ring

omit [IsStrictOrderedRing K] in
theorem fluxY_scaled (g : K) (q : Q K) (a : Aux K) : fluxY (U.grav g) (U.flow q) (U.aux a) = U.flux (fluxY g q a) := by
  have hf : ∀ q, (U.flow q).qx = U.H * U.V * q.qx ∧ (U.flow q).qy = U.H * U.V * q.qy := fun _ => ⟨rfl, rfl⟩
  have ha : (U.aux a).bath = U.H * a.bath ∧ (U.aux a).h = U.H * a.h := ⟨rfl, rfl⟩
  simp only [fluxY, ha, pe_scaled, hf, depth_scaled, Units.flux, Q.mk.injEq]
  refine ⟨?_, ?_, ?_⟩ <;> ring

theorem intPhi_scaled (N : Numerics K) (d : EltData K) (c : K) (f f' : P2 K → K) (h : ∀ z, f' z = c * f z) (dof : ℕ) :
    (U.data d).elt.intPhi N f' dof = U.L * U.L * c * d.elt.intPhi N f dof := by
  have hd : |jdet (U.data d).elt.tri| = U.L * U.L * |jdet d.elt.tri| := area_scaled U _
  refine sum_scaled _ _ _ _ fun x _ => ?_
  rw [h, hd]
  ring

theorem intDPhi_scaled (N : Numerics K) (d : EltData K) (dir : ℕ) (c : K) (f f' : P2 K → K) (h : ∀ z, f' z = c * f z) (dof : ℕ) :
    (U.data d).elt.intDPhi N dir f' dof = U.L * c * d.elt.intDPhi N dir f dof := by
  have hd : |jdet (U.data d).elt.tri| = U.L * U.L * |jdet d.elt.tri| := area_scaled U _
  have hj : ∀ i, Element.entry (jinv (U.data d).elt.tri) i dir = U.L⁻¹ * Element.entry (jinv d.elt.tri) i dir := fun i => jinv_scaled U _ i dir
  have hL := U.posL.ne'
  refine sum_scaled _ _ _ _ fun x _ => ?_
  rw [h, hd, hj, hj]
  simp only [zero_add]
  field_simp

omit [IsStrictOrderedRing K] in
theorem intFace_scaled (N : Numerics K) (r : List (K × K)) (f : ℕ) (J c : K) (F F' : ℕ → K) (h : ∀ gp < r.length, F' gp = c * F gp) (dof : ℕ) :
    Elt.intFace N r f (U.L * J) F' dof = U.L * c * Elt.intFace N r f J F dof := by
  refine sum_scaled _ _ _ _ fun x hx => ?_
  rw [h x (List.mem_range.1 hx)]
  ring

theorem volume_scaled (v : Env K) (d : EltData K) (u : Fin 3 → ℕ → K) :
    volumeTerm (U.env v) (U.data d) (U.rows u) = U.totals (volumeTerm v d u) := by
  funext var dof
  simp only [volumeTerm]
  have hq : ∀ z, qAt (U.env v).N (U.data d).elt (U.rows u) z = U.flow (qAt v.N d.elt u z) := qAt_scaled U _ _ _
  have hg : ∀ z, localToGlobal (U.data d).elt.tri z = U.pt (localToGlobal d.elt.tri z) := global_scaled U _
  have hgr : (U.env v).src.g = U.grav v.src.g := rfl
  have hsp : ∀ a : Aux K, (U.aux a).sp = a.sp := fun _ => rfl
  simp only [hq, hg, auxAt_scaled, hgr, fluxX_scaled, fluxY_scaled, comp_flux, hsp]
  show (U.data d).elt.intDPhi v.N 0 _ dof + (U.data d).elt.intDPhi v.N 1 _ dof = _
  rw [intDPhi_scaled U v.N d 0 (U.V * U.unit var) (fun z => (Swe.auxAt v d (qAt v.N d.elt u z) z (localToGlobal d.elt.tri z)).sp *
      Swe.comp (fluxX v.src.g (qAt v.N d.elt u z) (Swe.auxAt v d (qAt v.N d.elt u z) z (localToGlobal d.elt.tri z))) var) _ (fun z => by ring),
    intDPhi_scaled U v.N d 1 (U.V * U.unit var) (fun z =>
      Swe.comp (fluxY v.src.g (qAt v.N d.elt u z) (Swe.auxAt v d (qAt v.N d.elt u z) z (localToGlobal d.elt.tri z))) var) _ (fun z => by ring)]
  simp only [Units.totals]
  ring

theorem sourceTerm_scaled (v : Env K) (hS : Scales U v.sq v.cb) (d : EltData K) (t : K) (u : Fin 3 → ℕ → K) :
    sourceTerm (U.env v) (U.data d) (U.time t) (U.rows u) = U.totals (sourceTerm v d t u) := by
  have hL := U.posL.ne'
  have hV := U.posV.ne'
  have hdb : ∀ dir z, (U.data d).elt.deriv v.N dir (U.data d).bath z = U.H / U.L * d.elt.deriv v.N dir d.bath z := by
    intro dir z
    have hj : ∀ i, Element.entry (jinv (U.data d).elt.tri) i dir = U.L⁻¹ * Element.entry (jinv d.elt.tri) i dir := fun i => jinv_scaled U _ i dir
    refine sum_scaled _ _ _ _ fun k _ => ?_
    unfold Elt.dphi
    rw [hj, hj]
    show U.H * d.bath k * _ = _
    simp only [zero_add]
    field_simp
  have ht : U.V / U.L * U.time t = t := by
    unfold Units.time
    field_simp
  funext var dof
  simp only [sourceTerm]
  have hq : ∀ z, qAt v.N (U.data d).elt (U.rows u) z = U.flow (qAt v.N d.elt u z) := qAt_scaled U _ _ _
  have hg : ∀ z, localToGlobal (U.data d).elt.tri z = U.pt (localToGlobal d.elt.tri z) := global_scaled U _
  have hfs : ∀ x, (U.env v).fs (U.time t) (U.pt x) = U.rate (v.fs t x) := by
    intro x
    show U.rate (v.fs (U.V / U.L * U.time t) (U.back (U.pt x))) = _
    rw [back_scaled, ht]
  have hN : (U.env v).N = v.N := rfl
  have hsq : (U.env v).sq = v.sq := rfl
  have hcb : (U.env v).cb = v.cb := rfl
  simp only [hq, hg, auxAt_scaled, hfs, hN, hdb, hsq, hcb]
  rw [intPhi_scaled U v.N d (U.V / U.L * U.unit var) (fun z => Swe.comp (getSource v.sq v.cb v.src d.src (v.fs t (localToGlobal d.elt.tri z)) (qAt v.N d.elt u z)
      (Swe.auxAt v d (qAt v.N d.elt u z) z (localToGlobal d.elt.tri z)) ⟨d.elt.deriv v.N 0 d.bath z, d.elt.deriv v.N 1 d.bath z⟩) var) _ (fun z => ?_)]
  · simp only [Units.totals]
    field_simp
  · rw [source_scaled U v hS d _ _ _ ⟨d.elt.deriv v.N 0 d.bath z, d.elt.deriv v.N 1 d.bath z⟩, comp_rate]
    ring

/-! ### Right-hand side -/

omit [IsStrictOrderedRing K] in
theorem rhs_update (q : State K) (e : ℕ) (u : Fin 3 → ℕ → K) : U.rhs (Function.update q e u) = Function.update (U.rhs q) e (U.totals u) := by
  funext a
  by_cases h : a = e
  · subst h; simp [Units.rhs]
  · simp [Units.rhs, Function.update_of_ne h]
omit [IsStrictOrderedRing K] in
theorem stateW_update (q : State K) (e : ℕ) (u : Fin 3 → ℕ → K) : U.state (Function.update q e u) = Function.update (U.state q) e (U.rows u) := by
  funext a
  by_cases h : a = e
  · subst h; simp [Units.state]
  · simp [Units.state, Function.update_of_ne h]
omit [IsStrictOrderedRing K] in
theorem totals_add (u w : Fin 3 → ℕ → K) : U.totals u + U.totals w = U.totals (u + w) := by
  funext var dof
  simp only [Units.totals, Pi.add_apply]
  ring
omit [IsStrictOrderedRing K] in
theorem subAt_scaled (q : State K) (e : ℕ) (u : Fin 3 → ℕ → K) : subAt (U.rhs q) e (U.totals u) = U.rhs (subAt q e u) := by
  unfold subAt
  rw [rhs_update]
  congr 1
  funext var dof
  simp only [Units.rhs, Units.totals, Pi.sub_apply]
  ring

/-- No comparison with a tolerance that has no unit in the program is decided otherwise in the other units: neither that of the flux between a wet and a dry element, nor that of the
heights over a weir. -/
def Clear (U : Units K) (v : Env K) (dat : ℕ → EltData K) (m : Mesh K) (wet : ℕ → Bool) (q : State K) : Prop :=
  ∀ i ∈ m.ints, (wet i.ein || wet i.eex) = true → ∀ gp < (i.rule v dat).length,
    match i.kind with
    | .internal => ClearFlux U (llf v.sq v.src.g (i.inside v dat wet q gp).q (i.outside v dat wet q ((i.rule v dat).length - gp - 1)).q
        (i.inside v dat wet q gp).aux (i.inside v dat wet q gp).n) (i.inside v dat wet q gp) (i.outside v dat wet q ((i.rule v dat).length - gp - 1))
    | .levee l => ClearWeir U (l gp) (i.inside v dat wet q gp) (i.outside v dat wet q ((i.rule v dat).length - gp - 1))

theorem fluxes_scaled (v : Env K) (hS : Scales U v.sq v.cb) (dat : ℕ → EltData K) (m : Mesh K) (wet : ℕ → Bool) (q : State K) (hc : Clear U v dat m wet q) (i : Iface K)
    (hi : i ∈ m.ints) (hw : (wet i.ein || wet i.eex) = true) (gp : ℕ) (hgp : gp < (i.rule v dat).length) :
    (U.iface i).flux (U.env v) (fun e => U.data (dat e)) wet (U.state q) gp = Prod.map U.flux U.flux (i.flux v dat wet q gp) := by
  have hr : (U.iface i).rule (U.env v) (fun e => U.data (dat e)) = i.rule v dat := rfl
  have hn : normal (U.env v).sq (U.data (dat i.ein)).elt.tri i.fin = normal v.sq (dat i.ein).elt.tri i.fin := normal_scaled U hS _ _
  have hg : ∀ e z, localToGlobal (U.data (dat e)).elt.tri z = U.pt (localToGlobal (dat e).elt.tri z) := fun e => global_scaled U _
  have hq : ∀ e z, qAt (U.env v).N (U.data (dat e)).elt (U.state q e) z = U.flow (qAt v.N (dat e).elt (q e) z) := fun e => qAt_scaled U _ _ _
  have hin : ∀ gp, (U.iface i).inside (U.env v) (fun e => U.data (dat e)) wet (U.state q) gp = U.side (i.inside v dat wet q gp) := by
    intro gp
    simp only [Iface.inside, hr, Units.side]
    show Side.mk (qAt (U.env v).N (U.data (dat i.ein)).elt (U.state q i.ein) (facePt (i.rule v dat) i.fin gp)) _ (normal (U.env v).sq (U.data (dat i.ein)).elt.tri i.fin) _ = _
    rw [hn]
    simp only [Units.iface, hq, hg, auxAt_scaled]
  have hout : ∀ gp, (U.iface i).outside (U.env v) (fun e => U.data (dat e)) wet (U.state q) gp = U.side (i.outside v dat wet q gp) := by
    intro gp
    simp only [Iface.outside, hr, Units.side]
    simp only [Units.iface, hn, hq, hg, auxAt_scaled]
  have h := hc i hi hw gp hgp
  unfold Iface.flux
  rw [hin, hr, hout]
  have hk : (U.iface i).kind = U.intKind i.kind := rfl
  rw [hk]
  cases hki : i.kind with
  | internal =>
    rw [hki] at h
    exact internal_scaled U hS _ _ _ h
  | levee l =>
    rw [hki] at h
    exact levee_scaled U hS _ _ _ _ h

omit [LinearOrder K] [IsStrictOrderedRing K] [Field K] in
theorem foldl_mapped {α β γ : Type} (F : α → γ) (A : γ → β → γ) (B : α → β → α) (l : List β) (h : ∀ b ∈ l, ∀ a, A (F a) b = F (B a b)) (a : α) :
    l.foldl A (F a) = F (l.foldl B a) := by
  induction l generalizing a with
  | nil => rfl
  | cons b l ih =>
    simp only [List.foldl_cons]
    rw [h b List.mem_cons_self, ih fun c hc => h c (List.mem_cons_of_mem _ hc)]

theorem rhs_scaled (v : Env K) (hS : Scales U v.sq v.cb) (dat : ℕ → EltData K) (m : Mesh K) (wet : ℕ → Bool) (t ramp : K) (q r : State K) (hc : Clear U v dat m wet q) :
    localRhs (U.env v) (fun e => U.data (dat e)) (U.mesh m) wet (U.time t) ramp (U.state q) (U.rhs r) = U.rhs (localRhs v dat m wet t ramp q r) := by
  simp only [localRhs]
  have h1 : ∀ r, (U.mesh m).elts.foldl (volumeKernel (U.env v) (fun e => U.data (dat e)) wet (U.state q)) (U.rhs r) = U.rhs (m.elts.foldl (volumeKernel v dat wet q) r) := by
    intro r
    refine foldl_mapped U.rhs _ _ _ (fun e _ r => ?_) r
    simp only [volumeKernel]
    rw [rhs_update, apply_ite U.totals]
    congr 1
    rw [show U.totals 0 = 0 by funext var dof; simp [Units.totals]]
    congr 1
    exact volume_scaled U v _ _
  have h2 : ∀ r, (U.mesh m).elts.foldl (sourceKernel (U.env v) (fun e => U.data (dat e)) wet (U.time t) (U.state q)) (U.rhs r) = U.rhs (m.elts.foldl (sourceKernel v dat wet t q) r) := by
    intro r
    refine foldl_mapped U.rhs _ _ _ (fun e _ r => ?_) r
    simp only [sourceKernel]
    rw [apply_ite U.rhs, rhs_update, ← totals_add]
    congr 3
    exact sourceTerm_scaled U v hS _ _ _
  have h3 : ∀ r, (U.mesh m).ints.foldl (interfaceKernel (U.env v) (fun e => U.data (dat e)) wet (U.state q)) (U.rhs r) = U.rhs (m.ints.foldl (interfaceKernel v dat wet q) r) := by
    intro r
    show (m.ints.map U.iface).foldl _ _ = _
    rw [List.foldl_map]
    refine foldl_mapped U.rhs _ _ _ (fun i hi r => ?_) r
    simp only [interfaceKernel]
    show (if (wet i.ein || wet i.eex) = true then _ else _) = _
    by_cases hw : (wet i.ein || wet i.eex) = true
    swap
    · rw [if_neg hw, if_neg hw]
    rw [if_pos hw, if_pos hw]
    have hJ : (U.iface i).J (U.env v) (fun e => U.data (dat e)) = U.L * i.J v dat := J_scaled U hS _ _
    have hr : (U.iface i).rule (U.env v) (fun e => U.data (dat e)) = i.rule v dat := rfl
    have hf := fluxes_scaled U v hS dat m wet q hc i hi hw
    have hin : (U.iface i).inTerm (U.env v) (fun e => U.data (dat e)) wet (U.state q) = U.totals (i.inTerm v dat wet q) := by
      funext var dof
      unfold Iface.inTerm
      rw [hJ, hr]
      refine (intFace_scaled U v.N _ _ _ (U.V * U.unit var) (fun gp => Swe.comp (i.flux v dat wet q gp).1 var) _ (fun gp hgp => ?_) dof).trans ?_
      · rw [hf gp hgp]
        show Swe.comp (U.flux (i.flux v dat wet q gp).1) var = _
        rw [comp_flux]
        ring
      · simp only [Units.totals]
        rw [mul_assoc, mul_assoc, mul_assoc]
        rfl
    have hex : (U.iface i).exTerm (U.env v) (fun e => U.data (dat e)) wet (U.state q) = U.totals (i.exTerm v dat wet q) := by
      funext var dof
      unfold Iface.exTerm
      rw [hJ, hr]
      refine (intFace_scaled U v.N _ _ _ (U.V * U.unit var) (fun gp => Swe.comp (i.flux v dat wet q ((i.rule v dat).length - gp - 1)).2 var) _ (fun gp hgp => ?_) dof).trans ?_
      · rw [hf _ (by omega)]
        show Swe.comp (U.flux (i.flux v dat wet q ((i.rule v dat).length - gp - 1)).2) var = _
        rw [comp_flux]
        ring
      · simp only [Units.totals]
        rw [mul_assoc, mul_assoc, mul_assoc]
        rfl
    rw [hin, hex]
    show subAt (subAt (U.rhs r) i.ein _) i.eex _ = _
    rw [subAt_scaled, subAt_scaled]
  have h4 : ∀ r, (U.mesh m).bnds.foldl (boundaryKernel (U.env v) (fun e => U.data (dat e)) wet (U.time t) ramp (U.state q)) (U.rhs r) =
      U.rhs (m.bnds.foldl (boundaryKernel v dat wet t ramp q) r) := by
    intro r
    show (m.bnds.map U.bnd).foldl _ _ = _
    rw [List.foldl_map]
    refine foldl_mapped U.rhs _ _ _ (fun b _ r => ?_) r
    have hb : (U.bnd b).term (U.env v) (fun e => U.data (dat e)) (U.time t) ramp (U.state q) = U.totals (b.term v dat t ramp q) := by
      have hJ : surfaceJ (U.env v).sq (U.data (dat b.e)).elt.tri b.f = U.L * surfaceJ v.sq (dat b.e).elt.tri b.f := J_scaled U hS _ _
      have hn : normal (U.env v).sq (U.data (dat b.e)).elt.tri b.f = normal v.sq (dat b.e).elt.tri b.f := normal_scaled U hS _ _
      have hg : ∀ z, localToGlobal (U.data (dat b.e)).elt.tri z = U.pt (localToGlobal (dat b.e).elt.tri z) := global_scaled U _
      have hq : ∀ z, qAt (U.env v).N (U.data (dat b.e)).elt (U.state q b.e) z = U.flow (qAt v.N (dat b.e).elt (q b.e) z) := qAt_scaled U _ _ _
      funext var dof
      simp only [Bnd.term]
      have hfr : faceRule (U.env v).N (U.data (dat b.e)).elt.p = faceRule v.N (dat b.e).elt.p := rfl
      simp only [Units.bnd, hfr, hJ, hn, hg, hq, auxAt_scaled, bnd_scaled U v hS]
      refine (intFace_scaled U v.N _ _ _ (U.V * U.unit var) (fun gp => Swe.comp (bndFlux v t ramp b.kind gp (qAt v.N (dat b.e).elt (q b.e) (facePt (faceRule v.N (dat b.e).elt.p) b.f gp))
        (Swe.auxAt v (dat b.e) (qAt v.N (dat b.e).elt (q b.e) (facePt (faceRule v.N (dat b.e).elt.p) b.f gp)) (facePt (faceRule v.N (dat b.e).elt.p) b.f gp)
          (localToGlobal (dat b.e).elt.tri (facePt (faceRule v.N (dat b.e).elt.p) b.f gp)))
        (normal v.sq (dat b.e).elt.tri b.f) (localToGlobal (dat b.e).elt.tri (facePt (faceRule v.N (dat b.e).elt.p) b.f gp))) var) _ (fun gp _ => ?_) dof).trans ?_
      · rw [comp_flux]
        ring
      · simp only [Units.totals]
        rw [mul_assoc, mul_assoc, mul_assoc]
    simp only [boundaryKernel]
    rw [apply_ite U.rhs, hb]
    show (if wet b.e = true then subAt (U.rhs r) b.e _ else _) = _
    rw [subAt_scaled]
  rw [h1, h2, h3, h4]

/-! ### Stages -/

theorem solve_scaled (v : Env K) (dat : ℕ → EltData K) (r : State K) : solve (U.env v) (fun e => U.data (dat e)) (U.rhs r) = U.slope (solve v dat r) := by
  have hL := U.posL.ne'
  funext e var dof
  have hd : |jdet (U.data (dat e)).elt.tri| = U.L * U.L * |jdet (dat e).elt.tri| := area_scaled U _
  simp only [solve, Elt.applyMinv, hd, Units.slope, Units.rhs, Units.totals]
  show U.L * U.V * (U.unit var * r e var dof) * (v.N.basis.minv dof / (U.L * U.L * |jdet (dat e).elt.tri|)) = _
  by_cases h0 : |jdet (dat e).elt.tri| = 0
  · simp [h0]
  · field_simp

/-- Stage slots in the new units. -/
def Units.slot (U : Units K) (s : Stepper.Slot (State K)) : Stepper.Slot (State K) := ⟨U.state s.q, U.slope s.solution⟩
/-- A run in the new units: the flags are the same. -/
def Units.run (U : Units K) (s : Run K) : Run K := ⟨s.slots.map U.slot, s.stage, s.wet, s.emptied⟩

omit [IsStrictOrderedRing K] in
theorem setQ_scaled (l : List (Stepper.Slot (State K))) (i : ℕ) (q : State K) :
    Stepper.setQ (l.map U.slot) i (U.state q) = (Stepper.setQ l i q).map (List.map U.slot) := by
  unfold Stepper.setQ
  cases h : l[i]? with
  | none => simp [h]
  | some x => simp [h, Units.slot]

omit [IsStrictOrderedRing K] in
theorem setSolution_scaled (l : List (Stepper.Slot (State K))) (i : ℕ) (q : State K) :
    Stepper.setSolution (l.map U.slot) i (U.slope q) = (Stepper.setSolution l i q).map (List.map U.slot) := by
  unfold Stepper.setSolution
  cases h : l[i]? with
  | none => simp [h]
  | some x => simp [h, Units.slot]

omit [IsStrictOrderedRing K] in
theorem accumulate_scaled (tab : Stepper.Tableau) (dt : K) (stage : ℕ) (l : List (Stepper.Slot (State K))) :
    Stepper.accumulate tab (U.time dt) stage (l.map U.slot) = (Stepper.accumulate tab dt stage l).map U.state := by
  have hL := U.posL.ne'
  have hV := U.posV.ne'
  unfold Stepper.accumulate
  have h0 : (0 : State K) = U.state 0 := by
    funext e var dof
    simp [Units.state, Units.rows]
  have key : ∀ (r : List ℕ) (acc : State K), r.foldlM (fun (acc : State K) s => do
      let a ← Stepper.entry tab.ark stage s
      let b ← Stepper.entry tab.brk stage s
      let sl ← (l.map U.slot)[s]?
      pure (acc + ((a : K) • sl.q + (U.time dt * (b : K)) • sl.solution))) (U.state acc) =
      Option.map U.state (r.foldlM (fun (acc : State K) s => do
      let a ← Stepper.entry tab.ark stage s
      let b ← Stepper.entry tab.brk stage s
      let sl ← l[s]?
      pure (acc + ((a : K) • sl.q + (dt * (b : K)) • sl.solution))) acc) := by
    intro r
    induction r with
    | nil => intro acc; rfl
    | cons s r ih =>
      intro acc
      simp only [List.foldlM_cons]
      cases h1 : Stepper.entry tab.ark stage s with
      | none => rfl
      | some a =>
        cases h2 : Stepper.entry tab.brk stage s with
        | none => rfl
        | some b =>
          cases h3 : l[s]? with
          | none => simp [h3]
          | some x =>
            have : U.state acc + ((a : K) • (U.slot x).q + (U.time dt * (b : K)) • (U.slot x).solution) = U.state (acc + ((a : K) • x.q + (dt * (b : K)) • x.solution)) := by
              funext e var dof
              show U.unit var * acc e var dof + ((a : K) * (U.unit var * x.q e var dof) + U.L / U.V * dt * (b : K) * (U.V / U.L * (U.unit var * x.solution e var dof))) =
                U.unit var * (acc e var dof + ((a : K) * x.q e var dof + dt * (b : K) * x.solution e var dof))
              field_simp
            have h4 : (l.map U.slot)[s]? = some (U.slot x) := by simp [h3]
            simp only [h4, Option.bind_eq_bind, Option.bind_some, Option.pure_def, this]
            exact ih _
  conv_lhs => rw [h0]
  exact key _ 0

omit [IsStrictOrderedRing K] in
theorem updateState_scaled (tab : Stepper.Tableau) (ns : ℕ) (dt : K) (stage : ℕ) (l : List (Stepper.Slot (State K))) :
    Stepper.updateState tab ns (U.time dt) stage (l.map U.slot) = (Stepper.updateState tab ns dt stage l).map (List.map U.slot) := by
  unfold Stepper.updateState
  rw [accumulate_scaled]
  cases Stepper.accumulate tab dt stage l with
  | none => rfl
  | some x =>
    simp only [Option.map_some, Option.bind_eq_bind, Option.bind_some, setQ_scaled]
    cases Stepper.setQ l (stage + 1) x with
    | none => rfl
    | some l' =>
      simp only [Option.map_some, Option.bind_some]
      by_cases hs : stage + 1 = ns
      · rw [if_pos hs, if_pos hs]
        simp only [List.getElem?_map]
        cases l'[0]? with
        | none => rfl
        | some s0 =>
          cases l'[ns]? with
          | none => rfl
          | some sn =>
            simp only [Option.map_some, Option.bind_some]
            have := setQ_scaled U l' 0 sn.q
            rw [show (U.slot sn).q = U.state sn.q from rfl, this]
            cases Stepper.setQ l' 0 sn.q with
            | none => rfl
            | some l'' => exact setQ_scaled U l'' ns s0.q
      · rw [if_neg hs, if_neg hs]
        rfl

/-! ### Wetting and drying -/

/-- Rows as the wetting and drying algorithm has them. -/
def Units.wide (U : Units K) (q : Rows K) : Rows K := ⟨fun d => U.H * q.ze d, fun d => U.H * U.V * q.qx d, fun d => U.H * U.V * q.qy d⟩
def Units.out (U : Units K) (o : WdOut K) : WdOut K := ⟨U.wide o.q, o.wet, o.emptied, o.rhsZero⟩

omit [LinearOrder K] [IsStrictOrderedRing K] in
theorem toLinear_scaled (n : ℕ) (c : K) (u : ℕ → K) : Basis.basisToLinear n (fun d => c * u d) = fun k => c * Basis.basisToLinear n u k := by
  funext k
  exact sum_scaled _ c _ _ fun _ _ => by ring

omit [LinearOrder K] [IsStrictOrderedRing K] in
theorem toBasis_scaled (c : K) (u : ℕ → K) : Basis.linearToBasis (fun d => c * u d) = fun k => c * Basis.linearToBasis u k := by
  funext k
  exact sum_scaled _ c _ _ fun _ _ => by ring

omit [IsStrictOrderedRing K] in
theorem project_scaled (q : Rows K) : Swe.project (U.wide q) = U.wide (Swe.project q) := by
  simp only [Units.wide, Swe.project, toBasis_scaled]

omit [IsStrictOrderedRing K] in
theorem still_scaled (z : ℕ → K) : (⟨fun d => U.H * z d, 0, 0⟩ : Rows K) = U.wide ⟨z, 0, 0⟩ := by
  simp only [Units.wide, Pi.zero_apply, mul_zero]
  rfl

theorem argmax_scaled (h : ℕ → K) : argmax (fun x => U.H * h x) = argmax h := by
  simp only [argmax, mul_lt_mul_iff_right₀ U.posH]

theorem argmin_scaled (h : ℕ → K) : argmin (fun x => U.H * h x) = argmin h := by
  simp only [argmin, mul_lt_mul_iff_right₀ U.posH]

theorem low_scaled (ho thr x : K) : (U.H * x ≤ U.H * ho + U.H * thr) = (x ≤ ho + thr) := by
  rw [← mul_add, mul_le_mul_iff_right₀ U.posH]

theorem nDry_scaled (ho thr : K) (h : ℕ → K) : nDry (U.H * ho) (U.H * thr) (fun x => U.H * h x) = nDry ho thr h := by
  simp only [nDry, low_scaled]

theorem check_scaled (ho bm : K) (em : Bool) (h : ℕ → K) (w q : Rows K) :
    checkElement (U.H * ho) (U.H * bm) em (fun x => U.H * h x) (U.wide w) (U.wide q) = U.out (checkElement ho bm em h w q) := by
  have hz : ∀ k, (U.wide w).ze k = U.H * w.ze k := fun _ => rfl
  have hf : (U.wide w).ze = fun k => U.H * w.ze k := rfl
  simp only [checkElement, argmax_scaled, hz, gt_iff_lt, ← mul_sub, mul_lt_mul_iff_right₀ U.posH, hf, still_scaled, project_scaled]
  split <;> rfl

omit [LinearOrder K] [IsStrictOrderedRing K] in
theorem update_scaled (c : K) (t : ℕ → K) (i : ℕ) (a : K) : Function.update (fun k => c * t k) i (c * a) = fun k => c * Function.update t i a k := by
  funext k
  by_cases h : k = i
  · subst h; simp
  · simp [Function.update_of_ne h]

theorem newDepths_scaled (ho : K) (temp h : ℕ → K) :
    newDepths (U.H * ho) (fun k => U.H * temp k) (fun x => U.H * h x) = (newDepths ho temp h).map fun t k => U.H * t k := by
  simp only [newDepths, argmax_scaled, argmin_scaled]
  split
  swap
  · rfl
  refine congrArg Except.ok ?_
  rw [update_scaled]
  simp only [← mul_sub, mul_div_assoc, ← mul_max_of_nonneg _ _ U.posH.le, update_scaled]

theorem move_scaled (ho thr : K) (h : ℕ → K) (c : K) (u : ℕ → K) :
    moveDischarge (U.H * ho) (U.H * thr) (fun x => U.H * h x) (fun d => c * u d) = fun k => c * moveDischarge ho thr h u k := by
  funext k
  simp only [moveDischarge, nDry_scaled, low_scaled]
  rw [sum_scaled _ c (fun d => c * u d) u fun _ _ => rfl]
  split
  · ring
  · ring

theorem wetDry_scaled (ho thr : K) (n : ℕ) (bath : ℕ → K) (bm : K) (temp : ℕ → K) (wet : Bool) (q : Rows K) :
    wetDry (U.H * ho) (U.H * thr) n (fun k => U.H * bath k) (U.H * bm) (fun k => U.H * temp k) wet (U.wide q) = (wetDry ho thr n bath bm temp wet q).map U.out := by
  have hx : Basis.basisToLinear n (U.wide q).qx = fun k => U.H * U.V * Basis.basisToLinear n q.qx k := toLinear_scaled _ _ _
  have hy : Basis.basisToLinear n (U.wide q).qy = fun k => U.H * U.V * Basis.basisToLinear n q.qy k := toLinear_scaled _ _ _
  have hz : Basis.basisToLinear n (U.wide q).ze = fun k => U.H * Basis.basisToLinear n q.ze k := toLinear_scaled _ _ _
  have hv : (⟨fun k => U.H * Basis.basisToLinear n q.ze k, fun k => U.H * U.V * Basis.basisToLinear n q.qx k, fun k => U.H * U.V * Basis.basisToLinear n q.qy k⟩ : Rows K) =
      U.wide ⟨Basis.basisToLinear n q.ze, Basis.basisToLinear n q.qx, Basis.basisToLinear n q.qy⟩ := rfl
  have ha : ∀ a b c : K, (0 + U.H * a + U.H * b + U.H * c) / 3 = U.H * ((0 + a + b + c) / 3) := fun a b c => by ring
  have hm : ∀ a : K, (if a ≤ thr then U.H * thr else U.H * a) = U.H * (if a ≤ thr then thr else a) := fun a => by split <;> rfl
  delta wetDry
  simp only [hx, hy, hz, hv, ← mul_add, nDry_scaled, ha, mul_le_mul_iff_right₀ U.posH, hm]
  generalize Basis.basisToLinear n q.ze = z
  generalize Basis.basisToLinear n q.qx = x
  generalize Basis.basisToLinear n q.qy = y
  generalize (0 + (z 0 + bath 0) + (z 1 + bath 1) + (z 2 + bath 2)) / 3 = av
  generalize (if av ≤ thr then thr else av) = av'
  by_cases h0 : nDry ho thr (fun x => z x + bath x) = 0
  · rw [if_pos h0, if_pos h0]
    cases wet
    · exact congrArg Except.ok (check_scaled U _ _ _ _ _ _)
    · rfl
  rw [if_neg h0, if_neg h0]
  by_cases h3 : nDry ho thr (fun x => z x + bath x) = 3
  · rw [if_pos h3, if_pos h3]
    refine congrArg Except.ok ?_
    simp only [← mul_sub, still_scaled, project_scaled]
    rfl
  rw [if_neg h3, if_neg h3]
  by_cases h4 : av' ≤ ho + thr
  · rw [if_pos h4, if_pos h4]
    refine congrArg Except.ok ?_
    simp only [← mul_sub, still_scaled, project_scaled]
    exact check_scaled U _ _ _ _ _ _
  · rw [if_neg h4, if_neg h4, newDepths_scaled]
    cases newDepths ho temp fun x => z x + bath x with
    | error e => rfl
    | ok h' =>
      simp only [Except.map, Swe.okBind, nDry_scaled]
      by_cases h5 : nDry ho thr h' < 3
      · rw [if_pos h5, if_pos h5]
        refine congrArg Except.ok ?_
        have : (⟨fun k => U.H * h' k - U.H * bath k, moveDischarge (U.H * ho) (U.H * thr) (fun k => U.H * h' k) (fun k => U.H * U.V * x k),
            moveDischarge (U.H * ho) (U.H * thr) (fun k => U.H * h' k) (fun k => U.H * U.V * y k)⟩ : Rows K) =
            U.wide ⟨fun k => h' k - bath k, moveDischarge ho thr h' x, moveDischarge ho thr h' y⟩ := by
          rw [move_scaled, move_scaled]
          simp only [Units.wide, mul_sub]
        refine Eq.trans ?_ (check_scaled U _ _ _ _ _ _)
        rw [← project_scaled, ← this]
      · rw [if_neg h5, if_neg h5]
        rfl

/-- State and flags. -/
def Units.both (U : Units K) (f : Flow K) : Flow K := ⟨U.state f.q, f.wet, f.emptied⟩

omit [IsStrictOrderedRing K] in
theorem ofRows_scaled (r : Rows K) : ofRows (U.wide r) = U.rows (ofRows r) := by
  funext var
  fin_cases var <;> rfl

theorem wd_scaled (dat : ℕ → EltData K) (m : Mesh K) (w : Option (WdParams K)) (f : Flow K) :
    wdAll (fun e => U.data (dat e)) (U.mesh m) (w.map U.wd) (U.both f) = (wdAll dat m w f).map U.both := by
  cases w with
  | none => rfl
  | some w =>
    simp only [wdAll, Option.map_some]
    show List.foldlM _ _ m.elts = _
    generalize m.elts = l
    induction l generalizing f with
    | nil => rfl
    | cons e l ih =>
      have h1 : wdStep (fun e => U.data (dat e)) (U.wd w) (U.both f) e = (wdStep dat w f e).map U.both := by
        unfold wdStep
        have hw : wetDry (U.wd w).ho (U.wd w).thr (ndof (U.data (dat e)).elt.p) ((U.wd w).bath e) ((U.wd w).bathMin e) ((U.wd w).temp e) ((U.both f).wet e) (rowsOf ((U.both f).q e)) = _ :=
          wetDry_scaled U w.ho w.thr (ndof (dat e).elt.p) (w.bath e) (w.bathMin e) (w.temp e) (f.wet e) (rowsOf (f.q e))
        rw [hw]
        cases wetDry w.ho w.thr (ndof (dat e).elt.p) (w.bath e) (w.bathMin e) (w.temp e) (f.wet e) (rowsOf (f.q e)) with
        | error e => rfl
        | ok o =>
          show Except.ok (Flow.mk (Function.update (U.state f.q) e (ofRows (U.wide o.q))) _ _) = Except.ok (Flow.mk (U.state (Function.update f.q e (ofRows o.q))) _ _)
          rw [stateW_update, ofRows_scaled]
          rfl
      rw [List.foldlM_cons, List.foldlM_cons, h1]
      cases wdStep dat w f e with
      | error e => rfl
      | ok f' => exact ih f'

/-- The threshold which goes with the depth of a dry element has its unit. -/
theorem threshold_scaled (ho : K) : threshold (U.H * ho) = U.H * threshold ho := by
  unfold threshold
  ring

/-! ### Runs -/

/-- The current state of a run. -/
def now (s : Run K) : State K := ((s.slots[s.stage]?).map Stepper.Slot.q).getD 0

theorem stage_scaled (v : Env K) (hS : Scales U v.sq v.cb) (dat : ℕ → EltData K) (m : Mesh K) (tab : Stepper.Tableau) (ns : ℕ) (dt : K) (w : Option (WdParams K)) (junk : State K)
    (t ramp : K) (s : Run K) (hc : Clear U v dat m s.wet (now s)) :
    stageSerial (U.env v) (fun e => U.data (dat e)) (U.mesh m) tab ns (U.time dt) ⟨w.map U.wd, none⟩ (U.rhs junk) (U.time t) ramp (U.run s) =
      (stageSerial v dat m tab ns dt ⟨w, none⟩ junk t ramp s).map U.run := by
  unfold stageSerial stageWith
  have hcur : (U.run s).slots[(U.run s).stage]? = s.slots[s.stage]?.map U.slot := List.getElem?_map ..
  rw [hcur]
  unfold now at hc
  cases hs : s.slots[s.stage]? with
  | none => rfl
  | some cur =>
    rw [hs] at hc
    simp only [Option.map_some, Option.getD_some] at hc
    simp only [Option.map_some, slotOr, Swe.okBind]
    have h1 : (U.slot cur).q = U.state cur.q := rfl
    have h2 : (U.run s).wet = s.wet := rfl
    have h3 : (U.run s).stage = s.stage := rfl
    have h4 : (U.run s).slots = s.slots.map U.slot := rfl
    have h5 : (U.run s).emptied = s.emptied := rfl
    rw [h1, h2, h3, h4, h5, rhs_scaled U v hS dat m s.wet t ramp cur.q junk hc, solve_scaled, setSolution_scaled]
    cases Stepper.setSolution s.slots s.stage (solve v dat (localRhs v dat m s.wet t ramp cur.q junk)) with
    | none => rfl
    | some l1 =>
      simp only [Option.map_some, slotOr, Swe.okBind]
      rw [updateState_scaled]
      cases Stepper.updateState tab ns dt s.stage l1 with
      | none => rfl
      | some l2 =>
        simp only [Option.map_some, slotOr, Swe.okBind, List.getElem?_map]
        cases l2[(s.stage + 1) % ns]? with
        | none => rfl
        | some new =>
          simp only [Option.map_some, slotOr, Swe.okBind]
          have hwd := wd_scaled U dat m w ⟨new.q, s.wet, s.emptied⟩
          have h6 : U.both ⟨new.q, s.wet, s.emptied⟩ = ⟨(U.slot new).q, s.wet, s.emptied⟩ := rfl
          rw [h6] at hwd
          rw [hwd]
          cases wdAll dat m w ⟨new.q, s.wet, s.emptied⟩ with
          | error e => rfl
          | ok f =>
            simp only [Except.map, Swe.okBind, slAll]
            have h7 : (U.both f).q = U.state f.q := rfl
            rw [h7, setQ_scaled]
            cases Stepper.setQ l2 ((s.stage + 1) % ns) f.q with
            | none => rfl
            | some l3 => rfl

/-- C117, the part which holds: a run of any length in other units of horizontal length, height and time gives the same result in those units with the same flags, and one fails as the
other does, if on the way no comparison with a tolerance without a unit is decided otherwise. -/
theorem run_scaled_partial (v : Env K) (hS : Scales U v.sq v.cb) (dat : ℕ → EltData K) (m : Mesh K) (tab : Stepper.Tableau) (ns : ℕ) (dt : K) (w : Option (WdParams K)) (junk : State K)
    (time ramp : ℕ → K) (n : ℕ) (s : Run K)
    (hc : ∀ k < n, ∀ x, runSerial v dat m tab ns dt ⟨w, none⟩ junk time ramp k s = .ok x → Clear U v dat m x.wet (now x)) :
    runSerial (U.env v) (fun e => U.data (dat e)) (U.mesh m) tab ns (U.time dt) ⟨w.map U.wd, none⟩ (U.rhs junk) (fun k => U.time (time k)) ramp n (U.run s) =
      (runSerial v dat m tab ns dt ⟨w, none⟩ junk time ramp n s).map U.run := by
  induction n with
  | zero => rfl
  | succ n ih =>
    rw [runSerial_succ, runSerial_succ, ih fun k hk => hc k (by omega)]
    cases h : runSerial v dat m tab ns dt ⟨w, none⟩ junk time ramp n s with
    | error e => rfl
    | ok x => exact stage_scaled U v hS dat m tab ns dt w junk _ _ x (hc n (by omega) x h)

/-- With all elements wet and no weirs there is no such comparison. -/
theorem clear_wet (v : Env K) (dat : ℕ → EltData K) (m : Mesh K) (wet : ℕ → Bool) (q : State K) (hk : ∀ i ∈ m.ints, i.kind = .internal)
    (hw : ∀ i ∈ m.ints, wet i.ein = true ∧ wet i.eex = true) : Clear U v dat m wet q := by
  intro i hi _ gp _
  rw [hk i hi]
  exact Or.inl (hw i hi)

/-- If a discharge is the same number in both units (the unit of the flux of water is the product of those of height and velocity), then only weirs matter. -/
theorem clear_same (hVH : U.V * U.H = 1) (v : Env K) (dat : ℕ → EltData K) (m : Mesh K) (wet : ℕ → Bool) (q : State K) (hk : ∀ i ∈ m.ints, i.kind = .internal) :
    Clear U v dat m wet q := by
  intro i hi _ gp _
  rw [hk i hi]
  refine Or.inr ?_
  rw [hVH]
  simp [Plain]

omit [IsStrictOrderedRing K] in
/-- Without wetting and drying the flags do not change. -/
theorem run_flags (v : Env K) (dat : ℕ → EltData K) (m : Mesh K) (tab : Stepper.Tableau) (ns : ℕ) (dt : K) (junk : State K) (time ramp : ℕ → K) (n : ℕ) (s x : Run K)
    (h : runSerial v dat m tab ns dt ⟨none, none⟩ junk time ramp n s = .ok x) : x.wet = s.wet := by
  induction n generalizing x with
  | zero => cases h; rfl
  | succ n ih =>
    rw [runSerial_succ] at h
    obtain ⟨y, hy, h⟩ := Swe.bindOk h
    rw [← ih y hy]
    unfold stageSerial stageWith at h
    obtain ⟨cur, _, h⟩ := Swe.bindOk h
    obtain ⟨l1, _, h⟩ := Swe.bindOk h
    obtain ⟨l2, _, h⟩ := Swe.bindOk h
    obtain ⟨new, _, h⟩ := Swe.bindOk h
    obtain ⟨f, hf, h⟩ := Swe.bindOk h
    obtain ⟨l3, _, h⟩ := Swe.bindOk h
    cases hf
    cases h
    rfl

/-- C117: where all elements are wet and there are no weirs, the units do not matter, in runs of any length: with any order of the scheme, any boundary conditions, bottom friction of both kinds
and given sources. -/
theorem run_units (v : Env K) (hS : Scales U v.sq v.cb) (dat : ℕ → EltData K) (m : Mesh K) (tab : Stepper.Tableau) (ns : ℕ) (dt : K) (junk : State K)
    (time ramp : ℕ → K) (n : ℕ) (s : Run K) (hk : ∀ i ∈ m.ints, i.kind = .internal) (hw : ∀ i ∈ m.ints, s.wet i.ein = true ∧ s.wet i.eex = true) :
    runSerial (U.env v) (fun e => U.data (dat e)) (U.mesh m) tab ns (U.time dt) ⟨none, none⟩ (U.rhs junk) (fun k => U.time (time k)) ramp n (U.run s) =
      (runSerial v dat m tab ns dt ⟨none, none⟩ junk time ramp n s).map U.run :=
  run_scaled_partial U v hS dat m tab ns dt none junk time ramp n s fun k _ x hx =>
    clear_wet U v dat m x.wet _ hk (by rw [run_flags v dat m tab ns dt junk time ramp k s x hx]; exact hw)

/-! ### Where the units matter -/

/-- The cube root. -/
noncomputable def cubeRoot (x : ℝ) : ℝ := (max x 0) ^ (1 / 3 : ℝ)

theorem cubeRoot_cubed (x : ℝ) (hx : 0 ≤ x) : cubeRoot x ^ 3 = x := by
  unfold cubeRoot
  rw [max_eq_left hx, ← Real.rpow_natCast, ← Real.rpow_mul hx]
  norm_num

/-- Units of the real line, with the real roots. -/
noncomputable def realUnits (L H V : ℝ) (hL : 0 < L) (hH : 0 < H) (hV : 0 < V) : Units ℝ := ⟨L, H, V, cubeRoot H, hL, hH, hV, Real.rpow_pos_of_pos (lt_max_of_lt_left hH) _⟩

theorem real_scales (L H V : ℝ) (hL : 0 < L) (hH : 0 < H) (hV : 0 < V) : Scales (realUnits L H V hL hH hV) Real.sqrt cubeRoot := by
  refine ⟨fun a x ha => ?_, fun x => ?_⟩
  · rw [Real.sqrt_mul (mul_self_nonneg a), Real.sqrt_mul_self ha.le]
  · show (max (H * x) 0) ^ (1 / 3 : ℝ) = (max H 0) ^ (1 / 3 : ℝ) * (max x 0) ^ (1 / 3 : ℝ)
    rw [← Real.mul_rpow (le_max_right _ _) (le_max_right _ _), max_eq_left hH.le]
    congr 1
    rw [mul_max_of_nonneg _ _ hH.le, mul_zero]

/-- Decimetres for height, metres for length, seconds. -/
noncomputable def decimetres : Units ℝ := realUnits 1 10 1 one_pos (by norm_num) one_pos

/-- A dry and a wet element with the same level at depth one; a discharge of 10⁻¹² comes out of the dry one. -/
noncomputable def drySide : Side ℝ := ⟨⟨0, 1 / 10 ^ 12, 0⟩, ⟨1, 1, 1⟩, ⟨1, 0⟩, false⟩
noncomputable def wetSide : Side ℝ := ⟨⟨0, 0, 0⟩, ⟨1, 1, 1⟩, ⟨-1, 0⟩, true⟩

theorem dry_flux (g : ℝ) : (llf Real.sqrt g drySide.q wetSide.q drySide.aux drySide.n).ze = 1 / 2 * (1 / 10 ^ 12) := by
  show 1 / 2 * ((1 * (1 / 10 ^ 12) * 1 + 0 * 0) + (0 * 1 + 0 * 0) + _ * (0 - 0)) = _
  rw [sub_zero, mul_zero]
  norm_num

/-- The code is not indifferent to units (1): the flux of water out of a dry element goes through if it is below 10⁻¹², and is stopped if the heights are in decimetres. -/
theorem dry_flux_units (g : ℝ) : internal Real.sqrt (decimetres.grav g) (decimetres.side drySide) (decimetres.side wetSide) ≠
    Prod.map decimetres.flux decimetres.flux (internal Real.sqrt g drySide wetSide) := by
  have hS := real_scales 1 10 1 one_pos (by norm_num) one_pos
  have hf := dry_flux g
  have hd : drySide.wet = false := rfl
  intro h
  have h1 : (internal Real.sqrt g drySide wetSide).1.ze = 1 / 2 * (1 / 10 ^ 12) := by
    simp only [internal]
    rw [if_neg (by rw [hf, fluxTol]; norm_num), if_neg (by rw [hf, fluxTol]; norm_num)]
    exact hf
  have h2 : (internal Real.sqrt (decimetres.grav g) (decimetres.side drySide) (decimetres.side wetSide)).1.ze = 0 := by
    simp only [internal]
    have : (llf Real.sqrt (decimetres.grav g) (decimetres.side drySide).q (decimetres.side wetSide).q (decimetres.side drySide).aux (decimetres.side drySide).n).ze = 10 * (1 / 2 * (1 / 10 ^ 12)) := by
      rw [← hf]
      refine (congrArg Q.ze (llf_scaled decimetres hS g drySide.q wetSide.q drySide.aux drySide.n)).trans ?_
      show 1 * (10 * _) = _
      rw [one_mul]
    rw [if_pos (by rw [this, fluxTol]; norm_num)]
    rfl
  rw [h] at h2
  have h3 : (Prod.map decimetres.flux decimetres.flux (internal Real.sqrt g drySide wetSide)).1.ze = 1 * (10 * (internal Real.sqrt g drySide wetSide).1.ze) := rfl
  rw [h3, h1] at h2
  norm_num at h2

/-- Water five millimetres over a weir on one side, none over it on the other. -/
noncomputable def overSide : Side ℝ := ⟨⟨1 / 200, 0, 0⟩, ⟨1, 1 + 1 / 200, 1⟩, ⟨1, 0⟩, true⟩
noncomputable def underSide : Side ℝ := ⟨⟨0, 0, 0⟩, ⟨1, 1, 1⟩, ⟨-1, 0⟩, true⟩
noncomputable def crest : LeveeGp ℝ := ⟨0, 1, 1⟩

/-- The code is not indifferent to units (2): five millimetres of water over a weir do not flow if heights are in metres, and do if they are in decimetres. -/
theorem weir_units : (levee Real.sqrt 10 crest overSide underSide).1.ze = 0 ∧
    0 < (levee Real.sqrt (decimetres.grav 10) (decimetres.weir crest) (decimetres.side overSide) (decimetres.side underSide)).1.ze := by
  constructor
  · simp only [levee, leveeEx]
    rw [if_pos (Or.inl (by simp only [overSide, underSide, crest, hTol]; norm_num))]
    simp only [llf, landEx, overSide]
    show 1 / 2 * ((1 * 0 * 1 + 0 * 0) + ((-(0 * 1 + 0 * 0) * 1 + (0 * (-0) + 0 * 1) * (-0)) * 1 + (-(0 * 1 + 0 * 0) * 0 + (0 * (-0) + 0 * 1) * 1) * 0) + _ * (1 / 200 - 1 / 200)) = (0 : ℝ)
    rw [sub_self, mul_zero]
    norm_num
  · have e1 : (decimetres.side overSide).q.ze - (decimetres.weir crest).H = 1 / 20 := by
      show (10 : ℝ) * (1 / 200) - 10 * 0 = _
      norm_num
    have e2 : (decimetres.side underSide).q.ze - (decimetres.weir crest).H = 0 := by
      show (10 : ℝ) * 0 - 10 * 0 = _
      norm_num
    simp only [levee, leveeEx, e1, e2]
    rw [if_neg (by simp only [hTol]; norm_num), if_pos (by norm_num)]
    have ho : 0 < overtopping Real.sqrt (decimetres.grav 10) (decimetres.weir crest) (1 / 20) 0 := by
      unfold overtopping
      rw [if_neg (by norm_num)]
      have hg : 0 < decimetres.grav 10 := by
        show (0 : ℝ) < 10 * (1 * 1 / 10)
        norm_num
      have : 0 < Real.sqrt (decimetres.grav 10 * (2 * (1 / 20) / 3)) := Real.sqrt_pos.2 (by positivity)
      show 0 < 1 * (2 * (1 / 20) / 3) * _
      positivity
    generalize overtopping Real.sqrt (decimetres.grav 10) (decimetres.weir crest) (1 / 20) 0 = w at ho ⊢
    show 0 < 1 / 2 * ((1 * (10 * 1 * 0) * 1 + (10 * 1 * 0) * 0) + ((w * 1 + 0 * (-0)) * 1 + (w * 0 + 0 * 1) * 0) + _ * (10 * (1 / 200) - 10 * (1 / 200)))
    rw [sub_self, mul_zero]
    simp only [mul_zero, mul_one, zero_mul, add_zero, zero_add]
    positivity

/-! ### Cases -/

/-- The hypotheses hold: feet and hours for the two triangles, say, with the rules and square root of the program. -/
example (rd : ℝ → ℝ) (b : ℕ → ℕ → ℝ) (dt : ℝ) (q : State ℝ) (n : ℕ) :
    let U := realUnits (328 / 100) (328 / 100) (328 * 36) (by norm_num) (by norm_num) (by norm_num)
    let v := { plainEnv (codeNumerics rd) Real.sqrt with cb := cubeRoot }
    runSerial (U.env v) (fun e => U.data (twoTris 1 b e)) (U.mesh twoMesh) Stepper.tab11 1 (U.time dt) ⟨none, none⟩ (U.rhs 0) (fun k => U.time (k * dt)) (fun _ => 1) n
        (U.run ⟨[⟨q, 0⟩, ⟨0, 0⟩], 0, fun _ => true, false⟩) =
      (runSerial v (twoTris 1 b) twoMesh Stepper.tab11 1 dt ⟨none, none⟩ 0 (fun k => k * dt) (fun _ => 1) n ⟨[⟨q, 0⟩, ⟨0, 0⟩], 0, fun _ => true, false⟩).map U.run := by
  intro U v
  exact run_units U v (real_scales _ _ _ _ _ _) _ _ _ _ _ _ _ _ _ _ (by simp [twoMesh]) (fun _ _ => ⟨rfl, rfl⟩)

/-- The condition on the tolerances holds in a case with a dry element and a case with a weir over which water flows in both units, with heights in decimetres. -/
example : ClearFlux decimetres ⟨1, 0, 0⟩ drySide wetSide ∧ ClearWeir decimetres ⟨0, 1, 1⟩ ⟨⟨1, 0, 0⟩, ⟨1, 2, 1⟩, ⟨1, 0⟩, true⟩ ⟨⟨1 / 2, 0, 0⟩, ⟨1, 2, 1⟩, ⟨-1, 0⟩, true⟩ := by
  constructor
  · refine Or.inr ⟨?_, ?_⟩ <;> show _ ↔ _ <;> simp only [fluxTol] <;> norm_num [decimetres, realUnits]
  · simp only [ClearWeir, hTol]
    norm_num [decimetres, realUnits]

end Verif.Swe.Props
