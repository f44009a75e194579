import Verif.Model.GnSource
import Mathlib.Analysis.Calculus.ContDiff.Operations
import Mathlib.Analysis.Calculus.FDeriv.Mul
import Mathlib.Analysis.Calculus.FDeriv.Pow
import Mathlib.Tactic.Ring
import Mathlib.Tactic.FieldSimp
import Mathlib.Tactic.LinearCombination

/-!
# C90: source of the dispersive correction

The source should be the one of the Green-Naghdi equations: with `b` the bed counted upwards, `V` the velocity, `h` the depth and `ζ` the level,
`∇(2/3 h³ C1 + 1/2 h² C4) + (h² C1 + h C4) ∇b + g/α h ∇ζ`, where `C1 = ∂x V · ∂y V⊥ + (div V)²` and `C4 = V · (V · ∇) ∇b`.
The functions are smooth functions of the plane, their derivatives are those of analysis.
-/

namespace Verif.Gn.Props
open Verif.Gn

/-- Functions of the plane. -/
abbrev Fld := ℝ × ℝ → ℝ

noncomputable def dx (f : Fld) : Fld := fun p => fderiv ℝ f p (1, 0)
noncomputable def dy (f : Fld) : Fld := fun p => fderiv ℝ f p (0, 1)

/-- Derivative in a direction of the code. -/
noncomputable def dd (dir : ℕ) (f : Fld) : Fld := if dir = 0 then dx f else dy f

abbrev Smooth (f : Fld) : Prop := ContDiff ℝ (↑(⊤ : ℕ∞)) f

theorem Smooth.diff {f : Fld} (h : Smooth f) : Differentiable ℝ f := h.differentiable (by simp)

theorem Smooth.dd {f : Fld} (h : Smooth f) (dir : ℕ) : Smooth (dd dir f) := by
  have h1 : Smooth (dx f) := (h.fderiv_right (m := (↑(⊤ : ℕ∞))) (by simp)).clm_apply contDiff_const
  have h2 : Smooth (dy f) := (h.fderiv_right (m := (↑(⊤ : ℕ∞))) (by simp)).clm_apply contDiff_const
  unfold Props.dd; split
  · exact h1
  · exact h2

theorem dd_eq (dir : ℕ) (f : Fld) (p : ℝ × ℝ) : dd dir f p = fderiv ℝ f p (if dir = 0 then (1, 0) else (0, 1)) := by
  unfold dd; split <;> rfl

theorem dd_add {f g : Fld} (hf : Smooth f) (hg : Smooth g) (dir : ℕ) (p : ℝ × ℝ) : dd dir (fun x => f x + g x) p = dd dir f p + dd dir g p := by
  simp only [dd_eq]
  rw [fderiv_fun_add (hf.diff p) (hg.diff p)]; rfl

theorem dd_mul {f g : Fld} (hf : Smooth f) (hg : Smooth g) (dir : ℕ) (p : ℝ × ℝ) : dd dir (fun x => f x * g x) p = f p * dd dir g p + dd dir f p * g p := by
  simp only [dd_eq]
  rw [fderiv_fun_mul (hf.diff p) (hg.diff p)]
  simp only [_root_.add_apply, _root_.smul_apply, smul_eq_mul]; ring

theorem dd_const (c : ℝ) (dir : ℕ) (p : ℝ × ℝ) : dd dir (fun _ => c) p = 0 := by
  simp only [dd_eq]; simp

theorem dd_neg {f : Fld} (dir : ℕ) (p : ℝ × ℝ) : dd dir (fun x => -f x) p = -dd dir f p := by
  simp only [dd_eq]
  rw [fderiv_fun_neg]; rfl

/-- The fields of a flow: level, bathymetry (positive downwards), velocity. -/
structure Flow where
  Z : Fld
  B : Fld
  U : Fld
  V : Fld
  hZ : Smooth Z
  hB : Smooth B
  hU : Smooth U
  hV : Smooth V

variable (w : Flow)

/-- Depth. -/
def Flow.H : Fld := fun p => w.Z p + w.B p

/-- Bed, counted upwards. -/
def Flow.bed : Fld := fun p => -w.B p

/-- `∂x V · ∂y V⊥ + (div V)²` with `V⊥ = (-v, u)`. -/
noncomputable def Flow.C1 : Fld := fun p =>
  (dx w.U p * -dy w.V p + dx w.V p * dy w.U p) + (dx w.U p + dy w.V p) * (dx w.U p + dy w.V p)

/-- `V · (V · ∇) ∇b`. -/
noncomputable def Flow.C4 : Fld := fun p =>
  w.U p * (w.U p * dx (dx w.bed) p + w.V p * dy (dx w.bed) p) + w.V p * (w.U p * dx (dy w.bed) p + w.V p * dy (dy w.bed) p)

/-- The potential of the first part. -/
noncomputable def Flow.pot : Fld := fun p => 2 / 3 * (w.H p * w.H p * w.H p * w.C1 p) + 1 / 2 * (w.H p * w.H p * w.C4 p)

/-- The source of the equations. -/
noncomputable def Flow.source (g al : ℝ) (dir : ℕ) (p : ℝ × ℝ) : ℝ :=
  dd dir w.pot p + (w.H p * w.H p * w.C1 p + w.H p * w.C4 p) * dd dir w.bed p + g / al * (w.H p * dd dir w.Z p)

/-- Arrays that hold the exact values at a point: row `2 * i + dir` is the derivative in direction `dir` of row `i`. -/
noncomputable def Flow.pt (p : ℝ × ℝ) : Pt ℝ where
  h := w.H p
  dze k := dd (k % 2) w.Z p
  dbath k := dd (k % 2) w.B p
  ddbath k := dd (k % 2) (dd (k / 2 % 2) w.B) p
  dddbath k := dd (k % 2) (dd (k / 2 % 2) (dd (k / 4 % 2) w.B)) p
  u k := if k = 0 then w.U p else w.V p
  du k := dd (k % 2) (if k / 2 % 2 = 0 then w.U else w.V) p
  ddu k := dd (k % 2) (dd (k / 2 % 2) (if k / 4 % 2 = 0 then w.U else w.V)) p

theorem Flow.hH : Smooth w.H := w.hZ.add w.hB

theorem c1_eq (p : ℝ × ℝ) : c1 (w.pt p) = w.C1 p := by
  simp only [c1, Flow.pt, Flow.C1, dd]; norm_num; ring

theorem dd_bed (f : Fld) (hf : ∀ p, f p = -w.B p) (dir : ℕ) : dd dir f = fun p => -dd dir w.B p := by
  have : f = fun p => -w.B p := funext hf
  subst this
  funext p; exact dd_neg dir p

theorem bed2 (d e : ℕ) (p : ℝ × ℝ) : dd d (dd e w.bed) p = -dd d (dd e w.B) p := by
  have : dd e w.bed = fun p => -dd e w.B p := by funext p; exact dd_neg e p
  rw [this, dd_neg]

theorem C4_eq (p : ℝ × ℝ) : w.C4 p = w.U p * w.U p * -dd 0 (dd 0 w.B) p + w.U p * w.V p * -dd 1 (dd 0 w.B) p + w.U p * w.V p * -dd 0 (dd 1 w.B) p +
    w.V p * w.V p * -dd 1 (dd 1 w.B) p := by
  have h00 := bed2 w 0 0 p
  have h10 := bed2 w 1 0 p
  have h01 := bed2 w 0 1 p
  have h11 := bed2 w 1 1 p
  simp only [dd] at *
  simp only [Flow.C4]
  norm_num at h00 h10 h01 h11 ⊢
  rw [h00, h10, h01, h11]; ring

theorem c4_eq (p : ℝ × ℝ) : c4 (w.pt p) = w.C4 p := by
  rw [C4_eq]; simp only [c4, Flow.pt]; norm_num

theorem hC1 : Smooth w.C1 := by
  have a := w.hU.dd 0
  have b := w.hU.dd 1
  have c := w.hV.dd 0
  have d := w.hV.dd 1
  exact ((a.mul d.neg).add (c.mul b)).add ((a.add d).mul (a.add d))

theorem hC4 : Smooth w.C4 := by
  have : w.C4 = fun p => w.U p * w.U p * -dd 0 (dd 0 w.B) p + w.U p * w.V p * -dd 1 (dd 0 w.B) p + w.U p * w.V p * -dd 0 (dd 1 w.B) p +
    w.V p * w.V p * -dd 1 (dd 1 w.B) p := funext fun p => C4_eq w p
  rw [this]
  have h (d e : ℕ) : Smooth (dd d (dd e w.B)) := (w.hB.dd e).dd d
  exact ((((w.hU.mul w.hU).mul (h 0 0).neg).add ((w.hU.mul w.hV).mul (h 1 0).neg)).add ((w.hU.mul w.hV).mul (h 0 1).neg)).add ((w.hV.mul w.hV).mul (h 1 1).neg)

/-- C90. `c2` and `c3` are the derivatives of `c1`. -/
theorem c2_eq (dir : ℕ) (hd : dir < 2) (p : ℝ × ℝ) : (if dir = 0 then c2 (w.pt p) else c3 (w.pt p)) = dd dir w.C1 p := by
  have a := w.hU.dd 0
  have b := w.hU.dd 1
  have c := w.hV.dd 0
  have d := w.hV.dd 1
  have e : w.C1 = fun p => (dd 0 w.U p * -dd 1 w.V p + dd 0 w.V p * dd 1 w.U p) + (dd 0 w.U p + dd 1 w.V p) * (dd 0 w.U p + dd 1 w.V p) := rfl
  rw [e, dd_add ((a.mul d.neg).add (c.mul b)) ((a.add d).mul (a.add d)), dd_add (a.mul d.neg) (c.mul b), dd_mul a d.neg, dd_mul c b,
    dd_mul (a.add d) (a.add d), dd_add a d, dd_neg]
  rcases (by omega : dir = 0 ∨ dir = 1) with rfl | rfl
  · simp only [c2, Flow.pt]; norm_num; ring
  · simp only [c3, Flow.pt]; norm_num; ring

/-- C90. `c5` and `c6` are the derivatives of `c4`. -/
theorem c5_eq (dir : ℕ) (hd : dir < 2) (p : ℝ × ℝ) : (if dir = 0 then c5 (w.pt p) else c6 (w.pt p)) = dd dir w.C4 p := by
  have this : w.C4 = fun p => w.U p * w.U p * -dd 0 (dd 0 w.B) p + w.U p * w.V p * -dd 1 (dd 0 w.B) p + w.U p * w.V p * -dd 0 (dd 1 w.B) p +
    w.V p * w.V p * -dd 1 (dd 1 w.B) p := funext fun p => C4_eq w p
  rw [this]
  have h (d e : ℕ) : Smooth (dd d (dd e w.B)) := (w.hB.dd e).dd d
  have u := w.hU
  have v := w.hV
  have a1 := (u.mul u).mul (h 0 0).neg
  have a2 := (u.mul v).mul (h 1 0).neg
  have a3 := (u.mul v).mul (h 0 1).neg
  have a4 := (v.mul v).mul (h 1 1).neg
  rw [dd_add ((a1.add a2).add a3) a4, dd_add (a1.add a2) a3, dd_add a1 a2, dd_mul (u.mul u) (h 0 0).neg, dd_mul (u.mul v) (h 1 0).neg,
    dd_mul (u.mul v) (h 0 1).neg, dd_mul (v.mul v) (h 1 1).neg, dd_mul u u, dd_mul u v, dd_mul v v, dd_neg, dd_neg, dd_neg, dd_neg]
  rcases (by omega : dir = 0 ∨ dir = 1) with rfl | rfl
  · simp only [c5, Flow.pt]; norm_num; ring
  · simp only [c6, Flow.pt]; norm_num; ring

/-- C90. What the code computes from exact derivatives differs from the source of the equations by exactly this term. -/
theorem source_defect (g al : ℝ) (dir : ℕ) (hd : dir < 2) (p : ℝ × ℝ) :
    dcSource g al (w.pt p) dir = w.source g al dir p + 2 * w.H p * (2 * w.H p * w.C1 p + w.C4 p) * dd dir w.bed p := by
  have hB : dd dir w.bed p = -dd dir w.B p := dd_neg dir p
  have hH : dd dir w.H p = dd dir w.Z p + dd dir w.B p := dd_add w.hZ w.hB dir p
  have h := w.hH
  have k1 := hC1 w
  have k4 := hC4 w
  have e1 := ((h.mul h).mul h).mul k1
  have e2 := (h.mul h).mul k4
  have hp : dd dir w.pot p = 2 / 3 * (w.H p * w.H p * w.H p * dd dir w.C1 p + 3 * (w.H p * w.H p * dd dir w.H p) * w.C1 p) +
      1 / 2 * (w.H p * w.H p * dd dir w.C4 p + 2 * (w.H p * dd dir w.H p) * w.C4 p) := by
    unfold Flow.pot
    rw [dd_add (contDiff_const.mul e1) (contDiff_const.mul e2), dd_mul contDiff_const e1, dd_mul contDiff_const e2, dd_mul ((h.mul h).mul h) k1,
      dd_mul (h.mul h) h, dd_mul (h.mul h) k4, dd_mul h h, dd_const, dd_const]
    ring
  unfold Flow.source
  rw [hp, hH, hB]
  have hz : (w.pt p).dze dir = dd dir w.Z p := by simp [Flow.pt, Nat.mod_eq_of_lt hd]
  have hb : (w.pt p).dbath dir = dd dir w.B p := by simp [Flow.pt, Nat.mod_eq_of_lt hd]
  have hh : (w.pt p).h = w.H p := rfl
  unfold dcSource dh
  rw [c1_eq, c4_eq, c2_eq w dir hd, c5_eq w dir hd, hz, hb, hh]
  ring

/-- C90, partial: right over a bed that is level at the point. -/
theorem source_partial (g al : ℝ) (dir : ℕ) (hd : dir < 2) (p : ℝ × ℝ) (h : dd dir w.bed p = 0) :
    dcSource g al (w.pt p) dir = w.source g al dir p := by
  rw [source_defect w g al dir hd, h]; ring

/-- C90: over a sloping bed it is right in wet points only where `2 h C1 + C4` vanishes. -/
theorem source_iff (g al : ℝ) (dir : ℕ) (hd : dir < 2) (p : ℝ × ℝ) (hs : dd dir w.bed p ≠ 0) (hw : w.H p ≠ 0) :
    dcSource g al (w.pt p) dir = w.source g al dir p ↔ 2 * w.H p * w.C1 p + w.C4 p = 0 := by
  rw [source_defect w g al dir hd]
  constructor
  · intro h
    have : 2 * w.H p * (2 * w.H p * w.C1 p + w.C4 p) * dd dir w.bed p = 0 := by linarith
    rcases mul_eq_zero.1 this with h1 | h1
    · rcases mul_eq_zero.1 h1 with h2 | h2
      · exact absurd h2 (mul_ne_zero two_ne_zero hw)
      · exact h2
    · exact absurd h1 hs
  · intro h; rw [h]; ring

/-- Stretching flow `u = x` over a beach, depth `1 + x` at level 0. -/
def beach : Flow where
  Z _ := 0
  B p := 1 + p.1
  U p := p.1
  V _ := 0
  hZ := contDiff_const
  hB := contDiff_const.add contDiff_fst
  hU := contDiff_fst
  hV := contDiff_const

theorem dd_fst (dir : ℕ) (p : ℝ × ℝ) : dd dir (fun q => q.1) p = if dir = 0 then 1 else 0 := by
  rw [dd_eq, fderiv_fst]; split <;> simp

/-- C90 is false: at the point (0, 0), where the water is one deep, the code is 4 too small. -/
theorem source_wrong (g al : ℝ) : dcSource g al (beach.pt (0, 0)) 0 ≠ beach.source g al 0 (0, 0) := by
  have hB : ∀ dir p, dd dir beach.B p = if dir = 0 then 1 else 0 := by
    intro dir p
    have : beach.B = fun q => (fun _ => (1 : ℝ)) q + (fun q : ℝ × ℝ => q.1) q := rfl
    rw [this, dd_add contDiff_const contDiff_fst, dd_const, dd_fst]; simp
  have hbed : ∀ dir p, dd dir beach.bed p = -(if dir = 0 then 1 else 0) := by
    intro dir p
    have : dd dir beach.bed p = -dd dir beach.B p := dd_neg dir p
    rw [this, hB]
  have hbed2 : ∀ d e p, dd d (dd e beach.bed) p = 0 := by
    intro d e p
    have : dd e beach.bed = fun _ => -(if e = 0 then 1 else 0) := funext (hbed e)
    rw [this, dd_const]
  have hU : ∀ dir p, dd dir beach.U p = if dir = 0 then 1 else 0 := fun dir p => dd_fst dir p
  have hV : ∀ dir p, dd dir beach.V p = 0 := fun dir p => dd_const 0 dir p
  have h1 : beach.C1 (0, 0) = 1 := by
    have e : beach.C1 (0, 0) = (dd 0 beach.U (0, 0) * -dd 1 beach.V (0, 0) + dd 0 beach.V (0, 0) * dd 1 beach.U (0, 0)) +
      (dd 0 beach.U (0, 0) + dd 1 beach.V (0, 0)) * (dd 0 beach.U (0, 0) + dd 1 beach.V (0, 0)) := rfl
    rw [e, hU, hU, hV, hV]; norm_num
  have h4 : beach.C4 (0, 0) = 0 := by
    simp [Flow.C4, beach]
  have hH : beach.H (0, 0) = 1 := by simp [Flow.H, beach]
  rw [Ne, source_iff beach g al 0 (by norm_num) _ (by rw [hbed]; norm_num) (by rw [hH]; norm_num), h1, h4, hH]
  norm_num

/-- Stretching flow over a flat bed: the hypotheses of `source_partial` hold and the source does not vanish. -/
def pool : Flow where
  Z _ := 0
  B _ := 1
  U p := p.1 * p.1
  V _ := 0
  hZ := contDiff_const
  hB := contDiff_const
  hU := contDiff_fst.mul contDiff_fst
  hV := contDiff_const

example (g al : ℝ) (p : ℝ × ℝ) : dcSource g al (pool.pt p) 0 = pool.source g al 0 p := source_partial pool g al 0 (by norm_num) p (by
  have : dd 0 pool.bed p = -dd 0 pool.B p := dd_neg 0 p
  rw [this]
  exact (congrArg _ (dd_const 1 0 p)).trans neg_zero)

/-! ### The equations the correction belongs to -/

/-- The material rate of change of the discharge: the slope of the level, as in shallow water, and the correction. -/
noncomputable def Flow.rate (g al : ℝ) (w1 : ℕ → Fld) (dir : ℕ) : Fld := fun p =>
  -(g * w.H p * dd dir w.Z p) + correction g al (w.H p) (dd dir w.Z p) (w1 dir p)

/-- C90: with `(1 + α T) w1 = R` the rates satisfy the Green-Naghdi equations `(1 + α T)(rate + (α - 1)/α g h ∇ζ) + R = 0`, whatever the operator. -/
theorem correction_balance {g al : ℝ} (ha : al ≠ 0) (L : (ℕ → Fld) →ₗ[ℝ] ℕ → Fld) {w1 : ℕ → Fld} (hw : L w1 = fun dir => w.source g al dir) :
    L (fun dir p => w.rate g al w1 dir p + (al - 1) / al * g * w.H p * dd dir w.Z p) + (fun dir => w.source g al dir) = 0 := by
  have e : (fun dir p => w.rate g al w1 dir p + (al - 1) / al * g * w.H p * dd dir w.Z p) = -w1 := by
    funext dir p
    simp only [Flow.rate, correction, Pi.neg_apply]
    field_simp
    ring
  rw [e, map_neg, hw, neg_add_cancel]

example (g : ℝ) (p : ℝ × ℝ) : pool.rate g 1 (fun dir => pool.source g 1 dir) 0 p = -pool.source g 1 0 p := by
  have h := congrFun (congrFun (correction_balance pool (al := 1) one_ne_zero LinearMap.id (w1 := fun dir => pool.source g 1 dir) rfl) 0) p
  simp only [Pi.add_apply, LinearMap.id_apply, Pi.zero_apply] at h
  linear_combination h

end Verif.Gn.Props
