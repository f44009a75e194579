import Verif.Props.Manufactured
import Verif.Model.GnSource
import Mathlib.Analysis.SpecialFunctions.Trigonometric.DerivHyp
import Mathlib.Analysis.SpecialFunctions.Arsinh

/-!
# C129: the solitary wave

The example of the Green-Naghdi equations compares with a solitary wave. It is a solution of the equations with `alpha = 1`, but the program uses `alpha = 1.159`,
with which it is not.
-/

namespace Verif.Examples.Props.Solitary
open Verif.Swe Verif.Examples Verif.Examples.Solitary Real

/-- The equations which the program solves over a flat bed at depth `H` for flows that depend on one coordinate: the shallow water equations with the correction
`g / alpha h ζ_x - w`, where `w - alpha/3 (h³ (w/h)_x)_x = 2/3 (h³ u_x²)_x + g / alpha h ζ_x`. -/
structure Dispersive (g al H : ℝ) (z q : ℝ → ℝ → ℝ) where
  depth : ∀ t x, 0 < z t x + H
  zt : ℝ → ℝ → ℝ
  qx : ℝ → ℝ → ℝ
  zx : ℝ → ℝ → ℝ
  ux : ℝ → ℝ → ℝ
  qt : ℝ → ℝ → ℝ
  fx : ℝ → ℝ → ℝ
  w : ℝ → ℝ → ℝ
  v : ℝ → ℝ → ℝ
  vx : ℝ → ℝ → ℝ
  sx : ℝ → ℝ → ℝ
  d_zt : ∀ t x, HasDerivAt (fun t => z t x) (zt t x) t
  d_qx : ∀ t x, HasDerivAt (fun x => q t x) (qx t x) x
  d_zx : ∀ t x, HasDerivAt (fun x => z t x) (zx t x) x
  d_ux : ∀ t x, HasDerivAt (fun x => q t x / (z t x + H)) (ux t x) x
  d_qt : ∀ t x, HasDerivAt (fun t => q t x) (qt t x) t
  d_fx : ∀ t x, HasDerivAt (fun x => q t x ^ 2 / (z t x + H) + g * ((z t x + H) ^ 2 - H ^ 2) / 2) (fx t x) x
  d_v : ∀ t x, HasDerivAt (fun x => w t x / (z t x + H)) (v t x) x
  d_vx : ∀ t x, HasDerivAt (fun x => (z t x + H) ^ 3 * v t x) (vx t x) x
  d_sx : ∀ t x, HasDerivAt (fun x => (z t x + H) ^ 3 * ux t x ^ 2) (sx t x) x
  mass : ∀ t x, zt t x + qx t x = 0
  momentum : ∀ t x, qt t x + fx t x = g / al * (zx t x * (z t x + H)) - w t x
  correction : ∀ t x, w t x - al / 3 * vx t x = 2 / 3 * sx t x + g / al * (zx t x * (z t x + H))

/-- The correction in `Dispersive` is that of the program. -/
theorem correction_textbook (g al h zx w : ℝ) : Gn.correction g al h zx w = g / al * (zx * h) - w := rfl

/-- The source in `Dispersive` is that of the program: with `h_x = ζ_x` over a flat bed, and velocities in the direction of the first coordinate. -/
theorem dcSource_textbook (g al h u ux uxx zx : ℝ) :
    Gn.dcSource g al ⟨h, fun i => if i = 0 then zx else 0, fun _ => 0, fun _ => 0, fun _ => 0, fun i => if i = 0 then u else 0, fun i => if i = 0 then ux else 0,
      fun i => if i = 0 then uxx else 0⟩ 0 = 2 / 3 * (3 * h ^ 2 * zx * ux ^ 2 + h ^ 3 * (2 * ux * uxx)) + g / al * (zx * h) := by
  simp only [Gn.dcSource, Gn.c1, Gn.c2, Gn.c4, Gn.c5, Gn.dh]
  norm_num
  ring

/-! ### Waves of constant form -/

section
variable {g al H c : ℝ} {z z1 z2 z3 : ℝ → ℝ → ℝ}

/-- A wave which travels with velocity `c`, with its derivatives. -/
structure Travels (c : ℝ) (z z1 z2 z3 : ℝ → ℝ → ℝ) : Prop where
  t : ∀ t x, HasDerivAt (fun t => z t x) (-(c * z1 t x)) t
  x : ∀ t x, HasDerivAt (fun x => z t x) (z1 t x) x
  xx : ∀ t x, HasDerivAt (fun x => z1 t x) (z2 t x) x
  xxx : ∀ t x, HasDerivAt (fun x => z2 t x) (z3 t x) x

/-- What remains of the last equation. -/
def Remains (g al H c z z1 z2 z3 : ℝ) : Prop :=
  g * (1 / al - 1) * z1 * (z + H) + c ^ 2 * H ^ 2 * z1 / (z + H) ^ 2 - al / 3 * (g * (1 / al - 1) * (3 * (z + H) ^ 2 * z1 * z2 + (z + H) ^ 3 * z3) +
    c ^ 2 * H ^ 2 * (z3 - 6 * z1 * z2 / (z + H) + 3 * z1 ^ 3 / (z + H) ^ 2)) =
  2 / 3 * (c ^ 2 * H ^ 2 * (2 * z1 * z2 / (z + H) - z1 ^ 3 / (z + H) ^ 2)) + g / al * (z1 * (z + H))

theorem d_ux (hT : Travels c z z1 z2 z3) (hh : ∀ t x, 0 < z t x + H) (t x : ℝ) :
    HasDerivAt (fun x => c * z t x / (z t x + H)) (c * H * z1 t x / (z t x + H) ^ 2) x := by
  have hn := (hh t x).ne'
  refine (((hT.x t x).const_mul c).fun_div ((hT.x t x).add_const H) hn).congr_deriv ?_
  field_simp
  ring

theorem d_fx (hT : Travels c z z1 z2 z3) (hh : ∀ t x, 0 < z t x + H) (t x : ℝ) :
    HasDerivAt (fun x => (c * z t x) ^ 2 / (z t x + H) + g * ((z t x + H) ^ 2 - H ^ 2) / 2)
      (c ^ 2 * (1 - H ^ 2 / (z t x + H) ^ 2) * z1 t x + g * (z t x + H) * z1 t x) x := by
  have hn := (hh t x).ne'
  refine (((((hT.x t x).const_mul c).fun_pow 2).fun_div ((hT.x t x).add_const H) hn).fun_add
    (((((hT.x t x).add_const H).fun_pow 2).sub_const (H ^ 2)).const_mul g |>.div_const 2)).congr_deriv ?_
  simp only [Nat.cast_ofNat, Nat.add_one_sub_one, pow_one]
  field_simp
  ring

theorem d_v (hT : Travels c z z1 z2 z3) (hh : ∀ t x, 0 < z t x + H) (k : ℝ) (t x : ℝ) :
    HasDerivAt (fun x => (k * z1 t x * (z t x + H) + c ^ 2 * H ^ 2 * z1 t x / (z t x + H) ^ 2) / (z t x + H))
      (k * z2 t x + c ^ 2 * H ^ 2 * (z2 t x / (z t x + H) ^ 3 - 3 * z1 t x ^ 2 / (z t x + H) ^ 4)) x := by
  have hn := (hh t x).ne'
  have hx := (hT.x t x).add_const H
  refine ((((((hT.xx t x).const_mul k).fun_mul hx).fun_add ((((hT.xx t x).const_mul (c ^ 2 * H ^ 2)).fun_div (hx.fun_pow 2) (pow_ne_zero 2 hn)))).fun_div hx hn)).congr_deriv ?_
  simp only [Nat.cast_ofNat, Nat.add_one_sub_one, pow_one]
  field_simp
  ring

theorem d_vx (hT : Travels c z z1 z2 z3) (hh : ∀ t x, 0 < z t x + H) (k : ℝ) (t x : ℝ) :
    HasDerivAt (fun x => (z t x + H) ^ 3 * (k * z2 t x + c ^ 2 * H ^ 2 * (z2 t x / (z t x + H) ^ 3 - 3 * z1 t x ^ 2 / (z t x + H) ^ 4)))
      (k * (3 * (z t x + H) ^ 2 * z1 t x * z2 t x + (z t x + H) ^ 3 * z3 t x) +
        c ^ 2 * H ^ 2 * (z3 t x - 6 * z1 t x * z2 t x / (z t x + H) + 3 * z1 t x ^ 3 / (z t x + H) ^ 2)) x := by
  have hn := (hh t x).ne'
  have hx := (hT.x t x).add_const H
  refine ((hx.fun_pow 3).fun_mul (((hT.xxx t x).const_mul k).fun_add ((((hT.xxx t x).fun_div (hx.fun_pow 3) (pow_ne_zero 3 hn)).fun_sub
    ((((hT.xx t x).fun_pow 2).const_mul 3).fun_div (hx.fun_pow 4) (pow_ne_zero 4 hn))).const_mul (c ^ 2 * H ^ 2)))).congr_deriv ?_
  simp only [Nat.cast_ofNat, Nat.add_one_sub_one, pow_one]
  field_simp
  ring

theorem d_sx (hT : Travels c z z1 z2 z3) (hh : ∀ t x, 0 < z t x + H) (t x : ℝ) :
    HasDerivAt (fun x => (z t x + H) ^ 3 * (c * H * z1 t x / (z t x + H) ^ 2) ^ 2)
      (c ^ 2 * H ^ 2 * (2 * z1 t x * z2 t x / (z t x + H) - z1 t x ^ 3 / (z t x + H) ^ 2)) x := by
  have hn := (hh t x).ne'
  have hx := (hT.x t x).add_const H
  refine ((hx.fun_pow 3).fun_mul ((((hT.xx t x).const_mul (c * H)).fun_div (hx.fun_pow 2) (pow_ne_zero 2 hn)).fun_pow 2)).congr_deriv ?_
  simp only [Nat.cast_ofNat, Nat.add_one_sub_one, pow_one]
  field_simp
  ring

/-- For a wave of constant form with discharge `c ζ` one equation remains. -/
theorem travel_iff (hT : Travels c z z1 z2 z3) (hh : ∀ t x, 0 < z t x + H) (hal : al ≠ 0) :
    Nonempty (Dispersive g al H z fun t x => c * z t x) ↔ ∀ t x, Remains g al H c (z t x) (z1 t x) (z2 t x) (z3 t x) := by
  constructor
  · rintro ⟨D⟩ t x
    have e1 : ∀ t x, D.zx t x = z1 t x := fun t x => (D.d_zx t x).unique (hT.x t x)
    have e2 : ∀ t x, D.ux t x = c * H * z1 t x / (z t x + H) ^ 2 := fun t x => (D.d_ux t x).unique (d_ux hT hh t x)
    have e3 : ∀ t x, D.qt t x = c * -(c * z1 t x) := fun t x => (D.d_qt t x).unique ((hT.t t x).const_mul c)
    have e4 : ∀ t x, D.fx t x = c ^ 2 * (1 - H ^ 2 / (z t x + H) ^ 2) * z1 t x + g * (z t x + H) * z1 t x := fun t x => (D.d_fx t x).unique (d_fx hT hh t x)
    have e5 : ∀ t x, D.w t x = g * (1 / al - 1) * z1 t x * (z t x + H) + c ^ 2 * H ^ 2 * z1 t x / (z t x + H) ^ 2 := by
      intro t x
      have h := D.momentum t x
      rw [e1, e3, e4] at h
      linear_combination h
    have e6 : ∀ t x, D.v t x = g * (1 / al - 1) * z2 t x + c ^ 2 * H ^ 2 * (z2 t x / (z t x + H) ^ 3 - 3 * z1 t x ^ 2 / (z t x + H) ^ 4) := by
      intro t x
      have h := D.d_v t x
      simp only [e5] at h
      exact h.unique (d_v hT hh _ t x)
    have e7 := D.d_vx t x
    simp only [e6] at e7
    have e7 := e7.unique (d_vx hT hh _ t x)
    have e8 := D.d_sx t x
    simp only [e2] at e8
    have e8 := e8.unique (d_sx hT hh t x)
    have h := D.correction t x
    rw [e1, e5, e7, e8] at h
    exact h
  · intro h
    exact ⟨{
      depth := hh
      zt := fun t x => -(c * z1 t x)
      qx := fun t x => c * z1 t x
      zx := z1
      ux := fun t x => c * H * z1 t x / (z t x + H) ^ 2
      qt := fun t x => c * -(c * z1 t x)
      fx := fun t x => c ^ 2 * (1 - H ^ 2 / (z t x + H) ^ 2) * z1 t x + g * (z t x + H) * z1 t x
      w := fun t x => g * (1 / al - 1) * z1 t x * (z t x + H) + c ^ 2 * H ^ 2 * z1 t x / (z t x + H) ^ 2
      v := fun t x => g * (1 / al - 1) * z2 t x + c ^ 2 * H ^ 2 * (z2 t x / (z t x + H) ^ 3 - 3 * z1 t x ^ 2 / (z t x + H) ^ 4)
      vx := fun t x => g * (1 / al - 1) * (3 * (z t x + H) ^ 2 * z1 t x * z2 t x + (z t x + H) ^ 3 * z3 t x) +
        c ^ 2 * H ^ 2 * (z3 t x - 6 * z1 t x * z2 t x / (z t x + H) + 3 * z1 t x ^ 3 / (z t x + H) ^ 2)
      sx := fun t x => c ^ 2 * H ^ 2 * (2 * z1 t x * z2 t x / (z t x + H) - z1 t x ^ 3 / (z t x + H) ^ 2)
      d_zt := hT.t
      d_qx := fun t x => (hT.x t x).const_mul c
      d_zx := hT.x
      d_ux := d_ux hT hh
      d_qt := fun t x => (hT.t t x).const_mul c
      d_fx := d_fx hT hh
      d_v := d_v hT hh _
      d_vx := d_vx hT hh _
      d_sx := d_sx hT hh
      mass := fun t x => by ring
      momentum := fun t x => by ring
      correction := h }⟩

end

/-! ### The wave of the example -/

/-- The hyperbolic tangent in the coordinate of the wave. -/
noncomputable def tn (t x : ℝ) : ℝ := tanh (w * (x - xo - co * t))

theorem sech_sq (y : ℝ) : (1 / cosh y) ^ 2 = 1 - tanh y ^ 2 := by
  have h := cosh_sq y
  have hc := (cosh_pos y).ne'
  rw [tanh_eq_sinh_div_cosh]
  field_simp
  linarith

theorem level (t x y : ℝ) : (trueQ t x y).ze = ao * (1 - tn t x ^ 2) := by
  simp only [trueQ, tn, sech_sq]

theorem tanh_deriv (y : ℝ) : HasDerivAt tanh (1 - tanh y ^ 2) y := by
  have hc := (cosh_pos y).ne'
  have e : tanh = fun y => sinh y / cosh y := funext tanh_eq_sinh_div_cosh
  rw [e]
  refine ((hasDerivAt_sinh y).fun_div (hasDerivAt_cosh y) hc).congr_deriv ?_
  field_simp

theorem tn_x (t x : ℝ) : HasDerivAt (fun x => tn t x) (w * (1 - tn t x ^ 2)) x := by
  refine ((tanh_deriv _).comp x ((((hasDerivAt_id x).sub_const xo).sub_const (co * t)).const_mul w)).congr_deriv ?_
  simp only [tn, id]; ring

theorem tn_t (t x : ℝ) : HasDerivAt (fun t => tn t x) (-(co * (w * (1 - tn t x ^ 2)))) t := by
  refine ((tanh_deriv _).comp t (((((hasDerivAt_id t).const_mul co).const_sub (x - xo))).const_mul w)).congr_deriv ?_
  simp only [tn, id]; ring

theorem travels : Travels co (fun t x => ao * (1 - tn t x ^ 2)) (fun t x => -2 * ao * w * (tn t x * (1 - tn t x ^ 2)))
    (fun t x => -2 * ao * w ^ 2 * ((1 - 3 * tn t x ^ 2) * (1 - tn t x ^ 2))) (fun t x => -2 * ao * w ^ 3 * ((12 * tn t x ^ 3 - 8 * tn t x) * (1 - tn t x ^ 2))) where
  t := fun t x => by
    refine ((((tn_t t x).fun_pow 2).const_sub 1).const_mul ao).congr_deriv ?_
    simp only [Nat.cast_ofNat, Nat.add_one_sub_one, pow_one]; ring
  x := fun t x => by
    refine ((((tn_x t x).fun_pow 2).const_sub 1).const_mul ao).congr_deriv ?_
    simp only [Nat.cast_ofNat, Nat.add_one_sub_one, pow_one]; ring
  xx := fun t x => by
    refine (((tn_x t x).fun_mul (((tn_x t x).fun_pow 2).const_sub 1)).const_mul (-2 * ao * w)).congr_deriv ?_
    simp only [Nat.cast_ofNat, Nat.add_one_sub_one, pow_one]; ring
  xxx := fun t x => by
    refine ((((((tn_x t x).fun_pow 2).const_mul 3).const_sub 1).fun_mul (((tn_x t x).fun_pow 2).const_sub 1)).const_mul (-2 * ao * w ^ 2)).congr_deriv ?_
    simp only [Nat.cast_ofNat, Nat.add_one_sub_one, pow_one]; ring

theorem tn_sq (t x : ℝ) : tn t x ^ 2 < 1 := by
  have h := sech_sq (w * (x - xo - co * t))
  have hp : 0 < (1 / cosh (w * (x - xo - co * t))) ^ 2 := by have := cosh_pos (w * (x - xo - co * t)); positivity
  unfold tn
  linarith

theorem wave_depth (t x : ℝ) : 0 < ao * (1 - tn t x ^ 2) + Ho := by
  have := tn_sq t x
  unfold ao Ho
  linarith

theorem co_sq : co ^ 2 = g * (Ho + ao) := sq_sqrt (by unfold g Ho ao; norm_num)

theorem w_sq : w ^ 2 = 3 / 11 := by
  unfold w
  rw [div_pow, mul_pow, sq_sqrt (by unfold ao; norm_num), sq_sqrt (by unfold Ho ao; norm_num)]
  unfold Ho ao
  norm_num

theorem w_pos : 0 < w := by
  unfold w
  refine div_pos (sqrt_pos.2 ?_) (mul_pos ?_ (sqrt_pos.2 ?_)) <;> simp only [ao, Ho] <;> norm_num

theorem discharge (t x y : ℝ) : (trueQ t x y).qx = co * (ao * (1 - tn t x ^ 2)) := by
  simp only [trueQ, tn, sech_sq]; ring

/-- A polynomial. -/
noncomputable def excess (T : ℝ) : ℝ :=
  11 / 80 * (-(12 * T ^ 2 - 8) / 10 * (11 - T ^ 2) ^ 2 - 6 / 5 * (1 - 3 * T ^ 2) * (1 - T ^ 2) * (11 - T ^ 2) - 6 / 5 * T ^ 2 * (1 - T ^ 2) ^ 2) -
    (11 - T ^ 2) ^ 4 / 400 * (3 * (1 - 3 * T ^ 2) * (1 - T ^ 2) / 100 - (11 - T ^ 2) * (12 * T ^ 2 - 8) / 200)

theorem remains_iff (al t x : ℝ) (hal : al ≠ 0) : Remains g al Ho co (ao * (1 - tn t x ^ 2)) (-2 * ao * w * (tn t x * (1 - tn t x ^ 2)))
    (-2 * ao * w ^ 2 * ((1 - 3 * tn t x ^ 2) * (1 - tn t x ^ 2))) (-2 * ao * w ^ 3 * ((12 * tn t x ^ 3 - 8 * tn t x) * (1 - tn t x ^ 2))) ↔
    (al - 1) * (tn t x * excess (tn t x)) = 0 := by
  have hT := tn_sq t x
  generalize tn t x = T at hT ⊢
  have hh : (11 - T ^ 2) ≠ 0 := by linarith
  have e0 : ao * (1 - T ^ 2) + Ho = (11 - T ^ 2) / 20 := by unfold ao Ho; ring
  have e1 : co ^ 2 = 981 / 100 * (55 / 100) := by rw [co_sq]; unfold g Ho ao; norm_num
  have e2 : w ^ 3 = w * (3 / 11) := by rw [← w_sq]; ring
  have e3 : (-2 * ao * w * (T * (1 - T ^ 2))) ^ 3 = (-2 * ao) ^ 3 * (w * (3 / 11)) * (T * (1 - T ^ 2)) ^ 3 := by rw [← e2]; ring
  unfold Remains
  rw [e0, e3, e1, e2, w_sq]
  unfold ao Ho g
  rw [← sub_eq_zero]
  have hS : 1 - T ^ 2 ≠ 0 := by linarith
  have hw := w_pos.ne'
  have key : ∀ A B : ℝ, A - B = -(w * (981 / 1100)) * (1 - T ^ 2) / (11 - T ^ 2) ^ 2 * ((al - 1) * (T * excess T)) → (A - B = 0 ↔ (al - 1) * (T * excess T) = 0) := by
    intro A B h
    rw [h, mul_eq_zero, or_iff_right]
    exact div_ne_zero (mul_ne_zero (neg_ne_zero.2 (mul_ne_zero hw (by norm_num))) hS) (pow_ne_zero 2 hh)
  refine key _ _ ?_
  unfold excess
  field_simp
  ring

/-- C129, with `alpha = 1`: the initial data and the true solution of the example are the same, and satisfy the equations of the program with the gravity and the bed of
the example. -/
theorem solitary_solves_partial : ic = trueQ ∧ Nonempty (Dispersive g 1 Ho (fun t x => (trueQ t x 0).ze) fun t x => (trueQ t x 0).qx) ∧
    (∀ x y, bath x y = Ho) ∧ ∀ t x y, (trueQ t x y).qy = 0 ∧ source t x y = ⟨0, 0, 0⟩ := by
  refine ⟨rfl, ?_, fun _ _ => rfl, fun _ _ _ => ⟨rfl, rfl⟩⟩
  simp only [level, discharge]
  rw [travel_iff travels wave_depth one_ne_zero]
  intro t x
  rw [remains_iff 1 t x one_ne_zero]
  ring

/-- With the value of `alpha` in the program they do not. -/
theorem not_with_alpha : ¬ Nonempty (Dispersive g alpha Ho (fun t x => (trueQ t x 0).ze) fun t x => (trueQ t x 0).qx) := by
  have ha : alpha ≠ 0 := by unfold alpha; norm_num
  simp only [level, discharge]
  rw [travel_iff travels wave_depth ha]
  intro h
  have h := h 0 (xo + arsinh (3 / 4) / w)
  rw [remains_iff alpha _ _ ha] at h
  have hw := w_pos.ne'
  have hT : tn 0 (xo + arsinh (3 / 4) / w) = 3 / 5 := by
    unfold tn
    rw [show w * (xo + arsinh (3 / 4) / w - xo - co * 0) = arsinh (3 / 4) by field_simp; ring, tanh_eq_sinh_div_cosh, sinh_arsinh, cosh_arsinh,
      show (1 : ℝ) + (3 / 4) ^ 2 = (5 / 4) ^ 2 by norm_num, sqrt_sq (by norm_num)]
    norm_num
  rw [hT] at h
  unfold alpha excess at h
  norm_num at h

end Verif.Examples.Props.Solitary
