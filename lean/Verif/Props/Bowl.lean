import Verif.Props.Manufactured
import Mathlib.Analysis.SpecialFunctions.Trigonometric.Inverse

/-!
# C128: the parabolic bowl

The initial data of the example are those of an exact solution of the shallow water equations, an oscillation in a bowl (Thacker's solution), where there is water. But
it reaches the walls of the basin of the example.
-/

namespace Verif.Examples.Props.Bowl
open Verif.Swe Verif.Examples Verif.Examples.Bowl Real

/-- The frequency of the oscillation. -/
noncomputable def freq : ℝ := √(8 * g * alpha)

/-- What is `X + Y` at the beginning. -/
noncomputable def den (t : ℝ) : ℝ := X + Y * cos (freq * t)

/-- Its rate of change. -/
noncomputable def den' (t : ℝ) : ℝ := -(Y * freq * sin (freq * t))

/-- The depth of the oscillating water; where it is negative there is no water. -/
noncomputable def water (t x y : ℝ) : ℝ := 1 / den t + alpha * (Y * Y - X * X) / (den t * den t) * (x * x + y * y)

/-- The oscillation. The velocity is proportional to the distance from the centre. -/
noncomputable def flow (t x y : ℝ) : Q ℝ :=
  ⟨water t x y - bath x y, water t x y * (den' t / (2 * den t) * x), water t x y * (den' t / (2 * den t) * y)⟩

theorem freq_sq : freq ^ 2 = 8 * g * alpha := sq_sqrt (by unfold g alpha; norm_num)

theorem den_pos (t : ℝ) : 0 < den t := by
  have := cos_le_one (freq * t)
  unfold den X Y
  linarith

theorem den_deriv (t : ℝ) : HasDerivAt den (den' t) t := by
  have h := ((((hasDerivAt_id t).const_mul freq).cos).const_mul Y).const_add X
  refine h.congr_deriv ?_
  unfold den'; simp only [id]; ring

theorem den'_deriv (t : ℝ) : HasDerivAt den' (-(freq ^ 2 * (den t - X))) t := by
  have h := ((((hasDerivAt_id t).const_mul freq).sin).const_mul (Y * freq)).fun_neg
  refine h.congr_deriv ?_
  unfold den; simp only [id]; ring

/-- The energy of the oscillation of `den`. -/
theorem den_energy (t : ℝ) : den' t ^ 2 = freq ^ 2 * (Y ^ 2 - (den t - X) ^ 2) := by
  have h := sin_sq_add_cos_sq (freq * t)
  unfold den' den
  linear_combination Y ^ 2 * freq ^ 2 * h

/-- At the beginning the flow is the initial data of the example. -/
theorem initial (x y : ℝ) : flow 0 x y = ic 0 x y := by
  have h0 : den 0 = X + Y := by unfold den; simp
  have h1 : den' 0 = 0 := by unfold den'; simp
  simp only [flow, ic, water, h0, h1, zero_div, zero_mul, mul_zero, bath]

/-- The velocity at distance one. -/
noncomputable def rate (t : ℝ) : ℝ := den' t / (2 * den t)

/-- Half the curvature of the surface of the column. -/
noncomputable def curv (t : ℝ) : ℝ := alpha * (Y * Y - X * X) / (den t * den t)

theorem rate_deriv (t : ℝ) : HasDerivAt rate (-(rate t ^ 2 + 2 * g * (curv t + alpha))) t := by
  have hd := (den_pos t).ne'
  have h := (den'_deriv t).fun_div ((den_deriv t).const_mul 2) (by simpa using hd)
  refine h.congr_deriv ?_
  have e1 := den_energy t
  have e2 := freq_sq
  unfold rate curv
  rw [div_pow, ← sub_eq_zero]
  field_simp
  rw [e1, e2]
  ring

theorem water_t (t x y : ℝ) : HasDerivAt (fun t => water t x y) (-(2 * rate t * (water t x y + curv t * (x * x + y * y)))) t := by
  have hd := (den_pos t).ne'
  have h := ((hasDerivAt_const t (1 : ℝ)).fun_div (den_deriv t) hd).fun_add
    (((hasDerivAt_const t (alpha * (Y * Y - X * X))).fun_div ((den_deriv t).fun_mul (den_deriv t)) (mul_ne_zero hd hd)).mul_const (x * x + y * y))
  refine h.congr_deriv ?_
  unfold rate curv water
  field_simp
  ring

theorem water_x (t x y : ℝ) : HasDerivAt (fun x => water t x y) (2 * curv t * x) x := by
  have h := (((((hasDerivAt_id x).fun_mul (hasDerivAt_id x)).add_const (y * y)).const_mul (curv t)).const_add (1 / den t))
  refine h.congr_deriv ?_
  simp only [id]; ring

theorem water_y (t x y : ℝ) : HasDerivAt (fun y => water t x y) (2 * curv t * y) y := by
  have h := (((((hasDerivAt_id y).fun_mul (hasDerivAt_id y)).const_add (x * x)).const_mul (curv t)).const_add (1 / den t))
  refine h.congr_deriv ?_
  simp only [id]; ring

theorem bath_x (x y : ℝ) : HasDerivAt (fun x => bath x y) (-(2 * alpha * x)) x := by
  have h := (((hasDerivAt_id x).fun_mul (hasDerivAt_id x)).add_const (y * y)).const_mul (-alpha)
  refine h.congr_deriv ?_
  simp only [id]; ring

theorem bath_y (x y : ℝ) : HasDerivAt (fun y => bath x y) (-(2 * alpha * y)) y := by
  have h := (((hasDerivAt_id y).fun_mul (hasDerivAt_id y)).const_add (x * x)).const_mul (-alpha)
  refine h.congr_deriv ?_
  simp only [id]; ring

/-- C128: the flow with the initial data of the example satisfies the shallow water equations over the bed of the example, wherever and whenever there is water. -/
theorem bowl_solves_partial (t x y : ℝ) (h : 0 < water t x y) : Holds g bath (fun _ _ _ => ⟨0, 0, 0⟩) flow t x y := by
  have hne : water t x y - bath x y + bath x y ≠ 0 := by rw [sub_add_cancel]; exact h.ne'
  have hx := ((water_x t x y).fun_sub (bath_x x y)).fun_add (bath_x x y)
  have hy := ((water_y t x y).fun_sub (bath_y x y)).fun_add (bath_y x y)
  have px := (water_x t x y).fun_mul ((hasDerivAt_id x).const_mul (rate t))
  have py := (water_y t x y).mul_const (rate t * x)
  have rx := (water_x t x y).mul_const (rate t * y)
  have ry := (water_y t x y).fun_mul ((hasDerivAt_id y).const_mul (rate t))
  have pt := (water_t t x y).fun_mul ((rate_deriv t).mul_const x)
  have rt := (water_t t x y).fun_mul ((rate_deriv t).mul_const y)
  have f1 := ((px.fun_pow 2).fun_div hx hne).fun_add ((((hx.fun_pow 2).fun_sub ((bath_x x y).fun_pow 2)).const_mul g).div_const 2)
  have f2 := (py.fun_mul ry).fun_div hy hne
  have f3 := (px.fun_mul rx).fun_div hx hne
  have f4 := ((ry.fun_pow 2).fun_div hy hne).fun_add ((((hy.fun_pow 2).fun_sub ((bath_y x y).fun_pow 2)).const_mul g).div_const 2)
  have hW := h.ne'
  refine ⟨by simpa only [flow, sub_add_cancel] using h, ⟨_, _, _, water_t t x y |>.sub_const (bath x y), px, ry, ?_⟩,
    ⟨_, _, _, _, pt, f1, f2, bath_x x y, ?_⟩, ⟨_, _, _, _, rt, f3, f4, bath_y x y, ?_⟩⟩
  · simp only [id]; ring
  · simp only [id, flow, Nat.cast_ofNat, Nat.add_one_sub_one, pow_one, sub_add_cancel]
    field_simp
    ring
  · simp only [id, flow, Nat.cast_ofNat, Nat.add_one_sub_one, pow_one, sub_add_cancel]
    field_simp
    ring

/-- There is water in the middle at the beginning, and none far away. -/
example : 0 < water 0 0 0 ∧ water 0 4000 0 < 0 := by
  have h0 : den 0 = X + Y := by unfold den; simp
  unfold water
  rw [h0]
  unfold X Y alpha
  constructor <;> norm_num

/-- But this is not what the example computes: within its duration the solution has water at the walls of the basin and a discharge through them, which land boundaries
do not let through. -/
theorem reaches_wall : ∃ t, 0 < t ∧ t < duration ∧ 0 < water t size 0 ∧ (flow t size 0).qx ≠ 0 := by
  have hf : (2 : ℝ) / 1000 < freq := by
    unfold freq g alpha
    apply lt_sqrt_of_sq_lt
    norm_num
  have hf0 : 0 < freq := lt_trans (by norm_num) hf
  have hc : cos (arccos (-(4 / 5))) = -(4 / 5) := cos_arccos (by norm_num) (by norm_num)
  have hs : sin (arccos (-(4 / 5))) = 3 / 5 := by
    rw [sin_arccos, show 1 - (-(4 / 5) : ℝ) ^ 2 = (3 / 5) ^ 2 by norm_num]
    exact sqrt_sq (by norm_num)
  have hp : 0 < arccos (-(4 / 5)) := by rw [arccos_pos]; norm_num
  have hm : freq * (arccos (-(4 / 5)) / freq) = arccos (-(4 / 5)) := by field_simp
  have hd : den (arccos (-(4 / 5)) / freq) = 1335072 / 1000000 := by
    unfold den
    rw [hm, hc]
    unfold X Y
    norm_num
  have hw : 0 < water (arccos (-(4 / 5)) / freq) size 0 := by
    unfold water
    rw [hd]
    unfold alpha X Y size
    norm_num
  refine ⟨arccos (-(4 / 5)) / freq, div_pos hp hf0, ?_, hw, ?_⟩
  · rw [div_lt_iff₀ hf0]
    have h1 := arccos_le_pi (-(4 / 5))
    have h2 := pi_le_four
    have h3 : duration * (2 / 1000) ≤ duration * freq := mul_le_mul_of_nonneg_left hf.le (by unfold duration; norm_num)
    have h4 : duration * (2 / 1000) = 72 / 10 := by unfold duration; norm_num
    linarith
  · simp only [flow]
    rw [hd]
    refine mul_ne_zero hw.ne' (mul_ne_zero (div_ne_zero ?_ (by norm_num)) (by unfold size; norm_num))
    unfold den'
    rw [hm, hs]
    refine neg_ne_zero.2 (mul_ne_zero (mul_ne_zero (by unfold Y; norm_num) hf0.ne') (by norm_num))

end Verif.Examples.Props.Bowl
