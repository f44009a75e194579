import Verif.Props.SweSource

/-!
# C69: derivatives of the source in the implicit scheme
-/

namespace Verif.Swe.Props
open Verif.Swe Verif.Geometry Verif.Geometry.Props

/-- The cube root the code means by `pow(h, 1.0 / 3.0)`. -/
noncomputable def cbrt (h : ℝ) : ℝ := h ^ (1 / 3 : ℝ)

theorem cbrt_pos {h : ℝ} (hh : 0 < h) : 0 < cbrt h := Real.rpow_pos_of_pos hh _

/-- The coefficient is not at the point where Manning's law meets the minimum. -/
def Smooth (s : SourceTerms ℝ) (e : EltSource ℝ) (h : ℝ) : Prop := e.manning = true → e.gn2 / cbrt h ≠ s.Cf

theorem manning_deriv (n : ℝ) {h : ℝ} (hh : 0 < h) : HasDerivAt (fun x => n / cbrt x) (-n / (h * cbrt h) / 3) h := by
  have h1 : HasDerivAt cbrt ((1 / 3 : ℝ) * h ^ ((1 / 3 : ℝ) - 1)) h := Real.hasDerivAt_rpow_const (Or.inl hh.ne')
  have h2 := (hasDerivAt_const h n).div h1 (cbrt_pos hh).ne'
  have e1 : h ^ ((1 / 3 : ℝ) - 1) = cbrt h / h := by rw [Real.rpow_sub_one hh.ne']; rfl
  rw [e1] at h2
  have hc := (cbrt_pos hh).ne'
  have h0 := hh.ne'
  have e2 : (0 * cbrt h - n * (1 / 3 * (cbrt h / h))) / cbrt h ^ 2 = -n / (h * cbrt h) / 3 := by field_simp; ring
  rw [e2] at h2
  exact h2

theorem cf_fst (cb : ℝ → ℝ) (s : SourceTerms ℝ) (e : EltSource ℝ) (h : ℝ) : (frictionCfD cb s e h).1 = frictionCf cb s e h := by
  unfold frictionCfD frictionCf
  split_ifs with h1
  · dsimp only; split_ifs <;> rfl
  · rfl

theorem cf_deriv (s : SourceTerms ℝ) (e : EltSource ℝ) {h : ℝ} (hh : 0 < h) (hs : Smooth s e h) :
    HasDerivAt (frictionCf cbrt s e) (frictionCfD cbrt s e h).2 h := by
  have hc : ContinuousAt (fun x => e.gn2 / cbrt x) h := (manning_deriv e.gn2 hh).continuousAt
  by_cases hm : e.manning = true
  · by_cases hlt : e.gn2 / cbrt h < s.Cf
    · have e1 : (frictionCfD cbrt s e h).2 = 0 := by
        unfold frictionCfD; rw [if_pos hm]; dsimp only; rw [if_pos hlt]
      rw [e1]
      refine (hasDerivAt_const h s.Cf).congr_of_eventuallyEq ?_
      filter_upwards [hc.eventually (gt_mem_nhds hlt)] with x hx
      unfold frictionCf; rw [if_pos hm]; dsimp only; rw [if_pos hx]
    · have hgt : s.Cf < e.gn2 / cbrt h := lt_of_le_of_ne (not_lt.mp hlt) (Ne.symm (hs hm))
      have e1 : (frictionCfD cbrt s e h).2 = -e.gn2 / (h * cbrt h) / 3 := by
        unfold frictionCfD; rw [if_pos hm]; dsimp only; rw [if_neg hlt]
      rw [e1]
      refine (manning_deriv e.gn2 hh).congr_of_eventuallyEq ?_
      filter_upwards [hc.eventually (lt_mem_nhds hgt)] with x hx
      unfold frictionCf; rw [if_pos hm]; dsimp only; rw [if_neg (not_lt.mpr (le_of_lt hx))]
  · have e1 : (frictionCfD cbrt s e h).2 = 0 := by unfold frictionCfD; rw [if_neg hm]
    rw [e1]
    refine (hasDerivAt_const h s.Cf).congr_of_eventuallyEq ?_
    filter_upwards with x
    unfold frictionCf; rw [if_neg hm]

theorem speed_pos {x y h : ℝ} (hh : 0 < h) (hq : x ≠ 0 ∨ y ≠ 0) : 0 < x / h * (x / h) + y / h * (y / h) := by
  have e : x / h * (x / h) + y / h * (y / h) = (x ^ 2 + y ^ 2) / h ^ 2 := by have := hh.ne'; field_simp
  rw [e]
  apply div_pos _ (by positivity)
  rcases hq with h1 | h1
  · have : 0 < x ^ 2 := by positivity
    nlinarith [sq_nonneg y]
  · have : 0 < y ^ 2 := by positivity
    nlinarith [sq_nonneg x]

/-- Speed as a function of the water level. -/
theorem speed_dze (x y b : ℝ) {z : ℝ} (hh : 0 < z + b) (hq : x ≠ 0 ∨ y ≠ 0) :
    HasDerivAt (fun t => hypot Real.sqrt (x / (t + b)) (y / (t + b))) (-(hypot Real.sqrt (x / (z + b)) (y / (z + b)) / (z + b))) z := by
  have h0 := hh.ne'
  have hp := speed_pos hh hq
  have hd : HasDerivAt (fun t => t + b) 1 z := (hasDerivAt_id z).add_const b
  have hx := (hasDerivAt_const z x).div hd h0
  have hy := (hasDerivAt_const z y).div hd h0
  have h1 := ((hx.mul hx).add (hy.mul hy)).sqrt hp.ne'
  refine h1.congr_deriv ?_
  dsimp only [Pi.div_apply, Pi.mul_apply, Pi.add_apply, hypot]
  have hw : Real.sqrt (x / (z + b) * (x / (z + b)) + y / (z + b) * (y / (z + b))) ≠ 0 := (Real.sqrt_pos.mpr hp).ne'
  have hww := Real.mul_self_sqrt hp.le
  revert hw hww
  generalize Real.sqrt (x / (z + b) * (x / (z + b)) + y / (z + b) * (y / (z + b))) = w
  intro hw hww
  generalize z + b = D at *
  field_simp
  field_simp at hww
  linear_combination 2 * hww

/-- Speed as a function of one component of the discharge. -/
theorem speed_dq (x y : ℝ) {h : ℝ} (hh : 0 < h) (hq : x ≠ 0 ∨ y ≠ 0) :
    HasDerivAt (fun t => hypot Real.sqrt (t / h) (y / h)) (x / h / (hypot Real.sqrt (x / h) (y / h) * h)) x := by
  have h0 := hh.ne'
  have hp := speed_pos hh hq
  have hx : HasDerivAt (fun t => t / h) (1 / h) x := (hasDerivAt_id x).div_const h
  have h1 := ((hx.mul hx).add_const (y / h * (y / h))).sqrt hp.ne'
  refine h1.congr_deriv ?_
  dsimp only [Pi.mul_apply, hypot]
  have hw : Real.sqrt (x / h * (x / h) + y / h * (y / h)) ≠ 0 := (Real.sqrt_pos.mpr hp).ne'
  revert hw
  generalize Real.sqrt (x / h * (x / h) + y / h * (y / h)) = w
  intro hw
  field_simp
  ring

theorem hypot_comm (x y : ℝ) : hypot Real.sqrt x y = hypot Real.sqrt y x := by unfold hypot; rw [add_comm]

theorem speed_dq' (x y : ℝ) {h : ℝ} (hh : 0 < h) (hq : x ≠ 0 ∨ y ≠ 0) :
    HasDerivAt (fun t => hypot Real.sqrt (x / h) (t / h)) (y / h / (hypot Real.sqrt (x / h) (y / h) * h)) y := by
  have := speed_dq y x hh hq.symm
  simp only [hypot_comm _ (x / h)] at this
  exact this

/-- The derivatives C69 demands: of both components of the momentum source with respect to the three variables, at fixed bathymetry `b`. -/
structure IsSourceDeriv (s : SourceTerms ℝ) (e : EltSource ℝ) (fs : Q ℝ) (q : Q ℝ) (b sp : ℝ) (db : P2 ℝ) (d : SourceD ℝ) : Prop where
  qx_ze : HasDerivAt (fun t => (getSource Real.sqrt cbrt s e fs ⟨t, q.qx, q.qy⟩ ⟨b, t + b, sp⟩ db).qx) d.qx_ze q.ze
  qx_qx : HasDerivAt (fun t => (getSource Real.sqrt cbrt s e fs ⟨q.ze, t, q.qy⟩ ⟨b, q.ze + b, sp⟩ db).qx) d.qx_qx q.qx
  qx_qy : HasDerivAt (fun t => (getSource Real.sqrt cbrt s e fs ⟨q.ze, q.qx, t⟩ ⟨b, q.ze + b, sp⟩ db).qx) d.qx_qy q.qy
  qy_ze : HasDerivAt (fun t => (getSource Real.sqrt cbrt s e fs ⟨t, q.qx, q.qy⟩ ⟨b, t + b, sp⟩ db).qy) d.qy_ze q.ze
  qy_qx : HasDerivAt (fun t => (getSource Real.sqrt cbrt s e fs ⟨q.ze, t, q.qy⟩ ⟨b, q.ze + b, sp⟩ db).qy) d.qy_qx q.qx
  qy_qy : HasDerivAt (fun t => (getSource Real.sqrt cbrt s e fs ⟨q.ze, q.qx, t⟩ ⟨b, q.ze + b, sp⟩ db).qy) d.qy_qy q.qy

theorem source_qx (s : SourceTerms ℝ) (e : EltSource ℝ) (fs q : Q ℝ) (a : Aux ℝ) (db : P2 ℝ) :
    (getSource Real.sqrt cbrt s e fs q a db).qx = s.g * db.x * q.ze + (if s.functionSource then fs.qx else 0)
      - (if s.bottomFriction then frictionStress Real.sqrt cbrt s e q a.h * q.qx else 0) ∧
    (getSource Real.sqrt cbrt s e fs q a db).qy = s.g * db.y * q.ze + (if s.functionSource then fs.qy else 0)
      - (if s.bottomFriction then frictionStress Real.sqrt cbrt s e q a.h * q.qy else 0) := by
  have hadd : ∀ x y : Q ℝ, x + y = ⟨x.ze + y.ze, x.qx + y.qx, x.qy + y.qy⟩ := fun _ _ => rfl
  unfold getSource
  cases s.functionSource <;> cases s.bottomFriction <;> simp [hadd] <;> constructor <;> ring

/-- **C69**, the part that holds: with friction, in moving water of positive depth, with positive coefficient away from the kink of the
coefficient, the coded entries are finite and are the derivatives of the source, except that the water level derivatives lack the contribution
`g ∇b` of the bathymetry term. Missing: that contribution (`source_derivative_wrong`) and still water (`still_water_undefined`). -/
theorem source_derivative_partial (s : SourceTerms ℝ) (e : EltSource ℝ) (fs q : Q ℝ) (b sp : ℝ) (db : P2 ℝ) (hf : s.bottomFriction = true)
    (hh : 0 < q.ze + b) (hq : q.qx ≠ 0 ∨ q.qy ≠ 0) (hs : Smooth s e (q.ze + b)) (hC : 0 < frictionCf cbrt s e (q.ze + b)) :
    ∃ d, dsource Real.sqrt cbrt s e q ⟨b, q.ze + b, sp⟩ = some d ∧
      IsSourceDeriv s e fs q b sp db { d with qx_ze := d.qx_ze + s.g * db.x, qy_ze := d.qy_ze + s.g * db.y } := by
  have h0 := hh.ne'
  have hw : hypot Real.sqrt (q.qx / (q.ze + b)) (q.qy / (q.ze + b)) ≠ 0 := (Real.sqrt_pos.mpr (speed_pos hh hq)).ne'
  have hc0 : (frictionCfD cbrt s e (q.ze + b)).1 ≠ 0 := by rw [cf_fst]; exact hC.ne'
  have hC0 := hC.ne'
  refine ⟨?_, ?_, ?_⟩
  rotate_left
  · unfold dsource
    rw [if_pos hf]
    dsimp only
    unfold fdiv
    rw [if_neg h0, if_neg h0]
    dsimp only [Option.bind_eq_bind, Option.bind_some]
    rw [if_neg (mul_ne_zero hw h0), if_neg hc0, cf_fst]
    rfl
  have dC : HasDerivAt (fun t => frictionCf cbrt s e (t + b)) (frictionCfD cbrt s e (q.ze + b)).2 q.ze := by
    have := (cf_deriv s e hh hs).comp_add_const q.ze b
    exact this
  have dW := speed_dze q.qx q.qy b hh hq
  have dX := speed_dq q.qx q.qy hh hq
  have dY := speed_dq' q.qx q.qy hh hq
  have dh : HasDerivAt (fun t => t + b) 1 q.ze := (hasDerivAt_id q.ze).add_const b
  have dk := (dC.mul dW).div dh h0
  have kx := ((dX.const_mul (frictionCf cbrt s e (q.ze + b))).div_const (q.ze + b))
  have ky := ((dY.const_mul (frictionCf cbrt s e (q.ze + b))).div_const (q.ze + b))
  constructor
  all_goals
    simp only [source_qx, hf, if_true]
    unfold frictionStress
    dsimp only
  · have l := ((hasDerivAt_id q.ze).const_mul (s.g * db.x)).add_const (if s.functionSource = true then fs.qx else 0)
    have := l.sub (dk.mul_const q.qx)
    refine this.congr_deriv ?_
    dsimp only [Pi.mul_apply]
    generalize hypot Real.sqrt _ _ = w at *
    generalize frictionCf cbrt s e (q.ze + b) = C at *
    generalize q.ze + b = D at *
    field_simp
    ring
  · have := (hasDerivAt_const q.qx (s.g * db.x * q.ze + (if s.functionSource = true then fs.qx else 0))).sub (kx.mul (hasDerivAt_id q.qx))
    refine this.congr_deriv ?_
    dsimp only [Pi.mul_apply, id]
    generalize hypot Real.sqrt _ _ = w at *
    generalize frictionCf cbrt s e (q.ze + b) = C at *
    generalize q.ze + b = D at *
    field_simp
    ring
  · have := (hasDerivAt_const q.qy (s.g * db.x * q.ze + (if s.functionSource = true then fs.qx else 0))).sub (ky.mul_const q.qx)
    refine this.congr_deriv ?_
    generalize hypot Real.sqrt _ _ = w at *
    generalize frictionCf cbrt s e (q.ze + b) = C at *
    generalize q.ze + b = D at *
    field_simp
    ring
  · have l := ((hasDerivAt_id q.ze).const_mul (s.g * db.y)).add_const (if s.functionSource = true then fs.qy else 0)
    have := l.sub (dk.mul_const q.qy)
    refine this.congr_deriv ?_
    dsimp only [Pi.mul_apply]
    generalize hypot Real.sqrt _ _ = w at *
    generalize frictionCf cbrt s e (q.ze + b) = C at *
    generalize q.ze + b = D at *
    field_simp
    ring
  · have := (hasDerivAt_const q.qx (s.g * db.y * q.ze + (if s.functionSource = true then fs.qy else 0))).sub (kx.mul_const q.qy)
    refine this.congr_deriv ?_
    generalize hypot Real.sqrt _ _ = w at *
    generalize frictionCf cbrt s e (q.ze + b) = C at *
    generalize q.ze + b = D at *
    field_simp
    ring
  · have := (hasDerivAt_const q.qy (s.g * db.y * q.ze + (if s.functionSource = true then fs.qy else 0))).sub (ky.mul (hasDerivAt_id q.qy))
    refine this.congr_deriv ?_
    dsimp only [Pi.mul_apply, id]
    generalize hypot Real.sqrt _ _ = w at *
    generalize frictionCf cbrt s e (q.ze + b) = C at *
    generalize q.ze + b = D at *
    field_simp
    ring

/-- **C69** is false of the code over a sloping bed: whenever the bathymetry gradient does not vanish (and `g ≠ 0`), the entries are not the
derivatives of the source. -/
theorem source_derivative_wrong (s : SourceTerms ℝ) (e : EltSource ℝ) (fs q : Q ℝ) (b sp : ℝ) (db : P2 ℝ) (hf : s.bottomFriction = true)
    (hh : 0 < q.ze + b) (hq : q.qx ≠ 0 ∨ q.qy ≠ 0) (hs : Smooth s e (q.ze + b)) (hC : 0 < frictionCf cbrt s e (q.ze + b))
    (hg : s.g ≠ 0) (hb : db.x ≠ 0 ∨ db.y ≠ 0) (d : SourceD ℝ) (hd : dsource Real.sqrt cbrt s e q ⟨b, q.ze + b, sp⟩ = some d) :
    ¬ IsSourceDeriv s e fs q b sp db d := by
  intro hi
  obtain ⟨d', hd', hi'⟩ := source_derivative_partial s e fs q b sp db hf hh hq hs hC
  rw [hd, Option.some.injEq] at hd'
  subst hd'
  have h1 := hi.qx_ze.unique hi'.qx_ze
  have h2 := hi.qy_ze.unique hi'.qy_ze
  dsimp only at h1 h2
  rcases hb with hb | hb
  · exact mul_ne_zero hg hb (by linarith)
  · exact mul_ne_zero hg hb (by linarith)

/-- Without friction all entries are zero, although the source depends on the water level over a sloping bed. -/
theorem source_derivative_frictionless (s : SourceTerms ℝ) (e : EltSource ℝ) (fs q : Q ℝ) (b sp : ℝ) (db : P2 ℝ) (hf : s.bottomFriction = false) :
    dsource Real.sqrt cbrt s e q ⟨b, q.ze + b, sp⟩ = some ⟨0, 0, 0, 0, 0, 0⟩ ∧
    IsSourceDeriv s e fs q b sp db ⟨s.g * db.x, 0, 0, s.g * db.y, 0, 0⟩ := by
  refine ⟨by simp [dsource, hf], ?_⟩
  constructor
  all_goals
    simp only [source_qx, hf, if_false, Bool.false_eq_true, sub_zero]
  · exact (((hasDerivAt_id q.ze).const_mul (s.g * db.x)).add_const _).congr_deriv (by simp)
  · exact hasDerivAt_const _ _
  · exact hasDerivAt_const _ _
  · exact (((hasDerivAt_id q.ze).const_mul (s.g * db.y)).add_const _).congr_deriv (by simp)
  · exact hasDerivAt_const _ _
  · exact hasDerivAt_const _ _

/-- In still water with friction enabled the entries are not numbers (division by the speed zero), so the first Newton iteration from a lake
at rest fails; the same with coefficient zero. -/
theorem still_water_undefined (cb : ℝ → ℝ) (s : SourceTerms ℝ) (e : EltSource ℝ) (q : Q ℝ) (a : Aux ℝ) (hf : s.bottomFriction = true)
    (h : q.qx = 0 ∧ q.qy = 0 ∨ frictionCf cb s e a.h = 0) : dsource Real.sqrt cb s e q a = none := by
  unfold dsource
  rw [if_pos hf]
  unfold fdiv
  by_cases ha : a.h = 0
  · rw [if_pos ha]; rfl
  rw [if_neg ha, if_neg ha]
  dsimp only [Option.bind_eq_bind, Option.bind_some]
  rcases h with ⟨h1, h2⟩ | h
  · have : hypot Real.sqrt (q.qx / a.h) (q.qy / a.h) * a.h = 0 := by simp [hypot, h1, h2]
    rw [if_pos this]; rfl
  · rw [if_pos (show (frictionCfD cb s e a.h).1 = 0 by rw [cf_fst]; exact h)]
    cases (if hypot Real.sqrt (q.qx / a.h) (q.qy / a.h) * a.h = 0 then none else _ : Option ℝ) <;> rfl

/-- The hypotheses of `source_derivative_partial` can be met: unit depth, unit discharge, coefficient 1. -/
example : ∃ (s : SourceTerms ℝ) (e : EltSource ℝ) (q : Q ℝ) (b : ℝ), s.bottomFriction = true ∧ 0 < q.ze + b ∧ (q.qx ≠ 0 ∨ q.qy ≠ 0) ∧
    Smooth s e (q.ze + b) ∧ 0 < frictionCf cbrt s e (q.ze + b) :=
  ⟨⟨10, 1000, false, true, false, false, false, 1⟩, ⟨false, 0, 0, ⟨0, 0⟩, ⟨0, 0⟩, ⟨0, 0⟩⟩, ⟨0, 1, 0⟩, 1, rfl, by norm_num, Or.inl (by norm_num),
    (fun h => by cases h), by unfold frictionCf; norm_num⟩
/-- The same with Manning's law. -/
example : ∃ (s : SourceTerms ℝ) (e : EltSource ℝ) (q : Q ℝ) (b : ℝ), s.bottomFriction = true ∧ e.manning = true ∧ 0 < q.ze + b ∧ (q.qx ≠ 0 ∨ q.qy ≠ 0) ∧
    Smooth s e (q.ze + b) ∧ 0 < frictionCf cbrt s e (q.ze + b) :=
  ⟨⟨10, 1000, false, true, false, false, false, 1⟩, ⟨true, 2, 0, ⟨0, 0⟩, ⟨0, 0⟩, ⟨0, 0⟩⟩, ⟨0, 1, 0⟩, 1, rfl, rfl, by norm_num, Or.inl (by norm_num),
    (fun _ => by norm_num [cbrt]), by norm_num [frictionCf, cbrt]⟩
/-- The entries, computed: depth 2, speed 2, coefficient 1. -/
example : dsource (fun x : ℚ => if x = 4 then 2 else 0) id ⟨10, 1000, false, true, false, false, false, 1⟩ ⟨false, 0, 0, ⟨0, 0⟩, ⟨0, 0⟩, ⟨0, 0⟩⟩ ⟨0, 4, 0⟩ ⟨2, 2, 1⟩
    = some ⟨4, -2, 0, 0, 0, -1⟩ := by decide +kernel

end Verif.Swe.Props
