import Verif.Model.Ihdg
import Mathlib.NumberTheory.Real.Irrational
import Mathlib.Analysis.Real.Pi.Irrational
import Mathlib.Tactic.FieldSimp
import Mathlib.Tactic.Ring
import Mathlib.Tactic.Linarith

/-!
# C84: forcing of open boundaries during the implicit iteration
-/

namespace Verif.Ihdg.Props
open Verif.Swe

/-- The tide or discharge which the input prescribes: amplitudes times cosines, with equilibrium arguments and phases in degrees. -/
noncomputable def prescribed (ramp t : ℝ) (cs : List (Constituent ℝ)) : ℝ :=
  ramp * (cs.map fun c => c.ff * c.amp * Real.cos (c.freq * t + (c.eq - c.phase) * (Real.pi / 180))).sum

theorem foldl_sum (f : Constituent ℝ → ℝ) (cs : List (Constituent ℝ)) (s : ℝ) : cs.foldl (fun s c => s + f c) s = s + (cs.map f).sum := by
  induction cs generalizing s with
  | nil => simp
  | cons c cs ih => rw [List.foldl_cons, ih, List.map_cons, List.sum_cons]; ring

/-- The trace at the start of a step gets the prescribed value. -/
theorem forcing_init (ramp t : ℝ) (cs : List (Constituent ℝ)) : forcing Real.cos Real.pi ramp t cs = prescribed ramp t cs := by
  rw [forcing, prescribed, foldl_sum (fun c => ramp * c.ff * c.amp * Real.cos (c.freq * t + (c.eq - c.phase) * Real.pi / 180)), zero_add, ← List.sum_map_mul_left]
  refine congrArg _ (List.map_congr_left fun c _ => ?_)
  simp only [mul_div_assoc]; ring

/-- C84: the iteration uses the prescribed value if equilibrium arguments and phases are equal. -/
theorem forcing_partial (ramp t : ℝ) (cs : List (Constituent ℝ)) (h : ∀ c ∈ cs, c.eq = c.phase) : forcingIter Real.cos ramp t cs = prescribed ramp t cs := by
  rw [forcingIter, prescribed, foldl_sum (fun c => ramp * c.ff * c.amp * Real.cos (c.freq * t + c.eq - c.phase)), zero_add, ← List.sum_map_mul_left]
  refine congrArg _ (List.map_congr_left fun c hc => ?_)
  simp only [h c hc, sub_self, zero_mul, add_zero, add_sub_cancel_right]; ring

/-- C84, negation: for a constituent with rational, different equilibrium argument and phase (in degrees) the iteration uses a wrong value at some time. -/
theorem forcing_wrong {ramp : ℝ} {c : Constituent ℝ} {r : ℚ} (hr : r ≠ 0) (hc : c.eq - c.phase = r) (hf : c.freq ≠ 0) (ha : ramp * (c.ff * c.amp) ≠ 0) :
    ∃ t, forcingIter Real.cos ramp t [c] ≠ prescribed ramp t [c] := by
  by_contra hno
  push Not at hno
  have h := hno (-(r * (Real.pi / 180)) / c.freq)
  simp only [forcingIter, prescribed, List.foldl_cons, List.foldl_nil, List.map_cons, List.map_nil, List.sum_cons, List.sum_nil, zero_add, add_zero] at h
  rw [add_sub_assoc, hc, mul_div_cancel₀ _ hf, neg_add_cancel, Real.cos_zero, mul_one, mul_assoc ramp] at h
  have h1 := mul_left_cancel₀ ha (h.trans (mul_one _).symm)
  obtain ⟨n, hn⟩ := (Real.cos_eq_one_iff _).1 h1
  have h2 : (r : ℝ) = Real.pi * ((2 * n + r / 180 : ℚ) : ℝ) := by push_cast; linarith
  have hne : ((2 * n + r / 180 : ℚ) : ℝ) ≠ 0 := by
    intro h0
    rw [h0, mul_zero] at h2
    exact hr (by exact_mod_cast h2)
  refine irrational_pi ⟨r / (2 * n + r / 180), ?_⟩
  rw [Rat.cast_div, eq_comm, eq_div_iff hne, ← h2]

/-- A constituent with period about 12 hours and phase 90 degrees. -/
example : ∃ t, forcingIter Real.cos 1 t [⟨1 / 7000, 1, 0, 1 / 2, 90⟩] ≠ prescribed 1 t [⟨1 / 7000, 1, 0, 1 / 2, 90⟩] :=
  forcing_wrong (r := -90) (by norm_num) (by norm_num) (by norm_num) (by norm_num)

example : forcingIter Real.cos 1 0 [⟨1 / 7000, 1, 90, 1 / 2, 90⟩] = prescribed 1 0 [⟨1 / 7000, 1, 90, 1 / 2, 90⟩] :=
  forcing_partial _ _ _ (by simp)

/-- The trace of a tide boundary is corrected with this value. -/
theorem tide_exterior (S : Scheme ℝ) (q : State ℝ) {b : Bnd ℝ} {cs : ℕ → List (Constituent ℝ)} (h : b.kind = .tide cs) (gp : ℕ) :
    (exterior S q b gp).ze = forcingIter S.v.cos S.rampn S.tn (cs gp) := by
  simp only [exterior, h]

/-- The trace of a flow boundary is corrected with this discharge along the normal. -/
theorem flow_exterior (S : Scheme ℝ) (q : State ℝ) {b : Bnd ℝ} {cs : ℕ → List (Constituent ℝ)} (h : b.kind = .flow cs) (gp : ℕ) :
    (exterior S q b gp).qx = forcingIter S.v.cos S.rampn S.tn (cs gp) * (nrm S (.bnd b)).x ∧
    (exterior S q b gp).qy = forcingIter S.v.cos S.rampn S.tn (cs gp) * (nrm S (.bnd b)).y := by
  simp only [exterior, h, and_self]

end Verif.Ihdg.Props
