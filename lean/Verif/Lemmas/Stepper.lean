import Verif.Model.Stepper
import Mathlib.Tactic.Ring
import Mathlib.Tactic.Linarith
import Mathlib.Algebra.BigOperators.Group.Finset.Basic
import Mathlib.Algebra.BigOperators.Intervals

namespace Verif.Stepper

/-- Shape and values that all the tables share; decidable, checked table by table. -/
def Tableau.shapeOK (tab : Tableau) (n : ℕ) : Bool :=
  tab.ark.map List.length == (List.range n).map (· + 1) &&
  tab.brk.map List.length == (List.range n).map (· + 1)

theorem tableau_cases {P : ℕ → ℕ → Tableau → Prop} {n o : ℕ} {tab : Tableau}
    (h : tableau n o = some tab)
    (h11 : P 1 1 tab11) (h22 : P 2 2 tab22) (h33 : P 3 3 tab33) (h43 : P 4 3 tab43)
    (h53 : P 5 3 tab53) (h63 : P 6 3 tab63) (h73 : P 7 3 tab73) (h83 : P 8 3 tab83)
    (h54 : P 5 4 tab54) (h64 : P 6 4 tab64) (h74 : P 7 4 tab74) (h84 : P 8 4 tab84) : P n o tab := by
  delta tableau at h
  by_cases c11 : n = 1 ∧ o = 1
  · rw [if_pos c11] at h
    rw [← Option.some.inj h, c11.1, c11.2]; exact h11
  rw [if_neg c11] at h
  by_cases c22 : n = 2 ∧ o = 2
  · rw [if_pos c22] at h
    rw [← Option.some.inj h, c22.1, c22.2]; exact h22
  rw [if_neg c22] at h
  by_cases c33 : n = 3 ∧ o = 3
  · rw [if_pos c33] at h
    rw [← Option.some.inj h, c33.1, c33.2]; exact h33
  rw [if_neg c33] at h
  by_cases c43 : n = 4 ∧ o = 3
  · rw [if_pos c43] at h
    rw [← Option.some.inj h, c43.1, c43.2]; exact h43
  rw [if_neg c43] at h
  by_cases c53 : n = 5 ∧ o = 3
  · rw [if_pos c53] at h
    rw [← Option.some.inj h, c53.1, c53.2]; exact h53
  rw [if_neg c53] at h
  by_cases c63 : n = 6 ∧ o = 3
  · rw [if_pos c63] at h
    rw [← Option.some.inj h, c63.1, c63.2]; exact h63
  rw [if_neg c63] at h
  by_cases c73 : n = 7 ∧ o = 3
  · rw [if_pos c73] at h
    rw [← Option.some.inj h, c73.1, c73.2]; exact h73
  rw [if_neg c73] at h
  by_cases c83 : n = 8 ∧ o = 3
  · rw [if_pos c83] at h
    rw [← Option.some.inj h, c83.1, c83.2]; exact h83
  rw [if_neg c83] at h
  by_cases c54 : n = 5 ∧ o = 4
  · rw [if_pos c54] at h
    rw [← Option.some.inj h, c54.1, c54.2]; exact h54
  rw [if_neg c54] at h
  by_cases c64 : n = 6 ∧ o = 4
  · rw [if_pos c64] at h
    rw [← Option.some.inj h, c64.1, c64.2]; exact h64
  rw [if_neg c64] at h
  by_cases c74 : n = 7 ∧ o = 4
  · rw [if_pos c74] at h
    rw [← Option.some.inj h, c74.1, c74.2]; exact h74
  rw [if_neg c74] at h
  by_cases c84 : n = 8 ∧ o = 4
  · rw [if_pos c84] at h
    rw [← Option.some.inj h, c84.1, c84.2]; exact h84
  rw [if_neg c84] at h
  exact absurd h (by simp)

theorem shapeOK_of_tableau {n o : ℕ} {tab : Tableau} (h : tableau n o = some tab) :
    tab.shapeOK n = true ∧ 1 ≤ n ∧ n ≤ 8 := by
  refine tableau_cases (P := fun n _ tab => tab.shapeOK n = true ∧ 1 ≤ n ∧ n ≤ 8) h ?_ ?_ ?_ ?_ ?_ ?_ ?_ ?_ ?_ ?_ ?_ ?_ <;>
    decide +kernel

theorem drk_of_tableau {n o : ℕ} {tab : Tableau} (h : tableau n o = some tab) :
    drk tab n = some (List.replicate n 0) := by
  refine tableau_cases (P := fun n _ tab => drk tab n = some (List.replicate n 0)) h ?_ ?_ ?_ ?_ ?_ ?_ ?_ ?_ ?_ ?_ ?_ ?_ <;>
    decide +kernel

/-! ### Clock -/

section clock
variable {K : Type} [Field K] [LinearOrder K]

/-- What is known about a stepper after `k` increments. -/
structure ClockInv (o n : ℕ) (dt rd : K) (k : ℕ) (s : Explicit K) : Prop where
  order : s.order = o
  nst : s.nstages = n
  dt_eq : s.dt = dt
  rd_eq : s.rampDuration = rd
  drk_eq : s.drk = List.replicate n 0
  stage_eq : s.stage = k % n
  ts_eq : s.timestamp = k % 2 ^ 32
  step_eq : s.step = (k / n) % 2 ^ 32
  t_eq : s.t = ((k / n : ℕ) : K) * dt

omit [LinearOrder K] in
theorem ClockInv.time {o n : ℕ} {dt rd : K} {k : ℕ} {s : Explicit K} (h : ClockInv o n dt rd k s) (hn : 0 < n) :
    s.time = some (((k / n : ℕ) : K) * dt) := by
  have : k % n < n := Nat.mod_lt _ hn
  simp [Explicit.time, h.drk_eq, h.stage_eq, this, h.t_eq]

theorem init_inv {o n : ℕ} {dt rd : K} {s : Explicit K} (h : Explicit.init o n dt rd = some s) :
    ClockInv o n dt rd 0 s ∧ 1 ≤ n ∧ n ≤ 8 ∧ s.ramp = (if noRamp rd then 1 else 0) ∧ tableau n o = some s.tab := by
  unfold Explicit.init at h
  cases ht : tableau n o with
  | none => rw [ht] at h; exact absurd h (by simp)
  | some tab =>
    have hd := drk_of_tableau ht
    have hs := shapeOK_of_tableau ht
    rw [ht] at h
    simp only [Option.bind_eq_bind, Option.bind_some, hd, Option.pure_def, Option.some.injEq] at h
    subst h
    exact ⟨⟨rfl, rfl, rfl, rfl, rfl, by simp, by simp, by simp, by simp⟩, hs.2.1, hs.2.2, rfl, rfl⟩

theorem incr_inv {o n : ℕ} {dt rd : K} {k : ℕ} {s : Explicit K} (tanh : K → K) (hn : 1 ≤ n) (hn8 : n ≤ 8)
    (h : ClockInv o n dt rd k s) :
    ∃ s', Explicit.incr tanh s = some s' ∧ ClockInv o n dt rd (k + 1) s' ∧
      s'.ramp = (if noRamp rd then s.ramp else tanh (2 * ((((k + 1) / n : ℕ) : K) * dt / 86400) / rd)) := by
  have hn0 : s.nstages ≠ 0 := by rw [h.nst]; omega
  have hkn : k % n < n := Nat.mod_lt _ hn
  have hst : (s.stage + 1) % u32 % s.nstages = (k + 1) % n := by
    rw [h.stage_eq, h.nst, Nat.mod_eq_of_lt (a := k % n + 1) (by unfold u32; omega)]
    simp [Nat.add_mod]
  have hts : (s.timestamp + 1) % u32 = (k + 1) % 2 ^ 32 := by rw [h.ts_eq]; unfold u32; omega
  unfold Explicit.incr
  rw [if_neg hn0]
  simp only [hst, hts]
  by_cases h0 : (k + 1) % n = 0
  · have hdiv : (k + 1) / n = k / n + 1 := by
      have h1 := Nat.div_add_mod (k + 1) n
      have h2 := Nat.div_add_mod k n
      have : n ∣ k + 1 := Nat.dvd_of_mod_eq_zero h0
      rw [Nat.succ_div_of_dvd this]
    have hinv : ClockInv o n dt rd (k + 1)
        { s with stage := (k + 1) % n, timestamp := (k + 1) % 2 ^ 32, t := s.t + s.dt, step := (s.step + 1) % u32 } := by
      refine ⟨h.order, h.nst, h.dt_eq, h.rd_eq, h.drk_eq, rfl, rfl, ?_, ?_⟩
      · simp only [h.step_eq, hdiv]; unfold u32; omega
      · simp only [h.t_eq, h.dt_eq, hdiv]; push_cast; ring
    simp only [h0, if_true, h.rd_eq] at hinv ⊢
    by_cases hr : noRamp rd
    · exact ⟨_, by simp only [hr, if_true], hinv, by simp [hr]⟩
    · have ht := hinv.time hn
      simp only [hr, Bool.false_eq_true, if_false]
      rw [ht]
      refine ⟨_, rfl, ?_, rfl⟩
      exact ⟨hinv.order, hinv.nst, hinv.dt_eq, hinv.rd_eq, hinv.drk_eq, hinv.stage_eq, hinv.ts_eq, hinv.step_eq, hinv.t_eq⟩
  · have hdiv : (k + 1) / n = k / n := by
      rw [Nat.succ_div_of_not_dvd (fun hd => h0 (Nat.mod_eq_zero_of_dvd hd))]
    have hinv : ClockInv o n dt rd (k + 1)
        { s with stage := (k + 1) % n, timestamp := (k + 1) % 2 ^ 32 } := by
      refine ⟨h.order, h.nst, h.dt_eq, h.rd_eq, h.drk_eq, rfl, rfl, ?_, ?_⟩
      · simp only [h.step_eq, hdiv]
      · simp only [h.t_eq, hdiv]
    simp only [h0, if_false, h.rd_eq] at hinv ⊢
    by_cases hr : noRamp rd
    · exact ⟨_, by simp only [hr, if_true], hinv, by simp [hr]⟩
    · have ht := hinv.time hn
      simp only [hr, Bool.false_eq_true, if_false]
      rw [ht]
      refine ⟨_, rfl, ?_, rfl⟩
      exact ⟨hinv.order, hinv.nst, hinv.dt_eq, hinv.rd_eq, hinv.drk_eq, hinv.stage_eq, hinv.ts_eq, hinv.step_eq, hinv.t_eq⟩

theorem incrN_inv {o n : ℕ} {dt rd : K} {s0 : Explicit K} (tanh : K → K)
    (h : Explicit.init o n dt rd = some s0) (k : ℕ) :
    ∃ s, Explicit.incrN tanh k s0 = some s ∧ ClockInv o n dt rd k s ∧
      s.ramp = (if noRamp rd then 1 else if k = 0 then 0 else tanh (2 * (((k / n : ℕ) : K) * dt / 86400) / rd)) := by
  obtain ⟨hi, h1, h8, hr, _⟩ := init_inv h
  induction k with
  | zero => exact ⟨s0, rfl, hi, by simp [hr]⟩
  | succ k ih =>
    obtain ⟨s, hs, hinv, hramp⟩ := ih
    obtain ⟨s', hs', hinv', hramp'⟩ := incr_inv tanh h1 h8 hinv
    refine ⟨s', by simp [Explicit.incrN, hs, hs'], hinv', ?_⟩
    rw [hramp', hramp]
    by_cases hr : noRamp rd <;> simp [hr]

end clock

end Verif.Stepper
