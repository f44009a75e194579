import Verif.Lemmas.ShuOsher
import Mathlib.Analysis.Convex.Cone.Basic
import Mathlib.Analysis.Convex.Combination
import Mathlib.Analysis.SpecialFunctions.Artanh

/-!
# Properties C01–C08: time steppers
-/

namespace Verif.Stepper.Props
open Verif.Stepper

/-! ## C01 -/

/-- **C01** For every scheme the constructor accepts, and any number `k` of increments: `++` never fails; stage, step
and timestamp counters and the base time are functions of `k` alone (counters modulo 2³², the width of `uint`). -/
theorem explicit_clock {K : Type} [Field K] [LinearOrder K] (tanh : K → K) (order nstages : ℕ) (dt rd : K)
    (s0 : Explicit K) (h : Explicit.init order nstages dt rd = some s0) (k : ℕ) :
    ∃ s, Explicit.incrN tanh k s0 = some s ∧
      s.stage = k % nstages ∧ s.stage < nstages ∧
      s.timestamp = k % 2 ^ 32 ∧
      s.step = (k / nstages) % 2 ^ 32 ∧
      s.t = ((k / nstages : ℕ) : K) * dt ∧
      s.nstages = nstages ∧ s.dt = dt := by
  obtain ⟨s, hs, hi, _⟩ := incrN_inv tanh h k
  have h1 := (init_inv h).2.1
  exact ⟨s, hs, hi.stage_eq, by rw [hi.stage_eq]; exact Nat.mod_lt _ h1, hi.ts_eq, hi.step_eq, hi.t_eq, hi.nst, hi.dt_eq⟩

/-- As long as fewer than 2³² increments were done, base time is step counter times `dt` and the timestamp is
`step * nstages + stage`. -/
theorem explicit_clock_consistent {K : Type} [Field K] [LinearOrder K] (tanh : K → K) (order nstages : ℕ) (dt rd : K)
    (s0 : Explicit K) (h : Explicit.init order nstages dt rd = some s0) (k : ℕ) (hk : k < 2 ^ 32) :
    ∃ s, Explicit.incrN tanh k s0 = some s ∧ s.t = (s.step : K) * dt ∧
      s.timestamp = s.step * nstages + s.stage := by
  obtain ⟨s, hs, h1, _, h3, h4, h5, _⟩ := explicit_clock tanh order nstages dt rd s0 h k
  have : k / nstages < 2 ^ 32 := lt_of_le_of_lt (Nat.div_le_self _ _) hk
  rw [Nat.mod_eq_of_lt this] at h4
  rw [Nat.mod_eq_of_lt hk] at h3
  refine ⟨s, hs, by rw [h5, h4], ?_⟩
  rw [h3, h4, h1, Nat.mul_comm]
  exact (Nat.div_add_mod k nstages).symm

example : (Explicit.init (K := ℚ) 3 3 (1 / 10) 0).isSome = true := by decide +kernel
example : ((Explicit.init (K := ℚ) 3 3 (1 / 10) 0).bind (Explicit.incrN id 7)).map
    (fun s => (s.stage, s.step, s.timestamp, s.t)) = some (1, 2, 7, 2 / 10) := by decide +kernel

/-! ## C02 -/

/-- The pairs (nstages, order) the code has tables for. -/
def schemes : List (ℕ × ℕ) :=
  [(1, 1), (2, 2), (3, 3), (4, 3), (5, 3), (6, 3), (7, 3), (8, 3), (5, 4), (6, 4), (7, 4), (8, 4)]

/-- **C02** (acceptance) The constructor succeeds exactly for the twelve tabulated pairs. -/
theorem accepts_iff {K : Type} [Field K] [LinearOrder K] (order nstages : ℕ) (dt rd : K) :
    (Explicit.init order nstages dt rd).isSome = true ↔ (nstages, order) ∈ schemes := by
  constructor
  · intro h
    obtain ⟨s, hs⟩ := Option.isSome_iff_exists.mp h
    have ht := (init_inv hs).2.2.2.2
    exact tableau_cases (P := fun n o _ => (n, o) ∈ schemes) ht (by decide) (by decide) (by decide) (by decide)
      (by decide) (by decide) (by decide) (by decide) (by decide) (by decide) (by decide) (by decide)
  · intro h
    have key : ∀ p ∈ schemes, ∃ tab, tableau p.1 p.2 = some tab := by
      intro p hp
      simp only [schemes, List.mem_cons, List.not_mem_nil, or_false] at hp
      rcases hp with rfl | rfl | rfl | rfl | rfl | rfl | rfl | rfl | rfl | rfl | rfl | rfl <;> exact ⟨_, rfl⟩
    obtain ⟨tab, ht⟩ := key _ h
    have hd := drk_of_tableau ht
    simp [Explicit.init, ht, hd]

/-- Row-wise convexity of one table. -/
structure ConvexTable (tab : Tableau) (n : ℕ) : Prop where
  alen : tab.ark.length = n
  blen : tab.brk.length = n
  arow : ∀ i (h : i < tab.ark.length), tab.ark[i].length = i + 1
  brow : ∀ i (h : i < tab.brk.length), tab.brk[i].length = i + 1
  anonneg : ∀ r ∈ tab.ark, ∀ x ∈ r, 0 ≤ x
  bnonneg : ∀ r ∈ tab.brk, ∀ x ∈ r, 0 ≤ x
  asum : ∀ r ∈ tab.ark, |r.sum - 1| ≤ 1 / 10 ^ 14
  support : ∀ p ∈ tab.ark.zip tab.brk, ∀ x ∈ p.1.zip p.2, x.2 ≠ 0 → 0 < x.1

/-- **C02** (convexity) Every table of an accepted scheme is triangular with nonnegative weights, unit row sums (to the
last printed decimal) and no Euler weight on a stage value that is not itself used. -/
theorem accepted_convex (order nstages : ℕ) (tab : Tableau) (h : tableau nstages order = some tab) :
    ConvexTable tab nstages := by
  refine tableau_cases (P := fun n _ tab => ConvexTable tab n) h ?_ ?_ ?_ ?_ ?_ ?_ ?_ ?_ ?_ ?_ ?_ ?_ <;>
    exact ⟨by decide +kernel, by decide +kernel, by decide +kernel, by decide +kernel, by decide +kernel,
      by decide +kernel, by decide +kernel, by decide +kernel⟩

/-- **C02** (exact rows) For seven of the twelve tables all rows sum to exactly one. -/
theorem exact_rows (order nstages : ℕ) (tab : Tableau) (h : tableau nstages order = some tab)
    (hx : (nstages, order) ∈ [(1, 1), (2, 2), (3, 3), (4, 3), (6, 3), (7, 4), (8, 4)]) :
    ∀ r ∈ tab.ark, r.sum = 1 := by
  revert hx
  refine tableau_cases (P := fun n o tab => (n, o) ∈ [(1, 1), (2, 2), (3, 3), (4, 3), (6, 3), (7, 4), (8, 4)] →
    ∀ r ∈ tab.ark, r.sum = 1) h ?_ ?_ ?_ ?_ ?_ ?_ ?_ ?_ ?_ ?_ ?_ ?_ <;> decide +kernel

/-- The other five tables each have a row whose printed decimals do not sum to one exactly. -/
theorem inexact_rows (order nstages : ℕ) (tab : Tableau) (h : tableau nstages order = some tab)
    (hx : (nstages, order) ∈ [(5, 3), (7, 3), (8, 3), (5, 4), (6, 4)]) :
    ∃ r ∈ tab.ark, r.sum ≠ 1 := by
  revert hx
  refine tableau_cases (P := fun n o tab => (n, o) ∈ [(5, 3), (7, 3), (8, 3), (5, 4), (6, 4)] →
    ∃ r ∈ tab.ark, r.sum ≠ 1) h ?_ ?_ ?_ ?_ ?_ ?_ ?_ ?_ ?_ ?_ ?_ ?_ <;> decide +kernel

example : tableau 5 4 = some tab54 := rfl
example : tableau 3 2 = none := rfl

/-! ## C06: a full step is the Shu–Osher recurrence -/

/-- Coefficient `(i,s)` of a triangular array. -/
def coef (m : List (List ℚ)) (i s : ℕ) : ℚ := (m.getD i []).getD s 0

/-- The textbook recurrence (Shu & Osher 1988) with a post-processing operator after each stage:
`u (i+1) = post i (∑_{s ≤ i} (α i s • u s + dt β i s • F s (u s)))`. -/
def ShuOsher {K : Type} [Field K] {E : Type} [AddCommGroup E] [Module K E] (α β : ℕ → ℕ → ℚ) (n : ℕ) (dt : K)
    (F post : ℕ → E → E) (u : ℕ → E) : Prop :=
  ∀ i, i < n → u (i + 1) = post i (∑ s ∈ Finset.range (i + 1),
    ((α i s : K) • u s + (dt * (β i s : K)) • F s (u s)))

theorem coef_eq (m : List (List ℚ)) (i s : ℕ) : coef m i s = (entry m i s).getD 0 := by
  unfold coef entry
  by_cases h : i < m.length
  · simp [h, List.getD]
  · simp [Nat.not_lt.mp h, List.getD]

theorem entries_ok {n o : ℕ} {tab : Tableau} (h : tableau n o = some tab) :
    (∀ i s, i < n → s ≤ i → entry tab.ark i s = some (tabA tab i s)) ∧
    (∀ i s, i < n → s ≤ i → entry tab.brk i s = some (tabB tab i s)) := by
  have hc := accepted_convex o n tab h
  exact ⟨fun i s hi hs => entry_of_rows hc.alen hc.arow hi hs, fun i s hi hs => entry_of_rows hc.blen hc.brow hi hs⟩

/-- **C06** One time step of an accepted scheme, started at stage 0 with at least `nstages + 1` allocated slots with
arbitrary stale contents, succeeds (no out-of-range access), returns to stage 0, and leaves in slot 0 the value
`u nstages` of the textbook recurrence started from the old slot 0. -/
theorem full_step_is_shu_osher {K : Type} [Field K] {E : Type} [AddCommGroup E] [Module K E]
    (order nstages : ℕ) (tab : Tableau) (h : tableau nstages order = some tab) (dt : K)
    (F post : ℕ → E → E) (u : ℕ → E) (hu : ShuOsher (coef tab.ark) (coef tab.brk) nstages dt F post u)
    (slots : List (Slot E)) (hlen : nstages + 1 ≤ slots.length) (x : E) (h0 : slots[0]? = some ⟨u 0, x⟩) :
    ∃ slots', runStages tab nstages dt F post nstages (slots, 0) = some (slots', 0) ∧
      slots'.length = slots.length ∧ ∃ y, slots'[0]? = some ⟨u nstages, y⟩ := by
  obtain ⟨ha, hb⟩ := entries_ok h
  have hs := (shapeOK_of_tableau h).2.1
  refine runStages_full hs ha hb ?_ ⟨hlen, by intro s hs; omega, ⟨x, h0⟩⟩
  intro i hi
  rw [hu i hi]
  simp only [coef_eq]
  rfl

/-- **C06** (many steps) Iterated over any number of time steps with step-dependent right-hand sides. -/
theorem full_steps_are_shu_osher {K : Type} [Field K] {E : Type} [AddCommGroup E] [Module K E]
    (order nstages : ℕ) (tab : Tableau) (h : tableau nstages order = some tab) (dt : K)
    (F post : ℕ → ℕ → E → E) (U : ℕ → E)
    (hU : ∀ m, ∃ u, u 0 = U m ∧ u nstages = U (m + 1) ∧
      ShuOsher (coef tab.ark) (coef tab.brk) nstages dt (F m) (post m) u)
    (slots : List (Slot E)) (hlen : nstages + 1 ≤ slots.length) (x : E) (h0 : slots[0]? = some ⟨U 0, x⟩) (m : ℕ) :
    ∃ slots', runSteps tab nstages dt F post m (slots, 0) = some (slots', 0) ∧
      slots'.length = slots.length ∧ ∃ y, slots'[0]? = some ⟨U m, y⟩ := by
  induction m with
  | zero => exact ⟨slots, rfl, rfl, x, h0⟩
  | succ m ih =>
    obtain ⟨s1, h1, hl1, y, hy⟩ := ih
    obtain ⟨u, hu0, hun, hu⟩ := hU m
    rw [← hu0] at hy
    obtain ⟨s2, h2, hl2, z, hz⟩ := full_step_is_shu_osher order nstages tab h dt (F m) (post m) u hu s1 (by omega) y hy
    exact ⟨s2, by simp [runSteps, h1, h2], by omega, z, by rw [hz, hun]⟩

/-- The recurrence determines a sequence for every start value. -/
theorem shuOsher_exists {K : Type} [Field K] {E : Type} [AddCommGroup E] [Module K E] (α β : ℕ → ℕ → ℚ) (n : ℕ)
    (dt : K) (F post : ℕ → E → E) (q : E) : ∃ u, u 0 = q ∧ ShuOsher α β n dt F post u := by
  let step : (i : ℕ) → (ℕ → E) → E := fun i u =>
    post i (∑ s ∈ Finset.range (i + 1), ((α i s : K) • u s + (dt * (β i s : K)) • F s (u s)))
  let hist : ℕ → ℕ → E := fun m => Nat.rec (fun _ => q) (fun i u => fun j => if j ≤ i then u j else step i u) m
  have hstab : ∀ m j, j ≤ m → hist m j = hist j j := by
    intro m
    induction m with
    | zero => intro j hj; obtain rfl : j = 0 := by omega
              rfl
    | succ m ih =>
      intro j hj
      by_cases hjm : j ≤ m
      · have : hist (m + 1) j = hist m j := by simp [hist, hjm]
        rw [this, ih j hjm]
      · obtain rfl : j = m + 1 := by omega
        rfl
  refine ⟨fun i => hist i i, rfl, ?_⟩
  intro i _
  have : hist (i + 1) (i + 1) = step i (hist i) := by simp [hist]
  simp only [this, step]
  congr 1
  refine Finset.sum_congr rfl fun s hs => ?_
  rw [hstab i s (by simp at hs; omega)]

/-- Non-vacuity of C06: SSP(2,2) for `q' = q`, three slots with stale contents. -/
example : ∃ u : ℕ → ℚ, u 0 = 7 ∧ ShuOsher (coef tab22.ark) (coef tab22.brk) 2 (1 / 2 : ℚ) (fun _ q => q) (fun _ q => q) u :=
  shuOsher_exists _ _ _ _ _ _ _
example : ((runStages tab22 2 (1 / 2 : ℚ) (fun _ (q : ℚ) => q) (fun _ q => q) 2
    ([⟨8, 1⟩, ⟨100, 2⟩, ⟨200, 3⟩], 0)).bind fun p => p.1[0]?.map fun (s : Slot ℚ) => s.q) = some 13 := by decide +kernel

/-! ## C03: strong stability preservation -/

section ssp
variable {E : Type} [AddCommGroup E] [Module ℝ E]

theorem row_of_coef {m : List (List ℚ)} {i s n : ℕ} (hl : m.length = n)
    (hr : ∀ i (h : i < m.length), m[i].length = i + 1) (hi : i < n) (hs : s ≤ i) :
    ∃ r ∈ m, r.length = i + 1 ∧ m[i]? = some r ∧ ∃ h : s < r.length, coef m i s = r[s] := by
  have h1 : i < m.length := by omega
  refine ⟨m[i], List.getElem_mem _, hr i h1, by simp [h1], by rw [hr i h1]; omega, ?_⟩
  have : s < m[i].length := by rw [hr i h1]; omega
  simp [coef, h1, this, List.getD]

theorem coef_nonneg {m : List (List ℚ)} {i s n : ℕ} (hl : m.length = n)
    (hr : ∀ i (h : i < m.length), m[i].length = i + 1) (hp : ∀ r ∈ m, ∀ x ∈ r, 0 ≤ x) (hi : i < n) (hs : s ≤ i) :
    0 ≤ coef m i s := by
  obtain ⟨r, hrm, _, _, h, e⟩ := row_of_coef hl hr hi hs
  rw [e]; exact hp r hrm _ (List.getElem_mem _)

theorem sum_coef {m : List (List ℚ)} {i n : ℕ} (hl : m.length = n)
    (hr : ∀ i (h : i < m.length), m[i].length = i + 1) (hi : i < n) :
    ∃ r ∈ m, ∑ s ∈ Finset.range (i + 1), coef m i s = r.sum := by
  have h1 : i < m.length := by omega
  refine ⟨m[i], List.getElem_mem _, ?_⟩
  have hlen := hr i h1
  rw [← hlen]
  have : ∀ s, coef m i s = m[i].getD s 0 := fun s => by simp [coef, h1, List.getD]
  simp only [this]
  generalize m[i] = r
  clear hlen
  induction r using List.reverseRecOn with
  | nil => simp
  | append_singleton r x ih =>
    rw [List.length_append, List.length_singleton, Finset.sum_range_succ, List.sum_append]
    congr 1
    · rw [← ih]
      refine Finset.sum_congr rfl fun s hs => ?_
      simp at hs
      simp [List.getD, List.getElem?_append_left hs]
    · simp [List.getD]

/-- The two coefficients of one entry, when the Euler weight is bounded by `C` times the convex weight: the stage term
is the convex weight times a forward Euler step of size at most `C * dt`. -/
theorem euler_term {a b C dt : ℝ} (ha : 0 ≤ a) (hb : 0 ≤ b) (hba : b ≤ C * a) (hdt : 0 ≤ dt) (q f : E) :
    (∃ τ, 0 ≤ τ ∧ τ ≤ C * dt ∧ a • q + (dt * b) • f = a • (q + τ • f)) ∨ (a = 0 ∧ b = 0) := by
  rcases eq_or_lt_of_le ha with h | h
  · right
    exact ⟨h.symm, le_antisymm (by rw [← h] at hba; simpa using hba) hb⟩
  · refine Or.inl ⟨dt * b / a, by positivity, ?_, ?_⟩
    · rw [div_le_iff₀ h]; nlinarith
    · rw [smul_add, smul_smul]; congr 2; field_simp

/-- **C03** Strong stability: let `S` be convex, let forward Euler steps of any size `τ ∈ [0, C dt]` (at every stage)
and the post-processing keep `S` invariant, where `C` bounds the ratios β/α of the table. If the table has exact rows,
one full time step (of the modelled code) started in `S` ends in `S`; the step cannot fail. -/
theorem ssp_convex (order nstages : ℕ) (tab : Tableau) (h : tableau nstages order = some tab)
    (hx : ∀ r ∈ tab.ark, r.sum = 1) (C dt : ℝ) (hdt : 0 ≤ dt)
    (hC : ∀ i s, i < nstages → s ≤ i → (coef tab.brk i s : ℝ) ≤ C * (coef tab.ark i s : ℝ))
    (S : Set E) (hS : Convex ℝ S) (F post : ℕ → E → E)
    (hF : ∀ s, s < nstages → ∀ q ∈ S, ∀ τ, 0 ≤ τ → τ ≤ C * dt → q + τ • F s q ∈ S)
    (hpost : ∀ i, ∀ q ∈ S, post i q ∈ S)
    (slots : List (Slot E)) (hlen : nstages + 1 ≤ slots.length) (q x : E) (h0 : slots[0]? = some ⟨q, x⟩) (hq : q ∈ S) :
    ∃ slots' q' y, runStages tab nstages dt F post nstages (slots, 0) = some (slots', 0) ∧
      slots'[0]? = some ⟨q', y⟩ ∧ q' ∈ S := by
  obtain ⟨u, hu0, hu⟩ := shuOsher_exists (coef tab.ark) (coef tab.brk) nstages dt F post q
  have hc := accepted_convex order nstages tab h
  have hall : ∀ k, k ≤ nstages → ∀ s, s ≤ k → u s ∈ S := by
    intro k
    induction k with
    | zero => intro _ s hs; obtain rfl : s = 0 := by omega
              rw [hu0]; exact hq
    | succ k ih =>
      intro hk s hs
      rcases Nat.lt_or_eq_of_le hs with hlt | rfl
      · exact ih (by omega) s (by omega)
      · rw [hu k (by omega)]
        apply hpost
        have hτ : ∀ s ∈ Finset.range (k + 1), ∃ z ∈ S, ((coef tab.ark k s : ℝ)) • u s +
            (dt * (coef tab.brk k s : ℝ)) • F s (u s) = (coef tab.ark k s : ℝ) • z := by
          intro s hs
          simp only [Finset.mem_range] at hs
          have hsk : s ≤ k := by omega
          have ha : (0 : ℝ) ≤ (coef tab.ark k s : ℝ) := by
            exact_mod_cast coef_nonneg hc.alen hc.arow hc.anonneg (by omega) hsk
          have hb : (0 : ℝ) ≤ (coef tab.brk k s : ℝ) := by
            exact_mod_cast coef_nonneg hc.blen hc.brow hc.bnonneg (by omega) hsk
          have hus := ih (by omega) s hsk
          obtain ⟨τ, hτ⟩ | hz := euler_term ha hb (hC k s (by omega) hsk) hdt (u s) (F s (u s))
          · exact ⟨_, hF s (by omega) _ hus τ hτ.1 hτ.2.1, hτ.2.2⟩
          · exact ⟨u s, hus, by rw [hz.1, hz.2]; simp⟩
        choose! z hzS hz using hτ
        rw [Finset.sum_congr rfl hz]
        refine hS.sum_mem (fun s hs => ?_) ?_ hzS
        · simp only [Finset.mem_range] at hs
          exact_mod_cast coef_nonneg hc.alen hc.arow hc.anonneg (by omega : k < nstages) (by omega : s ≤ k)
        · obtain ⟨r, hr, e⟩ := sum_coef (i := k) hc.alen hc.arow (by omega)
          have := hx r hr
          rw [← e] at this
          exact_mod_cast this
  rw [← hu0] at h0
  obtain ⟨s', hs', _, y, hy⟩ := full_step_is_shu_osher order nstages tab h dt F post u hu slots hlen x h0
  exact ⟨s', u nstages, y, hs', hy, hall nstages le_rfl nstages le_rfl⟩

/-- **C03** (cones, all twelve tables) The same for a convex cone containing 0 (e.g. nonnegative depths), without the
hypothesis of exact row sums. -/
theorem ssp_cone (order nstages : ℕ) (tab : Tableau) (h : tableau nstages order = some tab)
    (C dt : ℝ) (hdt : 0 ≤ dt)
    (hC : ∀ i s, i < nstages → s ≤ i → (coef tab.brk i s : ℝ) ≤ C * (coef tab.ark i s : ℝ))
    (S : Set E) (h0S : (0 : E) ∈ S) (hadd : ∀ p ∈ S, ∀ q ∈ S, p + q ∈ S) (hsmul : ∀ c : ℝ, 0 ≤ c → ∀ q ∈ S, c • q ∈ S)
    (F post : ℕ → E → E)
    (hF : ∀ s, s < nstages → ∀ q ∈ S, ∀ τ, 0 ≤ τ → τ ≤ C * dt → q + τ • F s q ∈ S)
    (hpost : ∀ i, ∀ q ∈ S, post i q ∈ S)
    (slots : List (Slot E)) (hlen : nstages + 1 ≤ slots.length) (q x : E) (h0 : slots[0]? = some ⟨q, x⟩) (hq : q ∈ S) :
    ∃ slots' q' y, runStages tab nstages dt F post nstages (slots, 0) = some (slots', 0) ∧
      slots'[0]? = some ⟨q', y⟩ ∧ q' ∈ S := by
  obtain ⟨u, hu0, hu⟩ := shuOsher_exists (coef tab.ark) (coef tab.brk) nstages dt F post q
  have hc := accepted_convex order nstages tab h
  have hall : ∀ k, k ≤ nstages → ∀ s, s ≤ k → u s ∈ S := by
    intro k
    induction k with
    | zero => intro _ s hs; obtain rfl : s = 0 := by omega
              rw [hu0]; exact hq
    | succ k ih =>
      intro hk s hs
      rcases Nat.lt_or_eq_of_le hs with hlt | rfl
      · exact ih (by omega) s (by omega)
      · rw [hu k (by omega)]
        apply hpost
        refine Finset.sum_induction _ (· ∈ S) (fun a b ha hb => hadd a ha b hb) h0S ?_
        intro s hs
        simp only [Finset.mem_range] at hs
        have hsk : s ≤ k := by omega
        have ha : (0 : ℝ) ≤ (coef tab.ark k s : ℝ) := by
          exact_mod_cast coef_nonneg hc.alen hc.arow hc.anonneg (by omega) hsk
        have hb : (0 : ℝ) ≤ (coef tab.brk k s : ℝ) := by
          exact_mod_cast coef_nonneg hc.blen hc.brow hc.bnonneg (by omega) hsk
        have hus := ih (by omega) s hsk
        obtain ⟨τ, hτ⟩ | hz := euler_term ha hb (hC k s (by omega) hsk) hdt (u s) (F s (u s))
        · rw [hτ.2.2]; exact hsmul _ ha _ (hF s (by omega) _ hus τ hτ.1 hτ.2.1)
        · rw [hz.1, hz.2]; simpa using h0S
  rw [← hu0] at h0
  obtain ⟨s', hs', _, y, hy⟩ := full_step_is_shu_osher order nstages tab h dt F post u hu slots hlen x h0
  exact ⟨s', u nstages, y, hs', hy, hall nstages le_rfl nstages le_rfl⟩

/-- Bounds for the ratio β/α of each scheme (the reciprocal of the SSP coefficient, rounded up). -/
def ratio (nstages order : ℕ) : ℚ :=
  if order ≤ 3 then (if nstages ≤ 3 then 1 else if nstages = 4 then 1 / 2 else if nstages = 5 then 37727 / 100000
    else if nstages = 6 then 28423 / 100000 else if nstages = 7 then 23322 / 100000 else 19581 / 100000)
  else (if nstages = 5 then 66307 / 100000 else if nstages = 6 then 43670 / 100000 else if nstages = 7 then 30112 / 100000
    else 24121 / 100000)

/-- The hypothesis `hC` of the two theorems above holds with `C = ratio nstages order` for every accepted scheme. -/
theorem ratio_bound (order nstages : ℕ) (tab : Tableau) (h : tableau nstages order = some tab) :
    ∀ i s, i < nstages → s ≤ i → coef tab.brk i s ≤ ratio nstages order * coef tab.ark i s := by
  have : ∀ i ∈ List.range nstages, ∀ s ∈ List.range (i + 1), coef tab.brk i s ≤ ratio nstages order * coef tab.ark i s := by
    refine tableau_cases (P := fun n o tab => ∀ i ∈ List.range n, ∀ s ∈ List.range (i + 1),
      coef tab.brk i s ≤ ratio n o * coef tab.ark i s) h ?_ ?_ ?_ ?_ ?_ ?_ ?_ ?_ ?_ ?_ ?_ ?_ <;> decide +kernel
  intro i s hi hs
  exact this i (List.mem_range.mpr hi) s (List.mem_range.mpr (by omega))

/-- Non-vacuity of C03: `q' = -q`, `S = [0, ∞)`, SSP(4,3), dt ≤ 2. -/
example (dt : ℝ) (hdt : 0 ≤ dt) (hdt2 : dt ≤ 2) (slots : List (Slot ℝ)) (hlen : 5 ≤ slots.length) (q x : ℝ)
    (h0 : slots[0]? = some ⟨q, x⟩) (hq : 0 ≤ q) :
    ∃ slots' q' y, runStages tab43 4 dt (fun _ q => -q) (fun _ q => q) 4 (slots, 0) = some (slots', 0) ∧
      slots'[0]? = some ⟨q', y⟩ ∧ 0 ≤ q' := by
  refine ssp_convex 3 4 tab43 rfl (exact_rows 3 4 tab43 rfl (by decide)) (1 / 2) dt hdt ?_ (Set.Ici 0) (convex_Ici 0)
    _ _ ?_ (fun i q hq => hq) slots hlen q x h0 hq
  · intro i s hi hs
    have := (Rat.cast_le (K := ℝ)).mpr (ratio_bound 3 4 tab43 rfl i s hi hs)
    have h2 : ratio 4 3 = 1 / 2 := by decide +kernel
    rw [h2] at this
    push_cast at this
    exact this
  · intro s _ q hq τ h1 h2
    simp only [Set.mem_Ici, smul_eq_mul] at *
    nlinarith

end ssp

/-! ## C04: order conditions -/

/-- `A` and `w` are the Butcher form of the recurrence: row `i ≤ n` expresses the stage value `i` as
`w i • u 0 + dt ∑_k A i k • F_k`. Row `n` holds the quadrature weights. -/
structure IsButcher (α β : ℕ → ℕ → ℚ) (n : ℕ) (w : ℕ → ℚ) (A : ℕ → ℕ → ℚ) : Prop where
  w0 : w 0 = 1
  A0 : ∀ k, k < n → A 0 k = 0
  w_succ : ∀ i, i < n → w (i + 1) = ∑ s ∈ Finset.range (i + 1), α i s * w s
  A_succ : ∀ i, i < n → ∀ k, k < n → A (i + 1) k = ∑ s ∈ Finset.range (i + 1), α i s * A s k + if k ≤ i then β i k else 0

/-- The Butcher form has its meaning: it expresses every stage value of every Shu–Osher sequence (without
post-processing) by the right-hand sides. -/
theorem butcher_form {K : Type} [Field K] [CharZero K] {E : Type} [AddCommGroup E] [Module K E] (α β : ℕ → ℕ → ℚ) (n : ℕ)
    (w : ℕ → ℚ) (A : ℕ → ℕ → ℚ) (hA : IsButcher α β n w A) (dt : K) (F : ℕ → E → E) (u : ℕ → E)
    (hu : ShuOsher α β n dt F (fun _ q => q) u) (i : ℕ) (hi : i ≤ n) :
    u i = (w i : K) • u 0 + dt • ∑ k ∈ Finset.range n, (A i k : K) • F k (u k) := by
  induction i using Nat.strong_induction_on with
  | _ i ih =>
    cases i with
    | zero =>
      have : ∑ k ∈ Finset.range n, (A 0 k : K) • F k (u k) = 0 :=
        Finset.sum_eq_zero fun k hk => by rw [hA.A0 k (Finset.mem_range.mp hk)]; simp
      rw [this, hA.w0]; simp
    | succ i =>
      have hin : i < n := by omega
      rw [hu i hin]
      have h1 : ∀ s ∈ Finset.range (i + 1), (α i s : K) • u s + (dt * (β i s : K)) • F s (u s) =
          ((α i s * w s : ℚ) : K) • u 0 + dt • (∑ k ∈ Finset.range n, ((α i s * A s k : ℚ) : K) • F k (u k))
            + dt • ((β i s : K) • F s (u s)) := by
        intro s hs
        have hs' : s < i + 1 := Finset.mem_range.mp hs
        have e := ih s hs' (by omega)
        generalize F s (u s) = f
        rw [e]
        simp only [smul_add, smul_smul, Finset.smul_sum, Rat.cast_mul]
        congr 2
        refine Finset.sum_congr rfl fun k _ => ?_
        congr 1; ring
      rw [Finset.sum_congr rfl h1, Finset.sum_add_distrib, Finset.sum_add_distrib, ← Finset.sum_smul, hA.w_succ i hin,
        ← Finset.smul_sum, ← Finset.smul_sum, add_assoc, ← smul_add, Rat.cast_sum]
      refine congrArg _ (congrArg _ ?_)
      rw [Finset.sum_comm]
      have h2 : ∑ s ∈ Finset.range (i + 1), (β i s : K) • F s (u s) =
          ∑ k ∈ Finset.range n, ((if k ≤ i then β i k else 0 : ℚ) : K) • F k (u k) := by
        rw [← Finset.sum_subset (s₁ := Finset.range (i + 1)) (s₂ := Finset.range n)]
        · refine Finset.sum_congr rfl fun k hk => ?_
          rw [if_pos (by have := Finset.mem_range.mp hk; omega)]
        · intro k hk; simp only [Finset.mem_range] at *; omega
        · intro k _ hk
          rw [if_neg (by simp only [Finset.mem_range] at hk; omega)]; simp
      rw [h2, ← Finset.sum_add_distrib]
      refine Finset.sum_congr rfl fun k hk => ?_
      rw [hA.A_succ i hin k (Finset.mem_range.mp hk), ← Finset.sum_smul, ← add_smul]
      push_cast
      rfl

/-- The (rooted-tree) Runge–Kutta order conditions up to order `p ≤ 4` for weights `b` and matrix `A`, within `ε`. -/
structure OrderConditions (n p : ℕ) (b : ℕ → ℚ) (A : ℕ → ℕ → ℚ) (ε : ℚ) : Prop where
  o1 : 1 ≤ p → |∑ i ∈ Finset.range n, b i - 1| ≤ ε
  o2 : 2 ≤ p → |∑ i ∈ Finset.range n, b i * (∑ j ∈ Finset.range n, A i j) - 1 / 2| ≤ ε
  o3a : 3 ≤ p → |∑ i ∈ Finset.range n, b i * (∑ j ∈ Finset.range n, A i j) ^ 2 - 1 / 3| ≤ ε
  o3b : 3 ≤ p → |∑ i ∈ Finset.range n, b i * (∑ j ∈ Finset.range n, A i j * ∑ k ∈ Finset.range n, A j k) - 1 / 6| ≤ ε
  o4a : 4 ≤ p → |∑ i ∈ Finset.range n, b i * (∑ j ∈ Finset.range n, A i j) ^ 3 - 1 / 4| ≤ ε
  o4b : 4 ≤ p → |∑ i ∈ Finset.range n, b i * (∑ j ∈ Finset.range n, A i j) *
      (∑ j ∈ Finset.range n, A i j * ∑ k ∈ Finset.range n, A j k) - 1 / 8| ≤ ε
  o4c : 4 ≤ p → |∑ i ∈ Finset.range n, b i * (∑ j ∈ Finset.range n, A i j * (∑ k ∈ Finset.range n, A j k) ^ 2) - 1 / 12| ≤ ε
  o4d : 4 ≤ p → |∑ i ∈ Finset.range n, b i * (∑ j ∈ Finset.range n, A i j *
      ∑ k ∈ Finset.range n, A j k * ∑ l ∈ Finset.range n, A k l) - 1 / 24| ≤ ε

/-- Evaluation of the Butcher rows (list of rows `0..n`, each of length `n`). -/
def butcherRows (tab : Tableau) (n : ℕ) : List (List ℚ) :=
  (List.range n).foldl (fun rows i => rows ++ [(List.range n).map fun k =>
    ((List.range (i + 1)).map fun s => coef tab.ark i s * coef rows s k).sum + if k ≤ i then coef tab.brk i k else 0])
    [List.replicate n 0]

theorem finset_sum_eq_list (n : ℕ) (f : ℕ → ℚ) : ∑ i ∈ Finset.range n, f i = ((List.range n).map f).sum := by
  induction n with
  | zero => simp
  | succ n ih => rw [Finset.sum_range_succ, List.range_succ, List.map_append, List.sum_append, ih]; simp

theorem butcher_eval {tab : Tableau} {n : ℕ} {w : ℕ → ℚ} {A : ℕ → ℕ → ℚ}
    (hA : IsButcher (coef tab.ark) (coef tab.brk) n w A) :
    ∀ i, i ≤ n → ∀ k, k < n → A i k = coef (butcherRows tab n) i k := by
  have key : ∀ m, m ≤ n → ∀ rows : List (List ℚ), rows = (List.range m).foldl (fun rows i => rows ++ [(List.range n).map fun k =>
      ((List.range (i + 1)).map fun s => coef tab.ark i s * coef rows s k).sum + if k ≤ i then coef tab.brk i k else 0])
      [List.replicate n 0] → rows.length = m + 1 ∧ ∀ i, i ≤ m → ∀ k, k < n → A i k = coef rows i k := by
    intro m
    induction m with
    | zero =>
      rintro - rows rfl
      refine ⟨rfl, fun i hi k hk => ?_⟩
      obtain rfl : i = 0 := by omega
      rw [hA.A0 k hk]; simp [coef, List.getD, hk]
    | succ m ih =>
      intro hm rows hrows
      rw [List.range_succ, List.foldl_append] at hrows
      obtain ⟨hl, hv⟩ := ih (by omega) _ rfl
      generalize (List.range m).foldl _ _ = prev at hrows hl hv
      simp only [List.foldl_cons, List.foldl_nil] at hrows
      subst hrows
      refine ⟨by simp [hl], fun i hi k hk => ?_⟩
      rcases Nat.lt_or_eq_of_le hi with hlt | rfl
      · rw [hv i (by omega) k hk]
        simp [coef, List.getD, List.getElem?_append_left (show i < prev.length by omega)]
      · rw [hA.A_succ m (by omega) k hk, finset_sum_eq_list]
        have : ∀ s ∈ List.range (m + 1), coef tab.ark m s * A s k = coef tab.ark m s * coef prev s k := by
          intro s hs; rw [hv s (by simp at hs; omega) k hk]
        rw [List.map_congr_left this]
        simp [coef, List.getD, ← hl, hk]
  exact (key n le_rfl _ rfl).2

/-- Tolerance of each table: 0 for the four tables given by short rationals, 10⁻¹⁰ for the ones printed as decimals. -/
def orderTol (nstages order : ℕ) : ℚ :=
  if (nstages, order) ∈ [(1, 1), (2, 2), (3, 3), (4, 3)] then 0 else 1 / 10 ^ 10

/-- Evaluation of the order conditions by lists. -/
def orderCheck (n p : ℕ) (b : ℕ → ℚ) (A : ℕ → ℕ → ℚ) (ε : ℚ) : Bool :=
  let r := List.range n
  let c := r.map fun i => (r.map (A i)).sum
  let Av (v : List ℚ) := r.map fun i => (r.map fun j => A i j * v.getD j 0).sum
  let dot (v : List ℚ) := (r.map fun i => b i * v.getD i 0).sum
  let Ac := Av c
  decide (1 ≤ p → |(r.map b).sum - 1| ≤ ε) &&
  decide (2 ≤ p → |dot c - 1 / 2| ≤ ε) &&
  decide (3 ≤ p → |dot (c.map (· ^ 2)) - 1 / 3| ≤ ε) &&
  decide (3 ≤ p → |dot Ac - 1 / 6| ≤ ε) &&
  decide (4 ≤ p → |dot (c.map (· ^ 3)) - 1 / 4| ≤ ε) &&
  decide (4 ≤ p → |dot (List.zipWith (· * ·) c Ac) - 1 / 8| ≤ ε) &&
  decide (4 ≤ p → |dot (Av (c.map (· ^ 2))) - 1 / 12| ≤ ε) &&
  decide (4 ≤ p → |dot (Av Ac) - 1 / 24| ≤ ε)

theorem orderCheck_sound {n p : ℕ} {b : ℕ → ℚ} {A : ℕ → ℕ → ℚ} {ε : ℚ} (h : orderCheck n p b A ε = true) :
    OrderConditions n p b A ε := by
  have hg : ∀ (f : ℕ → ℚ) i, i ∈ List.range n → ((List.range n).map f).getD i 0 = f i := by
    intro f i hi; simp at hi; simp [List.getD, hi]
  have hm : ∀ (f g : ℕ → ℚ), (∀ i ∈ List.range n, f i = g i) → ((List.range n).map f).sum = ((List.range n).map g).sum :=
    fun f g hfg => by rw [List.map_congr_left hfg]
  have hz : ∀ (f g : ℕ → ℚ), List.zipWith (· * ·) ((List.range n).map f) ((List.range n).map g) =
      (List.range n).map fun i => f i * g i := by
    intro f g; rw [List.zipWith_map, List.zipWith_self]
  have hAg : ∀ (a f : ℕ → ℚ), ((List.range n).map fun j => a j * ((List.range n).map f).getD j 0).sum =
      ((List.range n).map fun j => a j * f j).sum := fun a f => hm _ _ fun j hj => by rw [hg f j hj]
  simp only [orderCheck, Bool.and_eq_true, decide_eq_true_eq, List.map_map, hAg, hz, Function.comp_def] at h
  obtain ⟨⟨⟨⟨⟨⟨⟨h1, h2⟩, h3a⟩, h3b⟩, h4a⟩, h4b⟩, h4c⟩, h4d⟩ := h
  refine ⟨?_, ?_, ?_, ?_, ?_, ?_, ?_, ?_⟩ <;> intro hp <;> simp only [finset_sum_eq_list]
  · exact h1 hp
  · exact h2 hp
  · exact h3a hp
  · exact h3b hp
  · exact h4a hp
  · simpa only [mul_assoc] using h4b hp
  · exact h4c hp
  · exact h4d hp

/-- **C04** Every accepted scheme of order `p` satisfies all Runge–Kutta order conditions up to order `p`, exactly for
(1,1), (2,2), (3,3), (4,3) and to 10⁻¹⁰ for the tables printed as decimals. -/
theorem order_conditions (order nstages : ℕ) (tab : Tableau) (h : tableau nstages order = some tab)
    (w : ℕ → ℚ) (A : ℕ → ℕ → ℚ) (hA : IsButcher (coef tab.ark) (coef tab.brk) nstages w A) :
    OrderConditions nstages order (A nstages) A (orderTol nstages order) := by
  have hcheck : orderCheck nstages order (coef (butcherRows tab nstages) nstages) (coef (butcherRows tab nstages))
      (orderTol nstages order) = true := by
    refine tableau_cases (P := fun n o tab => orderCheck n o (coef (butcherRows tab n) n) (coef (butcherRows tab n))
      (orderTol n o) = true) h ?_ ?_ ?_ ?_ ?_ ?_ ?_ ?_ ?_ ?_ ?_ ?_ <;> decide +kernel
  have hs := orderCheck_sound hcheck
  have he := butcher_eval hA
  have hr : ∀ i, i ≤ nstages → ∀ f : ℕ → ℚ, ∑ k ∈ Finset.range nstages, coef (butcherRows tab nstages) i k * f k =
      ∑ k ∈ Finset.range nstages, A i k * f k := fun i hi f =>
    Finset.sum_congr rfl fun k hk => by rw [he i hi k (Finset.mem_range.mp hk)]
  have hr1 : ∀ i, i ≤ nstages → ∑ k ∈ Finset.range nstages, coef (butcherRows tab nstages) i k =
      ∑ k ∈ Finset.range nstages, A i k := fun i hi =>
    Finset.sum_congr rfl fun k hk => by rw [he i hi k (Finset.mem_range.mp hk)]
  have hle : ∀ {i}, i ∈ Finset.range nstages → i ≤ nstages := fun hi => (Finset.mem_range.mp hi).le
  have c2 : ∀ i ∈ Finset.range nstages, ∀ f : ℚ → ℚ, ∑ j ∈ Finset.range nstages, coef (butcherRows tab nstages) i j *
      f (∑ k ∈ Finset.range nstages, coef (butcherRows tab nstages) j k) =
      ∑ j ∈ Finset.range nstages, A i j * f (∑ k ∈ Finset.range nstages, A j k) := by
    intro i hi f
    rw [hr i (hle hi)]
    exact Finset.sum_congr rfl fun j hj => by rw [hr1 j (hle hj)]
  have key : ∀ (f g : ℕ → ℚ) (c e : ℚ), (∀ i ∈ Finset.range nstages, f i = g i) →
      |∑ i ∈ Finset.range nstages, f i - c| ≤ e → |∑ i ∈ Finset.range nstages, g i - c| ≤ e :=
    fun f g c e hfg h => by rwa [← Finset.sum_congr rfl hfg]
  have hb : ∀ i ∈ Finset.range nstages, coef (butcherRows tab nstages) nstages i = A nstages i := fun i hi =>
    (he nstages le_rfl i (Finset.mem_range.mp hi)).symm
  refine ⟨fun hp => key _ _ _ _ (fun i hi => hb i hi) (hs.o1 hp), fun hp => key _ _ _ _ (fun i hi => ?_) (hs.o2 hp),
    fun hp => key _ _ _ _ (fun i hi => ?_) (hs.o3a hp), fun hp => key _ _ _ _ (fun i hi => ?_) (hs.o3b hp),
    fun hp => key _ _ _ _ (fun i hi => ?_) (hs.o4a hp), fun hp => key _ _ _ _ (fun i hi => ?_) (hs.o4b hp),
    fun hp => key _ _ _ _ (fun i hi => ?_) (hs.o4c hp), fun hp => key _ _ _ _ (fun i hi => ?_) (hs.o4d hp)⟩
  · rw [hb i hi, hr1 i (hle hi)]
  · rw [hb i hi, hr1 i (hle hi)]
  · rw [hb i hi, c2 i hi (fun x => x)]
  · rw [hb i hi, hr1 i (hle hi)]
  · rw [hb i hi, c2 i hi (fun x => x), hr1 i (hle hi)]
  · rw [hb i hi, c2 i hi (fun x => x ^ 2)]
  · rw [hb i hi, hr i (hle hi), Finset.sum_congr rfl fun j hj => by rw [c2 j hj (fun x => x)]]

/-- Non-vacuity: the Butcher form exists for SSP(3,3) (the classical tableau of Shu and Osher). -/
example : ∃ w A, IsButcher (coef tab33.ark) (coef tab33.brk) 3 w A ∧ A 3 2 = 2 / 3 ∧ A 2 1 = 1 / 4 := by
  refine ⟨fun _ => 1, fun i k => coef (butcherRows tab33 3) i k, ⟨rfl, by decide +kernel, ?_, ?_⟩, by decide +kernel, by decide +kernel⟩
  · simp only [finset_sum_eq_list]; decide +kernel
  · simp only [finset_sum_eq_list]; decide +kernel

/-! ## C05: stage times -/

/-- The abscissae of a scheme: stage values for `q' = 1`, `q(0) = 0`, `dt = 1`. -/
def IsAbscissae (α β : ℕ → ℕ → ℚ) (n : ℕ) (c : ℕ → ℚ) : Prop :=
  c 0 = 0 ∧ ShuOsher α β n (1 : ℚ) (fun _ _ => (1 : ℚ)) (fun _ q => q) c

/-- **C05** is false: at every stage but the first one, for every accepted scheme and every `dt ≠ 0`, the stage time
reported by the stepper differs from `t + c_i dt` (the array `drk` the constructor computes is identically zero). -/
theorem stage_time_wrong (tanh : ℝ → ℝ) (order nstages : ℕ) (dt rd : ℝ) (hdt : dt ≠ 0) (s0 : Explicit ℝ)
    (h : Explicit.init order nstages dt rd = some s0) (c : ℕ → ℚ)
    (hc : IsAbscissae (coef s0.tab.ark) (coef s0.tab.brk) nstages c) (k : ℕ) (hk : k % nstages ≠ 0) :
    ∃ s, Explicit.incrN tanh k s0 = some s ∧ ∃ τ, s.time = some τ ∧ τ ≠ s.t + (c s.stage : ℝ) * dt := by
  obtain ⟨hi0, h1, h8, _, ht⟩ := init_inv h
  obtain ⟨s, hs, hi, _⟩ := incrN_inv tanh h k
  refine ⟨s, hs, _, hi.time h1, ?_⟩
  have hcv := accepted_convex order nstages s0.tab ht
  have hrow : ∀ r ∈ s0.tab.brk, 0 < r.sum := by
    exact tableau_cases (P := fun _ _ tab => ∀ r ∈ tab.brk, 0 < r.sum) ht (by decide +kernel) (by decide +kernel)
      (by decide +kernel) (by decide +kernel) (by decide +kernel) (by decide +kernel) (by decide +kernel) (by decide +kernel)
      (by decide +kernel) (by decide +kernel) (by decide +kernel) (by decide +kernel)
  obtain ⟨hc0, hcs⟩ := hc
  have hpos : ∀ i, i ≤ nstages → (i = 0 ∧ c i = 0) ∨ (0 < i ∧ 0 < c i) := by
    intro i
    induction i using Nat.strong_induction_on with
    | _ i ih =>
      intro hin
      cases i with
      | zero => exact Or.inl ⟨rfl, hc0⟩
      | succ i =>
        refine Or.inr ⟨by omega, ?_⟩
        rw [hcs i (by omega)]
        simp only [smul_eq_mul, one_mul, mul_one, Finset.sum_add_distrib, Rat.cast_id]
        obtain ⟨r, hr, e⟩ := sum_coef (i := i) hcv.blen hcv.brow (by omega)
        rw [e]
        refine add_pos_of_nonneg_of_pos (Finset.sum_nonneg fun s hs => ?_) (hrow r hr)
        have hs' := Finset.mem_range.mp hs
        refine mul_nonneg (coef_nonneg hcv.alen hcv.arow hcv.anonneg (by omega) (by omega)) ?_
        rcases ih s hs' (by omega) with h | h
        · exact h.2.ge
        · exact h.2.le
  have hlt : k % nstages < nstages := Nat.mod_lt _ h1
  rcases hpos (k % nstages) hlt.le with h0 | h0
  · exact absurd h0.1 hk
  · rw [hi.t_eq, hi.stage_eq]
    intro e
    have : (c (k % nstages) : ℝ) * dt = 0 := by linarith
    rcases mul_eq_zero.mp this with h | h
    · have : c (k % nstages) = 0 := by exact_mod_cast h
      exact absurd this h0.2.ne'
    · exact hdt h

/-- **C05** The fault is in the vector `drk` only: in a state where it holds the abscissa of the current stage, the reported time is right. -/
theorem stage_time_table {K : Type} [Field K] [LinearOrder K] (s : Explicit K) (c : ℕ → ℚ) (h : s.drk[s.stage]? = some (c s.stage)) :
    s.time = some (s.t + (c s.stage : K) * s.dt) := by
  simp [Explicit.time, h, mul_comm]

example : Explicit.time (K := ℚ) ⟨tab11, [0, 1], 2, 2, 3, 0, 1, 1, 6, 0, 1⟩ = some 9 := by decide +kernel

/-- **C05**, the part that holds: at the first stage of each step the reported time is the base time (`c_0 = 0`), and at
all stages it is the base time of the step. Missing: the offsets `c_i dt` of the later stages (see `stage_time_wrong`). -/
theorem stage_time_partial {K : Type} [Field K] [LinearOrder K] (tanh : K → K) (order nstages : ℕ) (dt rd : K)
    (s0 : Explicit K) (h : Explicit.init order nstages dt rd = some s0) (c : ℕ → ℚ)
    (hc : IsAbscissae (coef s0.tab.ark) (coef s0.tab.brk) nstages c) (k : ℕ) :
    ∃ s, Explicit.incrN tanh k s0 = some s ∧ s.time = some (((k / nstages : ℕ) : K) * dt) ∧
      (k % nstages = 0 → s.time = some (s.t + (c s.stage : K) * dt)) := by
  obtain ⟨s, hs, hi, _⟩ := incrN_inv tanh h k
  have ht := hi.time (init_inv h).2.1
  refine ⟨s, hs, ht, fun h0 => ?_⟩
  rw [ht, hi.t_eq, hi.stage_eq, h0, hc.1]; simp

/-- Concrete witness: SSP(2,2), `dt = 1`: second stage belongs to time 1, the stepper says 0. -/
example : IsAbscissae (coef tab22.ark) (coef tab22.brk) 2 (fun i => if i = 0 then 0 else 1) ∧
    ((Explicit.init (K := ℚ) 2 2 1 0).bind (Explicit.incr id)).bind Explicit.time = some 0 := by
  refine ⟨⟨rfl, ?_⟩, by decide +kernel⟩
  unfold ShuOsher
  simp only [finset_sum_eq_list, smul_eq_mul]
  decide +kernel

/-! ## C07: ramp -/

/-- The code treats a ramp duration as zero iff its magnitude is below `100 ε`. -/
theorem noRamp_iff (rd : ℝ) : noRamp rd = true ↔ |rd| < 100 / 2 ^ 52 := by
  unfold noRamp almostEqual epsDouble
  simp only [abs_zero, sub_zero]
  have h0 : max |rd| 0 = |rd| := max_eq_left (abs_nonneg _)
  rw [h0]
  have e : (1 / 2 ^ 52 * 100 : ℝ) = 100 / 2 ^ 52 := by norm_num
  by_cases h : |rd| < 1 / 2 ^ 52 * 100
  · rw [if_pos h]; rw [e] at h; simp [h]
  · rw [if_neg h]
    have hp : (0 : ℝ) < |rd| := lt_of_lt_of_le (by norm_num) (not_lt.mp h)
    rw [← e]
    simp only [h, iff_false, decide_eq_true_eq, not_lt]
    rw [mul_assoc]
    have : (1 / 2 ^ 52 * 100 : ℝ) ≤ 1 := by norm_num
    nlinarith

theorem tanh_mono {x y : ℝ} (h : x ≤ y) : Real.tanh x ≤ Real.tanh y := by
  have hx : Real.tanh x ∈ Set.Ioo (-1 : ℝ) 1 := Real.tanh_bijOn.mapsTo (Set.mem_univ x)
  have hy : Real.tanh y ∈ Set.Ioo (-1 : ℝ) 1 := Real.tanh_bijOn.mapsTo (Set.mem_univ y)
  rw [← Real.artanh_le_artanh_iff hx hy, Real.artanh_tanh, Real.artanh_tanh]
  exact h

/-- **C07** (no ramp) For a zero (or negligible) duration, the ramp is 1 after any number of increments. -/
theorem ramp_off (order nstages : ℕ) (dt rd : ℝ) (hrd : |rd| < 100 / 2 ^ 52) (s0 : Explicit ℝ)
    (h : Explicit.init order nstages dt rd = some s0) (k : ℕ) :
    ∃ s, Explicit.incrN Real.tanh k s0 = some s ∧ s.ramp = 1 := by
  obtain ⟨s, hs, _, hr⟩ := incrN_inv Real.tanh h k
  exact ⟨s, hs, by rw [hr, if_pos ((noRamp_iff rd).mpr hrd)]⟩

/-- **C07** (ramp) For a duration of at least `100 ε` and `dt ≥ 0`: the ramp after `k` increments is
`tanh (2 (t/86400)/duration)` of the reported stage time, it is 0 at the start, lies in [0,1), and does not decrease. -/
theorem ramp_on (order nstages : ℕ) (dt rd : ℝ) (hrd : 100 / 2 ^ 52 ≤ rd) (hdt : 0 ≤ dt) (s0 : Explicit ℝ)
    (h : Explicit.init order nstages dt rd = some s0) :
    s0.ramp = 0 ∧
    ∀ k, ∃ s s', Explicit.incrN Real.tanh k s0 = some s ∧ Explicit.incrN Real.tanh (k + 1) s0 = some s' ∧
      (∃ τ, s.time = some τ ∧ s.ramp = Real.tanh (2 * (τ / 86400) / rd)) ∧ 0 ≤ s.ramp ∧ s.ramp < 1 ∧ s.ramp ≤ s'.ramp := by
  have hno : ¬ noRamp rd = true := by
    rw [noRamp_iff, abs_of_nonneg (le_trans (by norm_num) hrd)]; exact not_lt.mpr hrd
  have hrd0 : 0 < rd := lt_of_lt_of_le (by norm_num) hrd
  obtain ⟨hi0, h1, _, hr0, _⟩ := init_inv h
  have hval : ∀ k, ∃ s, Explicit.incrN Real.tanh k s0 = some s ∧ s.time = some (((k / nstages : ℕ) : ℝ) * dt) ∧
      s.ramp = Real.tanh (2 * (((k / nstages : ℕ) : ℝ) * dt / 86400) / rd) := by
    intro k
    obtain ⟨s, hs, hi, hr⟩ := incrN_inv Real.tanh h k
    refine ⟨s, hs, hi.time h1, ?_⟩
    rw [hr, if_neg hno]
    by_cases hk : k = 0
    · simp [hk, Real.tanh_zero]
    · simp [hk]
  refine ⟨by rw [hr0, if_neg hno], fun k => ?_⟩
  obtain ⟨s, hs, ht, hr⟩ := hval k
  obtain ⟨s', hs', _, hr'⟩ := hval (k + 1)
  have hm := (Real.tanh_bijOn.mapsTo (Set.mem_univ (2 * (((k / nstages : ℕ) : ℝ) * dt / 86400) / rd)))
  refine ⟨s, s', hs, hs', ⟨_, ht, hr⟩, ?_, ?_, ?_⟩
  · rw [hr, ← Real.tanh_zero]
    exact tanh_mono (by positivity)
  · rw [hr]; exact hm.2
  · rw [hr, hr']
    refine tanh_mono ?_
    have : ((k / nstages : ℕ) : ℝ) ≤ (((k + 1) / nstages : ℕ) : ℝ) := by
      exact_mod_cast Nat.div_le_div_right (by omega)
    gcongr

example : ∃ s0, Explicit.init (K := ℝ) 2 2 (1 : ℝ) 2 = some s0 ∧ (100 / 2 ^ 52 : ℝ) ≤ 2 := by
  obtain ⟨s, hs⟩ := Option.isSome_iff_exists.mp ((accepts_iff (K := ℝ) 2 2 1 2).mpr (by decide))
  exact ⟨s, hs, by norm_num⟩

/-! ## C08: implicit and Strang steppers -/

/-- **C08** (acceptance) The implicit stepper accepts exactly (order, nstages) ∈ {(1,1), (2,1), (2,2)}. -/
theorem implicit_accepts_iff {K : Type} [Field K] [LinearOrder K] (tanh : K → K) (order nstages : ℕ) (dt rd : K) :
    (Implicit.init tanh order nstages dt rd).isSome = true ↔ (order, nstages) ∈ [(1, 1), (2, 1), (2, 2)] := by
  unfold Implicit.init
  simp only [List.mem_cons, Prod.mk.injEq, List.not_mem_nil, or_false]
  split_ifs <;> simp_all

theorem implicit_inv {K : Type} [Field K] [LinearOrder K] (tanh : K → K) (order nstages : ℕ) (dt rd : K)
    (s0 : Implicit K) (h : Implicit.init tanh order nstages dt rd = some s0) (k : ℕ) :
    ∃ s, Implicit.incrN tanh k s0 = some s ∧ s.nstages = 1 ∧ s.dt = dt ∧ s.rampDuration = rd ∧
      s.stage = 0 ∧ s.timestamp = k % 2 ^ 32 ∧ s.step = k % 2 ^ 32 ∧ s.t = (k : K) * dt ∧
      s.ramp = (if noRamp rd then 1 else if k = 0 then 0 else tanh (2 * ((k : K) * dt / 86400) / rd)) ∧
      s.rampNext = (if noRamp rd then 1 else tanh (2 * (((k + 1 : ℕ) : K) * dt / 86400) / rd)) := by
  induction k with
  | zero =>
    refine ⟨s0, rfl, ?_⟩
    unfold Implicit.init at h
    simp only at h
    split_ifs at h with h1 h2 h3 h4 h5 h6 <;> simp only [Option.some.injEq] at h <;> subst h <;> simp_all
  | succ k ih =>
    obtain ⟨s, hs, hn, hdt, hrd, hst, hts, hsp, ht, hr, hrn⟩ := ih
    simp only [Implicit.incrN, hs, Option.bind_some, Implicit.incr, hn, one_ne_zero, if_false, Nat.mod_one, if_true, hrd]
    by_cases hno : noRamp rd = true
    · rw [if_pos hno]
      refine ⟨_, rfl, rfl, hdt, rfl, rfl, ?_, ?_, ?_, ?_, ?_⟩
      · simp only [hts]; unfold u32; omega
      · simp only [hsp]; unfold u32; omega
      · simp only [ht, hdt]; push_cast; ring
      · simp only [hr, hno, if_true]
      · simp only [hrn, hno, if_true]
    · rw [if_neg hno]
      refine ⟨_, rfl, rfl, hdt, rfl, rfl, ?_, ?_, ?_, ?_, ?_⟩
      · simp only [hts]; unfold u32; omega
      · simp only [hsp]; unfold u32; omega
      · simp only [ht, hdt]; push_cast; ring
      · simp only [hrn, hno]; simp
      · simp only [hno, Implicit.timeNext, ht, hdt]
        simp only [Bool.false_eq_true, if_false]
        congr 3
        push_cast; ring

/-- **C08** (implicit clock) Each increment is one whole step (stage stays 0), base time is `k dt`, the next time is the
time after one more increment, and the ramp after an increment is the `next ramp` before it. -/
theorem implicit_clock {K : Type} [Field K] [LinearOrder K] (tanh : K → K) (order nstages : ℕ) (dt rd : K)
    (s0 : Implicit K) (h : Implicit.init tanh order nstages dt rd = some s0) (k : ℕ) :
    ∃ s s', Implicit.incrN tanh k s0 = some s ∧ Implicit.incr tanh s = some s' ∧
      s.stage = 0 ∧ s.nstages = 1 ∧ s.step = k % 2 ^ 32 ∧ s.timestamp = k % 2 ^ 32 ∧ s.time = (k : K) * dt ∧
      s.timeNext = s'.time ∧ s.rampNext = s'.ramp := by
  obtain ⟨s, hs, hn, hdt, hrd, hst, hts, hsp, ht, hr, hrn⟩ := implicit_inv tanh order nstages dt rd s0 h k
  obtain ⟨s', hs', hn', hdt', hrd', hst', hts', hsp', ht', hr', hrn'⟩ := implicit_inv tanh order nstages dt rd s0 h (k + 1)
  refine ⟨s, s', hs, ?_, hst, hn, hsp, hts, ht, ?_, ?_⟩
  · simpa [Implicit.incrN, hs] using hs'
  · simp only [Implicit.timeNext, Implicit.time, ht, ht', hdt]; push_cast; ring
  · rw [hrn, hr']; simp

/-- **C08** (weights) The implicit scheme weights the right-hand side at the new time by `1 - θ` and at the old time by `θ`
(`rhs_local` in the IHDG kernels). First order: the old right-hand side is not used at all (backward Euler). Second order:
the second order condition `∑ b c = 1/2` holds, i.e. `(1 - θ) * 1 + θ * 0 = 1/2`. The weights never change. -/
theorem implicit_weights {K : Type} [Field K] [LinearOrder K] [CharZero K] (tanh : K → K) (order nstages : ℕ) (dt rd : K)
    (s0 : Implicit K) (h : Implicit.init tanh order nstages dt rd = some s0) (k : ℕ) :
    ∃ s, Implicit.incrN tanh k s0 = some s ∧ s.order = order ∧ (order = 1 → 1 - s.theta = 1) ∧
      (order = 2 → 1 - s.theta = 1 / 2) := by
  have hk : ∃ s, Implicit.incrN tanh k s0 = some s ∧ s.nstages = s0.nstages ∧ s.order = s0.order ∧ s.theta = s0.theta := by
    obtain ⟨s, hs, -⟩ := implicit_inv tanh order nstages dt rd s0 h k
    refine ⟨s, hs, ?_⟩
    clear h
    induction k generalizing s with
    | zero => simp only [Implicit.incrN, Option.some.injEq] at hs; subst hs; exact ⟨rfl, rfl, rfl⟩
    | succ k ih =>
      simp only [Implicit.incrN, Option.bind_eq_some_iff] at hs
      obtain ⟨s1, hs1, hs⟩ := hs
      obtain ⟨a, b, c⟩ := ih s1 hs1
      rw [← a, ← b, ← c]
      unfold Implicit.incr at hs
      simp only at hs
      split_ifs at hs <;> simp only [Option.some.injEq] at hs <;> subst hs <;> exact ⟨rfl, rfl, rfl⟩
  obtain ⟨s, hs, -, ho, ht⟩ := hk
  refine ⟨s, hs, ?_⟩
  rw [ho, ht]
  unfold Implicit.init at h
  simp only at h
  split_ifs at h with h1 h2 h3 h4 h5 h6 <;> simp only [Option.some.injEq] at h <;> subst h <;>
    refine ⟨rfl, fun _ => ?_, fun _ => ?_⟩ <;> first | omega | norm_num

example : (Implicit.init (K := ℚ) id 2 2 (1 / 2) 0).isSome = true := by decide +kernel

/-- **C08** (Strang) After any number `m` of full Strang steps both clocks are at the beginning of a step and show the
same time `m dt`; the first one has done `2m` half steps, the second one `m` steps. -/
theorem strang_clock {K : Type} [Field K] [LinearOrder K] [CharZero K] (tanh : K → K) (order nstages : ℕ) (dt rd : K)
    (s0 : Strang K) (h : Strang.init order nstages dt rd = some s0) (m : ℕ) :
    ∃ s, Strang.run tanh m s0 = some s ∧ s.first.t = (m : K) * dt ∧ s.second.t = (m : K) * dt ∧
      s.first.time = s.second.time ∧ s.first.time = some ((m : K) * dt) ∧
      s.first.stage = 0 ∧ s.second.stage = 0 ∧
      s.first.step = (2 * m) % 2 ^ 32 ∧ s.second.step = m % 2 ^ 32 := by
  unfold Strang.init at h
  cases hf : Explicit.init order nstages dt rd with
  | none => rw [hf] at h; simp at h
  | some e =>
    rw [hf] at h
    simp only [Option.bind_eq_bind, Option.bind_some, Option.pure_def, Option.some.injEq] at h
    subst h
    obtain ⟨hi, h1, h8, _, _⟩ := init_inv hf
    have hstart1 : ClockInv order nstages (dt / 2) rd 0 { e with dt := e.dt / 2 } :=
      ⟨hi.order, hi.nst, by simp only [hi.dt_eq], hi.rd_eq, hi.drk_eq, hi.stage_eq, hi.ts_eq, hi.step_eq, by simp [hi.t_eq]⟩
    have hrun : ∀ (dt' : K) (j k : ℕ) (s : Explicit K), ClockInv order nstages dt' rd k s →
        ∃ s', Explicit.incrN tanh j s = some s' ∧ ClockInv order nstages dt' rd (k + j) s' := by
      intro dt' j
      induction j with
      | zero => intro k s hs; exact ⟨s, rfl, hs⟩
      | succ j ih =>
        intro k s hs
        obtain ⟨s1, e1, i1⟩ := ih k s hs
        obtain ⟨s2, e2, i2, _⟩ := incr_inv tanh h1 h8 i1
        exact ⟨s2, by simp [Explicit.incrN, e1, e2], i2⟩
    have hm : ∀ m, ∃ s, Strang.run tanh m ⟨{ e with dt := e.dt / 2 }, e⟩ = some s ∧
        ClockInv order nstages (dt / 2) rd (2 * m * nstages) s.first ∧ ClockInv order nstages dt rd (m * nstages) s.second := by
      intro m
      induction m with
      | zero => exact ⟨_, rfl, by simpa using hstart1, by simpa using hi⟩
      | succ m ih =>
        obtain ⟨s, es, i1, i2⟩ := ih
        obtain ⟨f, ef, jf⟩ := hrun _ nstages _ _ i1
        obtain ⟨g, eg, jg⟩ := hrun _ nstages _ _ i2
        obtain ⟨f', ef', jf'⟩ := hrun _ nstages _ _ jf
        refine ⟨⟨f', g⟩, ?_, ?_, ?_⟩
        · simp [Strang.run, es, Strang.fullStep, i1.nst, ef, i2.nst, eg, jf.nst, ef']
        · have : 2 * (m + 1) * nstages = 2 * m * nstages + nstages + nstages := by ring
          rw [this]; exact jf'
        · have : (m + 1) * nstages = m * nstages + nstages := by ring
          rw [this]; exact jg
    obtain ⟨s, es, i1, i2⟩ := hm m
    have d1 : 2 * m * nstages / nstages = 2 * m := Nat.mul_div_cancel _ h1
    have d2 : m * nstages / nstages = m := Nat.mul_div_cancel _ h1
    have t1 := i1.time h1
    have t2 := i2.time h1
    rw [d1] at t1
    rw [d2] at t2
    have e1 : ((2 * m : ℕ) : K) * (dt / 2) = (m : K) * dt := by push_cast; field_simp
    rw [e1] at t1
    refine ⟨s, es, ?_, ?_, by rw [t1, t2], t1, ?_, ?_, ?_, ?_⟩
    · rw [i1.t_eq, d1, e1]
    · rw [i2.t_eq, d2]
    · rw [i1.stage_eq]; exact Nat.mul_mod_left _ _
    · rw [i2.stage_eq]; exact Nat.mul_mod_left _ _
    · rw [i1.step_eq, d1]
    · rw [i2.step_eq, d2]

example : (Strang.init (K := ℚ) 3 4 (1 / 2) 0).isSome = true := by decide +kernel

end Verif.Stepper.Props
