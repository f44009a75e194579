import Verif.Model.SweWetDry
import Verif.Props.Basis
import Mathlib.Tactic.IntervalCases
import Mathlib.Tactic.Linarith

/-!
# C49: wetting and drying
-/

namespace Verif.Swe.Props
open Verif.Swe Verif.Basis Verif.Basis.Props

variable {K : Type} [Field K] [LinearOrder K] [IsStrictOrderedRing K]

/-! ### Smallest, largest and middle vertex -/

omit [Field K] [IsStrictOrderedRing K] in
theorem argmin_spec (h : ℕ → K) : argmin h < 3 ∧ ∀ v < 3, h (argmin h) ≤ h v := by
  unfold argmin
  by_cases h1 : h 1 < h 0 <;> simp only [h1, if_true, if_false]
  · by_cases h2 : h 2 < h 1 <;> simp only [h2, if_true, if_false]
    · refine ⟨by omega, fun v hv => ?_⟩
      interval_cases v
      · exact (h2.trans h1).le
      · exact h2.le
      · exact le_refl _
    · refine ⟨by omega, fun v hv => ?_⟩
      interval_cases v
      · exact h1.le
      · exact le_refl _
      · exact not_lt.mp h2
  · by_cases h2 : h 2 < h 0 <;> simp only [h2, if_true, if_false]
    · refine ⟨by omega, fun v hv => ?_⟩
      interval_cases v
      · exact h2.le
      · exact h2.le.trans (not_lt.mp h1)
      · exact le_refl _
    · refine ⟨by omega, fun v hv => ?_⟩
      interval_cases v
      · exact le_refl _
      · exact not_lt.mp h1
      · exact not_lt.mp h2

omit [Field K] [IsStrictOrderedRing K] in
theorem argmax_spec (h : ℕ → K) : argmax h < 3 ∧ ∀ v < 3, h v ≤ h (argmax h) := by
  unfold argmax
  by_cases h1 : h 0 < h 1 <;> simp only [h1, if_true, if_false]
  · by_cases h2 : h 1 < h 2 <;> simp only [h2, if_true, if_false]
    · refine ⟨by omega, fun v hv => ?_⟩
      interval_cases v
      · exact (h1.trans h2).le
      · exact h2.le
      · exact le_refl _
    · refine ⟨by omega, fun v hv => ?_⟩
      interval_cases v
      · exact h1.le
      · exact le_refl _
      · exact not_lt.mp h2
  · by_cases h2 : h 0 < h 2 <;> simp only [h2, if_true, if_false]
    · refine ⟨by omega, fun v hv => ?_⟩
      interval_cases v
      · exact h2.le
      · exact (not_lt.mp h1).trans h2.le
      · exact le_refl _
    · refine ⟨by omega, fun v hv => ?_⟩
      interval_cases v
      · exact le_refl _
      · exact not_lt.mp h1
      · exact not_lt.mp h2

/-- The new depths exist (no index out of range), keep the sum and are at least `h_o`. -/
theorem newDepths_spec {ho : K} {temp h : ℕ → K} (hne : ∃ a < 3, ∃ b < 3, h a < h b) (hs : 3 * ho ≤ h 0 + h 1 + h 2) :
    ∃ t, newDepths ho temp h = .ok t ∧ t 0 + t 1 + t 2 = h 0 + h 1 + h 2 ∧ ∀ v < 3, ho ≤ t v := by
  obtain ⟨hi, hi'⟩ := argmin_spec h
  obtain ⟨hj, hj'⟩ := argmax_spec h
  have hij : h (argmin h) < h (argmax h) := by
    obtain ⟨a, ha, b, hb, hab⟩ := hne
    exact lt_of_le_of_lt (hi' a ha) (lt_of_lt_of_le hab (hj' b hb))
  unfold newDepths
  simp only
  generalize argmin h = i at hi hi' hij ⊢
  generalize argmax h = j at hj hj' hij ⊢
  have key : ∀ a b c : K, a ≤ b → b ≤ c → 3 * ho ≤ a + b + c →
      ho ≤ c - (ho - a) - (max ho (b - (ho - a) / 2) - b) := by
    intro a b c h1 h2 h3
    rcases le_total ho (b - (ho - a) / 2) with h | h
    · rw [max_eq_right h]; linarith
    · rw [max_eq_left h]; linarith
  have m10 : midVrtx 1 0 = 2 := by decide
  have m20 : midVrtx 2 0 = 1 := by decide
  have m01 : midVrtx 0 1 = 2 := by decide
  have m21 : midVrtx 2 1 = 0 := by decide
  have m02 : midVrtx 0 2 = 1 := by decide
  have m12 : midVrtx 1 2 = 0 := by decide
  interval_cases i <;> interval_cases j
  all_goals first
    | exact absurd hij (lt_irrefl _)
    | skip
  all_goals
    simp only [m10, m20, m01, m21, m02, m12, Function.update_apply]
    norm_num
    have e0 := hi' 0 (by omega)
    have e1 := hi' 1 (by omega)
    have e2 := hi' 2 (by omega)
    have f0 := hj' 0 (by omega)
    have f1 := hj' 1 (by omega)
    have f2 := hj' 2 (by omega)
  · refine ⟨by ring, fun v hv => ?_⟩
    interval_cases v <;> simp
    have := key (h 0) (h 2) (h 1) e2 f2 (by linarith)
    linarith
  · refine ⟨by ring, fun v hv => ?_⟩
    interval_cases v <;> simp
    have := key (h 0) (h 1) (h 2) e1 f1 (by linarith)
    linarith
  · refine ⟨by ring, fun v hv => ?_⟩
    interval_cases v <;> simp
    have := key (h 1) (h 2) (h 0) e2 f2 (by linarith)
    linarith
  · refine ⟨by ring, fun v hv => ?_⟩
    interval_cases v <;> simp
    have := key (h 1) (h 0) (h 2) e0 f0 (by linarith)
    linarith
  · refine ⟨by ring, fun v hv => ?_⟩
    interval_cases v <;> simp
    have := key (h 2) (h 1) (h 0) e1 f1 (by linarith)
    linarith
  · refine ⟨by ring, fun v hv => ?_⟩
    interval_cases v <;> simp
    have := key (h 2) (h 0) (h 1) e0 f0 (by linarith)
    linarith

/-! ### Number of dry vertices -/

omit [IsStrictOrderedRing K] in
theorem nDry_eq (ho thr : K) (h : ℕ → K) : nDry ho thr h =
    (if h 0 ≤ ho + thr then 1 else 0) + (if h 1 ≤ ho + thr then 1 else 0) + (if h 2 ≤ ho + thr then 1 else 0) := by
  simp only [nDry, List.range_succ, List.range_zero, List.nil_append, List.filter_append, List.filter_cons, List.filter_nil, decide_eq_true_eq,
    List.length_append]
  split_ifs <;> rfl

omit [IsStrictOrderedRing K] in
theorem nDry_zero {ho thr : K} {h : ℕ → K} : nDry ho thr h = 0 ↔ ∀ v < 3, ho + thr < h v := by
  rw [nDry_eq]
  constructor
  · intro e v hv
    by_contra hc
    rw [not_lt] at hc
    interval_cases v <;> simp [hc] at e
  · intro e
    rw [if_neg (not_le.mpr (e 0 (by omega))), if_neg (not_le.mpr (e 1 (by omega))), if_neg (not_le.mpr (e 2 (by omega)))]

omit [IsStrictOrderedRing K] in
theorem nDry_three {ho thr : K} {h : ℕ → K} : nDry ho thr h = 3 ↔ ∀ v < 3, h v ≤ ho + thr := by
  rw [nDry_eq]
  constructor
  · intro e v hv
    by_contra hc
    interval_cases v <;> rw [if_neg hc] at e <;> split_ifs at e <;> omega
  · intro e
    rw [if_pos (e 0 (by omega)), if_pos (e 1 (by omega)), if_pos (e 2 (by omega))]

omit [IsStrictOrderedRing K] in
theorem nDry_lt {ho thr : K} {h : ℕ → K} : nDry ho thr h < 3 ↔ ∃ v < 3, ho + thr < h v := by
  have hle : nDry ho thr h ≤ 3 := by rw [nDry_eq]; split_ifs <;> omega
  constructor
  · intro e
    by_contra hc
    push Not at hc
    have := nDry_three.mpr hc
    omega
  · rintro ⟨v, hv, e⟩
    by_contra hc
    have : nDry ho thr h = 3 := by omega
    exact absurd (nDry_three.mp this v hv) (not_le.mpr e)

/-- Moving the discharge keeps its sum and leaves none at dry vertices. -/
theorem moveDischarge_spec {ho thr : K} {h : ℕ → K} (q : ℕ → K) (hw : nDry ho thr h < 3) :
    moveDischarge ho thr h q 0 + moveDischarge ho thr h q 1 + moveDischarge ho thr h q 2 = q 0 + q 1 + q 2 ∧
    ∀ v, h v ≤ ho + thr → moveDischarge ho thr h q v = 0 := by
  constructor
  · rw [nDry_eq] at hw
    have e3 : (3 : K) - 1 = 2 := by norm_num
    have e4 : (3 : K) - (1 + 1) = 1 := by norm_num
    simp only [moveDischarge, nDry_eq, List.range_succ, List.range_zero, List.nil_append, List.filter_append, List.filter_cons, List.filter_nil,
      decide_eq_true_eq]
    split_ifs at hw ⊢ <;> first | omega | (simp [e3, e4]; try ring)
  · intro v hv
    simp only [moveDischarge, if_pos hv]

/-! ### Coefficients and vertices -/

theorem sum_vertices {ndof : ℕ} (hn : 3 ≤ ndof) (u : ℕ → K) :
    basisToLinear ndof u 0 + basisToLinear ndof u 1 + basisToLinear ndof u 2 = 3 * u 0 := by
  have h1 := mean_coeff (basisToLinear ndof u)
  have hcut : ∀ v, basisToLinear ndof u v = basisToLinear 3 u v := by
    intro v
    obtain ⟨d, rfl⟩ : ∃ d, ndof = 3 + d := ⟨ndof - 3, by omega⟩
    unfold basisToLinear
    rw [List.range_add, List.map_append, List.sum_append]
    have : ((List.map (fun d => u d * basisLinear d v) (List.map (fun x => 3 + x) (List.range d))).sum) = 0 := by
      rw [List.map_map]
      apply List.sum_eq_zero
      intro x hx
      simp only [List.mem_map, Function.comp_apply] at hx
      obtain ⟨i, _, rfl⟩ := hx
      simp only [basisLinear]
      rw [if_neg (by omega), if_neg (by omega), if_neg (by omega), mul_zero]
    rw [this, add_zero]
  rw [hcut, hcut, hcut]
  simp [basisToLinear, basisLinear, List.range_succ]
  ring

omit [IsStrictOrderedRing K] in
theorem linearToBasis_zero (d : ℕ) : linearToBasis (0 : ℕ → K) d = 0 := by simp [linearToBasis]

/-- Depth at a vertex of an element with coefficients `u` of the water level. -/
def depthAt (ndof : ℕ) (bath u : ℕ → K) (x : ℕ) : K := basisToLinear ndof u x + bath x

/-- Mean depth of the vertices. -/
def meanDepth (ndof : ℕ) (bath u : ℕ → K) : K := (depthAt ndof bath u 0 + depthAt ndof bath u 1 + depthAt ndof bath u 2) / 3

/-- The bed is nowhere higher than `-b`. -/
def IsBathMin (bath : ℕ → K) (b : K) : Prop := (∃ v < 3, bath v = b) ∧ ∀ v < 3, b ≤ bath v

omit [Field K] [IsStrictOrderedRing K] in
theorem bathMin_spec (bath : ℕ → K) : IsBathMin bath (bathMin bath) :=
  ⟨⟨argmin bath, (argmin_spec bath).1, rfl⟩, (argmin_spec bath).2⟩

/-- What is demanded of the treatment, in terms of the element before and after. -/
structure Treated (ho thr : K) (ndof : ℕ) (bath : ℕ → K) (b : K) (wet : Bool) (q : Rows K) (o : WdOut K) : Prop where
  /-- Depths are positive at the vertices, at least the threshold. -/
  positive : ∀ x < 3, thr ≤ depthAt ndof bath o.q.ze x
  /-- The flag says whether the element was (nearly) empty. -/
  flag : o.emptied = true ↔ meanDepth ndof bath q.ze ≤ thr
  /-- Otherwise its water is conserved. -/
  mass : o.emptied = false → o.q.ze 0 = q.ze 0 ∧ meanDepth ndof bath o.q.ze = meanDepth ndof bath q.ze
  /-- Emptied elements are left with the threshold depth. -/
  empty : o.emptied = true → ∀ x < 3, depthAt ndof bath o.q.ze x = thr
  /-- Elements with enough water have at least depth `h_o` everywhere. -/
  enough : ho + thr < meanDepth ndof bath q.ze → ∀ x < 3, ho ≤ depthAt ndof bath o.q.ze x
  /-- No discharge in dry elements, and no right-hand side. -/
  still : o.wet = false → (∀ d, o.q.qx d = 0 ∧ o.q.qy d = 0) ∧ o.rhsZero = true
  /-- Momentum is conserved in wet elements with enough water. -/
  momentum : o.wet = true → ho + thr < meanDepth ndof bath q.ze → o.q.qx 0 = q.qx 0 ∧ o.q.qy 0 = q.qy 0
  /-- Nothing is changed in a wet element that is deep enough at all vertices. -/
  untouched : wet = true → (∀ x < 3, ho + thr < depthAt ndof bath q.ze x) → o.q = q ∧ o.wet = true
  /-- A dry vertex carries no discharge after a treatment. -/
  dryVertex : (∃ x < 3, depthAt ndof bath q.ze x ≤ ho + thr) → ∀ x < 3, depthAt ndof bath o.q.ze x ≤ ho + thr →
    basisToLinear ndof o.q.qx x = 0 ∧ basisToLinear ndof o.q.qy x = 0
  /-- A treated element left wet has a vertex where the water stands more than `h_o` above the highest point of the bed. -/
  flooded : o.wet = true → (wet = false ∨ ∃ x < 3, depthAt ndof bath q.ze x ≤ ho + thr) → ∃ x < 3, ho - b < basisToLinear ndof o.q.ze x
  /-- An element with enough water left dry has a deepest vertex where it does not stand that high. -/
  drained : o.wet = false → ho + thr < meanDepth ndof bath q.ze →
    ∃ x < 3, (∀ y < 3, depthAt ndof bath o.q.ze y ≤ depthAt ndof bath o.q.ze x) ∧ basisToLinear ndof o.q.ze x ≤ ho - b

theorem round_trip {ndof : ℕ} (hn : 3 ≤ ndof) (w : ℕ → K) {x : ℕ} (hx : x < 3) : basisToLinear ndof (linearToBasis w) x = w x :=
  vertex_round_trip w ndof hn x hx

theorem depthAt_linear {ndof : ℕ} (hn : 3 ≤ ndof) (bath w : ℕ → K) {x : ℕ} (hx : x < 3) :
    depthAt ndof bath (linearToBasis w) x = w x + bath x := by rw [depthAt, round_trip hn w hx]

theorem meanDepth_linear {ndof : ℕ} (hn : 3 ≤ ndof) (bath w : ℕ → K) :
    meanDepth ndof bath (linearToBasis w) = ((w 0 + bath 0) + (w 1 + bath 1) + (w 2 + bath 2)) / 3 := by
  rw [meanDepth, depthAt_linear hn _ _ (by omega), depthAt_linear hn _ _ (by omega), depthAt_linear hn _ _ (by omega)]

/-- The mean depth is the mean coefficient and the mean bathymetry. -/
theorem meanDepth_coeff {ndof : ℕ} (hn : 3 ≤ ndof) (bath u : ℕ → K) :
    meanDepth ndof bath u = u 0 + (bath 0 + bath 1 + bath 2) / 3 := by
  have h := sum_vertices hn u
  rw [meanDepth, depthAt, depthAt, depthAt]
  linear_combination h / 3

theorem basis_zero {ndof : ℕ} (hn : 3 ≤ ndof) {x : ℕ} (hx : x < 3) : basisToLinear ndof (linearToBasis (0 : ℕ → K)) x = 0 := by
  rw [round_trip hn _ hx]; rfl

/-- The final test keeps the water and, if the element is found wet, everything. -/
theorem checkElement_cases (ho b : K) (e : Bool) (h : ℕ → K) (v q : Rows K) :
    (v.ze (argmax h) > ho - b ∧ checkElement ho b e h v q = ⟨q, true, e, false⟩) ∨
    (v.ze (argmax h) ≤ ho - b ∧ checkElement ho b e h v q = ⟨project ⟨v.ze, 0, 0⟩, false, e, true⟩) := by
  unfold checkElement
  by_cases hc : v.ze (argmax h) > ho - b
  · exact .inl ⟨hc, if_pos hc⟩
  · exact .inr ⟨not_lt.mp hc, if_neg hc⟩

/-- The treatment never fails, and leaves the element as demanded. -/
theorem wet_dry {ho thr : K} (hthr : 0 < thr) (hho : thr ≤ ho) {ndof : ℕ} (hn : 3 ≤ ndof) (bath : ℕ → K) (b : K) (temp : ℕ → K)
    (wet : Bool) (q : Rows K) : ∃ o, wetDry ho thr ndof bath b temp wet q = .ok o ∧ Treated ho thr ndof bath b wet q o := by
  have hmean : (0 + depthAt ndof bath q.ze 0 + depthAt ndof bath q.ze 1 + depthAt ndof bath q.ze 2) / 3 = meanDepth ndof bath q.ze := by
    rw [meanDepth, zero_add]
  have hdef : wetDry ho thr ndof bath b temp wet q =
      (let m := meanDepth ndof bath q.ze
       let v : Rows K := ⟨basisToLinear ndof q.ze, basisToLinear ndof q.qx, basisToLinear ndof q.qy⟩
       let h := depthAt ndof bath q.ze
       let avg := if m ≤ thr then thr else m
       if nDry ho thr h = 0 then
         if wet then .ok ⟨q, true, decide (m ≤ thr), false⟩ else .ok (checkElement ho b (decide (m ≤ thr)) h v q)
       else if nDry ho thr h = 3 then .ok ⟨project ⟨fun x => avg - bath x, 0, 0⟩, false, decide (m ≤ thr), true⟩
       else if avg ≤ ho + thr then
         .ok (checkElement ho b (decide (m ≤ thr)) h ⟨fun x => avg - bath x, 0, 0⟩ (project ⟨fun x => avg - bath x, 0, 0⟩))
       else do
         let h' ← newDepths ho temp h
         if nDry ho thr h' < 3 then
           return checkElement ho b (decide (m ≤ thr)) h' ⟨fun x => h' x - bath x, moveDischarge ho thr h' v.qx, moveDischarge ho thr h' v.qy⟩
             (project ⟨fun x => h' x - bath x, moveDischarge ho thr h' v.qx, moveDischarge ho thr h' v.qy⟩)
         else throw .exc) := by
    rw [← hmean]; rfl
  rw [hdef]
  dsimp only
  have hsum : meanDepth ndof bath q.ze * 3 = depthAt ndof bath q.ze 0 + depthAt ndof bath q.ze 1 + depthAt ndof bath q.ze 2 := by
    rw [meanDepth]; field_simp
  have hmc := meanDepth_coeff hn bath q.ze
  generalize hm : meanDepth ndof bath q.ze = m at *
  have hpos : 0 < ho := lt_of_lt_of_le hthr hho
  by_cases h0 : nDry ho thr (depthAt ndof bath q.ze) = 0
  · -- all vertices wet
    rw [if_pos h0]
    have hall := nDry_zero.mp h0
    have a0 := hall 0 (by omega)
    have a1 := hall 1 (by omega)
    have a2 := hall 2 (by omega)
    have hmg : ho + thr < m := by linarith
    have hnt : ¬ m ≤ thr := by rw [not_le]; linarith
    have hd : decide (m ≤ thr) = false := decide_eq_false hnt
    rw [hd]
    have key : Treated ho thr ndof bath b true q ⟨q, true, false, false⟩ :=
      ⟨fun x hx => by have := hall x hx; linarith, ⟨(fun h => by cases h), (fun h => absurd (hm ▸ h) hnt)⟩, fun _ => ⟨rfl, rfl⟩,
        (fun h => by cases h), fun _ x hx => by have := hall x hx; linarith, (fun h => by cases h), fun _ _ => ⟨rfl, rfl⟩,
        fun _ _ => ⟨rfl, rfl⟩, fun ⟨x, hx, hle⟩ => absurd hle (not_le.mpr (hall x hx)),
        (fun _ h => h.elim (fun h => by cases h) (fun ⟨x, hx, h⟩ => absurd h (not_le.mpr (hall x hx)))), (fun h => by cases h)⟩
    cases wet with
    | true => exact ⟨_, rfl, key⟩
    | false =>
      rw [if_neg (by simp)]
      refine ⟨_, rfl, ?_⟩
      rcases checkElement_cases ho b false (depthAt ndof bath q.ze)
        ⟨basisToLinear ndof q.ze, basisToLinear ndof q.qx, basisToLinear ndof q.qy⟩ q with ⟨hw, e⟩ | ⟨hw, e⟩
      · rw [e]
        exact ⟨key.positive, key.flag, key.mass, key.empty, key.enough, key.still, key.momentum, (fun h => by cases h), key.dryVertex,
          fun _ _ => ⟨_, (argmax_spec _).1, hw⟩, (fun h => by cases h)⟩
      · rw [e]
        have hdep : ∀ x < 3, depthAt ndof bath (linearToBasis (basisToLinear ndof q.ze)) x = depthAt ndof bath q.ze x := by
          intro x hx; rw [depthAt_linear hn _ _ hx, depthAt]
        have hq0 : linearToBasis (basisToLinear ndof q.ze) 0 = q.ze 0 := by
          rw [mean_coeff, sum_vertices hn]; field_simp
        refine ⟨fun x hx => ?_, ⟨(fun h => by cases h), (fun h => absurd (hm ▸ h) hnt)⟩, fun _ => ⟨hq0, ?_⟩, (fun h => by cases h), fun _ x hx => ?_,
          fun _ => ⟨fun d => ⟨linearToBasis_zero d, linearToBasis_zero d⟩, rfl⟩, (fun h => by cases h), (fun h => by cases h),
          fun _ x hx _ => ⟨basis_zero hn hx, basis_zero hn hx⟩, (fun h => by cases h), fun _ _ => ⟨_, (argmax_spec (depthAt ndof bath q.ze)).1, fun y hy => ?_, ?_⟩⟩
        rotate_right 2
        · show depthAt ndof bath (linearToBasis (basisToLinear ndof q.ze)) y ≤ depthAt ndof bath (linearToBasis (basisToLinear ndof q.ze)) _
          rw [hdep _ hy, hdep _ (argmax_spec _).1]
          exact (argmax_spec _).2 y hy
        · show basisToLinear ndof (linearToBasis (basisToLinear ndof q.ze)) _ ≤ _
          rw [round_trip hn _ (argmax_spec _).1]
          exact hw
        · show thr ≤ depthAt ndof bath (linearToBasis (basisToLinear ndof q.ze)) x
          rw [hdep x hx]; have := hall x hx; linarith
        · show meanDepth ndof bath (linearToBasis (basisToLinear ndof q.ze)) = _
          rw [meanDepth_coeff hn, hq0, hm, hmc]
        · show ho ≤ depthAt ndof bath (linearToBasis (basisToLinear ndof q.ze)) x
          rw [hdep x hx]; have := hall x hx; linarith
  · rw [if_neg h0]
    have hdryEx : ∃ x < 3, depthAt ndof bath q.ze x ≤ ho + thr := by
      by_contra hc
      push Not at hc
      exact h0 (nDry_zero.mpr hc)
    have hnot : ¬ ∀ x < 3, ho + thr < depthAt ndof bath q.ze x := by
      rintro h
      obtain ⟨x, hx, hle⟩ := hdryEx
      exact absurd (h x hx) (not_lt.mpr hle)
    -- the elements that are levelled
    have level : ∀ o : WdOut K, m ≤ ho + thr → o.q = project ⟨fun x => (if m ≤ thr then thr else m) - bath x, 0, 0⟩ →
        o.emptied = decide (m ≤ thr) → (o.wet = false → o.rhsZero = true) →
        (o.wet = true → ∃ x < 3, ho - b < (if m ≤ thr then thr else m) - bath x) →
        Treated ho thr ndof bath b wet q o := by
      intro o hle hq he hr hw
      have hdep : ∀ x < 3, depthAt ndof bath o.q.ze x = if m ≤ thr then thr else m := by
        intro x hx
        rw [hq]
        show depthAt ndof bath (linearToBasis _) x = _
        rw [depthAt_linear hn _ _ hx]; ring
      refine ⟨fun x hx => ?_, ?_, fun hf => ?_, fun hf x hx => ?_, fun hg => ?_, fun hf => ⟨fun d => ?_, hr hf⟩, fun _ hg => ?_,
        fun _ hall => absurd hall hnot, fun _ x hx _ => ?_, fun hwet _ => ?_, fun _ hg => absurd hle (not_le.mpr (hm ▸ hg))⟩
      · rw [hdep x hx]; split_ifs with hc
        · exact le_refl _
        · exact le_of_lt (not_le.mp hc)
      · rw [he, hm, decide_eq_true_iff]
      · rw [he, decide_eq_false_iff_not] at hf
        have hz : o.q.ze 0 = q.ze 0 := by
          rw [hq]
          show linearToBasis _ 0 = _
          rw [mean_coeff, if_neg hf, hmc]; field_simp; ring
        exact ⟨hz, by rw [meanDepth_coeff hn, hz, hm, hmc]⟩
      · rw [he, decide_eq_true_iff] at hf
        rw [hdep x hx, if_pos hf]
      · rw [hm] at hg; exact absurd hle (not_le.mpr hg)
      · rw [hq]; exact ⟨linearToBasis_zero d, linearToBasis_zero d⟩
      · rw [hm] at hg; exact absurd hle (not_le.mpr hg)
      · rw [hq]; exact ⟨basis_zero hn hx, basis_zero hn hx⟩
      · obtain ⟨x, hx, h⟩ := hw hwet
        refine ⟨x, hx, ?_⟩
        rw [hq]
        show _ < basisToLinear ndof (linearToBasis _) x
        rw [round_trip hn _ hx]; exact h
    have avg_le : (if m ≤ thr then thr else m) ≤ ho + thr ↔ m ≤ ho + thr := by
      split_ifs with hc
      · exact ⟨fun _ => by linarith, fun _ => by linarith⟩
      · rfl
    by_cases h3 : nDry ho thr (depthAt ndof bath q.ze) = 3
    · rw [if_pos h3]
      have hall := nDry_three.mp h3
      have a0 := hall 0 (by omega)
      have a1 := hall 1 (by omega)
      have a2 := hall 2 (by omega)
      exact ⟨_, rfl, level _ (by linarith) rfl rfl (fun _ => rfl) (fun h => by cases h)⟩
    · rw [if_neg h3]
      by_cases ha : m ≤ ho + thr
      · rw [if_pos (avg_le.mpr ha)]
        refine ⟨_, rfl, ?_⟩
        rcases checkElement_cases ho b (decide (m ≤ thr)) (depthAt ndof bath q.ze)
          ⟨fun x => (if m ≤ thr then thr else m) - bath x, 0, 0⟩
          (project ⟨fun x => (if m ≤ thr then thr else m) - bath x, 0, 0⟩) with ⟨hw, e⟩ | ⟨hw, e⟩
        · rw [e]
          exact level _ ha rfl rfl (fun h => by cases h) (fun _ => ⟨_, (argmax_spec _).1, hw⟩)
        · rw [e]
          exact level _ ha rfl rfl (fun _ => rfl) (fun h => by cases h)
      · -- the redistribution
        rw [if_neg (fun h => ha (avg_le.mp h))]
        have hmg : ho + thr < m := not_le.mp ha
        have hnt : ¬ m ≤ thr := by rw [not_le]; linarith
        rw [decide_eq_false hnt]
        have hne : ∃ a < 3, ∃ b < 3, depthAt ndof bath q.ze a < depthAt ndof bath q.ze b := by
          obtain ⟨x, hx, hle⟩ := hdryEx
          obtain ⟨y, hy, hgt⟩ : ∃ y < 3, ho + thr < depthAt ndof bath q.ze y := by
            by_contra hc
            push Not at hc
            exact h3 (nDry_three.mpr hc)
          exact ⟨x, hx, y, hy, lt_of_le_of_lt hle hgt⟩
        obtain ⟨t, ht, hts, hge⟩ := newDepths_spec (temp := temp) hne (by linarith : 3 * ho ≤ _)
        rw [ht]
        show ∃ o, (if nDry ho thr t < 3 then _ else _) = _ ∧ _
        have hlt : nDry ho thr t < 3 := by
          rw [nDry_lt]
          by_contra hc
          push Not at hc
          have a0 := hc 0 (by omega)
          have a1 := hc 1 (by omega)
          have a2 := hc 2 (by omega)
          linarith
        rw [if_pos hlt]
        refine ⟨_, rfl, ?_⟩
        have hx := moveDischarge_spec (basisToLinear ndof q.qx) hlt
        have hy := moveDischarge_spec (basisToLinear ndof q.qy) hlt
        have hdep : ∀ x < 3, depthAt ndof bath (linearToBasis fun x => t x - bath x) x = t x := by
          intro x hx; rw [depthAt_linear hn _ _ hx]; ring
        have hz : linearToBasis (fun x => t x - bath x) 0 = q.ze 0 := by
          rw [mean_coeff]; linear_combination (hts - hsum) / 3 + hmc
        have hmass : meanDepth ndof bath (linearToBasis fun x => t x - bath x) = m := by rw [meanDepth_coeff hn, hz, hmc]
        have hqx : linearToBasis (moveDischarge ho thr t (basisToLinear ndof q.qx)) 0 = q.qx 0 := by
          rw [mean_coeff, hx.1, sum_vertices hn]; field_simp
        have hqy : linearToBasis (moveDischarge ho thr t (basisToLinear ndof q.qy)) 0 = q.qy 0 := by
          rw [mean_coeff, hy.1, sum_vertices hn]; field_simp
        rcases checkElement_cases ho b false t
          ⟨fun x => t x - bath x, moveDischarge ho thr t (basisToLinear ndof q.qx), moveDischarge ho thr t (basisToLinear ndof q.qy)⟩
          (project ⟨fun x => t x - bath x, moveDischarge ho thr t (basisToLinear ndof q.qx), moveDischarge ho thr t (basisToLinear ndof q.qy)⟩)
          with ⟨hw, e⟩ | ⟨hw, e⟩
        · rw [e]
          refine ⟨fun x hx => ?_, ⟨(fun h => by cases h), (fun h => absurd (hm ▸ h) hnt)⟩, fun _ => ⟨hz, hmass.trans hm.symm⟩, (fun h => by cases h),
            fun _ x hx => ?_, (fun h => by cases h), fun _ _ => ⟨hqx, hqy⟩, fun _ h => absurd h hnot, fun _ x hx3 hle => ?_, fun _ _ => ?_,
            (fun h => by cases h)⟩
          · rw [show (project _ : Rows K).ze = linearToBasis (fun x => t x - bath x) from rfl, hdep x hx]
            exact le_trans hho (hge x hx)
          · rw [show (project _ : Rows K).ze = linearToBasis (fun x => t x - bath x) from rfl, hdep x hx]
            exact hge x hx
          · rw [show (project _ : Rows K).ze = linearToBasis (fun x => t x - bath x) from rfl, hdep x hx3] at hle
            exact ⟨(round_trip hn _ hx3).trans (hx.2 x hle), (round_trip hn _ hx3).trans (hy.2 x hle)⟩
          · exact ⟨_, (argmax_spec _).1, by
              rw [show (project _ : Rows K).ze = linearToBasis (fun x => t x - bath x) from rfl, round_trip hn _ (argmax_spec t).1]; exact hw⟩
        · rw [e]
          refine ⟨fun x hx => ?_, ⟨(fun h => by cases h), (fun h => absurd (hm ▸ h) hnt)⟩, fun _ => ⟨hz, hmass.trans hm.symm⟩, (fun h => by cases h),
            fun _ x hx => ?_, fun _ => ⟨fun d => ⟨linearToBasis_zero d, linearToBasis_zero d⟩, rfl⟩, (fun h => by cases h), fun _ h => absurd h hnot,
            fun _ x hx _ => ⟨basis_zero hn hx, basis_zero hn hx⟩, (fun h => by cases h), fun _ _ => ⟨_, (argmax_spec t).1, fun y hy => ?_, ?_⟩⟩
          rotate_right 2
          · rw [show (project _ : Rows K).ze = linearToBasis (fun x => t x - bath x) from rfl, hdep _ hy, hdep _ (argmax_spec t).1]
            exact (argmax_spec t).2 y hy
          · rw [show (project _ : Rows K).ze = linearToBasis (fun x => t x - bath x) from rfl, round_trip hn _ (argmax_spec t).1]
            exact hw
          · rw [show (project _ : Rows K).ze = linearToBasis (fun x => t x - bath x) from rfl, hdep x hx]
            exact le_trans hho (hge x hx)
          · rw [show (project _ : Rows K).ze = linearToBasis (fun x => t x - bath x) from rfl, hdep x hx]
            exact hge x hx

/-- The threshold the program uses is positive and below `h_o`. -/
theorem threshold_range {ho : K} (h : 0 < ho) : 0 < threshold ho ∧ threshold ho ≤ ho := by
  unfold threshold
  constructor
  · positivity
  · rw [mul_one_div, div_le_iff₀ (by positivity)]
    nlinarith

/-- Before the first step: depths at least `h_o` at dry vertices, and dry elements have no discharge. -/
theorem init_wet_dry {ho thr : K} (hthr : 0 < thr) {ndof : ℕ} (hn : 3 ≤ ndof) (bath : ℕ → K) (q : Rows K) :
    (∀ x < 3, ho ≤ depthAt ndof bath (initWetDry ho thr ndof bath q).q.ze x) ∧
    ((initWetDry ho thr ndof bath q).wet = true ↔ ∀ x < 3, ho + thr < depthAt ndof bath q.ze x) ∧
    ((initWetDry ho thr ndof bath q).wet = true → (initWetDry ho thr ndof bath q).q = q) ∧
    ((initWetDry ho thr ndof bath q).wet = false →
      (∀ d, (initWetDry ho thr ndof bath q).q.qx d = 0 ∧ (initWetDry ho thr ndof bath q).q.qy d = 0) ∧
      ∀ x < 3, ho + thr < depthAt ndof bath q.ze x →
        depthAt ndof bath (initWetDry ho thr ndof bath q).q.ze x = depthAt ndof bath q.ze x) := by
  have hdef : initWetDry ho thr ndof bath q =
      if nDry ho thr (depthAt ndof bath q.ze) = 0 then ⟨q, true, false, false⟩
      else ⟨project ⟨fun x => if depthAt ndof bath q.ze x ≤ ho + thr then ho - bath x else basisToLinear ndof q.ze x, 0, 0⟩, false, false, true⟩ := rfl
  rw [hdef]
  by_cases h0 : nDry ho thr (depthAt ndof bath q.ze) = 0
  · rw [if_pos h0]
    have hall := nDry_zero.mp h0
    exact ⟨fun x hx => by have := hall x hx; linarith, ⟨fun _ => hall, fun _ => rfl⟩, fun _ => rfl, (fun h => by cases h)⟩
  · rw [if_neg h0]
    refine ⟨fun x hx => ?_, ⟨(fun h => by cases h), fun h => absurd (nDry_zero.mpr h) h0⟩, (fun h => by cases h),
      fun _ => ⟨fun d => ⟨linearToBasis_zero d, linearToBasis_zero d⟩, fun x hx hg => ?_⟩⟩
    · show ho ≤ depthAt ndof bath (linearToBasis _) x
      rw [depthAt_linear hn _ _ hx]
      dsimp only
      split_ifs with hc
      · linarith
      · rw [not_le] at hc; unfold depthAt at hc; linarith
    · show depthAt ndof bath (linearToBasis _) x = _
      rw [depthAt_linear hn _ _ hx]
      dsimp only
      rw [if_neg (not_le.mpr hg), depthAt]

/-! ### Examples: `h_o = 1`, threshold `1/10`, flat bed 0 at the first two vertices and 1 higher at the last -/

/-- The vertex depths, the discharge at the vertices, the flags. -/
def report (r : Res (WdOut ℚ)) (bath : ℕ → ℚ) : Option (List ℚ × List ℚ × Bool × Bool) :=
  match r with
  | .ok o => some ((List.range 3).map (depthAt 3 bath o.q.ze), (List.range 3).map (basisToLinear 3 o.q.qx), o.wet, o.emptied)
  | .error _ => none

def exBath : ℕ → ℚ := fun x => if x = 2 then -1 else 0

/-- An element with the given levels and discharges at the vertices. -/
def exState (z q : ℕ → ℚ) : Rows ℚ := ⟨linearToBasis z, linearToBasis q, linearToBasis 0⟩

-- redistribution: depths 5, 3, 1/2 become 19/4, 11/4, 1; the last vertex gives its discharge to the others
example : report (wetDry 1 (1/10) 3 exBath (-1) 0 true (exState (fun x => [5, 3, 3/2].getD x 0) (fun x => [1, 2, 4].getD x 0))) exBath =
    some ([19/4, 11/4, 1], [3, 4, 0], true, false) := by decide +kernel

-- the same element with a much higher point of the bed is found dry
example : report (wetDry 1 (1/10) 3 exBath (-9) 0 true (exState (fun x => [5, 3, 3/2].getD x 0) (fun x => [1, 2, 4].getD x 0))) exBath =
    some ([19/4, 11/4, 1], [0, 0, 0], false, false) := by decide +kernel

-- levelled
example : report (wetDry 1 (1/10) 3 exBath (-1) 0 true (exState (fun x => [2, 1/4, 1].getD x 0) (fun x => [1, 2, 4].getD x 0))) exBath =
    some ([3/4, 3/4, 3/4], [0, 0, 0], false, false) := by decide +kernel

-- emptied: the depths -1, 0, 0 become 1/10, water is created and the element flagged
example : report (wetDry 1 (1/10) 3 exBath (-1) 0 true (exState (fun x => [-1, 0, 1].getD x 0) (fun x => [1, 2, 4].getD x 0))) exBath =
    some ([1/10, 1/10, 1/10], [0, 0, 0], false, true) := by decide +kernel

-- untouched, and flooded again
example : report (wetDry 1 (1/10) 3 exBath (-1) 0 true (exState (fun x => [5, 4, 6].getD x 0) (fun x => [1, 2, 4].getD x 0))) exBath =
    some ([5, 4, 5], [1, 2, 4], true, false) := by decide +kernel

example : report (wetDry 1 (1/10) 3 exBath (-1) 0 false (exState (fun x => [5, 4, 6].getD x 0) (fun x => [1, 2, 4].getD x 0))) exBath =
    some ([5, 4, 5], [1, 2, 4], true, false) := by decide +kernel

example : 0 < threshold (1/10 : ℚ) ∧ threshold (1/10 : ℚ) ≤ 1/10 := threshold_range (by norm_num)

example : ((List.range 3).map (depthAt 3 exBath (initWetDry 1 (1/10) 3 exBath (exState (fun x => [5, 4, 1].getD x 0) 1)).q.ze)) = [5, 4, 1] := by
  decide +kernel

end Verif.Swe.Props
