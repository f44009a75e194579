import Verif.Model.SweLimiter
import Verif.Props.SweJacobian
import Verif.Props.SweWetDry
import Mathlib.Tactic.FinCases

/-!
# Slope limiter and discontinuity detector: properties
-/

namespace Verif.Swe.Props
open Verif.Swe Verif.Basis Verif.Basis.Props Verif.Geometry Verif.Geometry.Props Matrix

variable {K : Type} [Field K] [LinearOrder K] [IsStrictOrderedRing K]

/-! ### The scalar operations -/

/-- The limited slope has the sign of the slope and is not larger; outside the TVB range it is also not larger than `nu` times the slope
towards the neighbours, and vanishes at an extremum. -/
theorem minmod_spec (M nu rsq t d : K) :
    0 ≤ minmod M nu rsq t d * t ∧ |minmod M nu rsq t d| ≤ |t| ∧ (|t| ≤ M * rsq → minmod M nu rsq t d = t) ∧
    (M * rsq < |t| → |minmod M nu rsq t d| ≤ |nu * d| ∧ (t * d < 0 → minmod M nu rsq t d = 0) ∧
      (0 < t * d → |t| ≤ |nu * d| → minmod M nu rsq t d = t) ∧ (0 < t * d → |nu * d| ≤ |t| → |minmod M nu rsq t d| = |nu * d|)) := by
  unfold minmod
  by_cases h1 : |t| ≤ M * rsq
  · rw [if_pos h1]
    exact ⟨mul_self_nonneg t, le_refl _, fun _ => rfl, fun h => absurd h1 (not_le.mpr h)⟩
  rw [if_neg h1]
  have hmin0 : 0 ≤ min |t| |nu * d| := le_min (abs_nonneg _) (abs_nonneg _)
  by_cases h2 : decide (t < 0) = decide (d < 0)
  · rw [if_pos h2]
    have hsign : ¬ t * d < 0 := by
      intro h
      rcases mul_neg_iff.mp h with ⟨ha, hb⟩ | ⟨ha, hb⟩
      · rw [decide_eq_true hb, decide_eq_false (not_lt.mpr (le_of_lt ha))] at h2; cases h2
      · rw [decide_eq_true ha, decide_eq_false (not_lt.mpr (le_of_lt hb))] at h2; cases h2
    by_cases ht : t < 0
    · rw [if_pos ht]
      refine ⟨by nlinarith, by rw [neg_one_mul, abs_neg, abs_of_nonneg hmin0]; exact min_le_left _ _, fun h => absurd h h1, fun _ =>
        ⟨by rw [neg_one_mul, abs_neg, abs_of_nonneg hmin0]; exact min_le_right _ _, fun h => absurd h hsign, fun _ h => ?_, fun _ h => ?_⟩⟩
      · rw [min_eq_left h, abs_of_neg ht]; ring
      · rw [min_eq_right h, neg_one_mul, abs_neg, abs_abs]
    · rw [if_neg ht]
      rw [not_lt] at ht
      refine ⟨by rw [one_mul]; exact mul_nonneg hmin0 ht, by rw [one_mul, abs_of_nonneg hmin0]; exact min_le_left _ _, fun h => absurd h h1, fun _ =>
        ⟨by rw [one_mul, abs_of_nonneg hmin0]; exact min_le_right _ _, fun h => absurd h hsign, fun _ h => ?_, fun _ h => ?_⟩⟩
      · rw [min_eq_left h, abs_of_nonneg ht]; ring
      · rw [min_eq_right h, one_mul, abs_abs]
  · rw [if_neg h2]
    have hsign : ¬ 0 < t * d := by
      intro h
      apply h2
      rcases mul_pos_iff.mp h with ⟨ha, hb⟩ | ⟨ha, hb⟩
      · rw [decide_eq_false (not_lt.mpr (le_of_lt hb)), decide_eq_false (not_lt.mpr (le_of_lt ha))]
      · rw [decide_eq_true ha, decide_eq_true hb]
    exact ⟨by rw [zero_mul], by rw [abs_zero]; exact abs_nonneg _, fun h => absurd h h1, fun _ => ⟨by rw [abs_zero]; exact abs_nonneg _, fun _ => rfl,
      fun h => absurd h hsign, fun h => absurd h hsign⟩⟩

theorem minmod_zero (M nu rsq d : K) : minmod M nu rsq 0 d = 0 := by
  have h := (minmod_spec M nu rsq 0 d).2.1
  rw [abs_zero] at h
  exact abs_eq_zero.mp (le_antisymm h (abs_nonneg _))

theorem minmod_self {M nu rsq : K} (hn : 1 ≤ nu) (t : K) : minmod M nu rsq t t = t := by
  by_cases h : |t| ≤ M * rsq
  · exact (minmod_spec M nu rsq t t).2.2.1 h
  · rw [not_le] at h
    by_cases h0 : t = 0
    · rw [h0, minmod_zero]
    · refine ((minmod_spec M nu rsq t t).2.2.2 h).2.2.1 (mul_self_pos.mpr h0) ?_
      rw [abs_mul]
      have := abs_nonneg t
      have : 1 ≤ |nu| := le_trans hn (le_abs_self _)
      nlinarith

theorem theta_range {a b : K} (ha : 0 ≤ a) (hb : 0 ≤ b) : 0 ≤ theta a b ∧ theta a b ≤ 1 := by
  unfold theta
  split_ifs with h
  · exact ⟨zero_le_one, le_refl _⟩
  · exact ⟨le_min zero_le_one (div_nonneg ha hb), min_le_left _ _⟩

theorem theta_mul {a b : K} (ha : 0 ≤ a) (hb : 0 ≤ b) : theta a b * b = min b a := by
  unfold theta
  split_ifs with h
  · rw [h, mul_zero, min_eq_left ha]
  · have hb' : 0 < b := lt_of_le_of_ne hb (Ne.symm h)
    rw [min_mul_of_nonneg _ _ hb, one_mul, div_mul_cancel₀ _ h]

/-- The corrected differences sum to zero. -/
theorem balance_sum (d : V3 K) : balance d 0 + balance d 1 + balance d 2 = 0 := by
  unfold balance
  by_cases h : 0 + d 0 + d 1 + d 2 ≠ 0
  · rw [if_pos h]
    have hp : (0 : K) ≤ 0 + max 0 (d 0) + max 0 (d 1) + max 0 (d 2) := by
      have := le_max_left 0 (d 0); have := le_max_left 0 (d 1); have := le_max_left 0 (d 2); linarith
    have hn : (0 : K) ≤ 0 + max 0 (-d 0) + max 0 (-d 1) + max 0 (-d 2) := by
      have := le_max_left 0 (-d 0); have := le_max_left 0 (-d 1); have := le_max_left 0 (-d 2); linarith
    have e1 := theta_mul hn hp
    have e2 := theta_mul hp hn
    rw [min_comm] at e2
    linear_combination e1 - e2
  · rw [if_neg h]
    push Not at h
    linear_combination h

/-- The correction never enlarges a difference or changes its sign. -/
theorem balance_bound (d : V3 K) (b : Fin 3) : |balance d b| ≤ |d b| ∧ 0 ≤ balance d b * d b := by
  unfold balance
  by_cases h : 0 + d 0 + d 1 + d 2 ≠ 0
  · rw [if_pos h]
    have hp : (0 : K) ≤ 0 + max 0 (d 0) + max 0 (d 1) + max 0 (d 2) := by
      have := le_max_left 0 (d 0); have := le_max_left 0 (d 1); have := le_max_left 0 (d 2); linarith
    have hn : (0 : K) ≤ 0 + max 0 (-d 0) + max 0 (-d 1) + max 0 (-d 2) := by
      have := le_max_left 0 (-d 0); have := le_max_left 0 (-d 1); have := le_max_left 0 (-d 2); linarith
    obtain ⟨p0, p1⟩ := theta_range hn hp
    obtain ⟨n0, n1⟩ := theta_range hp hn
    generalize theta (0 + max 0 (-d 0) + max 0 (-d 1) + max 0 (-d 2)) (0 + max 0 (d 0) + max 0 (d 1) + max 0 (d 2)) = tp at *
    generalize theta (0 + max 0 (d 0) + max 0 (d 1) + max 0 (d 2)) (0 + max 0 (-d 0) + max 0 (-d 1) + max 0 (-d 2)) = tn at *
    rcases le_total 0 (d b) with hd | hd
    · rw [max_eq_right hd, max_eq_left (by linarith), mul_zero, sub_zero, abs_of_nonneg hd, abs_of_nonneg (mul_nonneg p0 hd)]
      exact ⟨by nlinarith, mul_nonneg (mul_nonneg p0 hd) hd⟩
    · rw [max_eq_left hd, max_eq_right (by linarith), mul_zero, zero_sub, abs_of_nonpos hd, abs_neg, abs_of_nonneg (mul_nonneg n0 (by linarith))]
      exact ⟨by nlinarith, by nlinarith [mul_nonneg n0 (mul_self_nonneg (d b))]⟩
  · rw [if_neg h]
    exact ⟨le_refl _, mul_self_nonneg _⟩

omit [IsStrictOrderedRing K] in
theorem balance_id {d : V3 K} (h : d 0 + d 1 + d 2 = 0) : balance d = d := by
  unfold balance
  rw [if_neg]
  rw [zero_add, h]
  exact fun h => h rfl

theorem changed_spec {a b : K} (hb : 0 ≤ b) : changed a b = true ↔ b / 10 ^ 12 < a := by
  unfold changed
  split_ifs with h
  · rw [h, zero_div, decide_eq_true_iff]
  · have hb' : 0 < b := lt_of_le_of_ne hb (Ne.symm h)
    rw [decide_eq_true_iff, lt_div_iff₀ hb', one_div, div_eq_inv_mul]

/-! ### Geometry -/

/-- The weights reproduce the midpoint from the barycentres. -/
theorem alpha_spec {mid bary n1 n2 : P2 K}
    (h : (n1.x - bary.x) * (n2.y - bary.y) - (n2.x - bary.x) * (n1.y - bary.y) ≠ 0) :
    (slAlpha mid bary n1 n2).1 * (n1.x - bary.x) + (slAlpha mid bary n1 n2).2 * (n2.x - bary.x) = mid.x - bary.x ∧
    (slAlpha mid bary n1 n2).1 * (n1.y - bary.y) + (slAlpha mid bary n1 n2).2 * (n2.y - bary.y) = mid.y - bary.y := by
  simp only [slAlpha, Geometry.inv, Geometry.det]
  generalize hD : (n1.x - bary.x) * (n2.y - bary.y) - (n2.x - bary.x) * (n1.y - bary.y) = D at *
  constructor
  · field_simp; linear_combination (mid.x - bary.x) * hD
  · field_simp; linear_combination (mid.y - bary.y) * hD

theorem median_unit {sq : K → K} (hs : IsSqrt sq) {mid bary : P2 K} (h : mid ≠ bary) :
    Unit (slMedian sq mid bary) ∧ ∃ c, 0 < c ∧ mid.x - bary.x = c * (slMedian sq mid bary).x ∧ mid.y - bary.y = c * (slMedian sq mid bary).y := by
  have hpos : 0 < (mid.x - bary.x) * (mid.x - bary.x) + (mid.y - bary.y) * (mid.y - bary.y) := by
    rcases mid with ⟨a, b⟩
    rcases bary with ⟨c, d⟩
    by_contra hc
    apply h
    have e1 : (a - c) = 0 := by nlinarith [mul_self_nonneg (a - c), mul_self_nonneg (b - d)]
    have e2 : (b - d) = 0 := by nlinarith [mul_self_nonneg (a - c), mul_self_nonneg (b - d)]
    rw [sub_eq_zero.mp e1, sub_eq_zero.mp e2]
  obtain ⟨h0, h1⟩ := hs _ (le_of_lt hpos)
  have hc : 0 < sq ((mid.x - bary.x) * (mid.x - bary.x) + (mid.y - bary.y) * (mid.y - bary.y)) := by
    rcases lt_or_eq_of_le h0 with h | h
    · exact h
    · rw [← h] at h1; linarith
  simp only [Unit, slMedian, hypot]
  generalize sq _ = c at *
  refine ⟨?_, c, hc, ?_, ?_⟩
  · rw [div_pow, div_pow, ← add_div, div_eq_one_iff_eq (by positivity)]; linear_combination -h1
  · field_simp
  · field_simp

/-- For a triangle of nonzero area the midpoints differ from the barycentre, and the data satisfy what the limiter needs. -/
theorem slGeom_spec {sq : K → K} (hs : IsSqrt sq) (t : Tri K) (ht : jdet t ≠ 0) (z : ℕ → K) (nb : Fin 3 → P2 K) (b : Fin 3) :
    Unit ((slGeom sq t z nb).median b) ∧ 0 < (slGeom sq t z nb).rsq b ∧ (slGeom sq t z nb).bath = (z 0 + z 1 + z 2) / 3 := by
  have hne : Geometry.midpoint t b ≠ barycentre t := by
    intro h
    apply ht
    have hx := congrArg P2.x h
    have hy := congrArg P2.y h
    fin_cases b <;> simp [Geometry.midpoint, barycentre, vertex] at hx hy <;> simp only [jdet, Geometry.det, jac] <;> grind
  refine ⟨(median_unit hs hne).1, ?_, ?_⟩
  · have : (slGeom sq t z nb).rsq b = slRsq (Geometry.midpoint t b) (barycentre t) := rfl
    rw [this, slRsq]
    by_contra hc
    apply hne
    generalize Geometry.midpoint t b = m at *
    generalize barycentre t = c at *
    rcases m with ⟨x, y⟩
    rcases c with ⟨u, v⟩
    dsimp only at hc
    have e1 : (x - u) = 0 := by nlinarith [mul_self_nonneg (x - u), mul_self_nonneg (y - v)]
    have e2 : (y - v) = 0 := by nlinarith [mul_self_nonneg (x - u), mul_self_nonneg (y - v)]
    rw [sub_eq_zero.mp e1, sub_eq_zero.mp e2]
  · simp only [slGeom, chiBary]; ring

/-- At a boundary with mirrored barycentres on both sides the weights are one half and zero. -/
theorem alpha_mirror {mid bary m2 : P2 K}
    (h : (mid.x - bary.x) * (m2.y - bary.y) - (m2.x - bary.x) * (mid.y - bary.y) ≠ 0) :
    slAlpha mid bary (mirror mid bary) (mirror m2 bary) = (1 / 2, 0) := by
  simp only [slAlpha, Geometry.inv, Geometry.det, mirror]
  have e : (2 * mid.x - bary.x - bary.x) * (2 * m2.y - bary.y - bary.y) - (2 * m2.x - bary.x - bary.x) * (2 * mid.y - bary.y - bary.y)
      = 4 * ((mid.x - bary.x) * (m2.y - bary.y) - (m2.x - bary.x) * (mid.y - bary.y)) := by ring
  rw [e]
  generalize hD : (mid.x - bary.x) * (m2.y - bary.y) - (m2.x - bary.x) * (mid.y - bary.y) = D at *
  apply Prod.ext
  · simp only
    rw [div_mul_eq_mul_div, div_mul_eq_mul_div, ← add_div, div_eq_div_iff (by simpa using h) (by norm_num)]
    linear_combination 4 * hD
  · simp only
    rw [div_mul_eq_mul_div, div_mul_eq_mul_div, ← add_div, div_eq_zero_iff]
    left; ring

/-! ### One element -/

theorem baryOf_eq (w : V3 K) : baryOf w = (w 0 + w 1 + w 2) / 3 := by simp only [baryOf, chiBary]; ring

theorem midOf_eq (w : V3 K) (b : Fin 3) : midOf w b = (w (b + 1) + w (b + 2)) / 2 := by
  fin_cases b <;> simp [midOf, chiMid] <;> ring

theorem bary_vrtx {ndof : ℕ} (hn : 3 ≤ ndof) (u : ℕ → K) : baryOf (vrtxOf ndof u) = u 0 := by
  have h := sum_vertices hn u
  rw [baryOf_eq]
  simp only [vrtxOf, Fin.val_zero, Fin.val_one, Fin.val_two]
  rw [h]; field_simp

/-- `q_at_vrtx` in terms of the differences at the midpoints. -/
theorem vecMul_T {d : V3 K} (h : d 0 + d 1 + d 2 = 0) (v : Fin 3) : (d ᵥ* (matT : M3 K)) v = -2 * d v := by
  fin_cases v <;> simp [matT, Matrix.vecMul, dotProduct, Fin.sum_univ_three] <;> linear_combination h

/-- Vertex values as a function on numbers. -/
def onNat (w : V3 K) : ℕ → K := fun v => if v = 0 then w 0 else if v = 1 then w 1 else w 2

/-- The linear function with mean `m` and differences `d` at the midpoints. -/
def fromMid (m : K) (d : V3 K) : V3 K := fun v => m - 2 * d v

/-- What the limiter does, in terms of the differences at the midpoints before balancing. -/
def rawDelta (sq : K → K) (g M nu : K) (geo : SlGeom K) (ndof : ℕ) (nb : Neigh K) (q : Fin 3 → ℕ → K) (b : Fin 3) : V3 K :=
  slDelta sq g M nu geo b (fun var => midOf (vrtxOf ndof (q var)) b) (fun var => baryOf (vrtxOf ndof (q var))) (nb.bary b) (nb.bary (b + 1))

theorem limit_unfold (sq : K → K) (g M nu : K) (geo : SlGeom K) {ndof : ℕ} (hn : 3 ≤ ndof) (nb : Neigh K) (q : Fin 3 → ℕ → K)
    (hw : ∀ b, nb.wet b = true) (var : Fin 3) :
    limitElement sq g M nu geo ndof true nb q var =
      (let w := fromMid (q var 0) (balance fun b => rawDelta sq g M nu geo ndof nb q b var)
       if changed (norm3 sq (w - vrtxOf ndof (q var))) (norm3 sq (vrtxOf ndof (q var))) then linearToBasis (onNat w) else q var) := by
  unfold limitElement
  rw [if_pos (by simp [hw])]
  have e : (fun v => baryOf (vrtxOf ndof (q var)) + ((balance fun b => rawDelta sq g M nu geo ndof nb q b var) ᵥ* (matT : M3 K)) v) =
      fromMid (q var 0) (balance fun b => rawDelta sq g M nu geo ndof nb q b var) := by
    funext v
    rw [bary_vrtx hn, vecMul_T (balance_sum _), fromMid]; ring
  have e2 := congrFun e
  dsimp only
  rw [← e]
  rfl

/-- Dry elements and elements with a dry neighbour are not limited. -/
theorem limit_dry (sq : K → K) (g M nu : K) (geo : SlGeom K) (ndof : ℕ) (wet : Bool) (nb : Neigh K) (q : Fin 3 → ℕ → K)
    (h : wet = false ∨ ∃ b, nb.wet b = false) : limitElement sq g M nu geo ndof wet nb q = q := by
  unfold limitElement
  rw [if_neg]
  rcases h with h | ⟨b, h⟩
  · simp [h]
  · fin_cases b <;> simp_all

theorem mean_fromMid (m : K) {d : V3 K} (h : d 0 + d 1 + d 2 = 0) : linearToBasis (onNat (fromMid m d)) 0 = m := by
  rw [mean_coeff]
  simp only [onNat, fromMid, if_true, if_false, one_ne_zero, OfNat.ofNat_ne_zero, OfNat.ofNat_ne_one]
  linear_combination -(2 / 3) * h

/-- The limiter does not change the mean of any variable. -/
theorem limiter_mean (sq : K → K) (g M nu : K) (geo : SlGeom K) {ndof : ℕ} (hn : 3 ≤ ndof) (wet : Bool) (nb : Neigh K) (q : Fin 3 → ℕ → K)
    (var : Fin 3) : limitElement sq g M nu geo ndof wet nb q var 0 = q var 0 := by
  by_cases h : wet = true ∧ ∀ b, nb.wet b = true
  · rw [h.1, limit_unfold sq g M nu geo hn nb q h.2 var]
    dsimp only
    split_ifs with hc
    · exact mean_fromMid _ (balance_sum _)
    · rfl
  · rw [limit_dry]
    by_contra hc
    push Not at hc
    exact h ⟨by simpa using hc.1, fun b => by simpa using hc.2 b⟩

/-- The deviation of the midpoint of a side from the mean, for an element with coefficients `u`. -/
def midDev (ndof : ℕ) (u : ℕ → K) (b : Fin 3) : K :=
  (basisToLinear ndof u ((b + 1 : Fin 3) : ℕ) + basisToLinear ndof u ((b + 2 : Fin 3) : ℕ)) / 2 - u 0

theorem midDev_fromMid {ndof : ℕ} (hn : 3 ≤ ndof) (m : K) {d : V3 K} (h : d 0 + d 1 + d 2 = 0) (b : Fin 3) :
    midDev ndof (linearToBasis (onNat (fromMid m d))) b = d b := by
  rw [midDev, mean_fromMid m h, round_trip hn _ (by omega), round_trip hn _ (by omega)]
  fin_cases b <;> simp [onNat, fromMid] <;> linear_combination -h

theorem norm3_nonneg {sq : K → K} (hs : IsSqrt sq) (w : V3 K) : 0 ≤ norm3 sq w ∧ norm3 sq w * norm3 sq w = w 0 ^ 2 + w 1 ^ 2 + w 2 ^ 2 := by
  have := hs (w 0 * w 0 + w 1 * w 1 + w 2 * w 2) (by nlinarith [mul_self_nonneg (w 0), mul_self_nonneg (w 1), mul_self_nonneg (w 2)])
  exact ⟨this.1, this.2.trans (by ring)⟩

theorem norm3_zero {sq : K → K} (hs : IsSqrt sq) : norm3 sq (0 : V3 K) = 0 := by
  have := (norm3_nonneg hs (0 : V3 K)).2
  simpa using this

/-- What becomes of each variable of a limited element: there are differences at the midpoints that sum to zero, are not larger than the limited
slopes and have their sign; the new state is the linear function with these differences, unless it agrees with the old vertex values up to
`10^-12` (relative), when the state is kept, higher modes included. -/
theorem limiter_result {sq : K → K} (hs : IsSqrt sq) (g M nu : K) (geo : SlGeom K) {ndof : ℕ} (hn : 3 ≤ ndof) (nb : Neigh K)
    (q : Fin 3 → ℕ → K) (hw : ∀ b, nb.wet b = true) (var : Fin 3) :
    ∃ d : V3 K, d 0 + d 1 + d 2 = 0 ∧
      (∀ b, |d b| ≤ |rawDelta sq g M nu geo ndof nb q b var| ∧ 0 ≤ d b * rawDelta sq g M nu geo ndof nb q b var) ∧
      ((rawDelta sq g M nu geo ndof nb q 0 var + rawDelta sq g M nu geo ndof nb q 1 var + rawDelta sq g M nu geo ndof nb q 2 var = 0) →
        ∀ b, d b = rawDelta sq g M nu geo ndof nb q b var) ∧
      ((∀ b, midDev ndof (limitElement sq g M nu geo ndof true nb q var) b = d b) ∧
        (∀ k, 3 ≤ k → limitElement sq g M nu geo ndof true nb q var k = 0) ∨
       limitElement sq g M nu geo ndof true nb q var = q var ∧
        10 ^ 12 * norm3 sq (fun v => (q var 0 - 2 * d v) - basisToLinear ndof (q var) v) ≤
          norm3 sq (fun v => basisToLinear ndof (q var) v)) := by
  refine ⟨balance fun b => rawDelta sq g M nu geo ndof nb q b var, balance_sum _, fun b => balance_bound _ b, fun h b => ?_, ?_⟩
  · rw [balance_id h]
  · rw [limit_unfold sq g M nu geo hn nb q hw var]
    dsimp only
    split_ifs with hc
    · left
      refine ⟨fun b => midDev_fromMid hn _ (balance_sum _) b, fun k hk => ?_⟩
      simp only [linearToBasis]
      simp [linearBasis, show k ≠ 0 by omega, show k ≠ 1 by omega, show k ≠ 2 by omega]
    · right
      refine ⟨rfl, ?_⟩
      rw [changed_spec (norm3_nonneg hs _).1, not_lt, le_div_iff₀ (by positivity), mul_comm] at hc
      exact hc

/-- The state of the element at the barycentre. -/
def meanState (q : Fin 3 → ℕ → K) : Q K := ⟨q 0 0, q 1 0, q 2 0⟩

/-- The limiting takes place in characteristic variables: the columns of `R` are eigenvectors of the Jacobian of the flux in the direction of
the median, for the mean state, and `I` is the inverse of `R`. -/
theorem slDelta_characteristic {sq : K → K} (hs : IsSqrt sq) {g : K} (hg : 0 < g) (M nu : K) (geo : SlGeom K) {ndof : ℕ} (hn : 3 ≤ ndof)
    (nb : Neigh K) (q : Fin 3 → ℕ → K) (hd : 0 < q 0 0 + geo.bath) (b : Fin 3) (hm : Unit (geo.median b)) :
    ∃ (R I : M3 K) (s : V3 K), R * I = 1 ∧ I * R = 1 ∧
      dFnDq g (meanState q) ⟨geo.bath, q 0 0 + geo.bath, 1⟩ (geo.median b) = R * Matrix.diagonal s * I ∧
      rawDelta sq g M nu geo ndof nb q b = R *ᵥ fun i => minmod M nu (geo.rsq b) ((I *ᵥ fun var => midDev ndof (q var) b) i)
        ((I *ᵥ fun var => (geo.alpha b).1 * (nb.bary b var - q var 0) + (geo.alpha b).2 * (nb.bary (b + 1) var - q var 0)) i) := by
  have hinv := eigenvectors_inverse hs hg hd (q 1 0 / (q 0 0 + geo.bath)) (q 2 0 / (q 0 0 + geo.bath)) hm
  let vel := vn (q 1 0 / (q 0 0 + geo.bath)) (q 2 0 / (q 0 0 + geo.bath)) (geo.median b)
  let c := cel sq g (q 0 0 + geo.bath)
  refine ⟨_, _, ![vel - c, vel, vel + c], hinv.1, hinv.2, ?_, ?_⟩
  · rw [← decomposition hs hg (meanState q) ⟨geo.bath, q 0 0 + geo.bath, 1⟩ hd hm, getA]
    congr 2
    ext i j
    fin_cases i <;> fin_cases j <;> simp [matL, Matrix.diagonal] <;> rfl
  · rw [rawDelta, slDelta]
    simp only [bary_vrtx hn]
    congr 1
    funext i
    congr 1
    · rw [← Pi.sub_apply, ← Matrix.mulVec_sub]
      congr 2
      funext var
      rw [midOf_eq]
      rfl
    · rw [← Pi.sub_apply, ← Pi.sub_apply, ← Matrix.mulVec_sub, ← Matrix.mulVec_sub]
      simp only [Matrix.mulVec, dotProduct, Fin.sum_univ_three, Pi.sub_apply]
      ring

/-- Elements on which the slopes are accepted are left alone. -/
theorem limiter_keeps {sq : K → K} (hs : IsSqrt sq) {g : K} (M nu : K) (geo : SlGeom K) {ndof : ℕ} (hn : 3 ≤ ndof) (wet : Bool) (nb : Neigh K)
    (q : Fin 3 → ℕ → K) (h : ∀ b var, rawDelta sq g M nu geo ndof nb q b var = midDev ndof (q var) b) :
    limitElement sq g M nu geo ndof wet nb q = q := by
  by_cases hw : wet = true ∧ ∀ b, nb.wet b = true
  · funext var
    rw [hw.1, limit_unfold sq g M nu geo hn nb q hw.2 var]
    have hsum := sum_vertices hn (q var)
    have hz : midDev ndof (q var) 0 + midDev ndof (q var) 1 + midDev ndof (q var) 2 = 0 := by
      simp only [midDev]
      show ((basisToLinear ndof (q var) 1 + basisToLinear ndof (q var) 2) / 2 - q var 0) +
        ((basisToLinear ndof (q var) 2 + basisToLinear ndof (q var) 0) / 2 - q var 0) +
        ((basisToLinear ndof (q var) 0 + basisToLinear ndof (q var) 1) / 2 - q var 0) = 0
      linear_combination hsum
    have e : fromMid (q var 0) (balance fun b => rawDelta sq g M nu geo ndof nb q b var) = vrtxOf ndof (q var) := by
      simp only [h]
      rw [balance_id hz]
      funext v
      simp only [fromMid, vrtxOf, midDev]
      fin_cases v
      · show q var 0 - 2 * ((basisToLinear ndof (q var) 1 + basisToLinear ndof (q var) 2) / 2 - q var 0) = basisToLinear ndof (q var) 0
        linear_combination -hsum
      · show q var 0 - 2 * ((basisToLinear ndof (q var) 2 + basisToLinear ndof (q var) 0) / 2 - q var 0) = basisToLinear ndof (q var) 1
        linear_combination -hsum
      · show q var 0 - 2 * ((basisToLinear ndof (q var) 0 + basisToLinear ndof (q var) 1) / 2 - q var 0) = basisToLinear ndof (q var) 2
        linear_combination -hsum
    dsimp only
    rw [e, sub_self, norm3_zero hs]
    have hc : ¬ changed 0 (norm3 sq (vrtxOf ndof (q var))) = true := by
      rw [changed_spec (norm3_nonneg hs _).1, not_lt]
      exact div_nonneg (norm3_nonneg hs _).1 (by positivity)
    rw [if_neg hc]
  · rw [limit_dry]
    by_contra hc
    push Not at hc
    exact hw ⟨by simpa using hc.1, fun b => by simpa using hc.2 b⟩

/-- Elements on which all variables are constant at the vertices are left alone. -/
theorem limiter_constant {sq : K → K} (hs : IsSqrt sq) (g M nu : K) (geo : SlGeom K) {ndof : ℕ} (hn : 3 ≤ ndof) (wet : Bool) (nb : Neigh K)
    (q : Fin 3 → ℕ → K) (h : ∀ var, ∀ v < 3, basisToLinear ndof (q var) v = q var 0) :
    limitElement sq g M nu geo ndof wet nb q = q := by
  refine limiter_keeps hs M nu geo hn wet nb q fun b var => ?_
  have hz : ∀ var, midDev ndof (q var) b = 0 := by
    intro var
    rw [midDev, h var _ (by omega), h var _ (by omega)]; ring
  have e : (fun var => midOf (vrtxOf ndof (q var)) b) = fun var => baryOf (vrtxOf ndof (q var)) := by
    funext var
    have := hz var
    rw [midOf_eq, bary_vrtx hn]
    exact sub_eq_zero.mp this
  rw [hz, rawDelta, e, slDelta]
  simp only [sub_self, minmod_zero]
  exact congrFun (Matrix.mulVec_zero _) var

/-- Elements on which every slope is within the TVB range, or agrees with that of the neighbours, are left alone, if `nu ≥ 1`. -/
theorem limiter_accepts {sq : K → K} (hs : IsSqrt sq) {g : K} (hg : 0 < g) (M : K) {nu : K} (hnu : 1 ≤ nu) (geo : SlGeom K) {ndof : ℕ}
    (hn : 3 ≤ ndof) (wet : Bool) (nb : Neigh K) (q : Fin 3 → ℕ → K) (hd : 0 < q 0 0 + geo.bath) (hm : ∀ b, Unit (geo.median b))
    (h : ∀ b var, midDev ndof (q var) b = (geo.alpha b).1 * (nb.bary b var - q var 0) + (geo.alpha b).2 * (nb.bary (b + 1) var - q var 0)) :
    limitElement sq g M nu geo ndof wet nb q = q := by
  refine limiter_keeps hs M nu geo hn wet nb q fun b var => ?_
  obtain ⟨R, I, s, h1, h2, -, h3⟩ := slDelta_characteristic hs hg M nu geo hn nb q hd b (hm b)
  have e : (fun var => (geo.alpha b).1 * (nb.bary b var - q var 0) + (geo.alpha b).2 * (nb.bary (b + 1) var - q var 0)) =
      fun var => midDev ndof (q var) b := by
    funext var; rw [h]
  rw [h3, e]
  simp only [minmod_self hnu]
  have : R *ᵥ (I *ᵥ fun var => midDev ndof (q var) b) = fun var => midDev ndof (q var) b := by
    rw [Matrix.mulVec_mulVec, h1, Matrix.one_mulVec]
  exact congrFun this var

/-- Where water level and discharges are one linear function on the element and the barycentres of its neighbours, the limiter changes nothing
(if `nu ≥ 1` and the barycentres of the neighbours are in general position). -/
theorem limiter_linear {sq : K → K} (hs : IsSqrt sq) {g : K} (hg : 0 < g) (M : K) {nu : K} (hnu : 1 ≤ nu) (t : Tri K) (ht : jdet t ≠ 0)
    (z : ℕ → K) (nc : Fin 3 → P2 K) {ndof : ℕ} (hn : 3 ≤ ndof) (wet : Bool) (nb : Neigh K) (q : Fin 3 → ℕ → K) (c0 cx cy : V3 K)
    (hel : ∀ var, ∀ v < 3, basisToLinear ndof (q var) v = c0 var + cx var * (vertex t v).x + cy var * (vertex t v).y)
    (hnb : ∀ b var, nb.bary b var = c0 var + cx var * (nc b).x + cy var * (nc b).y)
    (hd : 0 < q 0 0 + (z 0 + z 1 + z 2) / 3)
    (hgen : ∀ b : Fin 3, ((nc b).x - (barycentre t).x) * ((nc (b + 1)).y - (barycentre t).y) -
      ((nc (b + 1)).x - (barycentre t).x) * ((nc b).y - (barycentre t).y) ≠ 0) :
    limitElement sq g M nu (slGeom sq t z nc) ndof wet nb q = q := by
  have hsp := slGeom_spec hs t ht z nc
  refine limiter_accepts hs hg M hnu _ hn wet nb q (by rw [(hsp 0).2.2]; exact hd) (fun b => (hsp b).1) fun b var => ?_
  have hq0 : q var 0 = c0 var + cx var * (barycentre t).x + cy var * (barycentre t).y := by
    have h := sum_vertices hn (q var)
    rw [hel var 0 (by omega), hel var 1 (by omega), hel var 2 (by omega)] at h
    simp only [vertex, if_true, if_false, one_ne_zero, OfNat.ofNat_ne_zero, OfNat.ofNat_ne_one] at h
    simp only [barycentre]
    linear_combination -h / 3
  have ha := alpha_spec (mid := Geometry.midpoint t b) (hgen b)
  have hmd : midDev ndof (q var) b = cx var * ((Geometry.midpoint t b).x - (barycentre t).x) + cy var * ((Geometry.midpoint t b).y - (barycentre t).y) := by
    rw [midDev, hel var _ (by omega), hel var _ (by omega), hq0]
    fin_cases b <;> simp [Geometry.midpoint, vertex] <;> ring
  rw [hmd, hnb, hnb, hq0]
  show _ = (slAlpha (Geometry.midpoint t b) (barycentre t) (nc b) (nc (b + 1))).1 * _ + (slAlpha (Geometry.midpoint t b) (barycentre t) (nc b) (nc (b + 1))).2 * _
  linear_combination -cx var * ha.1 - cy var * ha.2

/-! ### All elements -/

theorem foldl_keep {α S V : Type} (f : S → α → S) (get : S → V) (l : List α) (h : ∀ s, ∀ x ∈ l, get (f s x) = get s) (s : S) :
    get (l.foldl f s) = get s := by
  induction l generalizing s with
  | nil => rfl
  | cons x xs ih =>
    rw [List.foldl_cons, ih (fun s y hy => h s y (List.mem_cons_of_mem _ hy)), h s x List.mem_cons_self]

theorem foldl_hit {α S : Type} (f : S → α → S) (P : S → Prop) (l : List α) (x : α) (hx : x ∈ l) (h1 : ∀ s, P (f s x))
    (h2 : ∀ s, ∀ y ∈ l, y ≠ x → P s → P (f s y)) (s : S) : P (l.foldl f s) := by
  have keep : ∀ (l' : List α), (∀ y ∈ l', y ∈ l) → ∀ s, P s → P (l'.foldl f s) := by
    intro l'
    induction l' with
    | nil => exact fun _ s h => h
    | cons y ys ih =>
      intro hl s hp
      rw [List.foldl_cons]
      refine ih (fun z hz => hl z (List.mem_cons_of_mem _ hz)) _ ?_
      by_cases e : y = x
      · rw [e]; exact h1 s
      · exact h2 s y (hl y List.mem_cons_self) e hp
  have go : ∀ (l' : List α), (∀ y ∈ l', y ∈ l) → x ∈ l' → ∀ s, P (l'.foldl f s) := by
    intro l'
    induction l' with
    | nil => exact fun _ h => absurd h (by simp)
    | cons y ys ih =>
      intro hl hm s
      rw [List.foldl_cons]
      rcases List.mem_cons.mp hm with e | hm
      · rw [← e]
        exact keep ys (fun z hz => hl z (List.mem_cons_of_mem _ hz)) _ (h1 s)
      · exact ih (fun z hz => hl z (List.mem_cons_of_mem _ hz)) hm _
  exact go l (fun _ h => h) hx s

/-- The sides mentioned by the faces of the mesh. -/
def sides (m : SlMesh K) : List (ℕ × ℕ) := (m.ints.flatMap fun f => [f.1, f.2]) ++ (m.bnds ++ m.dist.map Prod.fst)

omit [IsStrictOrderedRing K] in
/-- After the preparation every side knows the present state of what is across it. -/
theorem prepare_spec (m : SlMesh K) (hm : (sides m).Nodup) (wet : ℕ → Bool) (bary : ℕ → V3 K) (s : SlStore K) :
    (∀ f ∈ m.ints, (prepare m wet bary s).wet f.1 = wet f.2.1 ∧ (prepare m wet bary s).wet f.2 = wet f.1.1 ∧
      (wet f.1.1 = true → wet f.2.1 = true →
        (prepare m wet bary s).bary f.1 = bary f.2.1 ∧ (prepare m wet bary s).bary f.2 = bary f.1.1)) ∧
    (∀ f ∈ m.bnds, (prepare m wet bary s).wet f = wet f.1 ∧ (wet f.1 = true → (prepare m wet bary s).bary f = bary f.1)) ∧
    (∀ f ∈ m.dist, (prepare m wet bary s).wet f.1 = decide (f.2.getD 0 0 ≠ 0) ∧
      (prepare m wet bary s).bary f.1 = ![f.2.getD 1 0, f.2.getD 2 0, f.2.getD 3 0]) := by
  rw [sides, List.nodup_append', List.nodup_append'] at hm
  obtain ⟨hi, ⟨hb, hd, hbd⟩, hio⟩ := hm
  have hint : ∀ f ∈ m.ints, ∀ k, (k = f.1 ∨ k = f.2) → k ∉ m.bnds ∧ k ∉ m.dist.map Prod.fst := by
    intro f hf k hk
    have hk' : k ∈ m.ints.flatMap fun f => [f.1, f.2] := List.mem_flatMap.mpr ⟨f, hf, by simpa using hk⟩
    exact ⟨fun h => hio hk' (List.mem_append_left _ h), fun h => hio hk' (List.mem_append_right _ h)⟩
  have hkd : ∀ (k : ℕ × ℕ), k ∉ m.dist.map Prod.fst → ∀ s : SlStore K, (m.dist.foldl prepDistributed s).wet k = s.wet k ∧
      (m.dist.foldl prepDistributed s).bary k = s.bary k := by
    intro k hk s
    have hne : ∀ x ∈ m.dist, k ≠ x.1 := fun x hx e => hk (e ▸ List.mem_map_of_mem hx)
    constructor
    · exact foldl_keep prepDistributed (fun s => s.wet k) m.dist (fun s x hx => Function.update_of_ne (hne x hx) _ _) s
    · exact foldl_keep prepDistributed (fun s => s.bary k) m.dist (fun s x hx => Function.update_of_ne (hne x hx) _ _) s
  have hkb : ∀ (k : ℕ × ℕ), k ∉ m.bnds → ∀ s : SlStore K, (m.bnds.foldl (prepBoundary wet bary) s).wet k = s.wet k ∧
      (m.bnds.foldl (prepBoundary wet bary) s).bary k = s.bary k := by
    intro k hk s
    have hne : ∀ x ∈ m.bnds, k ≠ x := fun x hx e => hk (e ▸ hx)
    constructor
    · exact foldl_keep (prepBoundary wet bary) (fun s => s.wet k) m.bnds (fun s x hx => Function.update_of_ne (hne x hx) _ _) s
    · refine foldl_keep (prepBoundary wet bary) (fun s => s.bary k) m.bnds (fun s x hx => ?_) s
      simp only [prepBoundary]
      split_ifs
      · exact Function.update_of_ne (hne x hx) _ _
      · rfl
  refine ⟨fun f hf => ?_, fun f hf => ?_, fun f hf => ?_⟩
  · rw [List.nodup_flatMap] at hi
    have hff : f.1 ≠ f.2 := by
      have := hi.1 f hf
      simpa using this
    have hother : ∀ y ∈ m.ints, y ≠ f → f.1 ≠ y.1 ∧ f.1 ≠ y.2 ∧ f.2 ≠ y.1 ∧ f.2 ≠ y.2 := by
      intro y hy hyf
      have hpw := hi.2
      have hdis : List.Disjoint [f.1, f.2] [y.1, y.2] := by
        have : Std.Symm (Function.onFun List.Disjoint fun f : (ℕ × ℕ) × (ℕ × ℕ) => [f.1, f.2]) := ⟨fun _ _ h => List.Disjoint.symm h⟩
        exact hpw.forall hf hy (Ne.symm hyf)
      refine ⟨fun e => ?_, fun e => ?_, fun e => ?_, fun e => ?_⟩
      · exact hdis (a := f.1) (by simp) (by simp [e])
      · exact hdis (a := f.1) (by simp) (by simp [e])
      · exact hdis (a := f.2) (by simp) (by simp [e])
      · exact hdis (a := f.2) (by simp) (by simp [e])
    obtain ⟨a1, a2⟩ := hint f hf f.1 (.inl rfl)
    obtain ⟨b1, b2⟩ := hint f hf f.2 (.inr rfl)
    have base := foldl_hit (prepInterface wet bary) (fun s => s.wet f.1 = wet f.2.1 ∧ s.wet f.2 = wet f.1.1 ∧
        (wet f.1.1 = true → wet f.2.1 = true → s.bary f.1 = bary f.2.1 ∧ s.bary f.2 = bary f.1.1)) m.ints f hf
      (fun s => by
        refine ⟨?_, ?_, fun h1 h2 => ?_⟩
        · simp only [prepInterface]
          rw [Function.update_of_ne hff, Function.update_self]
        · simp only [prepInterface]
          rw [Function.update_self]
        · simp only [prepInterface, h1, h2, Bool.and_self, if_true]
          rw [Function.update_of_ne hff, Function.update_self, Function.update_self]
          exact ⟨rfl, rfl⟩)
      (fun s y hy hyf => by
        obtain ⟨n1, n2, n3, n4⟩ := hother y hy hyf
        rintro ⟨p1, p2, p3⟩
        refine ⟨?_, ?_, fun h1 h2 => ?_⟩
        · simp only [prepInterface]
          rw [Function.update_of_ne n2, Function.update_of_ne n1]; exact p1
        · simp only [prepInterface]
          rw [Function.update_of_ne n4, Function.update_of_ne n3]; exact p2
        · simp only [prepInterface]
          split_ifs
          · rw [Function.update_of_ne n2, Function.update_of_ne n1, Function.update_of_ne n4, Function.update_of_ne n3]; exact p3 h1 h2
          · exact p3 h1 h2) s
    unfold prepare
    rw [(hkd _ a2 _).1, (hkd _ a2 _).2, (hkd _ b2 _).1, (hkd _ b2 _).2, (hkb _ a1 _).1, (hkb _ a1 _).2, (hkb _ b1 _).1, (hkb _ b1 _).2]
    exact base
  · have hfd : f ∉ m.dist.map Prod.fst := fun h => hbd hf h
    unfold prepare
    rw [(hkd _ hfd _).1, (hkd _ hfd _).2]
    exact foldl_hit (prepBoundary wet bary) (fun s => s.wet f = wet f.1 ∧ (wet f.1 = true → s.bary f = bary f.1)) m.bnds f hf
      (fun s => ⟨Function.update_self _ _ _, fun h => by simp only [prepBoundary, h, if_true]; exact Function.update_self _ _ _⟩)
      (fun s y _ hyf => by
        rintro ⟨p1, p2⟩
        refine ⟨?_, fun h => ?_⟩
        · simp only [prepBoundary]
          rw [Function.update_of_ne (Ne.symm hyf)]; exact p1
        · simp only [prepBoundary]
          split_ifs
          · rw [Function.update_of_ne (Ne.symm hyf)]; exact p2 h
          · exact p2 h) _
  · unfold prepare
    exact foldl_hit prepDistributed (fun s => s.wet f.1 = decide (f.2.getD 0 0 ≠ 0) ∧ s.bary f.1 = ![f.2.getD 1 0, f.2.getD 2 0, f.2.getD 3 0])
      m.dist f hf
      (fun s => ⟨Function.update_self _ _ _, Function.update_self _ _ _⟩)
      (fun s y hy hyf => by
        have hne : f.1 ≠ y.1 := by
          intro e
          exact hyf (List.inj_on_of_nodup_map hd hy hf e.symm)
        rintro ⟨p1, p2⟩
        exact ⟨(Function.update_of_ne hne _ _).trans p1, (Function.update_of_ne hne _ _).trans p2⟩) _

/-- The means of an element. -/
def means (q : ℕ → Fin 3 → ℕ → K) (e : ℕ) : V3 K := fun var => q e var 0

/-- `(w, v)` is what lies across a side: the neighbour over an interface, the element itself at a boundary, or the sender of the message. -/
inductive Across (m : SlMesh K) (wet : ℕ → Bool) (q : ℕ → Fin 3 → ℕ → K) : ℕ × ℕ → Bool → V3 K → Prop
  | intIn (a b : ℕ × ℕ) (h : (a, b) ∈ m.ints) : Across m wet q a (wet b.1) (means q b.1)
  | intEx (a b : ℕ × ℕ) (h : (a, b) ∈ m.ints) : Across m wet q b (wet a.1) (means q a.1)
  | bound (a : ℕ × ℕ) (h : a ∈ m.bnds) : Across m wet q a (wet a.1) (means q a.1)
  | message (a : ℕ × ℕ) (w : Bool) (v : V3 K) (hs : List K) (h : (a, slMessage w v hs) ∈ m.dist) : Across m wet q a w v

theorem message_spec (w : Bool) (v : V3 K) (h : List K) :
    decide ((slMessage w v h).getD 0 0 ≠ 0) = w ∧ (w = true → ![(slMessage w v h).getD 1 0, (slMessage w v h).getD 2 0, (slMessage w v h).getD 3 0] = v) := by
  cases w with
  | true =>
    refine ⟨by simp [slMessage], fun _ => ?_⟩
    funext i
    fin_cases i <;> simp [slMessage]
  | false => exact ⟨by simp [slMessage, List.replicate_add], (fun h => by cases h)⟩

/-- The limiter works on the present means of the neighbours: the result for an element does not depend on what was stored before, or on whether a
neighbour is on the same submesh. -/
theorem limiter_current (sq : K → K) (g M nu : K) (geo : ℕ → SlGeom K) (ndof : ℕ → ℕ) (hn : ∀ e, 3 ≤ ndof e) (m : SlMesh K) (hm : (sides m).Nodup)
    (wet : ℕ → Bool) (old : ℕ → V3 K) (s : SlStore K) (q : ℕ → Fin 3 → ℕ → K) (e : ℕ) (nb : Neigh K)
    (hacross : ∀ b : Fin 3, Across m wet q (e, b) (nb.wet b) (nb.bary b)) :
    limitAll sq g M nu geo ndof m wet old s q e = limitElement sq g M nu (geo e) (ndof e) (wet e) nb (q e) := by
  unfold limitAll
  dsimp only
  generalize hbary : (fun e => if wet e = true then fun var => baryOf (vrtxOf (ndof e) (q e var)) else old e) = bary
  have hmean : ∀ e, wet e = true → bary e = means q e := by
    intro e he
    rw [← hbary]
    simp only [he, if_true]
    funext var
    rw [bary_vrtx (hn e)]; rfl
  obtain ⟨p1, p2, p3⟩ := prepare_spec m hm wet bary s
  have key : ∀ b : Fin 3, (prepare m wet bary s).wet (e, b) = nb.wet b ∧
      (wet e = true → nb.wet b = true → (prepare m wet bary s).bary (e, b) = nb.bary b) := by
    intro b
    have h := hacross b
    generalize hk : (e, (b : ℕ)) = k at h ⊢
    generalize nb.wet b = w' at h ⊢
    generalize nb.bary b = v' at h ⊢
    have he : e = k.1 := by rw [← hk]
    rw [he]
    cases h with
    | intIn _ b h =>
      refine ⟨(p1 _ h).1, fun h1 h2 => ?_⟩
      rw [((p1 _ h).2.2 h1 h2).1, hmean _ h2]
    | intEx a _ h =>
      refine ⟨(p1 _ h).2.1, fun h1 h2 => ?_⟩
      rw [((p1 _ h).2.2 h2 h1).2, hmean _ h2]
    | bound _ h =>
      refine ⟨(p2 _ h).1, fun h1 h2 => ?_⟩
      rw [(p2 _ h).2 h1, hmean _ h1]
    | message _ _ _ hs h =>
      have hsp := message_spec w' v' hs
      exact ⟨(p3 _ h).1.trans hsp.1, fun _ h2 => (p3 _ h).2.trans (hsp.2 h2)⟩
  by_cases hw : wet e = true ∧ ∀ b, nb.wet b = true
  · have en : neighOf (prepare m wet bary s) e = nb := by
      rcases nb with ⟨w, v⟩
      unfold neighOf
      congr 1
      · funext b; exact (key b).1
      · funext b; exact (key b).2 hw.1 (hw.2 b)
    rw [en]
  · have hor : wet e = false ∨ ∃ b, nb.wet b = false := by
      by_contra hc
      push Not at hc
      exact hw ⟨by simpa using hc.1, fun b => by simpa using hc.2 b⟩
    rw [limit_dry _ _ _ _ _ _ _ nb _ hor, limit_dry]
    rcases hor with h | ⟨b, h⟩
    · exact .inl h
    · exact .inr ⟨b, (key b).1.trans h⟩

/-- The means of all elements are kept by the limiter as a whole. -/
theorem limitAll_mean (sq : K → K) (g M nu : K) (geo : ℕ → SlGeom K) (ndof : ℕ → ℕ) (hn : ∀ e, 3 ≤ ndof e) (m : SlMesh K)
    (wet : ℕ → Bool) (old : ℕ → V3 K) (s : SlStore K) (q : ℕ → Fin 3 → ℕ → K) (e : ℕ) (var : Fin 3) :
    limitAll sq g M nu geo ndof m wet old s q e var 0 = q e var 0 := limiter_mean sq g M nu _ (hn e) _ _ _ var

/-! ### The detector -/

omit [IsStrictOrderedRing K] in
theorem detectQn_eq (n : P2 K) (q : Q K) : detectQn n q = n.x * q.ze + n.y * q.qx := by simp [detectQn, qRow]

/-- The sign of the normal discharge is not what the detector looks at: inflow is missed and outflow taken for inflow. -/
theorem detector_wrong_rows :
    (∃ (n : P2 ℚ) (q : Q ℚ), Unit n ∧ normalPart q n < 0 ∧ inflowSide [1] [n] [q] = false) ∧
    (∃ (n : P2 ℚ) (q : Q ℚ), Unit n ∧ 0 < normalPart q n ∧ inflowSide [1] [n] [q] = true) :=
  ⟨⟨⟨1, 0⟩, ⟨1, -1, 0⟩, by norm_num [Unit], by norm_num [normalPart], by decide +kernel⟩,
   ⟨⟨1, 0⟩, ⟨-1, 1, 0⟩, by norm_num [Unit], by norm_num [normalPart], by decide +kernel⟩⟩

/-- What is detected depends on the datum of the water level, with depth and discharge unchanged. -/
theorem detector_depends_on_datum : ∃ (n : P2 ℚ) (q : Q ℚ) (c : ℚ), Unit n ∧
    inflowSide [1] [n] [q] ≠ inflowSide [1] [n] [⟨q.ze + c, q.qx, q.qy⟩] :=
  ⟨⟨1, 0⟩, ⟨1, -1, 0⟩, -2, by norm_num [Unit], by decide +kernel⟩

omit [IsStrictOrderedRing K] in
/-- The sides with negative normal discharge are found if, at every Gauss point, the first two rows have the same normal part as the last two. -/
theorem detector_normal_momentum_partial (w : List K) (n : List (P2 K)) (q : List (Q K))
    (h : ∀ p ∈ n.zip q, p.1.x * p.2.ze + p.1.y * p.2.qx = normalPart p.2 p.1) :
    inflowSide w n q = decide (integrate w (List.zipWith (fun n q => normalPart q n) n q) < 0) := by
  unfold inflowSide
  congr 3
  induction n generalizing q with
  | nil => rfl
  | cons a as ih =>
    cases q with
    | nil => rfl
    | cons b bs =>
      rw [List.zipWith_cons_cons, List.zipWith_cons_cons, ih bs fun p hp => h p (List.mem_cons_of_mem _ hp), detectQn_eq, h (a, b) List.mem_cons_self]

/-- Where the depth is continuous the detector finds no jump. -/
theorem detector_continuous (w : List K) (n : List (P2 K)) (q : List (Q K)) (h hex : List K) (hc : hex = h.reverse) (len : K) (s : K × K) :
    (detectIn w n q h hex len s).1 = s.1 := by
  have hz : ∀ (l : List K), List.zipWith (· - ·) l l = List.replicate l.length 0 := by
    intro l
    induction l with
    | nil => rfl
    | cons a as ih => rw [List.zipWith_cons_cons, ih, sub_self]; rfl
  have hi : ∀ (w : List K) (k : ℕ), integrate w (List.replicate k 0) = 0 := by
    intro w
    induction w with
    | nil => intro k; rfl
    | cons a as ih =>
      intro k
      cases k with
      | zero => rfl
      | succ k =>
        have := ih k
        simp only [integrate] at this ⊢
        rw [List.replicate_succ, List.zipWith_cons_cons, List.sum_cons, this, mul_zero, add_zero]
  unfold detectIn
  split_ifs
  · simp only [hdif, hc, List.reverse_reverse, hz, hi, abs_zero, add_zero]
  · rfl

/-- Conversely a detected jump is nonnegative, and counted only together with the length of the side. -/
theorem detector_monotone (w : List K) (n : List (P2 K)) (q : List (Q K)) (h hex : List K) {len : K} (hl : 0 < len) (s : K × K) :
    s.1 ≤ (detectIn w n q h hex len s).1 ∧ s.2 ≤ (detectIn w n q h hex len s).2 ∧
    (s.1 < (detectIn w n q h hex len s).1 → s.2 < (detectIn w n q h hex len s).2) := by
  unfold detectIn
  split_ifs
  · exact ⟨by dsimp only; linarith [abs_nonneg (integrate w (hdif h hex))], by dsimp only; linarith, fun _ => by dsimp only; linarith⟩
  · exact ⟨le_refl _, le_refl _, fun h => absurd h (lt_irrefl _)⟩

omit [IsStrictOrderedRing K] in
/-- Across a submesh boundary the detector gives the same as across an interface, if the neighbour is wet. -/
theorem detector_distributed_partial (w : List K) (n : List (P2 K)) (q : List (Q K)) (h hex : List K) (v : V3 K) (len : K) (s : K × K) :
    detectDist w n q h (slMessage true v hex) len s = detectIn w n q h hex len s := rfl

/-- If the neighbour is dry its depth is sent as zero, and the detector sees a jump that the serial program does not see. -/
theorem detector_distributed_differs : ∃ (w : List ℚ) (n : List (P2 ℚ)) (q : List (Q ℚ)) (h hex : List ℚ) (v : V3 ℚ),
    hex = h.reverse ∧ (∀ x ∈ h, 0 < x) ∧
    (detectIn w n q h hex 1 (0, 0)).1 = 0 ∧ 0 < (detectDist w n q h (slMessage false v hex) 1 (0, 0)).1 :=
  ⟨[1], [⟨1, 0⟩], [⟨-1, -1, 0⟩], [3], [3], 0, rfl, by norm_num, by decide +kernel, by decide +kernel⟩

/-- Reached from a seed by walking over `k` neighbours, all but the last of them on the submesh. -/
inductive Reach (elts : List (ℕ × List ℕ)) (seeds : List ℕ) : ℕ → ℕ → Prop
  | seed {x : ℕ} (h : x ∈ seeds) : Reach elts seeds 0 x
  | step {k e x : ℕ} {nb : List ℕ} (h : Reach elts seeds k e) (he : (e, nb) ∈ elts) (hx : x ∈ nb) : Reach elts seeds (k + 1) x

theorem reach_first {elts : List (ℕ × List ℕ)} {seeds : List ℕ} {k x : ℕ} :
    Reach elts ((elts.filter fun e => decide (e.1 ∈ seeds)).flatMap Prod.snd) k x ↔ Reach elts seeds (k + 1) x := by
  constructor
  · intro h
    induction h with
    | seed h =>
      obtain ⟨⟨e, nb⟩, he, hx⟩ := List.mem_flatMap.mp h
      rw [List.mem_filter, decide_eq_true_iff] at he
      exact .step (.seed he.2) he.1 hx
    | step _ he hx ih => exact .step ih he hx
  · intro h
    generalize hk : k + 1 = k' at h
    induction h generalizing k with
    | seed h => omega
    | @step j e x nb hr he hx ih =>
      obtain rfl : k = j := by omega
      cases k with
      | zero =>
        cases hr with
        | seed hs => exact .seed (List.mem_flatMap.mpr ⟨(e, nb), List.mem_filter.mpr ⟨he, decide_eq_true hs⟩, hx⟩)
      | succ k => exact .step (ih rfl) he hx

theorem spread_spec (n : ℕ) (elts : List (ℕ × List ℕ)) (seeds : List ℕ) (x : ℕ) :
    x ∈ spread n elts seeds ↔ x ∈ elts.map Prod.fst ∧ ∃ k < n, Reach elts seeds k x := by
  induction n generalizing seeds with
  | zero => simp [spread]
  | succ n ih =>
    rw [spread, List.mem_append, ih]
    constructor
    · rintro (h | ⟨h, k, hk, hr⟩)
      · obtain ⟨e, he, rfl⟩ := List.mem_map.mp h
        rw [List.mem_filter, decide_eq_true_iff] at he
        exact ⟨List.mem_map_of_mem he.1, 0, by omega, .seed he.2⟩
      · exact ⟨h, k + 1, by omega, reach_first.mp hr⟩
    · rintro ⟨h, k, hk, hr⟩
      cases k with
      | zero =>
        cases hr with
        | seed hs =>
          obtain ⟨e, he, rfl⟩ := List.mem_map.mp h
          exact .inl (List.mem_map_of_mem (List.mem_filter.mpr ⟨he, decide_eq_true hs⟩))
      | succ k => exact .inr ⟨h, k, by omega, reach_first.mpr hr⟩

/-- The elements marked as troubled are those within five neighbours of a seed on the same submesh. -/
theorem troubled_spec (elts : List (ℕ × List ℕ)) (seeds : List ℕ) (x : ℕ) :
    x ∈ troubled elts seeds ↔ x ∈ elts.map Prod.fst ∧ ∃ k ≤ 5, Reach elts seeds k x := by
  unfold troubled
  rw [spread_spec]
  exact ⟨fun ⟨h, k, hk, hr⟩ => ⟨h, k, by omega, hr⟩, fun ⟨h, k, hk, hr⟩ => ⟨h, k, by omega, hr⟩⟩

/-- Wet elements with inflow sides are seeds exactly if the scaled jump exceeds one. -/
theorem seed_spec {scale I P : K} (hs : 0 < scale) (hP : 0 < P) {h : V3 K} (hh : ∀ i, 0 < h i) :
    isSeed true scale I P h = true ↔ ∀ i, scale * P * h i < I := by
  have h0 := hh 0
  have h1 := hh 1
  have h2 := hh 2
  have hmax : 0 < max (max (max 0 (h 0)) (h 1)) (h 2) := lt_of_lt_of_le h2 (le_max_right _ _)
  simp only [isSeed, Bool.true_and, hP.ne', ne_eq, not_false_eq_true, decide_true, decide_eq_true_iff]
  rw [lt_div_iff₀ (by positivity), one_mul]
  constructor
  · intro hI i
    have : h i ≤ max (max (max 0 (h 0)) (h 1)) (h 2) := by
      fin_cases i
      · exact le_trans (le_max_right _ _) (le_trans (le_max_left _ _) (le_max_left _ _))
      · exact le_trans (le_max_right _ _) (le_max_left _ _)
      · exact le_max_right _ _
    exact lt_of_le_of_lt (mul_le_mul_of_nonneg_left this (by positivity)) hI
  · intro hI
    have : max (max (max 0 (h 0)) (h 1)) (h 2) = h 0 ∨ max (max (max 0 (h 0)) (h 1)) (h 2) = h 1 ∨ max (max (max 0 (h 0)) (h 1)) (h 2) = h 2 := by
      rw [max_eq_right h0.le]
      rcases max_choice (max (h 0) (h 1)) (h 2) with e | e
      · rw [e]
        rcases max_choice (h 0) (h 1) with e | e <;> rw [e] <;> simp
      · rw [e]; simp
    rcases this with e | e | e <;> rw [e]
    · exact hI 0
    · exact hI 1
    · exact hI 2

/-! ### Examples -/

def exBary (a b c : ℚ) : V3 ℚ := ![a, b, c]

-- three slopes of one sign are removed, mixed ones balanced
example : balance (![1, 2, 3] : V3 ℚ) 1 = 0 := by decide +kernel
example : (balance (![1, 2, -1] : V3 ℚ) 0, balance (![1, 2, -1] : V3 ℚ) 1, balance (![1, 2, -1] : V3 ℚ) 2) = (1/3, 2/3, -1) := by decide +kernel
example : minmod 0 (3/2) 1 (2 : ℚ) 1 = 3/2 := by decide +kernel
example : minmod 0 (3/2) 1 (2 : ℚ) (-1) = 0 := by decide +kernel
example : minmod 2 (3/2) 1 (2 : ℚ) (-1) = 2 := by decide +kernel

/-- A geometry with unit medians; only the rational square roots needed are supplied. -/
def exGeo : SlGeom ℚ := ⟨4, fun _ => ⟨1, 0⟩, fun _ => (1/2, 1/2), fun _ => 1⟩

/-- `sqQ` with an approximate value at 2, which occurs in a norm only. -/
def sqE (x : ℚ) : ℚ := if x = 2 then 7/5 else sqQ x

-- an extremum in the middle: all slopes are removed, the mean stays
example : (List.range 3).map (limitElement sqE 1 0 (3/2) exGeo 3 true ⟨fun _ => true, fun _ => 0⟩
    (fun var => linearToBasis (fun v => if var = 0 then (if v = 0 then 1 else if v = 1 then -1 else 0) else 0)) 0) = [0, 0, 0] := by decide +kernel

-- the same element with a dry neighbour is left alone
example : (List.range 3).map (limitElement sqE 1 0 (3/2) exGeo 3 true ⟨fun b => decide (b ≠ 1), fun _ => 0⟩
    (fun var => linearToBasis (fun v => if var = 0 then (if v = 0 then 1 else if v = 1 then -1 else 0) else 0)) 0) ≠ [0, 0, 0] := by decide +kernel

-- a strip of eight elements with the first one troubled: six are marked
example : troubled ((List.range 8).map fun i => (i, [i + 1])) [0] = [0, 1, 2, 3, 4, 5] := by decide +kernel

example : (sides (⟨[((0, 0), (1, 2))], [(0, 1), (1, 0), (1, 1)], [((0, 2), slMessage true 0 [1, 2])]⟩ : SlMesh ℚ)).Nodup := by decide +kernel

end Verif.Swe.Props
