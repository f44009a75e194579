import Verif.Model.SweSource
import Verif.Props.SweJacobian
import Mathlib.Analysis.SpecialFunctions.Pow.Deriv

/-!
# C52, C53, C69: source terms
-/

namespace Verif.Swe.Props
open Verif.Swe Verif.Geometry Verif.Geometry.Props

variable {K : Type} [Field K] [LinearOrder K]

/-! ### C52 -/

/-- What the theory asks of each optional term: the discharge equations get wind stress and pressure gradient, the gradient of the tidal
potential, the Coriolis force. -/
def meteoTerm (s : SourceTerms K) (e : EltSource K) (a : Aux K) : Q K :=
  ⟨0, e.tauS.x / s.rhoWater - a.sp * a.h * e.dpAtm.x / s.rhoWater, e.tauS.y / s.rhoWater - a.h * e.dpAtm.y / s.rhoWater⟩

def tideTerm (s : SourceTerms K) (e : EltSource K) (a : Aux K) : Q K :=
  ⟨0, s.g * a.sp * a.h * e.dtidePot.x, s.g * a.h * e.dtidePot.y⟩

def coriolisTerm (e : EltSource K) (q : Q K) : Q K := ⟨0, e.coriolisF * q.qy, -(e.coriolisF * q.qx)⟩

/-- Friction: coefficient times speed squared, against the flow. -/
def frictionTerm (sq : K → K) (Cf : K) (q : Q K) (h : K) : Q K :=
  let w := sq ((q.qx / h) ^ 2 + (q.qy / h) ^ 2)
  ⟨0, -(Cf * w * (q.qx / h)), -(Cf * w * (q.qy / h))⟩

/-- **C52** is false of the code: the switches for meteorological forcing, tidal potential and Coriolis force and the data of
these terms have no effect at all on the source. -/
theorem enabled_sources_ignored (sq cb : K → K) (s : SourceTerms K) (e : EltSource K) (fs q : Q K) (a : Aux K) (db : P2 K)
    (m t c : Bool) (f : K) (tau dp dt : P2 K) :
    getSource sq cb { s with meteoForcing := m, tidePotential := t, coriolis := c }
      { e with coriolisF := f, tauS := tau, dpAtm := dp, dtidePot := dt } fs q a db = getSource sq cb s e fs q a db := rfl

/-- The same as a contradiction with what C52 demands: a state, input data and an element for which each of the three terms, switched on, should
change the source, but does not. -/
theorem enabled_sources_wrong : ∃ (i : SourceInputs ℚ) (s : SourceTerms ℚ) (e : EltSource ℚ) (q : Q ℚ) (a : Aux ℚ) (db : P2 ℚ),
    s = (SourceTerms.default.setup i) ∧ s.meteoForcing ∧ s.tidePotential ∧ s.coriolis ∧ 0 < a.h ∧
    (let off := getSource id id { s with meteoForcing := false, tidePotential := false, coriolis := false } e 0 q a db
     getSource id id { s with tidePotential := false, coriolis := false } e 0 q a db ≠ off + meteoTerm s e a ∧
     getSource id id { s with meteoForcing := false, coriolis := false } e 0 q a db ≠ off + tideTerm s e a ∧
     getSource id id { s with meteoForcing := false, tidePotential := false } e 0 q a db ≠ off + coriolisTerm e q ∧
     getSource id id s e 0 q a db = off) := by
  refine ⟨⟨10, 1000, false, .none, 0, true, true, true⟩, _, ⟨false, 0, 1, ⟨1, 0⟩, ⟨0, 0⟩, ⟨1, 0⟩⟩, ⟨0, 1, 1⟩, ⟨1, 1, 1⟩, ⟨0, 0⟩, rfl, ?_⟩
  decide +kernel

/-- **C52**, the part that holds: the bathymetry term is always present, function source and bottom friction act if and only if they are
enabled. Missing: the other three terms (`enabled_sources_ignored`). -/
theorem enabled_sources_partial [IsStrictOrderedRing K] (sq cb : K → K) (s : SourceTerms K) (e : EltSource K) (fs q : Q K) (a : Aux K) (hh : 0 < a.h) (db : P2 K) :
    getSource sq cb s e fs q a db = (⟨0, s.g * q.ze * db.x, s.g * q.ze * db.y⟩ : Q K)
      + (if s.functionSource then fs else 0)
      + (if s.bottomFriction then frictionTerm sq (frictionCf cb s e a.h) q a.h else 0) := by
  have h0 := hh.ne'
  have hadd : ∀ x y : Q K, x + y = ⟨x.ze + y.ze, x.qx + y.qx, x.qy + y.qy⟩ := fun _ _ => rfl
  have hz : (0 : Q K) = ⟨0, 0, 0⟩ := rfl
  unfold getSource frictionStress frictionTerm hypot
  simp only [pow_two]
  generalize sq _ = w
  cases s.functionSource <;> cases s.bottomFriction <;> simp only [hadd, hz, if_true, if_false, Bool.false_eq_true] <;>
    congr 1 <;> first | ring1 | (field_simp; ring1)

omit [Field K] [LinearOrder K] in
/-- The switches are those of the input, if they were off before. -/
theorem setup_spec (s : SourceTerms K) (i : SourceInputs K) (h1 : s.functionSource = false) (h2 : s.bottomFriction = false) (h3 : s.meteoForcing = false)
    (h4 : s.tidePotential = false) (h5 : s.coriolis = false) :
    (s.setup i).functionSource = i.functionSource ∧ ((s.setup i).bottomFriction = true ↔ i.friction ≠ .none) ∧ (s.setup i).meteoForcing = i.meteoForcing ∧
    (s.setup i).tidePotential = i.tidePotential ∧ (s.setup i).coriolis = i.coriolis ∧
    (i.friction ≠ .none → (s.setup i).Cf = i.coefficient) ∧ (s.setup i).g = i.g := by
  refine ⟨by simp [SourceTerms.setup, h1], by simp [SourceTerms.setup, h2], by simp [SourceTerms.setup, h3], by simp [SourceTerms.setup, h4],
    by simp [SourceTerms.setup, h5], fun h => by simp [SourceTerms.setup, h], rfl⟩

example : (SourceTerms.default.setup (⟨10, 1000, true, .chezy, 1 / 2, false, false, true⟩ : SourceInputs ℚ)) =
    ⟨10, 1000, true, true, false, false, true, 1 / 2⟩ := by decide +kernel

/-! ### C53 -/

section Friction
variable [IsStrictOrderedRing K]

theorem sq_sum_zero {x y : K} (h : x ^ 2 + y ^ 2 = 0) : x = 0 ∧ y = 0 := by
  obtain ⟨h1, h2⟩ := (add_eq_zero_iff_of_nonneg (sq_nonneg x) (sq_nonneg y)).mp h
  exact ⟨pow_eq_zero_iff (by norm_num) |>.mp h1, pow_eq_zero_iff (by norm_num) |>.mp h2⟩

/-- **C53**, coefficient: never below the configured one; with Manning's law it is `g n² / h^(1/3)` where that is larger. -/
theorem friction_coefficient (cb : K → K) (s : SourceTerms K) (e : EltSource K) (h : K) :
    s.Cf ≤ frictionCf cb s e h ∧ (e.manning = false → frictionCf cb s e h = s.Cf) ∧
    (e.manning = true → frictionCf cb s e h = max s.Cf (e.gn2 / cb h)) := by
  unfold frictionCf
  refine ⟨?_, fun hm => by simp [hm], fun hm => ?_⟩
  · split_ifs with h1 <;> try exact le_refl _
    dsimp only
    split_ifs with h2
    · exact le_refl _
    · exact not_lt.mp h2
  · rw [if_pos hm]
    dsimp only
    split_ifs with h2
    · rw [max_eq_left h2.le]
    · rw [max_eq_right (not_lt.mp h2)]

/-- **C53** Friction: what switching friction on adds to the source leaves the water level alone, has no component across the flow, opposes the
flow, and has magnitude coefficient times squared speed; it does no work only if the coefficient vanishes or the water is still. -/
theorem friction_dissipates {sq : K → K} (hs : IsSqrt sq) (cb : K → K) (s : SourceTerms K) (e : EltSource K) (fs q : Q K) (a : Aux K)
    (hh : 0 < a.h) (hC : 0 ≤ s.Cf) (db : P2 K) :
    ∃ f : Q K, getSource sq cb { s with bottomFriction := true } e fs q a db = getSource sq cb { s with bottomFriction := false } e fs q a db + f ∧
      f.ze = 0 ∧ f.qx * q.qy = f.qy * q.qx ∧ f.qx * q.qx + f.qy * q.qy ≤ 0 ∧
      (f.qx * q.qx + f.qy * q.qy = 0 ↔ frictionCf cb s e a.h = 0 ∨ (q.qx = 0 ∧ q.qy = 0)) ∧
      f.qx ^ 2 + f.qy ^ 2 = (frictionCf cb s e a.h * ((q.qx / a.h) ^ 2 + (q.qy / a.h) ^ 2)) ^ 2 ∧
      s.Cf * hypot sq q.qx q.qy ^ 3 / a.h ^ 2 ≤ -(f.qx * q.qx + f.qy * q.qy) := by
  have h0 := hh.ne'
  obtain ⟨hc, -⟩ := friction_coefficient cb s e a.h
  have hC' := le_trans hC hc
  have hw := hs (q.qx / a.h * (q.qx / a.h) + q.qy / a.h * (q.qy / a.h)) (by nlinarith [mul_self_nonneg (q.qx / a.h), mul_self_nonneg (q.qy / a.h)])
  have hr := hs (q.qx * q.qx + q.qy * q.qy) (by nlinarith [mul_self_nonneg q.qx, mul_self_nonneg q.qy])
  have hk : frictionStress sq cb { s with bottomFriction := true } e q a.h = frictionCf cb s e a.h * sq (q.qx / a.h * (q.qx / a.h) + q.qy / a.h * (q.qy / a.h)) / a.h := rfl
  have hwr : sq (q.qx / a.h * (q.qx / a.h) + q.qy / a.h * (q.qy / a.h)) * a.h = sq (q.qx * q.qx + q.qy * q.qy) := by
    have h1 : (sq (q.qx / a.h * (q.qx / a.h) + q.qy / a.h * (q.qy / a.h)) * a.h) ^ 2 = sq (q.qx * q.qx + q.qy * q.qy) ^ 2 := by
      rw [mul_pow, pow_two, hw.2, pow_two (sq (q.qx * q.qx + q.qy * q.qy)), hr.2]; field_simp
    exact (pow_left_inj₀ (mul_nonneg hw.1 hh.le) hr.1 (by norm_num)).mp h1
  refine ⟨⟨0, -(frictionStress sq cb { s with bottomFriction := true } e q a.h * q.qx), -(frictionStress sq cb { s with bottomFriction := true } e q a.h * q.qy)⟩, ?_, rfl, ?_, ?_, ?_, ?_, ?_⟩
  · have hadd : ∀ x y : Q K, x + y = ⟨x.ze + y.ze, x.qx + y.qx, x.qy + y.qy⟩ := fun _ _ => rfl
    unfold getSource
    dsimp only
    simp only [if_true, if_false, Bool.false_eq_true, hadd]
    congr 1 <;> ring
  · dsimp only; ring
  all_goals
    dsimp only
    rw [hk]
    revert hw hwr
    generalize sq (q.qx / a.h * (q.qx / a.h) + q.qy / a.h * (q.qy / a.h)) = w
    intro hw hwr
    have hk0 : 0 ≤ frictionCf cb s e a.h * w / a.h := div_nonneg (mul_nonneg hC' hw.1) hh.le
    have hq : 0 ≤ q.qx ^ 2 + q.qy ^ 2 := by positivity
  · nlinarith [mul_nonneg hk0 hq]
  · have e1 : -(frictionCf cb s e a.h * w / a.h * q.qx) * q.qx + -(frictionCf cb s e a.h * w / a.h * q.qy) * q.qy = -(frictionCf cb s e a.h * w / a.h * (q.qx ^ 2 + q.qy ^ 2)) := by ring
    rw [e1, neg_eq_zero]
    constructor
    · intro h
      rcases mul_eq_zero.mp h with h | h
      · rcases mul_eq_zero.mp ((div_eq_zero_iff.mp h).resolve_right h0) with h | h
        · exact Or.inl h
        · right
          rw [h] at hwr
          have h2 := hr.2
          rw [← hwr] at h2
          exact sq_sum_zero (by linear_combination -h2)
      · exact Or.inr (sq_sum_zero h)
    · rintro (h | ⟨h1, h2⟩)
      · rw [h]; ring
      · rw [h1, h2]; ring
  · have := hw.2
    have e1 : (q.qx / a.h) ^ 2 + (q.qy / a.h) ^ 2 = w * w := by rw [this]; ring
    rw [e1]
    have e2 : q.qx ^ 2 + q.qy ^ 2 = w * w * a.h ^ 2 := by rw [this]; field_simp
    field_simp
    linear_combination (frictionCf cb s e a.h ^ 2 * w ^ 2) * e2
  · have e1 : hypot sq q.qx q.qy = w * a.h := hwr.symm
    have e2 : q.qx ^ 2 + q.qy ^ 2 = w ^ 2 * a.h ^ 2 := by
      have := hr.2; rw [← hwr] at this; linear_combination -this
    rw [e1]
    have e3 : -(-(frictionCf cb s e a.h * w / a.h * q.qx) * q.qx + -(frictionCf cb s e a.h * w / a.h * q.qy) * q.qy) = frictionCf cb s e a.h * w ^ 3 * a.h := by
      have : -(-(frictionCf cb s e a.h * w / a.h * q.qx) * q.qx + -(frictionCf cb s e a.h * w / a.h * q.qy) * q.qy) = frictionCf cb s e a.h * w / a.h * (q.qx ^ 2 + q.qy ^ 2) := by ring
      rw [this, e2]; field_simp
    rw [e3]
    have e4 : s.Cf * (w * a.h) ^ 3 / a.h ^ 2 = s.Cf * w ^ 3 * a.h := by field_simp
    rw [e4]
    have hw0 := hw.1
    have : 0 ≤ w ^ 3 * a.h := by positivity
    nlinarith [mul_le_mul_of_nonneg_right hc this]

omit [LinearOrder K] [IsStrictOrderedRing K] in
/-- Manning's coefficient of an element: `g` times the squared mean of the values of its nodes. -/
theorem manning_spec (g : K) (file : List (ℕ × K)) (n0 n1 n2 : ℕ) (m0 m1 m2 : K) (hf : (file.map Prod.fst).Nodup)
    (h0 : (n0, m0) ∈ file) (h1 : (n1, m1) ∈ file) (h2 : (n2, m2) ∈ file) : gManning g file [n0, n1, n2] = g * ((m0 + m1 + m2) / 3) ^ 2 := by
  have hl : ∀ n m, (n, m) ∈ file → file.reverse.lookup n = some m := by
    intro n m h
    have hf' : (file.reverse.map Prod.fst).Nodup := by rw [List.map_reverse]; exact List.nodup_reverse.mpr hf
    have h' : (n, m) ∈ file.reverse := List.mem_reverse.mpr h
    generalize file.reverse = l at hf' h'
    clear hf h0 h1 h2 h
    induction l with
    | nil => cases h'
    | cons x l ih =>
      rw [List.map_cons, List.nodup_cons] at hf'
      rcases List.mem_cons.mp h' with h | h
      · subst h; simp
      · have : n ≠ x.1 := fun he => hf'.1 (List.mem_map.mpr ⟨(n, m), h, he⟩)
        obtain ⟨x1, x2⟩ := x
        rw [List.lookup_cons]
        have : (n == x1) = false := by simpa using this
        rw [this]
        exact ih hf'.2 h
  unfold gManning
  simp only [List.map_cons, List.map_nil, hl _ _ h0, hl _ _ h1, hl _ _ h2, Option.getD_some, List.sum_cons, List.sum_nil, List.length_cons, List.length_nil]
  norm_num
  left
  congr 2
  ring

end Friction

/-- A state where friction acts: speed 2, depth 2, coefficient 1/2: the force is 1/2 · 2². -/
example : getSource (fun x : ℚ => if x = 4 then 2 else 0) id ⟨10, 1000, false, true, false, false, false, 1 / 2⟩ ⟨false, 0, 0, ⟨0, 0⟩, ⟨0, 0⟩, ⟨0, 0⟩⟩ 0
    ⟨0, 4, 0⟩ ⟨2, 2, 1⟩ ⟨0, 0⟩ = ⟨0, -2, 0⟩ := by decide +kernel
/-- Manning's law with `h^(1/3) = 2` (depth 8): coefficient 3 above the minimum 1. -/
example : frictionCf (fun _ : ℚ => 2) ⟨10, 1000, false, true, false, false, false, 1⟩ ⟨true, 6, 0, ⟨0, 0⟩, ⟨0, 0⟩, ⟨0, 0⟩⟩ 8 = 3 := by decide +kernel
example : gManning (10 : ℚ) [(4, 1), (7, 2), (9, 6)] [9, 4, 7] = 90 ∧ gManning (10 : ℚ) [(4, 1), (7, 2)] [9, 4, 7] = 10 := by decide +kernel

end Verif.Swe.Props
