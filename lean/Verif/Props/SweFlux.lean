import Verif.Model.SweFlux
import Verif.Props.Geometry

/-!
# C42, C43, C44, C45, C46: numerical flux, interfaces, boundaries, levees
-/

namespace Verif.Swe.Props
open Verif.Swe Verif.Geometry

variable {K : Type} [Field K] [LinearOrder K] [IsStrictOrderedRing K]

section
omit [LinearOrder K] [IsStrictOrderedRing K]

@[ext] theorem Q.ext' {a b : Q K} (h1 : a.ze = b.ze) (h2 : a.qx = b.qx) (h3 : a.qy = b.qy) : a = b := by
  cases a; cases b; simp_all

@[simp] theorem add_ze (a b : Q K) : (a + b).ze = a.ze + b.ze := rfl
@[simp] theorem add_qx (a b : Q K) : (a + b).qx = a.qx + b.qx := rfl
@[simp] theorem add_qy (a b : Q K) : (a + b).qy = a.qy + b.qy := rfl
@[simp] theorem sub_ze (a b : Q K) : (a - b).ze = a.ze - b.ze := rfl
@[simp] theorem sub_qx (a b : Q K) : (a - b).qx = a.qx - b.qx := rfl
@[simp] theorem sub_qy (a b : Q K) : (a - b).qy = a.qy - b.qy := rfl
@[simp] theorem neg_ze (a : Q K) : (-a).ze = -a.ze := rfl
@[simp] theorem neg_qx (a : Q K) : (-a).qx = -a.qx := rfl
@[simp] theorem neg_qy (a : Q K) : (-a).qy = -a.qy := rfl
@[simp] theorem zero_ze : (0 : Q K).ze = 0 := rfl
@[simp] theorem zero_qx : (0 : Q K).qx = 0 := rfl
@[simp] theorem zero_qy : (0 : Q K).qy = 0 := rfl

end

/-- The opposite normal. -/
def opp (n : P2 K) : P2 K := ⟨-n.x, -n.y⟩

/-- A normal of length one. -/
def Unit (n : P2 K) : Prop := n.x ^ 2 + n.y ^ 2 = 1

/-- The part of a vector in the direction of the normal. -/
def normalPart (q : Q K) (n : P2 K) : K := q.qx * n.x + q.qy * n.y

/-- Physical flux of the spherical shallow water equations (water level `ze`, velocities u, v) through a face with normal n:
x-fluxes are multiplied by the projection factor. -/
def physical (g sp bath : K) (q : Q K) (n : P2 K) : Q K :=
  let h := q.ze + bath
  let u := q.qx / h
  let v := q.qy / h
  ⟨sp * (h * u) * n.x + h * v * n.y,
   sp * (h * u * u + g * (h ^ 2 - bath ^ 2) / 2) * n.x + h * u * v * n.y,
   sp * (h * u * v) * n.x + (h * v * v + g * (h ^ 2 - bath ^ 2) / 2) * n.y⟩

/-! ### C42 -/

/-- The coded flux vectors are the physical ones. -/
theorem flux_physical (g : K) (q : Q K) (a : Aux K) (ha : a.h = q.ze + a.bath) (hw : 0 < a.h) (n : P2 K) :
    fluxN g q a n = physical g 1 a.bath q n ∧
    Q.smul (a.sp * n.x) (fluxX g q a) + Q.smul n.y (fluxY g q a) = physical g a.sp a.bath q n := by
  have hz : q.ze + a.bath ≠ 0 := by rw [← ha]; exact hw.ne'
  constructor <;> ext <;> simp only [fluxN, fluxX, fluxY, physical, pe, ha, Q.smul, add_ze, add_qx, add_qy] <;> field_simp <;> ring

/-- The numerical flux of two equal states. -/
theorem llf_same_state (sq : K → K) (g : K) (q : Q K) (a : Aux K) (hw : 0 < q.ze + a.bath) (n : P2 K) :
    llf sq g q q a n = physical g ((1 + a.sp) / 2) a.bath q n := by
  have hz := hw.ne'
  ext <;> simp only [llf, fnIn, fnEx, physical, pe, Q.smul, add_ze, add_qx, add_qy, sub_ze, sub_qx, sub_qy, sub_self, mul_zero, add_zero] <;>
    field_simp <;> ring

/-- C42 for projection factor one. Missing: other factors, for which the property is false, see `llf_inconsistent`. -/
theorem llf_consistent_partial (sq : K → K) (g : K) (q : Q K) (a : Aux K) (hsp : a.sp = 1) (hw : 0 < q.ze + a.bath) (n : P2 K) :
    llf sq g q q a n = physical g a.sp a.bath q n := by
  rw [llf_same_state sq g q a hw n, hsp]
  norm_num

/-- Negation of C42: with any other projection factor the mass flux of a state with discharge across a face not parallel to x is wrong. -/
theorem llf_inconsistent (sq : K → K) (g : K) (q : Q K) (a : Aux K) (hsp : a.sp ≠ 1) (hw : 0 < q.ze + a.bath) (n : P2 K) (hn : n.x ≠ 0)
    (hq : q.qx ≠ 0) : (llf sq g q q a n).ze ≠ (physical g a.sp a.bath q n).ze := by
  have hz := hw.ne'
  rw [llf_same_state sq g q a hw n]
  simp only [physical]
  intro h
  have e : (q.ze + a.bath) * (q.qx / (q.ze + a.bath)) = q.qx := by field_simp
  rw [e] at h
  have h' : (a.sp - 1) * (q.qx * n.x) = 0 := by linear_combination (-2) * h
  rcases mul_eq_zero.mp h' with h1 | h1
  · exact hsp (by linear_combination h1)
  · rcases mul_eq_zero.mp h1 with h2 | h2
    · exact hq h2
    · exact hn h2

/-! ### C43 -/

theorem speed_opp (sq : K → K) (g : K) (q : Q K) (bath sp : K) (n : P2 K) : speed sq g q bath sp (opp n) = speed sq g q bath sp n := by
  unfold speed opp
  simp only
  have e1 : q.qx / (q.ze + bath) * -n.x + q.qy / (q.ze + bath) * -n.y = -(q.qx / (q.ze + bath) * n.x + q.qy / (q.ze + bath) * n.y) := by ring
  have e2 : (-n.x * sp) ^ 2 + (-n.y) ^ 2 = (n.x * sp) ^ 2 + n.y ^ 2 := by ring
  rw [e1, abs_neg, e2]

/-- C43: swapping the sides and reversing the normal negates the flux, for projection factor one and continuous bathymetry. -/
theorem llf_conservative (sq : K → K) (g : K) (q r : Q K) (a b : Aux K) (ha : a.sp = 1) (hb : b.sp = 1) (hab : a.bath = b.bath) (n : P2 K) :
    llf sq g r q b (opp n) = -llf sq g q r a n := by
  have hmax : max (speed sq g r b.bath b.sp (opp n)) (speed sq g q b.bath b.sp (opp n)) =
      max (speed sq g q a.bath a.sp n) (speed sq g r a.bath a.sp n) := by
    rw [speed_opp, speed_opp, max_comm, ha, hb, hab]
  unfold llf
  rw [hmax]
  generalize max (speed sq g q a.bath a.sp n) (speed sq g r a.bath a.sp n) = lam
  ext <;> simp only [fnIn, fnEx, pe, opp, Q.smul, add_ze, add_qx, add_qy, sub_ze, sub_qx, sub_qy, neg_ze, neg_qx, neg_qy, ha, hb, hab] <;> ring

/-- Negation for other projection factors: fluxes computed from both sides do not cancel. -/
theorem llf_not_conservative (sq : K → K) (g : K) (q r : Q K) (a : Aux K) (n : P2 K) (h : (a.sp - 1) * n.x * (q.qx - r.qx) ≠ 0) :
    (llf sq g r q a (opp n)).ze ≠ -(llf sq g q r a n).ze := by
  have hmax : max (speed sq g r a.bath a.sp (opp n)) (speed sq g q a.bath a.sp (opp n)) =
      max (speed sq g q a.bath a.sp n) (speed sq g r a.bath a.sp n) := by
    rw [speed_opp, speed_opp, max_comm]
  unfold llf
  rw [hmax]
  generalize max (speed sq g q a.bath a.sp n) (speed sq g r a.bath a.sp n) = lam
  simp only [fnIn, fnEx, pe, opp, Q.smul, add_ze, sub_ze]
  intro he
  exact h (by linear_combination 2 * he)

/-! ### C45 -/

/-- The mirror state: same level and depth, opposite normal discharge, same tangential discharge; an involution. -/
theorem land_mirror (n : P2 K) (hn : Unit n) (q : Q K) :
    (landEx n q).ze = q.ze ∧ normalPart (landEx n q) n = -normalPart q n ∧
    (landEx n q).qx * (-n.y) + (landEx n q).qy * n.x = q.qx * (-n.y) + q.qy * n.x ∧
    (landEx n q).qx ^ 2 + (landEx n q).qy ^ 2 = q.qx ^ 2 + q.qy ^ 2 ∧ landEx n (landEx n q) = q := by
  unfold Unit at hn
  have hy : n.y ^ 2 = 1 - n.x ^ 2 := by linear_combination hn
  refine ⟨rfl, ?_, ?_, ?_, ?_⟩
  · simp only [landEx, normalPart]
    linear_combination -(q.qx * n.x + q.qy * n.y) * hn
  · simp only [landEx]
    linear_combination (q.qx * (-n.y) + q.qy * n.x) * hn
  · simp only [landEx]
    have : ((-(q.qx * n.x + q.qy * n.y)) * n.x + (q.qx * (-n.y) + q.qy * n.x) * (-n.y)) ^ 2 +
      ((-(q.qx * n.x + q.qy * n.y)) * n.y + (q.qx * (-n.y) + q.qy * n.x) * n.x) ^ 2 = (q.qx ^ 2 + q.qy ^ 2) * (n.x ^ 2 + n.y ^ 2) ^ 2 := by ring
    rw [this, hn]
    ring
  · ext
    · rfl
    · simp only [landEx]
      have : ∀ s : K, s = n.x ^ 2 + n.y ^ 2 → q.qx * s ^ 2 = q.qx := fun s hs => by rw [hs, hn]; ring
      have := this _ rfl
      linear_combination this
    · simp only [landEx]
      have : q.qy * (n.x ^ 2 + n.y ^ 2) ^ 2 = q.qy := by rw [hn]; ring
      linear_combination this

theorem speed_land (sq : K → K) (g : K) (q : Q K) (bath sp : K) (n : P2 K) (hn : Unit n) :
    speed sq g (landEx n q) bath sp n = speed sq g q bath sp n := by
  obtain ⟨h1, h2, _⟩ := land_mirror n hn q
  unfold normalPart at h2
  unfold speed
  rw [h1]
  have e : (landEx n q).qx / (q.ze + bath) * n.x + (landEx n q).qy / (q.ze + bath) * n.y = -(q.qx / (q.ze + bath) * n.x + q.qy / (q.ze + bath) * n.y) := by
    have : (landEx n q).qx / (q.ze + bath) * n.x + (landEx n q).qy / (q.ze + bath) * n.y =
      ((landEx n q).qx * n.x + (landEx n q).qy * n.y) / (q.ze + bath) := by ring
    rw [this, h2]
    ring
  rw [e, abs_neg]

/-- The flux through a land boundary for projection factor one: no mass, and momentum in the direction of the normal only, namely the
pressure plus a term that vanishes if the water does not flow towards or away from the wall. -/
theorem land_flux (sq : K → K) (g : K) (q : Q K) (a : Aux K) (hsp : a.sp = 1) (n : P2 K) (hn : Unit n) :
    (landFlux sq g q a n).ze = 0 ∧
    (landFlux sq g q a n).qx = (g * (q.ze ^ 2 / 2 + q.ze * a.bath) +
      (normalPart q n / (q.ze + a.bath) + speed sq g q a.bath 1 n) * normalPart q n) * n.x ∧
    (landFlux sq g q a n).qy = (g * (q.ze ^ 2 / 2 + q.ze * a.bath) +
      (normalPart q n / (q.ze + a.bath) + speed sq g q a.bath 1 n) * normalPart q n) * n.y := by
  unfold landFlux llf
  rw [speed_land sq g q a.bath a.sp n hn, max_self, hsp]
  generalize speed sq g q a.bath 1 n = lam
  unfold Unit at hn
  have hz : (landEx n q).ze = q.ze := rfl
  have hx : (landEx n q).qx = q.qx - 2 * (q.qx * n.x + q.qy * n.y) * n.x := by
    simp only [landEx]
    linear_combination q.qx * hn
  have hy : (landEx n q).qy = q.qy - 2 * (q.qx * n.x + q.qy * n.y) * n.y := by
    simp only [landEx]
    linear_combination q.qy * hn
  refine ⟨?_, ?_, ?_⟩
  · simp only [fnIn, fnEx, Q.smul, add_ze, sub_ze, hz, hx, hy]
    linear_combination -(q.qx * n.x + q.qy * n.y) * hn
  · simp only [fnIn, fnEx, pe, Q.smul, add_qx, sub_qx, hz, hx, hy, normalPart]
    generalize q.ze + a.bath = h
    linear_combination ((2 * n.x * (q.qx * n.x + q.qy * n.y) - q.qx) * (q.qx * n.x + q.qy * n.y) / h) * hn
  · simp only [fnIn, fnEx, pe, Q.smul, add_qy, sub_qy, hz, hx, hy, normalPart]
    generalize q.ze + a.bath = h
    linear_combination ((2 * n.y * (q.qx * n.x + q.qy * n.y) - q.qy) * (q.qx * n.x + q.qy * n.y) / h) * hn

/-- C45 for projection factor one. Missing: other factors (`land_leaks`); and that the momentum flux is the pressure also if the state has
discharge through the wall (`land_momentum`), both false. -/
theorem land_impermeable_partial (sq : K → K) (g : K) (q : Q K) (a : Aux K) (hsp : a.sp = 1) (n : P2 K) (hn : Unit n) :
    (landFlux sq g q a n).ze = 0 ∧
    (landFlux sq g q a n).qx * (-n.y) + (landFlux sq g q a n).qy * n.x = 0 ∧
    (normalPart q n = 0 → (landFlux sq g q a n).qx = pe g q a.bath * n.x ∧ (landFlux sq g q a n).qy = pe g q a.bath * n.y) := by
  obtain ⟨h1, h2, h3⟩ := land_flux sq g q a hsp n hn
  refine ⟨h1, ?_, fun hq => ?_⟩
  · rw [h2, h3]; ring
  · rw [h2, h3, hq]; simp [pe]

/-- Negation of C45 for other projection factors: water passes the wall. -/
theorem land_leaks (sq : K → K) (g : K) (q : Q K) (a : Aux K) (n : P2 K) (hn : Unit n) : (landFlux sq g q a n).ze = (a.sp - 1) / 2 * (q.qx * n.x) := by
  unfold Unit at hn
  simp only [landFlux, llf, fnIn, fnEx, Q.smul, add_ze, sub_ze, landEx]
  linear_combination (-(q.qx * n.x + q.qy * n.y) / 2) * hn

/-! ### C43, interfaces -/

theorem fluxTol_pos : (0 : K) < fluxTol := by unfold fluxTol; positivity

/-- C43: mass exchange at an interface, for projection factor one. The mass fluxes used on both sides are opposite; with both sides wet all
fluxes are; a dry side never gives water away (up to the tolerance); if water would have to flow out of a dry element, no mass is exchanged. -/
theorem internal_mass_partial (sq : K → K) (g : K) (i e : Side K) (hi : i.aux.sp = 1) (he : e.aux.sp = 1) (hni : Unit i.n) (hne : Unit e.n) :
    (internal sq g i e).2.ze = -(internal sq g i e).1.ze ∧
    (i.wet = true → e.wet = true → (internal sq g i e).1 = llf sq g i.q e.q i.aux i.n ∧ (internal sq g i e).2 = -(internal sq g i e).1) ∧
    (i.wet = false → (internal sq g i e).1.ze ≤ 1 / 10 ^ 12) ∧ (e.wet = false → (internal sq g i e).2.ze ≤ 1 / 10 ^ 12) := by
  have ht := fluxTol_pos (K := K)
  have hti := (land_impermeable_partial sq g i.q i.aux hi i.n hni).1
  have hte := (land_impermeable_partial sq g e.q e.aux he e.n hne).1
  have htol : (1 : K) / 10 ^ 12 = fluxTol := rfl
  rw [htol]
  unfold internal
  simp only
  generalize hf : llf sq g i.q e.q i.aux i.n = f
  by_cases h1 : f.ze > fluxTol
  · rw [if_pos h1]
    cases hwi : i.wet with
    | false =>
      refine ⟨?_, (fun h => by cases h), fun _ => ?_, fun _ => ?_⟩
      · simp [hte]
      · simp [ht.le]
      · simp [hte, ht.le]
    | true =>
      cases hwe : e.wet with
      | false => refine ⟨?_, (fun _ h => by cases h), (fun h => by cases h), fun _ => ?_⟩ <;> simp; linarith
      | true => exact ⟨by simp, fun _ _ => by simp, (fun h => by cases h), fun h => by cases h⟩
  · rw [if_neg h1]
    by_cases h2 : f.ze < -fluxTol
    · rw [if_pos h2]
      cases hwe : e.wet with
      | false =>
        refine ⟨?_, (fun _ h => by cases h), fun _ => ?_, fun _ => ?_⟩
        · simp [hti]
        · simp [hti, ht.le]
        · simp [ht.le]
      | true =>
        cases hwi : i.wet with
        | false => refine ⟨?_, (fun h => by cases h), fun _ => ?_, (fun h => by cases h)⟩ <;> simp; linarith
        | true => exact ⟨by simp, fun _ _ => by simp, (fun h => by cases h), fun h => by cases h⟩
    · rw [if_neg h2]
      push Not at h1 h2
      refine ⟨by simp, fun _ _ => by simp, fun _ => h1, fun _ => ?_⟩
      simp only [neg_ze]
      linarith

/-- The reflective cases, in which neither side exchanges mass. -/
theorem internal_reflective (sq : K → K) (g : K) (i e : Side K) (hi : i.aux.sp = 1) (he : e.aux.sp = 1) (hni : Unit i.n) (hne : Unit e.n)
    (h : (i.wet = false ∧ (llf sq g i.q e.q i.aux i.n).ze > 1 / 10 ^ 12) ∨ (e.wet = false ∧ (llf sq g i.q e.q i.aux i.n).ze < -(1 / 10 ^ 12))) :
    (internal sq g i e).1.ze = 0 ∧ (internal sq g i e).2.ze = 0 := by
  have ht := fluxTol_pos (K := K)
  have htol : (1 : K) / 10 ^ 12 = fluxTol := rfl
  rw [htol] at h
  rcases h with ⟨hw, hf⟩ | ⟨hw, hf⟩
  · unfold internal
    simp only
    rw [if_pos hf, hw]
    exact ⟨rfl, (land_impermeable_partial sq g e.q e.aux he e.n hne).1⟩
  · unfold internal
    simp only
    rw [if_neg (by linarith), if_pos hf, hw]
    exact ⟨(land_impermeable_partial sq g i.q i.aux hi i.n hni).1, rfl⟩

/-- For other projection factors the serial interface is still exact unless it reflects. -/
theorem internal_mass_general (sq : K → K) (g : K) (i e : Side K) (hw : i.wet = true ∧ e.wet = true ∨
    (i.wet = true ∧ 0 ≤ (llf sq g i.q e.q i.aux i.n).ze) ∨ (e.wet = true ∧ (llf sq g i.q e.q i.aux i.n).ze ≤ 0)) :
    (internal sq g i e).2.ze = -(internal sq g i e).1.ze := by
  have ht := fluxTol_pos (K := K)
  unfold internal
  simp only
  revert hw
  generalize llf sq g i.q e.q i.aux i.n = f
  intro hw
  by_cases h1 : f.ze > fluxTol
  · rw [if_pos h1]
    have : i.wet = true := by
      rcases hw with h | h | h
      · exact h.1
      · exact h.1
      · linarith [h.2]
    rw [this]
    cases e.wet <;> simp
  · rw [if_neg h1]
    by_cases h2 : f.ze < -fluxTol
    · rw [if_pos h2]
      have : e.wet = true := by
        rcases hw with h | h | h
        · exact h.2
        · linarith [h.2]
        · exact h.1
      rw [this]
      cases i.wet <;> simp
    · rw [if_neg h2]
      simp

/-! ### C44 -/

/-- The interior side of a split interface: same flux as in the serial run. -/
theorem distributed_in (sq : K → K) (g : K) (i e : Side K) : distributed sq g i e.q e.wet = (internal sq g i e).1 := by
  have ht := fluxTol_pos (K := K)
  unfold distributed internal
  simp only
  generalize llf sq g i.q e.q i.aux i.n = f
  by_cases h1 : f.ze > fluxTol
  · rw [if_pos h1, if_pos h1]
    cases i.wet <;> cases e.wet <;> simp
  · rw [if_neg h1, if_neg h1]
    by_cases h2 : f.ze < -fluxTol
    · rw [if_pos h2, if_pos h2]
      cases i.wet <;> cases e.wet <;> simp
    · rw [if_neg h2, if_neg h2]

/-- The exterior side, for projection factor one, opposite normals and continuous bathymetry. -/
theorem distributed_ex (sq : K → K) (g : K) (i e : Side K) (hi : i.aux.sp = 1) (he : e.aux.sp = 1) (hb : i.aux.bath = e.aux.bath)
    (hn : e.n = opp i.n) : distributed sq g e i.q i.wet = (internal sq g i e).2 := by
  have ht := fluxTol_pos (K := K)
  have hc : llf sq g e.q i.q e.aux e.n = -llf sq g i.q e.q i.aux i.n := by
    rw [hn]
    exact llf_conservative sq g i.q e.q i.aux e.aux hi he hb i.n
  unfold distributed internal
  rw [hc]
  simp only
  generalize llf sq g i.q e.q i.aux i.n = f
  simp only [neg_ze]
  by_cases h1 : f.ze > fluxTol
  · rw [if_pos h1, if_neg (by linarith), if_pos (by linarith)]
    cases i.wet <;> cases e.wet <;> simp
  · rw [if_neg h1]
    by_cases h2 : f.ze < -fluxTol
    · rw [if_pos h2, if_pos (by linarith)]
      cases i.wet <;> cases e.wet <;> simp
    · push Not at h1 h2
      rw [if_neg (by linarith), if_neg (by linarith), if_neg (by linarith)]

omit [LinearOrder K] [IsStrictOrderedRing K] in
theorem encode_length (w : Bool) (qs : List (Q K)) : (encode w qs).length = 1 + 3 * qs.length := by
  unfold encode
  rw [List.length_cons]
  induction qs with
  | nil => rfl
  | cons a l ih => simp only [List.flatMap_cons, List.length_append, List.length_cons, List.length_nil]; omega

omit [LinearOrder K] [IsStrictOrderedRing K] in
theorem encode_get (w : Bool) (qs : List (Q K)) (k : ℕ) (q : Q K) (h : qs[k]? = some q) :
    (encode w qs)[1 + 3 * k + 0]? = some q.ze ∧ (encode w qs)[1 + 3 * k + 1]? = some q.qx ∧ (encode w qs)[1 + 3 * k + 2]? = some q.qy := by
  unfold encode
  have hs : ∀ j, ((if w then 1 else 0) :: qs.flatMap fun q => [q.ze, q.qx, q.qy] : List K)[1 + 3 * k + j]? =
      (qs.flatMap fun q => [q.ze, q.qx, q.qy])[3 * k + j]? := by
    intro j
    rw [show 1 + 3 * k + j = 3 * k + j + 1 by omega, List.getElem?_cons_succ]
  rw [hs, hs, hs]
  clear hs
  induction qs generalizing k with
  | nil => simp at h
  | cons a l ih =>
    cases k with
    | zero =>
      simp only [List.getElem?_cons_zero, Option.some.injEq] at h
      subst h
      simp
    | succ k =>
      rw [List.getElem?_cons_succ] at h
      have := ih k h
      simp only [List.flatMap_cons]
      refine ⟨?_, ?_, ?_⟩
      · rw [show 3 * (k + 1) + 0 = 3 * k + 0 + 1 + 1 + 1 by omega]
        simpa using this.1
      · rw [show 3 * (k + 1) + 1 = 3 * k + 1 + 1 + 1 + 1 by omega]
        simpa using this.2.1
      · rw [show 3 * (k + 1) + 2 = 3 * k + 2 + 1 + 1 + 1 by omega]
        simpa using this.2.2

/-- The message carries the wet flag and every state; states are stored in reversed order. -/
theorem decode_encode (w : Bool) (qs : List (Q K)) (j : ℕ) (hj : j < qs.length) :
    decodeWet (encode w qs) = .ok w ∧ decodeQ qs.length (encode w qs) j = .ok (qs[qs.length - j - 1]'(by omega)) := by
  constructor
  · unfold decodeWet encode idx
    cases w <;> simp
  · have := encode_get w qs (qs.length - j - 1) _ (List.getElem?_eq_getElem (by omega))
    unfold decodeQ idx
    simp only
    rw [this.1, this.2.1, this.2.2]
    rfl

theorem res_bind {α β : Type} (a : α) (f : α → Res β) : ((Except.ok a : Res α) >>= f) = f a := rfl

/-- Sides of a face at corresponding Gauss points of two elements: the exterior element numbers them the other way round. -/
structure Split (K : Type) [Field K] where
  ngp : ℕ
  inn : ℕ → Side K
  ext : ℕ → Side K
  wetIn : Bool
  wetEx : Bool
  hwi : ∀ j, (inn j).wet = wetIn
  hwe : ∀ j, (ext j).wet = wetEx
  sp_in : ∀ j, (inn j).aux.sp = 1
  sp_ex : ∀ j, (ext j).aux.sp = 1
  bath : ∀ j, j < ngp → (inn j).aux.bath = (ext (ngp - j - 1)).aux.bath
  normal : ∀ j, j < ngp → (ext (ngp - j - 1)).n = opp (inn j).n

/-- The message each side sends. -/
def Split.fromEx (s : Split K) : List K := encode s.wetEx ((List.range s.ngp).map fun j => (s.ext j).q)
def Split.fromIn (s : Split K) : List K := encode s.wetIn ((List.range s.ngp).map fun j => (s.inn j).q)

theorem decode_range (w : Bool) (n : ℕ) (q : ℕ → Q K) (j : ℕ) (hj : j < n) :
    decodeWet (encode w ((List.range n).map q)) = .ok w ∧ decodeQ n (encode w ((List.range n).map q)) j = .ok (q (n - j - 1)) := by
  have := decode_encode w ((List.range n).map q) j (by simpa using hj)
  simp only [List.length_map, List.length_range, List.getElem_map, List.getElem_range] at this
  exact this

/-- C44: on an interface split across ranks both sides compute, from their own data and the received message, the fluxes of the serial
routine, for all wet/dry combinations and numbers of Gauss points. Missing: projection factors other than one, for which the property is
false, see `distributed_differs`. -/
theorem split_interface_partial (sq : K → K) (g : K) (s : Split K) (j : ℕ) (hj : j < s.ngp) :
    distributedAt sq g s.ngp (s.inn j) s.fromEx j = .ok ((interfaceAt (internal sq g) (s.inn j) (s.ext (s.ngp - j - 1))).map Prod.fst) ∧
    distributedAt sq g s.ngp (s.ext (s.ngp - j - 1)) s.fromIn (s.ngp - j - 1) =
      .ok ((interfaceAt (internal sq g) (s.inn j) (s.ext (s.ngp - j - 1))).map Prod.snd) := by
  constructor
  · obtain ⟨h1, h2⟩ := decode_range s.wetEx s.ngp (fun j => (s.ext j).q) j hj
    unfold distributedAt Split.fromEx
    rw [h1, h2]
    unfold interfaceAt
    rw [s.hwe, s.hwi]
    have := distributed_in sq g (s.inn j) (s.ext (s.ngp - j - 1))
    rw [s.hwe] at this
    simp only [res_bind]
    by_cases h : (s.wetIn || s.wetEx) = true
    · rw [if_pos h, if_pos h, this]
      rfl
    · rw [if_neg h, if_neg h]
      rfl
  · obtain ⟨h1, h2⟩ := decode_range s.wetIn s.ngp (fun j => (s.inn j).q) (s.ngp - j - 1) (by omega)
    have e : s.ngp - (s.ngp - j - 1) - 1 = j := by omega
    rw [e] at h2
    unfold distributedAt Split.fromIn
    rw [h1, h2]
    unfold interfaceAt
    rw [s.hwe, s.hwi]
    have := distributed_ex sq g (s.inn j) (s.ext (s.ngp - j - 1)) (s.sp_in _) (s.sp_ex _) (s.bath j hj) (s.normal j hj)
    rw [s.hwi] at this
    simp only [res_bind, Bool.or_comm s.wetEx s.wetIn]
    by_cases h : (s.wetIn || s.wetEx) = true
    · rw [if_pos h, if_pos h, this]
      rfl
    · rw [if_neg h, if_neg h]
      rfl

/-- Negation of C44 for other projection factors: both sides wet, the exterior rank uses another mass flux than the serial routine, and the
two ranks together do not conserve mass. -/
theorem distributed_differs (sq : K → K) (g : K) (i e : Side K) (ha : e.aux = i.aux) (hn : e.n = opp i.n) (hi : i.wet = true) (he : e.wet = true)
    (h : (i.aux.sp - 1) * i.n.x * (i.q.qx - e.q.qx) ≠ 0) :
    (distributed sq g e i.q i.wet).ze ≠ (internal sq g i e).2.ze ∧ (distributed sq g i e.q e.wet).ze + (distributed sq g e i.q i.wet).ze ≠ 0 := by
  have h1 : ∀ (a b : Side K), a.wet = true → b.wet = true → (distributed sq g a b.q b.wet) = llf sq g a.q b.q a.aux a.n := by
    intro a b ha hb
    unfold distributed
    rw [ha, hb]
    simp
  have h2 : (internal sq g i e).2 = -llf sq g i.q e.q i.aux i.n := by
    unfold internal
    rw [hi, he]
    simp
  rw [h1 e i he hi, h1 i e hi he, h2, ha, hn]
  have := llf_not_conservative sq g i.q e.q i.aux i.n h
  refine ⟨this, fun hc => this ?_⟩
  linear_combination hc

/-! ### C46 -/

theorem hTol_pos : (0 : K) < hTol := by unfold hTol; positivity

/-- Mass flux of the numerical flux against a state of the same level. -/
theorem llf_mass (sq : K → K) (g : K) (q r : Q K) (a : Aux K) (ha : a.sp = 1) (n : P2 K) (h : q.ze = r.ze) :
    (llf sq g q r a n).ze = (normalPart q n + normalPart r n) / 2 := by
  simp only [llf, fnIn, fnEx, Q.smul, add_ze, sub_ze, normalPart, ha, h]
  ring

/-- Below the crest, and with levels that are nearly equal, nothing passes. -/
theorem levee_closed (sq : K → K) (g : K) (l : LeveeGp K) (i e : Side K) (hi : i.aux.sp = 1) (he : e.aux.sp = 1) (hni : Unit i.n) (hne : Unit e.n)
    (h : (i.q.ze - l.H ≤ 1 / 100 ∧ e.q.ze - l.H ≤ 1 / 100) ∨ |i.q.ze - e.q.ze| ≤ 1 / 100) :
    (levee sq g l i e).1.ze = 0 ∧ (levee sq g l i e).2.ze = 0 := by
  have hcond : (i.q.ze - l.H ≤ hTol ∧ e.q.ze - l.H ≤ hTol) ∨ |i.q.ze - l.H - (e.q.ze - l.H)| ≤ hTol := by
    unfold hTol
    rw [show i.q.ze - l.H - (e.q.ze - l.H) = i.q.ze - e.q.ze by ring]
    exact h
  unfold levee leveeEx
  simp only
  rw [if_pos hcond]
  exact ⟨(land_impermeable_partial sq g i.q i.aux hi i.n hni).1, (land_impermeable_partial sq g e.q e.aux he e.n hne).1⟩

/-- With equal coefficients the weir discharge is the largest that `x * sqrt(2g(hi - x))` reaches for a depth `x` over the crest between the lower
level and the higher one. -/
theorem weir_max {sq : K → K} (hs : Verif.Geometry.Props.IsSqrt sq) {g : K} (hg : 0 < g) (l : LeveeGp K) (hC : 0 ≤ l.Csub) (hCC : l.Csuper = l.Csub) {hi lo : K}
    (hhi : 0 < hi) (hlo : lo ≤ hi) :
    (∀ x, lo ≤ x → 0 ≤ x → x ≤ hi → l.Csub * (x * sq (2 * g * (hi - x))) ≤ overtopping sq g l hi lo) ∧
    ∃ x, lo ≤ x ∧ 0 ≤ x ∧ x ≤ hi ∧ overtopping sq g l hi lo = l.Csub * (x * sq (2 * g * (hi - x))) := by
  have e0 : g * (2 * hi / 3) = 2 * g * (hi - 2 * hi / 3) := by field_simp; ring
  have hmax : overtopping sq g l hi lo = l.Csub * (max lo (2 * hi / 3) * sq (2 * g * (hi - max lo (2 * hi / 3)))) := by
    unfold overtopping
    split_ifs with h
    · rw [max_eq_left (le_of_lt h)]; ring
    · rw [max_eq_right (not_lt.mp h), hCC, ← e0]; ring
  have hy0 : 0 ≤ max lo (2 * hi / 3) := le_trans (by positivity) (le_max_right _ _)
  have hy1 : max lo (2 * hi / 3) ≤ hi := max_le hlo (by linarith)
  refine ⟨fun x h1 h2 h3 => ?_, _, le_max_left _ _, hy0, hy1, hmax⟩
  rw [hmax]
  apply mul_le_mul_of_nonneg_left _ hC
  have hpoly : x ^ 2 * (hi - x) ≤ max lo (2 * hi / 3) ^ 2 * (hi - max lo (2 * hi / 3)) := by
    obtain ⟨a, rfl⟩ : ∃ a, hi = 3 * a := ⟨hi / 3, by field_simp⟩
    rcases le_total lo (2 * (3 * a) / 3) with h | h
    · rw [max_eq_right h, show 2 * (3 * a) / 3 = 2 * a by field_simp]
      nlinarith [mul_nonneg (sq_nonneg (x - 2 * a)) (by linarith : 0 ≤ x + a)]
    · rw [max_eq_left h]
      rw [show 2 * (3 * a) / 3 = 2 * a by field_simp] at h
      have hxa : 2 * a ≤ x := le_trans h h1
      have k1 : 0 ≤ x * (x - 2 * a) := mul_nonneg h2 (by linarith)
      have k2 : 0 ≤ lo * (lo - 2 * a) := mul_nonneg (by linarith) (by linarith)
      have k3 : 0 ≤ (x - 2 * a) * lo := mul_nonneg (by linarith) (by linarith)
      have k4 : 0 ≤ (lo - 2 * a) * x := mul_nonneg (by linarith) h2
      nlinarith [mul_nonneg (by linarith : 0 ≤ x - lo) (by linarith : 0 ≤ x * (x - 2 * a) + lo * (lo - 2 * a) + ((x - 2 * a) * lo + (lo - 2 * a) * x) / 2)]
  obtain ⟨s0, s1⟩ := hs (2 * g * (hi - x)) (mul_nonneg (by linarith) (by linarith))
  obtain ⟨t0, t1⟩ := hs (2 * g * (hi - max lo (2 * hi / 3))) (mul_nonneg (by linarith) (by linarith))
  apply le_of_sq_le_sq _ (mul_nonneg hy0 t0)
  rw [mul_pow, mul_pow, pow_two (sq _), pow_two (sq _), s1, t1]
  nlinarith [mul_le_mul_of_nonneg_left hpoly (by linarith : 0 ≤ 2 * g)]

/-- The two regimes of the weir formula, with their own coefficients. -/
theorem weir_regimes {sq : K → K} (hs : Verif.Geometry.Props.IsSqrt sq) {g : K} (hg : 0 < g) (l : LeveeGp K) {hi lo : K} (hhi : 0 < hi) (hlo : lo ≤ hi) :
    (2 * hi < 3 * lo → overtopping sq g l hi lo ^ 2 = 2 * g * l.Csub ^ 2 * lo ^ 2 * (hi - lo)) ∧
    (3 * lo ≤ 2 * hi → overtopping sq g l hi lo ^ 2 = g * l.Csuper ^ 2 * (2 * hi / 3) ^ 3) := by
  unfold overtopping
  constructor
  · intro h
    rw [if_pos (by linarith)]
    have := (hs (2 * g * (hi - lo)) (mul_nonneg (by linarith) (by linarith))).2
    rw [mul_pow, pow_two (sq _), this]; ring
  · intro h
    rw [if_neg (by linarith)]
    have := (hs (g * (2 * hi / 3)) (by positivity)).2
    rw [mul_pow, pow_two (sq _), this]; ring

/-- Discharge over the crest prescribed by the weir formula, in the direction of the interior normal. -/
def weir (sq : K → K) (g : K) (l : LeveeGp K) (zi ze : K) : K :=
  if zi > ze then overtopping sq g l (zi - l.H) (ze - l.H) else -overtopping sq g l (ze - l.H) (zi - l.H)

/-- Overtopping: the mass flux of each side is the mean of its own normal discharge and the weir discharge. The two sides therefore lose
water at the rate of half the difference of their own normal discharges. Missing for C46: this difference is not zero in general
(`levee_mass_lost`). -/
theorem levee_mass_partial (sq : K → K) (g : K) (l : LeveeGp K) (i e : Side K) (hi : i.aux.sp = 1) (he : e.aux.sp = 1) (hni : Unit i.n)
    (hn : e.n = opp i.n) (h : ¬((i.q.ze - l.H ≤ 1 / 100 ∧ e.q.ze - l.H ≤ 1 / 100) ∨ |i.q.ze - e.q.ze| ≤ 1 / 100)) :
    (levee sq g l i e).1.ze = (normalPart i.q i.n + weir sq g l i.q.ze e.q.ze) / 2 ∧
    (levee sq g l i e).2.ze = -(normalPart e.q i.n + weir sq g l i.q.ze e.q.ze) / 2 := by
  have hcond : ¬((i.q.ze - l.H ≤ hTol ∧ e.q.ze - l.H ≤ hTol) ∨ |i.q.ze - l.H - (e.q.ze - l.H)| ≤ hTol) := by
    unfold hTol
    rw [show i.q.ze - l.H - (e.q.ze - l.H) = i.q.ze - e.q.ze by ring]
    exact h
  have hx : e.n.x = -i.n.x := by rw [hn]; rfl
  have hy : e.n.y = -i.n.y := by rw [hn]; rfl
  unfold Unit at hni
  unfold levee leveeEx weir
  simp only
  rw [if_neg hcond]
  by_cases h1 : i.q.ze > e.q.ze
  · rw [if_pos (by linarith : i.q.ze - l.H > e.q.ze - l.H), if_pos h1]
    constructor
    · dsimp only
      rw [llf_mass (h := by rfl) (ha := hi)]
      simp only [normalPart]
      linear_combination (overtopping sq g l (i.q.ze - l.H) (e.q.ze - l.H) / 2) * hni
    · dsimp only
      rw [llf_mass (h := by rfl) (ha := he)]
      simp only [normalPart, hx, hy]
      linear_combination (-overtopping sq g l (i.q.ze - l.H) (e.q.ze - l.H) / 2) * hni
  · rw [if_neg (by linarith : ¬i.q.ze - l.H > e.q.ze - l.H), if_neg h1]
    constructor
    · dsimp only
      rw [llf_mass (h := by rfl) (ha := hi)]
      simp only [normalPart, hx, hy]
      linear_combination (-overtopping sq g l (e.q.ze - l.H) (i.q.ze - l.H) / 2) * hni
    · dsimp only
      rw [llf_mass (h := by rfl) (ha := he)]
      simp only [normalPart, hx, hy]
      linear_combination (overtopping sq g l (e.q.ze - l.H) (i.q.ze - l.H) / 2) * hni

/-- Negation of C46: whenever a levee is overtopped and the sides have different normal discharges, water is created or lost. -/
theorem levee_mass_lost (sq : K → K) (g : K) (l : LeveeGp K) (i e : Side K) (hi : i.aux.sp = 1) (he : e.aux.sp = 1) (hni : Unit i.n)
    (hn : e.n = opp i.n) (h : ¬((i.q.ze - l.H ≤ 1 / 100 ∧ e.q.ze - l.H ≤ 1 / 100) ∨ |i.q.ze - e.q.ze| ≤ 1 / 100)) :
    (levee sq g l i e).1.ze + (levee sq g l i e).2.ze = (normalPart i.q i.n - normalPart e.q i.n) / 2 := by
  obtain ⟨h1, h2⟩ := levee_mass_partial sq g l i e hi he hni hn h
  rw [h1, h2]
  ring

/-- Both sides of a levee split across ranks compute the fluxes of the serial routine (any projection factor). -/
theorem distributed_levee_same (sq : K → K) (g : K) (l : LeveeGp K) (i e : Side K) (hn : e.n = opp i.n) :
    distributedLevee sq g l i e.q = (levee sq g l i e).1 ∧ distributedLevee sq g l e i.q = (levee sq g l i e).2 := by
  have ht := hTol_pos (K := K)
  have hx : e.n.x = -i.n.x := by rw [hn]; rfl
  have hy : e.n.y = -i.n.y := by rw [hn]; rfl
  unfold distributedLevee levee leveeEx
  simp only
  by_cases hc : (i.q.ze - l.H ≤ hTol ∧ e.q.ze - l.H ≤ hTol) ∨ |i.q.ze - l.H - (e.q.ze - l.H)| ≤ hTol
  · have hc' : (e.q.ze - l.H ≤ hTol ∧ i.q.ze - l.H ≤ hTol) ∨ |e.q.ze - l.H - (i.q.ze - l.H)| ≤ hTol := by
      rw [abs_sub_comm, and_comm]
      exact hc
    rw [if_pos hc, if_pos hc, if_pos hc']
    exact ⟨rfl, rfl⟩
  · have hc' : ¬((e.q.ze - l.H ≤ hTol ∧ i.q.ze - l.H ≤ hTol) ∨ |e.q.ze - l.H - (i.q.ze - l.H)| ≤ hTol) := by
      rw [abs_sub_comm, and_comm]
      exact hc
    rw [if_neg hc, if_neg hc, if_neg hc']
    have hne : i.q.ze - l.H ≠ e.q.ze - l.H := by
      intro heq
      apply hc
      right
      rw [heq, sub_self, abs_zero]
      exact ht.le
    by_cases h1 : i.q.ze - l.H > e.q.ze - l.H
    · rw [if_pos h1, if_pos h1, if_neg (by linarith : ¬e.q.ze - l.H > i.q.ze - l.H)]
      refine ⟨rfl, ?_⟩
      simp only [hx, hy]
      congr 2 <;> ring
    · have h2 : e.q.ze - l.H > i.q.ze - l.H := lt_of_le_of_ne (not_lt.mp h1) hne
      rw [if_neg h1, if_neg h1, if_pos h2]
      refine ⟨?_, rfl⟩
      simp only [hx, hy]
      congr 2 <;> ring

/-- The same through the messages, for a levee whose data agree at corresponding Gauss points of both sides. -/
theorem split_levee (sq : K → K) (g : K) (s : Split K) (lin lex : ℕ → LeveeGp K) (hl : ∀ j, j < s.ngp → lex (s.ngp - j - 1) = lin j) (j : ℕ) (hj : j < s.ngp) :
    distributedLeveeAt sq g s.ngp (lin j) (s.inn j) s.fromEx j = .ok ((interfaceAt (levee sq g (lin j)) (s.inn j) (s.ext (s.ngp - j - 1))).map Prod.fst) ∧
    distributedLeveeAt sq g s.ngp (lex (s.ngp - j - 1)) (s.ext (s.ngp - j - 1)) s.fromIn (s.ngp - j - 1) =
      .ok ((interfaceAt (levee sq g (lin j)) (s.inn j) (s.ext (s.ngp - j - 1))).map Prod.snd) := by
  have hs := distributed_levee_same sq g (lin j) (s.inn j) (s.ext (s.ngp - j - 1)) (s.normal j hj)
  constructor
  · obtain ⟨h1, h2⟩ := decode_range s.wetEx s.ngp (fun j => (s.ext j).q) j hj
    unfold distributedLeveeAt Split.fromEx
    rw [h1, h2]
    unfold interfaceAt
    rw [s.hwe, s.hwi]
    simp only [res_bind]
    by_cases h : (s.wetIn || s.wetEx) = true
    · rw [if_pos h, if_pos h, hs.1]
      rfl
    · rw [if_neg h, if_neg h]
      rfl
  · obtain ⟨h1, h2⟩ := decode_range s.wetIn s.ngp (fun j => (s.inn j).q) (s.ngp - j - 1) (by omega)
    have e : s.ngp - (s.ngp - j - 1) - 1 = j := by omega
    rw [e] at h2
    unfold distributedLeveeAt Split.fromIn
    rw [h1, h2]
    unfold interfaceAt
    rw [s.hwe, s.hwi, hl j hj]
    simp only [res_bind, Bool.or_comm s.wetEx s.wetIn]
    by_cases h : (s.wetIn || s.wetEx) = true
    · rw [if_pos h, if_pos h, hs.2]
      rfl
    · rw [if_neg h, if_neg h]
      rfl

/-! ### C62 -/

omit [LinearOrder K] [IsStrictOrderedRing K] in
/-- The accumulated forcing is the ramped harmonic sum. -/
theorem forcing_sum (cos : K → K) (pi ramp t : K) (cs : List (Constituent K)) :
    forcing cos pi ramp t cs = ramp * (cs.map fun c => c.ff * c.amp * cos (c.freq * t + (c.eq - c.phase) * pi / 180)).sum := by
  have h : ∀ s : K, cs.foldl (fun s c => s + ramp * c.ff * c.amp * cos (c.freq * t + (c.eq - c.phase) * pi / 180)) s =
      s + ramp * (cs.map fun c => c.ff * c.amp * cos (c.freq * t + (c.eq - c.phase) * pi / 180)).sum := by
    induction cs with
    | nil => intro s; simp
    | cons a l ih =>
      intro s
      rw [List.foldl_cons, ih, List.map_cons, List.sum_cons]
      ring
  unfold forcing
  rw [h 0, zero_add]

/-- C62: with H the ramped harmonic sum, a tide boundary imposes the level H and keeps the discharge; a flow boundary keeps the level and
imposes the outward discharge H without tangential part; its mass flux is the mean of the inner and the imposed discharge, hence H if the
inner state has this discharge. At ramp zero the imposed values are zero. -/
theorem open_boundaries (sq : K → K) (g : K) (cos : K → K) (pi ramp t : K) (cs : List (Constituent K)) (q : Q K) (a : Aux K) (hsp : a.sp = 1)
    (n : P2 K) (hn : Unit n) (H : K) (hH : H = ramp * (cs.map fun c => c.ff * c.amp * cos (c.freq * t + (c.eq - c.phase) * pi / 180)).sum) :
    tideEx cos pi ramp t cs q = ⟨H, q.qx, q.qy⟩ ∧
    (flowEx cos pi ramp t cs n q).ze = q.ze ∧ normalPart (flowEx cos pi ramp t cs n q) n = H ∧
    (flowEx cos pi ramp t cs n q).qx * (-n.y) + (flowEx cos pi ramp t cs n q).qy * n.x = 0 ∧
    (llf sq g q (flowEx cos pi ramp t cs n q) a n).ze = (normalPart q n + H) / 2 ∧ (ramp = 0 → H = 0) := by
  unfold Unit at hn
  have hf : forcing cos pi ramp t cs = H := by rw [forcing_sum, hH]
  have hp : normalPart (flowEx cos pi ramp t cs n q) n = H := by
    simp only [normalPart, flowEx, hf]
    linear_combination H * hn
  refine ⟨?_, rfl, hp, ?_, ?_, fun h => by rw [hH, h, zero_mul]⟩
  · simp only [tideEx, hf]
  · simp only [flowEx]; ring
  · rw [llf_mass (h := by rfl) (ha := hsp), hp]

example : forcing (fun _ => (1 : ℚ)) 3 (1 / 2) 7 [⟨1, 2, 3, 4, 5⟩, ⟨1, 1, 0, 6, 0⟩] = 7 := by decide +kernel

/-! ### Non-vacuity: evaluations over ℚ with an exact square root where needed -/

/-- A square root on the arguments that occur below. -/
def sqQ (x : ℚ) : ℚ := if x = 4 then 2 else if x = 1 then 1 else if x = 16 then 4 else 0

/-- Two wet sides: depth 4 and 1 with gravity 1, at rest: dam break flux. -/
example : internal sqQ 1 ⟨⟨0, 0, 0⟩, ⟨4, 4, 1⟩, ⟨1, 0⟩, true⟩ ⟨⟨-3, 0, 0⟩, ⟨4, 1, 1⟩, ⟨-1, 0⟩, true⟩ = (⟨3, -15 / 4, 0⟩, ⟨-3, 15 / 4, 0⟩) := by decide +kernel
/-- Flow into a dry side: mass opposite, momentum without gravity. -/
example : (internal sqQ 1 ⟨⟨0, 0, 0⟩, ⟨4, 4, 1⟩, ⟨1, 0⟩, true⟩ ⟨⟨-3, 0, 0⟩, ⟨4, 1, 1⟩, ⟨-1, 0⟩, false⟩).2 = ⟨-3, 0, 0⟩ := by decide +kernel
/-- Flow out of a dry side: reflected. -/
example : internal sqQ 1 ⟨⟨0, 0, 0⟩, ⟨4, 4, 1⟩, ⟨1, 0⟩, false⟩ ⟨⟨-3, 0, 0⟩, ⟨4, 1, 1⟩, ⟨-1, 0⟩, true⟩ = (⟨0, 0, 0⟩, ⟨0, 15 / 2, 0⟩) := by decide +kernel
/-- The consistency failure on numbers: projection factor 2. -/
example : (llf sqQ 1 ⟨0, 4, 0⟩ ⟨0, 4, 0⟩ ⟨4, 4, 2⟩ ⟨1, 0⟩).ze = 6 ∧ (physical 1 2 4 (⟨0, 4, 0⟩ : Q ℚ) ⟨1, 0⟩).ze = 8 := by decide +kernel
/-- The wall momentum flux is not the pressure (which is 0 here) if there is discharge towards the wall. -/
theorem land_momentum : (landFlux sqQ 1 ⟨0, 4, 0⟩ ⟨4, 4, 1⟩ ⟨1, 0⟩).qx = 16 ∧ pe (1 : ℚ) ⟨0, 4, 0⟩ 4 = 0 := by decide +kernel
/-- A levee overtopped from a side at rest to a side at rest; and with discharge on one side, where half of it is lost. -/
example : levee sqQ 1 ⟨-2, 1, 1⟩ ⟨⟨-1 / 2, 0, 0⟩, ⟨4, 4, 1⟩, ⟨1, 0⟩, true⟩ ⟨⟨-3, 0, 0⟩, ⟨4, 1, 1⟩, ⟨-1, 0⟩, true⟩ =
    (⟨1 / 2, -15 / 8, 0⟩, ⟨-1 / 2, 6, 0⟩) := by decide +kernel

/-- A split face with two Gauss points. -/
def splitExample : Split ℚ where
  ngp := 2
  inn := fun j => ⟨⟨0, j, 0⟩, ⟨4, 4, 1⟩, ⟨1, 0⟩, true⟩
  ext := fun j => ⟨⟨-3, 0, j⟩, ⟨4, 1, 1⟩, ⟨-1, 0⟩, false⟩
  wetIn := true
  wetEx := false
  hwi := fun _ => rfl
  hwe := fun _ => rfl
  sp_in := fun _ => rfl
  sp_ex := fun _ => rfl
  bath := fun _ _ => rfl
  normal := fun _ _ => by simp [opp]

example : splitExample.fromEx = [0, -3, 0, 0, -3, 0, 1] ∧
    distributedAt sqQ 1 2 (splitExample.inn 0) splitExample.fromEx 0 = .ok (some ⟨3, -15 / 4, -1⟩) := by decide +kernel

end Verif.Swe.Props
