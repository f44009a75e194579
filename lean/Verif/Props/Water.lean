import Verif.Props.SweMass
import Verif.Model.CodeNumerics
import Verif.Lemmas.TriIntegral
import Verif.Props.Dubiner
import Verif.Props.Quadrature

/-!
# C57, continued: what `water` is, the numerics of the program, and examples
-/

namespace Verif.Swe.Props
open Verif.Geometry Verif.Geometry.Props Verif.Element Verif.Stepper Verif.Tri

/-- Everything that is continuous in both variables and equal to `dub` off the collapsed vertex. -/
theorem phi_dub {pair : ℕ → ℕ × ℕ} {d : ℕ} (h : (pair d).1 + (pair d).2 ≤ 800) (x y : ℝ) (hy : y ≠ 1) :
    (dubiner pair).phi d (⟨x, y⟩ : P2 ℝ) = Basis.Props.dub (pair d).1 (pair d).2 x y := by
  rw [← Basis.Props.phi_eq_dub _ _ h x y hy]
  unfold dubiner
  congr

theorem dub_C2 (p q : ℕ) : C2 (Basis.Props.dub p q) := by
  have := C2_poly (Basis.Props.dubPoly p q)
  simpa only [Basis.Props.dubPoly_eval] using this

theorem dub_mean (p q : ℕ) (h : p + q ≤ 800) : I2 (Basis.Props.dub p q) = if p = 0 ∧ q = 0 then 2 else 0 := by
  have h1 := Basis.Props.mean_is_coeff p q h
  have h2 : I2 (fun x y => Basis.phi p q (⟨x, y⟩ : P2 ℝ)) = I2 (Basis.Props.dub p q) := I2_congr fun x y hy => Basis.Props.phi_eq_dub p q h x y hy
  have h3 : (∫ z2 in (-1 : ℝ)..1, ∫ z1 in (-1 : ℝ)..(-z2), Basis.phi p q (⟨z1, z2⟩ : P2 ℝ)) = I2 (fun x y => Basis.phi p q (⟨x, y⟩ : P2 ℝ)) := rfl
  rw [h3, h2] at h1
  have : I2 (Basis.Props.dub p q) = 2 * (I2 (Basis.Props.dub p q) / 2) := by ring
  rw [this, h1]
  split <;> norm_num

/-- Degrees of the first basis functions. -/
theorem pair_bound {rd : ℝ → ℝ} (hr : Basis.Props.Rounding rd) {p d : ℕ} (hp : p ≤ 800) (hd : d < ndof p) :
    (Basis.dofPair rd d).1 + (Basis.dofPair rd d).2 ≤ p ∧ (d ≠ 0 → ¬((Basis.dofPair rd d).1 = 0 ∧ (Basis.dofPair rd d).2 = 0)) ∧
      Basis.dofPair rd 0 = (0, 0) := by
  have hd2 : 2 * d < (p + 1) * (p + 2) := by unfold ndof at hd; omega
  have hlt : d < 2 ^ 32 := by nlinarith
  have h := Basis.Props.dof_of_pair hr d hlt
  simp only at h
  refine ⟨?_, ?_, (Basis.Props.first_dofs hr).1⟩
  · by_contra hc
    push Not at hc
    nlinarith
  · rintro h0 ⟨h1, h2⟩
    rw [h1, h2] at h
    omega

/-- The integral of a discrete function over the master triangle is twice its first coefficient. -/
theorem value_integral {rd : ℝ → ℝ} (hr : Basis.Props.Rounding rd) (e : Elt ℝ) (hp : e.p ≤ 800) (u : ℕ → ℝ) :
    I2 (fun x y => e.value (codeNumerics rd) u ⟨x, y⟩) = 2 * u 0 := by
  have h1 : I2 (fun x y => e.value (codeNumerics rd) u ⟨x, y⟩) =
      I2 (fun x y => ∑ d ∈ Finset.range (ndof e.p), u d * Basis.Props.dub (Basis.dofPair rd d).1 (Basis.dofPair rd d).2 x y) := by
    apply I2_congr
    intro x y hy
    rw [Elt.value, sum_range_list]
    refine Finset.sum_congr rfl fun d hd => ?_
    have hb := (pair_bound hr hp (Finset.mem_range.mp hd)).1
    congr 1
    exact phi_dub (le_trans hb hp) x y hy
  rw [h1, I2_sum _ _ _ fun i _ => dub_C2 _ _]
  have h0 : 0 < ndof e.p := by
    unfold ndof
    exact Nat.div_pos (by nlinarith) (by omega)
  rw [Finset.sum_eq_single 0]
  · rw [(pair_bound hr hp h0).2.2, dub_mean 0 0 (by omega)]; simp; ring
  · intro d hd hd0
    obtain ⟨hb, hne, _⟩ := pair_bound hr hp (Finset.mem_range.mp hd)
    rw [dub_mean _ _ (by omega), if_neg (hne hd0), mul_zero]
  · intro h; exact absurd (Finset.mem_range.mpr h0) h

/-- C57: `water` is the integral of the depth, taken over the master triangle times the Jacobian of the map to the element. -/
theorem water_integral {rd : ℝ → ℝ} (hr : Basis.Props.Rounding rd) (dat : ℕ → EltData ℝ) (elts : List ℕ) (hp : ∀ e ∈ elts, (dat e).elt.p ≤ 800)
    (q : State ℝ) : water dat elts q = (elts.map fun e => |jdet (dat e).elt.tri| *
      ∫ y in (-1 : ℝ)..1, ∫ x in (-1 : ℝ)..(-y), (dat e).elt.value (codeNumerics rd) (fun d => q e 0 d + (dat e).bath d) ⟨x, y⟩).sum := by
  unfold water
  congr 1
  apply List.map_congr_left
  intro e he
  have := value_integral hr (dat e).elt (hp e he) (fun d => q e 0 d + (dat e).bath d)
  unfold I2 at this
  rw [this]
  ring

/-- The numerics of the program satisfy the hypotheses. -/
theorem code_mass {rd : ℝ → ℝ} (hr : Basis.Props.Rounding rd) : MassNumerics (codeNumerics rd) := by
  have h0 := (Basis.Props.first_dofs hr).1
  have hj : ∀ x : ℝ, Basis.jacobi 0 0 0 x = 1 := fun x => by simp [Basis.jacobi]
  refine ⟨?_, ?_, ?_, ?_, ?_⟩
  · intro z
    simp only [codeNumerics, dubiner, h0, Basis.phi]
    cases Basis.n1 z <;> simp [Basis.jacobi]
  · intro z
    simp only [codeNumerics, dubiner, h0, Basis.dphi1]
    cases Basis.n1 z <;> simp [Basis.jacobiDeriv]
  · intro z
    simp only [codeNumerics, dubiner, h0, Basis.dphi2]
    cases Basis.n1 z <;> simp [Basis.jacobiDeriv, Basis.singular2]
  · simp only [codeNumerics, dubiner, h0, Basis.minv]; norm_num
  · intro p gp hgp
    simp only [codeNumerics] at hgp ⊢
    cases hr1 : Quadrature.rule1 p with
    | none => rw [hr1] at hgp; simp at hgp
    | some r =>
      rw [hr1] at hgp
      simp only [Option.getD_some, List.length_map] at hgp ⊢
      have hp : p ≤ 65 := by
        by_contra hc
        rw [(Quadrature.Props.line_rules p).1 (by omega)] at hr1
        cases hr1
      obtain ⟨r', hr', _, _, hs⟩ := (Quadrature.Props.line_rules p).2 hp
      rw [hr1] at hr'
      cases hr'
      have hg : r[gp]? = some r[gp] := by simp [hgp]
      have hs' := hs gp _ hg
      simp only [weight, List.getD, List.getElem?_map, hg, hs', Option.map_some, Option.getD_some]

/-! ### A run of stages does not fail -/

section
variable {K : Type} [Field K] [LinearOrder K] [IsStrictOrderedRing K]

theorem wdAll_ok {dat : ℕ → EltData K} {m : Mesh K} {wp : Option (WdParams K)} (hp : ∀ w, wp = some w → 0 < w.thr ∧ w.thr ≤ w.ho)
    (hn : ∀ e, 1 ≤ (dat e).elt.p) (s : Flow K) : ∃ f, wdAll dat m wp s = .ok f := by
  unfold wdAll
  cases wp with
  | none => exact ⟨s, rfl⟩
  | some w =>
    obtain ⟨h1, h2⟩ := hp w rfl
    simp only
    generalize m.elts = l
    induction l generalizing s with
    | nil => exact ⟨s, rfl⟩
    | cons a l ih =>
      have hn3 : 3 ≤ ndof (dat a).elt.p := by
        unfold ndof
        obtain ⟨k, hk⟩ : ∃ k, (dat a).elt.p = k + 1 := ⟨(dat a).elt.p - 1, by have := hn a; omega⟩
        rw [hk, Nat.le_div_iff_mul_le (by omega)]
        nlinarith
      obtain ⟨o, ho, _⟩ := wet_dry h1 h2 hn3 (w.bath a) (w.bathMin a) (w.temp a) (s.wet a) (rowsOf (s.q a))
      have : wdStep dat w s a = .ok ⟨Function.update s.q a (ofRows o.q), Function.update s.wet a o.wet, s.emptied || o.emptied⟩ := by
        unfold wdStep; rw [ho]; rfl
      obtain ⟨f, hf⟩ := ih ⟨Function.update s.q a (ofRows o.q), Function.update s.wet a o.wet, s.emptied || o.emptied⟩
      exact ⟨f, by rw [List.foldlM_cons, this]; exact hf⟩

theorem run_emptied_none {v : Env K} {dat : ℕ → EltData K} {m : Mesh K} {tab : Tableau} {ns : ℕ} {dt : K} {sp : Option (SlParams K)} {junk : State K}
    {time ramp : ℕ → K} {n : ℕ} {s0 s : Run K} (h : runSerial v dat m tab ns dt ⟨none, sp⟩ junk time ramp n s0 = .ok s) :
    s.emptied = s0.emptied := by
  induction n generalizing s with
  | zero => cases h; rfl
  | succ n ih =>
    rw [runSerial_succ] at h
    obtain ⟨s1, h1, h2⟩ := bindOk h
    rw [← ih h1]
    delta stageSerial stageWith at h2
    obtain ⟨_, _, h2⟩ := bindOk h2
    obtain ⟨_, _, h2⟩ := bindOk h2
    obtain ⟨_, _, h2⟩ := bindOk h2
    obtain ⟨_, _, h2⟩ := bindOk h2
    obtain ⟨f, hf, h2⟩ := bindOk h2
    obtain ⟨_, _, h2⟩ := bindOk h2
    cases h2
    cases hf
    cases sp <;> rfl

/-- Starting with enough slots a run of any length succeeds: no index leaves the range and no assertion fails. -/
theorem run_succeeds (v : Env K) (dat : ℕ → EltData K) (m : Mesh K) {tab : Tableau} {ns o : ℕ} (htab : tableau ns o = some tab) (dt : K)
    (pp : PostParams K) (hp : ∀ w, pp.wd = some w → 0 < w.thr ∧ w.thr ≤ w.ho) (hdeg : ∀ e, 1 ≤ (dat e).elt.p) (junk : State K) (time ramp : ℕ → K)
    (slots : List (Slot (State K))) (hlen : ns + 1 ≤ slots.length) (wet : ℕ → Bool) (n : ℕ) :
    ∃ s, runSerial v dat m tab ns dt pp junk time ramp n ⟨slots, 0, wet, false⟩ = .ok s ∧ s.stage = n % ns := by
  have hns := (Stepper.shapeOK_of_tableau htab).2.1
  suffices h : ∃ s, runSerial v dat m tab ns dt pp junk time ramp n ⟨slots, 0, wet, false⟩ = .ok s ∧
      RunInv (fun _ => True) (fun _ => True) (fun _ => True) ns s ∧ s.stage = n % ns by
    obtain ⟨s, h1, _, h2⟩ := h
    exact ⟨s, h1, h2⟩
  induction n with
  | zero =>
    refine ⟨_, rfl, ⟨hns, hlen, fun i hi => ?_, fun i hi => ?_, trivial⟩, (Nat.zero_mod _).symm⟩
    · obtain rfl : i = 0 := by simpa using hi
      exact ⟨slots[0], by simp, trivial⟩
    · simp at hi
  | succ n ih =>
    obtain ⟨s, h1, h2, h3⟩ := ih
    obtain ⟨slots', q, y, _, hl, hy, hold, e⟩ := stage_forward (v := v) (dat := dat) (m := m) (dt := dt) (junk := junk) (t := time n) (ramp := ramp n) pp htab
      (fun _ _ _ _ _ => trivial) (fun _ _ _ _ => trivial) h2
    obtain ⟨f, hf⟩ := wdAll_ok (dat := dat) (m := m) hp hdeg ⟨q, s.wet, s.emptied⟩
    rw [hf] at e
    refine ⟨_, by rw [runSerial_succ, h1]; exact e, ⟨Nat.mod_lt _ hns, by simpa using hl, fun i hi => ?_, fun i hi => ?_, trivial⟩, ?_⟩
    · simp only at hi ⊢
      have : i < (slots'.set ((s.stage + 1) % ns) ⟨(slAll v dat m pp.sl f).q, y⟩).length := by
        have := Nat.mod_lt (s.stage + 1) hns
        simp; omega
      exact ⟨_, List.getElem?_eq_getElem this, trivial⟩
    · simp only at hi ⊢
      have : i < (slots'.set ((s.stage + 1) % ns) ⟨(slAll v dat m pp.sl f).q, y⟩).length := by
        have := Nat.mod_lt (s.stage + 1) hns
        simp; omega
      exact ⟨_, List.getElem?_eq_getElem this, trivial⟩
    · simp only
      rw [h3, Nat.mod_add_mod]

end

/-! ### Cases -/

/-- Two triangles that form a rectangle of 4 by 3, of degree `p`, with bathymetry `b` of both. -/
def twoTris {K : Type} [Field K] (p : ℕ) (b : ℕ → ℕ → K) (e : ℕ) : EltData K :=
  ⟨⟨p, if e = 0 then ⟨⟨0, 0⟩, ⟨4, 0⟩, ⟨0, 3⟩⟩ else ⟨⟨4, 3⟩, ⟨0, 3⟩, ⟨4, 0⟩⟩⟩, b e, ⟨false, 0, 0, ⟨0, 0⟩, ⟨0, 0⟩, ⟨0, 0⟩⟩⟩

/-- Their mesh, with land around. -/
def twoMesh {K : Type} : Mesh K := ⟨[0, 1], [⟨0, 0, 1, 0, .internal⟩], [⟨0, 1, .land⟩, ⟨0, 2, .land⟩, ⟨1, 1, .land⟩, ⟨1, 2, .land⟩], []⟩

/-- Functions and parameters: gravity 10, no source terms. -/
def plainEnv {K : Type} [Field K] (N : Numerics K) (sq : K → K) : Env K :=
  ⟨N, sq, id, fun _ => 1, 3, ⟨10, 1000, false, false, false, false, false, 0⟩, fun _ => 1, fun _ _ => ⟨0, 0, 0⟩, fun _ _ => ⟨0, 0, 0⟩⟩

theorem two_closed (rd : ℝ → ℝ) (p : ℕ) (b : ℕ → ℕ → ℝ) : ClosedBasin (plainEnv (codeNumerics rd) Real.sqrt) (twoTris p b) twoMesh := by
  refine ⟨real_isSqrt, fun _ => rfl, (fun h => by cases h), (by decide), ?_, ?_, ?_⟩
  · intro e he
    rcases (by simpa [twoMesh] using he : e = 0 ∨ e = 1) with rfl | rfl <;> norm_num [twoTris, jdet, det, jac]
  · intro i hi
    obtain rfl : i = _ := by simpa [twoMesh] using hi
    simp [twoMesh]
  · intro i hi
    rcases (by simpa [twoMesh] using hi : i = _ ∨ i = _ ∨ i = _ ∨ i = _) with rfl | rfl | rfl | rfl <;> simp [twoMesh]

/-- The hypotheses of `run_mass` hold with the numerics of the program, any degree, any bathymetry, any initial state. -/
example {rd : ℝ → ℝ} (hr : Basis.Props.Rounding rd) (p : ℕ) (hp : 1 ≤ p) (b : ℕ → ℕ → ℝ) (q : State ℝ) (dt : ℝ) (n : ℕ) (tab : Tableau)
    (ht : tableau 2 2 = some tab) : ∃ s sl, runSerial (plainEnv (codeNumerics rd) Real.sqrt) (twoTris p b) twoMesh tab 2 dt ⟨none, none⟩ 0 (fun _ => 0)
      (fun _ => 0) n ⟨[⟨q, 0⟩, ⟨0, 0⟩, ⟨0, 0⟩], 0, fun _ => true, false⟩ = .ok s ∧ s.slots[s.stage]? = some sl ∧
      water (twoTris p b) [0, 1] sl.q = water (twoTris p b) [0, 1] q := by
  obtain ⟨s, hs, _⟩ := run_succeeds (plainEnv (codeNumerics rd) Real.sqrt) (twoTris p b) twoMesh ht dt ⟨none, none⟩ (fun _ h => by cases h) (fun _ => hp)
    0 (fun _ => 0) (fun _ => 0) [⟨q, 0⟩, ⟨0, 0⟩, ⟨0, 0⟩] (by simp) (fun _ => true) n
  have hem := run_emptied_none hs
  obtain ⟨sl, h1, h2⟩ := run_mass (two_closed rd p b) (code_mass hr) ht (by simp) dt ⟨none, none⟩ (fun _ h => by cases h) (fun _ => hp) 0 (fun _ => 0)
    (fun _ => 0) _ (by simp) ⟨q, 0⟩ rfl _ n s hs hem
  exact ⟨s, sl, hs, h1, h2⟩

/-- Rational numerics for cases that compute: degree 1 basis, a three point rule, Simpson's rule. -/
def simpleN : Numerics ℚ where
  basis := dubiner fun d => if d = 0 then (0, 0) else if d = 1 then (0, 1) else (1, 0)
  tri _ := [(2 / 3, ⟨-1, 0⟩), (2 / 3, ⟨0, -1⟩), (2 / 3, ⟨0, 0⟩)]
  line _ := [(1 / 3, -1), (4 / 3, 0), (1 / 3, 1)]

/-- A square root of the squares that occur below. -/
def simpleSq (x : ℚ) : ℚ := if x = 9 then 3 else if x = 16 then 4 else if x = 25 then 5 else x / 2

/-- A still state with a hump of water in element 0, depth 1 + 1/2. -/
def hump : State ℚ := fun e var d => if e = 0 ∧ var = 0 ∧ d = 0 then 1 / 2 else 0

/-- After one stage water has moved from element 0 to element 1, with both triangles of the same size. -/
example : ((do
      let s ← stageSerial (plainEnv simpleN simpleSq) (twoTris 1 fun _ d => if d = 0 then 1 else 0) twoMesh tab11 1 (1 / 100) ⟨none, none⟩ 0 0 1
        ⟨[⟨hump, 0⟩, ⟨0, 0⟩], 0, fun _ => true, false⟩
      let c ← slotOr s.slots[s.stage]?
      return decide (c.q 0 0 0 < 1 / 2 ∧ 0 < c.q 1 0 0 ∧ c.q 0 0 0 + c.q 1 0 0 = 1 / 2)) : Res Bool) = .ok true := by decide +kernel

end Verif.Swe.Props
