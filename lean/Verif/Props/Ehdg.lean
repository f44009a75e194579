import Verif.Model.Ehdg
import Verif.Props.SweFlux
import Mathlib.Tactic.LinearCombination

/-!
# C74, C75: interface, land and distributed fluxes of the explicit hybridized discretization
-/

namespace Verif.Ehdg.Props
open Verif.Swe Verif.Swe.Props Verif.Geometry

variable {K : Type} [Field K] [LinearOrder K] [IsStrictOrderedRing K]

/-- The mean of two states. -/
def mean (q r : Q K) : Q K := ⟨(q.ze + r.ze) / 2, (q.qx + r.qx) / 2, (q.qy + r.qy) / 2⟩

/-- The largest wave speed of a state in the direction of the normal. -/
def wave (sq : K → K) (g b : K) (q : Q K) (n : P2 K) : K := sq (g * (q.ze + b)) + |q.qx / (q.ze + b) * n.x + q.qy / (q.ze + b) * n.y|

/-- The numerical flux: the flux of the mean state, and the difference from the mean times the wave speed of the mean. -/
def hybrid (sq : K → K) (g b : K) (n : P2 K) (q r : Q K) : Q K :=
  let m := mean q r
  fluxN g m ⟨b, m.ze + b, 1⟩ n + Q.smul (wave sq g b m n) (q - m)

section
omit [IsStrictOrderedRing K]

omit [LinearOrder K] in
@[simp] theorem smul_ze (c : K) (q : Q K) : (Q.smul c q).ze = c * q.ze := rfl
omit [LinearOrder K] in
@[simp] theorem smul_qx (c : K) (q : Q K) : (Q.smul c q).qx = c * q.qx := rfl
omit [LinearOrder K] in
@[simp] theorem smul_qy (c : K) (q : Q K) : (Q.smul c q).qy = c * q.qy := rfl

omit [LinearOrder K] in
theorem mulQ_smul (c : K) (q : Q K) : mulQ (c • (1 : M3 K)) q = Q.smul c q := by
  unfold mulQ ofComp
  simp only [Matrix.smul_mulVec, Matrix.one_mulVec, comp]
  ext <;> simp

theorem mulQ_tau (sq : K → K) (g : K) (q d : Q K) (a : Aux K) (ha : a.h = q.ze + a.bath) (n : P2 K) :
    mulQ (tauLF sq g q a n) d = Q.smul (wave sq g a.bath q n) d := by
  unfold tauLF
  rw [mulQ_smul]
  simp only [wave, cel, vn, ha]

omit [LinearOrder K] in
/-- The trace which the program computes. -/
theorem trace_mean (q r : Q K) : Q.smul (1 / 2) (q + r) = mean q r := by
  ext <;> simp [mean] <;> ring

end

/-- Opposite sides have opposite fluxes. -/
theorem hybrid_opp (sq : K → K) (g b : K) (n : P2 K) (q r : Q K) : hybrid sq g b (opp n) r q = -hybrid sq g b n q r := by
  have hm : mean r q = mean q r := by ext <;> simp [mean, add_comm]
  have hw : wave sq g b (mean q r) (opp n) = wave sq g b (mean q r) n := by
    simp only [wave, opp]
    rw [show (mean q r).qx / ((mean q r).ze + b) * -n.x + (mean q r).qy / ((mean q r).ze + b) * -n.y =
      -((mean q r).qx / ((mean q r).ze + b) * n.x + (mean q r).qy / ((mean q r).ze + b) * n.y) by ring, abs_neg]
  simp only [hybrid, hm, hw]
  ext
  · simp [fluxN, opp, mean]; ring
  · simp [fluxN, opp, mean]; ring
  · simp [fluxN, opp, mean]; ring

/-! ### The loop that adds the stabilization -/

section
variable {sq : K → K} {g : K} {ngp : ℕ} {nin nex : P2 K} {win wex : Bool} {qin qex : ℕ → Q K} {bath : ℕ → K} {junkIn junk : ℕ → Q K}

omit [LinearOrder K] [IsStrictOrderedRing K] in
/-- What the loop leaves: the arrays read by it are unchanged, the flux matrices are filled as follows. -/
theorem loop_state (s0 : Edge K) (hq : ∀ gp < ngp, mulQ (s0.tau gp) (qex (ngp - gp - 1) - s0.qhat gp) = -mulQ (s0.tau gp) (qin gp - s0.qhat gp))
    {k : ℕ} (hk : k ≤ ngp) :
    let s := (List.range k).foldl (stabilize ngp qin qex) s0
    s.qhat = s0.qhat ∧ s.aux = s0.aux ∧ s.tau = s0.tau ∧
    (∀ gp, s.fin gp = if gp < k then s0.fin gp + mulQ (s0.tau gp) (qin gp - s0.qhat gp) else s0.fin gp) ∧
    (∀ j < k, s.fex j = if ngp - j - 1 < k then -(s0.fin (ngp - j - 1) + mulQ (s0.tau (ngp - j - 1)) (qin (ngp - j - 1) - s0.qhat (ngp - j - 1)))
      else -s0.fin (ngp - j - 1)) := by
  induction k with
  | zero => simp
  | succ k ih =>
    obtain ⟨h1, h2, h3, h4, h5⟩ := ih (by omega)
    simp only [List.range_succ, List.foldl_append, List.foldl_cons, List.foldl_nil]
    set s := (List.range k).foldl (stabilize ngp qin qex) s0
    refine ⟨h1, h2, h3, ?_, ?_⟩
    · intro gp
      simp only [stabilize]
      by_cases hg : gp = k
      · subst hg
        rw [Function.update_self, h4, h1, h3, if_neg (by omega), if_pos (by omega)]
      · rw [Function.update_of_ne hg, h4]
        by_cases hlt : gp < k
        · rw [if_pos hlt, if_pos (by omega)]
        · rw [if_neg hlt, if_neg (by omega)]
    · intro j hj
      simp only [stabilize]
      set kk := ngp - k - 1 with hkk
      have hE := hq k (by omega)
      rw [← hkk] at hE
      rw [h1, h3, hE]
      by_cases hjk : j = kk
      · -- the column that gets the stabilization term in this turn
        subst hjk
        rw [Function.update_self]
        have hback : ngp - kk - 1 = k := by omega
        rw [hback, if_pos (by omega)]
        by_cases hkeq : kk = k
        · rw [hkeq, Function.update_self, h4, if_neg (by omega)]
          ext <;> simp <;> ring
        · rw [Function.update_of_ne hkeq, h5 kk (by omega), hback, if_neg (by omega)]
          ext <;> simp <;> ring
      · rw [Function.update_of_ne hjk]
        by_cases hj2 : j = k
        · subst hj2
          rw [Function.update_self, h4, ← hkk]
          by_cases hlt : kk < j
          · rw [if_pos hlt, if_pos (by omega)]
          · rw [if_neg hlt, if_neg (by omega)]
        · rw [Function.update_of_ne hj2, h5 j (by omega)]
          by_cases hlt : ngp - j - 1 < k
          · rw [if_pos hlt, if_pos (by omega)]
          · rw [if_neg hlt, if_neg (by omega)]

/-- C74: though the loop overwrites columns of one matrix while it copies them to the other, it leaves on every Gauss point of the interior side the
numerical flux and on the opposite Gauss point of the exterior side its negative. -/
theorem stabilized :
    let s := (List.range ngp).foldl (stabilize ngp qin qex) (start sq g ngp nin qin qex bath junk)
    s.qhat = (fun gp => mean (qin gp) (qex (ngp - gp - 1))) ∧
    s.aux = (fun gp => ⟨bath gp, (mean (qin gp) (qex (ngp - gp - 1))).ze + bath gp, 1⟩) ∧
    ∀ gp < ngp, s.fin gp = hybrid sq g (bath gp) nin (qin gp) (qex (ngp - gp - 1)) ∧
      s.fex (ngp - gp - 1) = -hybrid sq g (bath gp) nin (qin gp) (qex (ngp - gp - 1)) := by
  have hstart : ∀ gp d, mulQ ((start sq g ngp nin qin qex bath junk).tau gp) d =
      Q.smul (wave sq g (bath gp) (mean (qin gp) (qex (ngp - gp - 1))) nin) d := by
    intro gp d
    simp only [start, trace_mean]
    rw [mulQ_tau]
    rfl
  have hf : ∀ gp, (start sq g ngp nin qin qex bath junk).fin gp + mulQ ((start sq g ngp nin qin qex bath junk).tau gp)
      (qin gp - (start sq g ngp nin qin qex bath junk).qhat gp) = hybrid sq g (bath gp) nin (qin gp) (qex (ngp - gp - 1)) := by
    intro gp
    rw [hstart]
    simp only [start, trace_mean, hybrid]
  obtain ⟨h1, h2, _, h4, h5⟩ := loop_state (ngp := ngp) (qin := qin) (qex := qex) (start sq g ngp nin qin qex bath junk) (fun gp hgp => by
    rw [hstart, hstart]
    simp only [start, trace_mean]
    ext <;> simp [mean] <;> ring) (le_refl ngp)
  refine ⟨by rw [h1]; simp only [start, trace_mean], by rw [h2]; simp only [start, trace_mean], fun gp hgp => ⟨?_, ?_⟩⟩
  · rw [h4, if_pos hgp, hf]
  · rw [h5 _ (by omega), show ngp - (ngp - gp - 1) - 1 = gp by omega, if_pos hgp, hf]

/-! ### The loop for dry elements -/

/-- Flux on the side whose element is wet when the other one is dry and water would come from it: of a wall, with the depth of the mean state. -/
def wall (sq : K → K) (g b z : K) (n : P2 K) (q : Q K) : Q K := (landFlux sq g n q ⟨b, z + b, 1⟩).2.2

/-- Both fluxes at a pair of Gauss points. -/
def pairFlux (sq : K → K) (g b : K) (nin nex : P2 K) (win wex : Bool) (q r : Q K) : Q K × Q K :=
  let f := hybrid sq g b nin q r
  let m := mean q r
  let a : Aux K := ⟨b, m.ze + b, 1⟩
  if f.ze > fluxTol then
    if !win then (0, wall sq g b m.ze nex r)
    else if !wex then (f, { fluxN 0 m a nex + Q.smul (wave sq g b m nex) (r - m) with ze := -f.ze })
    else (f, -f)
  else if f.ze < -fluxTol then
    if !wex then (wall sq g b m.ze nin q, 0)
    else if !win then ({ fluxN 0 m a nin + Q.smul (wave sq g b m nin) (q - m) with ze := f.ze }, -f)
    else (f, -f)
  else (f, -f)

omit [IsStrictOrderedRing K] in
theorem correct_loop (s0 : Edge K) (hqh : s0.qhat = fun gp => mean (qin gp) (qex (ngp - gp - 1)))
    (hau : s0.aux = fun gp => ⟨bath gp, (mean (qin gp) (qex (ngp - gp - 1))).ze + bath gp, 1⟩)
    (hf : ∀ gp < ngp, s0.fin gp = hybrid sq g (bath gp) nin (qin gp) (qex (ngp - gp - 1)) ∧
      s0.fex (ngp - gp - 1) = -hybrid sq g (bath gp) nin (qin gp) (qex (ngp - gp - 1))) {k : ℕ} (hk : k ≤ ngp) :
    let s := (List.range k).foldl (correct sq g ngp nin nex win wex qin qex) s0
    s.aux = s0.aux ∧ (∀ gp, k ≤ gp → s.qhat gp = s0.qhat gp) ∧
    (∀ gp < ngp, (s.fin gp, s.fex (ngp - gp - 1)) = if gp < k then pairFlux sq g (bath gp) nin nex win wex (qin gp) (qex (ngp - gp - 1))
      else (s0.fin gp, s0.fex (ngp - gp - 1))) := by
  induction k with
  | zero => simp
  | succ k ih =>
    obtain ⟨h1, h2, h3⟩ := ih (by omega)
    simp only [List.range_succ, List.foldl_append, List.foldl_cons, List.foldl_nil]
    set s := (List.range k).foldl (correct sq g ngp nin nex win wex qin qex) s0
    have hs := h3 k (by omega)
    rw [if_neg (by omega)] at hs
    obtain ⟨hfin, hfex⟩ := Prod.mk.inj hs
    obtain ⟨e1, e2⟩ := hf k (by omega)
    rw [e1] at hfin
    rw [e2] at hfex
    have hqk : s.qhat k = mean (qin k) (qex (ngp - k - 1)) := by rw [h2 k le_rfl, hqh]
    have hak : s.aux k = ⟨bath k, (mean (qin k) (qex (ngp - k - 1))).ze + bath k, 1⟩ := by rw [h1, hau]
    -- what this turn does
    have key : (correct sq g ngp nin nex win wex qin qex s k).aux = s.aux ∧
        (∀ gp, k + 1 ≤ gp → (correct sq g ngp nin nex win wex qin qex s k).qhat gp = s.qhat gp) ∧
        (∀ gp, gp ≠ k → (correct sq g ngp nin nex win wex qin qex s k).fin gp = s.fin gp) ∧
        (∀ j, j ≠ ngp - k - 1 → (correct sq g ngp nin nex win wex qin qex s k).fex j = s.fex j) ∧
        ((correct sq g ngp nin nex win wex qin qex s k).fin k, (correct sq g ngp nin nex win wex qin qex s k).fex (ngp - k - 1)) =
          pairFlux sq g (bath k) nin nex win wex (qin k) (qex (ngp - k - 1)) := by
      unfold correct pairFlux
      simp only [hfin]
      by_cases c1 : (hybrid sq g (bath k) nin (qin k) (qex (ngp - k - 1))).ze > fluxTol
      · simp only [if_pos c1]
        cases win
        · simp only [Bool.not_false, if_true]
          refine ⟨trivial, fun gp hg => Function.update_of_ne (by omega) _ _, fun gp hg => Function.update_of_ne hg _ _,
            fun j hj => Function.update_of_ne hj _ _, ?_⟩
          rw [Function.update_self, Function.update_self, hak]
          rfl
        · cases wex
          · simp only [Bool.not_true, Bool.not_false, Bool.false_eq_true, if_false, if_true]
            refine ⟨trivial, fun gp hg => trivial, fun gp hg => trivial, fun j hj => Function.update_of_ne hj _ _, ?_⟩
            rw [Function.update_self, hqk, hak, hfin, mulQ_tau _ _ _ _ _ rfl]
          · simp only [Bool.not_true, Bool.false_eq_true, if_false]
            exact ⟨trivial, fun gp hg => trivial, fun gp hg => trivial, fun j hj => trivial, by rw [hfin, hfex]⟩
      · simp only [if_neg c1]
        by_cases c2 : (hybrid sq g (bath k) nin (qin k) (qex (ngp - k - 1))).ze < -fluxTol
        · simp only [if_pos c2]
          cases wex
          · simp only [Bool.not_false, if_true]
            refine ⟨trivial, fun gp hg => Function.update_of_ne (by omega) _ _, fun gp hg => Function.update_of_ne hg _ _,
              fun j hj => Function.update_of_ne hj _ _, ?_⟩
            rw [Function.update_self, Function.update_self, hak]
            rfl
          · cases win
            · simp only [Bool.not_true, Bool.not_false, Bool.false_eq_true, if_false, if_true]
              refine ⟨trivial, fun gp hg => trivial, fun gp hg => Function.update_of_ne hg _ _, fun j hj => trivial, ?_⟩
              rw [Function.update_self, hqk, hak, hfex, mulQ_tau _ _ _ _ _ rfl, neg_ze, neg_neg]
            · simp only [Bool.not_true, Bool.false_eq_true, if_false]
              exact ⟨trivial, fun gp hg => trivial, fun gp hg => trivial, fun j hj => trivial, by rw [hfin, hfex]⟩
        · simp only [if_neg c2]
          refine ⟨trivial, fun gp hg => trivial, fun gp hg => trivial, fun j hj => trivial, ?_⟩
          rw [hfin, hfex]
    obtain ⟨k1, k2, k3, k4, k5⟩ := key
    refine ⟨by rw [k1, h1], fun gp hg => by rw [k2 gp hg, h2 gp (by omega)], fun gp hgp => ?_⟩
    by_cases hg : gp = k
    · subst hg
      rw [k5, if_pos (by omega)]
    · rw [k3 gp hg, k4 _ (by omega), h3 gp hgp]
      by_cases hlt : gp < k
      · rw [if_pos hlt, if_pos (by omega)]
      · rw [if_neg hlt, if_neg (by omega)]

/-- C74: the fluxes which an interface computes, at every pair of Gauss points; if both elements are dry nothing is changed. -/
theorem internal_pairs (hw : (win || wex) = true) {gp : ℕ} (hgp : gp < ngp) :
    ((internal sq g ngp nin nex win wex qin qex bath junkIn junk).1 gp,
      (internal sq g ngp nin nex win wex qin qex bath junkIn junk).2 (ngp - gp - 1)) =
    pairFlux sq g (bath gp) nin nex win wex (qin gp) (qex (ngp - gp - 1)) := by
  obtain ⟨h1, h2, h3⟩ := stabilized (sq := sq) (g := g) (ngp := ngp) (nin := nin) (qin := qin) (qex := qex) (bath := bath) (junk := junk)
  obtain ⟨_, _, h6⟩ := correct_loop (nex := nex) (win := win) (wex := wex) _ h1 h2 h3 (le_refl ngp)
  unfold internal
  rw [if_pos hw]
  simp only
  rw [h6 gp hgp, if_pos hgp]

end

/-! ### Consequences -/

/-- A wall lets no water through and its momentum flux is the pressure of the water and the momentum which it takes away. -/
theorem wall_impermeable (sq : K → K) (g b z : K) (n : P2 K) (hn : Unit n) (q : Q K) : (wall sq g b z n q).ze = 0 := by
  have hn' : n.x ^ 2 + n.y ^ 2 = 1 := hn
  simp only [wall, landFlux, tauLF, mulQ_smul, add_ze, smul_ze, sub_ze, landHat, fluxN, sub_self, mul_zero, add_zero]
  linear_combination (-(q.qx * n.x) - q.qy * n.y) * hn'

/-- C74: whatever the states and wet flags the two sides of an interface exchange the same amount of water; no water leaves a dry element; and if both
elements are wet all components are opposite. -/
theorem interface_conservative (sq : K → K) (g b : K) (nin nex : P2 K) (hni : Unit nin) (hne : Unit nex) (win wex : Bool) (q r : Q K) :
    let f := pairFlux sq g b nin nex win wex q r
    f.2.ze = -f.1.ze ∧ (win = false → f.1.ze ≤ fluxTol) ∧ (wex = false → f.2.ze ≤ fluxTol) ∧
    (win = true → wex = true → f = (hybrid sq g b nin q r, -hybrid sq g b nin q r)) := by
  have ht := fluxTol_pos (K := K)
  have w1 := wall_impermeable sq g b (mean q r).ze nex hne r
  have w2 := wall_impermeable sq g b (mean q r).ze nin hni q
  simp only [pairFlux]
  by_cases c1 : (hybrid sq g b nin q r).ze > fluxTol
  · simp only [if_pos c1]
    cases win <;> cases wex <;> simp [w1] <;> linarith
  · simp only [if_neg c1]
    by_cases c2 : (hybrid sq g b nin q r).ze < -fluxTol
    · simp only [if_pos c2]
      cases win <;> cases wex <;> simp [w2] <;> linarith
    · simp only [if_neg c2]
      refine ⟨rfl, fun _ => by linarith, fun _ => by rw [neg_ze]; linarith, fun _ _ => trivial⟩

/-- C74: the numerical flux of a wet state with itself is the physical flux. -/
theorem hybrid_consistent (sq : K → K) (g b : K) (n : P2 K) (q : Q K) (hw : 0 < q.ze + b) : hybrid sq g b n q q = physical g 1 b q n := by
  have hm : mean q q = q := by ext <;> simp [mean]
  rw [hybrid, hm, (flux_physical g q ⟨b, q.ze + b, 1⟩ rfl hw n).1]
  ext <;> simp

/-- C75: the flux at land: no water, the pressure times the normal, and the momentum which the trace lacks times the wave speed. The tangential part of the
flux is zero: a wall of the hybridized discretization exerts no friction. -/
theorem land_flux_ehdg (sq : K → K) (g b : K) (n : P2 K) (hn : Unit n) (q : Q K) (hw : 0 < q.ze + b) :
    let f := landBoundary sq g n q b
    let qn := q.qx * n.x + q.qy * n.y
    f.ze = 0 ∧ f.qx * n.x + f.qy * n.y = g * ((q.ze + b) ^ 2 - b ^ 2) / 2 + wave sq g b (landHat n q) n * qn ∧
    f.qy * n.x - f.qx * n.y = 0 := by
  have hn' : n.x ^ 2 + n.y ^ 2 = 1 := hn
  have hh : q.ze + b ≠ 0 := hw.ne'
  have ht : mulQ (tauLF sq g (landHat n q) ⟨b, (landHat n q).ze + b, 1⟩ n) (q - landHat n q) =
      Q.smul (wave sq g b (landHat n q) n) (q - landHat n q) := by rw [mulQ_tau _ _ _ _ _ rfl]
  simp only [landBoundary, ht]
  set w := wave sq g b (landHat n q) n
  have e1 : n.y ^ 2 = 1 - n.x ^ 2 := by linear_combination hn'
  simp only [fluxN, landHat, pe, add_ze, add_qx, add_qy, smul_ze, smul_qx, smul_qy, sub_ze, sub_qx, sub_qy]
  refine ⟨?_, ?_, ?_⟩
  · linear_combination (-(q.qx * n.x) - q.qy * n.y) * hn'
  · field_simp
    grind
  · field_simp
    grind

/-! ### Distributed boundaries -/

/-- C75: both sides of an interface cut by the partition compute what the whole interface would. -/
theorem distributed_same (sq : K → K) (g b : K) (n : P2 K) (win wex : Bool) (q r : Q K) :
    distributed sq g n win wex q r b = (pairFlux sq g b n (opp n) win wex q r).1 ∧
    distributed sq g (opp n) wex win r q b = (pairFlux sq g b n (opp n) win wex q r).2 := by
  have hform : ∀ (n : P2 K) (q r : Q K), fluxN g (mean q r) ⟨b, (mean q r).ze + b, 1⟩ n + mulQ (tauLF sq g (mean q r) ⟨b, (mean q r).ze + b, 1⟩ n)
      (q - mean q r) = hybrid sq g b n q r := by
    intro n q r
    rw [mulQ_tau _ _ _ _ _ rfl]
    rfl
  have hm : mean r q = mean q r := by ext <;> simp [mean, add_comm]
  have ho := hybrid_opp sq g b n q r
  have ht := fluxTol_pos (K := K)
  have f1 := hform n q r
  have f2 := hform (opp n) r q
  rw [hm] at f2
  constructor
  · simp only [distributed, trace_mean, f1, pairFlux]
    by_cases c1 : (hybrid sq g b n q r).ze > fluxTol
    · simp only [if_pos c1]
      cases win <;> cases wex <;> rfl
    · simp only [if_neg c1]
      by_cases c2 : (hybrid sq g b n q r).ze < -fluxTol
      · simp only [if_pos c2]
        cases win <;> cases wex <;> simp [wall, mulQ_tau]
      · simp only [if_neg c2]
  · simp only [distributed, trace_mean, hm, f2, pairFlux, ho, neg_ze]
    by_cases c1 : (hybrid sq g b n q r).ze > fluxTol
    · have d1 : ¬ -(hybrid sq g b n q r).ze > fluxTol := by linarith
      have d2 : -(hybrid sq g b n q r).ze < -fluxTol := by linarith
      simp only [if_pos c1, if_neg d1, if_pos d2]
      cases win <;> cases wex <;> simp [wall, mulQ_tau]
    · by_cases c2 : (hybrid sq g b n q r).ze < -fluxTol
      · have d1 : -(hybrid sq g b n q r).ze > fluxTol := by linarith
        simp only [if_neg c1, if_pos c2, if_pos d1]
        cases win <;> cases wex <;> rfl
      · have d1 : ¬ -(hybrid sq g b n q r).ze > fluxTol := by linarith
        have d2 : ¬ -(hybrid sq g b n q r).ze < -fluxTol := by linarith
        simp only [if_neg c1, if_neg c2, if_neg d1, if_neg d2]

/-- C75: an interface cut by the partition, with its messages: bathymetry exchanged once, states exchanged in every stage. Both sides compute, from their own
data and the messages, what the whole interface would; nothing if both elements are dry. No assumption that the bathymetry is the same on both sides. -/
theorem distributed_messages (sq : K → K) (g : K) (ngp : ℕ) (n : P2 K) (win wex : Bool) (qin qex : ℕ → Q K) (bin bex : ℕ → K) (junkIn junkEx : ℕ → Q K)
    {gp : ℕ} (hgp : gp < ngp) :
    let F := internal sq g ngp n (opp n) win wex qin qex (bathHat ngp bin bex) junkIn junkEx
    (∃ b, bathHatDist ngp bin ((List.range ngp).map bex) gp = .ok b ∧
      distributedAt sq g ngp n win (qin gp) b (encode wex ((List.range ngp).map qex)) gp = .ok (if win || wex then some (F.1 gp) else none)) ∧
    ∃ b, bathHatDist ngp bex ((List.range ngp).map bin) (ngp - gp - 1) = .ok b ∧
      distributedAt sq g ngp (opp n) wex (qex (ngp - gp - 1)) b (encode win ((List.range ngp).map qin)) (ngp - gp - 1) =
        .ok (if win || wex then some (F.2 (ngp - gp - 1)) else none) := by
  have hget : ∀ (f : ℕ → K) (j : ℕ), j < ngp → idx ((List.range ngp).map f) j = .ok (f j) := by
    intro f j hj
    unfold idx
    simp [hj]
  have hback : ngp - (ngp - gp - 1) - 1 = gp := by omega
  obtain ⟨d1, d2⟩ := distributed_same sq g (bathHat ngp bin bex gp) n win wex (qin gp) (qex (ngp - gp - 1))
  intro F
  refine ⟨⟨bathHat ngp bin bex gp, ?_, ?_⟩, ⟨bathHat ngp bin bex gp, ?_, ?_⟩⟩
  · unfold bathHatDist
    rw [hget _ _ (by omega), res_bind]
    rfl
  · obtain ⟨h1, h2⟩ := decode_range wex ngp qex gp hgp
    unfold distributedAt
    rw [h1, res_bind, h2, res_bind]
    by_cases hw : (win || wex) = true
    · rw [if_pos hw, if_pos hw, d1, ← internal_pairs (junkIn := junkIn) (junk := junkEx) hw hgp]
      rfl
    · rw [if_neg hw, if_neg hw]
      rfl
  · unfold bathHatDist
    rw [hback, hget _ _ hgp, res_bind]
    simp only [bathHat, add_comm]
    rfl
  · obtain ⟨h1, h2⟩ := decode_range win ngp qin (ngp - gp - 1) (by omega)
    rw [hback] at h2
    unfold distributedAt
    rw [h1, res_bind, h2, res_bind]
    rw [Bool.or_comm wex win]
    by_cases hw : (win || wex) = true
    · rw [if_pos hw, if_pos hw, d2, ← internal_pairs (junkIn := junkIn) (junk := junkEx) hw hgp]
      rfl
    · rw [if_neg hw, if_neg hw]
      rfl

/-! ### Cases -/

/-- Depths 5 and 3 at rest, gravity 1: three Gauss points, so that the middle column is read and written in the same turn. -/
example : (internal sqQ 1 3 ⟨1, 0⟩ ⟨-1, 0⟩ true true (fun _ => ⟨1, 0, 0⟩) (fun _ => ⟨-1, 0, 0⟩) (fun _ => 4) (fun _ => 0) (fun _ => 0)).1 1 = ⟨2, 0, 0⟩ ∧
    (internal sqQ 1 3 ⟨1, 0⟩ ⟨-1, 0⟩ true true (fun _ => ⟨1, 0, 0⟩) (fun _ => ⟨-1, 0, 0⟩) (fun _ => 4) (fun _ => 0) (fun _ => 0)).2 1 = ⟨-2, 0, 0⟩ ∧
    (internal sqQ 1 2 ⟨1, 0⟩ ⟨-1, 0⟩ true true (fun _ => ⟨1, 0, 0⟩) (fun _ => ⟨-1, 0, 0⟩) (fun _ => 4) (fun _ => 0) (fun _ => 0)).2 0 = ⟨-2, 0, 0⟩ := by
  decide +kernel
/-- Different states at the two Gauss points of a side. -/
example : (internal sqQ 1 2 ⟨1, 0⟩ ⟨-1, 0⟩ true true (fun gp => ⟨1, gp, 0⟩) (fun gp => ⟨-1, 0, gp⟩) (fun _ => 4) (fun _ => 0) (fun _ => 0)).1 0 =
    -(internal sqQ 1 2 ⟨1, 0⟩ ⟨-1, 0⟩ true true (fun gp => ⟨1, gp, 0⟩) (fun gp => ⟨-1, 0, gp⟩) (fun _ => 4) (fun _ => 0) (fun _ => 0)).2 1 ∧
    (internal sqQ 1 2 ⟨1, 0⟩ ⟨-1, 0⟩ true true (fun gp => ⟨1, gp, 0⟩) (fun gp => ⟨-1, 0, gp⟩) (fun _ => 4) (fun _ => 0) (fun _ => 0)).1 0 = ⟨2, 0, -1⟩ := by
  decide +kernel
/-- Water would leave a dry element: nothing leaves, the other side sees a wall. Water enters a dry element: mass opposite. -/
example : pairFlux sqQ 1 4 ⟨1, 0⟩ ⟨-1, 0⟩ false true ⟨1, 0, 0⟩ ⟨-1, 0, 0⟩ = (0, ⟨0, 7 / 2, 0⟩) ∧
    (pairFlux sqQ 1 4 ⟨1, 0⟩ ⟨-1, 0⟩ true false ⟨1, 0, 0⟩ ⟨-1, 0, 0⟩).2.ze = -2 := by decide +kernel
/-- The numerical flux of moving water, and of a wall. -/
example : hybrid sqQ 1 4 ⟨1, 0⟩ ⟨0, 4, 0⟩ ⟨0, 4, 0⟩ = ⟨4, 4, 0⟩ ∧ physical 1 1 4 (⟨0, 4, 0⟩ : Q ℚ) ⟨1, 0⟩ = ⟨4, 4, 0⟩ ∧
    landBoundary sqQ 1 ⟨1, 0⟩ ⟨0, 4, 8⟩ 4 = ⟨0, 8, 0⟩ := by decide +kernel
/-- Bathymetry 3 and 5 on the two sides, over the messages. -/
example : bathHatDist 2 (fun _ => (3 : ℚ)) [5, 5] 0 = .ok 4 ∧
    distributedAt sqQ 1 2 ⟨1, 0⟩ true ⟨1, 0, 0⟩ 4 [1, -1, 0, 0, -1, 0, 1] 0 = .ok (some ⟨2, 0, -1⟩) ∧
    distributedAt sqQ 1 2 ⟨1, 0⟩ true ⟨1, 0, 0⟩ 4 [1, -1, 0, 0] 0 = .error .ub := by decide +kernel

end Verif.Ehdg.Props
