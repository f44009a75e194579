import Verif.Model.GnRun
import Verif.Props.EhdgParallel
import Verif.Props.GnRanksCase

/-!
# C99: the Green-Naghdi program on several ranks

Every step - shallow water, dispersive correction, shallow water - has on several ranks the result it has on one (`strang_ranks`, `strang_run_ranks`), if both
come to their end and the equations of the correction have one solution at most.
-/

namespace Verif.Gn.Props
open Verif.Swe Verif.Swe.Props Verif.Geometry Verif.Element Verif.Edge Verif.Ehdg Verif.Ihdg Verif.Ihdg.Props Verif.Ehdg.Props

section
variable {K : Type} [Field K] [LinearOrder K] [IsStrictOrderedRing K]
variable {D : Dc K} {W : Ranks K} {cut : List (Iface K)}

theorem ranked_meets (h : Ranked D W cut) : ∀ i ∈ cut, Meets D.dat i := fun i hi =>
  ⟨(h.sides i hi).degree, (h.sides i hi).ccwIn, (h.sides i hi).ccwEx, (h.sides i hi).edges, h.plain i hi⟩

/-- The equations of the correction determine it in every stage of the step from `s`. -/
def Determined (D : Dc K) (A B : Method K) (pp : PostParams K) (R1 : ℕ → (ℕ → Bool) → State K → State K) (corr troubled : ℕ → Bool) (s : GnRun K) : Prop :=
  ∀ r, runWith D.v D.dat D.m A.tab A.ns A.dt pp R1 A.ns s.run = .ok r → ∀ k < B.ns, ∀ s', dcStages D B.tab B.ns B.dt corr troubled k { s with run := r } = .ok s' →
    ∀ sl, s'.run.slots[s'.run.stage]? = some sl → Unique D s'.run.wet sl.q

omit [IsStrictOrderedRing K] in
theorem stages_idx (hwd : D.wd = false) {tab : Stepper.Tableau} {ns : ℕ} {dt : K} {corr troubled : ℕ → Bool} {s s' : GnRun K} (n : ℕ)
    (h : dcStages D tab ns dt corr troubled n s = .ok s') : s'.idx = s.idx := by
  induction n generalizing s' with
  | zero => cases h; rfl
  | succ n ih =>
    rw [dcStages] at h
    obtain ⟨a, ha, h⟩ := Swe.bindOk h
    obtain ⟨cur, x, w1, hcur, hsv, -⟩ := stage_parts h
    rw [hwd] at hsv
    rw [solveDc_idx hsv, ih ha]

omit [IsStrictOrderedRing K] in
theorem stagesP_idx (hwd : D.wd = false) {tab : Stepper.Tableau} {ns : ℕ} {dt : K} {corr troubled : ℕ → Bool} {s s' : GnRunP K} (n : ℕ)
    (h : dcStagesP D W tab ns dt corr troubled n s = .ok s') : s'.idx = s.idx := by
  induction n generalizing s' with
  | zero => cases h; rfl
  | succ n ih =>
    rw [dcStagesP] at h
    obtain ⟨a, ha, h⟩ := Swe.bindOk h
    obtain ⟨cur, x, w1, hcur, hsv⟩ := stage_partsP h
    rw [hwd] at hsv
    rw [solveP_idx hsv, ih ha]

/-- **C99** A step on several ranks has the result of a step on one. -/
theorem strang_ranks (hI : ∀ n M N, D.I n M = some N → RightInv n M N) (hS : Solves D.slv) (h : Ranked D W cut) (hs : Whole (dcSkel D)) {A B : Method K}
    {pp : PostParams K} (hsl : pp.sl ≠ none → Covered D.m ∧ ∀ e, 1 ≤ (D.dat e).elt.p) {p1 p2 : Part K} {junkD : Dbnd K → ℕ → Q K} {corr troubled : ℕ → Bool}
    {r : Run K} {t0 : Index} {u0 : PIndex} (h0 : D.wd = false → t0 = initial (dcSkel D)) (h0' : D.wd = false → u0 = initialP (dcSkelP D W))
    (hu : Determined D A B pp (p1.rhs D) corr troubled ⟨r, t0⟩) {s : GnRun K} {s' : GnRunP K}
    (h1 : strangStep D A B pp (p1.rhs D) (p2.rhs D) corr troubled ⟨r, t0⟩ = .ok s)
    (h2 : strangStepP D W A B pp (p1.rhsP D W junkD) (p2.rhsP D W junkD) corr troubled ⟨r, u0⟩ = .ok s') :
    s'.run = s.run ∧ (D.wd = false → s.idx = initial (dcSkel D)) ∧ (D.wd = false → s'.idx = initialP (dcSkelP D W)) := by
  have hrhs : ∀ (p : Part K) k wet q, p.rhsP D W junkD k wet q = .ok (p.rhs D k wet q) := fun p k wet q =>
    ehdg_parallel_rhs h.part (ranked_meets h) wet (p.time k) (p.faces k) junkD q p.junk
  unfold strangStep at h1
  unfold strangStepP at h2
  obtain ⟨ra, ha, h1⟩ := Swe.bindOk h1
  obtain ⟨rb, hb, h2⟩ := Swe.bindOk h2
  rw [parallel_run_with h.part A.tab A.ns A.dt pp hsl (hrhs p1), ha] at hb
  cases hb
  obtain ⟨sa, hsa, h1⟩ := Swe.bindOk h1
  obtain ⟨sb, hsb, h2⟩ := Swe.bindOk h2
  have e := stages_ranks hI hS h hs (fun w => h0 w ▸ initial_numbered hs _) (fun w => h0' w ▸ initialP_numbered (ranks_shared h hs.nodup) _) B.ns
    (fun k hk s hks => hu ra ha k hk s hks) hsa hsb
  obtain ⟨rc, hrc, h1⟩ := Swe.bindOk h1
  obtain ⟨rd, hrd, h2⟩ := Swe.bindOk h2
  rw [parallel_run_with h.part A.tab A.ns A.dt pp hsl (hrhs p2), e, hrc] at hrd
  cases hrd
  cases h1
  cases h2
  exact ⟨rfl, fun w => (stages_idx w _ hsa).trans (h0 w), fun w => (stagesP_idx w _ hsb).trans (h0' w)⟩

/-- **C99** Any number of steps. -/
theorem strang_run_ranks (hI : ∀ n M N, D.I n M = some N → RightInv n M N) (hS : Solves D.slv) (h : Ranked D W cut) (hs : Whole (dcSkel D)) {A B : Method K}
    {pp : PostParams K} (hsl : pp.sl ≠ none → Covered D.m ∧ ∀ e, 1 ≤ (D.dat e).elt.p) {p1 p2 : ℕ → Part K} {junkD : Dbnd K → ℕ → Q K} {corr troubled : ℕ → Bool}
    {r : Run K} (n : ℕ)
    (hu : ∀ k < n, ∀ s, strangRun D A B pp p1 p2 corr troubled k ⟨r, initial (dcSkel D)⟩ = .ok s → Determined D A B pp ((p1 k).rhs D) corr troubled s) {s : GnRun K}
    {s' : GnRunP K} (h1 : strangRun D A B pp p1 p2 corr troubled n ⟨r, initial (dcSkel D)⟩ = .ok s)
    (h2 : strangRunP D W A B pp p1 p2 junkD corr troubled n ⟨r, initialP (dcSkelP D W)⟩ = .ok s') : s'.run = s.run := by
  suffices s'.run = s.run ∧ (D.wd = false → s.idx = initial (dcSkel D)) ∧ (D.wd = false → s'.idx = initialP (dcSkelP D W)) from this.1
  induction n generalizing s s' with
  | zero => cases h1; cases h2; exact ⟨rfl, fun _ => rfl, fun _ => rfl⟩
  | succ n ih =>
    rw [strangRun] at h1
    rw [strangRunP] at h2
    obtain ⟨a, ha, h1⟩ := Swe.bindOk h1
    obtain ⟨b, hb, h2⟩ := Swe.bindOk h2
    obtain ⟨e1, e2, e3⟩ := ih (fun k hk => hu k (by omega)) ha hb
    have hua := hu n (by omega) a ha
    obtain ⟨ra, ta⟩ := a
    obtain ⟨rb, ub⟩ := b
    simp only at e1 e2 e3
    subst e1
    exact strang_ranks hI hS h hs hsl e2 e3 hua h1 h2
end

end Verif.Gn.Props
