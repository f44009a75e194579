import Verif.Props.GnRun

/-!
# C99: runs which end on several ranks

The parallel program comes to the end of a step if the serial program does, its equations determine the correction and the ranks find it (`strang_total`). That is
so in a uniform stream over a flat bed (`stream_ranks`).
-/

namespace Verif.Gn.Props
open Verif.Geometry Verif.Geometry.Props Verif.Element Verif.Swe Verif.Swe.Props Verif.Edge Verif.Edge.Props Verif.Ehdg Verif.Ehdg.Props Verif.Ihdg Verif.Ihdg.Props
  Verif.Stepper

section
variable {K : Type} [Field K] [LinearOrder K] [IsStrictOrderedRing K]
variable {D : Dc K} {W : Ranks K} {cut : List (Iface K)}

/-- The equations determine the correction and the ranks find it. -/
def Found (D : Dc K) (W : Ranks K) (wet : ℕ → Bool) (q : State K) : Prop := Unique D wet q ∧ ∀ u0 : PIndex, (D.wd = false → u0 = initialP (dcSkelP D W)) →
  (solveP D.I D.slv (dcSkelP D W) D.wd wet u0 (dcBlocksP D (derivs D.v D.dat (gradP D.v D.dat W.meshes) q) W wet q) (dcHatsP D W wet)).isSome

/-- **C97** The stages of the correction end on several ranks if they do on one. -/
theorem stages_total (hI : ∀ n M N, D.I n M = some N → RightInv n M N) (hS : Solves D.slv) (h : Ranked D W cut) (hs : Whole (dcSkel D)) {tab : Stepper.Tableau} {ns : ℕ} {dt : K}
    {corr troubled : ℕ → Bool} {r : Run K} {t0 : Index} {u0 : PIndex} (h0 : D.wd = false → t0 = initial (dcSkel D)) (h0' : D.wd = false → u0 = initialP (dcSkelP D W)) (n : ℕ)
    (hu : ∀ k < n, ∀ s, dcStages D tab ns dt corr troubled k ⟨r, t0⟩ = .ok s → ∀ sl, s.run.slots[s.run.stage]? = some sl → Found D W s.run.wet sl.q) {s' : GnRun K}
    (h1 : dcStages D tab ns dt corr troubled n ⟨r, t0⟩ = .ok s') : ∃ s'', dcStagesP D W tab ns dt corr troubled n ⟨r, u0⟩ = .ok s'' ∧ s''.run = s'.run := by
  induction n generalizing s' with
  | zero => cases h1; exact ⟨_, rfl, rfl⟩
  | succ n ih =>
    have h1' := h1
    rw [dcStages] at h1
    obtain ⟨a, ha, h1⟩ := Swe.bindOk h1
    obtain ⟨b, hb, e1⟩ := ih (fun k hk => hu k (by omega)) ha
    have ea : D.wd = false → a.idx = initial (dcSkel D) := fun w => (stages_idx w _ ha).trans (h0 w)
    have eb : D.wd = false → b.idx = initialP (dcSkelP D W) := fun w => (stagesP_idx w _ hb).trans (h0' w)
    obtain ⟨cur, x, w1, hcur, hsv, hwet⟩ := stage_parts h1
    have hfd := hu n (by omega) a ha cur hcur
    obtain ⟨⟨u, x', w1'⟩, hsv'⟩ := Option.isSome_iff_exists.1 (hfd.2 b.idx eb)
    obtain ⟨ra, ta⟩ := a
    obtain ⟨rb, ub⟩ := b
    simp only at e1 ea eb hcur hsv hsv'
    subst e1
    have h2 := stage_core hI hS h hs tab ns dt corr troubled (fun w => ea w ▸ initial_numbered hs _) (fun w => eb w ▸ initialP_numbered (ranks_shared h hs.nodup) _) hcur hfd.1 hsv hsv'
    rw [h1] at h2
    cases h3 : dcStageP D W tab ns dt corr troubled ⟨rb, ub⟩ with
    | error e => rw [h3] at h2; cases h2
    | ok s =>
      rw [h3] at h2
      refine ⟨s, ?_, Except.ok.inj h2⟩
      rw [dcStagesP, hb, Swe.okBind, h3]

/-- **C99** A step which ends on one rank ends on several, with the same result. -/
theorem strang_total (hI : ∀ n M N, D.I n M = some N → RightInv n M N) (hS : Solves D.slv) (h : Ranked D W cut) (hs : Whole (dcSkel D)) {A B : Method K}
    {pp : PostParams K} (hsl : pp.sl ≠ none → Covered D.m ∧ ∀ e, 1 ≤ (D.dat e).elt.p) {p1 p2 : Part K} {junkD : Dbnd K → ℕ → Q K} {corr troubled : ℕ → Bool}
    {r : Run K} {t0 : Index} {u0 : PIndex} (h0 : D.wd = false → t0 = initial (dcSkel D)) (h0' : D.wd = false → u0 = initialP (dcSkelP D W))
    (hu : ∀ r', runWith D.v D.dat D.m A.tab A.ns A.dt pp (p1.rhs D) A.ns r = .ok r' → ∀ k < B.ns, ∀ s', dcStages D B.tab B.ns B.dt corr troubled k ⟨r', t0⟩ = .ok s' →
      ∀ sl, s'.run.slots[s'.run.stage]? = some sl → Found D W s'.run.wet sl.q) {s : GnRun K}
    (h1 : strangStep D A B pp (p1.rhs D) (p2.rhs D) corr troubled ⟨r, t0⟩ = .ok s) :
    ∃ s', strangStepP D W A B pp (p1.rhsP D W junkD) (p2.rhsP D W junkD) corr troubled ⟨r, u0⟩ = .ok s' ∧ s'.run = s.run := by
  have hrhs : ∀ (p : Part K) k wet q, p.rhsP D W junkD k wet q = .ok (p.rhs D k wet q) := fun p k wet q =>
    ehdg_parallel_rhs h.part (ranked_meets h) wet (p.time k) (p.faces k) junkD q p.junk
  unfold strangStep at h1
  obtain ⟨ra, ha, h1⟩ := Swe.bindOk h1
  obtain ⟨sa, hsa, h1⟩ := Swe.bindOk h1
  obtain ⟨rc, hrc, h1⟩ := Swe.bindOk h1
  cases h1
  obtain ⟨sb, hsb, e⟩ := stages_total hI hS h hs h0 h0' B.ns (hu ra ha) hsa
  refine ⟨{ sb with run := rc }, ?_, rfl⟩
  unfold strangStepP
  rw [(parallel_run_with h.part A.tab A.ns A.dt pp hsl (hrhs p1) _ _ _).2 ha, Swe.okBind, hsb, Swe.okBind, e,
    (parallel_run_with h.part A.tab A.ns A.dt pp hsl (hrhs p2) _ _ _).2 hrc]
  rfl
end

section
variable {D : Dc ℝ} {W : Ranks ℝ} {cut : List (Iface ℝ)} {F : ℕ → MvPolynomial (Fin 2) ℝ} {P : ℕ} {corr troubled : ℕ → Bool}

/-- In a uniform stream over a flat bed the ranks find the correction. -/
theorem uniform_found (hR : Rules D.v.N F P 0) (hO : Orthogonal D.v.N F P) (hs : IsSqrt D.v.sq) (hm : GradMesh D.dat D.m P) (hp : ∀ d < ndof P, 0 < D.v.N.basis.minv d)
    (hB : Basin D) (ha : 0 < D.al) (ht : D.tau < 0) (hw : Whole (dcSkel D)) (hn : 0 < D.nlam) (hc : Complete D.I D.slv) (hr : Ranked D W cut) {U : Q ℝ} {b : ℝ}
    (hbed : ∀ e ∈ D.m.elts, ∀ d < ndof (D.dat e).elt.p, (D.dat e).bath d = if d = 0 then b else 0) (h : 0 < U.ze + b) {q : State ℝ} {wet : ℕ → Bool}
    (hq : Uniform D.dat D.m.elts U q) (hwet : ∀ e ∈ D.m.elts, wet e = true) : Found D W wet q := by
  have hf := uniform_flat hR hO hs hm hbed (fun e he d hd => hq e he d hd 0) h wet
  exact ⟨flat_determined hB hf (definite_exact hR hO hp hm) ha ht, fun u0 h0 => flat_solvable hB hf (definite_exact hR hO hp hm) ha ht hw hn hc hwet hr h0⟩

/-- **C99** A step of the parallel program in a uniform stream over a flat bed succeeds and leaves the stream. -/
theorem stream_ranks (hz : ZeroOnZero D.slv) (hR : Rules D.v.N F P 0) (hO : Orthogonal D.v.N F P) (hm : GradMesh D.dat D.m P)
    (hpm : ∀ d < ndof P, 0 < D.v.N.basis.minv d) (hB : Basin D) (ha : 0 < D.al) (ht : D.tau < 0) (hwh : Whole (dcSkel D)) (hnl : 0 < D.nlam) (hc : Complete D.I D.slv)
    (hr : Ranked D W cut) {M N : Method ℝ} {o o' : ℕ} (hM : tableau M.ns o = some M.tab) (hMrow : (M.ns, o) ∈ exactRows) (hN : tableau N.ns o' = some N.tab)
    (hNrow : (N.ns, o') ∈ exactRows) {U : Q ℝ} {b : ℝ} (h : 0 < U.ze + b) (pp : PostParams ℝ) (hsc : pp.sl ≠ none → Covered D.m ∧ ∀ e, 1 ≤ (D.dat e).elt.p)
    (hp : ∀ w, pp.wd = some w → 0 < w.thr ∧ w.thr ≤ w.ho ∧ ∀ e ∈ D.m.elts, ∀ x < 3, w.ho + w.thr < U.ze + w.bath e x)
    (hdeg : ∀ e ∈ D.m.elts, 1 ≤ (D.dat e).elt.p) (p1 p2 : Part ℝ) (ramp1 ramp2 : ℕ → ℝ) (junkD : Dbnd ℝ → ℕ → Q ℝ)
    (hm1 : ∀ n, StreamMesh D.v D.dat D.m P U b (p1.time n) (ramp1 n)) (hm2 : ∀ n, StreamMesh D.v D.dat D.m P U b (p2.time n) (ramp2 n))
    (hx1 : ∀ n, Ehdg.Props.Passes D.v D.dat D.m (p1.faces n) U)
    (hx2 : ∀ n, Ehdg.Props.Passes D.v D.dat D.m (p2.faces n) U) {r : Run ℝ} (h0 : r.stage = 0) (hl : max M.ns N.ns + 1 ≤ r.slots.length)
    {sl : Slot (State ℝ)} (hsl : r.slots[0]? = some sl) (hq : Uniform D.dat D.m.elts U sl.q) (hw : ∀ e ∈ D.m.elts, r.wet e = true) {u0 : PIndex}
    (h0' : D.wd = false → u0 = initialP (dcSkelP D W)) :
    ∃ s' sl', strangStepP D W M N pp (p1.rhsP D W junkD) (p2.rhsP D W junkD) corr troubled ⟨r, u0⟩ = .ok s' ∧
      s'.run.slots[0]? = some sl' ∧ Uniform D.dat D.m.elts U sl'.q := by
  obtain ⟨s1, sl1, a1, -, -, -, -, a2, a3⟩ := strang_runs (corr := corr) (troubled := troubled) hz hR hO hm hpm hB ha ht hwh hnl hc hM hMrow hN hNrow h pp hp hdeg p1.junk p2.junk p1.time p2.time
    ramp1 ramp2 hm1 hm2 p1.faces p2.faces hx1 hx2 (s := ⟨r, initial (dcSkel D)⟩) h0 hl hsl hq hw fun _ => rfl
  have hrhs : ∀ k q wet, Uniform D.dat D.m.elts U q → (∀ e ∈ D.m.elts, wet e = true) →
      ∀ e ∈ D.m.elts, ∀ d < ndof (D.dat e).elt.p, ∀ var, solve D.v D.dat (p1.rhs D k wet q) e var d = 0 := by
    intro k q wet hq hw e he d hd var
    simp only [solve, Elt.applyMinv, Part.rhs]
    rw [Ehdg.Props.stream_same hR (hm1 k) hq (hx1 k) hw, Swe.Props.stream_rhs hR (hm1 k) hq hw p1.junk he hd var, zero_mul]
  obtain ⟨s', h1, h2⟩ := strang_total hc.right hc.solves hr hwh (A := M) (B := N) (pp := pp) hsc (p1 := p1) (p2 := p2) (junkD := junkD) (corr := corr) (troubled := troubled) (r := r)
    (t0 := initial (dcSkel D)) (u0 := u0) (fun _ => rfl) h0' (fun r1 hr1 k hk s' hs' sl' hsl' => by
      have pp1 := (Stepper.shapeOK_of_tableau hM).2.1
      have pp2 := (Stepper.shapeOK_of_tableau hN).2.1
      have hrd : Ready (Uniform D.dat D.m.elts U) (fun w => ∀ e ∈ D.m.elts, w e = true) (max M.ns N.ns) r := ⟨h0, hl, ⟨sl, hsl, hq⟩, hw⟩
      obtain ⟨r1', b1, i1, -⟩ := withRun_keeps (m := D.m) (A := Uniform D.dat D.m.elts U) (S := fun x => ∀ e ∈ D.m.elts, ∀ d < ndof (D.dat e).elt.p, ∀ var, x e var d = 0)
        (G := fun w => ∀ e ∈ D.m.elts, w e = true) hM (fun k hk u x hux => uniform_comb hM hMrow M.dt hk u x hux) hrhs (pp := pp)
        (fun q wet em hq hw => by
          obtain ⟨w', hf, hw'⟩ := uniform_wd hp hdeg hq hw em
          exact ⟨_, hf, rfl, by rw [uniform_sl (hm1 0).sqrt hdeg hq]; exact ⟨hq, hw'⟩⟩) (ready_inv hrd pp1 (le_max_left _ _)) M.ns
      obtain rfl : r1 = r1' := by rw [hr1] at b1; cases b1; rfl
      have st1 := runWith_shape (by rw [h0]; exact pp1) _ hr1
      have k1 : r1.stage = 0 := by rw [st1.2, h0, zero_add, Nat.mod_self]
      have l1 : max M.ns N.ns + 1 ≤ r1.slots.length := by rw [st1.1]; exact hl
      obtain ⟨i2, -⟩ := dcStages_invariant (s := ⟨r1, initial (dcSkel D)⟩) hN (fun k hk u x hux => uniform_comb hN hNrow N.dt hk u x hux)
        (corrects_zero (corr := corr) (troubled := troubled) hz hR hO (hm1 0).sqrt hm fun q hq => uniform_still hR (hm1 0).bed hq)
        (ready_inv (inv_ready i1 k1 l1) pp2 (le_max_right _ _)) k hs'
      obtain ⟨sl2, hsl2, hq2⟩ := i2.good _ le_rfl
      obtain rfl : sl' = sl2 := Option.some.inj (hsl'.symm.trans hsl2)
      exact uniform_found hR hO (hm1 0).sqrt hm hpm hB ha ht hwh hnl hc hr (hm1 0).bed h hq2 i2.wet) a1
  exact ⟨s', sl1, h1, by rw [h2]; exact a2, a3⟩

end

/-! ### The channel on two ranks -/

noncomputable def chanRanks : Ranks ℝ where
  ranks := [[⟨[0], [], [⟨0, 1, .flow fun _ => [⟨0, 1, 0, -2, 0⟩]⟩, ⟨0, 2, .land⟩], [⟨0, 0, 1, 0, .internal⟩]⟩],
    [⟨[1], [], [⟨1, 1, .tide fun _ => [⟨0, 1, 0, 1 / 2, 0⟩]⟩, ⟨1, 2, .land⟩], [⟨1, 0, 0, 0, .internal⟩]⟩]]
  home e := (e, 0)
  junkHat _ _ _ _ := 0
  junk1 _ _ _ _ := 0
  junk2 _ _ _ := 0

theorem chan_ranked (wd : Bool) (slv : Solver ℝ) : Ranked (gaussDc channel wd slv) chanRanks [⟨0, 0, 1, 0, .internal⟩] := by
  refine ⟨⟨?_, ?_, ?_, ?_, ?_, ?_, ?_, ?_⟩, ?_, ?_, ?_, ?_⟩
  · simp [gaussDc, channel]
  · exact List.Perm.refl _
  · exact List.Perm.refl _
  · exact List.Perm.refl _
  · exact List.Perm.refl _
  · simp [chanRanks, Ranks.meshes]
  · simp [chanRanks, Ranks.meshes]
  · simp [chanRanks, Ranks.meshes]
  · exact (two_ranked wd slv).sides
  · simp
  · simp [chanRanks]
  · exact (two_ranked wd slv).weights

/-- **C99** A step with the stream through the channel on two ranks. -/
example (wd : Bool) (corr troubled : ℕ → Bool) (M : Tableau) (ht : tableau 3 3 = some M) (junk : State ℝ) (junkD : Dbnd ℝ → ℕ → Q ℝ) :
    let D := gaussDc channel wd exactSlv
    let p : Part ℝ := ⟨fun _ => 0, fun _ : ℕ => Ehdg.Props.passing D.v D.dat ⟨1 / 2, 2, 0⟩, junk⟩
    ∃ s' sl', strangStepP D chanRanks ⟨M, 3, 1 / 20⟩ ⟨M, 3, 1 / 10⟩ ⟨none, none⟩ (p.rhsP D chanRanks junkD) (p.rhsP D chanRanks junkD) corr troubled
      ⟨⟨[⟨fun _ var d => if d = 0 then ![1 / 2, 2, 0] var else 0, 0⟩, ⟨0, 0⟩, ⟨0, 0⟩, ⟨0, 0⟩], 0, fun _ => true, false⟩, initialP (dcSkelP D chanRanks)⟩ = .ok s' ∧
      s'.run.slots[0]? = some sl' ∧ sl'.q 0 0 0 = 1 / 2 ∧ sl'.q 1 1 0 = 2 := by
  intro D p
  obtain ⟨s', sl', h1, h2, h3⟩ := stream_ranks (D := D) (W := chanRanks) (corr := corr) (troubled := troubled) exactSlv_zero gauss_rules gauss_orthogonal chan_grad
    (fun d _ => gauss_minv d) (chan_basin _ _) one_pos (by norm_num [D, gaussDc]) (chan_whole _ _) (by norm_num [D, gaussDc]) exact_complete (chan_ranked wd exactSlv)
    (M := ⟨M, 3, 1 / 20⟩) (N := ⟨M, 3, 1 / 10⟩) (o := 3) (o' := 3) ht (by simp [exactRows]) ht (by simp [exactRows]) (U := ⟨1 / 2, 2, 0⟩) (b := 3) (by norm_num)
    ⟨none, none⟩ (fun h => absurd rfl h) (fun _ h => by cases h) (fun _ _ => le_rfl) p p (fun _ => 1) (fun _ => 1) junkD (fun _ => channel_stream gaussN 0 1)
    (fun _ => channel_stream gaussN 0 1) (fun _ _ _ _ _ _ => rfl) (fun _ _ _ _ _ _ => rfl)
    (r := ⟨[⟨fun _ var d => if d = 0 then ![1 / 2, 2, 0] var else 0, 0⟩, ⟨0, 0⟩, ⟨0, 0⟩, ⟨0, 0⟩], 0, fun _ => true, false⟩) rfl (by simp) rfl
    (fun e _ d _ var => by fin_cases var <;> simp [Swe.comp]) (fun _ _ => rfl) (u0 := initialP (dcSkelP D chanRanks)) fun _ => rfl
  exact ⟨s', sl', h1, h2, h3 0 (by simp [D, gaussDc, channel]) 0 (ndof_pos _) 0, h3 1 (by simp [D, gaussDc, channel]) 0 (ndof_pos _) 1⟩

end Verif.Gn.Props
