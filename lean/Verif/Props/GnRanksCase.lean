import Verif.Props.GnRanks

/-!
# C97: constant depth over a flat bed, on several ranks

There the equations are regular (C94): several ranks come to the end of a stage whenever one does, and with the same result (`flat_ranks`).
-/

namespace Verif.Gn.Props
open Verif.Geometry Verif.Geometry.Props Verif.Element Verif.Swe Verif.Swe.Props Verif.Edge Verif.Edge.Props Verif.Ehdg Verif.Ihdg Verif.Ihdg.Props Verif.Stepper

section
variable {D : Dc ℝ} {W : Ranks ℝ} {cut : List (Iface ℝ)} {wet : ℕ → Bool} {q : State ℝ} {h : ℝ}

/-- At constant depth over a flat bed the equations determine the correction. -/
theorem flat_determined (hB : Basin D) (hf : Flat D wet q h) (hd : Definite D) (ha : 0 < D.al) (ht : D.tau < 0) : Unique D wet q := by
  intro w1 w2 y v1 v2 z hw hv e he hwe i hi
  have h1 := (weak_iff hB.edges hB.fits hB.plain).1 hw
  have h2 := (weak_iff hB.edges hB.fits hB.plain).1 hv
  exact ((flat_unique hB hf hd ha ht h1 h2).1 e he hwe).1 i hi

/-- Several ranks find the correction. -/
theorem flat_solvable (hB : Basin D) (hf : Flat D wet q h) (hd : Definite D) (ha : 0 < D.al) (ht : D.tau < 0) (hs : Whole (dcSkel D)) (hn : 0 < D.nlam) (hc : Complete D.I D.slv)
    (hw : ∀ e ∈ D.m.elts, wet e) (hR : Ranked D W cut) {u0 : PIndex} (h0 : D.wd = false → u0 = initialP (dcSkelP D W)) :
    (solveP D.I D.slv (dcSkelP D W) D.wd wet u0 (dcBlocksP D (derivs D.v D.dat (gradP D.v D.dat W.meshes) q) W wet q) (dcHatsP D W wet)).isSome := by
  rw [derivs_ranks hR]
  have hlen : (dcSkel D).edges.length = (edgesOf D.m).length := by simp [dcSkel]
  obtain ⟨b1, b2, b3, b4, b5, b6, b7, b8⟩ := blocks_ranks hR hs.nodup wet q
  set bP : DcBlocks ℝ := { dcBlocksP D (wholeDerivs D q) W wet q with ahh := (dcBlocks D wet q).ahh } with hbP
  change (solveP D.I D.slv (dcSkelP D W) D.wd wet u0 (dcBlocksP D (wholeDerivs D q) W wet q) (dcHatsP D W wet)).isSome = true
  rw [← solveP_ahh D.I D.slv (dcSkelP D W) D.wd wet u0 (dcBlocksP D (wholeDerivs D q) W wet q) (dcBlocks D wet q).ahh (dcHatsP D W wet)]
  refine parallel_regular hc (ranks_shared hR hs.nodup) hs (by simp only [dcSkel]; omega) hw h0 (fun k hk hwk i _ j _ => hats_ranks hR hs wet q k hk hwk i j) (fun e he => ?_) ?_
  · obtain ⟨l1, l2⟩ := flat_local hB hf hd ha.le ht.le he (hw e he)
    refine ⟨?_, ?_⟩
    · show Regular _ ((dcBlocksP D (wholeDerivs D q) W wet q).a22 e)
      rw [b4]; exact l1
    · intro w1 w2 e1 e2
      simp only [hbP, b1, b2, b3, b4] at e1 e2
      exact l2 w1 w2 e1 e2
  · intro w1 w2 y h1 h2 h3 k hk hwk i hi
    have g1 : W1Eq (dcSkel D) wet (hom (dcBlocks D wet q)) w1 w2 y := fun e he hw i hi => by
      have := h1 e he hw i hi
      simp only [hom, hbP, b1, b2, b6] at this ⊢
      exact this
    have g2 : W2Eq (dcSkel D) wet (hom (dcBlocks D wet q)) w1 w2 y := fun e he hw i hi => by
      have := h2 e he hw i hi
      simp only [hom, hbP, b3, b4, b7] at this ⊢
      exact this
    have g3 : HatEq (dcSkel D) wet (hom (dcBlocks D wet q)) w1 w2 y := fun k hk hw i hi => by
      rw [← h3 k hk hw i hi]
      congr 2
      refine List.map_congr_left fun c hc => ?_
      have hwc : wet c.e = true := by simpa using (List.mem_filter.1 hc).2
      simp only [hom, hbP]
      rw [← (b8 c.e hwc c.f).1, ← (b8 c.e hwc c.f).2]
    rw [hom_source] at g1 g2 g3
    have hW := (weak_rows hB.edges hB.fits hB.plain (fun _ _ _ => 0)).1 ⟨g1, g2, g3⟩
    exact (homogeneous hB hf hd ha ht hW).2 k _ (List.getElem?_eq_getElem (by omega)) ((wetEdge_iff hk).1 hwk) i hi

/-- **C97** At constant depth over a flat bed, whatever the flow, a stage on several ranks ends as the stage on one, if the libraries handle regular matrices. -/
theorem flat_ranks (hB : Basin D) (hd : Definite D) (ha : 0 < D.al) (ht : D.tau < 0) (hs : Whole (dcSkel D)) (hn : 0 < D.nlam) (hc : Complete D.I D.slv) (hR : Ranked D W cut)
    (tab : Tableau) (ns : ℕ) (dt : ℝ) (corr troubled : ℕ → Bool) {r : Run ℝ} (hw : ∀ e, r.wet e) {cur : Slot (State ℝ)} (hcur : r.slots[r.stage]? = some cur)
    (hf : Flat D r.wet cur.q h) : (dcStageP D W tab ns dt corr troubled ⟨r, initialP (dcSkelP D W)⟩).map GnRunP.run = (dcStage D tab ns dt corr troubled ⟨r, initial (dcSkel D)⟩).map GnRun.run := by
  obtain ⟨⟨u, x, w1⟩, h1⟩ := Option.isSome_iff_exists.1 (flat_solvable (u0 := initialP (dcSkelP D W)) hB hf hd ha ht hs hn hc (fun e _ => hw e) hR fun _ => rfl)
  obtain ⟨⟨t, y, v1⟩, h2⟩ := Option.isSome_iff_exists.1 (solvable_partial hB hf hd ha ht hs hn hc (fun ed hed => by
    cases ed with
    | int i => exact ⟨_, List.mem_cons_self, hw _⟩
    | bnd b => exact ⟨_, List.mem_cons_self, hw _⟩) (t0 := initial (dcSkel D)) fun _ => rfl)
  exact stage_core hc.right hc.solves hR hs tab ns dt corr troubled (fun _ => initial_numbered hs _) (fun _ => initialP_numbered (ranks_shared hR hs.nodup) _) hcur
    (flat_determined hB hf hd ha ht) h2 h1

end

/-! ### Two triangles on two ranks -/

def twoRanks : Ranks ℝ where
  ranks := [[⟨[0], [], [⟨0, 1, .land⟩, ⟨0, 2, .land⟩], [⟨0, 0, 1, 0, .internal⟩]⟩], [⟨[1], [], [⟨1, 1, .land⟩, ⟨1, 2, .land⟩], [⟨1, 0, 0, 0, .internal⟩]⟩]]
  home e := (e, 0)
  junkHat _ _ _ _ := 0
  junk1 _ _ _ _ := 0
  junk2 _ _ _ := 0

theorem two_ranked (wd : Bool) (slv : Solver ℝ) : Ranked (gaussDc twoMesh wd slv) twoRanks [⟨0, 0, 1, 0, .internal⟩] := by
  refine ⟨⟨?_, ?_, ?_, ?_, ?_, ?_, ?_, ?_⟩, ?_, ?_, ?_, ?_⟩
  · simp [gaussDc, twoMesh]
  · exact List.Perm.refl _
  · exact List.Perm.refl _
  · exact List.Perm.refl _
  · exact List.Perm.refl _
  · simp [twoRanks, Ranks.meshes]
  · simp [twoRanks, Ranks.meshes]
  · simp [twoRanks, Ranks.meshes]
  · intro i hi
    obtain rfl := List.mem_singleton.1 hi
    refine ⟨rfl, ?_, ?_, ?_, fun _ gp _ => ?_⟩
    · norm_num [gaussDc, twoTris, jdet, Geometry.det, jac]
    · norm_num [gaussDc, twoTris, jdet, Geometry.det, jac]
    · norm_num [gaussDc, twoTris, faceVec, vertex]
    · have e1 : ∀ e z, ((gaussDc twoMesh wd slv).dat e).elt.value (gaussDc twoMesh wd slv).v.N ((gaussDc twoMesh wd slv).dat e).bath z = 3 := fun e z =>
        const_value (v := (gaussDc twoMesh wd slv).v) gauss_rules (c := 3) (fun k _ => rfl) z
      rw [e1, e1]
  · simp
  · simp [twoRanks]
  · intro i hi gp hgp
    obtain rfl := List.mem_singleton.1 hi
    have hl : ((⟨0, 0, 1, 0, .internal⟩ : Iface ℝ).rule (gaussDc twoMesh wd slv).v (gaussDc twoMesh wd slv).dat) = [(1, -√(1 / 3)), (1, √(1 / 3))] := rfl
    rw [hl] at hgp ⊢
    rcases (by simpa using hgp : gp < 2) with hgp
    interval_cases gp <;> rfl

/-- **C97** A stage of the correction from any discharges at constant depth: both ranks end with the levels and discharges of one. -/
example (c : ℕ → Fin 3 → ℕ → ℝ) (corr : ℕ → Bool) (tab : Tableau) (ht : tableau 1 1 = some tab) (wd : Bool) : let D := gaussDc twoMesh wd exactSlv
    let r : Run ℝ := ⟨[⟨level c, 0⟩, ⟨0, 0⟩], 0, fun _ => true, false⟩
    ∃ s s', dcStageP D twoRanks tab 1 (1 / 10) corr (fun _ => false) ⟨r, initialP (dcSkelP D twoRanks)⟩ = .ok s ∧
      dcStage D tab 1 (1 / 10) corr (fun _ => false) ⟨r, initial (dcSkel D)⟩ = .ok s' ∧ s.run = s'.run := by
  intro D r
  have hsol : Succeeds D (· = level c) (· = fun _ => true) := by
    rintro q wet t0 rfl rfl h0
    exact two_solvable wd ⟨rfl, rfl⟩ c h0
  obtain ⟨s1, h1, -⟩ := dcStage_ok (S := fun _ => True) (corr := corr) (troubled := fun _ => false) (M := ⟨tab, 1, 1 / 10⟩) (o := 1) ht hsol
    (s := ⟨r, initial (dcSkel D)⟩) (ready_inv (n := 1) ⟨rfl, by simp [r], ⟨_, rfl, rfl⟩, rfl⟩ one_pos le_rfl) fun _ => rfl
  have h2 := flat_ranks (D := D) (two_basin _ _) (two_definite _ _) one_pos (by norm_num [D, gaussDc]) (two_whole _ _) (by norm_num [D, gaussDc]) exact_complete
    (two_ranked wd exactSlv) tab 1 (1 / 10) corr (fun _ => false) (r := r) (fun _ => rfl) rfl (two_flat _ _ _ c)
  rw [h1] at h2
  cases h3 : dcStageP D twoRanks tab 1 (1 / 10) corr (fun _ => false) ⟨r, initialP (dcSkelP D twoRanks)⟩ with
  | error e => rw [h3] at h2; cases h2
  | ok s => rw [h3] at h2; exact ⟨s, s1, rfl, h1, Except.ok.inj h2⟩

/-- **C96** The derivatives on both ranks. -/
example (wd : Bool) (q : State ℝ) (dir e dof : ℕ) : let D := gaussDc twoMesh wd exactSlv
    gradP D.v D.dat twoRanks.meshes (depth D.v D.dat q) dir e dof = grad D.v D.dat D.m (depth D.v D.dat q) dir e dof :=
  congrFun (gradP_eq (two_ranked wd exactSlv).part (two_ranked wd exactSlv).sides _ dir e) dof

end Verif.Gn.Props
