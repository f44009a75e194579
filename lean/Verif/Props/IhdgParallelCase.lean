import Verif.Props.IhdgParallel
import Verif.Props.IhdgEnergyCase
import Verif.Props.EhdgParallel

/-!
# C101: initial traces of cut edges; lakes at rest on several ranks
-/

namespace Verif.Ihdg.Props
open Verif.Swe Verif.Swe.Props Verif.Geometry Verif.Geometry.Props Verif.Element Verif.Edge Verif.Edge.Props Verif.Ehdg Verif.Ehdg.Props
open Verif.Gn (halfIn halfEx ruleD before)
open Verif.Gn.Props (gaussN gauss_rules gauss_orthogonal gauss_minv exact_complete)

section
variable {K : Type} [Field K] [LinearOrder K] [IsStrictOrderedRing K] {S : Scheme K} {W : Cluster K} {i : Iface K}

/-- **C101** The initial traces: both sides of a cut edge project the averages of the states of both sides, each in its own order of points and with its own
tables, and end up with the trace of the whole mesh. -/
theorem init_cut (h : CutOk S W i) (n : ℕ) :
    initCut S W (halfIn i) = initTrace S W.start (.int i) ∧ initCut S W (halfEx n i) = initTrace S W.start (.int i) := by
  have hk : i.kind = .internal := h.meets.kind
  have hrin : faceRule S.v.N (S.dat i.ein).elt.p = rule S (.int i) := (cut_ruleIn h)
  have hrex : faceRule S.v.N (S.dat i.eex).elt.p = rule S (.int i) := (cut_ruleEx h n)
  have hT : (tab S (.int i)).ngp = (rule S (.int i)).length := rfl
  have hTn : (tab S (.int i)).ndof = (rule S (.int i)).length := rfl
  obtain ⟨k1, k2⟩ := cut_kind h n
  constructor
  · unfold initCut initTrace
    rw [k1]
    simp only [hk]
    simp only [cutTab_in h, Option.some.injEq]
    funext var dof
    unfold Edge.project Edge.integral
    refine Finset.sum_congr rfl fun k _ => congrArg (· * _) (Finset.sum_congr rfl fun gp hgp => ?_)
    have hgp : gp < (rule S (.int i)).length := Finset.mem_range.1 hgp
    beta_reduce
    have hm := (message_decodes (S := S) (W := W) (halfIn i).e' (halfIn i).f' (halfIn i).e (gp := gp)
      (by rw [show (halfIn i).e' = i.eex from rfl, hrex]; exact hgp)).1
    rw [show (halfIn i).e' = i.eex from rfl, hrex] at hm
    rw [cutQ_in h, cut_ruleIn h, show (halfIn i).e' = i.eex from rfl, hm]
    rfl
  · unfold initCut initTrace
    rw [k2]
    simp only [hk]
    simp only [Option.some.injEq]
    funext var dof
    obtain ⟨t1, t2, t3⟩ := cutTab_ex (W := W) h n
    unfold Edge.project Edge.integral Edge.minv
    rw [t1, t2, t3, hT, hTn]
    refine Finset.sum_congr rfl fun k _ => congrArg (· * _) ?_
    rw [← Finset.sum_range_reflect]
    refine Finset.sum_congr rfl fun gp hgp => ?_
    have hgp : gp < (rule S (.int i)).length := Finset.mem_range.1 hgp
    have hg' : (rule S (.int i)).length - 1 - gp < (rule S (.int i)).length := by omega
    have hback : (rule S (.int i)).length - ((rule S (.int i)).length - 1 - gp) - 1 = gp := by omega
    have hfwd : (rule S (.int i)).length - 1 - gp = (rule S (.int i)).length - gp - 1 := by omega
    have hm := (message_decodes (S := S) (W := W) (halfEx n i).e' (halfEx n i).f' (halfEx n i).e (gp := (rule S (.int i)).length - 1 - gp)
      (by rw [show (halfEx n i).e' = i.ein from rfl, hrin]; exact hg')).1
    rw [show (halfEx n i).e' = i.ein from rfl, hrin] at hm
    beta_reduce
    rw [(cutLam_ex h n hg' k).1, hback, cutQ_ex h, cut_ruleEx h, show (halfEx n i).e' = i.ein from rfl, hm, hback, hfwd, comp_plus, comp_plus,
      add_comm (Swe.comp (sideQ S W.start (.int i) ⟨i.eex, i.fex, true⟩ _) var)]
    rfl

end

section
variable {S : Scheme ℝ} {W : Cluster ℝ} {cut : List (Iface ℝ)} {F : ℕ → MvPolynomial (Fin 2) ℝ} {P : ℕ} {it : Iter ℝ} {pit : PIter ℝ}

/-- **C101** A lake at rest over a flat bed: any number of steps on several ranks succeeds, and its states and traces are those of one rank, at rest. -/
theorem lake_ranks {L b : ℝ} (hW : Clustered S W cut) (hR : Rules S.v.N F P 0) (hO : Orthogonal S.v.N F P) (hp : ∀ d < ndof P, 0 < S.v.N.basis.minv d)
    (hm : FlowMesh S P) (hb : Closed S) (hf : FlatBed S ⟨L, 0, 0⟩ b) (hg : 0 < S.v.src.g) (hdt : 0 < S.dt) (hth : S.theta ≤ 1) (hc : Gn.Props.Complete S.I S.slv)
    (hz : ZeroOnZero S.slv) (time ramp : ℕ → ℝ) (h : Everywhere S ⟨L, 0, 0⟩ it) (ha : Agree S cut it pit) (n : ℕ) :
    ∃ it' pit', steps S time ramp n it = some it' ∧ stepsP S W time ramp n pit = some pit' ∧ Agree S cut it' pit' ∧ Everywhere S ⟨L, 0, 0⟩ it' := by
  obtain ⟨it', h1, h2⟩ := lake_steps hR hO hp hm hb hf hg hdt hth hc hz time ramp h n
  have hr := steps_ranks hW hb.wf hc time ramp ha n fun k _ it1 hk => by
    obtain ⟨it1', hk', hrest⟩ := lake_steps hR hO hp hm hb hf hg hdt hth hc hz time ramp h k
    obtain rfl : it1' = it1 := Option.some.inj (hk'.symm.trans hk)
    have hb' : Closed (atStep S time ramp k) := ⟨hb.basin, hb.mass, hb.wf, hb.fits, hb.dt, hb.deg, hb.inv, hb.slv⟩
    have hland : ∀ b ∈ S.m.bnds, Admits (atStep S time ramp k) ⟨L, 0, 0⟩ b := fun b' hb' => by
      simp only [Admits, (hb.basin.bnds b' hb').2.2]
      ring
    have hst := rest_step (S := atStep S time ramp k) hR (flow_time hm time ramp k) hland (everywhere_time hrest time ramp k)
    refine ⟨fun _ => (lake_newton (S := atStep S time ramp k) hR hO hp (flow_time hm time ramp k) hb' ⟨hf.friction, hf.bed, hf.wet⟩ hg hdt hth hc
      (everywhere_time hrest time ramp k) _ _).1, fun d hd hcv => ?_⟩
    have := (solution_fixed (S := atStep S time ramp k) hz hb.wf (sqrt_zero hm.sqrt) hst (it' := d.1) (x := d.2) hd).2
    exact absurd (this.symm.trans hcv) (by decide)
  rw [h1] at hr
  cases h3 : stepsP S W time ramp n pit with
  | none => rw [h3] at hr; cases hr
  | some pit' =>
    rw [h3] at hr
    exact ⟨it', pit', h1, rfl, by cases hr; assumption, h2⟩

end

/-! ### Two triangles, one on each rank -/

noncomputable def twoCluster (start : State ℝ) : Cluster ℝ where
  ranks := [[⟨[0], [], [⟨0, 1, .land⟩, ⟨0, 2, .land⟩], [⟨0, 0, 1, 0, .internal⟩]⟩], [⟨[1], [], [⟨1, 1, .land⟩, ⟨1, 2, .land⟩], [⟨1, 0, 0, 0, .internal⟩]⟩]]
  home e := (e, 0)
  start := start
  junkDelta _ _ := 0
  junkHat _ _ := 0
  junkRhs _ _ := 0

theorem two_clustered (start : State ℝ) : Clustered (lakeOn twoMesh) (twoCluster start) [⟨0, 0, 1, 0, .internal⟩] := by
  refine ⟨two_partitioned _, ?_, ?_⟩
  · intro i hi
    obtain rfl := List.mem_singleton.1 hi
    refine ⟨two_meets 1 _, Or.inl (by simp [twoCluster]), fun gp hgp => ?_⟩
    have hgp : gp < 2 := hgp
    interval_cases gp <;> rfl
  · intro e he f hf
    rcases (by simpa [lakeOn, twoMesh] using he : e = 0 ∨ e = 1) with rfl | rfl <;> interval_cases f <;> simp [skel, edgesOf, lakeOn, twoMesh, Edg.sides]

/-- The hypotheses hold: a lake on two ranks. -/
example {L : ℝ} (hL : -3 < L) (start : State ℝ) (time ramp : ℕ → ℝ) (n : ℕ) : ∃ it' pit', steps (lakeOn twoMesh) time ramp n (sameIter ⟨L, 0, 0⟩) = some it' ∧
    stepsP (lakeOn twoMesh) (twoCluster start) time ramp n ⟨(sameIter ⟨L, 0, 0⟩).q, fun _ _ => (sameIter ⟨L, 0, 0⟩).hat 0⟩ = some pit' ∧ pit'.q = it'.q ∧
    Everywhere (lakeOn twoMesh) ⟨L, 0, 0⟩ it' := by
  obtain ⟨it', pit', h1, h2, h3, h4⟩ := lake_ranks (S := lakeOn twoMesh) (b := 3) (it := sameIter ⟨L, 0, 0⟩) (pit := ⟨(sameIter ⟨L, 0, 0⟩).q, fun _ _ => (sameIter ⟨L, 0, 0⟩).hat 0⟩)
    (two_clustered start) gauss_rules gauss_orthogonal (fun d _ => gauss_minv d) lake_mesh lake_closed ⟨rfl, fun _ _ _ _ => rfl, by linarith⟩
    (by norm_num [lakeOn, plainEnv]) one_pos zero_le_one exact_complete exactSlv_zero time ramp (lake_same _ _) ⟨rfl, fun _ _ _ => rfl, fun _ _ => rfl⟩ n
  exact ⟨it', pit', h1, h2, h3.q, h4⟩

/-- One Newton step at a lake at rest, from any old state: both succeed with the same states. -/
example {L : ℝ} (hL : -3 < L) (start q0 : State ℝ) (prev : ℕ → ℕ → ℝ) :
    ∃ d p, newton (lakeOn twoMesh) q0 prev (sameIter ⟨L, 0, 0⟩) = some d ∧
      newtonP (lakeOn twoMesh) (twoCluster start) q0 prev ⟨(sameIter ⟨L, 0, 0⟩).q, fun _ _ => (sameIter ⟨L, 0, 0⟩).hat 0⟩ = some p ∧ p.1.q = d.1.q := by
  obtain ⟨it', x, hn⟩ := (lake_newton (S := lakeOn twoMesh) (b := 3) gauss_rules gauss_orthogonal (fun d _ => gauss_minv d) lake_mesh lake_closed ⟨rfl, fun _ _ _ _ => rfl, by linarith⟩
    (by norm_num [lakeOn, plainEnv]) one_pos zero_le_one exact_complete (lake_same _ _) q0 prev).2
  have hr := newton_ranks (pit := ⟨(sameIter ⟨L, 0, 0⟩).q, fun _ _ => (sameIter ⟨L, 0, 0⟩).hat 0⟩) (two_clustered start) lake_wf exact_complete
    ⟨rfl, fun _ _ _ => rfl, fun _ _ => rfl⟩ q0 prev fun _ => lake_sole hL q0 prev
  rw [hn] at hr
  cases h3 : newtonP (lakeOn twoMesh) (twoCluster start) q0 prev ⟨(sameIter ⟨L, 0, 0⟩).q, fun _ _ => (sameIter ⟨L, 0, 0⟩).hat 0⟩ with
  | none => rw [h3] at hr; cases hr
  | some p =>
    rw [h3] at hr
    have hs : SameStep (lakeOn twoMesh) (twoCluster start) [⟨0, 0, 1, 0, .internal⟩] (it', x) p := by cases hr; assumption
    exact ⟨_, p, hn, rfl, hs.1.q⟩

end Verif.Ihdg.Props
