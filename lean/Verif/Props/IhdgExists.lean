import Verif.Props.IhdgRest
import Verif.Props.LakeRun

/-!
# Steps of the implicit scheme that succeed

The theorems on the implicit scheme speak of steps that succeed. Here the element blocks of piecewise constant elements are shown to be regular, and a
step is exhibited that succeeds with an exact inverse and an exact solver.
-/

namespace Verif.Ihdg.Props
open Verif.Swe Verif.Swe.Props Verif.Geometry Verif.Geometry.Props Verif.Element Verif.Edge Verif.Edge.Props Verif.Ehdg Verif.Ehdg.Props Matrix

variable {S : Scheme ℝ} {it : Iter ℝ}

open Classical in
/-- An exact inverse, where there is one. -/
noncomputable def exactInv : Inverse ℝ := fun n M => if h : ∃ N, RightInv n M N then some h.choose else none

theorem exactInv_right (n : ℕ) (M N : ℕ → ℕ → ℝ) (h : exactInv n M = some N) : RightInv n M N := by
  unfold exactInv at h
  split_ifs at h with hx
  cases h
  exact hx.choose_spec

open Classical in
/-- An exact solver: zero if that is a solution, otherwise a solution if there is one. -/
noncomputable def exactSlv : Solver ℝ := fun n A r =>
  if ∀ i < n, r i = 0 then some fun _ => 0 else if h : ∃ x : ℕ → ℝ, ∀ i < n, ∑ j ∈ Finset.range n, A i j * x j = r i then some h.choose else none

theorem exactSlv_solves : Solves exactSlv := by
  intro n A r x h i hi
  unfold exactSlv at h
  split_ifs at h with h0 hx
  · cases h; simp [h0 i hi]
  · cases h; exact hx.choose_spec i hi

theorem exactSlv_zero : ZeroOnZero exactSlv := by
  intro n A r x h hr i hi
  unfold exactSlv at h
  rw [if_pos hr] at h
  cases h; rfl

theorem exactSlv_some (n : ℕ) (A : ℕ → ℕ → ℝ) (r : ℕ → ℝ) (hr : ∀ i < n, r i = 0) : exactSlv n A r = some fun _ => 0 := by
  unfold exactSlv; rw [if_pos hr]

/-- A diagonal matrix with positive diagonal has an inverse. -/
theorem exactInv_diag {n : ℕ} {M : ℕ → ℕ → ℝ} {d : ℝ} (hd : d ≠ 0) (h : ∀ i < n, ∀ j < n, M i j = if i = j then d else 0) : ∃ N, exactInv n M = some N := by
  have : ∃ N, RightInv n M N := by
    refine ⟨fun i j => if i = j then 1 / d else 0, fun i hi j hj => ?_⟩
    rw [Finset.sum_eq_single i]
    · rw [h i hi i hi, if_pos rfl]
      by_cases hij : i = j
      · simp [hij, hd]
      · simp [hij]
    · intro k hk hki
      rw [h i hi k (Finset.mem_range.1 hk), if_neg (Ne.symm hki), zero_mul]
    · intro hi'; exact absurd (Finset.mem_range.2 hi) hi'
  exact ⟨_, by unfold exactInv; rw [dif_pos this]⟩

theorem inverses_some {b : Blocks ℝ} {s : Skeleton} (l : List ℕ) (h : ∀ e ∈ l, ∃ N, exactInv (s.size e) (b.dl e) = some N) : ∃ inv, inverses exactInv b s l = some inv := by
  induction l with
  | nil => exact ⟨_, rfl⟩
  | cons e l ih =>
    obtain ⟨N, hN⟩ := h e List.mem_cons_self
    obtain ⟨t, ht⟩ := ih fun e he => h e (List.mem_cons_of_mem _ he)
    exact ⟨Function.update t e N, by rw [inverses, hN, ht]; rfl⟩

/-- A step from a solution of its own equations succeeds if the element blocks are regular. -/
theorem stage_succeeds (hI : S.I = exactInv) (hS : S.slv = exactSlv) (hw : WellFormed (skel S)) (hq : S.v.sq 0 = 0) (he : StepEq S it it)
    (hfin : finite S it.q = true) (hinv : ∀ e ∈ S.m.elts, ∃ N, exactInv (3 * ndof (S.dat e).elt.p) ((blocks S it.q (rhsPrev S it) it).dl e) = some N) :
    ∃ it', stage S it = some it' ∧ Same S it it' := by
  obtain ⟨inv, hinv⟩ := inverses_some (s := skel S) S.m.elts hinv
  have hr : ∀ i < (number (skel S)).off, assembleRhs (skel S) (number (skel S)) (blocks S it.q (rhsPrev S it) it) inv i = 0 := by
    intro i hi
    have hmem : i ∈ (List.range (skel S).edges.length).flatMap (number (skel S)).edge := by rw [numbering]; exact List.mem_range.2 hi
    obtain ⟨k, hk, hi⟩ := List.mem_flatMap.1 hmem
    have hk := List.mem_range.1 hk
    have hk' : k < (edgesOf S.m).length := by simpa [skel] using hk
    rw [edge_eq _ hk] at hi
    obtain ⟨j, hj, rfl⟩ := List.mem_map.1 hi
    have hj := List.mem_range.1 hj
    rw [add_comm, rhs_eq hw _ inv hk hj, ownRhs]
    have hg : (blocks S it.q (rhsPrev S it) it).rg k j = 0 := by
      rw [esize_eq hk'] at hj
      refine row_split (P := fun j => (blocks S it.q (rhsPrev S it) it).rg k j = 0) (fun d hd a => ?_) j hj
      rw [rg_eq _ _ _ hk', Finset.sum_eq_zero, neg_zero]
      intro gp hgp
      rw [he.edge k hk' gp (Finset.mem_range.1 hgp)]
      fin_cases a <;> simp [Swe.comp]
    rw [hg, List.sum_eq_zero, sub_zero]
    intro r hr
    obtain ⟨c, hc, rfl⟩ := List.mem_map.1 hr
    have hce : c.e ∈ S.m.elts := ((edge_faces hw hk).2 c hc).1
    unfold mulV
    refine Finset.sum_eq_zero fun t ht => ?_
    have : (blocks S it.q (rhsPrev S it) it).rl c.e t = 0 := by
      refine row_split (P := fun t => (blocks S it.q (rhsPrev S it) it).rl c.e t = 0) (fun d hd a => ?_) t (Finset.mem_range.1 ht)
      rw [rl_eq _ _ hce, he.elt _ hce d hd a, sub_self]
    rw [this, mul_zero]
  have hc : ∃ d, condense S.I S.slv (skel S) (blocks S it.q (rhsPrev S it) it) = some d := by
    unfold condense
    rw [hI, hS]
    simp only [Option.bind_eq_bind]
    rw [show (skel S).elts = S.m.elts from rfl, hinv]
    simp only [Option.bind_some]
    rw [exactSlv_some _ _ _ hr]
    exact ⟨_, rfl⟩
  obtain ⟨d, hc⟩ := hc
  have hn : newton S it.q (rhsPrev S it) it = some (advance S it d, d.2) := by unfold newton; rw [if_pos hfin, hc]; rfl
  obtain ⟨hs, hcv⟩ := solution_fixed (hS ▸ exactSlv_zero) hw hq he hn
  refine ⟨advance S it d, ?_, hs⟩
  unfold stage
  rw [show (100 : ℕ) = 99 + 1 from rfl, iterate, hn]
  simp only [Option.bind_some, hcv, if_true]

/-- The block of a piecewise constant element without friction is a positive multiple of the identity. -/
theorem degree_zero {e : ℕ} (he : e ∈ S.m.elts) (hp : (S.dat e).elt.p = 0) (hphi : ∀ z, S.v.N.basis.phi 0 z = 1)
    (hd1 : ∀ z, S.v.N.basis.dphi1 0 z = 0) (hd2 : ∀ z, S.v.N.basis.dphi2 0 z = 0) (hfr : S.v.src.bottomFriction = false)
    (hw : 0 < ((S.v.N.tri 0).map Prod.fst).sum) (hl : ∀ p, ∀ gp, 0 ≤ weight (faceRule S.v.N p) gp) (hs : IsSqrt S.v.sq) (hj : jdet (S.dat e).elt.tri ≠ 0)
    (hdt : 0 < S.dt) (hth : S.theta ≤ 1) (hdep : ∀ ed ∈ edgesOf S.m, ∀ k, ∀ gp < (rule S ed).length, 0 ≤ S.v.src.g * (hatAux S ed (it.hat k) gp).h) (hJ : ∀ ed ∈ edgesOf S.m, 0 ≤ surf S ed)
    (q0 : State ℝ) (prev : ℕ → ℕ → ℝ) :
    ∃ d > 0, ∀ r < 3, ∀ s < 3, (blocks S q0 prev it).dl e r s = if r = s then d else 0 := by
  let T : Edg ℝ → ℕ → Sd → ℝ := fun ed k s => ((List.range (rule S ed).length).map fun gp =>
    (cel S.v.sq S.v.src.g (hatAux S ed (it.hat k) (opp S ed s gp)).h +
      |vn ((hat S ed (it.hat k) (opp S ed s gp)).qx / (hatAux S ed (it.hat k) (opp S ed s gp)).h) ((hat S ed (it.hat k) (opp S ed s gp)).qy / (hatAux S ed (it.hat k) (opp S ed s gp)).h) (nrm S ed)|) *
      (weight (rule S ed) gp * surf S ed)).sum
  let D := ((S.v.N.tri 0).map Prod.fst).sum * |jdet (S.dat e).elt.tri| / S.dt + (1 - S.theta) * sideSum (edgesOf S.m).zipIdx e T
  have hT : 0 ≤ sideSum (edgesOf S.m).zipIdx e T := by
    unfold sideSum
    refine List.sum_nonneg fun r hr => ?_
    obtain ⟨x, hx, rfl⟩ := List.mem_map.1 hr
    refine List.sum_nonneg fun r hr => ?_
    obtain ⟨s, hs', rfl⟩ := List.mem_map.1 hr
    refine List.sum_nonneg fun r hr => ?_
    obtain ⟨gp, hgp, rfl⟩ := List.mem_map.1 hr
    have hm := List.fst_mem_of_mem_zipIdx hx
    exact mul_nonneg (add_nonneg (hs _ (hdep _ hm _ _ (opp_lt' s (List.mem_range.1 hgp)))).1 (abs_nonneg _)) (mul_nonneg (hl _ _) (hJ _ hm))
  refine ⟨D, by have := abs_pos.2 hj; have : 0 ≤ 1 - S.theta := by linarith
                positivity, ?_⟩
  intro r hr s hs'
  obtain ⟨a, rfl⟩ : ∃ a : Fin 3, r = 3 * 0 + a.val := ⟨⟨r, hr⟩, by simp⟩
  obtain ⟨b, rfl⟩ : ∃ b : Fin 3, s = 3 * 0 + b.val := ⟨⟨s, hs'⟩, by simp⟩
  have hab : (3 * 0 + a.val = 3 * 0 + b.val) = (a = b) := by simp [Fin.ext_iff]
  simp only [blocks, localD_at S _ _ _ he, hab]
  have h1 : volD S (S.dat e) (it.q e) (3 * 0 + a.val) (3 * 0 + b.val) =
      if a = b then ((S.v.N.tri 0).map Prod.fst).sum * |jdet (S.dat e).elt.tri| / S.dt else 0 := by
    simp only [volD, row_div, block_entry, intPhiPhi, intPhiDPhi, Elt.gps, hp, hphi, hd1, hd2]
    simp only [mul_zero, zero_mul, add_zero, List.map_const', List.sum_replicate, smul_zero, sub_zero, one_mul]
    by_cases h : a = b
    · subst h
      simp only [Matrix.smul_apply, Matrix.one_apply_eq, if_true, smul_eq_mul, mul_one]
      rw [mul_div_assoc, mul_comm, map_mul']
      refine congrArg _ (List.map_congr_left fun x _ => by ring)
    · simp [h, Matrix.one_apply_ne h]
  have h2 : srcD S (S.dat e) (it.q e) (3 * 0 + a.val) (3 * 0 + b.val) = 0 := by
    simp only [srcD, row_div, block_entry]
    have : ∀ z, dsrcAt S (S.dat e) (it.q e) z a b = 0 := by
      intro z
      simp only [dsrcAt, dsource, hfr, Bool.false_eq_true, if_false]
      fin_cases a <;> fin_cases b <;> rfl
    simp [this, intPhiPhi]
  have h3 : ∀ ed k s, faceD S ed (it.hat k) s (3 * 0 + a.val) (3 * 0 + b.val) = if a = b then T ed k s else 0 := by
    intro ed k s
    have : ∀ gp, dfDq S ed (it.hat k) s gp a b = if a = b then cel S.v.sq S.v.src.g (hatAux S ed (it.hat k) (opp S ed s gp)).h +
      |vn ((hat S ed (it.hat k) (opp S ed s gp)).qx / (hatAux S ed (it.hat k) (opp S ed s gp)).h) ((hat S ed (it.hat k) (opp S ed s gp)).qy / (hatAux S ed (it.hat k) (opp S ed s gp)).h) (nrm S ed)| else 0 := by
      intro gp
      simp only [dfDq, tauAt, tauLF, Matrix.smul_apply, Matrix.one_apply, smul_eq_mul, mul_ite, mul_one, mul_zero]
    cases ed with
    | int i =>
      simp only [faceD, row_div, block_entry, intFace2, hphi, this, T]
      by_cases h : a = b <;> simp [h]
    | bnd i =>
      simp only [faceD, row_div, block_entry, intFace2, hphi, this, T]
      by_cases h : a = b <;> simp [h]
  rw [h1, h2]
  simp only [h3]
  by_cases h : a = b
  · simp only [h, if_true, D, sub_zero]
    congr 1
    unfold sideSum
    rw [map_mul']
    refine congrArg _ (List.map_congr_left fun x _ => ?_)
    rw [map_mul']
  · simp [h, sideSum]

/-! ### Examples -/

/-- Two triangles with piecewise constant elements. -/
noncomputable def calmOn (m : Mesh ℝ) : Scheme ℝ :=
  ⟨plainEnv exactN Real.sqrt, twoTris 0 flat3, m, 1, 0, false, 0, 1, 1, exactInv, exactSlv, fun _ _ _ => 0, fun _ _ => 0, fun _ _ => ⟨0, 0, 0⟩⟩

theorem calm_bed (m : Mesh ℝ) (e : ℕ) (z : P2 ℝ) : ((calmOn m).dat e).elt.value (calmOn m).v.N ((calmOn m).dat e).bath z = 3 :=
  value_first exact_rules.phi0 _ (fun _ _ => rfl) z

/-- Their blocks are regular, whatever the boundaries. -/
theorem calm_blocks (m : Mesh ℝ) (hm : m.elts = [0, 1]) {U : Q ℝ} (hU : -3 ≤ U.ze) (q0 : State ℝ) (prev : ℕ → ℕ → ℝ) :
    ∀ e ∈ m.elts, ∃ N, exactInv (3 * ndof ((calmOn m).dat e).elt.p) ((blocks (calmOn m) q0 prev (sameIter U)).dl e) = some N := by
  intro e he
  obtain ⟨h0, -, -⟩ := Basis.Props.first_dofs Basis.Props.rounding_id
  have hd1 : ∀ z, (calmOn m).v.N.basis.dphi1 0 z = 0 := by
    intro z
    simp only [calmOn, plainEnv, exactN, dubiner, h0, Basis.dphi1, Basis.jacobiDeriv, if_true]
    cases Basis.n1 z <;> simp
  have hd2 : ∀ z, (calmOn m).v.N.basis.dphi2 0 z = 0 := by
    intro z
    simp only [calmOn, plainEnv, exactN, dubiner, h0, Basis.dphi2, Basis.jacobiDeriv, if_true]
    cases Basis.n1 z <;> simp [Basis.singular2]
  obtain ⟨d, hd, h⟩ := degree_zero (S := calmOn m) (it := sameIter U) he rfl exact_rules.phi0 hd1 hd2 rfl (by norm_num [calmOn, plainEnv, exactN])
    (by
      intro p gp
      simp only [calmOn, plainEnv, faceRule, exactN, weight]
      rcases gp with _ | _ | _ | gp <;> norm_num)
    real_isSqrt ((two_closed id 0 flat3).ccw e (by rw [hm] at he; exact he)).ne' one_pos zero_le_one
    (by
      intro ed _ k gp hgp
      simp only [hatAux, sameIter, hat_const hgp]
      have : bathAt (calmOn m) ed gp = 3 := by
        cases ed <;> simp only [bathAt, bathHat, sideBath, calm_bed]
        norm_num
      rw [this]
      have : (calmOn m).v.src.g = 10 := rfl
      rw [this]
      linarith)
    (by
      intro ed _
      simp only [surf, surfaceJ, calmOn, plainEnv]
      exact div_nonneg (Real.sqrt_nonneg _) zero_le_two)
    q0 prev
  have hn : 3 * ndof ((calmOn m).dat e).elt.p = 3 := by simp [calmOn, twoTris, ndof]
  rw [hn]
  exact exactInv_diag hd.ne' h

theorem calm_same (m : Mesh ℝ) (U : Q ℝ) : Everywhere (calmOn m) U (sameIter U) := everywhere_const (fun _ _ _ _ _ => rfl) fun _ _ => rfl

theorem calm_finite (m : Mesh ℝ) (q : State ℝ) : finite (calmOn m) q = true := by simp [finite, dsource, calmOn, plainEnv]

theorem calm_pos (m : Mesh ℝ) (k : ℕ) (hk : k < (skel (calmOn m)).edges.length) : 0 < (skel (calmOn m)).esize k := by
  have hk' : k < (edgesOf (calmOn m).m).length := by simpa [skel] using hk
  rw [esize_eq hk']
  show 0 < 3 * (faceRule exactN ((edgesOf (calmOn m).m)[k].p (calmOn m).dat)).length
  simp [faceRule, exactN]

theorem basin_mesh : FlowMesh (calmOn twoMesh) 1 := by
  refine ⟨real_isSqrt, fun _ => rfl, (fun h => by cases h), (by decide), (two_closed id 0 flat3).ccw, fun _ _ => Nat.zero_le _, ?_, ?_, ?_, ?_, ?_, ?_⟩
  · intro e he
    rcases (by simpa [calmOn, twoMesh] using he : e = 0 ∨ e = 1) with rfl | rfl <;> decide
  · intro i hi
    obtain rfl : i = _ := by simpa [calmOn, twoMesh] using hi
    simp [calmOn, twoMesh]
  · intro i hi
    obtain rfl : i = _ := by simpa [calmOn, twoMesh] using hi
    simp [Swe.Props.edge, vertex, twoTris, calmOn]
  · intro i hi
    obtain rfl : i = _ := by simpa [calmOn, twoMesh] using hi
    rfl
  · intro i hi gp hgp
    rw [calm_bed, calm_bed]
  · intro b hb
    rcases (by simpa [calmOn, twoMesh] using hb : b = _ ∨ b = _ ∨ b = _ ∨ b = _) with rfl | rfl | rfl | rfl <;> simp [calmOn, twoMesh]

theorem basin_wf : WellFormed (skel (calmOn twoMesh)) := by
  refine ⟨?_, ?_, calm_pos _⟩
  · simp [skel, edgesOf, calmOn, twoMesh, Edg.sides]
  · intro c hc
    simp only [skel, edgesOf, calmOn, twoMesh, Edg.sides, List.map_cons, List.map_nil, List.cons_append, List.nil_append, List.flatten_cons, List.flatten_nil,
      List.mem_cons, List.not_mem_nil, or_false, List.append_nil] at hc ⊢
    rcases hc with rfl | rfl | rfl | rfl | rfl | rfl <;> simp

theorem basin_land (L : ℝ) : ∀ b ∈ (calmOn twoMesh).m.bnds, Admits (calmOn twoMesh) ⟨L, 0, 0⟩ b := by
  intro b hb
  rcases (by simpa [calmOn, twoMesh] using hb : b = _ ∨ b = _ ∨ b = _ ∨ b = _) with rfl | rfl | rfl | rfl <;> simp [Admits]

/-- A step of a lake at rest succeeds, with exact inverses and an exact solver, and leaves it at rest. -/
theorem basin_step {L : ℝ} (hL : -3 ≤ L) : ∃ it', stage (calmOn twoMesh) (sameIter ⟨L, 0, 0⟩) = some it' ∧ Everywhere (calmOn twoMesh) ⟨L, 0, 0⟩ it' := by
  have hst := rest_step (S := calmOn twoMesh) exact_rules basin_mesh (basin_land L) (calm_same _ _)
  obtain ⟨it', h1, h2⟩ := stage_succeeds (S := calmOn twoMesh) rfl rfl basin_wf Real.sqrt_zero hst (calm_finite _ _) (calm_blocks _ rfl hL _ _)
  exact ⟨it', h1, everywhere_same (calm_same _ _) h2⟩

/-- With friction it fails. -/
example (L : ℝ) : stage { calmOn twoMesh with v := { (calmOn twoMesh).v with src := { (calmOn twoMesh).v.src with bottomFriction := true } } } (sameIter ⟨L, 0, 0⟩) = none :=
  rest_friction (S := { calmOn twoMesh with v := { (calmOn twoMesh).v with src := { (calmOn twoMesh).v.src with bottomFriction := true } } }) (F := dubF id) (P := 1) (ε := 0)
    exact_rules Real.sqrt_zero rfl (L := L) (fun _ _ _ _ _ => rfl) (e := 0) (by simp [calmOn, twoMesh]) (by simp [calmOn, plainEnv, Elt.gps, exactN])

theorem channel_mesh : FlowMesh (calmOn channel) 1 := by
  have h := channel_stream exactN 0 0
  exact ⟨h.sqrt, h.sp, (fun hf => by cases hf), h.nodup, h.ccw, fun _ _ => Nat.zero_le _, h.cover, h.ends, h.edges, h.internal, (fun i hi gp hgp => by rw [calm_bed, calm_bed]), h.owner⟩

theorem channel_wf : WellFormed (skel (calmOn channel)) := by
  refine ⟨?_, ?_, calm_pos _⟩
  · simp [skel, edgesOf, calmOn, channel, Edg.sides]
  · intro c hc
    simp only [skel, edgesOf, calmOn, channel, Edg.sides, List.map_cons, List.map_nil, List.cons_append, List.nil_append, List.flatten_cons, List.flatten_nil,
      List.mem_cons, List.not_mem_nil, or_false, List.append_nil] at hc ⊢
    rcases hc with rfl | rfl | rfl | rfl | rfl | rfl <;> simp

theorem channel_ends : ∀ b ∈ (calmOn channel).m.bnds, Admits (calmOn channel) ⟨1 / 2, 2, 0⟩ b := by
  have h := channel_stream exactN 0 0
  intro b hb
  have hf := h.follows b hb
  rcases (by simpa [calmOn, channel] using hb : b = _ ∨ b = _ ∨ b = _ ∨ b = _) with rfl | rfl | rfl | rfl
  · intro gp
    have := hf gp
    simpa [forcing, forcingIter, calmOn, plainEnv] using this
  · exact hf
  · intro gp
    norm_num [forcingIter, calmOn, plainEnv]
  · exact hf

/-- A step of a stream through a channel that is open at both ends. -/
theorem channel_step : ∃ it', stage (calmOn channel) (sameIter ⟨1 / 2, 2, 0⟩) = some it' ∧ Everywhere (calmOn channel) ⟨1 / 2, 2, 0⟩ it' := by
  have hst := stream_step (S := calmOn channel) (b := 3) exact_rules channel_mesh ⟨rfl, fun _ _ _ _ => rfl, by norm_num⟩ channel_ends (calm_same _ _)
  obtain ⟨it', h1, h2⟩ := stage_succeeds (S := calmOn channel) rfl rfl channel_wf Real.sqrt_zero hst (calm_finite _ _) (calm_blocks _ rfl (by norm_num) _ _)
  exact ⟨it', h1, everywhere_same (calm_same _ _) h2⟩

end Verif.Ihdg.Props
