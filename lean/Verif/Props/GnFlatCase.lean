import Verif.Props.GnFlat
import Verif.Props.GnConsistentCase

/-!
# C93, C94: cases

Two triangles with rules that are exact for linear elements: three midpoints in the triangle, the Gauss rule of two points on edges.
-/

namespace Verif.Gn.Props
open Verif.Swe Verif.Swe.Props Verif.Geometry Verif.Geometry.Props Verif.Element Verif.Edge Verif.Edge.Props Verif.Ehdg Verif.Ihdg Verif.Ihdg.Props Verif.Stepper MvPolynomial
open Verif.Basis (dofPair)

/-- Exact rules for degree one with two points on an edge. -/
noncomputable def gaussN : Numerics ℝ where
  basis := exactN.basis
  tri := exactN.tri
  line _ := [(1, -√(1 / 3)), (1, √(1 / 3))]

theorem third : √(1 / 3 : ℝ) ^ 2 = 1 / 3 := Real.sq_sqrt (by norm_num)

theorem gauss_rules : Rules gaussN (dubF id) 1 0 := by
  refine ⟨exact_rules.phi0, exact_rules.degree, exact_rules.basis, exact_rules.pts, exact_rules.tri, fun p hp k hk => ?_⟩
  rw [Quadrature.Props.m1_integral, abs_nonpos_iff]
  have h3 : (√(1 / 3 : ℝ)) ^ 3 = √(1 / 3) * (1 / 3) := by rw [pow_succ, third]; ring
  have : k = 0 ∨ k = 1 ∨ k = 2 ∨ k = 3 := by omega
  rcases this with rfl | rfl | rfl | rfl
  · norm_num [gaussN, Quadrature.Props.m1]
  · norm_num [gaussN, Quadrature.Props.m1]
  · simp only [gaussN, List.map_cons, List.map_nil, List.sum_cons, List.sum_nil, neg_sq, third, Quadrature.Props.m1]; norm_num
  · simp only [gaussN, List.map_cons, List.map_nil, List.sum_cons, List.sum_nil, Quadrature.Props.m1, Odd.neg_pow (by decide : Odd 3)]; norm_num

theorem gauss_orthogonal : Orthogonal gaussN (dubF id) 1 := by
  intro d hd
  have hn : ndof 1 ≤ ndof 10 := by decide
  obtain ⟨h1, h2⟩ := code_orthogonal Basis.Props.rounding_id d (lt_of_lt_of_le hd hn)
  exact ⟨h1, fun d' hd' => h2 d' (lt_of_lt_of_le hd' hn)⟩

theorem gauss_minv : ∀ d, 0 < gaussN.basis.minv d := by
  intro d
  show 0 < Basis.minv (K := ℝ) _ _
  unfold Basis.minv
  positivity

/-- The dispersive correction over two triangles. -/
noncomputable def gaussDc (m : Mesh ℝ) (wd : Bool) (slv : Solver ℝ) : Dc ℝ :=
  ⟨plainEnv gaussN Real.sqrt, twoTris 1 flat3, m, 1, -20, exactInv, slv, wd, 2, fun _ _ _ _ => 0, fun _ _ _ _ _ => 0, fun _ _ _ _ => 0⟩

theorem chan_grad : GradMesh (twoTris 1 flat3) channel 1 := by
  refine ⟨(two_closed id 1 flat3).ccw, fun _ _ => le_rfl, ?_, ?_, ?_, ?_⟩
  · intro e he
    rcases (by simpa [channel] using he : e = 0 ∨ e = 1) with rfl | rfl <;> simp [facesOf, channel] <;> decide
  · intro i hi
    obtain rfl : i = _ := by simpa [channel] using hi
    simp [channel]
  · intro j hj
    obtain rfl : j = _ := by simpa [channel] using hj
    simp [twoTris, startOf, endOf]
  · intro b hb
    rcases (by simpa [channel] using hb : b = _ ∨ b = _ ∨ b = _ ∨ b = _) with rfl | rfl | rfl | rfl <;> simp [channel]

theorem gauss_rule (m : Mesh ℝ) (wd : Bool) (slv : Solver ℝ) (ed : Edg ℝ) : rule (gaussDc m wd slv).geo ed = [(1, -√(1 / 3)), (1, √(1 / 3))] := rfl

theorem gauss_fits (m : Mesh ℝ) (wd : Bool) (slv : Solver ℝ) {ed : Edg ℝ} (hf : ed.own.f < 3) : Fits (tab (gaussDc m wd slv).geo ed) := by
  have hp1 : ed.p (gaussDc m wd slv).geo.dat = 1 := by cases ed <;> rfl
  have hpos : (0 : ℝ) < (√3)⁻¹ := by positivity
  have hJ : 0 < surf (gaussDc m wd slv).geo ed := by
    have h3 : ed.own.f = 0 ∨ ed.own.f = 1 ∨ ed.own.f = 2 := by omega
    simp only [surf, surfaceJ, Dc.geo, gaussDc, plainEnv, twoTris]
    refine div_pos (Real.sqrt_pos.2 ?_) two_pos
    rcases h3 with h | h | h <;> rw [h] <;> by_cases h0 : ed.own.e = 0 <;> simp [h0, vertex] <;> norm_num
  have hx : ∀ i < 2, ∀ j < 2, (([(1, -√(1 / 3)), (1, √(1 / 3))] : List (ℝ × ℝ)).getD i (0, 0)).2 = (([(1, -√(1 / 3)), (1, √(1 / 3))] : List (ℝ × ℝ)).getD j (0, 0)).2 → i = j := by
    intro i hi j hj h
    interval_cases i <;> interval_cases j <;> simp at h ⊢ <;> linarith
  refine ⟨rfl, ?_, fun gp hgp => ?_, independent (n := 2) (by norm_num) hx, independent_points (n := 2) (by norm_num) hx⟩
  · show 2 ≤ ed.p _ + 1
    rw [hp1]
  · refine mul_pos ?_ hJ
    have hgp : gp < 2 := hgp
    interval_cases gp <;> exact one_pos

theorem gauss_edgeOk {m : Mesh ℝ} (wd : Bool) (slv : Solver ℝ) (hw : Whole (dcSkel (gaussDc m wd slv))) : EdgeOk (gaussDc m wd slv) := by
  refine ⟨hw.nodup, fun ed _ gp hgp => ?_, fun _ _ => rfl⟩
  have hgp : gp < 2 := hgp
  rw [gauss_rule]
  interval_cases gp <;> rfl

theorem gauss_basin {m : Mesh ℝ} (wd : Bool) (slv : Solver ℝ) (hw : Whole (dcSkel (gaussDc m wd slv))) (hn : m.elts.Nodup)
    (he : ∀ e ∈ m.elts, e = 0 ∨ e = 1) (hp : ∀ i ∈ m.ints, i.kind = .internal) : Basin (gaussDc m wd slv) := by
  have hf : ∀ ed ∈ edgesOf m, ∀ s ∈ ed.sides, s.e ∈ m.elts ∧ s.f < 3 := fun ed hed s hs =>
    hw.elt ⟨s.e, s.f⟩ (List.mem_flatten.2 ⟨_, List.mem_map_of_mem hed, List.mem_map.2 ⟨_, hs, rfl⟩⟩)
  have ho : ∀ ed : Edg ℝ, ed.own ∈ ed.sides := fun ed => by cases ed <;> simp [Edg.sides, Edg.own]
  refine ⟨hn, fun ed hed s hs => (hf ed hed s hs).1, gauss_edgeOk wd slv hw, fun ed hed => gauss_fits m wd slv (hf ed hed _ (ho ed)).2, hp, fun ed hed => ?_⟩
  obtain ⟨h1, h2⟩ := hf ed hed _ (ho ed)
  have hj : 0 < jdet (twoTris 1 flat3 ed.own.e).elt.tri := by
    rcases he _ h1 with h | h <;> rw [h] <;> norm_num [twoTris, jdet, Geometry.det, jac]
  exact (normal_spec real_isSqrt _ hj _ h2).1

theorem two_whole (wd : Bool) (slv : Solver ℝ) : Whole (dcSkel (gaussDc twoMesh wd slv)) := by
  refine ⟨?_, ?_, ?_⟩ <;> simp [dcSkel, gaussDc, edgesOf, twoMesh, Edg.sides]
  omega

theorem chan_whole (wd : Bool) (slv : Solver ℝ) : Whole (dcSkel (gaussDc channel wd slv)) := by
  refine ⟨?_, ?_, ?_⟩ <;> simp [dcSkel, gaussDc, edgesOf, channel, Edg.sides]
  omega

theorem two_basin (wd : Bool) (slv : Solver ℝ) : Basin (gaussDc twoMesh wd slv) :=
  gauss_basin wd slv (two_whole wd slv) (by decide) (by simp [twoMesh]) (by simp [twoMesh])

theorem chan_basin (wd : Bool) (slv : Solver ℝ) : Basin (gaussDc channel wd slv) :=
  gauss_basin wd slv (chan_whole wd slv) (by simp [channel]) (by simp [channel]) (by simp [channel])

theorem two_definite (wd : Bool) (slv : Solver ℝ) : Definite (gaussDc twoMesh wd slv) :=
  definite_exact gauss_rules gauss_orthogonal (fun d _ => gauss_minv d) (two_grad le_rfl flat3)

/-- Depth 4, discharges `c`. -/
def level (c : ℕ → Fin 3 → ℕ → ℝ) : State ℝ := fun e var d => if var = 0 then if d = 0 then 1 else 0 else c e var d

theorem two_flat (wd : Bool) (slv : Solver ℝ) (wet : ℕ → Bool) (c : ℕ → Fin 3 → ℕ → ℝ) : Flat (gaussDc twoMesh wd slv) wet (level c) (1 + 3) :=
  uniform_flat (D := gaussDc twoMesh wd slv) gauss_rules gauss_orthogonal real_isSqrt (two_grad le_rfl flat3) (fun _ _ _ _ => rfl) (fun _ _ _ _ => rfl) (by norm_num) wet

theorem two_solvable (wd : Bool) {wet : ℕ → Bool} (hw : wet 0 = true ∧ wet 1 = true) (c : ℕ → Fin 3 → ℕ → ℝ) {t0 : Index} (h0 : Fresh (gaussDc twoMesh wd exactSlv) t0) :
    (solveDc exactInv exactSlv (dcSkel (gaussDc twoMesh wd exactSlv)) wd wet t0 (dcBlocks (gaussDc twoMesh wd exactSlv) wet (level c))).isSome :=
  solvable_partial (D := gaussDc twoMesh wd exactSlv) (two_basin _ _) (two_flat _ _ wet c) (two_definite _ _) one_pos (by norm_num [gaussDc]) (two_whole _ _) (by norm_num [gaussDc])
    exact_complete (by simp [edgesOf, gaussDc, twoMesh, Edg.sides, hw]) h0

/-- **C94** Whatever the discharges, there is a solution at constant depth; with the exact libraries it is found, bounded by the source, and the only one. -/
example (wd : Bool) (c : ℕ → Fin 3 → ℕ → ℝ) : let D := gaussDc twoMesh wd exactSlv; let R := fun e a z => dcSource D.v.src.g D.al (ptAt D (level c) e z) a
    ∃ t x w1 w2, solveDc D.I D.slv (dcSkel D) D.wd (fun _ => true) (initial (dcSkel D)) (dcBlocks D (fun _ => true) (level c)) = some (t, x, w1) ∧
      Weak D (fun _ => true) (level c) R w1 w2 (trace (dcSkel D) t x) ∧
      (([0, 1].map fun e => area D e fun z => vec D w1 e 0 z ^ 2 + vec D w1 e 1 z ^ 2).sum ≤
        ([0, 1].map fun e => area D e fun z => vec D w1 e 0 z * R e 0 z + vec D w1 e 1 z * R e 1 z).sum) ∧
      ∀ w1' w2' y', Weak D (fun _ => true) (level c) R w1' w2' y' → ∀ i < 2 * ndof 1, w1 0 i = w1' 0 i := by
  intro D R
  obtain ⟨⟨t, x, w1⟩, h⟩ := Option.isSome_iff_exists.1 (two_solvable wd (wet := fun _ => true) ⟨rfl, rfl⟩ c (t0 := initial (dcSkel D)) fun _ => rfl)
  obtain ⟨w2, hW⟩ := correction_weak (D := D) (q := level c) exactInv_right exactSlv_solves (two_whole _ _) (two_basin wd exactSlv).edges (two_basin wd exactSlv).fits
    (two_basin wd exactSlv).plain (fun _ => initial_numbered (two_whole _ _) _) h
  refine ⟨t, x, w1, w2, h, hW, bounded (two_basin _ _) (two_flat _ _ _ c) (two_definite _ _) zero_le_one (by norm_num [D, gaussDc]) hW, fun w1' w2' y' hW' i hi => ?_⟩
  exact ((flat_unique (two_basin _ _) (two_flat _ _ _ c) (two_definite _ _) one_pos (by norm_num [D, gaussDc]) hW hW').1 0 (by simp [gaussDc, twoMesh]) rfl).1 i hi

/-- **C93** A stage of the correction from any discharges at constant depth leaves the levels. -/
example (c : ℕ → Fin 3 → ℕ → ℝ) (corr : ℕ → Bool) (tab : Tableau) (ht : tableau 1 1 = some tab) (wd : Bool) : let D := gaussDc twoMesh wd exactSlv
    ∃ s' sl', dcStages D tab 1 (1 / 10) corr (fun _ => false) 1 ⟨⟨[⟨level c, 0⟩, ⟨0, 0⟩], 0, fun _ => true, false⟩, initial (dcSkel D)⟩ = .ok s' ∧
      s'.run.slots[s'.run.stage]? = some sl' ∧ ∀ e d, sl'.q e 0 d = if d = 0 then 1 else 0 := by
  intro D
  have hsol : Succeeds D (· = level c) (· = fun _ => true) := by
    rintro q wet t0 rfl rfl h0
    exact two_solvable wd ⟨rfl, rfl⟩ c h0
  obtain ⟨s1, h1, -⟩ := dcStage_ok (S := fun _ => True) (corr := corr) (troubled := fun _ => false) (M := ⟨tab, 1, 1 / 10⟩) (o := 1) ht hsol
    (s := ⟨⟨[⟨level c, 0⟩, ⟨0, 0⟩], 0, fun _ => true, false⟩, initial (dcSkel D)⟩)
    (ready_inv (n := 1) ⟨rfl, by simp, ⟨_, rfl, rfl⟩, rfl⟩ one_pos le_rfl) fun _ => rfl
  have h2 : dcStages D tab 1 (1 / 10) corr (fun _ => false) 1 ⟨⟨[⟨level c, 0⟩, ⟨0, 0⟩], 0, fun _ => true, false⟩, initial (dcSkel D)⟩ = .ok s1 := by
    rw [dcStages, dcStages, okBind]; exact h1
  obtain ⟨sl', h3, h4, -⟩ := correction_levels (M := ⟨tab, 1, 1 / 10⟩) (o := 1) ht (by simp [exactRows]) rfl (by simp) rfl 1 h2
  exact ⟨s1, sl', h2, h3, fun e d => h4 e d⟩

/-- **C93** A step of the program with the stream through the channel. -/
example (wd : Bool) (corr troubled : ℕ → Bool) (M : Tableau) (ht : tableau 3 3 = some M) (junk : State ℝ) :
    let D := gaussDc channel wd exactSlv
    let x := fun _ : ℕ => Ehdg.Props.passing D.v D.dat ⟨1 / 2, 2, 0⟩
    ∃ s' sl', strangStep D ⟨M, 3, 1 / 20⟩ ⟨M, 3, 1 / 10⟩ ⟨none, none⟩ (sweRhs D junk (fun _ => 0) x) (sweRhs D junk (fun _ => 0) x) corr troubled
      ⟨⟨[⟨fun _ var d => if d = 0 then ![1 / 2, 2, 0] var else 0, 0⟩, ⟨0, 0⟩, ⟨0, 0⟩, ⟨0, 0⟩], 0, fun _ => true, false⟩, initial (dcSkel D)⟩ = .ok s' ∧
      s'.run.slots[0]? = some sl' ∧ sl'.q 0 0 0 = 1 / 2 ∧ sl'.q 1 1 0 = 2 := by
  intro D x
  obtain ⟨s', sl', h1, -, -, -, -, h2, h3⟩ := strang_runs (D := D) (corr := corr) (troubled := troubled) exactSlv_zero gauss_rules gauss_orthogonal chan_grad
    (fun d _ => gauss_minv d) (chan_basin _ _) one_pos (by norm_num [D, gaussDc]) (chan_whole _ _) (by norm_num [D, gaussDc]) exact_complete
    (M := ⟨M, 3, 1 / 20⟩) (N := ⟨M, 3, 1 / 10⟩) (o := 3) (o' := 3) ht (by simp [exactRows]) ht (by simp [exactRows]) (U := ⟨1 / 2, 2, 0⟩) (b := 3) (by norm_num)
    ⟨none, none⟩ (fun _ h => by cases h) (fun _ _ => le_rfl) junk junk (fun _ => 0) (fun _ => 0) (fun _ => 1) (fun _ => 1) (fun _ => channel_stream gaussN 0 1)
    (fun _ => channel_stream gaussN 0 1) x x (fun _ _ _ _ _ _ => rfl) (fun _ _ _ _ _ _ => rfl)
    (s := ⟨⟨[⟨fun _ var d => if d = 0 then ![1 / 2, 2, 0] var else 0, 0⟩, ⟨0, 0⟩, ⟨0, 0⟩, ⟨0, 0⟩], 0, fun _ => true, false⟩, initial (dcSkel D)⟩) rfl (by simp) rfl
    (fun e _ d _ var => by fin_cases var <;> simp [Swe.comp]) (fun _ _ => rfl) fun _ => rfl
  exact ⟨s', sl', h1, h2, h3 0 (by simp [D, gaussDc, channel]) 0 (ndof_pos _) 0, h3 1 (by simp [D, gaussDc, channel]) 0 (ndof_pos _) 1⟩

/-! ### A levee -/

open Classical in
/-- A solver which refuses singular matrices. -/
noncomputable def strictSlv : Solver ℝ := fun n A r => if Regular n A then exactSlv n A r else none

/-- The two triangles with a levee between them. -/
def dammed : Mesh ℝ := ⟨[0, 1], [⟨0, 0, 1, 0, .levee fun _ => ⟨1, 1, 1⟩⟩], [⟨0, 1, .land⟩, ⟨0, 2, .land⟩, ⟨1, 1, .land⟩, ⟨1, 2, .land⟩], []⟩

theorem dam_whole (wd : Bool) (slv : Solver ℝ) : Whole (dcSkel (gaussDc dammed wd slv)) := by
  refine ⟨?_, ?_, ?_⟩ <;> simp [dcSkel, gaussDc, edgesOf, dammed, Edg.sides]
  omega

/-- **C94** No state of the two triangles with a levee is corrected. -/
example (wd : Bool) (q : State ℝ) : let D := gaussDc dammed wd strictSlv
    solveDc D.I D.slv (dcSkel D) D.wd (fun _ => true) (initial (dcSkel D)) (dcBlocks D (fun _ => true) q) = none := by
  intro D
  refine levee_fails (D := D) (dam_whole _ _) (by norm_num [D, gaussDc]) (fun n A r x h => ?_) (fun _ => rfl) q (List.mem_singleton.2 rfl) rfl ⟨fun _ _ _ => rfl, fun _ _ _ _ => rfl, fun _ _ _ => rfl⟩ (Or.inl rfl)
  by_contra hA
  simp only [D, gaussDc, strictSlv, if_neg hA] at h
  cases h

end Verif.Gn.Props
