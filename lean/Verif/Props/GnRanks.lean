import Verif.Lemmas.GnRanks
import Verif.Props.GnParallelRegular
import Verif.Props.GnFlatCase

/-!
# C96, C97: the dispersive correction on several ranks computes what it computes on one
-/

namespace Verif.Gn.Props
open Verif.Geometry Verif.Geometry.Props Verif.Element Verif.Swe Verif.Swe.Props Verif.Edge Verif.Edge.Props Verif.Ehdg Verif.Ihdg Verif.Ihdg.Props

variable {K : Type} [Field K] [LinearOrder K] [IsStrictOrderedRing K]

/-- The ranks share out the mesh of `D`, the interfaces `cut` have become pairs of distributed boundaries: none of them is a levee, their interior side is the one
that comes first in the order of localities and submeshes, and the weights of their rules are symmetric. -/
structure Ranked (D : Dc K) (W : Ranks K) (cut : List (Iface K)) : Prop where
  part : Partitioned (fun i => (i.rule D.v D.dat).length) D.m W.meshes cut
  sides : ∀ i ∈ cut, Swe.Props.Fits D.v D.dat i
  plain : ∀ i ∈ cut, i.kind = .internal
  order : ∀ i ∈ cut, (W.home i.ein).1 < (W.home i.eex).1 ∨ ((W.home i.ein).1 = (W.home i.eex).1 ∧ (W.home i.ein).2 < (W.home i.eex).2)
  weights : ∀ i ∈ cut, ∀ gp < (i.rule D.v D.dat).length, weight (i.rule D.v D.dat) gp = weight (i.rule D.v D.dat) ((i.rule D.v D.dat).length - gp - 1)

section
variable {D : Dc K} {W : Ranks K} {cut : List (Iface K)} {i : Iface K}

/-! ### Derivatives -/

/-- **C96** All derivatives on several ranks are those of the whole mesh. -/
theorem derivs_ranks (h : Ranked D W cut) (q : State K) : derivs D.v D.dat (gradP D.v D.dat W.meshes) q =
    ⟨dze D.v D.dat D.m q, du D.v D.dat D.m q, ddu D.v D.dat D.m q, dbath D.v D.dat D.m, ddbath D.v D.dat D.m, dddbath D.v D.dat D.m⟩ := by
  have : gradP D.v D.dat W.meshes = grad D.v D.dat D.m := by
    funext F dir e
    exact gradP_eq h.part h.sides F dir e
  rw [this]
  rfl

/-! ### Kernels at a cut -/

theorem before_in (h : Ranked D W cut) (hi : i ∈ cut) : before (W.home i.ein) (W.home i.eex) = true := (before_iff _ _).2 (h.order i hi)

theorem ruleD_in (h : Ranked D W cut) (hi : i ∈ cut) : ruleD D.v D.dat (halfIn i) = i.rule D.v D.dat := (rule_eq (h.sides i hi)).1.symm

theorem ruleD_ex (h : Ranked D W cut) (hi : i ∈ cut) (n : ℕ) : ruleD D.v D.dat (halfEx n i) = i.rule D.v D.dat := (rule_eq (h.sides i hi)).2.symm

theorem tab_in (h : Ranked D W cut) (hi : i ∈ cut) : tabD D W (halfIn i) = tab D.geo (.int i) := by
  unfold tabD tab
  rw [ruleD_in h hi]
  simp only [halfIn]
  rw [before_in h hi]
  simp only [Edg.p, Dc.geo]
  rw [← (h.sides i hi).degree, max_self]
  rfl

theorem ngp_ex (h : Ranked D W cut) (hi : i ∈ cut) (n : ℕ) : (tabD D W (halfEx n i)).ngp = (i.rule D.v D.dat).length ∧
    (tabD D W (halfEx n i)).ndof = (i.rule D.v D.dat).length := by
  unfold tabD
  rw [ruleD_ex h hi]
  exact ⟨rfl, rfl⟩

/-- At a point the exterior half has the values of the interface at the same point. -/
theorem intLam_ex (h : Ranked D W cut) (hi : i ∈ cut) (n : ℕ) {gp : ℕ} (hg : gp < (i.rule D.v D.dat).length) (j : ℕ) :
    intLam (tabD D W (halfEx n i)) gp j = intLam (tab D.geo (.int i)) ((i.rule D.v D.dat).length - gp - 1) j ∧
      (tabD D W (halfEx n i)).lam j gp = (tab D.geo (.int i)).lam j ((i.rule D.v D.dat).length - gp - 1) := by
  have hl : (tabD D W (halfEx n i)).lam j gp = (tab D.geo (.int i)).lam j ((i.rule D.v D.dat).length - gp - 1) := by
    have hb : before (W.home (halfEx n i).e) (W.home (halfEx n i).e') = false := before_asymm (before_in h hi)
    unfold tabD tab
    rw [ruleD_ex h hi, hb]
    simp only [tables, Bool.false_eq_true, if_false, if_true]
    rw [turned_eq _ _ _ hg]
    rfl
  refine ⟨?_, hl⟩
  unfold intLam
  rw [hl]
  congr 1
  have hw := h.weights i hi gp hg
  unfold tabD tab
  rw [ruleD_ex h hi]
  simp only [tables]
  have hJ : surfaceJ D.v.sq (D.dat (halfEx n i).e).elt.tri (halfEx n i).f = surf D.geo (.int i) := J_ex (h.sides i hi)
  rw [hJ]
  congr 1

theorem intPhiLam_in (h : Ranked D W cut) (hi : i ∈ cut) (a b : ℕ) (F : ℕ → K) :
    intPhiLamD D W (halfIn i) a b F = intPhiLam D.geo (.int i) ⟨i.ein, i.fin, false⟩ a b F := by
  unfold intPhiLamD intPhiLam
  rw [tab_in h hi, ruleD_in h hi]
  rfl

theorem intPhiLam_ex (h : Ranked D W cut) (hi : i ∈ cut) (n a b : ℕ) {F G : ℕ → K} (hF : ∀ gp < (i.rule D.v D.dat).length, F gp = G gp) :
    intPhiLamD D W (halfEx n i) a b F = intPhiLam D.geo (.int i) ⟨i.eex, i.fex, true⟩ a b G := by
  unfold intPhiLamD intPhiLam
  rw [(ngp_ex h hi n).1, (ngp_ex h hi n).2, ruleD_ex h hi]
  refine Finset.sum_congr rfl fun gp hgp => ?_
  have hg := Finset.mem_range.1 hgp
  rw [hF gp hg]
  congr 1
  unfold flatten
  beta_reduce
  rw [(intLam_ex h hi n hg _).1]
  rfl

omit [LinearOrder K] [IsStrictOrderedRing K] in
theorem block2_congr {n : ℕ} {I I' : (ℕ → K) → K} {M M' : ℕ → ℕ → ℕ → K} (hI : ∀ F G : ℕ → K, (∀ gp < n, F gp = G gp) → I F = I' G)
    (hM : ∀ gp < n, ∀ a c, M gp a c = M' gp a c) (r s : ℕ) : block2 I M r s = block2 I' M' r s := by
  unfold block2 reshape
  exact hI _ _ fun gp hg => by unfold flatten; exact hM gp hg _ _

variable (R : Derivs K)

theorem dist11_half (h : Ranked D W cut) (hi : i ∈ cut) (n : ℕ) : dist11 D (halfIn i) = side11 D (.int i) ⟨i.ein, i.fin, false⟩ ∧
    dist11 D (halfEx n i) = side11 D (.int i) ⟨i.eex, i.fex, true⟩ := by
  constructor
  · funext r k
    unfold dist11 side11
    rw [ruleD_in h hi]; rfl
  · funext r k
    unfold dist11 side11
    rw [ruleD_ex h hi]
    have hJ : surfaceJ D.v.sq (D.dat (halfEx n i).e).elt.tri (halfEx n i).f = surf D.geo (.int i) := J_ex (h.sides i hi)
    rw [hJ]; rfl

theorem normalD_ex (h : Ranked D W cut) (hi : i ∈ cut) (n : ℕ) : normalD D (halfEx n i) = nrmOf D (.int i) ⟨i.eex, i.fex, true⟩ := normal_ex (h.sides i hi)

theorem dist1h_half (h : Ranked D W cut) (hi : i ∈ cut) (n : ℕ) (q : State K) : dist1h D R W q (halfIn i) = side1hR D R q (.int i) ⟨i.ein, i.fin, false⟩ ∧
    dist1h D R W q (halfEx n i) = side1hR D R q (.int i) ⟨i.eex, i.fex, true⟩ := by
  constructor
  · funext r k
    unfold dist1h side1hR
    refine block2_congr (n := (i.rule D.v D.dat).length) (fun F G hFG => ?_) (fun gp _ a c => ?_) r k
    · rw [intPhiLam_in h hi]
      unfold intPhiLam
      refine Finset.sum_congr rfl fun gp hgp => ?_
      rw [hFG gp (Finset.mem_range.1 hgp)]
    · unfold hat1KernelD hat1KernelR bedHatR hHat
      have e1 : ∀ F : Row K, hatD D.v D.dat F (halfIn i) gp = hatIn D.v D.dat F i gp := fun F => hatD_in (h.sides i hi) F _ gp
      rw [e1, e1]
      rfl
  · funext r k
    unfold dist1h side1hR
    refine block2_congr (n := (i.rule D.v D.dat).length) (fun F G hFG => intPhiLam_ex h hi n _ _ hFG) (fun gp hg a c => ?_) r k
    unfold hat1KernelD hat1KernelR bedHatR hHat
    have e1 : ∀ F : Row K, hatD D.v D.dat F (halfEx n i) gp = hatEx D.v D.dat F i gp := fun F => hatD_ex (h.sides i hi) F _ hg
    rw [e1, e1, normalD_ex h hi]
    rfl

theorem dist2h_half (h : Ranked D W cut) (hi : i ∈ cut) (n : ℕ) (q : State K) : dist2h D W q (halfIn i) = side2h D q (.int i) ⟨i.ein, i.fin, false⟩ ∧
    dist2h D W q (halfEx n i) = side2h D q (.int i) ⟨i.eex, i.fex, true⟩ := by
  constructor
  · funext r k
    unfold dist2h side2h
    rw [intPhiLam_in h hi]
    congr 1
    funext gp
    have e1 : ∀ F : Row K, hatD D.v D.dat F (halfIn i) gp = hatIn D.v D.dat F i gp := fun F => hatD_in (h.sides i hi) F _ gp
    rw [e1]; rfl
  · funext r k
    unfold dist2h side2h
    refine intPhiLam_ex h hi n _ _ fun gp hg => ?_
    have e1 : ∀ F : Row K, hatD D.v D.dat F (halfEx n i) gp = hatEx D.v D.dat F i gp := fun F => hatD_ex (h.sides i hi) F _ hg
    rw [e1, normalD_ex h hi]; rfl

theorem kind_ex (h : Ranked D W cut) (hi : i ∈ cut) (n : ℕ) : (halfIn i).kind = .internal ∧ (halfEx n i).kind = .internal := by
  unfold halfIn halfEx
  simp [h.plain i hi, Swe.Props.turned]

/-- Blocks of the global rows of the wet halves. -/
theorem disth_half (h : Ranked D W cut) (hi : i ∈ cut) (n : ℕ) (wet : ℕ → Bool) :
    (wet i.ein → disth1 D W wet (halfIn i) = sideh1 D wet (.int i) ⟨i.ein, i.fin, false⟩ ∧ disth2 D W wet (halfIn i) = sideh2 D wet (.int i) ⟨i.ein, i.fin, false⟩) ∧
    (wet i.eex → disth1 D W wet (halfEx n i) = sideh1 D wet (.int i) ⟨i.eex, i.fex, true⟩ ∧
      disth2 D W wet (halfEx n i) = sideh2 D wet (.int i) ⟨i.eex, i.fex, true⟩) := by
  refine ⟨fun hw => ⟨?_, ?_⟩, fun hw => ⟨?_, ?_⟩⟩
  · funext r k
    unfold disth1 sideh1
    refine block2_congr (n := (i.rule D.v D.dat).length) (fun F G hFG => ?_) (fun gp _ a c => ?_) r k
    · rw [intPhiLam_in h hi]
      unfold intPhiLam
      refine Finset.sum_congr rfl fun gp hgp => ?_
      rw [hFG gp (Finset.mem_range.1 hgp)]
    · unfold hat1D hat1Of
      rw [(kind_ex h hi n).1]
      simp only [h.plain i hi, hw, Bool.true_and]
      rfl
  · funext r k
    unfold disth2 sideh2
    rw [intPhiLam_in h hi]
    congr 1
    funext gp
    unfold hat2D hat2Of
    rw [(kind_ex h hi n).1]
    simp only [h.plain i hi, hw, Bool.true_and]
    rfl
  · funext r k
    unfold disth1 sideh1
    refine block2_congr (n := (i.rule D.v D.dat).length) (fun F G hFG => intPhiLam_ex h hi n _ _ hFG) (fun gp _ a c => ?_) r k
    unfold hat1D hat1Of
    rw [(kind_ex h hi n).2, normalD_ex h hi]
    simp only [h.plain i hi, hw, Bool.and_true]
    rfl
  · funext r k
    unfold disth2 sideh2
    refine intPhiLam_ex h hi n _ _ fun gp hg => ?_
    unfold hat2D hat2Of
    rw [(kind_ex h hi n).2, normalD_ex h hi]
    simp only [h.plain i hi, hw, Bool.and_true]
    rfl

/-- The halves of the edge's own block add up. -/
theorem disthh_half (h : Ranked D W cut) (hi : i ∈ cut) (n : ℕ) (wet : ℕ → Bool) (r k : ℕ) (hw : wet i.ein ∨ wet i.eex) :
    (if wet i.ein then disthh D W wet (halfIn i) r k else 0) + (if wet i.eex then disthh D W wet (halfEx n i) r k else 0) = edgehh D wet (.int i) r k := by
  have e1 : ∀ M : ℕ → ℕ → K, block2 (integral2 (tabD D W (halfEx n i)) (r / 2) (k / 2)) (fun _ => M) r k =
      block2 (integral2 (tab D.geo (.int i)) (r / 2) (k / 2)) (fun _ => M) r k := by
    intro M
    unfold block2 reshape integral2 intLamLam flatten
    rw [(ngp_ex h hi n).1, (ngp_ex h hi n).2]
    change _ = ∑ gp ∈ Finset.range (i.rule D.v D.dat).length, _
    rw [← Finset.sum_range_reflect]
    refine Finset.sum_congr rfl fun gp hgp => ?_
    have hg := Finset.mem_range.1 hgp
    obtain ⟨-, l1⟩ := intLam_ex h hi n hg (((i.rule D.v D.dat).length * (r / 2) + k / 2) / (i.rule D.v D.dat).length)
    obtain ⟨l2, -⟩ := intLam_ex h hi n hg (((i.rule D.v D.dat).length * (r / 2) + k / 2) % (i.rule D.v D.dat).length)
    rw [show (i.rule D.v D.dat).length - gp - 1 = (i.rule D.v D.dat).length - 1 - gp by omega] at l1 l2
    beta_reduce
    rw [l1, l2]
    rfl
  have lin : ∀ c d : K, block2 (integral2 (tab D.geo (.int i)) (r / 2) (k / 2)) (fun _ => diag2 c) r k + block2 (integral2 (tab D.geo (.int i)) (r / 2) (k / 2)) (fun _ => diag2 d) r k =
      block2 (integral2 (tab D.geo (.int i)) (r / 2) (k / 2)) (fun _ => diag2 (c + d)) r k := by
    intro c d
    unfold block2 reshape integral2 flatten diag2
    rw [← Finset.sum_add_distrib]
    refine Finset.sum_congr rfl fun gp _ => ?_
    beta_reduce
    split <;> ring
  have d1 : disthh D W wet (halfIn i) r k = block2 (integral2 (tab D.geo (.int i)) (r / 2) (k / 2)) (fun _ => if wet i.eex then diag2 (-D.tau) else diag2 (-1)) r k := by
    unfold disthh hatHatD
    rw [tab_in h hi, (kind_ex h hi n).1]; rfl
  have d2 : disthh D W wet (halfEx n i) r k = block2 (integral2 (tab D.geo (.int i)) (r / 2) (k / 2)) (fun _ => if wet i.ein then diag2 (-D.tau) else diag2 (-1)) r k := by
    rw [← e1]
    unfold disthh hatHatD
    rw [(kind_ex h hi n).2]; rfl
  have d3 : edgehh D wet (.int i) r k = block2 (integral2 (tab D.geo (.int i)) (r / 2) (k / 2)) (fun _ => if wet i.ein && wet i.eex then diag2 (-2 * D.tau) else diag2 (-1)) r k := by
    unfold edgehh hatHatKernel
    simp only [h.plain i hi]
  rw [d1, d2, d3]
  cases h1 : wet i.ein <;> cases h2 : wet i.eex
  · simp [h1, h2] at hw
  · simp
  · simp
  · simp only [if_true, Bool.and_self]
    rw [lin]
    congr 2
    funext _
    congr 1
    ring

/-! ### The system of equations -/

/-- The derivatives of the whole mesh. -/
def wholeDerivs (D : Dc K) (q : State K) : Derivs K :=
  ⟨dze D.v D.dat D.m q, du D.v D.dat D.m q, ddu D.v D.dat D.m q, dbath D.v D.dat D.m, ddbath D.v D.dat D.m, dddbath D.v D.dat D.m⟩

omit [IsStrictOrderedRing K] in
theorem cells_keys {α : Type} (g : Edg K → Sd → α) : (cells D.m g).map (fun c => (c.1, c.2.1)) = (dcSkel D).edges.flatten.map fun c => (c.e, c.f) := by
  unfold cells dcSkel
  rw [List.map_flatMap, List.map_flatten, List.map_map, List.flatMap]
  congr 1
  refine List.map_congr_left fun ed _ => ?_
  simp [edgCells]

omit [IsStrictOrderedRing K] in
theorem cells_nodup {α : Type} (hn : (dcSkel D).edges.flatten.Nodup) (g : Edg K → Sd → α) : ((cells D.m g).map fun c => (c.1, c.2.1)).Nodup := by
  rw [cells_keys]
  exact hn.map fun c d h => by cases c; cases d; simpa using h

/-- Arrays of faces. -/
theorem byFace_ranks {α : Type} (h : Ranked D W cut) (hn : (dcSkel D).edges.flatten.Nodup) (g : Edg K → Sd → α) (gd : Dbnd K → α) (z : α)
    (hg : ∀ i ∈ cut, ∀ n, gd (halfIn i) = g (.int i) ⟨i.ein, i.fin, false⟩ ∧ gd (halfEx n i) = g (.int i) ⟨i.eex, i.fex, true⟩) :
    byFaceP W.meshes g gd z = byFace D.geo (fun ed _ s => g ed s) z := by
  rw [byFaceP_assign, byFace_assign]
  have hp := cells_perm h.part g gd fun i hi => hg i hi _
  exact assign_perm hp ((hp.map _).nodup_iff.2 (cells_nodup hn g)) _

omit [LinearOrder K] [IsStrictOrderedRing K] in
theorem map_cellsP {α β : Type} (φ : ℕ → α → β) (g : Edg K → Sd → α) (gd : Dbnd K → α) (l : List (Mesh K)) :
    l.flatMap (cellsP (fun ed s => φ s.e (g ed s)) fun b => φ b.e (gd b)) = (l.flatMap (cellsP g gd)).map fun c => (c.1, c.2.1, φ c.1 c.2.2) := by
  rw [List.map_flatMap]
  refine List.flatMap_congr fun m _ => ?_
  simp only [cellsP, cells, List.map_append, List.map_flatMap, List.map_map]
  congr 1
  refine List.flatMap_congr fun ed _ => ?_
  simp [edgCells]

/-- Arrays of faces that agree in wet elements. -/
theorem byFace_wet (h : Ranked D W cut) (hn : (dcSkel D).edges.flatten.Nodup) (wet : ℕ → Bool) (g : Edg K → Sd → ℕ → ℕ → K) (gd : Dbnd K → ℕ → ℕ → K)
    (hg : ∀ i ∈ cut, ∀ n, (wet i.ein → gd (halfIn i) = g (.int i) ⟨i.ein, i.fin, false⟩) ∧ (wet i.eex → gd (halfEx n i) = g (.int i) ⟨i.eex, i.fex, true⟩))
    {e : ℕ} (he : wet e) (f : ℕ) : byFaceP W.meshes g gd (fun _ _ => 0) e f = byFace D.geo (fun ed _ s => g ed s) (fun _ _ => 0) e f := by
  let φ : ℕ → (ℕ → ℕ → K) → ℕ → ℕ → K := fun e x => if wet e then x else fun _ _ => 0
  have h1 : byFaceP W.meshes (fun ed s => φ s.e (g ed s)) (fun b => φ b.e (gd b)) (fun _ _ => 0) e f = byFaceP W.meshes g gd (fun _ _ => 0) e f := by
    rw [byFaceP_assign, byFaceP_assign, map_cellsP, assign_map φ _ (fun _ _ _ _ => 0) _ (fun e f => by simp [φ])]
    exact if_pos he
  have h2 : byFace D.geo (fun ed _ s => φ s.e (g ed s)) (fun _ _ => 0) e f = byFace D.geo (fun ed _ s => g ed s) (fun _ _ => 0) e f := by
    rw [byFace_assign D.geo (fun ed s => φ s.e (g ed s)), byFace_assign D.geo g]
    have : cells D.geo.m (fun ed s => φ s.e (g ed s)) = (cells D.geo.m g).map fun c => (c.1, c.2.1, φ c.1 c.2.2) := by
      unfold cells
      rw [List.map_flatMap]
      refine List.flatMap_congr fun ed _ => ?_
      simp [edgCells]
    rw [this, assign_map φ _ (fun _ _ _ _ => 0) _ (fun e f => by simp [φ])]
    exact if_pos he
  rw [← h1, ← h2]
  refine congrFun (congrFun (byFace_ranks h hn (fun ed s => φ s.e (g ed s)) (fun b => φ b.e (gd b)) _ fun i hi n => ⟨?_, ?_⟩) e) f
  · by_cases hw : wet i.ein = true
    · simp only [φ, hw, if_true, halfIn]; exact (hg i hi n).1 hw
    · simp only [φ, hw, halfIn]; rfl
  · by_cases hw : wet i.eex = true
    · simp only [φ, hw, if_true, halfEx]; exact (hg i hi n).2 hw
    · simp only [φ, hw, halfEx]; rfl

/-- **C97** The blocks of the system on several ranks: those of the whole mesh, up to the rows of the edges on dry sides, which nothing reads. -/
theorem blocks_ranks (h : Ranked D W cut) (hn : (dcSkel D).edges.flatten.Nodup) (wet : ℕ → Bool) (q : State K) :
    let P := dcBlocksP D (wholeDerivs D q) W wet q
    let B := dcBlocks D wet q
    P.a11 = B.a11 ∧ P.a12 = B.a12 ∧ P.a21 = B.a21 ∧ P.a22 = B.a22 ∧ P.r1 = B.r1 ∧ P.a1h = B.a1h ∧ P.a2h = B.a2h ∧
      ∀ e, wet e → ∀ f, P.ah1 e f = B.ah1 e f ∧ P.ah2 e f = B.ah2 e f := by
  refine ⟨?_, rfl, rfl, rfl, rfl, ?_, ?_, fun e he f => ⟨?_, ?_⟩⟩
  · funext e
    show W.meshes.foldl (local11P D (wholeDerivs D q) wet q) (fun _ _ _ => 0) e = local11 D wet q e
    rw [local11All_at D _ wet q e W.meshes (h.part.elts.nodup_iff.2 h.part.nodup) h.part.ownInts h.part.ownBnds h.part.ownDist, local11_cells]
    have hp := cells_perm h.part (wetSide11 D wet) (wetDist11 D wet) fun i hi => by
      unfold wetDist11 wetSide11
      rw [(dist11_half h hi 0).1, (dist11_half h hi _).2]
      exact ⟨rfl, rfl⟩
    have hs : cellSum (W.meshes.flatMap (cellsP (wetSide11 D wet) (wetDist11 D wet))) e = cellSum (cells D.m (wetSide11 D wet)) e := (hp.map _).sum_eq
    rw [hs]
    simp only [h.part.elts.mem_iff]
    rfl
  · exact byFace_ranks h hn (fun ed s => side1hR D (wholeDerivs D q) q ed s) _ _ fun i hi n => dist1h_half _ h hi n q
  · exact byFace_ranks h hn (fun ed s => side2h D q ed s) _ _ fun i hi n => dist2h_half h hi n q
  · exact byFace_wet h hn wet (fun ed s => sideh1 D wet ed s) _ (fun i hi n => ⟨fun hw => ((disth_half h hi n wet).1 hw).1, fun hw => ((disth_half h hi n wet).2 hw).1⟩) he f
  · exact byFace_wet h hn wet (fun ed s => sideh2 D wet ed s) _ (fun i hi n => ⟨fun hw => ((disth_half h hi n wet).1 hw).2, fun hw => ((disth_half h hi n wet).2 hw).2⟩) he f

/-! ### Edges -/

omit [Field K] [LinearOrder K] [IsStrictOrderedRing K] in
theorem skel_edges (D : Dc K) (W : Ranks K) : (dcSkelP D W).edges = (W.meshes.flatMap edgesP).map PEdg.skel := by
  unfold PSkel.edges dcSkelP Ranks.meshes
  simp only
  induction W.ranks with
  | nil => rfl
  | cons r l ih => rw [List.map_cons, List.flatten_cons, List.flatten_cons, List.flatMap_append, List.map_append, ih]

omit [Field K] [LinearOrder K] [IsStrictOrderedRing K] in
theorem skel_flatMap {β : Type} (D : Dc K) (W : Ranks K) (F : PEdge → List β) : (dcSkelP D W).edges.flatMap F =
    W.meshes.flatMap fun m => m.ints.flatMap (fun i => F (.int ⟨i.ein, i.fin⟩ ⟨i.eex, i.fex⟩)) ++ m.bnds.flatMap (fun b => F (.bnd ⟨b.e, b.f⟩)) ++
      m.dist.flatMap fun b => F (.dist ⟨b.e, b.f⟩ ⟨b.e', b.f'⟩) := by
  rw [skel_edges, List.flatMap_map, List.flatMap_assoc]
  refine List.flatMap_congr fun m _ => ?_
  unfold edgesP edgesOf
  simp only [List.flatMap_append, List.map_append, List.flatMap_map]
  rfl

/-- **C97** The edges of the ranks are those of the whole mesh. -/
theorem ranks_shared (h : Ranked D W cut) (hn : (dcSkel D).edges.flatten.Nodup) : Shared (dcSkelP D W) (dcSkel D) := by
  have hd : ∀ c ex, PEdge.dist c ex ∈ (dcSkelP D W).edges → ∃ i ∈ cut, (c = ⟨i.ein, i.fin⟩ ∧ ex = ⟨i.eex, i.fex⟩) ∨ (c = ⟨i.eex, i.fex⟩ ∧ ex = ⟨i.ein, i.fin⟩) := by
    intro c ex hm
    rw [skel_edges] at hm
    obtain ⟨x, hx, he⟩ := List.mem_map.1 hm
    obtain ⟨m, hms, hx⟩ := List.mem_flatMap.1 hx
    cases x with
    | loc ed => cases ed <;> cases he
    | dist b =>
      cases he
      have hb : b ∈ m.dist := by simpa [edgesP] using hx
      obtain ⟨i, hi, hb⟩ := List.mem_flatMap.1 (h.part.dist.mem_iff.1 (List.mem_flatMap.2 ⟨m, hms, hb⟩))
      refine ⟨i, hi, ?_⟩
      simp only [halves, List.mem_cons, List.not_mem_nil, or_false] at hb
      rcases hb with rfl | rfl
      · exact .inl ⟨rfl, rfl⟩
      · exact .inr ⟨rfl, rfl⟩
  have hm : ∀ i ∈ cut, PEdge.dist ⟨i.ein, i.fin⟩ ⟨i.eex, i.fex⟩ ∈ (dcSkelP D W).edges ∧ PEdge.dist ⟨i.eex, i.fex⟩ ⟨i.ein, i.fin⟩ ∈ (dcSkelP D W).edges := by
    intro i hi
    have hb : ∀ b ∈ halves (i.rule D.v D.dat).length i, PEdge.dist ⟨b.e, b.f⟩ ⟨b.e', b.f'⟩ ∈ (dcSkelP D W).edges := by
      intro b hb
      obtain ⟨m, hm, hb⟩ := List.mem_flatMap.1 (h.part.dist.mem_iff.2 (List.mem_flatMap.2 ⟨i, hi, hb⟩))
      rw [skel_edges]
      exact List.mem_map.2 ⟨.dist b, List.mem_flatMap.2 ⟨m, hm, by simpa [edgesP] using hb⟩, rfl⟩
    exact ⟨hb (halfIn i) (by simp [halves, halfIn]), hb (halfEx (i.rule D.v D.dat).length i) (by simp [halves, halfEx])⟩
  refine ⟨fun e => h.part.elts.mem_iff, rfl, rfl, ?_, ?_, ?_, ?_⟩
  · rw [skel_flatMap]
    have hp := meshes_perm h.part (fun i => [⟨i.ein, i.fin⟩, ⟨i.eex, i.fex⟩]) (fun b => [(⟨b.e, b.f⟩ : Face)]) (fun b => [⟨b.e, b.f⟩]) fun i _ => rfl
    refine hp.nodup_iff.2 ?_
    convert hn using 1
    unfold dcSkel edgesOf
    simp only [List.map_append, List.flatten_append, List.map_map, List.flatMap]
    rfl
  · intro c ex hx
    obtain ⟨i, hi, ⟨rfl, rfl⟩ | ⟨rfl, rfl⟩⟩ := hd c ex hx
    · exact (hm i hi).2
    · exact (hm i hi).1
  · intro c ex hx he
    obtain ⟨i, hi, ⟨rfl, rfl⟩ | ⟨rfl, rfl⟩⟩ := hd c ex hx <;>
    · have he : W.home _ = W.home _ := he
      have := h.order i hi
      simp only at he
      rw [he] at this
      omega
  · rw [show (dcSkelP D W).edges.filterMap (joined (dcSkelP D W).home) = (dcSkelP D W).edges.flatMap fun x => (joined W.home x).toList from
      List.filterMap_eq_flatMap_toList _ _, skel_flatMap]
    have hp := meshes_perm h.part (fun i => [[⟨i.ein, i.fin⟩, ⟨i.eex, i.fex⟩]]) (fun b => [[(⟨b.e, b.f⟩ : Face)]])
      (fun b => (joined W.home (.dist ⟨b.e, b.f⟩ ⟨b.e', b.f'⟩)).toList) fun i hi => by
        have ho := h.order i hi
        have h2 : ¬ ((W.home i.eex).1 < (W.home i.ein).1 ∨ ((W.home i.eex).1 = (W.home i.ein).1 ∧ (W.home i.eex).2 < (W.home i.ein).2)) := by omega
        have e1 : joined W.home (.dist ⟨(halfIn i).e, (halfIn i).f⟩ ⟨(halfIn i).e', (halfIn i).f'⟩) = some [⟨i.ein, i.fin⟩, ⟨i.eex, i.fex⟩] := if_pos ho
        have e2 : joined W.home (.dist ⟨(halfEx (i.rule D.v D.dat).length i).e, (halfEx (i.rule D.v D.dat).length i).f⟩
          ⟨(halfEx (i.rule D.v D.dat).length i).e', (halfEx (i.rule D.v D.dat).length i).f'⟩) = none := if_neg h2
        rw [e1, e2]
        rfl
    refine List.Perm.symm (hp.trans (List.Perm.of_eq ?_))
    unfold dcSkel edgesOf
    simp only [List.map_append, List.map_map]
    rw [List.map_eq_flatMap, List.map_eq_flatMap]
    rfl

omit [LinearOrder K] [IsStrictOrderedRing K] in
theorem filter_ite {α : Type} (p : α → Bool) (f : α → K) (l : List α) : ((l.filter p).map f).sum = (l.map fun x => if p x then f x else 0).sum := by
  induction l with
  | nil => rfl
  | cons a l ih =>
    rw [List.map_cons, List.sum_cons]
    by_cases h : p a = true
    · rw [List.filter_cons_of_pos (p := p) h, List.map_cons, List.sum_cons, ih, if_pos h]
    · rw [List.filter_cons_of_neg (p := p) h, ih, if_neg h, zero_add]

/-- What an edge of a submesh adds to `w1_hat_w1_hat`. -/
def hatVal (D : Dc K) (W : Ranks K) (wet : ℕ → Bool) : PEdg K → ℕ → ℕ → K
  | .loc ed => edgehh D wet ed
  | .dist b => disthh D W wet b

omit [IsStrictOrderedRing K] in
theorem hats_at (hn : ((dcSkelP D W).edges.flatMap PEdge.faces).Nodup) (wet : ℕ → Bool) {x : PEdg K} (hx : x ∈ W.meshes.flatMap edgesP) :
    dcHatsP D W wet x.skel.own.e x.skel.own.f = hatVal D W wet x := by
  unfold dcHatsP
  rw [byOwnP_assign]
  have hk : ∀ y : PEdg K, ownCells (edgehh D wet) (disthh D W wet) y = (y.skel.own.e, y.skel.own.f, hatVal D W wet y) := by
    intro y
    cases y with
    | loc ed => cases ed <;> rfl
    | dist b => rfl
  have hm : (x.skel.own.e, x.skel.own.f, hatVal D W wet x) ∈ (W.meshes.flatMap edgesP).map (ownCells (edgehh D wet) (disthh D W wet)) :=
    List.mem_map.2 ⟨x, hx, hk x⟩
  refine assign_mem _ _ ?_ hm
  have h2 : ((W.meshes.flatMap edgesP).map (ownCells (edgehh D wet) (disthh D W wet))).map (fun c => (c.1, c.2.1)) =
      ((dcSkelP D W).edges.map PEdge.own).map fun c => (c.e, c.f) := by
    rw [skel_edges, List.map_map, List.map_map, List.map_map]
    exact List.map_congr_left fun y _ => by simp only [Function.comp, hk]
  rw [h2]
  exact ((own_sublist _).nodup hn).map fun c d h => by cases c; cases d; simpa using h

/-- **C97** What the ranks add up for an edge of the whole mesh. -/
theorem hats_ranks (h : Ranked D W cut) (hs : Whole (dcSkel D)) (wet : ℕ → Bool) (q : State K) (k : ℕ) (hk : k < (dcSkel D).edges.length)
    (hw : ∃ c ∈ (dcSkel D).edges[k], wet c.e) (i j : ℕ) : (dcBlocks D wet q).ahh k i j =
      (((dcSkelP D W).edges.filter fun y => wetEdge wet y.faces && decide (y.own ∈ (dcSkel D).edges[k])).map fun y => dcHatsP D W wet y.own.e y.own.f i j).sum := by
  have hP := ranks_shared h hs.nodup
  have hlen : (dcSkel D).edges.length = (edgesOf D.m).length := by simp [dcSkel]
  have hget : ∀ (n : ℕ) (hn : n < (edgesOf D.m).length), (dcSkel D).edges[n]'(hlen ▸ hn) = (edgesOf D.m)[n].sides.map fun s => ⟨s.e, s.f⟩ := by
    intro n hn; simp [dcSkel]
  let ψ : PEdg K → K := fun x => if wetEdge wet x.skel.faces && decide (x.skel.own ∈ (dcSkel D).edges[k]) then hatVal D W wet x i j else 0
  have h1 : (((dcSkelP D W).edges.filter fun y => wetEdge wet y.faces && decide (y.own ∈ (dcSkel D).edges[k])).map fun y => dcHatsP D W wet y.own.e y.own.f i j).sum =
      ((W.meshes.flatMap edgesP).map ψ).sum := by
    rw [filter_ite, skel_edges, List.map_map]
    congr 1
    refine List.map_congr_left fun x hx => ?_
    simp only [Function.comp, ψ]
    rw [hats_at hP.nodup wet hx]
  have h2 : (W.meshes.flatMap edgesP).map ψ = W.meshes.flatMap fun m => m.ints.map (fun i => ψ (.loc (.int i))) ++ m.bnds.map (fun b => ψ (.loc (.bnd b))) ++ m.dist.map fun b => ψ (.dist b) := by
    rw [List.map_flatMap]
    refine List.flatMap_congr fun m _ => ?_
    simp only [edgesP, edgesOf, List.map_append, List.map_map]
    rfl
  rw [h1, h2, meshes_sum h.part (fun i => ψ (.loc (.int i))) (fun b => ψ (.loc (.bnd b))) (fun b => ψ (.dist b))]
  · have h3 : (D.m.ints.map fun i => ψ (.loc (.int i))).sum + (D.m.bnds.map fun b => ψ (.loc (.bnd b))).sum = ((edgesOf D.m).map fun ed => ψ (.loc ed)).sum := by
      simp only [edgesOf, List.map_append, List.map_map, List.sum_append]
      rfl
    rw [h3, ← Fin.sum_univ_getElem]
    have hkl : k < ((edgesOf D.m).map fun ed => ψ (.loc ed)).length := by rw [List.length_map]; omega
    have hfaces : ∀ ed : Edg K, (PEdg.skel (.loc ed)).faces = ed.sides.map fun s => (⟨s.e, s.f⟩ : Face) := by intro ed; cases ed <;> rfl
    have hown : ∀ ed : Edg K, (PEdg.skel (.loc ed)).own ∈ ed.sides.map fun s => (⟨s.e, s.f⟩ : Face) := by
      intro ed; cases ed <;> simp [PEdg.skel, PEdge.own, Edg.sides]
    rw [Finset.sum_eq_single (⟨k, hkl⟩ : Fin _)]
    · simp only [List.getElem_map, ψ]
      have hke : (edgesOf D.m)[k]? = some ((edgesOf D.m)[k]'(by omega)) := List.getElem?_eq_getElem _
      have hc : (wetEdge wet (PEdg.skel (.loc ((edgesOf D.m)[k]'(by omega)))).faces && decide ((PEdg.skel (.loc ((edgesOf D.m)[k]'(by omega)))).own ∈ (dcSkel D).edges[k])) = true := by
        rw [Bool.and_eq_true, decide_eq_true_eq, hfaces, ← hget k (by omega)]
        refine ⟨?_, ?_⟩
        · obtain ⟨c, hc, hwc⟩ := hw
          exact wetEdge_of hc hwc
        · have := hown ((edgesOf D.m)[k]'(by omega))
          rwa [← hget k (by omega)] at this
      rw [if_pos hc]
      simp only [dcBlocks, hke]
      rfl
    · rintro ⟨n, hn⟩ - hne
      have hn' : n < (edgesOf D.m).length := by simpa using hn
      simp only [List.getElem_map, ψ]
      refine if_neg fun hc => hne ?_
      rw [Bool.and_eq_true, decide_eq_true_eq] at hc
      have := hown ((edgesOf D.m)[n]'hn')
      rw [← hget n hn'] at this
      exact Fin.ext (edge_unique hs (hlen ▸ hn') hk this hc.2)
    · intro hc; exact absurd (Finset.mem_univ _) hc
  · intro c hc
    have hm : c ∈ D.m.ints := h.part.ints.mem_iff.1 (List.mem_append_right _ hc)
    have hme : (Edg.int c) ∈ edgesOf D.m := List.mem_append_left _ (List.mem_map.2 ⟨c, hm, rfl⟩)
    obtain ⟨n, hn, hne⟩ := List.getElem_of_mem hme
    have hen : (dcSkel D).edges[n]'(hlen ▸ hn) = [⟨c.ein, c.fin⟩, ⟨c.eex, c.fex⟩] := by rw [hget n hn, hne]; rfl
    have hiff : ((⟨c.ein, c.fin⟩ : Face) ∈ (dcSkel D).edges[k]) ↔ ((⟨c.eex, c.fex⟩ : Face) ∈ (dcSkel D).edges[k]) := by
      constructor
      · intro hx
        have := edge_unique hs (hlen ▸ hn) hk (by rw [hen]; simp) hx
        subst this
        rw [hen]; simp
      · intro hx
        have := edge_unique hs (hlen ▸ hn) hk (by rw [hen]; simp) hx
        subst this
        rw [hen]; simp
    by_cases hin : (⟨c.ein, c.fin⟩ : Face) ∈ (dcSkel D).edges[k]
    · have hex := hiff.1 hin
      have a1 : ψ (.dist (halfIn c)) = if wet c.ein then disthh D W wet (halfIn c) i j else 0 := by
        simp [ψ, PEdg.skel, PEdge.faces, PEdge.own, wetEdge, halfIn, hin, hatVal]
      have a2 : ψ (.dist (halfEx (c.rule D.v D.dat).length c)) = if wet c.eex then disthh D W wet (halfEx (c.rule D.v D.dat).length c) i j else 0 := by
        simp [ψ, PEdg.skel, PEdge.faces, PEdge.own, wetEdge, halfEx, hex, hatVal]
      have a3 : ψ (.loc (.int c)) = if wet c.ein || wet c.eex then edgehh D wet (.int c) i j else 0 := by
        simp [ψ, PEdg.skel, PEdge.faces, PEdge.own, wetEdge, hin, hatVal]
      rw [a1, a2, a3]
      by_cases hwc : wet c.ein = true ∨ wet c.eex = true
      · rw [disthh_half h hc _ wet i j hwc, if_pos (by simpa using hwc)]
      · rw [not_or] at hwc
        simp [hwc.1, hwc.2]
    · have hex : (⟨c.eex, c.fex⟩ : Face) ∉ (dcSkel D).edges[k] := fun hx => hin (hiff.2 hx)
      have a1 : ψ (.dist (halfIn c)) = 0 := by simp [ψ, PEdg.skel, PEdge.own, halfIn, hin]
      have a2 : ψ (.dist (halfEx (c.rule D.v D.dat).length c)) = 0 := by simp [ψ, PEdg.skel, PEdge.own, halfEx, hex]
      have a3 : ψ (.loc (.int c)) = 0 := by simp [ψ, PEdg.skel, PEdge.own, hin]
      rw [a1, a2, a3, add_zero]

/-! ### The stage -/

/-- The equations of the correction on the whole mesh. -/
def System (D : Dc K) (wet : ℕ → Bool) (q : State K) (w1 w2 y : ℕ → ℕ → K) : Prop :=
  W1Eq (dcSkel D) wet (dcBlocks D wet q) w1 w2 y ∧ W2Eq (dcSkel D) wet (dcBlocks D wet q) w1 w2 y ∧ HatEq (dcSkel D) wet (dcBlocks D wet q) w1 w2 y

omit [IsStrictOrderedRing K] in
/-- The ranks do not read the blocks of the edges of the whole mesh. -/
theorem solveP_ahh (I : Inverse K) (slv : Solver K) (P : PSkel) (wd : Bool) (wet : ℕ → Bool) (t0 : PIndex) (b : DcBlocks K) (a : ℕ → ℕ → ℕ → K) (hh : ℕ → ℕ → ℕ → ℕ → K) :
    solveP I slv P wd wet t0 { b with ahh := a } hh = solveP I slv P wd wet t0 b hh := by
  have he : ∀ l : List ℕ, elimAll I slv P.sizes wet { b with ahh := a } l = elimAll I slv P.sizes wet b l := by
    intro l
    induction l with
    | nil => rfl
    | cons e l ih => rw [elimAll, elimAll, ih]; rfl
  unfold solveP
  rw [he]
  rfl

/-- **C97** What several ranks compute solves the equations of the correction on the whole mesh. -/
theorem ranks_solved (hI : ∀ n M N, D.I n M = some N → RightInv n M N) (hS : Solves D.slv) (h : Ranked D W cut) (hs : Whole (dcSkel D)) {wet : ℕ → Bool} {q : State K} {t0 t : PIndex}
    (h0 : D.wd = false → PNumbered (dcSkelP D W) wet t0) {x : ℕ → K} {w1 : ℕ → ℕ → K}
    (hx : solveP D.I D.slv (dcSkelP D W) D.wd wet t0 (dcBlocksP D (derivs D.v D.dat (gradP D.v D.dat W.meshes) q) W wet q) (dcHatsP D W wet) = some (t, x, w1)) :
    ∃ w2, System D wet q w1 w2 (trace (dcSkel D) (whole (dcSkel D) wet t) x) := by
  rw [derivs_ranks h] at hx
  have hP := ranks_shared h hs.nodup
  set bP : DcBlocks K := { dcBlocksP D (wholeDerivs D q) W wet q with ahh := (dcBlocks D wet q).ahh } with hbP
  have hx' : solveP D.I D.slv (dcSkelP D W) D.wd wet t0 bP (dcHatsP D W wet) = some (t, x, w1) := (solveP_ahh _ _ _ _ _ _ _ _ _).trans hx
  obtain ⟨-, w2, e1, e2, e3⟩ := parallel_solved hI hS hP hs h0 (b := bP) (fun k hk hw i _ j _ => hats_ranks h hs wet q k hk hw i j) hx'
  obtain ⟨b1, b2, b3, b4, b5, b6, b7, b8⟩ := blocks_ranks h hs.nodup wet q
  refine ⟨w2, fun e he hw i hi => ?_, fun e he hw i hi => ?_, fun k hk hw i hi => ?_⟩
  · rw [← b1, ← b2, ← b5, ← b6]; exact e1 e he hw i hi
  · rw [← b3, ← b4, ← b7]; exact e2 e he hw i hi
  · rw [← e3 k hk hw i hi]
    congr 2
    refine List.map_congr_left fun c hc => ?_
    have hwc : wet c.e = true := by simpa using (List.mem_filter.1 hc).2
    rw [← (b8 c.e hwc c.f).1, ← (b8 c.e hwc c.f).2]

/-- Two solutions have the same `w1`. -/
def Unique (D : Dc K) (wet : ℕ → Bool) (q : State K) : Prop := ∀ w1 w2 y v1 v2 z, System D wet q w1 w2 y → System D wet q v1 v2 z →
  ∀ e ∈ D.m.elts, wet e → ∀ i < 2 * ndof (D.dat e).elt.p, w1 e i = v1 e i

omit [IsStrictOrderedRing K] in
/-- Only the wet elements of the mesh are corrected, from the rows of `w1` they have. -/
theorem dcRhs_congr {corr troubled wet : ℕ → Bool} {q : State K} {w1 v1 : ℕ → ℕ → K}
    (h : ∀ e ∈ D.m.elts, wet e → ∀ i < 2 * ndof (D.dat e).elt.p, w1 e i = v1 e i) : dcRhs D corr troubled wet q w1 = dcRhs D corr troubled wet q v1 := by
  funext e
  unfold dcRhs
  by_cases hc : (decide (e ∈ D.m.elts) && wet e && corr e && !troubled e) = true
  · rw [if_pos hc, if_pos hc]
    simp only [Bool.and_eq_true, decide_eq_true_eq] at hc
    have hv : ∀ dir < 2, ∀ z, (D.dat e).elt.value D.v.N (fun d => reshapeCol 2 (w1 e) dir d) z = (D.dat e).elt.value D.v.N (fun d => reshapeCol 2 (v1 e) dir d) z := by
      intro dir hdir z
      unfold Elt.value
      congr 1
      refine List.map_congr_left fun d hd => ?_
      have hd := List.mem_range.1 hd
      unfold reshapeCol
      beta_reduce
      rw [h e hc.1.1.1 hc.1.1.2 _ (by omega)]
    simp only [hv 0 (by norm_num), hv 1 (by norm_num)]
  · rw [if_neg hc, if_neg hc]

omit [IsStrictOrderedRing K] in
theorem slotFail_ok {α : Type} {o : Option α} {x : α} (h : slotFail o = .ok x) : o = some x := by
  cases o with
  | none => cases h
  | some y => cases h; rfl

omit [IsStrictOrderedRing K] in
theorem slotOr_ok {α : Type} {o : Option α} {x : α} (h : slotOr o = .ok x) : o = some x := by
  cases o with
  | none => cases h
  | some y => cases h; rfl

/-- The part of a stage after the solution of the system. -/
theorem stage_core (hI : ∀ n M N, D.I n M = some N → RightInv n M N) (hS : Solves D.slv) (h : Ranked D W cut) (hs : Whole (dcSkel D)) (tab : Stepper.Tableau) (ns : ℕ) (dt : K)
    (corr troubled : ℕ → Bool) {r : Run K} {t0 t : Index} {u0 u : PIndex} (h0 : D.wd = false → Numbered (dcSkel D) r.wet t0) (h0' : D.wd = false → PNumbered (dcSkelP D W) r.wet u0)
    {cur : Stepper.Slot (State K)} (hcur : r.slots[r.stage]? = some cur) (hu : Unique D r.wet cur.q) {x x' : ℕ → K} {w1 w1' : ℕ → ℕ → K}
    (hsv : solveDc D.I D.slv (dcSkel D) D.wd r.wet t0 (dcBlocks D r.wet cur.q) = some (t, x, w1))
    (hsv' : solveP D.I D.slv (dcSkelP D W) D.wd r.wet u0 (dcBlocksP D (derivs D.v D.dat (gradP D.v D.dat W.meshes) cur.q) W r.wet cur.q) (dcHatsP D W r.wet) = some (u, x', w1')) :
    (dcStageP D W tab ns dt corr troubled ⟨r, u0⟩).map GnRunP.run = (dcStage D tab ns dt corr troubled ⟨r, t0⟩).map GnRun.run := by
  obtain ⟨w2, hw⟩ := dc_solved hI hS hs h0 hsv
  obtain ⟨w2', hw'⟩ := ranks_solved hI hS h hs h0' hsv'
  have heq := hu _ _ _ _ _ _ hw' hw
  have hr : dcRhsR D (derivs D.v D.dat (gradP D.v D.dat W.meshes) cur.q) (W.meshes.flatMap Mesh.elts) corr troubled r.wet cur.q w1' = dcRhs D corr troubled r.wet cur.q w1 := by
    rw [← dcRhs_congr heq, derivs_ranks h]
    funext e
    unfold dcRhsR dcRhs
    simp only [h.part.elts.mem_iff]
  unfold dcStage dcStageP
  simp only [hcur, hsv, hsv', slotFail, slotOr, Swe.okBind, hr]
  cases Stepper.setSolution r.slots r.stage (solve D.v D.dat (dcRhs D corr troubled r.wet cur.q w1)) with
  | none => rfl
  | some sl =>
    simp only [Swe.okBind]
    cases Stepper.updateState tab ns dt r.stage sl <;> rfl

omit [IsStrictOrderedRing K] in
/-- What a stage that has come to its end has solved. -/
theorem stage_parts {tab : Stepper.Tableau} {ns : ℕ} {dt : K} {corr troubled : ℕ → Bool} {s s' : GnRun K} (h : dcStage D tab ns dt corr troubled s = .ok s') :
    ∃ cur x w1, s.run.slots[s.run.stage]? = some cur ∧ solveDc D.I D.slv (dcSkel D) D.wd s.run.wet s.idx (dcBlocks D s.run.wet cur.q) = some (s'.idx, x, w1) ∧
      s'.run.wet = s.run.wet := by
  unfold dcStage at h
  obtain ⟨cur, hcur, h⟩ := Swe.bindOk h
  obtain ⟨⟨t, x, w1⟩, hsv, h⟩ := Swe.bindOk h
  obtain ⟨sl, hset, h⟩ := Swe.bindOk h
  obtain ⟨sl', hset', h⟩ := Swe.bindOk h
  cases h
  exact ⟨cur, x, w1, slotOr_ok hcur, slotFail_ok hsv, rfl⟩

omit [IsStrictOrderedRing K] in
theorem stage_partsP {tab : Stepper.Tableau} {ns : ℕ} {dt : K} {corr troubled : ℕ → Bool} {s s' : GnRunP K} (h : dcStageP D W tab ns dt corr troubled s = .ok s') :
    ∃ cur x w1, s.run.slots[s.run.stage]? = some cur ∧ solveP D.I D.slv (dcSkelP D W) D.wd s.run.wet s.idx
      (dcBlocksP D (derivs D.v D.dat (gradP D.v D.dat W.meshes) cur.q) W s.run.wet cur.q) (dcHatsP D W s.run.wet) = some (s'.idx, x, w1) := by
  unfold dcStageP at h
  obtain ⟨cur, hcur, h⟩ := Swe.bindOk h
  obtain ⟨⟨t, x, w1⟩, hsv, h⟩ := Swe.bindOk h
  obtain ⟨sl, hset, h⟩ := Swe.bindOk h
  obtain ⟨sl', hset', h⟩ := Swe.bindOk h
  cases h
  exact ⟨cur, x, w1, slotOr_ok hcur, slotFail_ok hsv⟩

/-- **C97** A stage of the dispersive correction on several ranks computes what it computes on one, if both come to their end and the equations determine the
correction. -/
theorem stage_ranks (hI : ∀ n M N, D.I n M = some N → RightInv n M N) (hS : Solves D.slv) (h : Ranked D W cut) (hs : Whole (dcSkel D)) {tab : Stepper.Tableau} {ns : ℕ} {dt : K}
    {corr troubled : ℕ → Bool} {r : Run K} {t0 : Index} {u0 : PIndex} (h0 : D.wd = false → Numbered (dcSkel D) r.wet t0) (h0' : D.wd = false → PNumbered (dcSkelP D W) r.wet u0)
    (hu : ∀ sl, r.slots[r.stage]? = some sl → Unique D r.wet sl.q) {s' : GnRun K} {s'' : GnRunP K}
    (h1 : dcStage D tab ns dt corr troubled ⟨r, t0⟩ = .ok s') (h2 : dcStageP D W tab ns dt corr troubled ⟨r, u0⟩ = .ok s'') : s''.run = s'.run := by
  obtain ⟨cur, x, w1, hcur, hsv, -⟩ := stage_parts h1
  obtain ⟨cur', x', w1', hcur', hsv'⟩ := stage_partsP h2
  obtain rfl : cur = cur' := Option.some.inj (hcur.symm.trans hcur')
  have := stage_core hI hS h hs tab ns dt corr troubled h0 h0' hcur (hu cur hcur) hsv hsv'
  rw [h1, h2] at this
  exact Except.ok.inj this

omit [LinearOrder K] [IsStrictOrderedRing K] in
/-- Without wetting and drying the numbers stay. -/
theorem solveDc_idx {I : Inverse K} {slv : Solver K} {s : Skel} {wet : ℕ → Bool} {t0 t : Index} {b : DcBlocks K} {x : ℕ → K} {w1 : ℕ → ℕ → K}
    (h : solveDc I slv s false wet t0 b = some (t, x, w1)) : t = t0 := by
  unfold solveDc at h
  simp only [Option.bind_eq_bind, Option.bind_eq_some_iff] at h
  obtain ⟨l, hl, x', hx, w, hb, h⟩ := h
  cases h
  rfl

omit [LinearOrder K] [IsStrictOrderedRing K] in
theorem solveP_idx {I : Inverse K} {slv : Solver K} {P : PSkel} {wet : ℕ → Bool} {t0 t : PIndex} {b : DcBlocks K} {hh : ℕ → ℕ → ℕ → ℕ → K} {x : ℕ → K} {w1 : ℕ → ℕ → K}
    (h : solveP I slv P false wet t0 b hh = some (t, x, w1)) : t = t0 := by
  unfold solveP at h
  simp only [Option.bind_eq_bind, Option.bind_eq_some_iff] at h
  obtain ⟨l, hl, x', hx, w, hb, h⟩ := h
  cases h
  rfl

/-- **C97** Any number of stages. -/
theorem stages_ranks (hI : ∀ n M N, D.I n M = some N → RightInv n M N) (hS : Solves D.slv) (h : Ranked D W cut) (hs : Whole (dcSkel D)) {tab : Stepper.Tableau} {ns : ℕ} {dt : K}
    {corr troubled : ℕ → Bool} {r : Run K} {t0 : Index} {u0 : PIndex} (h0 : D.wd = false → Numbered (dcSkel D) r.wet t0) (h0' : D.wd = false → PNumbered (dcSkelP D W) r.wet u0) (n : ℕ)
    (hu : ∀ k < n, ∀ s, dcStages D tab ns dt corr troubled k ⟨r, t0⟩ = .ok s → ∀ sl, s.run.slots[s.run.stage]? = some sl → Unique D s.run.wet sl.q) {s' : GnRun K} {s'' : GnRunP K}
    (h1 : dcStages D tab ns dt corr troubled n ⟨r, t0⟩ = .ok s') (h2 : dcStagesP D W tab ns dt corr troubled n ⟨r, u0⟩ = .ok s'') : s''.run = s'.run := by
  suffices s''.run = s'.run ∧ (D.wd = false → Numbered (dcSkel D) s'.run.wet s'.idx) ∧ (D.wd = false → PNumbered (dcSkelP D W) s'.run.wet s''.idx) from this.1
  induction n generalizing s' s'' with
  | zero => cases h1; cases h2; exact ⟨rfl, h0, h0'⟩
  | succ n ih =>
    rw [dcStages] at h1
    rw [dcStagesP] at h2
    obtain ⟨a, ha, h1⟩ := Swe.bindOk h1
    obtain ⟨b, hb, h2⟩ := Swe.bindOk h2
    obtain ⟨e1, e2, e3⟩ := ih (fun k hk => hu k (by omega)) ha hb
    obtain ⟨ra, ta⟩ := a
    obtain ⟨rb, ub⟩ := b
    simp only at e1 e2 e3
    subst e1
    obtain ⟨cur, x, w1, hcur, hsv, hwet⟩ := stage_parts h1
    obtain ⟨cur', x', w1', hcur', hsv'⟩ := stage_partsP h2
    simp only at hcur hsv hwet hcur' hsv'
    refine ⟨stage_ranks hI hS h hs e2 e3 (hu n (by omega) _ ha) h1 h2, fun hwd => ?_, fun hwd => ?_⟩
    · rw [hwd] at hsv
      rw [hwet, solveDc_idx hsv]
      exact e2 hwd
    · rw [hwd] at hsv'
      rw [hwet, solveP_idx hsv']
      exact e3 hwd

end

end Verif.Gn.Props
