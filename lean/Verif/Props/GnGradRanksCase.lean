import Verif.Props.GnGradRanks
import Verif.Props.GnGradCase

/-!
Cases for C104: the four triangles of C103 on two and on four ranks.

`avg_loses_slope`: with averages at nodes, stages after the first see a level surface whatever the slope. `four_ranks_singular`, `two_sides_singular`: no result with all or two sides of a triangle cut. `interp_differs`, `recon_differs`: coefficients of
interpolation that depend on the partition.
-/

namespace Verif.Gn.Props
open Verif.Geometry Verif.Geometry.Props Verif.Element Verif.Swe Verif.Swe.Props Verif.Tri MvPolynomial Verif.Basis

/-- Two ranks with two triangles each; the inner triangle has two cut sides. -/
def fourRanks {K : Type} : List (List (Mesh K)) :=
  [[⟨[0, 1], [⟨0, 0, 1, 0, .internal⟩], [⟨1, 1, .land⟩, ⟨1, 2, .land⟩], [⟨0, 1, 2, 0, .internal⟩, ⟨0, 2, 3, 0, .internal⟩]⟩],
    [⟨[2, 3], [], [⟨2, 1, .land⟩, ⟨2, 2, .land⟩, ⟨3, 1, .land⟩, ⟨3, 2, .land⟩], [⟨2, 0, 0, 1, .internal⟩, ⟨3, 0, 0, 2, .internal⟩]⟩]]

/-- Nodes of the ranks in the order of their local numbers. -/
def fourIds {K : Type} (r : List (Mesh K)) : List ℕ := if r.flatMap Mesh.elts = [0, 1] then [2, 0, 1, 3] else [4, 0, 2, 5, 1]

def fourCut {K : Type} : List (Iface K) := [⟨0, 1, 2, 0, .internal⟩, ⟨0, 2, 3, 0, .internal⟩]

/-- A level bed. -/
def flatBed (_ d : ℕ) : ℝ := if d = 0 then 3 else 0

theorem four_split : Split (plainEnv cubicN Real.sqrt) (fourTris 2 flatBed) fourMesh fourRanks fourCut fourIds fourNode := by
  refine ⟨⟨?_, ?_, ?_, ?_, ?_, ?_, ?_, ?_⟩, ?_, ?_, ?_, ?_⟩
  · simp [fourMesh]
  · exact List.Perm.refl _
  · exact List.Perm.refl _
  · exact List.Perm.refl _
  · have h : ∀ a b c d : Dbnd ℝ, [a, b, c, d].Perm [a, c, b, d] := fun a b c d => (List.Perm.swap c b [d]).cons a
    exact h _ _ _ _
  · simp [fourRanks]
  · simp [fourRanks]
  · simp [fourRanks]
  · have hb : ∀ e z, ((fourTris 2 flatBed) e).elt.value (plainEnv cubicN Real.sqrt).N ((fourTris 2 flatBed) e).bath z = 3 := fun e z =>
      const_value (v := plainEnv cubicN Real.sqrt) cubic_rules (c := 3) (fun k _ => rfl) z
    intro i hi
    rcases (by simpa [fourCut] using hi : i = _ ∨ i = _) with rfl | rfl <;> refine ⟨rfl, ?_, ?_, ?_, fun _ gp _ => by rw [hb, hb]⟩ <;>
      norm_num [fourTris, jdet, Geometry.det, jac, faceVec, vertex]
  · decide
  · intro r hr
    rcases (by simpa [fourRanks] using hr : r = _ ∨ r = _) with rfl | rfl <;> simp [fourIds]
  · intro r hr e he k hk
    rcases (by simpa [fourRanks] using hr : r = _ ∨ r = _) with rfl | rfl <;>
    · rcases (by simpa using he : e = _ ∨ e = _) with rfl | rfl <;> interval_cases k <;> simp [fourIds, fourNode]

/-- **C104** Any state, any slots: with interpolation and least squares the two ranks see what the serial program sees, with both methods. -/
example (k : Recon) (hk : k ≠ .avg) (stage : ℕ) (q : State ℝ) (s : Slots ℝ) : let v := plainEnv cubicN Real.sqrt
    let dat := fourTris 2 flatBed
    ∃ g, Gn.Ready dat fourMesh g ∧ SeenSame fourMesh (stageGg v dat fourIds fourRanks g k stage q s).2 (seenGg v dat g k fourMesh q) ∧
      SeenSame fourMesh (stageLs v dat fourIds fourRanks g k stage q s).2 (seenLs v dat g k fourMesh q) := by
  intro v dat
  obtain ⟨g, hg, hn⟩ := four_ready 2 flatBed
  exact ⟨g, hg, seen_gg (hn ▸ four_split) (.refl _ _) (.inl hk) q s, seen_ls (hn ▸ four_split) (.refl _ _) (.inl hk) q s⟩

/-- **C104** Derivatives of the bathymetry with averages at nodes, and in stage 0 those of the flow. -/
example (q : State ℝ) (s : Slots ℝ) (r : ℕ) : let v := plainEnv cubicN Real.sqrt
    let dat := fourTris 2 flatBed
    ∃ g, Gn.Ready dat fourMesh g ∧ SeenSame fourMesh (stageGg v dat fourIds fourRanks g .avg 0 q s).2 (seenGg v dat g .avg fourMesh q) ∧
      Same fourMesh (dddbathGgR v dat fourIds fourRanks g .avg r) (dddbathGg v dat fourMesh g .avg r) := by
  intro v dat
  obtain ⟨g, hg, hn⟩ := four_ready 2 flatBed
  refine ⟨g, hg, seen_gg (hn ▸ four_split) (.refl _ _) (.inr rfl) q s, (bath_gg_ranks_avg (v := v) (hn ▸ four_split) (.refl _ _) cubic_rules cubic_linear cubic_symmetric (four_grad (by omega) flatBed)
    (fun _ _ => by show 1 ≤ 2; omega) ?_ (isc := fun i => i.fin ≠ 0) ?_ ?_ r).2.2⟩
  · intro i hi
    rw [hn]
    rcases (by simpa [fourMesh] using hi : i = _ ∨ i = _ ∨ i = _) with rfl | rfl | rfl <;> decide
  · intro i hi
    rcases (by simpa [fourCut] using hi : i = _ ∨ i = _) with rfl | rfl <;> simp
  · simp [fourRanks]

/-- **C104** The surface has slope `b` in the first direction. The array of states holds zeros in the beginning. Whatever stages have run, the kernels of a stage other than 0 on two ranks see the slope
zero, those of the serial program the slope `b`. -/
theorem avg_loses_slope (a b c : ℝ) (stage : ℕ) (hs : stage ≠ 0) (l : List (ℕ × State ℝ)) :
    let v := plainEnv cubicN Real.sqrt
    let dat := fourTris 2 flatBed
    let q : State ℝ := fun e r d => if r = 0 then Props.coefs cubicN (dubF id) dat (affPoly a b c) e d else 0
    ∃ g, Gn.Ready dat fourMesh g ∧ Split v dat fourMesh fourRanks fourCut fourIds g.node ∧
      (stageGg v dat fourIds fourRanks g .avg stage q (slotsAfter (stageGg v dat fourIds fourRanks g .avg) l ⟨fun _ _ _ _ => 0, fun _ _ _ _ => 0⟩)).2.dze 0 0 0 = 0 ∧
      (seenGg v dat g .avg fourMesh q).dze 0 0 0 = b ∧
      (stageLs v dat fourIds fourRanks g .avg stage q (slotsAfter (stageLs v dat fourIds fourRanks g .avg) l ⟨fun _ _ _ _ => 0, fun _ _ _ _ => 0⟩)).2.dze 0 0 0 = 0 ∧
      (seenLs v dat g .avg fourMesh q).dze 0 0 0 = b := by
  intro v dat q
  obtain ⟨g, hg, hn⟩ := four_ready 2 flatBed
  have hm : GradMesh dat fourMesh 3 := four_grad (by omega) flatBed
  have hag : Agrees dat fourMesh (rowOf v dat fun e => q e 0) (affPoly a b c) :=
    coefs_agree (v := v) cubic_rules cubic_orthogonal hm.degree fun _ _ => (linear_degree a b c).trans (by show 1 ≤ 2; omega)
  have hz : IsAffine dat fourMesh (rowOf v dat fun e => q e 0) a b c := fun e he z hz => by rw [hag e he z hz, affPoly_eval]
  have h1 := (gg_exact_affine (v := v) cubic_rules cubic_linear cubic_symmetric real_isSqrt hm (fun _ _ => by show 1 ≤ 2; omega) hg .avg).1 a b c hz 0 (by omega)
  have h2 := (ls_exact_affine (v := v) cubic_rules cubic_orthogonal cubic_linear hm (fun _ _ => by show 1 ≤ 2; omega) hg .avg).1 a b c hz 0 (by omega)
  have hc : ∀ w : ℕ → ℝ, (∀ k < 3, w k = b) → linearToBasis w 0 = b := by
    intro w hw
    rw [toBasis_same (w' := fun _ => b) hw]
    simp [linearToBasis, linearBasis, List.range_succ]
    ring
  refine ⟨g, hg, hn ▸ four_split, ?_, hc _ (h1 0 (by simp [fourMesh])), ?_, hc _ (h2 0 (by simp [fourMesh]))⟩
  · rw [(avg_stale hs q _).1, (avg_never l _ hs).1]
  · rw [(avg_stale hs q _).2.1, (avg_never l _ hs).2.2.1]

/-- One rank for each triangle. -/
def eachRank {K : Type} : List (List (Mesh K)) :=
  [[⟨[0], [], [], [⟨0, 0, 1, 0, .internal⟩, ⟨0, 1, 2, 0, .internal⟩, ⟨0, 2, 3, 0, .internal⟩]⟩], [⟨[1], [], [⟨1, 1, .land⟩, ⟨1, 2, .land⟩], [⟨1, 0, 0, 0, .internal⟩]⟩],
    [⟨[2], [], [⟨2, 1, .land⟩, ⟨2, 2, .land⟩], [⟨2, 0, 0, 1, .internal⟩]⟩], [⟨[3], [], [⟨3, 1, .land⟩, ⟨3, 2, .land⟩], [⟨3, 0, 0, 2, .internal⟩]⟩]]

/-- **C104** The serial program has data for these triangles, the program on four ranks does not. -/
theorem four_ranks_singular (p : ℕ) (b : ℕ → ℕ → ℝ) : (∃ g, Gn.Ready (fourTris p b) fourMesh g) ∧ ¬∃ g, ReadyP (fourTris p b) eachRank.flatten g := by
  obtain ⟨g, hg, _⟩ := four_ready p b
  refine ⟨⟨g, hg⟩, pre_send_singular (m := fourMesh) (cut := fourMesh.ints) (npts := fun _ => 0) ⟨?_, ?_, ?_, ?_, ?_, ?_, ?_, ?_⟩ (by decide) (e := 0) (by simp [fourMesh]) ?_⟩
  · simp [fourMesh]
  · exact List.Perm.refl _
  · exact List.Perm.refl _
  · exact List.Perm.refl _
  · have h : ∀ a b c d e f : Dbnd ℝ, [a, c, e, b, d, f].Perm [a, b, c, d, e, f] := fun a b c d e f =>
      ((List.perm_middle (l₁ := [c, e]) (a := b) (l₂ := [d, f])).trans (((List.Perm.swap d e [f]).cons c).cons b)).cons a
    exact h _ _ _ _ _ _
  · simp [eachRank]
  · simp [eachRank]
  · simp [eachRank]
  · intro f hf
    interval_cases f <;> simp [isCut, eachRank]

/-- A triangle whose neighbours are stretched. -/
def skewTris (e : ℕ) : EltData ℚ :=
  ⟨⟨1, if e = 0 then ⟨⟨0, 0⟩, ⟨1, 0⟩, ⟨0, 1⟩⟩ else if e = 1 then ⟨⟨1, 1⟩, ⟨0, 1⟩, ⟨1, 0⟩⟩ else if e = 2 then ⟨⟨-1 / 10, 10⟩, ⟨0, 0⟩, ⟨0, 1⟩⟩ else ⟨⟨3 / 5, -3 / 4⟩, ⟨1, 0⟩, ⟨0, 0⟩⟩⟩,
    fun _ => 0, ⟨false, 0, 0, ⟨0, 0⟩, ⟨0, 0⟩, ⟨0, 0⟩⟩⟩

/-- Two ranks that divide them along one side. -/
def skewRanks : List (List (Mesh ℚ)) :=
  [[⟨[0, 1, 3], [⟨0, 0, 1, 0, .internal⟩, ⟨0, 2, 3, 0, .internal⟩], [⟨1, 1, .land⟩, ⟨1, 2, .land⟩, ⟨3, 1, .land⟩, ⟨3, 2, .land⟩], [⟨0, 1, 2, 0, .internal⟩]⟩],
    [⟨[2], [], [⟨2, 1, .land⟩, ⟨2, 2, .land⟩], [⟨2, 0, 0, 1, .internal⟩]⟩]]

/-- **C104** On both sides of the comparison coefficients exist for all sides of all elements, all matrices can be inverted, but those of one side are not the same. -/
theorem interp_differs :
    (∀ e < 4, (0 < jdet (skewTris e).elt.tri ∧ (pCols (dCol skewTris fourMesh e)).isSome ∧ (pCols (dColOf skewTris (coordPre skewTris skewRanks.flatten) e)).isSome) ∧
      ∀ f < 3, (interp (skewTris e).elt.tri (nbCoord skewTris fourMesh e) f).isSome ∧
        (interpP (skewTris e).elt.tri (coordPre skewTris skewRanks.flatten e) (coordPost skewTris skewRanks.flatten e) (isCut skewRanks.flatten e) f).isSome) ∧
    (interp (skewTris 0).elt.tri (nbCoord skewTris fourMesh 0) 2).map (fun x => (x.e0, x.e1)) = some (2, 0) ∧
    (interpP (skewTris 0).elt.tri (coordPre skewTris skewRanks.flatten 0) (coordPost skewTris skewRanks.flatten 0) (isCut skewRanks.flatten 0) 2).map (fun x => (x.e0, x.e1)) = some (2, 1) := by
  decide +kernel

/-- **C104** Reconstruction by interpolation from one and the same values in the elements, of those data the two programs have: not the same at the first vertex of the inner triangle. -/
theorem recon_differs {g g' : GradData ℚ} (h : Gn.Ready skewTris fourMesh g) (h' : ReadyP skewTris skewRanks.flatten g') (ids : List (Mesh ℚ) → List ℕ) :
    reconP skewTris ids skewRanks g' .int (fun e => if e = 1 then 1 else 0) 0 0 ≠ recon skewTris fourMesh g .int (fun e => if e = 1 then 1 else 0) 0 0 := by
  have ha : ∀ f < 3, g.a 0 f = (interp (skewTris 0).elt.tri (nbCoord skewTris fourMesh 0) f).getD ⟨0, 0, 0, 0⟩ := fun f hf => by rw [h.a 0 (by simp [fourMesh]) f hf]; rfl
  have ha' : ∀ f < 3, g'.a 0 f =
      (interpP (skewTris 0).elt.tri (coordPre skewTris skewRanks.flatten 0) (coordPost skewTris skewRanks.flatten 0) (isCut skewRanks.flatten 0) f).getD ⟨0, 0, 0, 0⟩ :=
    fun f hf => by rw [h'.a 0 (by simp [skewRanks]) f hf]; rfl
  change reconIntP skewRanks.flatten g'.a (fun e => if e = 1 then 1 else 0) 0 0 ≠ reconInt fourMesh g.a (fun e => if e = 1 then 1 else 0) 0 0
  unfold reconIntP reconInt fromMids
  simp only [List.range_succ, List.range_zero, List.nil_append, List.cons_append, List.map_cons, List.map_nil, ha 0 (by omega), ha 1 (by omega), ha 2 (by omega), ha' 0 (by omega), ha' 1 (by omega),
    ha' 2 (by omega)]
  decide +kernel

/-- The four triangles over the rationals. -/
def fourQ : ℕ → EltData ℚ := fourTris 2 fun _ _ => 0

/-- The data that the preprocessor computes. -/
def fourG : GradData ℚ :=
  ⟨fun e => (pCols (dCol fourQ fourMesh e)).getD fun _ => ⟨0, 0⟩, fun e f => (interp (fourQ e).elt.tri (nbCoord fourQ fourMesh e) f).getD ⟨0, 0, 0, 0⟩, fourNode⟩

/-- **C104** On the two ranks above the inner triangle has two cut sides only, but its neighbour on the third side is in line with its barycentre and the origin of coordinates: no result. -/
theorem two_sides_singular : ¬∃ g, ReadyP fourQ fourRanks.flatten g := by
  rintro ⟨g, h⟩
  have h0 : (pCols (dColOf fourQ (coordPre fourQ fourRanks.flatten) 0)).isNone := by decide +kernel
  exact h.pre 0 (by simp [fourRanks]) (Option.isNone_iff_eq_none.1 h0)

/-- Three triangles on the one rank, one on the other. -/
def threeOne : List (List (Mesh ℚ)) :=
  [[⟨[0, 1, 2], [⟨0, 0, 1, 0, .internal⟩, ⟨0, 1, 2, 0, .internal⟩], [⟨1, 1, .land⟩, ⟨1, 2, .land⟩, ⟨2, 1, .land⟩, ⟨2, 2, .land⟩], [⟨0, 2, 3, 0, .internal⟩]⟩],
    [⟨[3], [], [⟨3, 1, .land⟩, ⟨3, 2, .land⟩], [⟨3, 0, 0, 2, .internal⟩]⟩]]

theorem three_part : Partitioned (fun _ : Iface ℚ => 0) fourMesh threeOne.flatten [⟨0, 2, 3, 0, .internal⟩] := by
  refine ⟨?_, ?_, ?_, ?_, ?_, ?_, ?_, ?_⟩
  · simp [fourMesh]
  · exact List.Perm.refl _
  · exact List.Perm.refl _
  · exact List.Perm.refl _
  · exact List.Perm.refl _
  · simp [threeOne]
  · simp [threeOne]
  · simp [threeOne]

/-- Whether a pair is accepted. -/
def accept (t : Tri ℚ) (nb : ℕ → P2 ℚ) (f perm : ℕ) : Bool :=
  match solveAlpha (Geometry.midpoint t f) (barycentre t) (nb f) (nb ((f + perm + 1) % 3)) with
  | none => false
  | some a => decide (0 ≤ snap a.1 ∧ 0 ≤ snap a.2)

theorem accept_of {t : Tri ℚ} {nb : ℕ → P2 ℚ} {f perm : ℕ} (h : Accepted t nb f perm) : accept t nb f perm = true := by
  obtain ⟨a, ha, h⟩ := h
  unfold accept
  simp only [ha]
  exact decide_eq_true h

/-- **C104** If one triangle is on another rank exceptional pairs occur only at sides in line with their neighbours: there are data, and they give what those of the serial program give. -/
example : Gn.Ready fourQ fourMesh fourG ∧ (∃ g', ReadyP fourQ threeOne.flatten g' ∧ g'.node = fourNode) ∧ ∀ g', ReadyP fourQ threeOne.flatten g' → g'.node = fourNode → SameData fourMesh g' fourG := by
  have h : ∀ e < 4, ((pCols (dCol fourQ fourMesh e)).isSome ∧ (pCols (dColOf fourQ (coordPre fourQ threeOne.flatten) e)).isSome) ∧ ∀ f < 3,
      ((interp (fourQ e).elt.tri (nbCoord fourQ fourMesh e) f).isSome ∧
        ∀ perm < 2, (solveAlpha (Geometry.midpoint (fourQ e).elt.tri f) (barycentre (fourQ e).elt.tri) (nbCoord fourQ fourMesh e f) (nbCoord fourQ fourMesh e ((f + perm + 1) % 3))).isSome) ∧
      ((∃ k ∈ [(1 : ℚ), 1 / 2], (Geometry.midpoint (fourQ e).elt.tri f).x - (barycentre (fourQ e).elt.tri).x = k * ((nbCoord fourQ fourMesh e f).x - (barycentre (fourQ e).elt.tri).x) ∧
          (Geometry.midpoint (fourQ e).elt.tri f).y - (barycentre (fourQ e).elt.tri).y = k * ((nbCoord fourQ fourMesh e f).y - (barycentre (fourQ e).elt.tri).y)) ∨
        ¬(pairCut (isCut threeOne.flatten e) f 0 = false ∧ pairCut (isCut threeOne.flatten e) f 1 = true ∧ accept (fourQ e).elt.tri (nbCoord fourQ fourMesh e) f 0 = true ∧
          accept (fourQ e).elt.tri (nbCoord fourQ fourMesh e) f 1 = true)) := by decide +kernel
  have h4 : ∀ e ∈ (fourMesh (K := ℚ)).elts, e < 4 := by decide
  have hg : Gn.Ready fourQ fourMesh fourG := by
    refine ⟨fun e he => ?_, fun e he f hf => ?_⟩
    · obtain ⟨P, hP⟩ := Option.isSome_iff_exists.1 (h e (h4 e he)).1.1
      simp only [fourG, hP, Option.getD_some]
    · obtain ⟨P, hP⟩ := Option.isSome_iff_exists.1 ((h e (h4 e he)).2 f hf).1.1
      simp only [fourG, hP, Option.getD_some]
  refine ⟨hg, ready_ranks (g := fourG) three_part (by decide) hg ?_ ?_ ?_⟩
  · intro e he
    exact Option.isSome_iff_ne_none.1 (h e (h4 e he)).1.2
  · intro e he f hf perm hp
    exact Option.isSome_iff_ne_none.1 (((h e (h4 e he)).2 f hf).1.2 perm hp)
  · intro e he f hf hne ⟨h0, h1, a0, a1⟩
    rcases ((h e (h4 e he)).2 f hf).2 with hx | hx
    · obtain ⟨k, -, hk⟩ := hx
      exact hne ⟨_, hk⟩
    · exact hx ⟨h0, h1, accept_of a0, accept_of a1⟩

end Verif.Gn.Props
