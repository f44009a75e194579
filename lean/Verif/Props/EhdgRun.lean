import Verif.Props.Ehdg
import Verif.Props.FreeStream

/-!
# C76, C77: runs of the explicit hybridized discretization

It conserves water in a closed basin; and on a lake at rest and on a uniform stream its right-hand side is that of the RKDG discretization, so that
both are preserved.
-/

namespace Verif.Ehdg.Props
open Verif.Swe Verif.Swe.Props Verif.Geometry Verif.Geometry.Props Verif.Element Verif.Stepper MvPolynomial

/-! ### Water -/

section
variable {K : Type} [Field K] [LinearOrder K] [IsStrictOrderedRing K] {v : Env K} {dat : ℕ → EltData K} {m : Mesh K}

omit [IsStrictOrderedRing K] in
theorem volume_zero (hN : MassNumerics v.N) (d : EltData K) (u : Fin 3 → ℕ → K) : Ehdg.volumeTerm v d u 0 0 = 0 := by
  simp only [Ehdg.volumeTerm, Elt.intDPhi, hN.dphi10, hN.dphi20, zero_mul, add_zero, mul_zero, List.map_const', List.sum_replicate, smul_zero]

/-- The pair of fluxes of an ordinary interface. -/
theorem face_pair {wet : ℕ → Bool} (q : State K) (x : Faces K) {i : Iface K} (hk : i.kind = .internal) (hw : (wet i.ein || wet i.eex) = true) {gp : ℕ}
    (hgp : gp < (i.rule v dat).length) :
    ((faceFlux v dat wet q x i).1 gp, (faceFlux v dat wet q x i).2 ((i.rule v dat).length - gp - 1)) =
      pairFlux v.sq v.src.g (bathHat (i.rule v dat).length (fun gp => (i.inside v dat wet q gp).aux.bath) (fun gp => (i.outside v dat wet q gp).aux.bath) gp)
        (normal v.sq (dat i.ein).elt.tri i.fin) (opp (normal v.sq (dat i.ein).elt.tri i.fin)) (wet i.ein) (wet i.eex) (i.inside v dat wet q gp).q
        (i.outside v dat wet q ((i.rule v dat).length - gp - 1)).q := by
  unfold faceFlux
  rw [hk]
  simp only
  rw [internal_pairs hw hgp]
  rfl

theorem interface_zero (hb : ClosedBasin v dat m) (hN : MassNumerics v.N) {i : Iface K} (hi : i ∈ m.ints) {wet : ℕ → Bool}
    (hw : (wet i.ein || wet i.eex) = true) (q : State K) (x : Faces K) : inTerm v dat wet q x i 0 0 + exTerm v dat wet q x i 0 0 = 0 := by
  obtain ⟨h1, h2, h3, h4⟩ := hb.ints i hi
  have hu : Unit (normal v.sq (dat i.ein).elt.tri i.fin) := (normal_spec hb.sqrt (dat i.ein).elt.tri (hb.ccw _ h1) i.fin h3).1
  have hu' : Unit (opp (normal v.sq (dat i.ein).elt.tri i.fin)) := by
    simp only [Swe.Props.Unit, opp, neg_sq]; exact hu
  have hf : ∀ gp < (i.rule v dat).length, ((faceFlux v dat wet q x i).2 ((i.rule v dat).length - gp - 1)).ze = -((faceFlux v dat wet q x i).1 gp).ze := by
    intro gp hgp
    have hp := face_pair q x h4 hw hgp
    have hc := (interface_conservative v.sq v.src.g (bathHat (i.rule v dat).length (fun gp => (i.inside v dat wet q gp).aux.bath)
      (fun gp => (i.outside v dat wet q gp).aux.bath) gp) _ _ hu hu' (wet i.ein) (wet i.eex) (i.inside v dat wet q gp).q
        (i.outside v dat wet q ((i.rule v dat).length - gp - 1)).q).1
    rw [← hp] at hc
    exact hc
  simp only [inTerm, exTerm, Elt.intFace, sum_range_list, hN.phi0, one_mul, comp, Matrix.cons_val_zero]
  rw [← Finset.sum_range_reflect (fun gp => ((faceFlux v dat wet q x i).2 gp).ze * (weight (i.rule v dat) gp * i.J v dat)), ← Finset.sum_add_distrib]
  apply Finset.sum_eq_zero
  intro gp hgp
  have hlt : gp < (i.rule v dat).length := Finset.mem_range.mp hgp
  have hw := hN.sym (2 * max (dat i.ein).elt.p (dat i.eex).elt.p + 1) gp hlt
  change weight (i.rule v dat) ((i.rule v dat).length - gp - 1) = weight (i.rule v dat) gp at hw
  rw [show (i.rule v dat).length - 1 - gp = (i.rule v dat).length - gp - 1 by omega, hw, hf gp hlt]
  ring

/-- Land, without the assumption that the depth is positive. -/
theorem land_mass (sq : K → K) (g b : K) (n : P2 K) (hn : Unit n) (q : Q K) : (landBoundary sq g n q b).ze = 0 := by
  have hn' : n.x ^ 2 + n.y ^ 2 = 1 := hn
  simp only [landBoundary, tauLF, mulQ_smul, add_ze, smul_ze, sub_ze, landHat, fluxN, sub_self, mul_zero, add_zero]
  linear_combination (-(q.qx * n.x) - q.qy * n.y) * hn'

theorem boundary_zero (hb : ClosedBasin v dat m) {b : Bnd K} (hbm : b ∈ m.bnds) (q : State K) (x : Faces K) : bndTerm v dat q x b 0 0 = 0 := by
  obtain ⟨h1, h2, h3⟩ := hb.bnds b hbm
  have hu := (normal_spec hb.sqrt (dat b.e).elt.tri (hb.ccw _ h1) b.f h2).1
  simp only [bndTerm, Elt.intFace, Ehdg.bndFlux, h3, comp, Matrix.cons_val_zero, land_mass v.sq v.src.g _ _ hu, zero_mul, List.map_const',
    List.sum_replicate, smul_zero]

/-- The kernels move water between elements but create none. -/
theorem rhs_total (hb : ClosedBasin v dat m) (hN : MassNumerics v.N) (wet : ℕ → Bool) (t : K) (x : Faces K) (q junk : State K) :
    total m.elts (Ehdg.localRhs v dat m wet t x q junk) = 0 := by
  unfold Ehdg.localRhs
  have h1 : ∀ e ∈ m.elts, (m.elts.foldl (Ehdg.volumeKernel v dat wet q) junk) e 0 0 = 0 := by
    intro e he
    have : Ehdg.volumeKernel v dat wet q = fun r e => Function.update r e (if wet e then Ehdg.volumeTerm v (dat e) (q e) else 0) := rfl
    rw [this, foldl_update, if_pos he]
    split
    · exact volume_zero hN _ _
    · rfl
  have h2 : ∀ (l : List ℕ) (r : State K), (∀ e ∈ m.elts, r e 0 0 = 0) → ∀ e ∈ m.elts, (l.foldl (sourceKernel v dat wet t q) r) e 0 0 = 0 := by
    intro l
    induction l with
    | nil => intro r hr; exact hr
    | cons a l ih =>
      intro r hr
      rw [List.foldl_cons]
      apply ih
      intro e he
      unfold sourceKernel
      split
      · by_cases hea : e = a
        · subst hea
          rw [Function.update_self, Pi.add_apply, Pi.add_apply, hr e he, source_zero hb, add_zero]
        · rw [Function.update_of_ne hea]; exact hr e he
      · exact hr e he
  have h3 : ∀ (l : List (Iface K)), (∀ i ∈ l, i ∈ m.ints) → ∀ r : State K, total m.elts (l.foldl (Ehdg.interfaceKernel v dat wet q x) r) = total m.elts r := by
    intro l
    induction l with
    | nil => intro _ r; rfl
    | cons i l ih =>
      intro hl r
      rw [List.foldl_cons, ih (fun j hj => hl j (List.mem_cons_of_mem _ hj))]
      have hi := hl i List.mem_cons_self
      obtain ⟨e1, e2, _⟩ := hb.ints i hi
      unfold Ehdg.interfaceKernel
      split
      · next hw =>
        rw [total_subAt hb.nodup e2, total_subAt hb.nodup e1]
        linear_combination -interface_zero hb hN hi hw q x
      · rfl
  have h4 : ∀ (l : List (Bnd K)), (∀ b ∈ l, b ∈ m.bnds) → ∀ r : State K, total m.elts (l.foldl (Ehdg.boundaryKernel v dat wet q x) r) = total m.elts r := by
    intro l
    induction l with
    | nil => intro _ r; rfl
    | cons b l ih =>
      intro hl r
      rw [List.foldl_cons, ih (fun j hj => hl j (List.mem_cons_of_mem _ hj))]
      have hbm := hl b List.mem_cons_self
      unfold Ehdg.boundaryKernel
      split
      · rw [total_subAt hb.nodup (hb.bnds b hbm).1, boundary_zero hb hbm, sub_zero]
      · rfl
  simp only
  rw [h4 _ (fun _ h => h), h3 _ (fun _ h => h)]
  unfold total
  have := h2 m.elts _ h1
  rw [List.map_congr_left this]
  simp

/-- C76: during any number of stages of the hybridized discretization the water in a closed basin stays the same as long as no element is emptied,
whatever the flux matrices held before. -/
theorem ehdg_mass (hb : ClosedBasin v dat m) (hN : MassNumerics v.N) {tab : Tableau} {ns o : ℕ}
    (htab : tableau ns o = some tab) (hrow : (ns, o) ∈ [(1, 1), (2, 2), (3, 3), (4, 3), (6, 3), (7, 4), (8, 4)]) (dt : K) (pp : PostParams K)
    (hp : ∀ w, pp.wd = some w → 0 < w.thr ∧ w.thr ≤ w.ho) (hdeg : ∀ e, 1 ≤ (dat e).elt.p) (junk : State K) (time : ℕ → K) (x : ℕ → Faces K)
    (slots : List (Slot (State K))) (hlen : ns + 1 ≤ slots.length) (sl : Slot (State K)) (h0 : slots[0]? = some sl) (wet : ℕ → Bool) (n : ℕ) (s : Run K)
    (h : Ehdg.run v dat m tab ns dt pp junk time x n ⟨slots, 0, wet, false⟩ = .ok s) (hem : s.emptied = false) :
    ∃ sl', s.slots[s.stage]? = some sl' ∧ water dat m.elts sl'.q = water dat m.elts sl.q := by
  have hns := (Stepper.shapeOK_of_tableau htab).2.1
  have hrun := withRun_invariant (A := fun q => waterZe dat m.elts q = waterZe dat m.elts sl.q) (S := fun x => waterZe dat m.elts x = 0) (G := fun _ => True)
    (v := v) (dat := dat) (m := m) (dt := dt) (pp := pp) (R := fun k wet q => Ehdg.localRhs v dat m wet (time k) (x k) q junk) htab ?_ ?_ ?_
    (s := ⟨slots, 0, wet, false⟩) ⟨hns, hlen, ?_, ?_, trivial⟩ n h hem
  · obtain ⟨sl', h1, h2⟩ := hrun.good s.stage le_rfl
    exact ⟨sl', h1, by rw [water_split, water_split, h2]⟩
  · intro k hk u x hux
    rw [waterZe_sum]
    have h1 : ∀ s ∈ Finset.range (k + 1), waterZe dat m.elts ((tabA tab k s : K) • u s + (dt * (tabB tab k s : K)) • x s) =
        (tabA tab k s : K) * waterZe dat m.elts sl.q := by
      intro s hs
      obtain ⟨h2, h3⟩ := hux s (by simp at hs; omega)
      rw [waterZe_add, waterZe_smul, waterZe_smul, h2, h3]; ring
    rw [Finset.sum_congr rfl h1, ← Finset.sum_mul, row_sum htab (Stepper.Props.exact_rows o ns tab htab hrow) hk, one_mul]
  · intro k q wet _ _
    rw [← rhs_total hb hN wet (time k) (x k) q junk]
    unfold total waterZe
    congr 1
    apply List.map_congr_left
    intro e he
    have hj : |jdet (dat e).elt.tri| ≠ 0 := abs_ne_zero.mpr (hb.ccw e he).ne'
    simp only [solve, Elt.applyMinv, hN.minv0]
    field_simp
  · intro q wet em f hf hfe
    obtain ⟨h1, h2⟩ := wdAll_keeps hp (fun e _ => hdeg e) hf hfe
    refine ⟨h1, fun hq _ => ⟨?_, trivial⟩⟩
    rw [← hq]
    exact waterZe_congr _ _ fun e _ => by rw [slAll_keeps v dat m pp.sl hdeg, h2]
  · intro i hi
    obtain rfl : i = 0 := by simpa using hi
    exact ⟨sl, h0, rfl⟩
  · intro i hi
    simp at hi

/-! ### States on which both discretizations agree -/

omit [IsStrictOrderedRing K] in
/-- If all terms agree the right-hand sides agree. -/
theorem rhs_same {wet : ℕ → Bool} {t ramp : K} {x : Faces K} {q junk : State K} (hv : ∀ e ∈ m.elts, Ehdg.volumeTerm v (dat e) (q e) = Swe.volumeTerm v (dat e) (q e))
    (hi : ∀ i ∈ m.ints, inTerm v dat wet q x i = i.inTerm v dat wet q ∧ exTerm v dat wet q x i = i.exTerm v dat wet q)
    (hb : ∀ b ∈ m.bnds, bndTerm v dat q x b = b.term v dat t ramp q) :
    Ehdg.localRhs v dat m wet t x q junk = Swe.localRhs v dat m wet t ramp q junk := by
  unfold Ehdg.localRhs Swe.localRhs
  have h1 : ∀ r, m.elts.foldl (Ehdg.volumeKernel v dat wet q) r = m.elts.foldl (Swe.volumeKernel v dat wet q) r := fun r =>
    List.foldl_ext _ _ _ fun r e he => by unfold Ehdg.volumeKernel Swe.volumeKernel; rw [hv e he]
  have h2 : ∀ r, m.ints.foldl (Ehdg.interfaceKernel v dat wet q x) r = m.ints.foldl (Swe.interfaceKernel v dat wet q) r := fun r =>
    List.foldl_ext _ _ _ fun r i him => by unfold Ehdg.interfaceKernel Swe.interfaceKernel; rw [(hi i him).1, (hi i him).2]
  have h3 : ∀ r, m.bnds.foldl (Ehdg.boundaryKernel v dat wet q x) r = m.bnds.foldl (Swe.boundaryKernel v dat wet t ramp q) r := fun r =>
    List.foldl_ext _ _ _ fun r b hbm => by unfold Ehdg.boundaryKernel Swe.boundaryKernel; rw [hb b hbm]
  simp only [h1, h2, h3]

omit [IsStrictOrderedRing K] in
/-- Without projection the interior terms are the same. -/
theorem volume_same (hsp : ∀ x, v.sp x = 1) (d : EltData K) (u : Fin 3 → ℕ → K) : Ehdg.volumeTerm v d u = Swe.volumeTerm v d u := by
  unfold Ehdg.volumeTerm Swe.volumeTerm Swe.auxAt
  simp only [hsp, one_mul]

omit [LinearOrder K] [IsStrictOrderedRing K] in
theorem face_congr (N : Numerics K) (r : List (K × K)) (f : ℕ) (J : K) {X Y : ℕ → K} (h : ∀ gp < r.length, X gp = Y gp) (d : ℕ) :
    Elt.intFace N r f J X d = Elt.intFace N r f J Y d := by
  unfold Elt.intFace
  congr 1
  exact List.map_congr_left fun gp hgp => by rw [h gp (List.mem_range.mp hgp)]

end

section
variable {v : Env ℝ} {dat : ℕ → EltData ℝ} {m : Mesh ℝ} {F : ℕ → MvPolynomial (Fin 2) ℝ} {P : ℕ} {ε b L t ramp : ℝ} {U : Q ℝ} {q : State ℝ}

/-- The open boundaries let the state `U` pass: their flux is the physical one. This is what a trace equal to `U` gives (`hybrid_consistent`). -/
def Passes (v : Env ℝ) (dat : ℕ → EltData ℝ) (m : Mesh ℝ) (x : Faces ℝ) (U : Q ℝ) : Prop :=
  ∀ b ∈ m.bnds, b.kind ≠ .land → ∀ gp < (faceRule v.N (dat b.e).elt.p).length, x.openF b gp =
    physical v.src.g 1 ((dat b.e).elt.value v.N (dat b.e).bath (facePt (faceRule v.N (dat b.e).elt.p) b.f gp)) U (normal v.sq (dat b.e).elt.tri b.f)

/-! ### Lake at rest -/

theorem rest_hybrid (sq : ℝ → ℝ) (g b L : ℝ) (n : P2 ℝ) :
    hybrid sq g b n ⟨L, 0, 0⟩ ⟨L, 0, 0⟩ = ⟨0, g * (L ^ 2 / 2 + L * b) * n.x, g * (L ^ 2 / 2 + L * b) * n.y⟩ := by
  have hm : mean (⟨L, 0, 0⟩ : Q ℝ) ⟨L, 0, 0⟩ = ⟨L, 0, 0⟩ := by ext <;> simp [mean]
  rw [hybrid, hm]
  ext <;> simp [fluxN, pe]

theorem rest_faces (hR : Rules v.N F P ε) (hm : RestMesh v dat m P L t ramp) (hq : AtRest dat m.elts L q) {wet : ℕ → Bool}
    (hw : ∀ e ∈ m.elts, wet e = true) {i : Iface ℝ} (hi : i ∈ m.ints) (hk : i.kind = .internal) (x : Faces ℝ) {gp : ℕ} (hgp : gp < (i.rule v dat).length) :
    ((faceFlux v dat wet q x i).1 gp, (faceFlux v dat wet q x i).2 ((i.rule v dat).length - gp - 1)) = i.flux v dat wet q gp := by
  obtain ⟨h1, h2⟩ := hm.ends i hi
  have hn := (opposite (v := v) (hm.ccw _ h1) (hm.ccw _ h2) (hm.edges i hi)).1
  have hb := hm.bath i hi hk gp hgp
  have e1 := rest_flux_in hR hm hq (wet := wet) hi gp
  have e2 := rest_flux_ex hR hm hq (wet := wet) hi (gp := (i.rule v dat).length - gp - 1) (by omega)
  rw [show (i.rule v dat).length - ((i.rule v dat).length - gp - 1) - 1 = gp by omega] at e2
  have hw1 := hw _ h1
  have hw2 := hw _ h2
  rw [face_pair q x hk (by rw [hw1]; rfl) hgp, hw1, hw2]
  have hp : ∀ b n n' q r, pairFlux v.sq v.src.g b n n' true true q r = (hybrid v.sq v.src.g b n q r, -hybrid v.sq v.src.g b n q r) := by
    intro b n n' q r
    simp [pairFlux]
  rw [hp]
  simp only [Iface.inside, Iface.outside, rest_value hR hq h1, rest_value hR hq h2, rest_hybrid]
  have hbh : bathHat (i.rule v dat).length
      (fun gp => (Swe.auxAt v (dat i.ein) ⟨L, 0, 0⟩ (facePt (i.rule v dat) i.fin gp) (localToGlobal (dat i.ein).elt.tri (facePt (i.rule v dat) i.fin gp))).bath)
      (fun gp => (Swe.auxAt v (dat i.eex) ⟨L, 0, 0⟩ (facePt (i.rule v dat) i.fex gp)
        (localToGlobal (dat i.ein).elt.tri (facePt (i.rule v dat) i.fin ((i.rule v dat).length - gp - 1)))).bath) gp =
      (dat i.ein).elt.value v.N (dat i.ein).bath (facePt (i.rule v dat) i.fin gp) := by
    simp only [bathHat, Swe.auxAt]
    rw [← hb]; ring
  rw [hbh]
  refine Prod.ext ?_ ?_
  · exact e1.symm
  · rw [e2, hn, ← hb]
    ext <;> simp

theorem rest_same (hR : Rules v.N F P ε) (hm : RestMesh v dat m P L t ramp) (hk : ∀ i ∈ m.ints, i.kind = .internal) (hq : AtRest dat m.elts L q)
    {x : Faces ℝ} (hx : Passes v dat m x ⟨L, 0, 0⟩) {wet : ℕ → Bool} (hw : ∀ e ∈ m.elts, wet e = true) (junk : State ℝ) :
    Ehdg.localRhs v dat m wet t x q junk = Swe.localRhs v dat m wet t ramp q junk := by
  refine rhs_same (fun e _ => volume_same hm.sp _ _) (fun i hi => ⟨?_, ?_⟩) fun b hb => ?_
  · funext var dof
    exact face_congr _ _ _ _ (fun gp hgp => by rw [← rest_faces hR hm hq hw hi (hk i hi) x hgp]) dof
  · funext var dof
    refine face_congr _ _ _ _ (fun gp hgp => ?_) dof
    rw [← rest_faces hR hm hq hw hi (hk i hi) x (gp := (i.rule v dat).length - gp - 1) (by omega)]
    simp only [show (i.rule v dat).length - ((i.rule v dat).length - gp - 1) - 1 = gp by omega]
  · funext var dof
    have h1 := hm.owner b hb
    refine face_congr _ _ _ _ (fun gp hgp => ?_) dof
    simp only [rest_value hR hq h1]
    rw [rest_flux_bnd hm hb _ _ (hm.sp _)]
    have key : Ehdg.bndFlux v dat q x b gp = ⟨0, v.src.g * (L ^ 2 / 2 + L * (dat b.e).elt.value v.N (dat b.e).bath
        (facePt (faceRule v.N (dat b.e).elt.p) b.f gp)) * (normal v.sq (dat b.e).elt.tri b.f).x,
        v.src.g * (L ^ 2 / 2 + L * (dat b.e).elt.value v.N (dat b.e).bath (facePt (faceRule v.N (dat b.e).elt.p) b.f gp)) *
          (normal v.sq (dat b.e).elt.tri b.f).y⟩ := by
      have hopen : b.kind ≠ .land → x.openF b gp = ⟨0, v.src.g * (L ^ 2 / 2 + L * (dat b.e).elt.value v.N (dat b.e).bath
          (facePt (faceRule v.N (dat b.e).elt.p) b.f gp)) * (normal v.sq (dat b.e).elt.tri b.f).x,
          v.src.g * (L ^ 2 / 2 + L * (dat b.e).elt.value v.N (dat b.e).bath (facePt (faceRule v.N (dat b.e).elt.p) b.f gp)) *
            (normal v.sq (dat b.e).elt.tri b.f).y⟩ := by
        intro h
        rw [hx b hb h gp hgp]
        ext <;> simp only [physical, zero_div, mul_zero, zero_mul, add_zero, zero_add] <;> ring
      unfold Ehdg.bndFlux
      simp only [rest_value hR hq h1]
      cases hkd : b.kind with
      | land =>
        simp only [landBoundary, landHat]
        ext <;> simp [tauLF, mulQ_smul, fluxN, pe]
      | tide cs => exact hopen (by simp [hkd])
      | flow cs => exact hopen (by simp [hkd])
      | function => exact hopen (by simp [hkd])
    rw [key]
    rfl

/-- C77: with exact rules a lake at rest stays at rest under any number of stages. -/
theorem ehdg_lake_at_rest (hR : Rules v.N F P 0) {tab : Tableau} {ns o : ℕ} (htab : tableau ns o = some tab)
    (hrow : (ns, o) ∈ [(1, 1), (2, 2), (3, 3), (4, 3), (6, 3), (7, 4), (8, 4)]) (dt : ℝ) (pp : PostParams ℝ)
    (hp : ∀ w, pp.wd = some w → 0 < w.thr ∧ w.thr ≤ w.ho ∧ ∀ e ∈ m.elts, ∀ x < 3, w.ho + w.thr < L + w.bath e x)
    (hdeg : ∀ e ∈ m.elts, 1 ≤ (dat e).elt.p) (junk : State ℝ) (time ramp : ℕ → ℝ) (hm : ∀ n, RestMesh v dat m P L (time n) (ramp n))
    (hk : ∀ i ∈ m.ints, i.kind = .internal) (x : ℕ → Faces ℝ) (hx : ∀ n, Passes v dat m (x n) ⟨L, 0, 0⟩)
    (slots : List (Slot (State ℝ))) (hlen : ns + 1 ≤ slots.length) (sl : Slot (State ℝ)) (h0 : slots[0]? = some sl) (hq : AtRest dat m.elts L sl.q)
    (wet : ℕ → Bool) (hw : ∀ e ∈ m.elts, wet e = true) (n : ℕ) :
    ∃ s sl', Ehdg.run v dat m tab ns dt pp junk time x n ⟨slots, 0, wet, false⟩ = .ok s ∧ s.emptied = false ∧
      s.slots[s.stage]? = some sl' ∧ AtRest dat m.elts L sl'.q ∧ ∀ e ∈ m.elts, s.wet e = true := by
  have hns := (Stepper.shapeOK_of_tableau htab).2.1
  obtain ⟨s, h1, h2, h3⟩ := withRun_keeps (A := AtRest dat m.elts L)
    (S := fun x => ∀ e ∈ m.elts, ∀ d < ndof (dat e).elt.p, ∀ var, x e var d = 0) (G := fun w => ∀ e ∈ m.elts, w e = true)
    (v := v) (dat := dat) (m := m) (dt := dt) (pp := pp) (R := fun k wet q => Ehdg.localRhs v dat m wet (time k) (x k) q junk) htab
    (fun k hk u x hux => rest_comb htab hrow dt hk u x hux)
    (fun k q wet hq hw e he d hd var => by
      simp only [solve, Elt.applyMinv]
      rw [rest_same hR (hm k) hk hq (hx k) hw, rest_rhs hR (hm k) hq hw junk he hd var, zero_mul])
    (fun q wet em hq hw => by
      obtain ⟨w', hf, hw'⟩ := rest_wd hp hdeg hq hw em
      exact ⟨_, hf, rfl, by rw [rest_sl (hm 0).sqrt hdeg hq]; exact ⟨hq, hw'⟩⟩)
    (s := ⟨slots, 0, wet, false⟩) ⟨hns, hlen, (fun i hi => by
      obtain rfl : i = 0 := by simpa using hi
      exact ⟨sl, h0, hq⟩), (fun i hi => by simp at hi), hw⟩ n
  obtain ⟨sl', h4, h5⟩ := h2.good s.stage le_rfl
  exact ⟨s, sl', h1, h3, h4, h5, h2.wet⟩

/-! ### Uniform stream -/

theorem stream_hybrid (v : Env ℝ) (U : Q ℝ) (b : ℝ) (n : P2 ℝ) (var : Fin 3) :
    comp (hybrid v.sq v.src.g b n U U) var = sx v U b var * n.x + sy v U b var * n.y := by
  have hm : mean U U = U := by ext <;> simp [mean]
  rw [hybrid, hm]
  fin_cases var <;> simp [comp, fluxN, sx, sy, fluxX, fluxY, pe]

theorem stream_physical (v : Env ℝ) (U : Q ℝ) (b : ℝ) (hw : 0 < U.ze + b) (n : P2 ℝ) (var : Fin 3) :
    comp (physical v.src.g 1 b U n) var = sx v U b var * n.x + sy v U b var * n.y := by
  rw [← stream_hybrid, hybrid_consistent _ _ _ _ _ hw]

theorem stream_faces (hR : Rules v.N F P ε) (hm : StreamMesh v dat m P U b t ramp) (hq : Uniform dat m.elts U q) {wet : ℕ → Bool}
    (hw : ∀ e ∈ m.elts, wet e = true) {i : Iface ℝ} (hi : i ∈ m.ints) (x : Faces ℝ) {gp : ℕ} (hgp : gp < (i.rule v dat).length) (var : Fin 3) :
    comp ((faceFlux v dat wet q x i).1 gp) var = comp (i.flux v dat wet q gp).1 var ∧
    comp ((faceFlux v dat wet q x i).2 ((i.rule v dat).length - gp - 1)) var = comp (i.flux v dat wet q gp).2 var := by
  obtain ⟨h1, h2⟩ := hm.ends i hi
  have hn := (opposite (v := v) (hm.ccw _ h1) (hm.ccw _ h2) (hm.edges i hi)).1
  obtain ⟨e1, e2⟩ := stream_flux hR hm hq hw hi gp var
  have hw1 := hw _ h1
  have hw2 := hw _ h2
  have hpair := face_pair (v := v) (dat := dat) q x (hm.internal i hi) (show (wet i.ein || wet i.eex) = true by rw [hw1]; rfl) hgp
  have hp : ∀ b n n' q r, pairFlux v.sq v.src.g b n n' true true q r = (hybrid v.sq v.src.g b n q r, -hybrid v.sq v.src.g b n q r) := by
    intro b n n' q r
    simp [pairFlux]
  rw [hw1, hw2, hp] at hpair
  simp only [Iface.inside, Iface.outside, stream_value hR hq h1, stream_value hR hq h2, Swe.auxAt,
    const_value hR (hm.bed _ h2)] at hpair
  have hbh : ∀ n g, bathHat n (fun _ => b) (fun _ => b) g = b := by intro n g; simp [bathHat]
  have hb1 : ∀ z, (dat i.ein).elt.value v.N (dat i.ein).bath z = b := const_value hR (hm.bed _ h1)
  simp only [hb1, hbh] at hpair
  obtain ⟨p1, p2⟩ := Prod.mk.inj hpair
  rw [e1, e2, p1, p2, comp_neg, stream_hybrid, hn]
  exact ⟨rfl, by ring⟩

theorem stream_same (hR : Rules v.N F P ε) (hm : StreamMesh v dat m P U b t ramp) (hq : Uniform dat m.elts U q)
    {x : Faces ℝ} (hx : Passes v dat m x U) {wet : ℕ → Bool} (hw : ∀ e ∈ m.elts, wet e = true) (junk : State ℝ) :
    Ehdg.localRhs v dat m wet t x q junk = Swe.localRhs v dat m wet t ramp q junk := by
  refine rhs_same (fun e _ => volume_same hm.sp _ _) (fun i hi => ⟨?_, ?_⟩) fun d hd => ?_
  · funext var dof
    exact face_congr _ _ _ _ (fun gp hgp => (stream_faces hR hm hq hw hi x hgp var).1) dof
  · funext var dof
    refine face_congr _ _ _ _ (fun gp hgp => ?_) dof
    have := (stream_faces hR hm hq hw hi x (gp := (i.rule v dat).length - gp - 1) (by omega) var).2
    rwa [show (i.rule v dat).length - ((i.rule v dat).length - gp - 1) - 1 = gp by omega] at this
  · funext var dof
    have h1 := hm.owner d hd
    refine face_congr _ _ _ _ (fun gp hgp => ?_) dof
    simp only [stream_value hR hq h1, stream_aux hR hm h1]
    rw [stream_bnd hm hd]
    have hopen : d.kind ≠ .land → comp (x.openF d gp) var = sx v U b var * (normal v.sq (dat d.e).elt.tri d.f).x +
        sy v U b var * (normal v.sq (dat d.e).elt.tri d.f).y := by
      intro h
      rw [hx d hd h gp hgp, const_value hR (hm.bed _ h1), stream_physical _ _ _ hm.wet]
    have hf := hm.follows d hd
    unfold Ehdg.bndFlux
    simp only [stream_value hR hq h1, const_value hR (hm.bed _ h1)]
    cases hkd : d.kind with
    | land =>
      rw [hkd] at hf
      have hf' : U.qx * (normal v.sq (dat d.e).elt.tri d.f).x + U.qy * (normal v.sq (dat d.e).elt.tri d.f).y = 0 := hf
      have hl : landHat (normal v.sq (dat d.e).elt.tri d.f) U = U := by
        simp only [landHat, hf', zero_mul, sub_zero]
      simp only [landBoundary, hl]
      rw [mulQ_tau _ _ _ _ _ rfl, ← stream_hybrid]
      have hmn : mean U U = U := by ext <;> simp [mean]
      rw [hybrid, hmn]
    | tide cs => exact hopen (by simp [hkd])
    | flow cs => exact hopen (by simp [hkd])
    | function => exact hopen (by simp [hkd])

/-- C77: with exact rules a uniform stream over a flat bed is preserved by any number of stages. -/
theorem ehdg_free_stream (hR : Rules v.N F P 0) {tab : Tableau} {ns o : ℕ} (htab : tableau ns o = some tab)
    (hrow : (ns, o) ∈ [(1, 1), (2, 2), (3, 3), (4, 3), (6, 3), (7, 4), (8, 4)]) (dt : ℝ) (pp : PostParams ℝ)
    (hp : ∀ w, pp.wd = some w → 0 < w.thr ∧ w.thr ≤ w.ho ∧ ∀ e ∈ m.elts, ∀ x < 3, w.ho + w.thr < U.ze + w.bath e x)
    (hdeg : ∀ e ∈ m.elts, 1 ≤ (dat e).elt.p) (junk : State ℝ) (time ramp : ℕ → ℝ) (hm : ∀ n, StreamMesh v dat m P U b (time n) (ramp n))
    (x : ℕ → Faces ℝ) (hx : ∀ n, Passes v dat m (x n) U)
    (slots : List (Slot (State ℝ))) (hlen : ns + 1 ≤ slots.length) (sl : Slot (State ℝ)) (h0 : slots[0]? = some sl) (hq : Uniform dat m.elts U sl.q)
    (wet : ℕ → Bool) (hw : ∀ e ∈ m.elts, wet e = true) (n : ℕ) :
    ∃ s sl', Ehdg.run v dat m tab ns dt pp junk time x n ⟨slots, 0, wet, false⟩ = .ok s ∧ s.emptied = false ∧
      s.slots[s.stage]? = some sl' ∧ Uniform dat m.elts U sl'.q ∧ ∀ e ∈ m.elts, s.wet e = true := by
  have hns := (Stepper.shapeOK_of_tableau htab).2.1
  obtain ⟨s, h1, h2, h3⟩ := withRun_keeps (A := Uniform dat m.elts U)
    (S := fun x => ∀ e ∈ m.elts, ∀ d < ndof (dat e).elt.p, ∀ var, x e var d = 0) (G := fun w => ∀ e ∈ m.elts, w e = true)
    (v := v) (dat := dat) (m := m) (dt := dt) (pp := pp) (R := fun k wet q => Ehdg.localRhs v dat m wet (time k) (x k) q junk) htab
    (fun k hk u x hux => uniform_comb htab hrow dt hk u x hux)
    (fun k q wet hq hw e he d hd var => by
      simp only [solve, Elt.applyMinv]
      rw [stream_same hR (hm k) hq (hx k) hw, stream_rhs hR (hm k) hq hw junk he hd var, zero_mul])
    (fun q wet em hq hw => by
      obtain ⟨w', hf, hw'⟩ := uniform_wd hp hdeg hq hw em
      exact ⟨_, hf, rfl, by rw [uniform_sl (hm 0).sqrt hdeg hq]; exact ⟨hq, hw'⟩⟩)
    (s := ⟨slots, 0, wet, false⟩) ⟨hns, hlen, (fun i hi => by
      obtain rfl : i = 0 := by simpa using hi
      exact ⟨sl, h0, hq⟩), (fun i hi => by simp at hi), hw⟩ n
  obtain ⟨sl', h4, h5⟩ := h2.good s.stage le_rfl
  exact ⟨s, sl', h1, h3, h4, h5, h2.wet⟩

/-- The projection factor has no influence: the hybridized discretization computes in the plane whether or not the input asks for spherical coordinates
(in the RKDG discretization the factor multiplies the fluxes in x direction). -/
theorem projection_ignored {K : Type} [Field K] [LinearOrder K] (v : Env K) (sp : P2 K → K) (dat : ℕ → EltData K) (m : Mesh K) (wet : ℕ → Bool) (t : K)
    (x : Faces K) (q junk : State K) :
    Ehdg.localRhs { v with sp := sp } dat m wet t x q junk = Ehdg.localRhs v dat m wet t x q junk := rfl

/-- C77, both at rest and in a stream: the lake at rest does not need the assumption that there is no projection. -/
theorem rest_rhs (hR : Rules v.N F P 0) (hm : RestMesh { v with sp := fun _ => 1 } dat m P L t ramp) (hk : ∀ i ∈ m.ints, i.kind = .internal)
    (hq : AtRest dat m.elts L q) {x : Faces ℝ} (hx : Passes v dat m x ⟨L, 0, 0⟩) {wet : ℕ → Bool} (hw : ∀ e ∈ m.elts, wet e = true) (junk : State ℝ)
    {e : ℕ} (he : e ∈ m.elts) {dof : ℕ} (hdof : dof < ndof (dat e).elt.p) (var : Fin 3) : Ehdg.localRhs v dat m wet t x q junk e var dof = 0 := by
  rw [← projection_ignored v (fun _ => 1)]
  rw [rest_same (v := { v with sp := fun _ => 1 }) hR hm hk hq hx hw]
  exact Swe.Props.rest_rhs (v := { v with sp := fun _ => 1 }) hR hm hq hw junk he hdof var

end

/-! ### Cases -/

/-- Two triangles with land around, any state, the numerics of the program. -/
example {rd : ℝ → ℝ} (hr : Basis.Props.Rounding rd) (p : ℕ) (b : ℕ → ℕ → ℝ) (q junk : State ℝ) (wet : ℕ → Bool) (t : ℝ) (x : Faces ℝ) :
    total [0, 1] (Ehdg.localRhs (plainEnv (codeNumerics rd) Real.sqrt) (twoTris p b) twoMesh wet t x q junk) = 0 :=
  rhs_total (two_closed rd p b) (code_mass hr) wet t x q junk

/-- A hump of water flows into the other element. -/
example : ((do
      let s ← Ehdg.run (plainEnv simpleN simpleSq) (twoTris 1 fun _ d => if d = 0 then 1 else 0) twoMesh tab11 1 (1 / 100) ⟨none, none⟩ 0 (fun _ => 0)
        (fun _ => ⟨fun _ _ => ⟨7, 7, 7⟩, fun _ _ => ⟨7, 7, 7⟩, fun _ _ => ⟨7, 7, 7⟩⟩) 1 ⟨[⟨hump, 0⟩, ⟨0, 0⟩], 0, fun _ => true, false⟩
      let c ← slotOr s.slots[s.stage]?
      return decide (c.q 0 0 0 < 1 / 2 ∧ 0 < c.q 1 0 0 ∧ c.q 0 0 0 + c.q 1 0 0 = 1 / 2)) : Res Bool) = .ok true := by decide +kernel

/-- A lake of any level over the sloping bed. -/
example (L : ℝ) (n : ℕ) (tab : Tableau) (ht : tableau 3 3 = some tab) (x : ℕ → Faces ℝ) :
    ∃ s sl, Ehdg.run (plainEnv exactN Real.sqrt) (twoTris 1 slope) twoMesh tab 3 (1 / 10) ⟨none, none⟩ 0 (fun _ => 0)
      x n ⟨[⟨fun _ var d => if var = 0 ∧ d = 0 then L else 0, 0⟩, ⟨0, 0⟩, ⟨0, 0⟩, ⟨0, 0⟩], 0, fun _ => true, false⟩ = .ok s ∧
      s.slots[s.stage]? = some sl ∧ sl.q 0 0 0 = L ∧ sl.q 1 0 0 = L ∧ sl.q 0 1 1 = 0 := by
  have hint : ∀ i ∈ (twoMesh : Mesh ℝ).ints, i.kind = .internal := by
    intro i hi
    obtain rfl : i = _ := by simpa [twoMesh] using hi
    rfl
  obtain ⟨s, sl, h1, _, h2, h3, _⟩ := ehdg_lake_at_rest (v := plainEnv exactN Real.sqrt) (dat := twoTris 1 slope) (m := twoMesh) exact_rules ht (by simp) (1 / 10) ⟨none, none⟩ (fun _ h => by cases h)
    (fun _ _ => le_rfl) 0 (fun _ => 0) (fun _ => 0) (fun _ => two_rest L 0 0) hint x
    (fun n b hb h => by
      rcases (by simpa [twoMesh] using hb : b = _ ∨ b = _ ∨ b = _ ∨ b = _) with rfl | rfl | rfl | rfl <;> exact absurd rfl h)
    [⟨fun _ var d => if var = 0 ∧ d = 0 then L else 0, 0⟩, ⟨0, 0⟩, ⟨0, 0⟩, ⟨0, 0⟩] (by simp) ⟨fun _ var d => if var = 0 ∧ d = 0 then L else 0, 0⟩ rfl
    (fun e _ d _ => by simp) (fun _ => true) (fun _ _ => rfl) n
  have hd : 1 < ndof 1 := by decide
  refine ⟨s, sl, h1, h2, ?_, ?_, ?_⟩
  · exact (h3 0 (by simp [twoMesh]) 0 (ndof_pos _)).1
  · exact (h3 1 (by simp [twoMesh]) 0 (ndof_pos _)).1
  · exact (h3 0 (by simp [twoMesh]) 1 hd).2.1

/-- Open boundaries that let a stream pass. -/
noncomputable def passing (v : Env ℝ) (dat : ℕ → EltData ℝ) (U : Q ℝ) : Faces ℝ :=
  ⟨fun _ _ => 0, fun _ _ => 0, fun b gp => physical v.src.g 1 ((dat b.e).elt.value v.N (dat b.e).bath (facePt (faceRule v.N (dat b.e).elt.p) b.f gp)) U
    (normal v.sq (dat b.e).elt.tri b.f)⟩

/-- The stream through the channel. -/
example (n : ℕ) (tab : Tableau) (ht : tableau 3 3 = some tab) :
    ∃ s sl, Ehdg.run (plainEnv exactN Real.sqrt) (twoTris 1 flat3) channel tab 3 (1 / 10) ⟨none, none⟩ 0 (fun _ => 0)
      (fun _ => passing (plainEnv exactN Real.sqrt) (twoTris 1 flat3) ⟨1 / 2, 2, 0⟩) n
      ⟨[⟨fun _ var d => if d = 0 then ![1 / 2, 2, 0] var else 0, 0⟩, ⟨0, 0⟩, ⟨0, 0⟩, ⟨0, 0⟩], 0, fun _ => true, false⟩ = .ok s ∧
      s.slots[s.stage]? = some sl ∧ sl.q 0 0 0 = 1 / 2 ∧ sl.q 1 1 0 = 2 := by
  obtain ⟨s, sl, h1, _, h2, h3, _⟩ := ehdg_free_stream (v := plainEnv exactN Real.sqrt) exact_rules ht (by simp) (1 / 10) ⟨none, none⟩ (fun _ h => by cases h)
    (fun _ _ => le_rfl) 0 (fun _ => 0) (fun _ => 1) (fun _ => channel_stream exactN 0 1)
    (fun _ => passing (plainEnv exactN Real.sqrt) (twoTris 1 flat3) ⟨1 / 2, 2, 0⟩) (fun n b hb h gp _ => rfl)
    [⟨fun _ var d => if d = 0 then ![1 / 2, 2, 0] var else 0, 0⟩, ⟨0, 0⟩, ⟨0, 0⟩, ⟨0, 0⟩] (by simp) ⟨fun _ var d => if d = 0 then ![1 / 2, 2, 0] var else 0, 0⟩ rfl
    (fun e _ d _ var => by fin_cases var <;> simp [comp]) (fun _ => true) (fun _ _ => rfl) n
  exact ⟨s, sl, h1, h2, h3 0 (by simp [channel]) 0 (ndof_pos _) 0, h3 1 (by simp [channel]) 0 (ndof_pos _) 1⟩

/-- Negation for levees: nothing is computed at a levee, so the elements on its sides get whatever the matrices held. Here two still elements of the same level
with a levee between them, nothing else; the matrices held 7. -/
theorem levee_undefined : Ehdg.localRhs (plainEnv simpleN simpleSq) (twoTris 1 fun _ d => if d = 0 then 1 else 0)
    ⟨[0, 1], [⟨0, 0, 1, 0, .levee fun _ => ⟨5, 1, 1⟩⟩], [], []⟩ (fun _ => true) 0 ⟨fun _ _ => ⟨7, 0, 0⟩, fun _ _ => ⟨7, 0, 0⟩, fun _ _ => 0⟩ 0 0 0 0 0 < 0 ∧
    (Ehdg.localRhs (plainEnv simpleN simpleSq) (twoTris 1 fun _ d => if d = 0 then 1 else 0)
    ⟨[0, 1], [⟨0, 0, 1, 0, .levee fun _ => ⟨5, 1, 1⟩⟩], [], []⟩ (fun _ => true) 0 ⟨fun _ _ => ⟨7, 0, 0⟩, fun _ _ => ⟨7, 0, 0⟩, fun _ _ => 0⟩ 0 0 1 0 0 < 0) := by
  decide +kernel

end Verif.Ehdg.Props
