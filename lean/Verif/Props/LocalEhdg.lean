import Verif.Props.Local
import Verif.Props.EhdgParallel

/-!
# C119, C120 for the hybridized discretization

The fluxes of open boundaries are given. What the flux matrices of the interfaces held does not matter as long as there is no levee.
-/

namespace Verif.Ehdg.Props
open Verif Verif.Geometry Verif.Element Verif.Stepper Verif.Swe Verif.Swe.Props Verif.Ehdg

variable {K : Type} [Field K] [LinearOrder K] [IsStrictOrderedRing K]

/-- Around element `a` there are no levees and the fluxes of open boundaries are the same. -/
structure SameFluxes (v : Env K) (dat : ℕ → EltData K) (m : Mesh K) (x x' : Faces K) (a : ℕ) : Prop where
  internal : ∀ i ∈ m.ints, i.ein = a ∨ i.eex = a → i.kind = .internal
  openF : ∀ b ∈ m.bnds, b.e = a → ∀ gp < (faceRule v.N (dat a).elt.p).length, x.openF b gp = x'.openF b gp

variable {v : Env K} {dat dat' : ℕ → EltData K} {m m' : Mesh K} {pp pp' : PostParams K}

omit [LinearOrder K] [IsStrictOrderedRing K] in
theorem sum_filter {α : Type} (l : List α) (g : α → Fin 3 → ℕ → K) (p : α → Prop) [DecidablePred p] (h : ∀ a ∈ l, ¬ p a → g a = 0) :
    (l.map g).sum = ((l.filter (p ·)).map g).sum := by
  induction l with
  | nil => rfl
  | cons a l ih =>
    have ih' := ih fun b hb => h b (List.mem_cons_of_mem _ hb)
    by_cases ha : p a
    · rw [List.filter_cons_of_pos (by simpa using ha), List.map_cons, List.map_cons, List.sum_cons, List.sum_cons, ih']
    · rw [List.filter_cons_of_neg (by simpa using ha), List.map_cons, List.sum_cons, h a List.mem_cons_self ha, zero_add, ih']

theorem local_int {x x' : Faces K} {wet wet' : ℕ → Bool} {q q' : State K} {i : Iface K} (hk : i.kind = .internal)
    (hin : dat i.ein = dat' i.ein ∧ q i.ein = q' i.ein ∧ wet i.ein = wet' i.ein) (hex : dat i.eex = dat' i.eex ∧ q i.eex = q' i.eex ∧ wet i.eex = wet' i.eex) (a : ℕ) :
    eInt v dat wet q x a i = eInt v dat' wet' q' x' a i := by
  have hr : i.rule v dat = i.rule v dat' := by simp only [Iface.rule, hin.1, hex.1]
  have hJ : i.J v dat = i.J v dat' := by simp only [Iface.J, hin.1]
  have h1 : i.inside v dat wet q = i.inside v dat' wet' q' := by
    funext gp; simp only [Iface.inside, hr, hin.1, hin.2.1, hin.2.2]
  have h2 : i.outside v dat wet q = i.outside v dat' wet' q' := by
    funext gp; simp only [Iface.outside, hr, hin.1, hex.1, hex.2.1, hex.2.2]
  unfold eInt
  rw [← hin.2.2, ← hex.2.2]
  by_cases hw : (wet i.ein || wet i.eex) = true
  swap
  · rw [if_neg hw, if_neg hw]
  have hw' : (wet' i.ein || wet' i.eex) = true := by rw [← hin.2.2, ← hex.2.2]; exact hw
  have hp : ∀ gp < (i.rule v dat).length, ((faceFlux v dat wet q x i).1 gp, (faceFlux v dat wet q x i).2 ((i.rule v dat).length - gp - 1)) =
      ((faceFlux v dat' wet' q' x' i).1 gp, (faceFlux v dat' wet' q' x' i).2 ((i.rule v dat).length - gp - 1)) := by
    intro gp hgp
    rw [face_pair q x hk hw hgp]
    rw [hr] at hgp ⊢
    rw [face_pair q' x' hk hw' hgp, h1, h2, hin.1, hin.2.2, hex.2.2]
  have h3 : Ehdg.inTerm v dat wet q x i = Ehdg.inTerm v dat' wet' q' x' i := by
    funext var dof
    unfold Ehdg.inTerm
    rw [← hr, ← hJ]
    exact face_congr _ _ _ _ (fun gp hgp => by rw [(Prod.mk.inj (hp gp hgp)).1]) dof
  have h4 : Ehdg.exTerm v dat wet q x i = Ehdg.exTerm v dat' wet' q' x' i := by
    funext var dof
    unfold Ehdg.exTerm
    rw [← hr, ← hJ]
    refine face_congr _ _ _ _ (fun gp hgp => ?_) dof
    have := (Prod.mk.inj (hp ((i.rule v dat).length - gp - 1) (by omega))).2
    rw [show (i.rule v dat).length - ((i.rule v dat).length - gp - 1) - 1 = gp by omega] at this
    rw [this]
  rw [h3, h4]

theorem local_solve {x x' : Faces K} (hm : m.elts.Nodup) (hm' : m'.elts.Nodup) {a : ℕ} (ha : SameElement dat dat' m m' pp pp' a) (hx : SameFluxes v dat m x x' a) (t : K)
    (junk junk' : State K) :
    LocalAt v dat dat' m (fun wet q => Ehdg.localRhs v dat m wet t x q junk) (fun wet q => Ehdg.localRhs v dat' m' wet t x' q junk') a := by
  intro wet wet' q q' hq hw hn
  unfold solve
  simp only
  rw [ehdg_rhs_at v dat m hm, ehdg_rhs_at v dat' m' hm', if_pos ha.mem, if_pos ha.mem', ha.dat, hq, hw]
  have e1 : ∀ (dat : ℕ → EltData K) (wet : ℕ → Bool) (q : State K) (x : Faces K) (l : List (Iface K)), (l.map (eInt v dat wet q x a)).sum =
      ((l.filter fun i => i.ein = a ∨ i.eex = a).map (eInt v dat wet q x a)).sum := fun dat wet q x l =>
    sum_filter l _ (fun i => i.ein = a ∨ i.eex = a) fun i _ hi => by
      rw [not_or] at hi
      simp [eInt, hi.1, hi.2]
  have e2 : ∀ (dat : ℕ → EltData K) (wet : ℕ → Bool) (q : State K) (x : Faces K) (l : List (Bnd K)), (l.map (eBnd v dat wet q x a)).sum =
      ((l.filter fun b => b.e = a).map (eBnd v dat wet q x a)).sum := fun dat wet q x l =>
    sum_filter l _ (fun b => b.e = a) fun b _ hb => by simp [eBnd, hb]
  have s1 : (m.ints.map (eInt v dat wet q x a)).sum = (m'.ints.map (eInt v dat' wet' q' x' a)).sum := by
    rw [e1, e1 dat', ← ha.ints]
    refine congrArg _ (List.map_congr_left fun i hi => ?_)
    obtain ⟨h1, h2⟩ := List.mem_filter.1 hi
    have h2 : i.ein = a ∨ i.eex = a := by simpa using h2
    refine local_int (hx.internal i h1 h2) ?_ ?_ a
    · rcases h2 with h | h
      · rw [h]; exact ⟨ha.dat, hq, hw⟩
      · exact hn _ ⟨i, h1, .inr ⟨rfl, h⟩⟩
    · rcases h2 with h | h
      · exact hn _ ⟨i, h1, .inl ⟨h, rfl⟩⟩
      · rw [h]; exact ⟨ha.dat, hq, hw⟩
  have s2 : (m.bnds.map (eBnd v dat wet q x a)).sum = (m'.bnds.map (eBnd v dat' wet' q' x' a)).sum := by
    rw [e2, e2 dat', ← ha.bnds]
    refine congrArg _ (List.map_congr_left fun b hb => ?_)
    obtain ⟨h1, h2⟩ := List.mem_filter.1 hb
    have h2 : b.e = a := by simpa using h2
    have h3 : bndTerm v dat q x b = bndTerm v dat' q' x' b := by
      funext var dof
      unfold bndTerm
      rw [h2, ← ha.dat]
      refine face_congr _ _ _ _ (fun gp hgp => ?_) dof
      have ho := hx.openF b h1 h2 gp hgp
      unfold bndFlux
      simp only [h2, ← ha.dat, ← hq, ho]
    unfold eBnd
    rw [h3, h2, hw]
  rw [s1, s2]

/-- **C119** Domain of dependence of the hybridized discretization. -/
theorem ehdg_domain (hm : m.elts.Nodup) (hm' : m'.elts.Nodup) {tab : Tableau} {ns o : ℕ} (htab : tableau ns o = some tab) {dt : K} {time : ℕ → K} {x x' : ℕ → Faces K}
    {junk junk' : State K} {e : ℕ} (n : ℕ) (hs : ∀ a, Within m e (reach pp * n) a → SameElement dat dat' m m' pp pp' a)
    (hx : ∀ a, Within m e (reach pp * n) a → ∀ k, SameFluxes v dat m (x k) (x' k) a) {s s' s1 s1' : Run K} (hst : s.stage < ns)
    (heq : s.stage = s'.stage) (hlen : ns + 1 ≤ s.slots.length) (hlen' : ns + 1 ≤ s'.slots.length) (hss : ∀ a, Within m e (reach pp * n) a → SameState s s' a)
    (h : Ehdg.run v dat m tab ns dt pp junk time x n s = .ok s1) (h' : Ehdg.run v dat' m' tab ns dt pp' junk' time x' n s' = .ok s1') :
    s1.stage = s1'.stage ∧ s1.stage < ns ∧ SameState s1 s1' e :=
  domain_with hm hm' htab n (fun a ha k => local_solve hm hm' (hs a ha) (hx a ha k) (time k) junk junk') hs hst heq hlen hlen' hss h h'

/-- **C120** Former contents of the storage of stages, of the right hand sides and of the flux matrices do not matter. -/
theorem ehdg_storage (hm : m.elts.Nodup) (hends : ∀ i ∈ m.ints, i.ein ∈ m.elts ∧ i.eex ∈ m.elts) (hint : ∀ i ∈ m.ints, i.kind = .internal) {tab : Tableau} {ns o : ℕ}
    (htab : tableau ns o = some tab) {dt : K} {time : ℕ → K} {x x' : ℕ → Faces K} (hx : ∀ k, ∀ b ∈ m.bnds, (x k).openF b = (x' k).openF b)
    {junk junk' : State K} (n : ℕ) {s s' s1 s1' : Run K} (h0 : s.stage = 0) (h0' : s'.stage = 0) (hlen : ns + 1 ≤ s.slots.length)
    (hlen' : ns + 1 ≤ s'.slots.length) (hq : ∀ sl sl', s.slots[0]? = some sl → s'.slots[0]? = some sl' → ∀ e ∈ m.elts, sl.q e = sl'.q e)
    (hw : ∀ e ∈ m.elts, s.wet e = s'.wet e) (h : Ehdg.run v dat m tab ns dt pp junk time x n s = .ok s1)
    (h' : Ehdg.run v dat m tab ns dt pp junk' time x' n s' = .ok s1') :
    ∀ e ∈ m.elts, s1.stage = s1'.stage ∧ s1.wet e = s1'.wet e ∧ ∀ sl sl', s1.slots[s1.stage]? = some sl → s1'.slots[s1.stage]? = some sl' → sl.q e = sl'.q e := by
  have hns := (Stepper.shapeOK_of_tableau htab).2.1
  intro e he
  obtain ⟨d1, _, d2⟩ := ehdg_domain hm hm htab n (e := e) (fun a ha => ⟨within_elts hends he _ a ha, within_elts hends he _ a ha, rfl, rfl, rfl, rfl, rfl⟩)
    (fun a ha k => ⟨fun i hi _ => hint i hi, fun b hb _ gp _ => by rw [hx k b hb]⟩) (by omega)
    (by omega) hlen hlen' (fun a ha => ⟨fun i hi sl sl' e1 e2 => by
      obtain rfl : i = 0 := by omega
      exact hq sl sl' e1 e2 a (within_elts hends he _ a ha), fun i hi => by omega, hw a (within_elts hends he _ a ha)⟩) h h'
  exact ⟨d1, d2.wet, d2.q _ le_rfl⟩

/-- One stage on the row of triangles: element 0 does not feel element 2, nor what the matrices held. -/
example : ((do
      let s ← Ehdg.run (plainEnv simpleN simpleSq) rowTris rowMesh tab11 1 (1 / 10) ⟨none, none⟩ 0 (fun _ => 0) (fun _ => ⟨fun _ _ => 0, fun _ _ => 0, fun _ _ => 0⟩) 1
        ⟨[⟨rowState 3, 0⟩, ⟨0, 0⟩], 0, fun _ => true, false⟩
      let r ← Ehdg.run (plainEnv simpleN simpleSq) rowTris rowMesh tab11 1 (1 / 10) ⟨none, none⟩ 0 (fun _ => 0)
        (fun _ => ⟨fun _ _ => ⟨7, 7, 7⟩, fun _ _ => ⟨8, 8, 8⟩, fun _ _ => 0⟩) 2 ⟨[⟨rowState 3, 0⟩, ⟨0, 0⟩], 0, fun _ => true, false⟩
      return decide (current s 1 0 0 ≠ 0 ∧ current s 0 0 0 = 0 ∧ current s 0 1 0 = 0 ∧ current r 0 0 0 ≠ 0)) : Res Bool) = .ok true := by decide +kernel

end Verif.Ehdg.Props
