import Verif.Model.EhdgUnit
import Verif.Lemmas.SweUnit
import Verif.Props.EhdgParallel

/-!
Helper lemmas for the comparison of one simulation unit with the whole partitioned program, explicit hybridized discretization.
-/

namespace Verif.Ehdg
open Verif.Swe Verif.Geometry Verif.Element Verif.Ehdg.Props

variable {K : Type} [Field K] [LinearOrder K] {U : Type}

/-! ### Kernels depend on the elements they touch -/

theorem eInt_congr (v : Env K) (dat : ℕ → EltData K) {wet wet' : ℕ → Bool} {q q' : State K} (x : Faces K) (e : ℕ) {i : Iface K}
    (h1 : q i.ein = q' i.ein) (h2 : q i.eex = q' i.eex) (h3 : wet i.ein = wet' i.ein) (h4 : wet i.eex = wet' i.eex) :
    eInt v dat wet q x e i = eInt v dat wet' q' x e i := by
  have hf : faceFlux v dat wet q x i = faceFlux v dat wet' q' x i := by
    simp only [faceFlux, Iface.inside, Iface.outside, h1, h2, h3, h4]
  have ha : inTerm v dat wet q x i = inTerm v dat wet' q' x i := by
    funext var dof
    simp only [inTerm, hf]
  have hb : exTerm v dat wet q x i = exTerm v dat wet' q' x i := by
    funext var dof
    simp only [exTerm, hf]
  simp only [eInt, ha, hb, h3, h4]

theorem eBnd_congr (v : Env K) (dat : ℕ → EltData K) {wet wet' : ℕ → Bool} {q q' : State K} (x : Faces K) (e : ℕ) {b : Bnd K}
    (h1 : q b.e = q' b.e) (h2 : wet b.e = wet' b.e) : eBnd v dat wet q x e b = eBnd v dat wet' q' x e b := by
  have ht : bndTerm v dat q x b = bndTerm v dat q' x b := by
    funext var dof
    simp only [bndTerm, bndFlux, h1]
  simp only [eBnd, ht, h2]

theorem ehdg_local_congr (v : Env K) (dat : ℕ → EltData K) {m : Mesh K} (hn : m.elts.Nodup) (hi : ∀ i ∈ m.ints, i.ein ∈ m.elts ∧ i.eex ∈ m.elts)
    (hb : ∀ b ∈ m.bnds, b.e ∈ m.elts) {wet wet' : ℕ → Bool} (t : K) (x : Faces K) {q q' : State K} (r r' : State K) (hq : ∀ e ∈ m.elts, q e = q' e)
    (hw : ∀ e ∈ m.elts, wet e = wet' e) {e : ℕ} (he : e ∈ m.elts) :
    localRhs v dat m wet t x q r e = localRhs v dat m wet' t x q' r' e := by
  rw [ehdg_rhs_at v dat m hn, ehdg_rhs_at v dat m hn, if_pos he, if_pos he, hq e he, hw e he]
  congr 2
  · exact congrArg List.sum (List.map_congr_left fun i hii =>
      eInt_congr v dat x e (hq _ (hi i hii).1) (hq _ (hi i hii).2) (hw _ (hi i hii).1) (hw _ (hi i hii).2))
  · exact congrArg List.sum (List.map_congr_left fun b hbb => eBnd_congr v dat x e (hq _ (hb b hbb)) (hw _ (hb b hbb)))

theorem ehdg_local_other (v : Env K) (dat : ℕ → EltData K) {m : Mesh K} (hn : m.elts.Nodup) (hi : ∀ i ∈ m.ints, i.ein ∈ m.elts ∧ i.eex ∈ m.elts)
    (hb : ∀ b ∈ m.bnds, b.e ∈ m.elts) (wet : ℕ → Bool) (t : K) (x : Faces K) (q r : State K) {e : ℕ} (he : e ∉ m.elts) :
    localRhs v dat m wet t x q r e = r e := by
  rw [ehdg_rhs_at v dat m hn, if_neg he]
  have z1 : (m.ints.map (eInt v dat wet q x e)).sum = 0 := by
    refine List.sum_eq_zero fun y hy => ?_
    obtain ⟨i, hii, rfl⟩ := List.mem_map.1 hy
    unfold eInt
    rw [if_neg (fun h : i.ein = e => he (h ▸ (hi i hii).1)), if_neg (fun h : i.eex = e => he (h ▸ (hi i hii).2))]
    simp
  have z2 : (m.bnds.map (eBnd v dat wet q x e)).sum = 0 := by
    refine List.sum_eq_zero fun y hy => ?_
    obtain ⟨b, hbb, rfl⟩ := List.mem_map.1 hy
    unfold eBnd
    rw [if_neg (fun h : b.e = e => he (h ▸ hb b hbb))]
    simp
  rw [z1, z2, add_zero, sub_zero]

theorem state_congr (v : Env K) (dat : ℕ → EltData K) {wet wet' : ℕ → Bool} {q q' : State K} {e : ℕ} (f : ℕ) (h1 : q e = q' e)
    (h2 : wet e = wet' e) : stateMessage v dat wet q e f = stateMessage v dat wet' q' e f := by
  simp only [stateMessage, h1, h2]

theorem ehdg_amount_congr (v : Env K) (dat : ℕ → EltData K) {wet wet' : ℕ → Bool} {q q' : State K} (junk : Dbnd K → ℕ → Q K) {b : Dbnd K} (mb ms : List K)
    (h1 : q b.e = q' b.e) (h2 : wet b.e = wet' b.e) : ehdgAmount v dat wet q junk b mb ms = ehdgAmount v dat wet' q' junk b mb ms := by
  have : dbndFlux v dat wet q junk b mb ms = dbndFlux v dat wet' q' junk b mb ms := by
    funext gp
    simp only [dbndFlux, h1, h2]
  simp only [ehdgAmount, this, h2]

/-! ### Distributed boundaries -/

theorem ehdg_dbound_mail (v : Env K) (dat : ℕ → EltData K) (wet : ℕ → Bool) (q : State K) (junk : Dbnd K → ℕ → Q K) :
    dboundKernel v dat wet q junk = ehdgDbound v dat wet q junk (bathMessage v dat) (stateMessage v dat wet q) := by
  funext rhs b
  unfold dboundKernel ehdgDbound ehdgAmount
  simp only
  cases sequenceRes (dbndFlux v dat wet q junk b (bathMessage v dat b.e' b.f') (stateMessage v dat wet q b.e' b.f')) (faceRule v.N (dat b.e).elt.p).length with
  | error x => rfl
  | ok fl =>
    simp only [okBind]
    cases decodeWet (stateMessage v dat wet q b.e' b.f') with
    | error x => rfl
    | ok w =>
      simp only [okBind]
      by_cases h : (wet b.e || w) = true
      · rw [if_pos h, if_pos h]; rfl
      · rw [if_neg h, if_neg h]; rfl

theorem ehdg_dist_same (v : Env K) (dat : ℕ → EltData K) {wet wet' : ℕ → Bool} {q q' : State K} {junk : Dbnd K → ℕ → Q K} {bath bath' mail mail' : Mail K}
    (S : List ℕ) (l : List (Dbnd K))
    (h : ∀ b ∈ l, ehdgAmount v dat wet q junk b (bath b.e' b.f') (mail b.e' b.f') = ehdgAmount v dat wet' q' junk b (bath' b.e' b.f') (mail' b.e' b.f'))
    {r r' x : State K} (hr : ∀ e ∈ S, r e = r' e) (hx : l.foldlM (ehdgDbound v dat wet q junk bath mail) r = .ok x) :
    ∃ x', l.foldlM (ehdgDbound v dat wet' q' junk bath' mail') r' = .ok x' ∧ ∀ e ∈ S, x e = x' e := by
  induction l generalizing r r' with
  | nil =>
    cases hx
    exact ⟨r', rfl, hr⟩
  | cons b l ih =>
    rw [List.foldlM_cons] at hx
    obtain ⟨y, h1, h2⟩ := bindOk hx
    obtain ⟨a, h3, h4⟩ := bindOk h1
    cases h4
    rw [List.foldlM_cons]
    have e1 : ehdgDbound v dat wet' q' junk bath' mail' r' b = .ok (subOpt r' b.e a) := by
      unfold ehdgDbound
      rw [← h b List.mem_cons_self, h3]
      rfl
    rw [e1, okBind]
    exact ih (fun c hc => h c (List.mem_cons_of_mem _ hc)) (fun e he => subOpt_at _ a (hr e he)) h2

theorem ehdg_dist_other (v : Env K) (dat : ℕ → EltData K) {wet : ℕ → Bool} {q : State K} {junk : Dbnd K → ℕ → Q K} {bath mail : Mail K} {e : ℕ}
    (l : List (Dbnd K)) (h : ∀ b ∈ l, b.e ≠ e) {r x : State K} (hx : l.foldlM (ehdgDbound v dat wet q junk bath mail) r = .ok x) : x e = r e := by
  induction l generalizing r with
  | nil => cases hx; rfl
  | cons b l ih =>
    rw [List.foldlM_cons] at hx
    obtain ⟨y, h1, h2⟩ := bindOk hx
    obtain ⟨a, h3, h4⟩ := bindOk h1
    cases h4
    rw [ih (fun c hc => h c (List.mem_cons_of_mem _ hc)) h2, subOpt_ne _ _ (h b List.mem_cons_self)]

/-! ### Units share the elements -/

theorem ehdg_locals_other (v : Env K) (dat : ℕ → EltData K) {sub : U → Mesh K} {owner : ℕ → U} {nbrs : U → List U} (hs : Shared sub owner nbrs)
    (wet : ℕ → Bool) (t : K) (x : Faces K) (q : State K) (us : List U) {e : ℕ} (he : ∀ u ∈ us, e ∉ (sub u).elts) (r : State K) :
    us.foldl (fun r u => localRhs v dat (sub u) wet t x q r) r e = r e := by
  induction us generalizing r with
  | nil => rfl
  | cons a l ih =>
    rw [List.foldl_cons, ih (fun u hu => he u (List.mem_cons_of_mem _ hu)),
      ehdg_local_other v dat (hs.nodup a) (hs.ints a) (hs.bnds a) _ _ _ _ _ (he a List.mem_cons_self)]

theorem ehdg_locals_own (v : Env K) (dat : ℕ → EltData K) {sub : U → Mesh K} {owner : ℕ → U} {nbrs : U → List U} (hs : Shared sub owner nbrs)
    (wet : ℕ → Bool) (t : K) (x : Faces K) (q : State K) {us : List U} (hn : us.Nodup) {u : U} (hu : u ∈ us) {e : ℕ} (he : e ∈ (sub u).elts) (r r0 : State K) :
    us.foldl (fun r u => localRhs v dat (sub u) wet t x q r) r e = localRhs v dat (sub u) wet t x q r0 e := by
  induction us generalizing r with
  | nil => cases hu
  | cons a l ih =>
    rw [List.nodup_cons] at hn
    rw [List.foldl_cons]
    rcases List.mem_cons.mp hu with rfl | h
    · rw [ehdg_locals_other v dat hs _ _ _ _ l (fun w hw h => hn.1 ?_)]
      · exact ehdg_local_congr v dat (hs.nodup u) (hs.ints u) (hs.bnds u) t x _ _ (fun _ _ => rfl) (fun _ _ => rfl) he
      · rw [← hs.owns u e he, hs.owns w e h]; exact hw
    · exact ih hn.2 h _

theorem ehdg_dists_own (v : Env K) (dat : ℕ → EltData K) {sub : U → Mesh K} {owner : ℕ → U} {nbrs : U → List U} (hs : Shared sub owner nbrs)
    {wet : ℕ → Bool} {q : State K} {junk : Dbnd K → ℕ → Q K} {bath mail : Mail K} {us : List U} (hn : us.Nodup) {u : U} (hu : u ∈ us) {r x : State K}
    (hx : us.foldlM (fun r u => (sub u).dist.foldlM (ehdgDbound v dat wet q junk bath mail) r) r = .ok x) :
    ∃ r1 x1, (sub u).dist.foldlM (ehdgDbound v dat wet q junk bath mail) r1 = .ok x1 ∧ ∀ e ∈ (sub u).elts, r1 e = r e ∧ x e = x1 e := by
  have other : ∀ (l : List U) (r x : State K), u ∉ l → l.foldlM (fun r u => (sub u).dist.foldlM (ehdgDbound v dat wet q junk bath mail) r) r = .ok x →
      ∀ e ∈ (sub u).elts, x e = r e := by
    intro l
    induction l with
    | nil => intro r x _ h e _; cases h; rfl
    | cons a l ih =>
      intro r x hl h e he
      rw [List.mem_cons, not_or] at hl
      rw [List.foldlM_cons] at h
      obtain ⟨y, h1, h2⟩ := bindOk h
      rw [ih y x hl.2 h2 e he]
      refine ehdg_dist_other v dat _ (fun b hb hbe => hl.1 ?_) h1
      rw [← hs.owns u e he, ← hs.owns a b.e (hs.dist a b hb), hbe]
  induction us generalizing r with
  | nil => cases hu
  | cons a l ih =>
    rw [List.nodup_cons] at hn
    rw [List.foldlM_cons] at hx
    obtain ⟨y, h1, h2⟩ := bindOk hx
    rcases List.mem_cons.mp hu with rfl | h
    · exact ⟨r, y, h1, fun e he => ⟨rfl, other l y x hn.1 h2 e he⟩⟩
    · obtain ⟨r1, x1, h3, h4⟩ := ih hn.2 h h2
      refine ⟨r1, x1, h3, fun e he => ⟨?_, (h4 e he).2⟩⟩
      rw [(h4 e he).1]
      refine ehdg_dist_other v dat _ (fun b hb hbe => hn.1 ?_) h1
      have : a = u := by rw [← hs.owns u e he, ← hs.owns a b.e (hs.dist a b hb), hbe]
      exact this ▸ h

/-! ### The two parts of the memory -/

omit [Field K] [LinearOrder K] in
theorem onUnit_ok {f : Res (UnitMem K) → Res (UnitMem K)} {x y : UnitMem K} (g : Mail K) (h : f (.ok x) = .ok y) : onUnit f (.ok ⟨x, g⟩) = .ok ⟨y, g⟩ := by
  simp only [onUnit, okBind, h]
  rfl

omit [Field K] [LinearOrder K] in
theorem theUnit_ok (x : UnitMem K) (g : Mail K) : theUnit (.ok ⟨x, g⟩) = .ok x := rfl

end Verif.Ehdg
