import Verif.Props.Order
import Verif.Props.Balance

/-!
# C119, C120: domain of dependence; storage of former stages

Two runs are compared whose data agree around an element. After `n` stages the element is in the same state if they agree within `n` faces, or within `2 n` faces if
the slope limiter is on. With the whole mesh in place of the neighbourhood: the state at the start of a step determines the rest of the run.
-/

namespace Verif.Swe.Props
open Verif Verif.Geometry Verif.Element Verif.Stepper

variable {K : Type} [Field K] [LinearOrder K]

/-! ### Specification -/

/-- An interface joins the two elements. -/
def Joined (m : Mesh K) (a b : ℕ) : Prop := ∃ i ∈ m.ints, (i.ein = a ∧ i.eex = b) ∨ (i.ein = b ∧ i.eex = a)

/-- Elements that are reached from `e` through at most `n` faces. -/
def Within (m : Mesh K) (e : ℕ) : ℕ → ℕ → Prop
  | 0, a => a = e
  | n + 1, a => Within m e n a ∨ ∃ b, Within m e n b ∧ Joined m b a

/-- What wetting and drying knows of an element. -/
def wdOf (w : WdParams K) (a : ℕ) : K × K × (ℕ → K) × K × (ℕ → K) := (w.ho, w.thr, w.bath a, w.bathMin a, w.temp a)

/-- What the limiter knows of an element. -/
def slOf (p : SlParams K) (a : ℕ) : K × K × SlGeom K × V3 K × (ℕ → Bool) × (ℕ → V3 K) :=
  (p.M, p.nu, p.geo a, p.old a, fun b => p.store.wet (a, b), fun b => p.store.bary (a, b))

/-- All data of element `a` are the same: geometry, bottom, order, source data, parameters, and its faces with their boundary conditions. -/
structure SameElement (dat dat' : ℕ → EltData K) (m m' : Mesh K) (pp pp' : PostParams K) (a : ℕ) : Prop where
  mem : a ∈ m.elts
  mem' : a ∈ m'.elts
  dat : dat a = dat' a
  ints : m.ints.filter (fun i => i.ein = a ∨ i.eex = a) = m'.ints.filter (fun i => i.ein = a ∨ i.eex = a)
  bnds : m.bnds.filter (fun b => b.e = a) = m'.bnds.filter (fun b => b.e = a)
  wd : pp.wd.map (wdOf · a) = pp'.wd.map (wdOf · a)
  sl : pp.sl.map (slOf · a) = pp'.sl.map (slOf · a)

/-- Coefficients in use and wet flag of element `a` agree: in all stages up to the present one. -/
structure SameState (s s' : Run K) (a : ℕ) : Prop where
  q : ∀ i ≤ s.stage, ∀ sl sl', s.slots[i]? = some sl → s'.slots[i]? = some sl' → sl.q a = sl'.q a
  incr : ∀ i < s.stage, ∀ sl sl', s.slots[i]? = some sl → s'.slots[i]? = some sl' → sl.solution a = sl'.solution a
  wet : s.wet a = s'.wet a

/-! ### What a stage computes -/

theorem stage_out {v : Env K} {dat : ℕ → EltData K} {m : Mesh K} {tab : Tableau} {ns o : ℕ} {dt : K} {pp : PostParams K}
    {R : (ℕ → Bool) → State K → State K} (htab : tableau ns o = some tab) {s s1 : Run K} (hst : s.stage < ns) (hlen : ns + 1 ≤ s.slots.length)
    (h : stageWith v dat m tab ns dt pp R s = .ok s1) :
    ∃ (u x : ℕ → State K) (f : Flow K), (∀ i ≤ s.stage, ∃ sl, s.slots[i]? = some sl ∧ u i = sl.q ∧ (i < s.stage → x i = sl.solution)) ∧
      x s.stage = solve v dat (R s.wet (u s.stage)) ∧
      wdAll dat m pp.wd ⟨∑ i ∈ Finset.range (s.stage + 1), ((tabA tab s.stage i : K) • u i + (dt * (tabB tab s.stage i : K)) • x i), s.wet, s.emptied⟩ = .ok f ∧
      s1.stage = (s.stage + 1) % ns ∧ s1.wet = (slAll v dat m pp.sl f).wet ∧ ns + 1 ≤ s1.slots.length ∧
      (∃ y, s1.slots[s1.stage]? = some ⟨(slAll v dat m pp.sl f).q, y⟩) ∧ ∀ i < s1.stage, i ≤ s.stage ∧ s1.slots[i]? = some ⟨u i, x i⟩ := by
  obtain ⟨ha, hb⟩ := Stepper.Props.entries_ok htab
  set g : ℕ → Slot (State K) := fun i => (s.slots[i]?).getD ⟨0, 0⟩ with hg
  have hget0 : ∀ i, i ≤ s.stage → s.slots[i]? = some (g i) := fun i hi => by
    simp only [hg]; rw [List.getElem?_eq_getElem (by omega)]; rfl
  set cur := g s.stage with hcur'
  have hcur := hget0 s.stage le_rfl
  rw [← hcur'] at hcur
  set X := solve v dat (R s.wet cur.q) with hX
  set slots1 := s.slots.set s.stage ⟨cur.q, X⟩ with hs1
  have hset : setSolution s.slots s.stage X = some slots1 := by simp [setSolution, hcur, hs1]
  have hl1 : slots1.length = s.slots.length := by simp [hs1]
  set u : ℕ → State K := fun i => (g i).q with hu
  set x : ℕ → State K := fun i => if i = s.stage then X else (g i).solution with hx
  have hq : ∀ i, i ≤ s.stage → slots1[i]? = some ⟨u i, x i⟩ := by
    intro i hi
    rw [hs1]
    rcases Nat.lt_or_eq_of_le hi with hlt | rfl
    · rw [List.getElem?_set_ne (by omega), hget0 i hi]
      simp only [hu, hx, if_neg (Nat.ne_of_lt hlt)]
    · rw [List.getElem?_set_self (by omega)]
      simp only [hu, hx, if_true, ← hcur']
  obtain ⟨slots2, hupd, hl2, hlast, hmid⟩ := updateState_forward (dt := dt) ha hb (by omega) hst hq
  set w := ∑ i ∈ Finset.range (s.stage + 1), ((tabA tab s.stage i : K) • u i + (dt * (tabB tab s.stage i : K)) • x i) with hw
  have hnew : ∃ y, slots2[(s.stage + 1) % ns]? = some ⟨w, y⟩ := by
    by_cases h : s.stage + 1 = ns
    · rw [h, Nat.mod_self]; exact hlast h
    · rw [Nat.mod_eq_of_lt (by omega)]; exact (hmid h).2
  obtain ⟨y, hy⟩ := hnew
  have hmod : (s.stage + 1) % ns < ns := Nat.mod_lt _ (by omega)
  unfold stageWith at h
  simp only [hcur, slotOr, okBind] at h
  rw [← hX, hset] at h
  simp only [okBind] at h
  rw [hupd] at h
  simp only [okBind, hy] at h
  obtain ⟨f, hf, h⟩ := bindOk h
  simp only [setQ, hy, Option.bind_eq_bind, Option.bind_some] at h
  cases h
  refine ⟨u, x, f, fun i hi => ⟨_, hget0 i hi, rfl, fun hlt => if_neg (Nat.ne_of_lt hlt)⟩, ?_, hf, rfl, rfl, by simp only [List.length_set]; omega,
    ⟨y, List.getElem?_set_self (by omega)⟩, fun i hi => ?_⟩
  · simp only [hx, if_true, hu, hX, ← hcur']
  · simp only at hi ⊢
    by_cases h : s.stage + 1 = ns
    · rw [h, Nat.mod_self] at hi; omega
    · have h' := Nat.mod_eq_of_lt (by omega : s.stage + 1 < ns)
      refine ⟨by omega, ?_⟩
      rw [List.getElem?_set_ne (by omega)]
      exact (hmid h).1 i (by omega)

/-! ### Locality of the parts -/

theorem flat_filter {α β : Type} (l : List α) (g : α → List β) (p : α → Prop) [DecidablePred p] (h : ∀ a ∈ l, ¬ p a → g a = []) :
    l.flatMap g = (l.filter (p ·)).flatMap g := by
  induction l with
  | nil => rfl
  | cons a l ih =>
    have ih' := ih fun b hb => h b (List.mem_cons_of_mem _ hb)
    by_cases ha : p a
    · rw [List.filter_cons_of_pos (by simpa using ha), List.flatMap_cons, List.flatMap_cons, ih']
    · rw [List.filter_cons_of_neg (by simpa using ha), List.flatMap_cons, h a List.mem_cons_self ha, List.nil_append, ih']

variable {v : Env K} {dat dat' : ℕ → EltData K} {m m' : Mesh K} {pp pp' : PostParams K}

theorem local_terms {a : ℕ} (ha : SameElement dat dat' m m' pp pp' a) {wet wet' : ℕ → Bool} {q q' : State K} (t ramp : K) (hq : q a = q' a) (hw : wet a = wet' a)
    (hn : ∀ b, Joined m a b → dat b = dat' b ∧ q b = q' b ∧ wet b = wet' b) :
    faceTerms v dat m wet t ramp q a = faceTerms v dat' m' wet' t ramp q' a := by
  unfold faceTerms
  have e1 : ∀ (dat : ℕ → EltData K) (wet : ℕ → Bool) (q : State K) (l : List (Iface K)), l.flatMap (intTerms v dat wet q a) =
      (l.filter fun i => i.ein = a ∨ i.eex = a).flatMap (intTerms v dat wet q a) := fun dat wet q l =>
    flat_filter l _ (fun i => i.ein = a ∨ i.eex = a) fun i _ hi => by
      rw [not_or] at hi
      simp [intTerms, hi.1, hi.2]
  have e2 : ∀ (dat : ℕ → EltData K) (wet : ℕ → Bool) (q : State K) (l : List (Bnd K)), l.flatMap (bndTerms v dat wet t ramp q a) =
      (l.filter fun b => b.e = a).flatMap (bndTerms v dat wet t ramp q a) := fun dat wet q l =>
    flat_filter l _ (fun b => b.e = a) fun b _ hb => by simp [bndTerms, hb]
  rw [e1, e2, e1 dat', e2 dat', ← ha.ints, ← ha.bnds]
  congr 1
  · refine List.flatMap_congr fun i hi => ?_
    obtain ⟨h1, h2⟩ := List.mem_filter.1 hi
    have h2 : i.ein = a ∨ i.eex = a := by simpa using h2
    have hin : dat i.ein = dat' i.ein ∧ q i.ein = q' i.ein ∧ wet i.ein = wet' i.ein := by
      rcases h2 with h | h
      · rw [h]; exact ⟨ha.dat, hq, hw⟩
      · exact hn _ ⟨i, h1, .inr ⟨rfl, h⟩⟩
    have hex : dat i.eex = dat' i.eex ∧ q i.eex = q' i.eex ∧ wet i.eex = wet' i.eex := by
      rcases h2 with h | h
      · exact hn _ ⟨i, h1, .inl ⟨h, rfl⟩⟩
      · rw [h]; exact ⟨ha.dat, hq, hw⟩
    have hr : i.rule v dat = i.rule v dat' := by simp only [Iface.rule, hin.1, hex.1]
    have hJ : i.J v dat = i.J v dat' := by simp only [Iface.J, hin.1]
    have hf : i.flux v dat wet q = i.flux v dat' wet' q' := by
      funext gp
      simp only [Iface.flux, Iface.inside, Iface.outside, hr, hin.1, hin.2.1, hin.2.2, hex.1, hex.2.1, hex.2.2]
    have h3 : i.inTerm v dat wet q = i.inTerm v dat' wet' q' := by funext var dof; simp only [Iface.inTerm, hr, hJ, hf]
    have h4 : i.exTerm v dat wet q = i.exTerm v dat' wet' q' := by funext var dof; simp only [Iface.exTerm, hr, hJ, hf]
    simp only [intTerms, h3, h4, hin.2.2, hex.2.2]
  · refine List.flatMap_congr fun b hb => ?_
    have hb : b.e = a := by simpa using (List.mem_filter.1 hb).2
    have h3 : b.term v dat t ramp q = b.term v dat' t ramp q' := by simp only [Bnd.term, hb, hq, ha.dat]
    simp only [bndTerms, h3, hb, hw]

theorem local_solve (hm : m.elts.Nodup) (hm' : m'.elts.Nodup) {a : ℕ} (ha : SameElement dat dat' m m' pp pp' a) {wet wet' : ℕ → Bool} {q q' : State K} (t ramp : K)
    (junk junk' : State K) (hq : q a = q' a) (hw : wet a = wet' a) (hn : ∀ b, Joined m a b → dat b = dat' b ∧ q b = q' b ∧ wet b = wet' b) :
    solve v dat (localRhs v dat m wet t ramp q junk) a = solve v dat' (localRhs v dat' m' wet' t ramp q' junk') a := by
  unfold solve
  rw [localRhs_at v dat m hm, localRhs_at v dat' m' hm', local_terms ha t ramp hq hw hn, if_pos ha.mem, if_pos ha.mem', ha.dat, hq, hw]

theorem local_wd (hm : m.elts.Nodup) (hm' : m'.elts.Nodup) {a : ℕ} (ha : SameElement dat dat' m m' pp pp' a) {s s' f f' : Flow K} (hq : s.q a = s'.q a)
    (hw : s.wet a = s'.wet a) (h : wdAll dat m pp.wd s = .ok f) (h' : wdAll dat' m' pp'.wd s' = .ok f') : f.q a = f'.q a ∧ f.wet a = f'.wet a := by
  have hp := ha.wd
  unfold wdAll at h h'
  cases hw1 : pp.wd with
  | none =>
    cases hw2 : pp'.wd with
    | some w => rw [hw1, hw2] at hp; cases hp
    | none =>
      rw [hw1] at h; rw [hw2] at h'
      cases h; cases h'
      exact ⟨hq, hw⟩
  | some w =>
    cases hw2 : pp'.wd with
    | none => rw [hw1, hw2] at hp; cases hp
    | some w' =>
      rw [hw1] at h; rw [hw2] at h'
      rw [hw1, hw2] at hp
      simp only [Option.map_some, Option.some.injEq, wdOf, Prod.mk.injEq] at hp
      obtain ⟨p1, p2, p3, p4, p5⟩ := hp
      obtain ⟨o, ho, rfl⟩ := (wdFold_spec dat w _ hm _ _).1 h
      obtain ⟨o', ho', rfl⟩ := (wdFold_spec dat' w' _ hm' _ _).1 h'
      have h1 := ho a ha.mem
      have h2 := ho' a ha.mem'
      unfold wdOut at h1 h2
      rw [p1, p2, p3, p4, p5, hw, hq, ha.dat, h2] at h1
      have h3 : o a = o' a := (Except.ok.inj h1).symm
      simp only [if_pos ha.mem, if_pos ha.mem', h3, and_self]

/-- Two stores agree on the sides of element `a`. -/
def StoreAt (s s' : SlStore K) (a : ℕ) : Prop := ∀ b, s.wet (a, b) = s'.wet (a, b) ∧ s.bary (a, b) = s'.bary (a, b)

omit [Field K] [LinearOrder K] in
theorem upd_ne {β : Type} (g : ℕ × ℕ → β) (k : ℕ × ℕ) (x : β) {a b : ℕ} (h : k.1 ≠ a) : Function.update g k x (a, b) = g (a, b) :=
  Function.update_of_ne (fun hh => h (by rw [← hh])) _ _

omit [Field K] [LinearOrder K] in
theorem upd_both {β : Type} {g g' : ℕ × ℕ → β} (k : ℕ × ℕ) {x x' : β} {a b : ℕ} (h : g (a, b) = g' (a, b)) (hx : k.1 = a → x = x') :
    Function.update g k x (a, b) = Function.update g' k x' (a, b) := by
  by_cases hk : (a, b) = k
  · rw [← hk, Function.update_self, Function.update_self]; exact hx (by rw [← hk])
  · rw [Function.update_of_ne hk, Function.update_of_ne hk]; exact h

omit [Field K] [LinearOrder K] in
theorem prep_ints_filter (wet : ℕ → Bool) (bary : ℕ → V3 K) (a : ℕ) (l : List (Iface K)) : ∀ {s s' : SlStore K}, StoreAt s s' a →
    StoreAt ((l.map fun i => ((i.ein, i.fin), (i.eex, i.fex))).foldl (prepInterface wet bary) s)
      (((l.filter fun i => i.ein = a ∨ i.eex = a).map fun i => ((i.ein, i.fin), (i.eex, i.fex))).foldl (prepInterface wet bary) s') a := by
  induction l with
  | nil => intro s s' h; exact h
  | cons i l ih =>
    intro s s' h
    by_cases hi : i.ein = a ∨ i.eex = a
    · rw [List.filter_cons_of_pos (by simpa using hi), List.map_cons, List.map_cons, List.foldl_cons, List.foldl_cons]
      refine ih fun b => ⟨?_, ?_⟩
      · exact upd_both _ (upd_both _ (h b).1 fun _ => rfl) fun _ => rfl
      · simp only [prepInterface]
        split
        · exact upd_both _ (upd_both _ (h b).2 fun _ => rfl) fun _ => rfl
        · exact (h b).2
    · rw [List.filter_cons_of_neg (by simpa using hi), List.map_cons, List.foldl_cons]
      rw [not_or] at hi
      refine ih fun b => ⟨?_, ?_⟩
      · simp only [prepInterface]
        rw [upd_ne _ _ _ hi.2, upd_ne _ _ _ hi.1]; exact (h b).1
      · simp only [prepInterface]
        split
        · rw [upd_ne _ _ _ hi.2, upd_ne _ _ _ hi.1]; exact (h b).2
        · exact (h b).2

omit [Field K] [LinearOrder K] in
theorem prep_ints_same {wet wet' : ℕ → Bool} {bary bary' : ℕ → V3 K} {a : ℕ} {l : List (Iface K)}
    (hl : ∀ i ∈ l, (wet i.ein = wet' i.ein ∧ bary i.ein = bary' i.ein) ∧ wet i.eex = wet' i.eex ∧ bary i.eex = bary' i.eex) : ∀ {s s' : SlStore K}, StoreAt s s' a →
    StoreAt ((l.map fun i => ((i.ein, i.fin), (i.eex, i.fex))).foldl (prepInterface wet bary) s)
      ((l.map fun i => ((i.ein, i.fin), (i.eex, i.fex))).foldl (prepInterface wet' bary') s') a := by
  induction l with
  | nil => intro s s' h; exact h
  | cons i l ih =>
    intro s s' h
    obtain ⟨⟨h1, h2⟩, h3, h4⟩ := hl i List.mem_cons_self
    rw [List.map_cons, List.foldl_cons, List.foldl_cons]
    refine ih (fun j hj => hl j (List.mem_cons_of_mem _ hj)) fun b => ⟨?_, ?_⟩
    · simp only [prepInterface, h1, h3]
      exact upd_both _ (upd_both _ (h b).1 fun _ => rfl) fun _ => rfl
    · simp only [prepInterface, h1, h3, h2, h4]
      split
      · exact upd_both _ (upd_both _ (h b).2 fun _ => rfl) fun _ => rfl
      · exact (h b).2

omit [Field K] [LinearOrder K] in
theorem prep_bnds_filter (wet : ℕ → Bool) (bary : ℕ → V3 K) (a : ℕ) (l : List (Bnd K)) : ∀ {s s' : SlStore K}, StoreAt s s' a →
    StoreAt ((l.map fun b => (b.e, b.f)).foldl (prepBoundary wet bary) s)
      (((l.filter fun b => b.e = a).map fun b => (b.e, b.f)).foldl (prepBoundary wet bary) s') a := by
  induction l with
  | nil => intro s s' h; exact h
  | cons c l ih =>
    intro s s' h
    by_cases hi : c.e = a
    · rw [List.filter_cons_of_pos (by simpa using hi), List.map_cons, List.map_cons, List.foldl_cons, List.foldl_cons]
      refine ih fun b => ⟨?_, ?_⟩
      · exact upd_both _ (h b).1 fun _ => rfl
      · simp only [prepBoundary]
        split
        · exact upd_both _ (h b).2 fun _ => rfl
        · exact (h b).2
    · rw [List.filter_cons_of_neg (by simpa using hi), List.map_cons, List.foldl_cons]
      refine ih fun b => ⟨?_, ?_⟩
      · simp only [prepBoundary]
        rw [upd_ne _ _ _ hi]; exact (h b).1
      · simp only [prepBoundary]
        split
        · rw [upd_ne _ _ _ hi]; exact (h b).2
        · exact (h b).2

omit [Field K] [LinearOrder K] in
theorem prep_bnds_same {wet wet' : ℕ → Bool} {bary bary' : ℕ → V3 K} {a : ℕ} {l : List (Bnd K)}
    (hl : ∀ c ∈ l, wet c.e = wet' c.e ∧ bary c.e = bary' c.e) : ∀ {s s' : SlStore K}, StoreAt s s' a →
    StoreAt ((l.map fun b => (b.e, b.f)).foldl (prepBoundary wet bary) s) ((l.map fun b => (b.e, b.f)).foldl (prepBoundary wet' bary') s') a := by
  induction l with
  | nil => intro s s' h; exact h
  | cons c l ih =>
    intro s s' h
    obtain ⟨h1, h2⟩ := hl c List.mem_cons_self
    rw [List.map_cons, List.foldl_cons, List.foldl_cons]
    refine ih (fun j hj => hl j (List.mem_cons_of_mem _ hj)) fun b => ⟨?_, ?_⟩
    · simp only [prepBoundary, h1]
      exact upd_both _ (h b).1 fun _ => rfl
    · simp only [prepBoundary, h1, h2]
      split
      · exact upd_both _ (h b).2 fun _ => rfl
      · exact (h b).2

theorem local_limited {a : ℕ} (ha : SameElement dat dat' m m' pp pp' a) {f f' : Flow K} (hq : f.q a = f'.q a) (hw : f.wet a = f'.wet a)
    (hn : pp.sl.isSome = true → ∀ b, Joined m a b → SameElement dat dat' m m' pp pp' b ∧ f.q b = f'.q b ∧ f.wet b = f'.wet b) :
    (slAll v dat m pp.sl f).q a = (slAll v dat' m' pp'.sl f').q a ∧ (slAll v dat m pp.sl f).wet a = (slAll v dat' m' pp'.sl f').wet a := by
  have hp := ha.sl
  cases h1 : pp.sl with
  | none =>
    cases h2 : pp'.sl with
    | some w => rw [h1, h2] at hp; cases hp
    | none => exact ⟨hq, hw⟩
  | some p =>
    cases h2 : pp'.sl with
    | none => rw [h1, h2] at hp; cases hp
    | some p' =>
      have hn := hn (by rw [h1]; rfl)
      refine ⟨?_, hw⟩
      have hold : ∀ b, SameElement dat dat' m m' pp pp' b → p.old b = p'.old b := by
        intro b hb
        have := hb.sl
        rw [h1, h2] at this
        simp only [Option.map_some, Option.some.injEq, slOf, Prod.mk.injEq] at this
        exact this.2.2.2.1
      rw [h1, h2] at hp
      simp only [Option.map_some, Option.some.injEq, slOf, Prod.mk.injEq] at hp
      obtain ⟨p1, p2, p3, p4, p5, p6⟩ := hp
      simp only [slAll, limited, if_pos ha.mem, if_pos ha.mem', limitAll]
      set bary : ℕ → V3 K := fun e => if f.wet e then fun var => baryOf (vrtxOf (ndof (dat e).elt.p) (f.q e var)) else p.old e with hb
      set bary' : ℕ → V3 K := fun e => if f'.wet e then fun var => baryOf (vrtxOf (ndof (dat' e).elt.p) (f'.q e var)) else p'.old e with hb'
      have hbary : ∀ b, SameElement dat dat' m m' pp pp' b → f.q b = f'.q b → f.wet b = f'.wet b → bary b = bary' b := by
        intro b hs h3 h4
        simp only [hb, hb', h3, h4, hs.dat, hold b hs]
      have hst : StoreAt (prepare (slMesh m) f.wet bary p.store) (prepare (slMesh m') f'.wet bary' p'.store) a := by
        have h0 : StoreAt p.store p'.store a := fun b => ⟨congrFun p5 b, congrFun p6 b⟩
        have hii : ∀ i ∈ m.ints.filter (fun i => i.ein = a ∨ i.eex = a), (f.wet i.ein = f'.wet i.ein ∧ bary i.ein = bary' i.ein) ∧
            f.wet i.eex = f'.wet i.eex ∧ bary i.eex = bary' i.eex := by
          intro i hi
          obtain ⟨h3, h4⟩ := List.mem_filter.1 hi
          have hself : f.wet a = f'.wet a ∧ bary a = bary' a := ⟨hw, hbary a ha hq hw⟩
          have hoth : ∀ b, Joined m a b → f.wet b = f'.wet b ∧ bary b = bary' b := fun b hj =>
            ⟨(hn b hj).2.2, hbary b (hn b hj).1 (hn b hj).2.1 (hn b hj).2.2⟩
          rcases (by simpa using h4 : i.ein = a ∨ i.eex = a) with h | h
          · exact ⟨by rw [h]; exact hself, hoth _ ⟨i, h3, .inl ⟨h, rfl⟩⟩⟩
          · exact ⟨hoth _ ⟨i, h3, .inr ⟨rfl, h⟩⟩, by rw [h]; exact hself⟩
        have hbb : ∀ c ∈ m.bnds.filter (fun b => b.e = a), f.wet c.e = f'.wet c.e ∧ bary c.e = bary' c.e := by
          intro c hc
          have : c.e = a := by simpa using (List.mem_filter.1 hc).2
          rw [this]; exact ⟨hw, hbary a ha hq hw⟩
        have s1 := prep_ints_filter f.wet bary a m.ints (s := p.store) (s' := p.store) fun _ => ⟨rfl, rfl⟩
        have s2 := prep_ints_same hii h0
        have s3 := prep_ints_filter f'.wet bary' a m'.ints (s := p'.store) (s' := p'.store) fun _ => ⟨rfl, rfl⟩
        rw [← ha.ints] at s3
        have t1 : StoreAt _ _ a := fun b => ⟨(s1 b).1.trans ((s2 b).1.trans (s3 b).1.symm), (s1 b).2.trans ((s2 b).2.trans (s3 b).2.symm)⟩
        have s4 := prep_bnds_filter f.wet bary a m.bnds (s := (m.ints.map fun i => ((i.ein, i.fin), (i.eex, i.fex))).foldl (prepInterface f.wet bary) p.store) fun _ => ⟨rfl, rfl⟩
        have s5 := prep_bnds_same hbb t1
        have s6 := prep_bnds_filter f'.wet bary' a m'.bnds (s := (m'.ints.map fun i => ((i.ein, i.fin), (i.eex, i.fex))).foldl (prepInterface f'.wet bary') p'.store) fun _ => ⟨rfl, rfl⟩
        rw [← ha.bnds] at s6
        exact fun b => ⟨(s4 b).1.trans ((s5 b).1.trans (s6 b).1.symm), (s4 b).2.trans ((s5 b).2.trans (s6 b).2.symm)⟩
      have hng : neighOf (prepare (slMesh m) f.wet bary p.store) a = neighOf (prepare (slMesh m') f'.wet bary' p'.store) a := by
        simp only [neighOf, Neigh.mk.injEq]
        exact ⟨funext fun b => (hst b).1, funext fun b => (hst b).2⟩
      rw [hng, p1, p2, p3, ha.dat, hq, hw]

/-! ### Runs -/

/-- Faces that a stage looks across: its fluxes one, its limiter one more. -/
def reach (pp : PostParams K) : ℕ := if pp.sl.isSome then 2 else 1

omit [Field K] [LinearOrder K] in
theorem within_step {e : ℕ} {n : ℕ} {a b : ℕ} (h : Within m e n a) (hj : Joined m a b) : Within m e (n + 1) b := .inr ⟨a, h, hj⟩

omit [Field K] [LinearOrder K] in
theorem within_mono {e a : ℕ} {n k : ℕ} (h : Within m e n a) (hk : n ≤ k) : Within m e k a := by
  induction k, hk using Nat.le_induction with
  | base => exact h
  | succ k _ ih => exact .inl ih

/-- A right hand side that looks across one face. -/
def LocalAt (v : Env K) (dat dat' : ℕ → EltData K) (m : Mesh K) (R R' : (ℕ → Bool) → State K → State K) (a : ℕ) : Prop :=
  ∀ wet wet' q q', q a = q' a → wet a = wet' a → (∀ b, Joined m a b → dat b = dat' b ∧ q b = q' b ∧ wet b = wet' b) →
    solve v dat (R wet q) a = solve v dat' (R' wet' q') a

theorem local_stage (hm : m.elts.Nodup) (hm' : m'.elts.Nodup) {tab : Tableau} {ns o : ℕ} (htab : tableau ns o = some tab) {dt : K}
    {R R' : (ℕ → Bool) → State K → State K} {e n : ℕ} (hR : ∀ a, Within m e (n + reach pp - 1) a → LocalAt v dat dat' m R R' a)
    (hs : ∀ a, Within m e (n + reach pp) a → SameElement dat dat' m m' pp pp' a) {s s' s1 s1' : Run K} (hst : s.stage < ns) (heq : s.stage = s'.stage)
    (hlen : ns + 1 ≤ s.slots.length) (hlen' : ns + 1 ≤ s'.slots.length) (hss : ∀ a, Within m e (n + reach pp) a → SameState s s' a)
    (h : stageWith v dat m tab ns dt pp R s = .ok s1) (h' : stageWith v dat' m' tab ns dt pp' R' s' = .ok s1') :
    s1.stage < ns ∧ s1.stage = s1'.stage ∧ ns + 1 ≤ s1.slots.length ∧ ns + 1 ≤ s1'.slots.length ∧ ∀ a, Within m e n a → SameState s1 s1' a := by
  obtain ⟨u, x, f, hu, hx, hf, hst1, hw1, hl1, ⟨y, hy⟩, hold⟩ := stage_out htab hst hlen h
  obtain ⟨u', x', f', hu', hx', hf', hst1', hw1', hl1', ⟨y', hy'⟩, hold'⟩ := stage_out htab (heq ▸ hst) hlen' h'
  have hmod : (s.stage + 1) % ns < ns := Nat.mod_lt _ (by omega)
  have hr : 1 ≤ reach pp := by unfold reach; split <;> omega
  rw [← heq] at hu' hx' hf' hst1' hold'
  have huu : ∀ a, Within m e (n + reach pp) a → ∀ i ≤ s.stage, u i a = u' i a := by
    intro a ha i hi
    obtain ⟨sl, h1, h2, _⟩ := hu i hi
    obtain ⟨sl', h1', h2', _⟩ := hu' i hi
    rw [h2, h2']
    exact (hss a ha).q i hi sl sl' h1 h1'
  have hxx : ∀ a, Within m e (n + reach pp - 1) a → ∀ i ≤ s.stage, x i a = x' i a := by
    intro a ha i hi
    have ha' := within_mono ha (by omega : n + reach pp - 1 ≤ n + reach pp)
    rcases Nat.lt_or_eq_of_le hi with hlt | rfl
    · obtain ⟨sl, h1, _, h3⟩ := hu i hi
      obtain ⟨sl', h1', _, h3'⟩ := hu' i hi
      rw [h3 hlt, h3' hlt]
      exact (hss a ha').incr i hlt sl sl' h1 h1'
    · rw [hx, hx']
      refine hR a ha _ _ _ _ (huu a ha' _ le_rfl) (hss a ha').wet fun b hj => ?_
      have hb := within_step ha hj
      rw [show n + reach pp - 1 + 1 = n + reach pp by omega] at hb
      exact ⟨(hs b hb).dat, huu b hb _ le_rfl, (hss b hb).wet⟩
  have hff : ∀ a, Within m e (n + reach pp - 1) a → f.q a = f'.q a ∧ f.wet a = f'.wet a := by
    intro a ha
    have ha' := within_mono ha (by omega : n + reach pp - 1 ≤ n + reach pp)
    refine local_wd hm hm' (hs a ha') ?_ ?_ hf hf'
    · simp only [Finset.sum_apply, Pi.add_apply, Pi.smul_apply]
      refine Finset.sum_congr rfl fun i hi => ?_
      have hi : i ≤ s.stage := by simp at hi; omega
      rw [huu a ha' i hi, hxx a ha i hi]
    · exact (hss a ha').wet
  have hlim : ∀ a, Within m e n a → (slAll v dat m pp.sl f).q a = (slAll v dat' m' pp'.sl f').q a ∧
      (slAll v dat m pp.sl f).wet a = (slAll v dat' m' pp'.sl f').wet a := by
    intro a ha
    have ha1 := within_mono ha (by omega : n ≤ n + reach pp - 1)
    have ha2 := within_mono ha (by omega : n ≤ n + reach pp)
    refine local_limited (hs a ha2) (hff a ha1).1 (hff a ha1).2 fun hsl b hj => ?_
    have hr2 : reach pp = 2 := by unfold reach; rw [if_pos hsl]
    have hb := within_step ha hj
    exact ⟨hs b (within_mono hb (by omega)), hff b (by rw [hr2]; exact hb)⟩
  refine ⟨by omega, by omega, hl1, hl1', fun a ha => ⟨fun i hi sl sl' e1 e2 => ?_, fun i hi sl sl' e1 e2 => ?_, ?_⟩⟩
  · rcases Nat.lt_or_eq_of_le hi with hlt | rfl
    · obtain ⟨hle, e3⟩ := hold i hlt
      obtain ⟨_, e4⟩ := hold' i (by omega)
      rw [e3] at e1; rw [e4] at e2
      cases e1; cases e2
      exact huu a (within_mono ha (by omega)) i hle
    · rw [hst1, ← hst1', hy'] at e2
      rw [hy] at e1
      cases e1; cases e2
      exact (hlim a ha).1
  · obtain ⟨hle, e3⟩ := hold i hi
    obtain ⟨_, e4⟩ := hold' i (by omega)
    rw [e3] at e1; rw [e4] at e2
    cases e1; cases e2
    exact hxx a (within_mono ha (by omega)) i hle
  · rw [hw1, hw1']; exact (hlim a ha).2

/-- Any number of stages, with any right hand sides that look across one face. -/
theorem domain_with (hm : m.elts.Nodup) (hm' : m'.elts.Nodup) {tab : Tableau} {ns o : ℕ} (htab : tableau ns o = some tab) {dt : K}
    {R R' : ℕ → (ℕ → Bool) → State K → State K} {e : ℕ} (n : ℕ) (hR : ∀ a, Within m e (reach pp * n) a → ∀ k, LocalAt v dat dat' m (R k) (R' k) a)
    (hs : ∀ a, Within m e (reach pp * n) a → SameElement dat dat' m m' pp pp' a) {s s' s1 s1' : Run K} (hst : s.stage < ns)
    (heq : s.stage = s'.stage) (hlen : ns + 1 ≤ s.slots.length) (hlen' : ns + 1 ≤ s'.slots.length) (hss : ∀ a, Within m e (reach pp * n) a → SameState s s' a)
    (h : runWith v dat m tab ns dt pp R n s = .ok s1) (h' : runWith v dat' m' tab ns dt pp' R' n s' = .ok s1') :
    s1.stage = s1'.stage ∧ s1.stage < ns ∧ SameState s1 s1' e := by
  suffices hk : ∀ k ≤ n, ∀ s1 s1', runWith v dat m tab ns dt pp R k s = .ok s1 → runWith v dat' m' tab ns dt pp' R' k s' = .ok s1' →
      s1.stage < ns ∧ s1.stage = s1'.stage ∧ ns + 1 ≤ s1.slots.length ∧ ns + 1 ≤ s1'.slots.length ∧ ∀ a, Within m e (reach pp * (n - k)) a → SameState s1 s1' a by
    obtain ⟨h1, h2, _, _, h3⟩ := hk n le_rfl s1 s1' h h'
    exact ⟨h2, h1, h3 e (by rw [Nat.sub_self, Nat.mul_zero]; exact rfl)⟩
  intro k
  induction k with
  | zero =>
    intro _ s1 s1' h h'
    cases h; cases h'
    exact ⟨hst, heq, hlen, hlen', hss⟩
  | succ k ih =>
    intro hk s1 s1' h h'
    rw [runWith] at h h'
    obtain ⟨s2, h2, h⟩ := bindOk h
    obtain ⟨s2', h2', h'⟩ := bindOk h'
    obtain ⟨i1, i2, i3, i4, i5⟩ := ih (by omega) s2 s2' h2 h2'
    have hnk : reach pp * (n - k) = reach pp * (n - (k + 1)) + reach pp := by
      rw [show n - k = n - (k + 1) + 1 by omega, Nat.mul_add, Nat.mul_one]
    have hle : reach pp * (n - (k + 1)) + reach pp ≤ reach pp * n := by rw [← hnk]; exact Nat.mul_le_mul_left _ (by omega)
    rw [hnk] at i5
    exact local_stage hm hm' htab (fun a ha => hR a (within_mono ha (by omega)) k) (fun a ha => hs a (within_mono ha hle)) i1 i2 i3 i4 i5 h h'

/-- **C119** Domain of dependence: two runs of `n` stages whose data agree within `n` faces of element `e` (`2 n` faces with the limiter) have the same coefficients and
the same wet flag in `e`; farther away state, bottom, mesh, boundary conditions and parameters may differ. -/
theorem domain_of_dependence (hm : m.elts.Nodup) (hm' : m'.elts.Nodup) {tab : Tableau} {ns o : ℕ} (htab : tableau ns o = some tab) {dt : K} {time ramp : ℕ → K}
    {junk junk' : State K} {e : ℕ} (n : ℕ) (hs : ∀ a, Within m e (reach pp * n) a → SameElement dat dat' m m' pp pp' a) {s s' s1 s1' : Run K} (hst : s.stage < ns)
    (heq : s.stage = s'.stage) (hlen : ns + 1 ≤ s.slots.length) (hlen' : ns + 1 ≤ s'.slots.length) (hss : ∀ a, Within m e (reach pp * n) a → SameState s s' a)
    (h : runSerial v dat m tab ns dt pp junk time ramp n s = .ok s1) (h' : runSerial v dat' m' tab ns dt pp' junk' time ramp n s' = .ok s1') :
    s1.stage = s1'.stage ∧ s1.stage < ns ∧ SameState s1 s1' e :=
  domain_with hm hm' htab n (fun a ha k _ _ _ _ hq hw hn => local_solve hm hm' (hs a ha) (time k) (ramp k) junk junk' hq hw hn) hs hst heq hlen hlen' hss h h'

omit [Field K] [LinearOrder K] in
theorem within_elts (hends : ∀ i ∈ m.ints, i.ein ∈ m.elts ∧ i.eex ∈ m.elts) {e : ℕ} (he : e ∈ m.elts) : ∀ n a, Within m e n a → a ∈ m.elts
  | 0, a, h => by rw [show a = e from h]; exact he
  | n + 1, a, h => by
    rcases h with h | ⟨b, _, i, hi, ⟨_, rfl⟩ | ⟨rfl, _⟩⟩
    · exact within_elts hends he n a h
    · exact (hends i hi).2
    · exact (hends i hi).1

/-- **C120** What the storage of former stages holds at the start of a step does not matter, nor what the right hand sides held: the coefficients of the elements and
the wet flags at the start determine those of every later stage. -/
theorem storage_immaterial (hm : m.elts.Nodup) (hends : ∀ i ∈ m.ints, i.ein ∈ m.elts ∧ i.eex ∈ m.elts) {tab : Tableau} {ns o : ℕ} (htab : tableau ns o = some tab) {dt : K}
    {time ramp : ℕ → K} {junk junk' : State K} (n : ℕ) {s s' s1 s1' : Run K} (h0 : s.stage = 0) (h0' : s'.stage = 0) (hlen : ns + 1 ≤ s.slots.length)
    (hlen' : ns + 1 ≤ s'.slots.length) (hq : ∀ sl sl', s.slots[0]? = some sl → s'.slots[0]? = some sl' → ∀ e ∈ m.elts, sl.q e = sl'.q e)
    (hw : ∀ e ∈ m.elts, s.wet e = s'.wet e) (h : runSerial v dat m tab ns dt pp junk time ramp n s = .ok s1)
    (h' : runSerial v dat m tab ns dt pp junk' time ramp n s' = .ok s1') :
    ∀ e ∈ m.elts, s1.stage = s1'.stage ∧ s1.wet e = s1'.wet e ∧ ∀ sl sl', s1.slots[s1.stage]? = some sl → s1'.slots[s1.stage]? = some sl' → sl.q e = sl'.q e := by
  have hns := (Stepper.shapeOK_of_tableau htab).2.1
  intro e he
  obtain ⟨d1, _, d2⟩ := domain_of_dependence hm hm htab n (e := e) (fun a ha => ⟨within_elts hends he _ a ha, within_elts hends he _ a ha, rfl, rfl, rfl, rfl, rfl⟩) (by omega)
    (by omega) hlen hlen' (fun a ha => ⟨fun i hi sl sl' e1 e2 => by
      obtain rfl : i = 0 := by omega
      exact hq sl sl' e1 e2 a (within_elts hends he _ a ha), fun i hi => by omega, hw a (within_elts hends he _ a ha)⟩) h h'
  exact ⟨d1, d2.wet, d2.q _ le_rfl⟩

theorem run_add (v : Env K) (dat : ℕ → EltData K) (m : Mesh K) (tab : Tableau) (ns : ℕ) (dt : K) (pp : PostParams K) (junk : State K) (time ramp : ℕ → K) (n k : ℕ)
    (s : Run K) : runSerial v dat m tab ns dt pp junk time ramp (n + k) s =
      (do let s1 ← runSerial v dat m tab ns dt pp junk time ramp n s
          runSerial v dat m tab ns dt pp junk (fun i => time (n + i)) (fun i => ramp (n + i)) k s1) := by
  induction k with
  | zero =>
    rw [Nat.add_zero]
    cases runSerial v dat m tab ns dt pp junk time ramp n s with
    | error e => rfl
    | ok s1 => rfl
  | succ k ih =>
    rw [← Nat.add_assoc, runSerial_succ, ih]
    cases runSerial v dat m tab ns dt pp junk time ramp n s with
    | error e => rfl
    | ok s1 => rfl

theorem run_stage {tab : Tableau} {ns o : ℕ} (htab : tableau ns o = some tab) {dt : K} {junk : State K} {time ramp : ℕ → K} {s : Run K} (h0 : s.stage = 0)
    (hlen : ns + 1 ≤ s.slots.length) : ∀ (n : ℕ) {s1 : Run K}, runSerial v dat m tab ns dt pp junk time ramp n s = .ok s1 → s1.stage = n % ns ∧ ns + 1 ≤ s1.slots.length
  | 0, s1, h => by
    cases h
    exact ⟨by rw [h0, Nat.zero_mod], hlen⟩
  | n + 1, s1, h => by
    have hns := (Stepper.shapeOK_of_tableau htab).2.1
    rw [runSerial_succ] at h
    obtain ⟨s2, h2, h⟩ := bindOk h
    obtain ⟨i1, i2⟩ := run_stage htab h0 hlen n h2
    obtain ⟨u, x, f, _, _, _, j1, _, j2, _⟩ := stage_out htab (by rw [i1]; exact Nat.mod_lt _ hns) i2 h
    exact ⟨by rw [j1, i1, Nat.mod_add_mod], j2⟩

/-- **C120** A run can be interrupted after any number of steps: a new run, started from the coefficients and wet flags reached, with other contents of the storage and the
times continued, arrives at the same coefficients and wet flags as the run that was not interrupted. -/
theorem restart (hm : m.elts.Nodup) (hends : ∀ i ∈ m.ints, i.ein ∈ m.elts ∧ i.eex ∈ m.elts) {tab : Tableau} {ns o : ℕ} (htab : tableau ns o = some tab) {dt : K}
    {time ramp : ℕ → K} {junk junk' : State K} (steps n : ℕ) {s s1 s2 r r' : Run K} (h0 : s.stage = 0) (hlen : ns + 1 ≤ s.slots.length)
    (h1 : runSerial v dat m tab ns dt pp junk time ramp (steps * ns) s = .ok s1) (h : runSerial v dat m tab ns dt pp junk time ramp (steps * ns + n) s = .ok r)
    (h2 : s2.stage = 0) (hlen2 : ns + 1 ≤ s2.slots.length) (hw : ∀ e ∈ m.elts, s2.wet e = s1.wet e)
    (hq : ∀ sl sl', s1.slots[0]? = some sl → s2.slots[0]? = some sl' → ∀ e ∈ m.elts, sl.q e = sl'.q e)
    (h' : runSerial v dat m tab ns dt pp junk' (fun i => time (steps * ns + i)) (fun i => ramp (steps * ns + i)) n s2 = .ok r') :
    ∀ e ∈ m.elts, r.stage = r'.stage ∧ r.wet e = r'.wet e ∧ ∀ sl sl', r.slots[r.stage]? = some sl → r'.slots[r.stage]? = some sl' → sl.q e = sl'.q e := by
  rw [run_add, h1] at h
  obtain ⟨i1, i2⟩ := run_stage htab h0 hlen _ h1
  rw [Nat.mul_mod_left] at i1
  exact storage_immaterial hm hends htab n i1 h2 i2 hlen2 hq (fun e he => (hw e he).symm) h h'

/-! ### Cases -/

/-- Three triangles in a row: 0 and 1 have an edge in common, 1 and 2 have one. -/
def rowTris {K : Type} [Field K] (e : ℕ) : EltData K :=
  ⟨⟨1, if e = 0 then ⟨⟨0, 0⟩, ⟨4, 0⟩, ⟨0, 3⟩⟩ else if e = 1 then ⟨⟨4, 3⟩, ⟨0, 3⟩, ⟨4, 0⟩⟩ else ⟨⟨4, 0⟩, ⟨8, 3⟩, ⟨4, 3⟩⟩⟩, fun d => if d = 0 then 1 else 0,
    ⟨false, 0, 0, ⟨0, 0⟩, ⟨0, 0⟩, ⟨0, 0⟩⟩⟩

def rowMesh {K : Type} : Mesh K :=
  ⟨[0, 1, 2], [⟨0, 0, 1, 0, .internal⟩, ⟨1, 1, 2, 1, .internal⟩], [⟨0, 1, .land⟩, ⟨0, 2, .land⟩, ⟨1, 2, .land⟩, ⟨2, 0, .land⟩, ⟨2, 2, .land⟩], []⟩

/-- Still water; in element 2 the level is `x`. -/
def rowState {K : Type} [Field K] (x : K) : State K := fun e i d => if e = 2 ∧ i = 0 ∧ d = 0 then x else 0

omit [Field K] [LinearOrder K] in
theorem row_within : ∀ a, Within (rowMesh (K := K)) 0 1 a ↔ a = 0 ∨ a = 1 := by
  intro a
  constructor
  · rintro (h | ⟨b, hb, i, hi, h⟩)
    · exact .inl h
    · have hb : b = 0 := hb
      rcases (by simpa [rowMesh] using hi : i = _ ∨ i = _) with rfl | rfl <;> simp only at h <;> omega
  · rintro (rfl | rfl)
    · exact .inl rfl
    · exact .inr ⟨0, rfl, ⟨0, 0, 1, 0, .internal⟩, by simp [rowMesh], .inl ⟨rfl, rfl⟩⟩

/-- The theorem applies: one stage, whatever the level in element 2 is. -/
example (x y : ℚ) (s s' : Run ℚ) (h : stageSerial (plainEnv simpleN simpleSq) rowTris rowMesh tab11 1 (1 / 10) ⟨none, none⟩ 0 0 1
      ⟨[⟨rowState x, 0⟩, ⟨0, 0⟩], 0, fun _ => true, false⟩ = .ok s)
    (h' : stageSerial (plainEnv simpleN simpleSq) rowTris rowMesh tab11 1 (1 / 10) ⟨none, none⟩ 0 0 1 ⟨[⟨rowState y, 0⟩, ⟨0, 0⟩], 0, fun _ => true, false⟩ = .ok s') :
    SameState s s' 0 := by
  refine (domain_of_dependence (v := plainEnv simpleN simpleSq) (m := rowMesh) (m' := rowMesh) (dat := rowTris) (dat' := rowTris) (pp := ⟨none, none⟩) (pp' := ⟨none, none⟩)
    (by decide) (by decide) (tab := tab11) (ns := 1) (o := 1) (by decide +kernel) (dt := 1 / 10) (time := fun _ => 0) (ramp := fun _ => 1) (junk := 0) (junk' := 0) (e := 0) 1 ?_
    (s := ⟨[⟨rowState x, 0⟩, ⟨0, 0⟩], 0, fun _ => true, false⟩) (s' := ⟨[⟨rowState y, 0⟩, ⟨0, 0⟩], 0, fun _ => true, false⟩) (by simp) rfl (by simp) (by simp) ?_ h h').2.2
  · intro a ha
    rcases (row_within a).1 ha with rfl | rfl <;> exact ⟨by simp [rowMesh], by simp [rowMesh], rfl, rfl, rfl, rfl, rfl⟩
  · intro a ha
    refine ⟨fun i hi sl sl' e1 e2 => ?_, fun i hi => by simp at hi, rfl⟩
    obtain rfl : i = 0 := by simpa using hi
    cases e1; cases e2
    rcases (row_within a).1 ha with rfl | rfl <;> (funext i d; simp [rowState])

/-- The number of faces is sharp: the level in element 2 is felt in element 1 after one stage, in element 0 after two and not before. -/
example : ((do
      let s ← runSerial (plainEnv simpleN simpleSq) rowTris rowMesh tab11 1 (1 / 10) ⟨none, none⟩ 0 (fun _ => 0) (fun _ => 1) 1
        ⟨[⟨rowState 3, 0⟩, ⟨0, 0⟩], 0, fun _ => true, false⟩
      let r ← runSerial (plainEnv simpleN simpleSq) rowTris rowMesh tab11 1 (1 / 10) ⟨none, none⟩ 0 (fun _ => 0) (fun _ => 1) 2
        ⟨[⟨rowState 3, 0⟩, ⟨0, 0⟩], 0, fun _ => true, false⟩
      return decide (current s 1 0 0 ≠ 0 ∧ current s 0 0 0 = 0 ∧ current s 0 1 0 = 0 ∧ current r 0 0 0 ≠ 0)) : Res Bool) = .ok true := by decide +kernel

/-- Heun's method, three stages: the contents of the later slots, of the increments and of the right hand sides do not matter. -/
example : (match tableau 2 2 with
    | some tab => (do
      let s ← runSerial (plainEnv simpleN simpleSq) (twoTris 1 fun _ d => if d = 0 then 1 else 0) twoMesh tab 2 (1 / 10) ⟨none, none⟩ 0 (fun _ => 0) (fun _ => 1) 3
        ⟨[⟨fun e _ _ => e, 0⟩, ⟨0, 0⟩, ⟨0, 0⟩], 0, fun _ => true, false⟩
      let r ← runSerial (plainEnv simpleN simpleSq) (twoTris 1 fun _ d => if d = 0 then 1 else 0) twoMesh tab 2 (1 / 10) ⟨none, none⟩ (fun _ _ _ => 7) (fun _ => 0) (fun _ => 1) 3
        ⟨[⟨fun e _ _ => e, fun _ _ _ => 5⟩, ⟨fun _ _ _ => 9, fun _ _ _ => 3⟩, ⟨fun _ _ _ => 8, 0⟩], 0, fun _ => true, false⟩
      return decide (current s 0 0 0 = current r 0 0 0 ∧ current s 1 2 1 = current r 1 2 1 ∧ current s 0 0 0 ≠ 0))
    | none => .error .ub : Res Bool) = .ok true := by decide +kernel

/-- Within a step they do: starting in the second stage, the first slot is used. -/
example : (match tableau 2 2 with
    | some tab => (do
      let s ← runSerial (plainEnv simpleN simpleSq) (twoTris 1 fun _ d => if d = 0 then 1 else 0) twoMesh tab 2 (1 / 10) ⟨none, none⟩ 0 (fun _ => 0) (fun _ => 1) 1
        ⟨[⟨0, 0⟩, ⟨0, 0⟩, ⟨0, 0⟩], 1, fun _ => true, false⟩
      let r ← runSerial (plainEnv simpleN simpleSq) (twoTris 1 fun _ d => if d = 0 then 1 else 0) twoMesh tab 2 (1 / 10) ⟨none, none⟩ 0 (fun _ => 0) (fun _ => 1) 1
        ⟨[⟨fun _ _ _ => 5, 0⟩, ⟨0, 0⟩, ⟨0, 0⟩], 1, fun _ => true, false⟩
      return decide (current s 0 0 0 = current r 0 0 0))
    | none => .error .ub : Res Bool) = .ok false := by decide +kernel

end Verif.Swe.Props
