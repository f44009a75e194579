import Verif.Model.SweUnit
import Verif.Lemmas.RhsAt
import Verif.Lemmas.Partitioned
import Verif.Lemmas.Stage

/-!
Helper lemmas for the comparison of one simulation unit with the whole partitioned program.
-/

namespace Verif.Swe
open Verif.Geometry Verif.Element

variable {K : Type} [Field K] [LinearOrder K] {U : Type}

/-! ### Kernels depend on the elements they touch -/

theorem intTerms_congr (v : Env K) (dat : ℕ → EltData K) {wet wet' : ℕ → Bool} {q q' : State K} (e : ℕ) {i : Iface K}
    (h1 : q i.ein = q' i.ein) (h2 : q i.eex = q' i.eex) (h3 : wet i.ein = wet' i.ein) (h4 : wet i.eex = wet' i.eex) :
    intTerms v dat wet q e i = intTerms v dat wet' q' e i := by
  have hf : ∀ gp, i.flux v dat wet q gp = i.flux v dat wet' q' gp := by
    intro gp
    simp only [Iface.flux, Iface.inside, Iface.outside, h1, h2, h3, h4]
  have ha : i.inTerm v dat wet q = i.inTerm v dat wet' q' := by
    funext var dof
    simp only [Iface.inTerm, hf]
  have hb : i.exTerm v dat wet q = i.exTerm v dat wet' q' := by
    funext var dof
    simp only [Iface.exTerm, hf]
  simp only [intTerms, ha, hb, h3, h4]

theorem bndTerms_congr (v : Env K) (dat : ℕ → EltData K) {wet wet' : ℕ → Bool} (t ramp : K) {q q' : State K} (e : ℕ) {b : Bnd K}
    (h1 : q b.e = q' b.e) (h2 : wet b.e = wet' b.e) : bndTerms v dat wet t ramp q e b = bndTerms v dat wet' t ramp q' e b := by
  simp only [bndTerms, Bnd.term, h1, h2]

/-- The right-hand side of an element of a submesh, from the data of the submesh. -/
theorem localRhs_congr (v : Env K) (dat : ℕ → EltData K) {m : Mesh K} (hn : m.elts.Nodup) (hi : ∀ i ∈ m.ints, i.ein ∈ m.elts ∧ i.eex ∈ m.elts)
    (hb : ∀ b ∈ m.bnds, b.e ∈ m.elts) {wet wet' : ℕ → Bool} (t ramp : K) {q q' : State K} (r r' : State K) (hq : ∀ e ∈ m.elts, q e = q' e)
    (hw : ∀ e ∈ m.elts, wet e = wet' e) {e : ℕ} (he : e ∈ m.elts) :
    localRhs v dat m wet t ramp q r e = localRhs v dat m wet' t ramp q' r' e := by
  rw [localRhs_at v dat m hn, localRhs_at v dat m hn, if_pos he, if_pos he, hq e he, hw e he]
  congr 3
  unfold faceTerms
  congr 1
  · exact List.flatMap_congr fun i hii =>
      intTerms_congr v dat e (hq _ (hi i hii).1) (hq _ (hi i hii).2) (hw _ (hi i hii).1) (hw _ (hi i hii).2)
  · exact List.flatMap_congr fun b hbb => bndTerms_congr v dat t ramp e (hq _ (hb b hbb)) (hw _ (hb b hbb))

theorem localRhs_other (v : Env K) (dat : ℕ → EltData K) {m : Mesh K} (hn : m.elts.Nodup) (hi : ∀ i ∈ m.ints, i.ein ∈ m.elts ∧ i.eex ∈ m.elts)
    (hb : ∀ b ∈ m.bnds, b.e ∈ m.elts) (wet : ℕ → Bool) (t ramp : K) (q r : State K) {e : ℕ} (he : e ∉ m.elts) :
    localRhs v dat m wet t ramp q r e = r e := by
  rw [localRhs_at v dat m hn, if_neg he]
  have : faceTerms v dat m wet t ramp q e = [] := by
    unfold faceTerms
    rw [List.append_eq_nil_iff, List.flatMap_eq_nil_iff, List.flatMap_eq_nil_iff]
    constructor
    · intro i hii
      unfold intTerms
      rw [if_neg (fun h : i.ein = e => he (h ▸ (hi i hii).1)), if_neg (fun h : i.eex = e => he (h ▸ (hi i hii).2))]
      simp
    · intro b hbb
      unfold bndTerms
      rw [if_neg (fun h : b.e = e => he (h ▸ hb b hbb))]
      simp
  simp [this]

theorem ownSide_congr (v : Env K) (dat : ℕ → EltData K) {wet wet' : ℕ → Bool} {q q' : State K} {e : ℕ} (f gp : ℕ) (h1 : q e = q' e)
    (h2 : wet e = wet' e) : ownSide v dat wet q e f gp = ownSide v dat wet' q' e f gp := by
  simp only [ownSide, h1, h2]

theorem message_congr (v : Env K) (dat : ℕ → EltData K) {wet wet' : ℕ → Bool} {q q' : State K} {e : ℕ} (f : ℕ) (h1 : q e = q' e)
    (h2 : wet e = wet' e) : message v dat wet q e f = message v dat wet' q' e f := by
  simp only [message, h2, ownSide_congr v dat f _ h1 h2]

theorem slSend_congr (v : Env K) (dat : ℕ → EltData K) (p : SlParams K) {s s' : Flow K} {e : ℕ} (f : ℕ) (h1 : s.q e = s'.q e)
    (h2 : s.wet e = s'.wet e) : slSend v dat p s e f = slSend v dat p s' e f := by
  simp only [slSend, slBary, h1, h2, ownSide_congr v dat f _ h1 h2]

theorem amount_congr (v : Env K) (dat : ℕ → EltData K) {wet wet' : ℕ → Bool} {q q' : State K} {b : Dbnd K} (m : List K) (h1 : q b.e = q' b.e)
    (h2 : wet b.e = wet' b.e) : dboundAmount v dat wet q b m = dboundAmount v dat wet' q' b m := by
  have : dbndFlux v dat wet q b m = dbndFlux v dat wet' q' b m := by
    funext gp
    simp only [dbndFlux, ownSide_congr v dat b.f gp h1 h2]
  simp only [dboundAmount, this, h2]

/-! ### Distributed boundaries -/

/-- The kernel of the whole program is the kernel of the unit with the message the other side sends. -/
theorem dbound_mail (v : Env K) (dat : ℕ → EltData K) (wet : ℕ → Bool) (q : State K) :
    dboundKernel v dat wet q = dboundMail v dat wet q (message v dat wet q) := by
  funext rhs b
  unfold dboundKernel dboundMail dboundAmount
  simp only
  cases decodeWet (message v dat wet q b.e' b.f') with
  | error x => rfl
  | ok w =>
    simp only [okBind]
    cases sequenceRes (dbndFlux v dat wet q b (message v dat wet q b.e' b.f')) (faceRule v.N (dat b.e).elt.p).length with
    | error x => rfl
    | ok fl =>
      simp only [okBind]
      by_cases h : (wet b.e || w) = true
      · rw [if_pos h, if_pos h]; rfl
      · rw [if_neg h, if_neg h]; rfl

omit [LinearOrder K] in
theorem subOpt_at {r r' : State K} {e : ℕ} (b : ℕ) (a : Option (Fin 3 → ℕ → K)) (h : r e = r' e) : subOpt r b a e = subOpt r' b a e := by
  cases a with
  | none => exact h
  | some x => simp only [subOpt, subAt_at, h]

omit [LinearOrder K] in
theorem subOpt_ne (r : State K) {b e : ℕ} (a : Option (Fin 3 → ℕ → K)) (h : b ≠ e) : subOpt r b a e = r e := by
  cases a with
  | none => rfl
  | some x => simp only [subOpt, subAt_at, if_neg h, sub_zero]

theorem dist_same (v : Env K) (dat : ℕ → EltData K) {wet wet' : ℕ → Bool} {q q' : State K} {mail mail' : Mail K} (S : List ℕ) (l : List (Dbnd K))
    (h : ∀ b ∈ l, dboundAmount v dat wet q b (mail b.e' b.f') = dboundAmount v dat wet' q' b (mail' b.e' b.f')) {r r' x : State K}
    (hr : ∀ e ∈ S, r e = r' e) (hx : l.foldlM (dboundMail v dat wet q mail) r = .ok x) :
    ∃ x', l.foldlM (dboundMail v dat wet' q' mail') r' = .ok x' ∧ ∀ e ∈ S, x e = x' e := by
  induction l generalizing r r' with
  | nil =>
    cases hx
    exact ⟨r', rfl, hr⟩
  | cons b l ih =>
    rw [List.foldlM_cons] at hx
    obtain ⟨y, h1, h2⟩ := bindOk hx
    obtain ⟨a, h3, h4⟩ := bindOk h1
    cases h4
    rw [List.foldlM_cons]
    have e1 : dboundMail v dat wet' q' mail' r' b = .ok (subOpt r' b.e a) := by
      unfold dboundMail
      rw [← h b List.mem_cons_self, h3]
      rfl
    rw [e1, okBind]
    exact ih (fun c hc => h c (List.mem_cons_of_mem _ hc)) (fun e he => subOpt_at _ a (hr e he)) h2

theorem dist_other (v : Env K) (dat : ℕ → EltData K) {wet : ℕ → Bool} {q : State K} {mail : Mail K} {e : ℕ} (l : List (Dbnd K))
    (h : ∀ b ∈ l, b.e ≠ e) {r x : State K} (hx : l.foldlM (dboundMail v dat wet q mail) r = .ok x) : x e = r e := by
  induction l generalizing r with
  | nil => cases hx; rfl
  | cons b l ih =>
    rw [List.foldlM_cons] at hx
    obtain ⟨y, h1, h2⟩ := bindOk hx
    obtain ⟨a, h3, h4⟩ := bindOk h1
    cases h4
    rw [ih (fun c hc => h c (List.mem_cons_of_mem _ hc)) h2, subOpt_ne _ _ (h b List.mem_cons_self)]

/-! ### Units share the elements -/

/-- Each unit has its own elements, and all its faces belong to them; across a distributed boundary is a neighbour that sends a message about it. -/
structure Shared (sub : U → Mesh K) (owner : ℕ → U) (nbrs : U → List U) : Prop where
  nodup : ∀ u, (sub u).elts.Nodup
  owns : ∀ u, ∀ e ∈ (sub u).elts, owner e = u
  ints : ∀ u, ∀ i ∈ (sub u).ints, i.ein ∈ (sub u).elts ∧ i.eex ∈ (sub u).elts
  bnds : ∀ u, ∀ b ∈ (sub u).bnds, b.e ∈ (sub u).elts
  dist : ∀ u, ∀ b ∈ (sub u).dist, b.e ∈ (sub u).elts
  mirror : ∀ u, ∀ b ∈ (sub u).dist, owner b.e' ∈ nbrs u ∧ sendsFace (sub (owner b.e')) b.e' b.f' = true

omit [Field K] [LinearOrder K] in
theorem sends_own {sub : U → Mesh K} {owner : ℕ → U} {nbrs : U → List U} (hs : Shared sub owner nbrs) {u : U} {e f : ℕ}
    (h : sendsFace (sub u) e f = true) : e ∈ (sub u).elts := by
  unfold sendsFace at h
  obtain ⟨b, hb, h⟩ := List.any_eq_true.mp h
  simp only [Bool.and_eq_true, beq_iff_eq] at h
  exact h.1 ▸ hs.dist u b hb

theorem locals_other (v : Env K) (dat : ℕ → EltData K) {sub : U → Mesh K} {owner : ℕ → U} {nbrs : U → List U} (hs : Shared sub owner nbrs)
    (wet : ℕ → Bool) (t ramp : K) (q : State K) (us : List U) {e : ℕ} (he : ∀ u ∈ us, e ∉ (sub u).elts) (r : State K) :
    us.foldl (fun r u => localRhs v dat (sub u) wet t ramp q r) r e = r e := by
  induction us generalizing r with
  | nil => rfl
  | cons a l ih =>
    rw [List.foldl_cons, ih (fun u hu => he u (List.mem_cons_of_mem _ hu)),
      localRhs_other v dat (hs.nodup a) (hs.ints a) (hs.bnds a) _ _ _ _ _ (he a List.mem_cons_self)]

/-- The kernels of the other units leave the elements of a unit alone. -/
theorem locals_own (v : Env K) (dat : ℕ → EltData K) {sub : U → Mesh K} {owner : ℕ → U} {nbrs : U → List U} (hs : Shared sub owner nbrs)
    (wet : ℕ → Bool) (t ramp : K) (q : State K) {us : List U} (hn : us.Nodup) {u : U} (hu : u ∈ us) {e : ℕ} (he : e ∈ (sub u).elts) (r r0 : State K) :
    us.foldl (fun r u => localRhs v dat (sub u) wet t ramp q r) r e = localRhs v dat (sub u) wet t ramp q r0 e := by
  induction us generalizing r with
  | nil => cases hu
  | cons a l ih =>
    rw [List.nodup_cons] at hn
    rw [List.foldl_cons]
    rcases List.mem_cons.mp hu with rfl | h
    · rw [locals_other v dat hs _ _ _ _ l (fun w hw h => hn.1 ?_)]
      · exact localRhs_congr v dat (hs.nodup u) (hs.ints u) (hs.bnds u) t ramp _ _ (fun _ _ => rfl) (fun _ _ => rfl) he
      · rw [← hs.owns u e he, hs.owns w e h]; exact hw
    · exact ih hn.2 h _

theorem dists_own (v : Env K) (dat : ℕ → EltData K) {sub : U → Mesh K} {owner : ℕ → U} {nbrs : U → List U} (hs : Shared sub owner nbrs)
    {wet : ℕ → Bool} {q : State K} {mail : Mail K} {us : List U} (hn : us.Nodup) {u : U} (hu : u ∈ us) {r x : State K}
    (hx : us.foldlM (fun r u => (sub u).dist.foldlM (dboundMail v dat wet q mail) r) r = .ok x) :
    ∃ r1 x1, (sub u).dist.foldlM (dboundMail v dat wet q mail) r1 = .ok x1 ∧ ∀ e ∈ (sub u).elts, r1 e = r e ∧ x e = x1 e := by
  have other : ∀ (l : List U) (r x : State K), u ∉ l → l.foldlM (fun r u => (sub u).dist.foldlM (dboundMail v dat wet q mail) r) r = .ok x →
      ∀ e ∈ (sub u).elts, x e = r e := by
    intro l
    induction l with
    | nil => intro r x _ h e _; cases h; rfl
    | cons a l ih =>
      intro r x hl h e he
      rw [List.mem_cons, not_or] at hl
      rw [List.foldlM_cons] at h
      obtain ⟨y, h1, h2⟩ := bindOk h
      rw [ih y x hl.2 h2 e he]
      refine dist_other v dat _ (fun b hb hbe => hl.1 ?_) h1
      rw [← hs.owns u e he, ← hs.owns a b.e (hs.dist a b hb), hbe]
  induction us generalizing r with
  | nil => cases hu
  | cons a l ih =>
    rw [List.nodup_cons] at hn
    rw [List.foldlM_cons] at hx
    obtain ⟨y, h1, h2⟩ := bindOk hx
    rcases List.mem_cons.mp hu with rfl | h
    · exact ⟨r, y, h1, fun e he => ⟨rfl, other l y x hn.1 h2 e he⟩⟩
    · obtain ⟨r1, x1, h3, h4⟩ := ih hn.2 h h2
      refine ⟨r1, x1, h3, fun e he => ⟨?_, (h4 e he).2⟩⟩
      rw [(h4 e he).1]
      refine dist_other v dat _ (fun b hb hbe => hn.1 ?_) h1
      have : a = u := by rw [← hs.owns u e he, ← hs.owns a b.e (hs.dist a b hb), hbe]
      exact this ▸ h

/-! ### Slots -/

/-- Two slots agree on the elements `S`. -/
def SlotSame (S : List ℕ) (a b : Stepper.Slot (State K)) : Prop := (∀ e ∈ S, a.q e = b.q e) ∧ ∀ e ∈ S, a.solution e = b.solution e

/-- So do all slots. -/
def SlotsSame (S : List ℕ) (l l' : List (Stepper.Slot (State K))) : Prop :=
  l.length = l'.length ∧ ∀ (i : ℕ) (a b : Stepper.Slot (State K)), l[i]? = some a → l'[i]? = some b → SlotSame S a b

omit [Field K] [LinearOrder K] in
theorem slots_get {S : List ℕ} {l l' : List (Stepper.Slot (State K))} (h : SlotsSame S l l') {i : ℕ} {a : Stepper.Slot (State K)}
    (ha : l[i]? = some a) : ∃ b, l'[i]? = some b ∧ SlotSame S a b := by
  have hi : i < l.length := (List.getElem?_eq_some_iff.mp ha).1
  have hb : l'[i]? = some (l'[i]'(h.1 ▸ hi)) := List.getElem?_eq_getElem _
  exact ⟨_, hb, h.2 i _ _ ha hb⟩

omit [Field K] [LinearOrder K] in
theorem slots_set {S : List ℕ} {l l' : List (Stepper.Slot (State K))} (h : SlotsSame S l l') (i : ℕ) {a b : Stepper.Slot (State K)}
    (hab : SlotSame S a b) : SlotsSame S (l.set i a) (l'.set i b) := by
  refine ⟨by simp [h.1], fun j x y hx hy => ?_⟩
  by_cases hij : i = j
  · subst hij
    have hi : i < l.length := by
      have := (List.getElem?_eq_some_iff.mp hx).1
      simpa using this
    rw [List.getElem?_set_self hi] at hx
    rw [List.getElem?_set_self (h.1 ▸ hi)] at hy
    cases hx; cases hy
    exact hab
  · rw [List.getElem?_set_ne hij] at hx hy
    exact h.2 j x y hx hy

omit [Field K] [LinearOrder K] in
theorem setQ_same {S : List ℕ} {l l' x : List (Stepper.Slot (State K))} (h : SlotsSame S l l') {i : ℕ} {q q' : State K} (hq : ∀ e ∈ S, q e = q' e)
    (hx : Stepper.setQ l i q = some x) : ∃ x', Stepper.setQ l' i q' = some x' ∧ SlotsSame S x x' := by
  unfold Stepper.setQ at hx ⊢
  cases ha : l[i]? with
  | none => rw [ha] at hx; cases hx
  | some a =>
    obtain ⟨b, hb, hab⟩ := slots_get h ha
    rw [ha] at hx
    rw [hb]
    cases hx
    exact ⟨_, rfl, slots_set h i ⟨hq, hab.2⟩⟩

omit [Field K] [LinearOrder K] in
theorem setSolution_same {S : List ℕ} {l l' x : List (Stepper.Slot (State K))} (h : SlotsSame S l l') {i : ℕ} {q q' : State K}
    (hq : ∀ e ∈ S, q e = q' e) (hx : Stepper.setSolution l i q = some x) : ∃ x', Stepper.setSolution l' i q' = some x' ∧ SlotsSame S x x' := by
  unfold Stepper.setSolution at hx ⊢
  cases ha : l[i]? with
  | none => rw [ha] at hx; cases hx
  | some a =>
    obtain ⟨b, hb, hab⟩ := slots_get h ha
    rw [ha] at hx
    rw [hb]
    cases hx
    exact ⟨_, rfl, slots_set h i ⟨hab.1, hq⟩⟩

omit [LinearOrder K] in
theorem accumulate_same {S : List ℕ} {l l' : List (Stepper.Slot (State K))} (h : SlotsSame S l l') (tab : Stepper.Tableau) (dt : K) (stage : ℕ) {x : State K}
    (hx : Stepper.accumulate tab dt stage l = some x) : ∃ x', Stepper.accumulate tab dt stage l' = some x' ∧ ∀ e ∈ S, x e = x' e := by
  unfold Stepper.accumulate at hx ⊢
  have key : ∀ (r : List ℕ) (acc acc' : State K), (∀ e ∈ S, acc e = acc' e) → ∀ x, r.foldlM (fun (acc : State K) s => do
      let a ← Stepper.entry tab.ark stage s
      let b ← Stepper.entry tab.brk stage s
      let sl ← l[s]?
      pure (acc + ((a : K) • sl.q + (dt * (b : K)) • sl.solution))) acc = some x →
      ∃ x', r.foldlM (fun (acc : State K) s => do
      let a ← Stepper.entry tab.ark stage s
      let b ← Stepper.entry tab.brk stage s
      let sl ← l'[s]?
      pure (acc + ((a : K) • sl.q + (dt * (b : K)) • sl.solution))) acc' = some x' ∧ ∀ e ∈ S, x e = x' e := by
    intro r
    induction r with
    | nil => intro acc acc' ha x hx; cases hx; exact ⟨_, rfl, ha⟩
    | cons s r ih =>
      intro acc acc' ha x hx
      simp only [List.foldlM_cons] at hx ⊢
      cases h1 : Stepper.entry tab.ark stage s with
      | none => rw [h1] at hx; cases hx
      | some a =>
        cases h2 : Stepper.entry tab.brk stage s with
        | none => rw [h1, h2] at hx; cases hx
        | some b =>
          cases h3 : l[s]? with
          | none => rw [h1, h2, h3] at hx; cases hx
          | some y =>
            obtain ⟨y', h4, h5⟩ := slots_get h h3
            rw [h1, h2, h3] at hx
            rw [h4]
            refine ih _ _ (fun e he => ?_) x hx
            show acc e + ((a : K) • y.q e + (dt * (b : K)) • y.solution e) = acc' e + ((a : K) • y'.q e + (dt * (b : K)) • y'.solution e)
            rw [ha e he, h5.1 e he, h5.2 e he]
  exact key _ 0 0 (fun _ _ => rfl) x hx

omit [LinearOrder K] in
theorem updateState_same {S : List ℕ} {l l' x : List (Stepper.Slot (State K))} (h : SlotsSame S l l') (tab : Stepper.Tableau) (ns : ℕ) (dt : K)
    (stage : ℕ) (hx : Stepper.updateState tab ns dt stage l = some x) :
    ∃ x', Stepper.updateState tab ns dt stage l' = some x' ∧ SlotsSame S x x' := by
  unfold Stepper.updateState at hx ⊢
  cases h1 : Stepper.accumulate tab dt stage l with
  | none => rw [h1] at hx; cases hx
  | some q =>
    obtain ⟨q', h2, hq⟩ := accumulate_same h tab dt stage h1
    rw [h1] at hx
    rw [h2]
    simp only [Option.bind_eq_bind, Option.bind_some] at hx ⊢
    cases h3 : Stepper.setQ l (stage + 1) q with
    | none => rw [h3] at hx; cases hx
    | some y =>
      obtain ⟨y', h4, hy⟩ := setQ_same h hq h3
      rw [h3] at hx
      rw [h4]
      simp only [Option.bind_some] at hx ⊢
      by_cases hs : stage + 1 = ns
      · rw [if_pos hs] at hx ⊢
        cases h5 : y[0]? with
        | none => rw [h5] at hx; cases hx
        | some s0 =>
          cases h6 : y[ns]? with
          | none => rw [h5, h6] at hx; cases hx
          | some sn =>
            obtain ⟨s0', h7, e0⟩ := slots_get hy h5
            obtain ⟨sn', h8, en⟩ := slots_get hy h6
            rw [h5, h6] at hx
            rw [h7, h8]
            simp only [Option.bind_some] at hx ⊢
            cases h9 : Stepper.setQ y 0 sn.q with
            | none => rw [h9] at hx; cases hx
            | some z =>
              obtain ⟨z', h10, hz⟩ := setQ_same hy en.1 h9
              rw [h9] at hx
              rw [h10]
              exact setQ_same hz e0.1 hx
      · rw [if_neg hs] at hx ⊢
        cases hx
        exact ⟨_, rfl, hy⟩

/-! ### The limiter -/

theorem foldl_congr {α β : Type} (f g : α → β → α) (l : List β) (h : ∀ b ∈ l, ∀ a, f a b = g a b) (a : α) : l.foldl f a = l.foldl g a := by
  induction l generalizing a with
  | nil => rfl
  | cons b l ih =>
    rw [List.foldl_cons, List.foldl_cons, h b List.mem_cons_self, ih fun c hc => h c (List.mem_cons_of_mem _ hc)]

/-- The limiter in a submesh reads the elements of the submesh and the messages. -/
theorem limited_congr (v : Env K) (dat : ℕ → EltData K) (p : SlParams K) {m : Mesh K} (hi : ∀ i ∈ m.ints, i.ein ∈ m.elts ∧ i.eex ∈ m.elts)
    (hb : ∀ b ∈ m.bnds, b.e ∈ m.elts) {mail mail' : Mail K} (hm : ∀ b ∈ m.dist, mail b.e' b.f' = mail' b.e' b.f') {wet wet' : ℕ → Bool} {q q' : State K}
    (hq : ∀ e ∈ m.elts, q e = q' e) (hw : ∀ e ∈ m.elts, wet e = wet' e) {e : ℕ} (he : e ∈ m.elts) :
    limitAll v.sq v.src.g p.M p.nu p.geo (fun e => ndof (dat e).elt.p) (slMeshMail m mail) wet p.old p.store q e =
      limitAll v.sq v.src.g p.M p.nu p.geo (fun e => ndof (dat e).elt.p) (slMeshMail m mail') wet' p.old p.store q' e := by
  have hmesh : slMeshMail m mail = slMeshMail m mail' := by
    unfold slMeshMail
    congr 1
    exact List.map_congr_left fun b hbb => by rw [hm b hbb]
  unfold limitAll
  rw [hmesh]
  simp only [hq e he, hw e he]
  congr 2
  unfold prepare
  congr 1
  have h1 : ∀ s : SlStore K, (slMeshMail m mail').ints.foldl (prepInterface wet fun e => if wet e then fun var => baryOf (vrtxOf (ndof (dat e).elt.p) (q e var)) else p.old e) s =
      (slMeshMail m mail').ints.foldl (prepInterface wet' fun e => if wet' e then fun var => baryOf (vrtxOf (ndof (dat e).elt.p) (q' e var)) else p.old e) s := by
    intro s
    refine foldl_congr _ _ _ (fun f hf s => ?_) s
    obtain ⟨i, hii, rfl⟩ := List.mem_map.mp hf
    simp only [prepInterface, hq _ (hi i hii).1, hq _ (hi i hii).2, hw _ (hi i hii).1, hw _ (hi i hii).2]
  rw [h1]
  refine foldl_congr _ _ _ (fun f hf s => ?_) _
  obtain ⟨b, hbb, rfl⟩ := List.mem_map.mp hf
  simp only [prepBoundary, hq _ (hb b hbb), hw _ (hb b hbb)]

end Verif.Swe
