import Verif.Props.Parallel

/-!
# The order of traversal and the choice of sides are immaterial (C112)
-/

namespace Verif.Swe.Props
open Verif.Geometry Verif.Geometry.Props Verif.Element Verif.Swe

variable {K : Type} [Field K] [LinearOrder K] [IsStrictOrderedRing K]

/-- The same interface, seen from the other side. -/
def swapped (n : ℕ) (i : Iface K) : Iface K := ⟨i.eex, i.fex, i.ein, i.fin, turned n i.kind⟩

/-- What is required of the elements at an interface: counterclockwise, opposite edge vectors, bathymetry continuous at the Gauss points of an ordinary interface.
Degrees may differ. -/
structure Meets (v : Env K) (dat : ℕ → EltData K) (i : Iface K) : Prop where
  ccwIn : 0 < jdet (dat i.ein).elt.tri
  ccwEx : 0 < jdet (dat i.eex).elt.tri
  edges : faceVec (dat i.eex).elt.tri i.fex = ⟨-(faceVec (dat i.ein).elt.tri i.fin).x, -(faceVec (dat i.ein).elt.tri i.fin).y⟩
  bath : i.kind = .internal → ∀ gp < (i.rule v dat).length,
    (dat i.ein).elt.value v.N (dat i.ein).bath (facePt (i.rule v dat) i.fin gp) =
      (dat i.eex).elt.value v.N (dat i.eex).bath (facePt (i.rule v dat) i.fex ((i.rule v dat).length - gp - 1))

/-- The mesh `m'` has the elements, interfaces and boundaries of `m` in another order, some interfaces seen from the other side. -/
structure Reordered (v : Env K) (dat : ℕ → EltData K) (m m' : Mesh K) : Prop where
  elts : m'.elts.Perm m.elts
  bnds : m'.bnds.Perm m.bnds
  ints : ∃ l, List.Forall₂ (fun i i' => i' = i ∨ i' = swapped (i.rule v dat).length i) m.ints l ∧ m'.ints.Perm l

variable {v : Env K} {dat : ℕ → EltData K} {i : Iface K}

/-! ### One interface -/

omit [IsStrictOrderedRing K] in
theorem swapped_rule (n : ℕ) (i : Iface K) : (swapped n i).rule v dat = i.rule v dat := by simp only [Iface.rule, swapped, max_comm]

theorem meets_normal (h : Meets v dat i) : normal v.sq (dat i.eex).elt.tri i.fex =
    ⟨-(normal v.sq (dat i.ein).elt.tri i.fin).x, -(normal v.sq (dat i.ein).elt.tri i.fin).y⟩ := by
  rw [normal_vec v.sq h.ccwIn, normal_vec v.sq h.ccwEx, h.edges]
  simp only [hypot, neg_mul_neg, neg_neg, neg_div]

theorem swapped_J (n : ℕ) (h : Meets v dat i) : (swapped n i).J v dat = i.J v dat := by
  simp only [Iface.J, swapped]
  rw [J_vec, J_vec, h.edges]
  simp only [neg_sq]

theorem swapped_inside (n : ℕ) (hsp : ∀ x, v.sp x = 1) (h : Meets v dat i) (wet : ℕ → Bool) (q : State K) (gp : ℕ) :
    (swapped n i).inside v dat wet q gp = i.outside v dat wet q gp := by
  simp only [Iface.inside, Iface.outside, swapped_rule, Swe.auxAt, hsp]
  simp only [swapped, meets_normal h]

theorem swapped_outside (n : ℕ) (hsp : ∀ x, v.sp x = 1) (h : Meets v dat i) (wet : ℕ → Bool) (q : State K) (gp : ℕ) :
    (swapped n i).outside v dat wet q gp = i.inside v dat wet q gp := by
  simp only [Iface.inside, Iface.outside, swapped_rule, Swe.auxAt, hsp]
  simp only [swapped, meets_normal h, neg_neg]

theorem neg_llf (sq : K → K) (g : K) (a b : Side K) (ha : a.aux.sp = 1) (hb : b.aux.sp = 1) (hab : a.aux.bath = b.aux.bath) (hn : b.n = ⟨-a.n.x, -a.n.y⟩) :
    llf sq g b.q a.q b.aux b.n = -llf sq g a.q b.q a.aux a.n := by
  rw [hn]
  exact llf_conservative sq g a.q b.q a.aux b.aux ha hb hab a.n

theorem negQ_ze (x : Q K) : (-x).ze = -x.ze := rfl
theorem negQ_neg (x : Q K) : - -x = x := by
  cases x with
  | mk a b c =>
    show Q.mk (- -a) (- -b) (- -c) = Q.mk a b c
    rw [neg_neg, neg_neg, neg_neg]

theorem internal_swap (sq : K → K) (g : K) (a b : Side K) (ha : a.aux.sp = 1) (hb : b.aux.sp = 1) (hab : a.aux.bath = b.aux.bath) (hn : b.n = ⟨-a.n.x, -a.n.y⟩) :
    internal sq g b a = (internal sq g a b).swap := by
  have h := neg_llf sq g a b ha hb hab hn
  unfold internal
  rw [h]
  simp only [negQ_ze, negQ_neg]
  have ht : (0 : K) < fluxTol := by unfold fluxTol; positivity
  rcases lt_trichotomy (llf sq g a.q b.q a.aux a.n).ze 0 with hs | hs | hs
  · have h1 : ¬ (llf sq g a.q b.q a.aux a.n).ze > fluxTol := by linarith
    have h2 : ¬ -(llf sq g a.q b.q a.aux a.n).ze < -fluxTol := by linarith
    rw [if_neg h1, if_neg h2]
    by_cases h3 : (llf sq g a.q b.q a.aux a.n).ze < -fluxTol
    · rw [if_pos h3, if_pos (by linarith)]
      cases a.wet <;> cases b.wet <;> simp
    · rw [if_neg h3, if_neg (by linarith)]; rfl
  · rw [hs, neg_zero, if_neg (by linarith), if_neg (by linarith), if_neg (by linarith), if_neg (by linarith)]; rfl
  · have h1 : ¬ (llf sq g a.q b.q a.aux a.n).ze < -fluxTol := by linarith
    have h2 : ¬ -(llf sq g a.q b.q a.aux a.n).ze > fluxTol := by linarith
    rw [if_neg h2]
    by_cases h3 : (llf sq g a.q b.q a.aux a.n).ze > fluxTol
    · rw [if_pos h3, if_pos (by linarith)]
      cases a.wet <;> cases b.wet <;> simp
    · rw [if_neg h3, if_neg (by linarith), if_neg h1]; rfl

theorem levee_swap (sq : K → K) (g : K) (l : LeveeGp K) (a b : Side K) : levee sq g l b a = (levee sq g l a b).swap := by
  have hx : leveeEx sq g l b a = (leveeEx sq g l a b).swap := by
    unfold leveeEx
    simp only
    by_cases h1 : (a.q.ze - l.H ≤ hTol ∧ b.q.ze - l.H ≤ hTol) ∨ |a.q.ze - l.H - (b.q.ze - l.H)| ≤ hTol
    · rw [if_pos h1, if_pos]
      · rfl
      · rcases h1 with ⟨h1, h2⟩ | h1
        · exact .inl ⟨h2, h1⟩
        · exact .inr (by rw [abs_sub_comm]; exact h1)
    · rw [if_neg h1, if_neg]
      · have hne : a.q.ze - l.H ≠ b.q.ze - l.H := by
          intro he
          apply h1
          right
          rw [he, sub_self, abs_zero]
          unfold hTol; positivity
        rcases lt_or_gt_of_ne hne with h | h
        · rw [if_pos h, if_neg (not_lt.mpr h.le)]; rfl
        · rw [if_neg (not_lt.mpr h.le), if_pos h]; rfl
      · rintro (⟨h2, h3⟩ | h2)
        · exact h1 (.inl ⟨h3, h2⟩)
        · exact h1 (.inr (by rw [abs_sub_comm]; exact h2))
  unfold levee
  simp only [hx]
  rfl

theorem swapped_flux (hsp : ∀ x, v.sp x = 1) (h : Meets v dat i) (wet : ℕ → Bool) (q : State K) {gp : ℕ} (hg : gp < (i.rule v dat).length) :
    (swapped (i.rule v dat).length i).flux v dat wet q gp = (i.flux v dat wet q ((i.rule v dat).length - gp - 1)).swap := by
  have hback : (i.rule v dat).length - ((i.rule v dat).length - gp - 1) - 1 = gp := by omega
  have e1 : (swapped (i.rule v dat).length i).flux v dat wet q gp = (match (swapped (i.rule v dat).length i).kind with
      | .internal => internal v.sq v.src.g (i.outside v dat wet q gp) (i.inside v dat wet q ((i.rule v dat).length - gp - 1))
      | .levee l => levee v.sq v.src.g (l gp) (i.outside v dat wet q gp) (i.inside v dat wet q ((i.rule v dat).length - gp - 1))) := by
    conv_lhs => unfold Iface.flux
    simp only [swapped_inside _ hsp h, swapped_outside _ hsp h, swapped_rule]
    rfl
  rw [e1]
  conv_rhs => unfold Iface.flux
  simp only [hback]
  cases hk : i.kind with
  | internal =>
    simp only [swapped, hk, turned]
    apply internal_swap
    · exact hsp _
    · exact hsp _
    · have := h.bath hk ((i.rule v dat).length - gp - 1) (by omega)
      rw [hback] at this
      exact this
    · rfl
  | levee l =>
    simp only [swapped, hk, turned]
    rw [levee_swap]

theorem swapped_in (hsp : ∀ x, v.sp x = 1) (h : Meets v dat i) (wet : ℕ → Bool) (q : State K) :
    (swapped (i.rule v dat).length i).inTerm v dat wet q = i.exTerm v dat wet q := by
  funext var dof
  unfold Iface.inTerm Iface.exTerm
  rw [swapped_rule, swapped_J _ h]
  refine intFace_congr _ _ _ _ (fun gp hg => ?_) dof
  rw [swapped_flux hsp h wet q hg]
  rfl

theorem swapped_ex (hsp : ∀ x, v.sp x = 1) (h : Meets v dat i) (wet : ℕ → Bool) (q : State K) :
    (swapped (i.rule v dat).length i).exTerm v dat wet q = i.inTerm v dat wet q := by
  funext var dof
  unfold Iface.inTerm Iface.exTerm
  rw [swapped_rule, swapped_J _ h]
  refine intFace_congr _ _ _ _ (fun gp hg => ?_) dof
  rw [swapped_flux hsp h wet q (by omega), show (i.rule v dat).length - ((i.rule v dat).length - gp - 1) - 1 = gp by omega]
  rfl

/-! ### The right-hand side -/

theorem swapped_terms (hsp : ∀ x, v.sp x = 1) (h : Meets v dat i) (wet : ℕ → Bool) (q : State K) (e : ℕ) :
    (intTerms v dat wet q e (swapped (i.rule v dat).length i)).Perm (intTerms v dat wet q e i) := by
  unfold intTerms
  rw [swapped_in hsp h, swapped_ex hsp h]
  have e1 : (swapped (Iface.rule v dat i).length i).ein = i.eex := rfl
  have e2 : (swapped (Iface.rule v dat i).length i).eex = i.ein := rfl
  have e3 : (swapped (Iface.rule v dat i).length i).fin = i.fex := rfl
  have e4 : (swapped (Iface.rule v dat i).length i).fex = i.fin := rfl
  rw [e1, e2, e3, e4]
  by_cases hw : (wet i.ein || wet i.eex) = true
  · rw [if_pos hw, if_pos (show (wet i.eex || wet i.ein) = true by rw [Bool.or_comm]; exact hw)]
    exact List.perm_append_comm
  · rw [if_neg hw, if_neg (show ¬ (wet i.eex || wet i.ein) = true by rw [Bool.or_comm]; exact hw)]

theorem reordered_terms {m m' : Mesh K} (hsp : ∀ x, v.sp x = 1) (hm : ∀ i ∈ m.ints, Meets v dat i) (hr : Reordered v dat m m') (wet : ℕ → Bool) (t ramp : K) (q : State K) (e : ℕ) :
    (faceTerms v dat m' wet t ramp q e).Perm (faceTerms v dat m wet t ramp q e) := by
  unfold faceTerms
  refine List.Perm.append ?_ (hr.bnds.flatMap_right _)
  obtain ⟨l, h1, h2⟩ := hr.ints
  refine (h2.flatMap_right _).trans ?_
  have key : ∀ {l l' : List (Iface K)}, List.Forall₂ (fun i i' => i' = i ∨ i' = swapped (i.rule v dat).length i) l l' → (∀ i ∈ l, Meets v dat i) →
      (l'.flatMap (intTerms v dat wet q e)).Perm (l.flatMap (intTerms v dat wet q e)) := by
    intro l l' h
    induction h with
    | nil => exact fun _ => List.Perm.refl _
    | cons hab _ ih =>
      intro hl
      rw [List.flatMap_cons, List.flatMap_cons]
      refine List.Perm.append ?_ (ih fun i hi => hl i (by simp [hi]))
      rcases hab with rfl | rfl
      · exact List.Perm.refl _
      · exact swapped_terms hsp (hl _ (by simp)) wet q e
  exact key h1 hm

theorem reordered_rhs {m m' : Mesh K} (hsp : ∀ x, v.sp x = 1) (hn : m.elts.Nodup) (hm : ∀ i ∈ m.ints, Meets v dat i) (hr : Reordered v dat m m') (wet : ℕ → Bool) (t ramp : K)
    (q junk : State K) : localRhs v dat m' wet t ramp q junk = localRhs v dat m wet t ramp q junk := by
  funext e
  rw [localRhs_at v dat m hn, localRhs_at v dat m' (hr.elts.nodup_iff.mpr hn), ((reordered_terms hsp hm hr wet t ramp q e).map Prod.snd).sum_eq]
  simp only [hr.elts.mem_iff]

/-! ### Wetting and drying, limiter -/

omit [IsStrictOrderedRing K] in
theorem reordered_wd {m m' : Mesh K} (hn : m.elts.Nodup) (hr : m'.elts.Perm m.elts) (w : Option (WdParams K)) (s f : Flow K) :
    wdAll dat m' w s = .ok f ↔ wdAll dat m w s = .ok f := by
  cases w with
  | none => exact Iff.rfl
  | some w =>
    simp only [wdAll]
    rw [wdFold_spec dat w _ (hr.nodup_iff.mpr hn), wdFold_spec dat w _ hn]
    refine exists_congr fun o => ?_
    have h1 : (m'.elts.any fun e => (o e).emptied) = m.elts.any fun e => (o e).emptied := by
      rw [Bool.eq_iff_iff, List.any_eq_true, List.any_eq_true]
      exact exists_congr fun e => and_congr_left fun _ => hr.mem_iff
    simp only [hr.mem_iff, h1]

omit [IsStrictOrderedRing K] in
theorem reordered_sides {m m' : Mesh K} (hr : Reordered v dat m m') : (sides (slMesh m')).Perm (sides (slMesh m)) := by
  simp only [sides, slMesh, List.flatMap_map, List.map_nil, List.append_nil]
  refine List.Perm.append ?_ (hr.bnds.map _)
  obtain ⟨l, h1, h2⟩ := hr.ints
  refine (h2.flatMap_right _).trans ?_
  clear h2
  revert h1
  generalize m.ints = l'
  intro h1
  induction h1 with
  | nil => exact List.Perm.refl _
  | cons hab _ ih =>
    rw [List.flatMap_cons, List.flatMap_cons]
    refine List.Perm.append ?_ ih
    rcases hab with rfl | rfl
    · exact List.Perm.refl _
    · exact List.Perm.swap _ _ _

omit [IsStrictOrderedRing K] in
/-- What is across a side is the same. -/
theorem reordered_across {m m' : Mesh K} (hr : Reordered v dat m m') (wet : ℕ → Bool) (q : State K) (k : ℕ × ℕ) (w : Bool) (x : V3 K)
    (h : Across (slMesh m) wet q k w x) : Across (slMesh m') wet q k w x := by
  obtain ⟨l, h1, h2⟩ := hr.ints
  have hint : ∀ i ∈ m.ints, ((i.ein, i.fin), (i.eex, i.fex)) ∈ (slMesh m').ints ∨ ((i.eex, i.fex), (i.ein, i.fin)) ∈ (slMesh m').ints := by
    intro i hi
    obtain ⟨i', hi', hab⟩ : ∃ i' ∈ l, i' = i ∨ i' = swapped (i.rule v dat).length i := by
      clear h2
      revert hi
      revert h1
      generalize m.ints = L
      intro h1 hi
      induction h1 with
      | nil => cases hi
      | cons hab _ ih =>
        rcases List.mem_cons.mp hi with rfl | hi
        · exact ⟨_, by simp, hab⟩
        · obtain ⟨i', h1, h2⟩ := ih hi
          exact ⟨i', by simp [h1], h2⟩
    have hm' := h2.mem_iff.mpr hi'
    rcases hab with rfl | rfl
    · exact .inl (List.mem_map.mpr ⟨_, hm', rfl⟩)
    · exact .inr (List.mem_map.mpr ⟨_, hm', rfl⟩)
  cases h with
  | intIn _ b h =>
    obtain ⟨i, hi, h⟩ := List.mem_map.mp h
    simp only [Prod.mk.injEq] at h
    obtain ⟨rfl, rfl⟩ := h
    rcases hint i hi with h | h
    · exact .intIn _ _ h
    · exact .intEx _ _ h
  | intEx a _ h =>
    obtain ⟨i, hi, h⟩ := List.mem_map.mp h
    simp only [Prod.mk.injEq] at h
    obtain ⟨rfl, rfl⟩ := h
    rcases hint i hi with h | h
    · exact .intEx _ _ h
    · exact .intIn _ _ h
  | bound _ h => exact .bound _ ((hr.bnds.map _).mem_iff.mpr h)
  | message _ _ _ _ h => cases h

theorem reordered_limited {m m' : Mesh K} (hr : Reordered v dat m m') (hcov : Covered m) (hdeg : ∀ e, 1 ≤ (dat e).elt.p) (p : SlParams K) (s : Flow K) :
    limited v dat m' p s = limited v dat m p s := by
  have hn3 : ∀ e, 3 ≤ ndof (dat e).elt.p := by
    intro e
    have := hdeg e
    unfold ndof
    rw [Nat.le_div_iff_mul_le (by omega)]
    nlinarith
  funext e
  unfold limited
  simp only [hr.elts.mem_iff]
  by_cases he : e ∈ m.elts
  · rw [if_pos he, if_pos he]
    have hac : ∀ b : Fin 3, ∃ w x, Across (slMesh m) s.wet s.q (e, (b : ℕ)) w x := by
      intro b
      have hk := hcov.2 e he b
      simp only [sides, slMesh, List.flatMap_map, List.map_nil, List.append_nil, List.mem_append, List.mem_flatMap, List.mem_cons, List.not_mem_nil, or_false, List.mem_map] at hk
      rcases hk with ⟨i, hi, h | h⟩ | ⟨b', hb', h⟩
      · rw [h]; exact ⟨_, _, .intIn _ (i.eex, i.fex) (List.mem_map.mpr ⟨i, hi, rfl⟩)⟩
      · rw [h]; exact ⟨_, _, .intEx (i.ein, i.fin) _ (List.mem_map.mpr ⟨i, hi, rfl⟩)⟩
      · rw [← h]; exact ⟨_, _, .bound _ (List.mem_map.mpr ⟨b', hb', rfl⟩)⟩
    choose w x h1 using hac
    rw [limiter_current v.sq v.src.g p.M p.nu p.geo (fun e => ndof (dat e).elt.p) hn3 (slMesh m) hcov.1 s.wet p.old p.store s.q e ⟨w, x⟩ h1]
    rw [limiter_current v.sq v.src.g p.M p.nu p.geo (fun e => ndof (dat e).elt.p) hn3 (slMesh m') ((reordered_sides hr).nodup_iff.mpr hcov.1) s.wet p.old p.store s.q e ⟨w, x⟩
      fun b => reordered_across hr s.wet s.q _ _ _ (h1 b)]
  · rw [if_neg he, if_neg he]

/-! ### Runs -/

theorem reordered_stage {m m' : Mesh K} (hsp : ∀ x, v.sp x = 1) (hn : m.elts.Nodup) (hm : ∀ i ∈ m.ints, Meets v dat i) (hr : Reordered v dat m m') (tab : Stepper.Tableau) (ns : ℕ)
    (dt : K) (pp : PostParams K) (hsl : pp.sl ≠ none → Covered m ∧ ∀ e, 1 ≤ (dat e).elt.p) (junk : State K) (t ramp : K) (s s' : Run K) :
    stageSerial v dat m' tab ns dt pp junk t ramp s = .ok s' ↔ stageSerial v dat m tab ns dt pp junk t ramp s = .ok s' := by
  have hslf : ∀ f, slAll v dat m' pp.sl f = slAll v dat m pp.sl f := by
    intro f
    unfold slAll
    cases hq : pp.sl with
    | none => rfl
    | some p =>
      obtain ⟨h1, h2⟩ := hsl (by rw [hq]; simp)
      simp only
      rw [reordered_limited hr h1 h2]
  unfold stageSerial stageWith
  simp only [reordered_rhs hsp hn hm hr]
  have hbind : ∀ {α β : Type} (a : Res α) (f g : α → Res β) (b : β), (∀ x, f x = .ok b ↔ g x = .ok b) → ((a >>= f) = .ok b ↔ (a >>= g) = .ok b) := by
    intro α β a f g b h
    cases a with
    | error e => exact ⟨(fun h => by cases h), (fun h => by cases h)⟩
    | ok x => exact h x
  refine hbind _ _ _ _ fun cur => hbind _ _ _ _ fun sl1 => hbind _ _ _ _ fun sl2 => hbind _ _ _ _ fun new => ?_
  simp only [hslf]
  constructor
  · intro h
    obtain ⟨f, h1, h2⟩ := bindOk h
    rw [(reordered_wd hn hr.elts pp.wd _ f).mp h1]
    exact h2
  · intro h
    obtain ⟨f, h1, h2⟩ := bindOk h
    rw [(reordered_wd hn hr.elts pp.wd _ f).mpr h1]
    exact h2

/-- C112: a run of any length, with wetting and drying and the limiter, has the same result in whatever order elements, interfaces and boundaries are visited and whichever element
is the interior one of an interface; one succeeds if and only if the other does. -/
theorem reordered_run {m m' : Mesh K} (hsp : ∀ x, v.sp x = 1) (hn : m.elts.Nodup) (hm : ∀ i ∈ m.ints, Meets v dat i) (hr : Reordered v dat m m') (tab : Stepper.Tableau) (ns : ℕ)
    (dt : K) (pp : PostParams K) (hsl : pp.sl ≠ none → Covered m ∧ ∀ e, 1 ≤ (dat e).elt.p) (junk : State K) (time ramp : ℕ → K) (n : ℕ) (s s' : Run K) :
    runSerial v dat m' tab ns dt pp junk time ramp n s = .ok s' ↔ runSerial v dat m tab ns dt pp junk time ramp n s = .ok s' := by
  induction n generalizing s' with
  | zero => exact Iff.rfl
  | succ n ih =>
    rw [runSerial_succ, runSerial_succ]
    constructor
    · intro h
      obtain ⟨x, h1, h2⟩ := bindOk h
      rw [(ih x).mp h1]
      exact (reordered_stage hsp hn hm hr tab ns dt pp hsl junk _ _ x s').mp h2
    · intro h
      obtain ⟨x, h1, h2⟩ := bindOk h
      rw [(ih x).mpr h1]
      exact (reordered_stage hsp hn hm hr tab ns dt pp hsl junk _ _ x s').mpr h2

/-! ### Cases -/

/-- The two triangles in the other order, their interface seen from the other side. -/
def twoOther : Mesh K := ⟨[1, 0], [⟨1, 0, 0, 0, .internal⟩], [⟨1, 2, .land⟩, ⟨0, 1, .land⟩, ⟨0, 2, .land⟩, ⟨1, 1, .land⟩], []⟩

theorem two_reordered (v : Env K) (dat : ℕ → EltData K) : Reordered v dat twoMesh twoOther where
  elts := List.Perm.swap _ _ _
  bnds := by
    show List.Perm [_, _, _, _] [_, _, _, _]
    exact (List.perm_middle (l₁ := [_, _, _]) (l₂ := [])).symm
  ints := ⟨[⟨1, 0, 0, 0, .internal⟩], .cons (.inr rfl) .nil, List.Perm.refl _⟩

/-- The theorem applies: two triangles over a flat bottom, any state, flags and parameters. -/
example (N : Numerics K) (sq : K → K) (tab : Stepper.Tableau) (ns : ℕ) (dt : K) (pp : PostParams K) (junk : State K)
    (time ramp : ℕ → K) (n : ℕ) (s s' : Run K) (h0 : ∀ z, N.basis.phi 0 z = 1) :
    runSerial (plainEnv N sq) (twoTris 1 fun _ d => if d = 0 then 3 else 0) twoOther tab ns dt pp junk time ramp n s = .ok s' ↔
      runSerial (plainEnv N sq) (twoTris 1 fun _ d => if d = 0 then 3 else 0) twoMesh tab ns dt pp junk time ramp n s = .ok s' := by
  have hv : ∀ (e : ℕ) (z : P2 K), (twoTris 1 (fun _ d => if d = 0 then 3 else 0) e).elt.value N (fun d => if d = 0 then 3 else 0) z = 3 := by
    intro e z
    rw [Elt.value, sum_range_list]
    rw [Finset.sum_eq_single 0]
    · simp [h0]
    · intro b _ hb; simp [hb]
    · intro h; exact absurd (Finset.mem_range.mpr (show 0 < ndof 1 by decide)) h
  refine reordered_run (fun _ => rfl) (show [0, 1].Nodup by decide) ?_ (two_reordered _ _) tab ns dt pp (fun _ => ⟨two_covered, fun _ => le_refl _⟩) junk time ramp n s s'
  intro i hi
  obtain rfl : i = ⟨0, 0, 1, 0, .internal⟩ := by simpa [twoMesh] using hi
  refine ⟨?_, ?_, ?_, fun _ gp _ => ?_⟩
  · norm_num [twoTris, jdet, Geometry.det, jac]
  · norm_num [twoTris, jdet, Geometry.det, jac]
  · norm_num [twoTris, faceVec, vertex]
  · exact (hv _ _).trans (hv _ _).symm

/-- The condition on the bathymetry is needed: where it jumps at an interface, the depth is taken from the bathymetry of the interior side, and the result depends on the choice of
sides (still water at level one, bottoms at 3 and 2). -/
theorem swap_matters : ∃ (dat : ℕ → EltData ℚ) (q : State ℚ),
    localRhs (plainEnv simpleN simpleSq) dat twoOther (fun _ => true) 0 1 q (fun _ _ _ => 0) 1 1 0 ≠
      localRhs (plainEnv simpleN simpleSq) dat twoMesh (fun _ => true) 0 1 q (fun _ _ _ => 0) 1 1 0 :=
  ⟨twoTris 1 fun e d => if d = 0 then (if e = 0 then 3 else 2) else 0, fun _ var d => if var = 0 ∧ d = 0 then 1 else 0, by decide +kernel⟩

end Verif.Swe.Props
