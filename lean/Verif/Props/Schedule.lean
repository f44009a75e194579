import Verif.Lemmas.ScheduleText
import Mathlib.Algebra.BigOperators.Fin
import Mathlib.Data.Fintype.BigOperators
import Mathlib.Order.WellFounded
import Mathlib.Algebra.Order.BigOperators.Group.Finset

/-!
# C131: every interleaving of ranks and threads ends, and gives the result of the lockstep run
-/

namespace Verif.Schedule.Props

open Verif.Schedule

variable {U R T C M B : Type} [DecidableEq U] [DecidableEq R] [DecidableEq T] [DecidableEq C]

/-- What holds whenever the threads have done `done`. -/
structure Inv (tm : Team U R T C) (phs : List (Phase U C M B)) (init : U → Loc U C M B)
    (done : T → List (Op U C M B)) (s : St U R T C M B) : Prop where
  text : ∀ t, done t ++ s.rest t = code tm phs t
  loc : ∀ t, ∀ u ∈ tm.units t,
    s.loc u = lock tm ((lines 0 phs).take ((done t).countP (isUnit u))) init u
  clock : ∀ t, s.clock (tm.rank t) = (done (tm.master (tm.rank t))).countP isTick
  arr : ∀ t, s.arrived t = (done t).countP isArrive
  bar : ∀ t t', tm.rank t = tm.rank t' → (done t).countP isLeave ≤ (done t').countP isArrive

omit [DecidableEq R] in
theorem inv_start (tm : Team U R T C) (phs : List (Phase U C M B)) (init : U → Loc U C M B) :
    Inv tm phs init (fun _ => []) (start tm phs init) := by
  refine ⟨fun t => rfl, fun t u _ => rfl, fun t => rfl, fun t => rfl, fun t t' _ => by simp⟩

omit [DecidableEq U] [DecidableEq C] in
/-- The line a unit is at. -/
theorem line_at {phs a b : List (Phase U C M B)} {o1 o2 : List (UOp U C M B)} {o : UOp U C M B}
    (h : phs = a ++ .each (o1 ++ o :: o2) :: b) :
    (lines 0 phs).take ((lines 0 a).length + o1.length) =
      lines 0 a ++ o1.map (fun x => (masters a, x)) ∧
    (lines 0 phs).take ((lines 0 a).length + o1.length + 1) =
      lines 0 a ++ o1.map (fun x => (masters a, x)) ++ [(masters a, o)] ∧
    ∃ r, lines 0 phs = lines 0 a ++ o1.map (fun x => (masters a, x)) ++ (masters a, o) :: r := by
  have e : lines 0 phs = (lines 0 a ++ o1.map (fun x => (masters a, x))) ++ (masters a, o) ::
      (o2.map (fun x => (masters a, x)) ++ lines (masters a) b) := by
    rw [h, lines_append]
    simp [lines]
  have hl : (lines 0 a).length + o1.length =
      (lines 0 a ++ o1.map (fun x => (masters a, x))).length := by simp
  refine ⟨?_, ?_, _, e⟩
  · rw [e, hl, List.take_left']; rfl
  · rw [e, hl, List.take_length_add_append]; rfl

omit [DecidableEq U] in
/-- The order of the requests at the line a unit is at. -/
theorem order_at {phs a b : List (Phase U C M B)} {o1 o2 : List (UOp U C M B)} {o : UOp U C M B}
    (hs : Sound phs) (h : phs = a ++ .each (o1 ++ o :: o2) :: b) (c : C) :
    checked c idleFlags (((lines 0 phs).take ((lines 0 a).length + o1.length)).map Prod.snd) = true ∧
    okay c (flags c idleFlags
      (((lines 0 phs).take ((lines 0 a).length + o1.length)).map Prod.snd)) o = true := by
  obtain ⟨e1, -, r, e2⟩ := line_at h
  have := hs.order c
  rw [e2, List.map_append, checked_append, Bool.and_eq_true] at this
  rw [e1]
  refine ⟨this.1, ?_⟩
  have h2 := this.2
  simp only [List.map_cons, checked, Bool.and_eq_true] at h2
  exact h2.1

omit [DecidableEq U] [DecidableEq R] [DecidableEq T] in
theorem checked_take {phs : List (Phase U C M B)} (hs : Sound phs) (c : C) (k : ℕ) :
    checked c idleFlags (((lines 0 phs).take k).map Prod.snd) = true := by
  have := hs.order c
  rw [← List.take_append_drop k (lines 0 phs), List.map_append, checked_append, Bool.and_eq_true] at this
  exact this.1

omit [DecidableEq R] [DecidableEq T] in
/-- Nothing undefined is done. -/
theorem legal_at {tm : Team U R T C} {phs a b : List (Phase U C M B)} {o1 o2 : List (UOp U C M B)}
    {o : UOp U C M B} {init : U → Loc U C M B} (hi : ∀ u, idle (init u)) (hs : Sound phs)
    (h : phs = a ++ .each (o1 ++ o :: o2) :: b) (u : U) :
    legal o (lock tm ((lines 0 phs).take ((lines 0 a).length + o1.length)) init u) = true := by
  have key : ∀ c, Agree tm u c _ _ ∧ okay c _ o = true := fun c =>
    ⟨agree_lock tm init hi c _ (order_at hs h c).1 u, (order_at hs h c).2⟩
  cases o with
  | work f => rfl
  | post c => simp only [legal]; rw [(key c).1.rAct]; simpa [okay] using (key c).2
  | pack c f => simp only [legal]; rw [(key c).1.sAct]; simpa [okay] using (key c).2
  | send c =>
    simp only [legal]; rw [(key c).1.sAct]
    have := (key c).2
    simp only [okay, if_true, Bool.and_eq_true] at this
    exact this.1
  | waitR c => rfl
  | take c f => simp only [legal]; rw [(key c).1.rAct]; simpa [okay] using (key c).2
  | waitS c => rfl

theorem prefix_get {α : Type} {l m : List α} (h : l <+: m) {i : ℕ} (hi : i < l.length) : l[i]? = m[i]? := by
  obtain ⟨z, rfl⟩ := h
  rw [List.getElem?_append_left hi]

omit [DecidableEq R] in
/-- In a loop the stepper shows what the text says. -/
theorem clock_at {tm : Team U R T C} {phs : List (Phase U C M B)} {init : U → Loc U C M B}
    {done : T → List (Op U C M B)} {s : St U R T C M B} (ho : Own tm) (hs : Sound phs)
    (inv : Inv tm phs init done s) {t : T} {a b : List (Phase U C M B)} {ops : List (UOp U C M B)}
    (h : phs = a ++ .each ops :: b) (hb : Behind tm t a (done t)) :
    s.clock (tm.rank t) = masters a := by
  have hr : tm.rank (tm.master (tm.rank t)) = tm.rank t := ho.master _ ⟨t, rfl⟩
  obtain ⟨a', b', e, hb'⟩ := behind_of_text tm ho.nodup (tm.master (tm.rank t)) phs _ _
    (inv.text (tm.master (tm.rank t)))
  rw [inv.clock t, hb'.tk (by rw [hr])]
  refine same_clock hs.guard h e ?_ ?_
  · rw [← hb.lv, ← hb'.arr]; exact inv.bar _ _ hr.symm
  · rw [← hb'.lv, ← hb.arr]; exact inv.bar _ _ hr

/-- Every move keeps the invariant. -/
theorem inv_step {tm : Team U R T C} {phs : List (Phase U C M B)} {init : U → Loc U C M B}
    {done : T → List (Op U C M B)} {s s' : St U R T C M B} (ho : Own tm) (hs : Sound phs)
    (hi : ∀ u, idle (init u)) (inv : Inv tm phs init done s) (h : Move tm s s') :
    ∃ done', Inv tm phs init done' s' := by
  obtain ⟨t, h⟩ := h
  cases hr : s.rest t with
  | nil => simp [step, hr] at h
  | cons op r =>
    have htx := inv.text t
    rw [hr] at htx
    obtain ⟨a, hat⟩ := at_of_text tm ho.nodup t phs _ op r htx
    have htext : ∀ s'' : St U R T C M B, s''.rest = Function.update s.rest t r →
        ∀ t', Function.update done t (done t ++ [op]) t' ++ s''.rest t' = code tm phs t' := by
      intro s'' e t'
      rw [e]
      by_cases ht : t' = t
      · subst ht; simp only [Function.update_self, List.append_assoc, List.singleton_append]; exact htx
      · simp only [Function.update_of_ne ht]; exact inv.text t'
    have hcount : ∀ (p : Op U C M B → Bool) (t' : T), p op = false →
        (Function.update done t (done t ++ [op]) t').countP p = (done t').countP p := by
      intro p t' hp
      by_cases ht : t' = t
      · subst ht; simp [List.countP_append, hp]
      · simp only [Function.update_of_ne ht]
    refine ⟨Function.update done t (done t ++ [op]), ?_⟩
    cases hat with
    | unit _ b o1 o2 u o hphs hu hk hb =>
      simp only [step, hr] at h
      split at h
      · rename_i hleg
        split at h
        · rename_i hrdy
          simp only [Out.next.injEq] at h
          subst h
          refine ⟨htext _ rfl, ?_, ?_, ?_, ?_⟩
          · intro t' u' hu'
            by_cases hue : u' = u
            · subst hue
              have ht : t' = t := ho.unique _ _ _ hu' hu
              subst ht
              simp only [Function.update_self]
              obtain ⟨l1, l2, -⟩ := line_at hphs
              have hc : ((done t' ++ [Op.unit u' o]).countP (isUnit u')) =
                  (lines 0 a).length + o1.length + 1 := by
                rw [List.countP_append, hk]; simp [isUnit]
              rw [hc, l2, lock_append, ← l1]
              change eff tm o u' (s.clock (tm.rank t')) s.loc = eff tm o u' (masters a) _
              rw [clock_at ho hs inv hphs hb]
              have hown : s.loc u' = lock tm ((lines 0 phs).take ((lines 0 a).length + o1.length)) init u' := by
                rw [inv.loc t' u' hu', hk]
              refine eff_congr tm o u' _ _ _ hown ?_
              intro c hoc hact v hv
              subst hoc
              obtain ⟨g1, g2⟩ := order_at hs hphs c
              have ag := agree_lock tm init hi c _ g1 u'
              have agv := agree_lock tm init hi c _ g1 v
              simp only [okay, if_true, Bool.and_eq_true] at g2
              rw [← hown] at hact
              simp only [ready, hact, Bool.not_true, Bool.false_or, List.all_eq_true,
                decide_eq_true_eq] at hrdy
              have r1 := hrdy v hv
              obtain ⟨tv, hvt⟩ := ho.owner v
              rw [inv.loc tv v hvt, hown] at r1
              rw [inv.loc tv v hvt]
              have r2 : ((lock tm ((lines 0 phs).take ((lines 0 a).length + o1.length)) init u').com c).recvd <
                  (((lock tm ((lines 0 phs).take ((lines 0 a).length + o1.length)) init v).com c).out u').length := by
                have e1 := agv.len u' (ho.symm _ _ hv)
                have e2 := agv.started
                have e3 := ag.started
                have e4 := ag.balS
                rw [g2.2, Bool.toNat_true] at e4
                omega
              rcases Nat.le_total ((done tv).countP (isUnit v)) ((lines 0 a).length + o1.length) with hle | hle
              · exact prefix_get (grows_take tm (lines 0 phs) init v hle c u') r1
              · exact (prefix_get (grows_take tm (lines 0 phs) init v hle c u') r2).symm
            · simp only [Function.update_of_ne hue]
              rw [hcount (isUnit u') t' (by simp only [isUnit, decide_eq_false_iff_not]; exact fun e => hue e.symm)]
              exact inv.loc t' u' hu'
          · intro t'; rw [hcount _ _ rfl]; exact inv.clock t'
          · intro t'; rw [hcount _ _ rfl]; exact inv.arr t'
          · intro t' t'' hrk; rw [hcount _ _ rfl, hcount _ _ rfl]; exact inv.bar t' t'' hrk
        · cases h
      · cases h
    | arrive _ b hphs hb =>
      simp only [step, hr, Out.next.injEq] at h
      subst h
      refine ⟨htext _ rfl, ?_, ?_, ?_, ?_⟩
      · intro t' u' hu'; rw [hcount _ _ rfl]; exact inv.loc t' u' hu'
      · intro t'; rw [hcount _ _ rfl]; exact inv.clock t'
      · intro t'
        by_cases ht : t' = t
        · subst ht
          simp only [Function.update_self, List.countP_append]
          rw [inv.arr t']; simp [isArrive]
        · simp only [Function.update_of_ne ht]; exact inv.arr t'
      · intro t' t'' hrk
        rw [hcount isLeave _ rfl]
        refine (inv.bar t' t'' hrk).trans ?_
        by_cases ht : t'' = t
        · subst ht; simp [List.countP_append]
        · simp only [Function.update_of_ne ht]; exact le_refl _
    | leave _ b hphs hb =>
      simp only [step, hr] at h
      split at h
      · rename_i hall
        simp only [Out.next.injEq] at h
        subst h
        refine ⟨htext _ rfl, ?_, ?_, ?_, ?_⟩
        · intro t' u' hu'; rw [hcount _ _ rfl]; exact inv.loc t' u' hu'
        · intro t'; rw [hcount _ _ rfl]; exact inv.clock t'
        · intro t'; rw [hcount _ _ rfl]; exact inv.arr t'
        · intro t' t'' hrk
          rw [hcount isArrive _ rfl]
          by_cases ht : t' = t
          · subst ht
            simp only [Function.update_self, List.countP_append]
            simp only [List.all_eq_true, decide_eq_true_eq] at hall
            have h1 := hall t'' ((ho.crew _ _).mpr hrk.symm)
            rw [inv.arr, inv.arr, hb.arr] at h1
            have h2 := guarded_leave (by rw [← hphs]; exact hs.guard)
            rw [hb.lv]
            simp [isLeave]
            omega
          · simp only [Function.update_of_ne ht]; exact inv.bar t' t'' hrk
      · cases h
    | tick _ b hphs hb hm =>
      simp only [step, hr, Out.next.injEq] at h
      subst h
      refine ⟨htext _ rfl, ?_, ?_, ?_, ?_⟩
      · intro t' u' hu'; rw [hcount _ _ rfl]; exact inv.loc t' u' hu'
      · intro t'
        by_cases hrk : tm.rank t' = tm.rank t
        · simp only [hrk, Function.update_self]
          have e := inv.clock t
          rw [← hm] at e ⊢
          simp only [Function.update_self, List.countP_append]
          rw [e]; simp [isTick]
        · simp only [Function.update_of_ne hrk]
          have hne : tm.master (tm.rank t') ≠ t := by
            intro e
            apply hrk
            rw [← e, ho.master _ ⟨t', rfl⟩]
          simp only [Function.update_of_ne hne]
          exact inv.clock t'
      · intro t'; rw [hcount _ _ rfl]; exact inv.arr t'
      · intro t' t'' hrk; rw [hcount _ _ rfl, hcount _ _ rfl]; exact inv.bar t' t'' hrk

theorem inv_reach {tm : Team U R T C} {phs : List (Phase U C M B)} {init : U → Loc U C M B}
    {s : St U R T C M B} (ho : Own tm) (hs : Sound phs) (hi : ∀ u, idle (init u))
    (h : Reach tm phs init s) : ∃ done, Inv tm phs init done s := by
  induction h with
  | refl => exact ⟨_, inv_start tm phs init⟩
  | tail _ hm ih => obtain ⟨done, inv⟩ := ih; exact inv_step ho hs hi inv hm

/-! ## The claims -/

/-- All threads have come to the end. -/
def Finished (s : St U R T C M B) : Prop := ∀ t, s.rest t = []

/-- **C131.** Whatever the schedule, no request is started twice, no buffer is written while it is being
sent and no buffer is read while it is being received. -/
theorem never_ub {tm : Team U R T C} {phs : List (Phase U C M B)} {init : U → Loc U C M B}
    {s : St U R T C M B} (ho : Own tm) (hs : Sound phs) (hi : ∀ u, idle (init u))
    (h : Reach tm phs init s) (t : T) : step tm t s ≠ .ub := by
  obtain ⟨done, inv⟩ := inv_reach ho hs hi h
  intro hu
  cases hr : s.rest t with
  | nil => simp [step, hr] at hu
  | cons op r =>
    have htx := inv.text t
    rw [hr] at htx
    obtain ⟨a, hat⟩ := at_of_text tm ho.nodup t phs _ op r htx
    cases hat with
    | unit _ b o1 o2 u o hphs hum hk hb =>
      have hl : legal o (s.loc u) = true := by
        rw [inv.loc t u hum, hk]; exact legal_at hi hs hphs u
      simp only [step, hr] at hu
      rw [if_pos hl] at hu
      split at hu <;> cases hu
    | arrive _ b hphs hb => simp [step, hr] at hu
    | leave _ b hphs hb => simp only [step, hr] at hu; split at hu <;> cases hu
    | tick _ b hphs hb hm => simp [step, hr] at hu

/-- **C131.** Nobody looks at the stepper of a rank while its master thread advances it: when the next
operation of one thread is the advance, no other thread of the rank is inside a loop. -/
theorem stepper_alone {tm : Team U R T C} {phs : List (Phase U C M B)} {init : U → Loc U C M B}
    {s : St U R T C M B} (ho : Own tm) (hs : Sound phs) (hi : ∀ u, idle (init u))
    (h : Reach tm phs init s) {t t' : T} {r r' : List (Op U C M B)} {u : U} {o : UOp U C M B}
    (ht : s.rest t = .tick :: r) (ht' : s.rest t' = .unit u o :: r') : tm.rank t' ≠ tm.rank t := by
  obtain ⟨done, inv⟩ := inv_reach ho hs hi h
  intro hrk
  have h1 := inv.text t
  have h2 := inv.text t'
  rw [ht] at h1
  rw [ht'] at h2
  obtain ⟨a, hat⟩ := at_of_text tm ho.nodup t phs _ _ _ h1
  obtain ⟨a', hat'⟩ := at_of_text tm ho.nodup t' phs _ _ _ h2
  cases hat with
  | tick _ b hphs hb hm =>
    cases hat' with
    | unit _ b' o1 o2 _ _ hphs' hum hk hb' =>
      obtain ⟨g1, g2⟩ := guarded_master (by rw [← hphs]; exact hs.guard)
      obtain ⟨g3, g4⟩ := guarded_each (by rw [← hphs']; exact hs.guard)
      have e1 := inv.bar t t' hrk.symm
      have e2 := inv.bar t' t hrk
      rw [hb.lv, hb'.arr] at e1
      rw [hb'.lv, hb.arr] at e2
      omega

/-- The advance is made by the master thread of the rank, and by nobody else. -/
theorem tick_master {tm : Team U R T C} {phs : List (Phase U C M B)} {init : U → Loc U C M B}
    {s : St U R T C M B} (ho : Own tm) (hs : Sound phs) (hi : ∀ u, idle (init u))
    (h : Reach tm phs init s) {t : T} {r : List (Op U C M B)} (ht : s.rest t = .tick :: r) :
    t = tm.master (tm.rank t) := by
  obtain ⟨done, inv⟩ := inv_reach ho hs hi h
  have h1 := inv.text t
  rw [ht] at h1
  obtain ⟨a, hat⟩ := at_of_text tm ho.nodup t phs _ _ _ h1
  cases hat with
  | tick _ b hphs hb hm => exact hm

omit [DecidableEq U] [DecidableEq R] [DecidableEq T] in
/-- The sends before a loop that waits for the receives. -/
theorem sends_before {phs a b : List (Phase U C M B)} {o1 o2 : List (UOp U C M B)} {c : C}
    (hs : Sound phs) (h : phs = a ++ .each (o1 ++ .waitR c :: o2) :: b) : o1.countP (isSend c) = 0 := by
  have h1 := hs.apart c (.each (o1 ++ .waitR c :: o2)) (by rw [h]; simp)
  simp only [apart, Bool.and_eq_true] at h1
  have h2 := h1.1
  have h3 : (o1 ++ UOp.waitR c :: o2).any (isWaitR c) = true := by simp [isWaitR]
  rw [h3] at h2
  simp only [Bool.not_true, Bool.false_or, Bool.not_eq_true', List.any_eq_false] at h2
  refine countP_zero _ _ fun x hx => ?_
  have := h2 x (List.mem_append_left _ hx)
  simpa using this

omit [DecidableEq U] [DecidableEq R] [DecidableEq T] in
/-- The receives before a loop that waits for the sends. -/
theorem posts_before {phs a b : List (Phase U C M B)} {o1 o2 : List (UOp U C M B)} {c : C}
    (hs : Sound phs) (h : phs = a ++ .each (o1 ++ .waitS c :: o2) :: b) : o1.countP (isPost c) = 0 := by
  have h1 := hs.apart c (.each (o1 ++ .waitS c :: o2)) (by rw [h]; simp)
  simp only [apart, Bool.and_eq_true] at h1
  have h2 := h1.2
  have h3 : (o1 ++ UOp.waitS c :: o2).any (isWaitS c) = true := by simp [isWaitS]
  rw [h3] at h2
  simp only [Bool.not_true, Bool.false_or, Bool.not_eq_true', List.any_eq_false] at h2
  refine countP_zero _ _ fun x hx => ?_
  have := h2 x (List.mem_append_left _ hx)
  simpa using this

omit [DecidableEq U] [DecidableEq R] [DecidableEq T] [DecidableEq C] in
theorem snd_lines_count (p : UOp U C M B → Bool) (phs a b : List (Phase U C M B)) (h : phs = a ++ b) (k : ℕ)
    (hk : (lines 0 a).length ≤ k) :
    ((lines 0 a).map Prod.snd).countP p ≤ (((lines 0 phs).take k).map Prod.snd).countP p := by
  have e : (lines 0 phs).take k = lines 0 a ++ (lines (0 + masters a) b).take (k - (lines 0 a).length) := by
    rw [h, lines_append, List.take_append, List.take_of_length_le hk]
  rw [e, List.map_append, List.countP_append]
  omega

/-- **C131.** No schedule gets stuck: unless all threads have come to the end, one of them can go on. -/
theorem never_stuck {tm : Team U R T C} {phs : List (Phase U C M B)} {init : U → Loc U C M B}
    {s : St U R T C M B} (ho : Own tm) (hs : Sound phs) (hi : ∀ u, idle (init u))
    (h : Reach tm phs init s) (hf : ¬ Finished s) : ∃ s', Move tm s s' := by
  classical
  obtain ⟨done, inv⟩ := inv_reach ho hs hi h
  -- the thread that is furthest behind
  have hex : ∃ n, ∃ t op r a, s.rest t = op :: r ∧ At tm t phs (done t) op a ∧ a.length = n := by
    simp only [Finished, not_forall] at hf
    obtain ⟨t, ht⟩ := hf
    cases hr : s.rest t with
    | nil => exact absurd hr ht
    | cons op r =>
      have htx := inv.text t
      rw [hr] at htx
      obtain ⟨a, hat⟩ := at_of_text tm ho.nodup t phs _ op r htx
      exact ⟨a.length, t, op, r, a, hr, hat, rfl⟩
  obtain ⟨t, op, r, a, hr, hat, hlen⟩ := Nat.find_spec hex
  have hmin : ∀ t', ∃ z b', phs = (a ++ z) ++ b' ∧ Behind tm t' (a ++ z) (done t') := by
    intro t'
    have hpa : ∃ ph b, phs = a ++ ph :: b := hat.behind.2
    obtain ⟨ph, b, hpa⟩ := hpa
    have : ∃ a' b', phs = a' ++ b' ∧ Behind tm t' a' (done t') ∧ a.length ≤ a'.length := by
      cases hr' : s.rest t' with
      | nil =>
        have htx := inv.text t'
        rw [hr', List.append_nil] at htx
        refine ⟨phs, [], by simp, ?_, by rw [hpa]; simp⟩
        have := behind_code tm ho.nodup t' phs [] (by simp)
        rwa [List.append_nil, ← htx] at this
      | cons op' r' =>
        have htx := inv.text t'
        rw [hr'] at htx
        obtain ⟨a', hat'⟩ := at_of_text tm ho.nodup t' phs _ op' r' htx
        obtain ⟨hb', ph', b', e'⟩ := hat'.behind
        refine ⟨a', _, e', hb', ?_⟩
        rw [hlen]
        exact Nat.find_min' hex ⟨t', op', r', a', hr', hat', rfl⟩
    obtain ⟨a', b', e', hb', hl⟩ := this
    have hpre : a <+: a' := List.prefix_of_prefix_length_le
      (⟨_, hpa.symm⟩ : a <+: phs) ⟨_, e'.symm⟩ hl
    obtain ⟨z, rfl⟩ := hpre
    exact ⟨z, b', e', hb'⟩
  have hcom : ∀ v c, ∀ p : UOp U C M B → Bool, ∃ tv, v ∈ tm.units tv ∧
      ((lines 0 a).map Prod.snd).countP p ≤
        (((lines 0 phs).take ((done tv).countP (isUnit v))).map Prod.snd).countP p ∧
      Agree tm v c (((lines 0 phs).take ((done tv).countP (isUnit v))).map Prod.snd) ((s.loc v).com c) := by
    intro v c p
    obtain ⟨tv, hv⟩ := ho.owner v
    obtain ⟨z, b', e', hb'⟩ := hmin tv
    refine ⟨tv, hv, ?_, ?_⟩
    · refine snd_lines_count p phs a (z ++ b') (by rw [e']; simp) _ ?_
      refine le_trans ?_ (hb'.un v hv)
      rw [lines_append]; simp
    · rw [inv.loc tv v hv]
      exact agree_lock tm init hi c _ (checked_take hs c _) v
  cases hat with
  | unit _ b o1 o2 u o hphs hum hk hb =>
    have hown := inv.loc t u hum
    rw [hk] at hown
    have hl : legal o (s.loc u) = true := by rw [hown]; exact legal_at hi hs hphs u
    have hrdy : ready tm o u s.loc = true := by
      cases o with
      | waitR c =>
        obtain ⟨g1, g2⟩ := order_at hs hphs c
        have ag := agree_lock tm init hi c _ g1 u
        rw [← hown] at ag
        simp only [okay, if_true, Bool.and_eq_true] at g2
        simp only [ready, Bool.or_eq_true, List.all_eq_true, decide_eq_true_eq]
        right
        intro v hv
        obtain ⟨tv, -, hc, agv⟩ := hcom v c (isSend c)
        rw [agv.len u (ho.symm _ _ hv), agv.started]
        have e1 := ag.balS
        rw [g2.2, Bool.toNat_true, ag.started, (line_at hphs).1, List.map_append, List.countP_append,
          List.map_map] at e1
        have e2 : (o1.map (Prod.snd ∘ fun x => (masters a, x))).countP (isSend c) = 0 := by
          have : (Prod.snd ∘ fun x : UOp U C M B => (masters a, x)) = id := rfl
          rw [this, List.map_id]; exact sends_before hs hphs
        omega
      | waitS c =>
        obtain ⟨g1, g2⟩ := order_at hs hphs c
        have ag := agree_lock tm init hi c _ g1 u
        rw [← hown] at ag
        simp only [okay, if_true, Bool.and_eq_true] at g2
        simp only [ready, Bool.or_eq_true, List.all_eq_true, decide_eq_true_eq]
        right
        intro v hv
        obtain ⟨tv, -, hc, agv⟩ := hcom v c (isPost c)
        rw [agv.posted]
        have e1 := ag.balS
        have e3 := ag.balP
        rw [ag.posted, (line_at hphs).1, List.map_append, List.countP_append,
          List.map_map] at e3
        have e2 : (o1.map (Prod.snd ∘ fun x => (masters a, x))).countP (isPost c) = 0 := by
          have : (Prod.snd ∘ fun x : UOp U C M B => (masters a, x)) = id := rfl
          rw [this, List.map_id]; exact posts_before hs hphs
        rw [(line_at hphs).1, List.map_append, List.map_map] at g2 e1
        have e4 : ∀ f : Flags, (f.rA = true ∨ (!f.nw) = true) → f.nw.toNat ≤ f.rA.toNat := by
          rintro ⟨x, y, z⟩ h; cases x <;> cases z <;> simp_all
        have e5 := e4 _ ((Bool.or_eq_true _ _).mp g2.2)
        omega
      | _ => rfl
    exact ⟨_, t, by simp only [step, hr]; rw [if_pos hl, if_pos hrdy]⟩
  | arrive _ b hphs hb => exact ⟨_, t, by simp only [step, hr]; rfl⟩
  | leave _ b hphs hb =>
    refine ⟨{ s with rest := Function.update s.rest t r }, t, ?_⟩
    simp only [step, hr]
    rw [if_pos]
    simp only [List.all_eq_true, decide_eq_true_eq]
    intro t' _
    obtain ⟨z, b', e', hb'⟩ := hmin t'
    rw [inv.arr, inv.arr, hb.arr, hb'.arr, arrives_append]
    omega
  | tick _ b hphs hb hm => exact ⟨_, t, by simp only [step, hr]; rfl⟩

/-- **C131.** Whatever the schedule, at the end every unit is what it is after the lockstep run: its
memory, its buffers and the messages it has sent. -/
theorem same_result {tm : Team U R T C} {phs : List (Phase U C M B)} {init : U → Loc U C M B}
    {s : St U R T C M B} (ho : Own tm) (hs : Sound phs) (hi : ∀ u, idle (init u))
    (h : Reach tm phs init s) (hf : Finished s) : s.loc = lock tm (lines 0 phs) init := by
  obtain ⟨done, inv⟩ := inv_reach ho hs hi h
  funext u
  obtain ⟨t, hu⟩ := ho.owner u
  have htx := inv.text t
  rw [hf t, List.append_nil] at htx
  rw [inv.loc t u hu, htx, count_unit tm ho.nodup phs t u hu 0, List.take_length]

/-- Whatever the schedule, at the end every stepper has been advanced as often as the text says. -/
theorem same_clocks {tm : Team U R T C} {phs : List (Phase U C M B)} {init : U → Loc U C M B}
    {s : St U R T C M B} (ho : Own tm) (hs : Sound phs) (hi : ∀ u, idle (init u))
    (h : Reach tm phs init s) (hf : Finished s) (t : T) : s.clock (tm.rank t) = masters phs := by
  obtain ⟨done, inv⟩ := inv_reach ho hs hi h
  have htx := inv.text (tm.master (tm.rank t))
  rw [hf, List.append_nil] at htx
  rw [inv.clock t, htx, count_tick]
  rw [ho.master _ ⟨t, rfl⟩]

/-- Every move uses up one operation. -/
theorem move_shorter [Fintype T] {tm : Team U R T C} {s s' : St U R T C M B} (h : Move tm s s') :
    ∑ t, (s'.rest t).length + 1 = ∑ t, (s.rest t).length := by
  obtain ⟨t, h⟩ := h
  have key : ∀ op r, s.rest t = op :: r → s'.rest = Function.update s.rest t r →
      ∑ t, (s'.rest t).length + 1 = ∑ t, (s.rest t).length := by
    intro op r hr e
    rw [e, ← Finset.add_sum_erase _ _ (Finset.mem_univ t),
      ← Finset.add_sum_erase Finset.univ (fun t => (s.rest t).length) (Finset.mem_univ t), hr]
    simp only [Function.update_self, List.length_cons]
    rw [Finset.sum_congr rfl fun x hx => by
      rw [Function.update_of_ne (Finset.ne_of_mem_erase hx)]]
    omega
  cases hr : s.rest t with
  | nil => simp [step, hr] at h
  | cons op r =>
    refine key op r hr ?_
    cases op with
    | unit u o =>
      simp only [step, hr] at h
      split at h
      · split at h
        · simp only [Out.next.injEq] at h; rw [← h]
        · cases h
      · cases h
    | arrive => simp only [step, hr, Out.next.injEq] at h; rw [← h]
    | leave =>
      simp only [step, hr] at h
      split at h
      · simp only [Out.next.injEq] at h; rw [← h]
      · cases h
    | tick => simp only [step, hr, Out.next.injEq] at h; rw [← h]

/-- **C131.** Every schedule ends: a run cannot take more moves than the threads have operations. -/
theorem always_ends [Fintype T] (tm : Team U R T C) (s : ℕ → St U R T C M B) (n : ℕ)
    (h : ∀ i < n, Move tm (s i) (s (i + 1))) : n ≤ ∑ t, ((s 0).rest t).length := by
  have : ∀ k ≤ n, ∑ t, ((s k).rest t).length + k = ∑ t, ((s 0).rest t).length := by
    intro k
    induction k with
    | zero => intro _; rfl
    | succ k ih =>
      intro hk
      have h1 := ih (by omega)
      have h2 := move_shorter (h k (by omega))
      omega
  have := this n le_rfl
  omega

/-- **C131.** From every state a schedule leads to, the run can be brought to its end, and every way of
doing so gives the same units. -/
theorem completes [Fintype T] {tm : Team U R T C} {phs : List (Phase U C M B)} {init : U → Loc U C M B}
    {s : St U R T C M B} (ho : Own tm) (hs : Sound phs) (hi : ∀ u, idle (init u))
    (h : Reach tm phs init s) :
    ∃ s', Relation.ReflTransGen (Move tm) s s' ∧ Finished s' ∧ s'.loc = lock tm (lines 0 phs) init := by
  generalize hn : ∑ t, (s.rest t).length = n
  induction n generalizing s with
  | zero =>
    have hf : Finished s := by
      intro t
      have := Finset.sum_eq_zero_iff.mp hn t (Finset.mem_univ t)
      exact List.length_eq_zero_iff.mp this
    exact ⟨s, Relation.ReflTransGen.refl, hf, same_result ho hs hi h hf⟩
  | succ n ih =>
    by_cases hf : Finished s
    · exact ⟨s, Relation.ReflTransGen.refl, hf, same_result ho hs hi h hf⟩
    · obtain ⟨s1, h1⟩ := never_stuck ho hs hi h hf
      have := move_shorter h1
      obtain ⟨s', h2, h3, h4⟩ := ih (h.tail h1) (by omega)
      exact ⟨s', Relation.ReflTransGen.head h1 h2, h3, h4⟩

end Verif.Schedule.Props
