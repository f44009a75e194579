import Verif.Model.GnSchedule
import Verif.Props.ScheduleRun

/-!
# C138: the Green-Naghdi program under every schedule

The text of the step, with its messages and its collective operations, is in order for every method for
the derivatives; hence every interleaving of the threads of all ranks ends, does nothing undefined, and
leaves what the statements, taken one after the other by all units together, make of the memories.
-/

namespace Verif.GnSchedule.Props

open Verif.Schedule Verif.Schedule.Props

variable {U R T C M B : Type} [DecidableEq U] [DecidableEq R] [DecidableEq T] [DecidableEq C]

/-! ## Statements after some advances of the steppers -/

omit [DecidableEq U] in
theorem flag_later (k : ℕ) (c : C) (f : Flags) (o : UOp U C M B) : flag c f (laterOp k o) = flag c f o := by
  cases o <;> rfl

omit [DecidableEq U] in
theorem okay_later (k : ℕ) (c : C) (f : Flags) (o : UOp U C M B) : okay c f (laterOp k o) = okay c f o := by
  cases o <;> rfl

omit [DecidableEq U] in
theorem flags_later (k : ℕ) (c : C) (l : List (UOp U C M B)) (f : Flags) :
    flags c f (l.map (laterOp k)) = flags c f l := by
  induction l generalizing f with
  | nil => rfl
  | cons o l ih =>
    show flags c (flag c f (laterOp k o)) (l.map (laterOp k)) = flags c (flag c f o) l
    rw [flag_later, ih]

omit [DecidableEq U] in
theorem checked_later (k : ℕ) (c : C) (l : List (UOp U C M B)) (f : Flags) :
    checked c f (l.map (laterOp k)) = checked c f l := by
  induction l generalizing f with
  | nil => rfl
  | cons o l ih =>
    show (okay c f (laterOp k o) && checked c (flag c f (laterOp k o)) (l.map (laterOp k))) = _
    rw [flag_later, okay_later, ih]
    rfl

omit [DecidableEq U] [DecidableEq C] in
theorem body_later (k : ℕ) (a : List (Phase U C M B)) : body (a.map (later k)) = (body a).map (laterOp k) := by
  unfold body
  generalize 0 = n
  induction a generalizing n with
  | nil => rfl
  | cons p a ih =>
    cases p with
    | each ops => simp [lines, later, ih n, List.map_map, Function.comp_def]
    | arrive => exact ih n
    | leave => exact ih n
    | master => exact ih (n + 1)

omit [DecidableEq U] in
theorem apart_later (k : ℕ) (c : C) (p : Phase U C M B) : apart c (later k p) = apart c p := by
  cases p with
  | each ops =>
    have h1 : isWaitR c ∘ laterOp (U := U) (M := M) (B := B) k = isWaitR c := by
      funext o; cases o <;> rfl
    have h2 : isSend c ∘ laterOp (U := U) (M := M) (B := B) k = isSend c := by
      funext o; cases o <;> rfl
    have h3 : isWaitS c ∘ laterOp (U := U) (M := M) (B := B) k = isWaitS c := by
      funext o; cases o <;> rfl
    have h4 : isPost c ∘ laterOp (U := U) (M := M) (B := B) k = isPost c := by
      funext o; cases o <;> rfl
    simp only [apart, later, List.any_map, h1, h2, h3, h4]
  | _ => rfl

omit [DecidableEq U] [DecidableEq C] in
theorem guarded_later (k : ℕ) (a b : List (Phase U C M B)) (odd ins : Bool) :
    guarded odd ins (a.map (later k) ++ b) = guarded odd ins (a ++ b) := by
  induction a generalizing odd ins with
  | nil => rfl
  | cons p a ih => cases p <;> simp [later, guarded, ih]

omit [DecidableEq U] in
theorem piece_later {a : List (Phase U C M B)} (h : Piece a) (k : ℕ) : Piece (a.map (later k)) := by
  refine ⟨fun c => ?_, fun c => ?_, fun c ph hp => ?_, fun b => ?_⟩
  · rw [body_later, checked_later]; exact h.order c
  · rw [body_later, flags_later]; exact h.back c
  · obtain ⟨p, hp', rfl⟩ := List.mem_map.mp hp
    rw [apart_later]; exact h.apart c p hp'
  · rw [guarded_later]; exact h.guard b

omit [DecidableEq R] [DecidableEq T] in
theorem plain_later (tm : Team U R T C) (k n : ℕ) (o : UOp U C M B) (p : Plain U C M B) :
    plain tm n (laterOp k o) p = plain tm (k + n) o p := by
  cases o <;> rfl

omit [DecidableEq R] [DecidableEq T] in
theorem run_later (tm : Team U R T C) (k : ℕ) (a : List (Phase U C M B)) (n : ℕ) (p : Plain U C M B) :
    plainRun tm (lines n (a.map (later k))) p = plainRun tm (lines (k + n) a) p := by
  induction a generalizing n p with
  | nil => rfl
  | cons q a ih =>
    cases q with
    | each ops =>
      simp only [List.map_cons, later, lines]
      rw [plainRun_append, plainRun_append, ih]
      congr 1
      induction ops generalizing p with
      | nil => rfl
      | cons o ops ih2 =>
        simp only [List.map_cons, plainRun, plain_later]
        exact ih2 _
    | arrive => exact ih n p
    | leave => exact ih n p
    | master => exact ih (n + 1) p

omit [DecidableEq U] [DecidableEq C] in
theorem ticks_masters (a : List (Phase U C M B)) : ticks a = masters a := by
  induction a with
  | nil => rfl
  | cons p a ih => cases p <;> simp [ticks, masters, ih]

/-! ## Texts with places -/

/-- Between two places everything sent has been received and every request has been waited for. -/
inductive Fine : List (Item U C M B) → Prop
  | text (a : List (Phase U C M B)) (h : Piece a) : Fine (a.map .ph)
  | coll (a : List (Phase U C M B)) (h : Piece a) (f : ℕ → (U → M) → U → M) (r : List (Item U C M B))
      (hr : Fine r) : Fine (a.map .ph ++ .coll f :: r)

omit [DecidableEq U] [DecidableEq C] in
theorem cut_text (a : List (Phase U C M B)) : cut (a.map .ph) = (a, none) := by
  induction a with
  | nil => rfl
  | cons p a ih => simp [cut, ih]

omit [DecidableEq U] [DecidableEq C] in
theorem cut_coll (a : List (Phase U C M B)) (f : ℕ → (U → M) → U → M) (r : List (Item U C M B)) :
    cut (a.map .ph ++ .coll f :: r) = (a, some (f, r)) := by
  induction a with
  | nil => rfl
  | cons p a ih => simp [cut, ih]

omit [DecidableEq U] in
theorem Fine.append {x y : List (Item U C M B)} (hx : Fine x) (hy : Fine y) : Fine (x ++ y) := by
  induction hx with
  | text a h =>
    cases hy with
    | text b hb => rw [← List.map_append]; exact .text _ (h.append hb)
    | coll b hb f r hr =>
      rw [← List.append_assoc, ← List.map_append]; exact .coll _ (h.append hb) f r hr
  | coll a h f r _ ih =>
    rw [List.append_assoc, List.cons_append]; exact .coll a h f _ ih

omit [DecidableEq U] in
theorem Fine.nil : Fine ([] : List (Item U C M B)) := .text [] Piece.nil

omit [DecidableEq U] in
theorem Fine.place (f : ℕ → (U → M) → U → M) : Fine ([.coll f] : List (Item U C M B)) :=
  .coll [] Piece.nil f [] Fine.nil

omit [DecidableEq U] in
theorem Fine.repeat {x : List (Item U C M B)} (hx : Fine x) (n : ℕ) : Fine (List.replicate n x).flatten := by
  induction n with
  | zero => exact Fine.nil
  | succ n ih => rw [List.replicate_succ, List.flatten_cons]; exact hx.append ih

omit [DecidableEq U] in
theorem Fine.piece {l : List (Item U C M B)} (h : Fine l) : Piece (cut l).1 := by
  cases h with
  | text a h => rw [cut_text]; exact h
  | coll a h f r _ => rw [cut_coll]; exact h

omit [DecidableEq U] in
theorem Fine.rest {l : List (Item U C M B)} (h : Fine l) {f : ℕ → (U → M) → U → M}
    {r : List (Item U C M B)} (e : (cut l).2 = some (f, r)) : Fine r := by
  cases h with
  | text a h => rw [cut_text] at e; simp at e
  | coll a h f' r' hr => rw [cut_coll] at e; simp at e; exact e.2 ▸ hr

/-- All units take the statements together, one by one. -/
def together (tm : Team U R T C) : List (Item U C M B) → ℕ → Plain U C M B → Plain U C M B
  | [], _, p => p
  | .ph a :: r, n, p => together tm r (n + ticks [a]) (plainRun tm (lines n [a]) p)
  | .coll f :: r, n, p => together tm r n { p with mem := f n p.mem }

/-- How often the text advances a stepper. -/
def total : List (Item U C M B) → ℕ
  | [] => 0
  | .ph a :: r => ticks [a] + total r
  | .coll _ :: r => total r

omit [DecidableEq U] [DecidableEq C] in
theorem total_append (a b : List (Item U C M B)) : total (a ++ b) = total a + total b := by
  induction a with
  | nil => simp [total]
  | cons i a ih => cases i <;> simp [total, ih, Nat.add_assoc]

omit [DecidableEq U] [DecidableEq C] in
theorem total_text (a : List (Phase U C M B)) : total (a.map .ph) = masters a := by
  induction a with
  | nil => rfl
  | cons p a ih => cases p <;> simp [total, ticks, masters, ih, Nat.add_comm]

omit [DecidableEq R] [DecidableEq T] in
theorem together_append (tm : Team U R T C) (a b : List (Item U C M B)) (n : ℕ) (p : Plain U C M B) :
    together tm (a ++ b) n p = together tm b (n + total a) (together tm a n p) := by
  induction a generalizing n p with
  | nil => rfl
  | cons i a ih => cases i <;> simp [together, total, ih, Nat.add_assoc]

omit [DecidableEq R] [DecidableEq T] in
theorem together_text (tm : Team U R T C) (a : List (Phase U C M B)) (n : ℕ) (p : Plain U C M B) :
    together tm (a.map .ph) n p = plainRun tm (lines n a) p := by
  induction a generalizing n p with
  | nil => rfl
  | cons q a ih =>
    have : lines n (q :: a) = lines n [q] ++ lines (n + ticks [q]) a := by
      rw [ticks_masters, ← lines_append]; rfl
    rw [this, plainRun_append]
    exact ih _ _

/-! ## What holds in every schedule -/

/-- Where the machine is: in the text `r` after `k` advances, begun with the units `init`; the lockstep
run would give the same from there. -/
structure GInv (tm : Team U R T C) (l : List (Item U C M B)) (p0 : Plain U C M B) (g : GSt U R T C M B)
    (r : List (Item U C M B)) (k : ℕ) (init : U → Loc U C M B) (w : C → U → U → B) : Prop where
  todo : g.todo = (cut r).2
  time : g.time = k + ticks (cut r).1
  fine : Fine r
  idle : ∀ u, idle (init u)
  reach : Reach tm ((cut r).1.map (later k)) init g.st
  same : together tm l 0 p0 = together tm r k (plainStart init w)
  count : k + total r = total l

/-- At a place everything sent has been received, every request has been waited for, and all units have
taken part in as many exchanges. -/
theorem settled_of {tm : Team U R T C} {a : List (Phase U C M B)} {init : U → Loc U C M B}
    {s : St U R T C M B} (ho : Own tm) (ha : Piece a) (hi : ∀ u, idle (init u)) (h : Reach tm a init s)
    (hf : Finished s) (u : U) (c : C) :
    ((s.loc u).com c).rAct = false ∧ ((s.loc u).com c).sAct = false ∧
      ((s.loc u).com c).recvd = ((s.loc u).com c).posted ∧
      ∀ v ∈ tm.nbrs u, (((s.loc v).com c).out u).length = ((s.loc u).com c).recvd := by
  rw [same_result ho ha.sound hi h hf]
  have hu := agree_lock tm init hi c (lines 0 a) (ha.order c) u
  have hb : flags c idleFlags ((lines 0 a).map Prod.snd) = idleFlags := ha.back c
  obtain ⟨h1, h2, h3, h4, h5, h6, h7⟩ := hu
  rw [hb] at h1 h2 h5 h6
  simp only [idleFlags, Bool.toNat_false, Nat.add_zero] at h1 h2 h5 h6
  refine ⟨h1, h2, h5.symm, fun v hv => ?_⟩
  have hv' := agree_lock tm init hi c (lines 0 a) (ha.order c) v
  obtain ⟨-, -, k3, -, -, -, k7⟩ := hv'
  rw [k7 u (ho.symm u v hv), k3, ← h3, h6]

theorem ginv_masters {tm : Team U R T C} {l : List (Item U C M B)} {p0 : Plain U C M B}
    {g : GSt U R T C M B} {r : List (Item U C M B)} {k : ℕ} {init : U → Loc U C M B} {w : C → U → U → B}
    (ho : Own tm) (h : GInv tm l p0 g r k init w) (hf : Finished g.st) {f : ℕ → (U → M) → U → M}
    {r' : List (Item U C M B)} (e : g.todo = some (f, r')) :
    ∃ w', GInv tm l p0 (enter tm r' g.time (passed (f g.time) g.st.loc)) r' g.time
      (passed (f g.time) g.st.loc) w' := by
  have hp := piece_later h.fine.piece k
  have hr := lock_plain ho.symm init h.idle w _ hp.sound.order
  rw [← same_result ho hp.sound h.idle h.reach hf, run_later, Nat.add_zero] at hr
  refine ⟨(plainRun tm (lines k (cut r).1) (plainStart init w)).wire, rfl, rfl, ?_, ?_, .refl, ?_, ?_⟩
  · exact h.fine.rest (h.todo ▸ e)
  · intro u c
    obtain ⟨h1, h2, -, -⟩ := settled_of ho hp h.idle h.reach hf u c
    exact ⟨h1, h2, rfl, rfl, rfl, fun _ => rfl⟩
  · have hq : plainStart (passed (f g.time) g.st.loc)
        (plainRun tm (lines k (cut r).1) (plainStart init w)).wire =
        { plainRun tm (lines k (cut r).1) (plainStart init w) with
          mem := f g.time (plainRun tm (lines k (cut r).1) (plainStart init w)).mem } := by
      have e1 : (fun v => (g.st.loc v).mem) = (plainRun tm (lines k (cut r).1) (plainStart init w)).mem :=
        funext hr.mem
      have e2 : (fun c u => ((g.st.loc u).com c).sbuf) =
          (plainRun tm (lines k (cut r).1) (plainStart init w)).sbuf := by
        funext c u; exact hr.sbuf u c
      have e3 : (fun c u => ((g.st.loc u).com c).rbuf) =
          (plainRun tm (lines k (cut r).1) (plainStart init w)).rbuf := by
        funext c u; exact hr.rbuf u c
      simp only [plainStart, passed, renew]
      rw [e1, e2, e3]
      rfl
    rw [hq, h.same, h.time]
    have := h.fine
    cases this with
    | text a ha => rw [h.todo, cut_text] at e; simp at e
    | coll a ha f' r'' _ =>
      rw [h.todo, cut_coll] at e
      simp only [Option.some.injEq, Prod.mk.injEq] at e
      obtain ⟨rfl, rfl⟩ := e
      rw [together_append, together_text, cut_coll, total_text, ← ticks_masters]
      rfl
  · rw [h.time, ← h.count]
    have := h.fine
    cases this with
    | text a ha => rw [h.todo, cut_text] at e; simp at e
    | coll a ha f' r'' _ =>
      rw [h.todo, cut_coll] at e
      simp only [Option.some.injEq, Prod.mk.injEq] at e
      obtain ⟨rfl, rfl⟩ := e
      rw [total_append, cut_coll, total_text, ← ticks_masters, Nat.add_assoc]
      rfl

theorem ginv_reach {tm : Team U R T C} {l : List (Item U C M B)} {init : U → Loc U C M B}
    {g : GSt U R T C M B} (ho : Own tm) (hl : Fine l) (hi : ∀ u, idle (init u)) (w : C → U → U → B)
    (h : GReach tm l init g) : ∃ r k x w', GInv tm l (plainStart init w) g r k x w' := by
  induction h with
  | refl => exact ⟨l, 0, init, w, rfl, rfl, hl, hi, .refl, rfl, by simp⟩
  | tail _ hm ih =>
    obtain ⟨r, k, x, w', inv⟩ := ih
    cases hm with
    | thread t s hs => exact ⟨r, k, x, w', inv.todo, inv.time, inv.fine, inv.idle,
        inv.reach.tail ⟨t, hs⟩, inv.same, inv.count⟩
    | masters f l' hf e =>
      obtain ⟨w'', h'⟩ := ginv_masters ho inv hf e
      exact ⟨_, _, _, w'', h'⟩

/-- **C138.** Whatever the schedule: nothing undefined is done, no two threads are at the same unit,
nobody looks at the steppers while one is advanced, and unless all threads have come to the end somebody
can go on. -/
theorem safe {tm : Team U R T C} {l : List (Item U C M B)} {init : U → Loc U C M B} {g : GSt U R T C M B}
    (ho : Own tm) (hl : Fine l) (hi : ∀ u, idle (init u)) (h : GReach tm l init g) :
    (∀ t, step tm t g.st ≠ .ub) ∧ ¬ Race g.st ∧
    (∀ t t' a a' u o, g.st.rest t = .tick :: a → g.st.rest t' = .unit u o :: a' → tm.rank t' ≠ tm.rank t) ∧
    (¬ Ended g → ∃ g', GMove tm g g') := by
  obtain ⟨r, k, x, w', inv⟩ := ginv_reach ho hl hi (fun c u => ((init u).com c).sbuf) h
  have hs := (piece_later inv.fine.piece k).sound
  refine ⟨never_ub ho hs inv.idle inv.reach, no_race ho hs inv.idle inv.reach,
    fun t t' a a' u o h1 h2 => stepper_alone ho hs inv.idle inv.reach h1 h2, fun he => ?_⟩
  by_cases hf : Finished g.st
  · cases ht : g.todo with
    | none => exact absurd ⟨hf, ht⟩ he
    | some q => exact ⟨_, .masters g q.1 q.2 hf (by rw [ht])⟩
  · obtain ⟨s, t, hm⟩ := never_stuck ho hs inv.idle inv.reach hf
    exact ⟨_, .thread g t s hm⟩

/-- **C138.** When the masters meet, no message is under way and no request is active. -/
theorem settled {tm : Team U R T C} {l : List (Item U C M B)} {init : U → Loc U C M B} {g : GSt U R T C M B}
    (ho : Own tm) (hl : Fine l) (hi : ∀ u, idle (init u)) (h : GReach tm l init g)
    (hf : ∀ t, g.st.rest t = []) (u : U) (c : C) :
    ((g.st.loc u).com c).rAct = false ∧ ((g.st.loc u).com c).sAct = false ∧
      ((g.st.loc u).com c).recvd = ((g.st.loc u).com c).posted ∧
      ∀ v ∈ tm.nbrs u, (((g.st.loc v).com c).out u).length = ((g.st.loc u).com c).recvd := by
  obtain ⟨r, k, x, w', inv⟩ := ginv_reach ho hl hi (fun c u => ((init u).com c).sbuf) h
  exact settled_of ho (piece_later inv.fine.piece k) inv.idle inv.reach hf u c

/-- **C138.** At the end of every schedule the memories are what the statements, taken by all units
together, make of them. -/
theorem result {tm : Team U R T C} {l : List (Item U C M B)} {init : U → Loc U C M B} {g : GSt U R T C M B}
    (ho : Own tm) (hl : Fine l) (hi : ∀ u, idle (init u)) (h : GReach tm l init g) (he : Ended g) :
    (fun u => (g.st.loc u).mem) =
      (together tm l 0 (plainStart init fun c u => ((init u).com c).sbuf)).mem ∧ g.time = total l := by
  obtain ⟨r, k, x, w', inv⟩ := ginv_reach ho hl hi (fun c u => ((init u).com c).sbuf) h
  have hp := piece_later inv.fine.piece k
  have hr := lock_plain ho.symm x inv.idle w' _ hp.sound.order
  rw [← same_result ho hp.sound inv.idle inv.reach he.1, run_later, Nat.add_zero] at hr
  have := inv.fine
  cases this with
  | text a ha =>
    constructor
    · rw [inv.same, together_text]
      rw [cut_text] at hr
      exact funext hr.mem
    · rw [inv.time, ← inv.count, cut_text, total_text, ticks_masters]
  | coll a ha f r' _ =>
    have e := inv.todo
    rw [he.2, cut_coll] at e
    simp at e

/-! ## Every schedule ends -/

/-- How many moves the text has. -/
def weight [Fintype T] (tm : Team U R T C) : List (Item U C M B) → ℕ
  | [] => 0
  | .ph a :: r => ∑ t, (expand tm t a).length + weight tm r
  | .coll _ :: r => weight tm r + 1

/-- How many are left. -/
def remaining [Fintype T] (tm : Team U R T C) (g : GSt U R T C M B) : ℕ :=
  ∑ t, (g.st.rest t).length + (match g.todo with | none => 0 | some q => weight tm q.2 + 1)

omit [DecidableEq C] [DecidableEq U] [DecidableEq R] in
theorem expand_later (tm : Team U R T C) (k : ℕ) (t : T) (p : Phase U C M B) :
    (expand tm t (later k p)).length = (expand tm t p).length := by
  cases p with
  | each ops => simp [expand, later, List.length_flatMap]
  | arrive => rfl
  | leave => rfl
  | master => simp only [later, expand]

omit [DecidableEq C] [DecidableEq U] in
theorem weight_enter [Fintype T] (tm : Team U R T C) (l : List (Item U C M B)) (k : ℕ)
    (init : U → Loc U C M B) : remaining tm (enter tm l k init) = weight tm l := by
  induction l with
  | nil => simp [remaining, enter, cut, start, code, weight]
  | cons i l ih =>
    cases i with
    | ph a =>
      rw [weight, ← ih]
      simp only [remaining, enter, cut, start, code, List.map_cons, List.flatMap_cons, List.length_append,
        Finset.sum_add_distrib, expand_later, Nat.add_assoc]
    | coll f => simp [remaining, enter, cut, start, code, weight]

theorem move_remaining [Fintype T] {tm : Team U R T C} {a b : GSt U R T C M B} (h : GMove tm a b) :
    remaining tm b + 1 = remaining tm a := by
  cases h with
  | thread t s hs =>
    have := move_shorter (tm := tm) ⟨t, hs⟩
    simp only [remaining]
    omega
  | masters f l hf e =>
    rw [weight_enter]
    simp [remaining, e, hf]

/-- **C138.** Every schedule ends after the same number of moves. -/
theorem always_ends [Fintype T] (tm : Team U R T C) (l : List (Item U C M B)) (init : U → Loc U C M B)
    (g : ℕ → GSt U R T C M B) (n : ℕ) (h0 : g 0 = enter tm l 0 init)
    (h : ∀ i < n, GMove tm (g i) (g (i + 1))) : n + remaining tm (g n) = weight tm l := by
  induction n with
  | zero => rw [h0, weight_enter, Nat.zero_add]
  | succ n ih =>
    have h1 := ih fun i hi => h i (by omega)
    have h2 := move_remaining (h n (by omega))
    omega

/-- **C138.** Every schedule begun can be carried to the end. -/
theorem can_end [Fintype T] {tm : Team U R T C} {l : List (Item U C M B)} {init : U → Loc U C M B}
    (ho : Own tm) (hl : Fine l) (hi : ∀ u, idle (init u)) (g : GSt U R T C M B) (h : GReach tm l init g) :
    ∃ g', Relation.ReflTransGen (GMove tm) g g' ∧ Ended g' := by
  generalize hn : remaining tm g = n
  induction n generalizing g with
  | zero =>
    refine ⟨g, .refl, ?_⟩
    by_contra he
    obtain ⟨g', hm⟩ := (safe ho hl hi h).2.2.2 he
    have := move_remaining hm
    omega
  | succ n ih =>
    by_cases he : Ended g
    · exact ⟨g, .refl, he⟩
    · obtain ⟨g', hm⟩ := (safe ho hl hi h).2.2.2 he
      have := move_remaining hm
      obtain ⟨g'', hr, he'⟩ := ih g' (h.tail hm) (by omega)
      exact ⟨g'', .head hm hr, he'⟩

/-! ## The text of the program -/

omit [DecidableEq U] in
theorem piece_exchange (e : Exch U M B) : Piece (exchange e) := by
  refine ⟨fun c => ?_, fun c => ?_, fun c ph h => ?_, fun b => rfl⟩
  · cases c <;> rfl
  · cases c <;> rfl
  · have : (exchange e).all (Schedule.apart c) = true := by cases c <;> rfl
    exact List.all_eq_true.mp this ph h

omit [DecidableEq U] in
theorem fine_work (f : U → ℕ → M → M) : Fine ([.ph (.each [.work f])] : List (Item U CommType M B)) :=
  .text [_] (Piece.work f)

omit [DecidableEq U] in
theorem fine_reconstruct (own : Option (Exch U M B)) (avg : ℕ → (U → M) → U → M) :
    Fine (reconstruct own avg) := by
  cases own with
  | none => exact Fine.place avg
  | some e => exact .text _ (piece_exchange e)

omit [DecidableEq U] in
theorem fine_deriv (m : Method) (d : Correction U M B) : Fine (derivText m d) := by
  cases m with
  | projection => exact (Fine.text _ (piece_exchange _)).append (.text _ (piece_exchange _))
  | greenGauss => exact (((fine_work d.gg).append (fine_reconstruct _ _)).append
      (.text _ (piece_exchange _))).append (fine_reconstruct _ _)
  | leastSquares => exact (((Fine.text _ (piece_exchange _)).append (fine_reconstruct _ _)).append
      (.text _ (piece_exchange _))).append (fine_reconstruct _ _)

omit [DecidableEq U] in
theorem piece_advance : Piece (barrier ++ [.master] ++ barrier : List (Phase U CommType M B)) := by
  refine ⟨fun c => by cases c <;> rfl, fun c => by cases c <;> rfl, fun c ph h => ?_, fun b => rfl⟩
  have : (barrier ++ [.master] ++ barrier : List (Phase U CommType M B)).all (Schedule.apart c) = true := rfl
  exact List.all_eq_true.mp this ph h

omit [DecidableEq U] in
theorem fine_correction (m : Method) (d : Correction U M B) : Fine (correctionText m d) := by
  refine (((fine_work d.parse).append (fine_deriv m d)).append ?_).append (.text _ piece_advance)
  exact (((fine_work d.blocks).append (fine_work d.condense)).append (Fine.place d.solve)).append
    ((fine_work d.back).append (fine_work d.update))

omit [DecidableEq U] in
theorem fine_step (m : Method) (k : Kernels U M B) (d : Correction U M B) (wd sl : Bool) (ns nd : ℕ) :
    Fine (gnStepText m k d wd sl ns nd) := by
  have hs : Piece (List.replicate ns (.each [.work k.parse] :: stageText k wd sl)).flatten :=
    Piece.repeat ((Piece.work (C := CommType) (B := B) k.parse).append (piece_stage k wd sl)) ns
  exact (((Fine.text _ hs).append ((fine_correction m d).repeat nd)).append (.text _ hs)).append
    (fine_work k.output)

omit [DecidableEq U] in
theorem fine_run (m : Method) (k : Kernels U M B) (d : Correction U M B) (wd sl : Bool) (ns nd nsteps : ℕ) :
    Fine (gnRunText m k d wd sl ns nd nsteps) := (fine_step m k d wd sl ns nd).repeat nsteps

/-! ## What it computes -/

/-- One exchange of derivatives, all units at once. -/
def exchMem (nbrs : U → List U) (e : Exch U M B) (n : ℕ) (mem : U → M) : U → M :=
  let a := fun u => e.pre u n (mem u)
  fun u => e.take u n (e.mid u n (a u)) (hears nbrs (fun v => e.pack v n) a u)

/-- The reconstruction. -/
def reconMem (nbrs : U → List U) (own : Option (Exch U M B)) (avg : ℕ → (U → M) → U → M) (n : ℕ)
    (mem : U → M) : U → M :=
  match own with
  | some e => exchMem nbrs e n mem
  | none => avg n mem

/-- The derivatives. -/
def derivMem (nbrs : U → List U) (m : Method) (d : Correction U M B) (n : ℕ) (mem : U → M) : U → M :=
  match m with
  | .projection => exchMem nbrs d.second n (exchMem nbrs d.first n mem)
  | .greenGauss => reconMem nbrs (d.own.map Prod.snd) d.avg2 n (exchMem nbrs d.second n
      (reconMem nbrs (d.own.map Prod.fst) d.avg1 n fun u => d.gg u n (mem u)))
  | .leastSquares => reconMem nbrs (d.own.map Prod.snd) d.avg2 n (exchMem nbrs d.second n
      (reconMem nbrs (d.own.map Prod.fst) d.avg1 n (exchMem nbrs d.first n mem)))

/-- One stage of the dispersive correction: derivatives, blocks, one linear system for all ranks, update. -/
def correctionMem (nbrs : U → List U) (m : Method) (d : Correction U M B) (n : ℕ) (mem : U → M) : U → M :=
  let a := derivMem nbrs m d n fun u => d.parse u n (mem u)
  let b := d.solve n fun u => d.condense u n (d.blocks u n (a u))
  fun u => d.update u n (d.back u n (b u))

/-- `nd` stages of the correction. -/
def correctionsMem (nbrs : U → List U) (m : Method) (d : Correction U M B) : ℕ → ℕ → (U → M) → U → M
  | 0, _, mem => mem
  | nd + 1, n, mem => correctionsMem nbrs m d nd (n + 1) (correctionMem nbrs m d n mem)

/-- `nsteps` steps: shallow water, correction, shallow water, output. -/
def gnMem (nbrs : U → List U) (m : Method) (k : Kernels U M B) (d : Correction U M B) (wd sl : Bool)
    (ns nd : ℕ) : ℕ → ℕ → (U → M) → U → M
  | 0, _, mem => mem
  | s + 1, n, mem => gnMem nbrs m k d wd sl ns nd s (n + ns + nd + ns) fun u =>
      k.output u (n + ns + nd + ns) (stagesMem nbrs k wd sl ns (n + ns + nd)
        (correctionsMem nbrs m d nd (n + ns) (stagesMem nbrs k wd sl ns n mem)) u)

omit [DecidableEq R] [DecidableEq T] in
theorem exchange_mem (tm : Team U R T CommType) (e : Exch U M B) (n : ℕ) (p : Plain U CommType M B) :
    (plainRun tm (lines n (exchange e)) p).mem = exchMem tm.nbrs e n p.mem := by
  simp only [exchange, lines, List.map_cons, List.map_nil, List.cons_append, List.nil_append, plainRun, plain,
    Function.update_self, exchMem]
  simp only [heard_hears tm]

omit [DecidableEq R] [DecidableEq T] in
theorem work_mem (tm : Team U R T CommType) (f : U → ℕ → M → M) (n : ℕ) (p : Plain U CommType M B) :
    (together tm [.ph (.each [.work f])] n p).mem = fun u => f u n (p.mem u) := rfl

omit [DecidableEq U] in
theorem total_exchange (e : Exch U M B) : total ((exchange e).map .ph) = 0 := rfl

omit [DecidableEq U] in
theorem total_reconstruct (own : Option (Exch U M B)) (avg : ℕ → (U → M) → U → M) :
    total (reconstruct own avg) = 0 := by cases own <;> rfl

omit [DecidableEq R] [DecidableEq T] in
theorem reconstruct_mem (tm : Team U R T CommType) (own : Option (Exch U M B)) (avg : ℕ → (U → M) → U → M)
    (n : ℕ) (p : Plain U CommType M B) :
    (together tm (reconstruct own avg) n p).mem = reconMem tm.nbrs own avg n p.mem := by
  cases own with
  | none => rfl
  | some e => simp only [reconstruct, reconMem]; rw [together_text, exchange_mem]

omit [DecidableEq U] in
theorem total_deriv (m : Method) (d : Correction U M B) : total (derivText m d) = 0 := by
  cases m <;> simp only [derivText, total_append, total_exchange, total_reconstruct] <;> rfl

omit [DecidableEq R] [DecidableEq T] in
theorem deriv_mem (tm : Team U R T CommType) (m : Method) (d : Correction U M B) (n : ℕ)
    (p : Plain U CommType M B) :
    (together tm (derivText m d) n p).mem = derivMem tm.nbrs m d n p.mem := by
  cases m <;>
    simp only [derivText, derivMem, together_append, total_append, total_exchange, total_reconstruct,
      together_text, exchange_mem, reconstruct_mem, work_mem] <;> rfl

omit [DecidableEq U] in
theorem total_correction (m : Method) (d : Correction U M B) : total (correctionText m d) = 1 := by
  simp only [correctionText, total_append, total_deriv]
  rfl

omit [DecidableEq R] [DecidableEq T] in
theorem correction_mem (tm : Team U R T CommType) (m : Method) (d : Correction U M B) (n : ℕ)
    (p : Plain U CommType M B) :
    (together tm (correctionText m d) n p).mem = correctionMem tm.nbrs m d n p.mem := by
  simp only [correctionText, together_append, total_append, total_deriv]
  have h := deriv_mem tm m d n (together tm [.ph (.each [.work d.parse])] n p)
  rw [work_mem] at h
  simp only [correctionMem, ← h]
  rfl

omit [DecidableEq R] [DecidableEq T] in
theorem corrections_mem (tm : Team U R T CommType) (m : Method) (d : Correction U M B) (nd n : ℕ)
    (p : Plain U CommType M B) :
    (together tm (List.replicate nd (correctionText m d)).flatten n p).mem =
      correctionsMem tm.nbrs m d nd n p.mem := by
  induction nd generalizing n p with
  | zero => rfl
  | succ nd ih =>
    rw [List.replicate_succ, List.flatten_cons, together_append, total_correction, ih, correction_mem]
    rfl

omit [DecidableEq U] [DecidableEq C] in
theorem total_repeat (a : List (Item U C M B)) (n : ℕ) : total (List.replicate n a).flatten = n * total a := by
  induction n with
  | zero => simp [total]
  | succ n ih => rw [List.replicate_succ, List.flatten_cons, total_append, ih]; ring

omit [DecidableEq U] in
theorem total_step (m : Method) (k : Kernels U M B) (d : Correction U M B) (wd sl : Bool) (ns nd : ℕ) :
    total (gnStepText m k d wd sl ns nd) = ns + nd + ns := by
  rw [gnStepText, total_append, total_append, total_append, total_text, masters_repeat, masters_stage,
    total_repeat, total_correction]
  simp [total, ticks]

omit [DecidableEq R] [DecidableEq T] in
theorem steps_gn_mem (tm : Team U R T CommType) (m : Method) (k : Kernels U M B) (d : Correction U M B)
    (wd sl : Bool) (ns nd nsteps n : ℕ) (p : Plain U CommType M B) :
    (together tm (gnRunText m k d wd sl ns nd nsteps) n p).mem =
      gnMem tm.nbrs m k d wd sl ns nd nsteps n p.mem := by
  induction nsteps generalizing n p with
  | zero => rfl
  | succ s ih =>
    have e : gnRunText m k d wd sl ns nd (s + 1) = gnStepText m k d wd sl ns nd ++ gnRunText m k d wd sl ns nd s := by
      rw [gnRunText, List.replicate_succ, List.flatten_cons]; rfl
    rw [e, together_append, ih, total_step]
    simp only [gnStepText, together_append, total_append, total_text, masters_repeat, masters_stage,
      total_repeat, total_correction, Nat.mul_one, together_text, work_mem, stages_mem, corrections_mem, gnMem,
      Nat.add_assoc]

/-! ## The claims for the run -/

section Sim

variable {nR : ℕ} {nT nU : Fin nR → ℕ} {hT : ∀ r, 0 < nT r}
  {nbrs : (Σ r, Fin (nU r)) → List (Σ r, Fin (nU r))} {early : (Σ r, Fin (nU r)) → CommType → ℕ → Bool}

/-- **C138.** The steps of the Green-Naghdi program with any number of ranks, threads and units, any of
the methods for the derivatives, and any schedule. -/
theorem gn_safe (hb : ∀ r, nU r + nT r ≤ 2 ^ 32) (hn : ∀ u v, v ∈ nbrs u → u ∈ nbrs v) (m : Method)
    (k : Kernels (Σ r, Fin (nU r)) M B) (d : Correction (Σ r, Fin (nU r)) M B) (wd sl : Bool)
    (ns nd nsteps : ℕ) (init : (Σ r, Fin (nU r)) → Loc (Σ r, Fin (nU r)) CommType M B)
    (hi : ∀ u, idle (init u)) {g : GSt (Σ r, Fin (nU r)) (Fin nR) (Σ r, Fin (nT r)) CommType M B}
    (h : GReach (simTeam nR nT nU hT nbrs early) (gnRunText m k d wd sl ns nd nsteps) init g) :
    (∀ t, step (simTeam nR nT nU hT nbrs early) t g.st ≠ .ub) ∧ ¬ Race g.st ∧
    (∀ t t' a a' u o, g.st.rest t = .tick :: a → g.st.rest t' = .unit u o :: a' → t'.1 ≠ t.1) ∧
    (¬ Ended g → ∃ g', GMove (simTeam nR nT nU hT nbrs early) g g') :=
  safe (own_sim hb hn) (fine_run m k d wd sl ns nd nsteps) hi h

/-- **C138.** At the end of every schedule the memory of every unit is what the stages, with one linear
system for all ranks in each stage of the correction, make of it, and the steppers have been advanced once
per stage. -/
theorem gn_result (hb : ∀ r, nU r + nT r ≤ 2 ^ 32) (hn : ∀ u v, v ∈ nbrs u → u ∈ nbrs v) (m : Method)
    (k : Kernels (Σ r, Fin (nU r)) M B) (d : Correction (Σ r, Fin (nU r)) M B) (wd sl : Bool)
    (ns nd nsteps : ℕ) (init : (Σ r, Fin (nU r)) → Loc (Σ r, Fin (nU r)) CommType M B)
    (hi : ∀ u, idle (init u)) {g : GSt (Σ r, Fin (nU r)) (Fin nR) (Σ r, Fin (nT r)) CommType M B}
    (h : GReach (simTeam nR nT nU hT nbrs early) (gnRunText m k d wd sl ns nd nsteps) init g)
    (he : Ended g) :
    (fun u => (g.st.loc u).mem) = gnMem nbrs m k d wd sl ns nd nsteps 0 (fun u => (init u).mem) ∧
    g.time = nsteps * (ns + nd + ns) := by
  obtain ⟨h1, h2⟩ := result (own_sim hb hn) (fine_run m k d wd sl ns nd nsteps) hi h he
  rw [steps_gn_mem] at h1
  refine ⟨h1, ?_⟩
  rw [h2, gnRunText, total_repeat, total_step]

/-- **C138.** Every schedule ends after the same number of moves, and every schedule begun can be carried
to the end. -/
theorem gn_ends (hb : ∀ r, nU r + nT r ≤ 2 ^ 32) (hn : ∀ u v, v ∈ nbrs u → u ∈ nbrs v) (m : Method)
    (k : Kernels (Σ r, Fin (nU r)) M B) (d : Correction (Σ r, Fin (nU r)) M B) (wd sl : Bool)
    (ns nd nsteps : ℕ) (init : (Σ r, Fin (nU r)) → Loc (Σ r, Fin (nU r)) CommType M B)
    (hi : ∀ u, idle (init u)) :
    (∃ N, ∀ (g : ℕ → GSt (Σ r, Fin (nU r)) (Fin nR) (Σ r, Fin (nT r)) CommType M B) (n : ℕ),
      g 0 = enter (simTeam nR nT nU hT nbrs early) (gnRunText m k d wd sl ns nd nsteps) 0 init →
      (∀ i < n, GMove (simTeam nR nT nU hT nbrs early) (g i) (g (i + 1))) → n ≤ N) ∧
    ∀ g, GReach (simTeam nR nT nU hT nbrs early) (gnRunText m k d wd sl ns nd nsteps) init g →
      ∃ g', Relation.ReflTransGen (GMove (simTeam nR nT nU hT nbrs early)) g g' ∧ Ended g' :=
  ⟨⟨weight (simTeam nR nT nU hT nbrs early) (gnRunText m k d wd sl ns nd nsteps), fun g n h0 h => by
      have := always_ends _ _ init g n h0 h
      omega⟩,
    fun g h => can_end (own_sim hb hn) (fine_run m k d wd sl ns nd nsteps) hi g h⟩

end Sim

/-! ## The conditions can be met -/

/-- The ranks and units of `demoTeam`, any kernels, any method: there is a schedule to the end, and the
steppers have then been advanced 3 · (2 + 1 + 2) times. -/
example (m : Method) (k : Kernels (Σ r, Fin (demoNU r)) ℕ ℕ) (d : Correction (Σ r, Fin (demoNU r)) ℕ ℕ)
    (wd sl : Bool) : ∃ g, GReach demoTeam (gnRunText m k d wd sl 2 1 3) demoInit g ∧ Ended g ∧ g.time = 15 := by
  have hn : ∀ u v, v ∈ demoNbrs u → u ∈ demoNbrs v := by decide
  have hb : ∀ r, demoNU r + demoNT r ≤ 2 ^ 32 := by decide
  obtain ⟨g, hr, hf⟩ := (gn_ends (hT := demoNT_pos) (early := fun _ _ _ => false) hb hn m k d wd sl 2 1 3
    demoInit demo_idle).2 _ Relation.ReflTransGen.refl
  exact ⟨g, hr, hf, (gn_result hb hn m k d wd sl 2 1 3 demoInit demo_idle hr hf).2⟩

/-- Kernels that do nothing. -/
def restKernels : Kernels (Σ r, Fin (demoNU r)) ℕ ℕ where
  preSend := fun _ _ m => m
  packCoord := fun _ _ m _ => m
  takeCoord := fun _ _ m _ => m
  globSend := fun _ _ m => m
  packGlob := fun _ _ m _ => m
  takeGlob := fun _ _ m _ => m
  resize := fun _ _ m => m
  first := fun _ _ m => m
  parse := fun _ _ m => m
  gather := fun _ _ m => m
  packBound := fun _ _ m _ => m
  before := fun _ _ m => m
  after := fun _ _ m _ => m
  wetDry := fun _ _ m => m
  prepare := fun _ _ m => m
  packBary := fun _ _ m _ => m
  prepFaces := fun _ _ m => m
  limit := fun _ _ m _ => m
  check := fun _ _ m => m
  output := fun _ _ m => m

/-- Add what the neighbours have sent. -/
def addUp : Exch (Σ r, Fin (demoNU r)) ℕ ℕ where
  pre := fun _ _ m => m + 1
  pack := fun _ _ m _ => m
  mid := fun _ _ m => 2 * m
  take := fun u _ m h => m + ((demoNbrs u).map fun v => (h v).getD 0).sum

/-- A correction with sums in place of averages and systems. -/
def sumUp : Correction (Σ r, Fin (demoNU r)) ℕ ℕ where
  parse := fun _ _ m => m
  gg := fun _ _ m => m
  first := addUp
  second := addUp
  own := none
  avg1 := fun _ x u => x u + ∑ v, x v
  avg2 := fun n x u => x u + n
  blocks := fun _ n m => m + n
  condense := fun _ _ m => m
  solve := fun _ x u => x u + ∑ v, x v
  back := fun _ _ m => m
  update := fun _ _ m => m + 1

/-- Every schedule of one step with least squares and averages ends with these numbers. -/
example {g : GSt (Σ r, Fin (demoNU r)) (Fin 2) (Σ r, Fin (demoNT r)) CommType ℕ ℕ}
    (h : GReach demoTeam (gnRunText .leastSquares restKernels sumUp false false 1 1 1) demoInit g)
    (he : Ended g) : (fun u => (g.st.loc u).mem) = fun u => 2689 + (demoInit u).mem := by
  have hn : ∀ u v, v ∈ demoNbrs u → u ∈ demoNbrs v := by decide
  have hb : ∀ r, demoNU r + demoNT r ≤ 2 ^ 32 := by decide
  rw [(gn_result hb hn .leastSquares restKernels sumUp false false 1 1 1 demoInit demo_idle h he).1]
  funext u
  revert u
  decide +kernel

end Verif.GnSchedule.Props
