import Verif.Model.GnMeet
import Verif.Props.GnSchedule

/-!
# C138 with the collective operations rank by rank

Masters that hand in and come back at times of their own change nothing: every such schedule is a
schedule of `Verif.Model.GnSchedule` in which the threads of a rank whose master is not back are not
scheduled.
-/

namespace Verif.GnSchedule.Props

open Verif.Schedule Verif.Schedule.Props

variable {U R T C M B : Type} [DecidableEq U] [DecidableEq R] [DecidableEq T] [DecidableEq C]

/-- The units as they will be when all masters are back. -/
def vloc (rk : U → R) (sol : R → Option (U → M)) (xs : U → Loc U C M B) : U → Loc U C M B := fun u =>
  match sol (rk u) with
  | none => xs u
  | some x => { mem := x u, com := (xs u).com }

/-- The machine as it will be. -/
def view (rk : U → R) (F : FSt U R T C M B) : GSt U R T C M B :=
  { F.g with st := { F.g.st with loc := vloc rk F.sol F.g.st.loc } }

omit [DecidableEq U] [DecidableEq R] [DecidableEq C] in
theorem vloc_com (rk : U → R) (sol : R → Option (U → M)) (xs : U → Loc U C M B) (u : U) :
    (vloc rk sol xs u).com = (xs u).com := by
  unfold vloc; split <;> rfl

omit [DecidableEq U] [DecidableEq R] [DecidableEq C] in
theorem vloc_none {rk : U → R} {sol : R → Option (U → M)} (xs : U → Loc U C M B) {u : U}
    (h : sol (rk u) = none) : vloc rk sol xs u = xs u := by
  unfold vloc; rw [h]

omit [DecidableEq U] [DecidableEq R] [DecidableEq C] in
theorem vloc_all {rk : U → R} {sol : R → Option (U → M)} (xs : U → Loc U C M B)
    (h : ∀ r, sol r = none) : vloc rk sol xs = xs := funext fun _ => vloc_none xs (h _)

omit [DecidableEq R] [DecidableEq C] in
theorem vloc_update {rk : U → R} {sol : R → Option (U → M)} (xs : U → Loc U C M B) {u : U}
    (y : Loc U C M B) (h : sol (rk u) = none) :
    vloc rk sol (Function.update xs u y) = Function.update (vloc rk sol xs) u y := by
  funext v
  by_cases hv : v = u
  · subst hv; rw [vloc_none _ h, Function.update_self, Function.update_self]
  · unfold vloc
    rw [Function.update_of_ne hv, Function.update_of_ne hv]

omit [DecidableEq U] in
theorem legal_com (o : UOp U C M B) {x y : Loc U C M B} (h : x.com = y.com) : legal o x = legal o y := by
  cases o <;> simp [legal, h]

omit [DecidableEq R] [DecidableEq T] in
theorem ready_com (tm : Team U R T C) (o : UOp U C M B) (u : U) {xs ys : U → Loc U C M B}
    (h : ∀ v, (xs v).com = (ys v).com) : ready tm o u xs = ready tm o u ys := by
  cases o <;> simp [ready, h]

omit [DecidableEq R] [DecidableEq T] in
theorem eff_com (tm : Team U R T C) (o : UOp U C M B) (u : U) (n : ℕ) {xs ys : U → Loc U C M B}
    (hu : xs u = ys u) (h : ∀ v, (xs v).com = (ys v).com) : eff tm o u n xs = eff tm o u n ys := by
  have ha : ∀ c q, arrivals tm c u xs q = arrivals tm c u ys q := fun c q => by
    funext v; simp only [arrivals, h]
  cases o <;> simp [eff, hu, ha]

/-- A thread sees of other units only their requests. -/
theorem step_view {tm : Team U R T C} {rk : U → R} {F : FSt U R T C M B} {t : T}
    (hs : F.sol (tm.rank t) = none)
    (hu : ∀ u o r, F.g.st.rest t = .unit u o :: r → rk u = tm.rank t) :
    step tm t (view rk F).st = match step tm t F.g.st with
      | .blocked => .blocked
      | .ub => .ub
      | .next s => .next { s with loc := vloc rk F.sol s.loc } := by
  cases hr : F.g.st.rest t with
  | nil => simp [step, view, hr]
  | cons op r =>
    cases op with
    | unit u o =>
      have hn : F.sol (rk u) = none := by rw [hu u o r hr]; exact hs
      have h1 := legal_com o (vloc_com rk F.sol F.g.st.loc u)
      have h2 := ready_com tm o u (vloc_com rk F.sol F.g.st.loc)
      have h3 := eff_com tm o u (F.g.st.clock (tm.rank t)) (vloc_none F.g.st.loc hn)
        (vloc_com rk F.sol F.g.st.loc)
      simp only [step, view, hr, h1, h2, h3]
      by_cases hl : legal o (F.g.st.loc u) = true
      · by_cases hd : ready tm o u F.g.st.loc = true
        · simp only [hl, hd, if_true, vloc_update _ _ hn]
        · simp only [hl, hd, if_true]; rfl
      · simp only [hl]; rfl
    | arrive => simp [step, view, hr]
    | leave =>
      simp only [step, view, hr]
      by_cases ha : ((tm.crew (tm.rank t)).all fun t' => decide (F.g.st.arrived t ≤ F.g.st.arrived t')) = true
      · rw [if_pos ha]; exact if_pos ha
      · rw [if_neg ha]; exact if_neg ha
    | tick => simp [step, view, hr]

omit [DecidableEq U] [DecidableEq C] in
/-- The program of a thread is about its own units. -/
theorem code_own (tm : Team U R T C) (phs : List (Phase U C M B)) (t : T) (u : U) (o : UOp U C M B)
    (h : Op.unit u o ∈ code tm phs t) : u ∈ tm.units t := by
  unfold code at h
  obtain ⟨p, -, hp⟩ := List.mem_flatMap.mp h
  cases p with
  | each ops =>
    obtain ⟨v, hv, ho⟩ := List.mem_flatMap.mp hp
    obtain ⟨o', -, he⟩ := List.mem_map.mp ho
    cases he
    exact hv
  | arrive => simp [expand] at hp
  | leave => simp [expand] at hp
  | master => simp only [expand] at hp; split at hp <;> simp at hp

/-- The ranks of the units are those of their threads. -/
def Ranked (tm : Team U R T C) (rk : U → R) : Prop := ∀ t, ∀ u ∈ tm.units t, rk u = tm.rank t

theorem rest_own {tm : Team U R T C} {l : List (Item U C M B)} {init : U → Loc U C M B}
    {g : GSt U R T C M B} (ho : Own tm) (hl : Fine l) (hi : ∀ u, idle (init u)) (h : GReach tm l init g)
    (t : T) (u : U) (o : UOp U C M B) (r : List (Op U C M B)) (hr : g.st.rest t = .unit u o :: r) :
    u ∈ tm.units t := by
  obtain ⟨a, k, x, w', inv⟩ := ginv_reach ho hl hi (fun c u => ((init u).com c).sbuf) h
  obtain ⟨done, i⟩ := inv_reach ho (piece_later inv.fine.piece k).sound inv.idle inv.reach
  refine code_own tm ((cut a).1.map (later k)) t u o ?_
  rw [← i.text t, hr]
  simp

/-- What has been handed in is what is there. -/
structure FInv (tm : Team U R T C) (rk : U → R) (l : List (Item U C M B)) (init : U → Loc U C M B)
    (F : FSt U R T C M B) : Prop where
  reach : GReach tm l init (view rk F)
  rest : ∀ r, F.gave r ≠ none → F.sol r = none ∧ ∀ t, tm.rank t = r → F.g.st.rest t = []
  same : ∀ r x, F.gave r = some x → ∀ u, rk u = r → x u = (F.g.st.loc u).mem

theorem step_loc {tm : Team U R T C} {t : T} {s s' : St U R T C M B} (h : step tm t s = .next s') :
    (∀ t', t' ≠ t → s'.rest t' = s.rest t') ∧ s.rest t ≠ [] ∧
      ∀ v, s'.loc v ≠ s.loc v → ∃ o r, s.rest t = .unit v o :: r := by
  cases hr : s.rest t with
  | nil => simp [step, hr] at h
  | cons op r =>
    refine ⟨?_, by simp, ?_⟩
    · intro t' ht
      cases op with
      | unit u o =>
        simp only [step, hr] at h
        split at h
        · split at h
          · cases h; simp [Function.update_of_ne ht]
          · cases h
        · cases h
      | arrive => simp only [step, hr] at h; cases h; simp [Function.update_of_ne ht]
      | leave =>
        simp only [step, hr] at h
        split at h
        · cases h; simp [Function.update_of_ne ht]
        · cases h
      | tick => simp only [step, hr] at h; cases h; simp [Function.update_of_ne ht]
    · intro v hv
      cases op with
      | unit u o =>
        simp only [step, hr] at h
        split at h
        · split at h
          · cases h
            by_cases e : v = u
            · subst e; exact ⟨o, r, rfl⟩
            · exact absurd (by simp [Function.update_of_ne e]) hv
          · cases h
        · cases h
      | arrive => simp only [step, hr] at h; cases h; exact absurd rfl hv
      | leave =>
        simp only [step, hr] at h
        split at h
        · cases h; exact absurd rfl hv
        · cases h
      | tick => simp only [step, hr] at h; cases h; exact absurd rfl hv

/-- Every move is a move of `GnSchedule`, or nothing there. -/
theorem finv_move {tm : Team U R T C} {rk : U → R} {l : List (Item U C M B)} {init : U → Loc U C M B}
    {F F' : FSt U R T C M B} (ho : Own tm) (hk : Ranked tm rk) (hl : Fine l) (hi : ∀ u, idle (init u))
    (h : FInv tm rk l init F) (hm : FMove tm rk F F') : FInv tm rk l init F' := by
  cases hm with
  | thread t s hs hstep =>
    have hown : ∀ u o r, F.g.st.rest t = .unit u o :: r → rk u = tm.rank t := fun u o r hr =>
      hk t u (rest_own ho hl hi h.reach t u o r hr)
    have hv := step_view hs hown
    rw [hstep] at hv
    obtain ⟨h1, h2, h3⟩ := step_loc hstep
    have hne : ∀ r, F.gave r ≠ none → tm.rank t ≠ r := fun r hr e => h2 ((h.rest r hr).2 t e)
    refine ⟨h.reach.tail (.thread (view rk F) t _ hv), fun r hr => ⟨(h.rest r hr).1, fun t' ht' => ?_⟩,
      fun r x hx u hur => ?_⟩
    · have : t' ≠ t := fun e => hne r hr (e ▸ ht')
      show s.rest t' = []
      rw [h1 t' this]; exact (h.rest r hr).2 t' ht'
    · show x u = (s.loc u).mem
      have : s.loc u = F.g.st.loc u := by
        by_contra hc
        obtain ⟨o, a, ha⟩ := h3 u hc
        exact hne r (by rw [hx]; simp) (by rw [← hown u o a ha, hur])
      rw [this]; exact h.same r x hx u hur
  | give r hf ht hg hs =>
    refine ⟨h.reach, fun r' hr' => ?_, fun r' x hx u hur => ?_⟩
    · by_cases e : r' = r
      · subst e; exact ⟨hs, hf⟩
      · exact h.rest r' (by simpa [Function.update_of_ne e] using hr')
    · by_cases e : r' = r
      · subst e
        simp only [Function.update_self, Option.some.injEq] at hx
        exact hx ▸ rfl
      · exact h.same r' x (by simpa [Function.update_of_ne e] using hx) u hur
  | meet f l' ht hg =>
    have hsol : ∀ r, F.sol r = none := fun r => (h.rest r (hg r)).1
    have hv : view rk F = F.g := by
      unfold view; rw [vloc_all _ hsol]
    have hgath : gathered rk F.gave F.g.st.loc = fun v => (F.g.st.loc v).mem := by
      funext u
      unfold gathered
      cases hx : F.gave (rk u) with
      | none => exact absurd hx (hg _)
      | some x => exact h.same _ x hx u rfl
    refine ⟨?_, fun r hr => absurd rfl hr, fun r x hx => by simp at hx⟩
    have hr := h.reach
    rw [hv] at hr
    refine hr.tail ?_
    have := GMove.masters (tm := tm) F.g f l' (fun t => (h.rest _ (hg (tm.rank t))).2 t rfl) ht
    convert this using 1
    rw [hgath]
    rfl
  | back r x hx =>
    have hv : view rk
        { F with
          g := { F.g with st := { F.g.st with loc := bring rk r x F.g.st.loc } }
          sol := Function.update F.sol r none } = view rk F := by
      have : vloc rk (Function.update F.sol r none) (bring rk r x F.g.st.loc) =
          vloc rk F.sol F.g.st.loc := by
        funext u
        unfold vloc bring
        by_cases e : rk u = r
        · subst e
          simp only [Function.update_self, if_true, hx]
        · simp only [Function.update_of_ne e, if_neg e]
      simp only [view, this]
    refine ⟨by rw [hv]; exact h.reach, fun r' hr' => ?_, fun r' y hy u hur => ?_⟩
    · have h0 := h.rest r' hr'
      have e : r' ≠ r := fun e => by rw [e, hx] at h0; simp at h0
      exact ⟨by simp only [Function.update_of_ne e]; exact h0.1, h0.2⟩
    · have h0 := h.rest r' (by rw [hy]; simp)
      have e : r' ≠ r := fun e => by rw [e, hx] at h0; simp at h0
      have : rk u ≠ r := by rw [hur]; exact e
      simp only [bring, if_neg this]
      exact h.same r' y hy u hur

theorem finv_reach {tm : Team U R T C} {rk : U → R} {l : List (Item U C M B)} {init : U → Loc U C M B}
    {F : FSt U R T C M B} (ho : Own tm) (hk : Ranked tm rk) (hl : Fine l) (hi : ∀ u, idle (init u))
    (h : FReach tm rk l init F) : FInv tm rk l init F := by
  induction h with
  | refl =>
    refine ⟨?_, fun r hr => absurd rfl hr, fun r x hx => by simp [fstart] at hx⟩
    have : view rk (fstart tm l init) = enter tm l 0 init := by
      unfold view; rw [vloc_all (sol := (fstart tm l init).sol) _ fun r => rfl]; rfl
    rw [this]
    exact .refl
  | tail _ hm ih => exact finv_move ho hk hl hi ih hm

/-- **C138.** With masters that hand in and come back at times of their own: nothing undefined is done,
no two threads are at the same unit, no thread is at a unit of a rank whose master has handed in, and
unless all is done somebody can go on. -/
theorem meet_safe {tm : Team U R T C} {rk : U → R} {l : List (Item U C M B)} {init : U → Loc U C M B}
    {F : FSt U R T C M B} (ho : Own tm) (hk : Ranked tm rk) (hl : Fine l) (hi : ∀ u, idle (init u))
    (h : FReach tm rk l init F) :
    (∀ t, F.sol (tm.rank t) = none → step tm t F.g.st ≠ .ub) ∧ ¬ Race F.g.st ∧
    (∀ t, F.gave (tm.rank t) ≠ none → F.g.st.rest t = []) ∧
    (¬ FEnded F → ∃ F', FMove tm rk F F') := by
  have inv := finv_reach ho hk hl hi h
  obtain ⟨s1, s2, -, s4⟩ := safe ho hl hi inv.reach
  have hown : ∀ t u o r, F.g.st.rest t = .unit u o :: r → rk u = tm.rank t := fun t u o r hr =>
    hk t u (rest_own ho hl hi inv.reach t u o r hr)
  refine ⟨fun t ht hu => ?_, s2, fun t ht => (inv.rest _ ht).2 t rfl, fun he => ?_⟩
  · refine s1 t ?_
    rw [step_view ht (hown t), hu]
  · by_cases hsol : ∀ r, F.sol r = none
    · have hv : view rk F = F.g := by unfold view; rw [vloc_all _ hsol]
      rw [hv] at s4
      have hne : ¬ Ended F.g := fun e => he ⟨e, hsol⟩
      obtain ⟨g', hm⟩ := s4 hne
      cases hm with
      | thread t s hs => exact ⟨_, .thread F t s (hsol _) hs⟩
      | masters f l' hf e =>
        by_cases hg : ∀ r, F.gave r ≠ none
        · exact ⟨_, .meet F f l' e hg⟩
        · simp only [not_forall, not_not] at hg
          obtain ⟨r, hr⟩ := hg
          exact ⟨_, .give F r (fun t _ => hf t) (by rw [e]; simp) hr (hsol r)⟩
    · simp only [not_forall] at hsol
      obtain ⟨r, hr⟩ := hsol
      obtain ⟨x, hx⟩ := Option.ne_none_iff_exists'.mp hr
      exact ⟨_, .back F r x hx⟩

/-- How many moves are left at most. -/
def left [Fintype T] [Fintype R] (tm : Team U R T C) (F : FSt U R T C M B) : ℕ :=
  remaining tm F.g * (2 * Fintype.card R + 1) + (∑ r, if F.sol r = none then 0 else 1) +
    ∑ r, if F.gave r = none then 1 else 0

omit [DecidableEq R] in
theorem sum_flip [Fintype R] [DecidableEq R] (a b : R → ℕ) (r : R) (h : ∀ r' ≠ r, a r' = b r') (hr : a r + 1 = b r) :
    ∑ r, a r + 1 = ∑ r, b r := by
  have e : ∑ x ∈ Finset.univ.erase r, a x = ∑ x ∈ Finset.univ.erase r, b x :=
    Finset.sum_congr rfl fun r' h' => h r' (Finset.ne_of_mem_erase h')
  have ea : a r + ∑ x ∈ Finset.univ.erase r, a x = ∑ x, a x := Finset.add_sum_erase _ a (Finset.mem_univ r)
  have eb : b r + ∑ x ∈ Finset.univ.erase r, b x = ∑ x, b x := Finset.add_sum_erase _ b (Finset.mem_univ r)
  omega

theorem move_left [Fintype T] [Fintype R] {tm : Team U R T C} {rk : U → R} {F F' : FSt U R T C M B}
    (h : FMove tm rk F F') (hrest : ∀ r, F.gave r ≠ none → F.sol r = none ∧ ∀ t, tm.rank t = r → F.g.st.rest t = []) :
    left tm F' < left tm F := by
  cases h with
  | thread t s hs hstep =>
    have := move_remaining (GMove.thread (tm := tm) F.g t s hstep)
    simp only [left]
    rw [← this]
    nlinarith
  | give r hf ht hg hs =>
    have := sum_flip (fun r' => if Function.update F.gave r (some fun u => (F.g.st.loc u).mem) r' = none then 1 else 0)
      (fun r' => if F.gave r' = none then 1 else 0) r
      (fun r' hr' => by simp only [Function.update_of_ne hr']) (by simp [hg])
    simp only [left]
    omega
  | meet f l e hg =>
    have h1 := move_remaining (GMove.masters (tm := tm) F.g f l
      (fun t => (hrest _ (hg (tm.rank t))).2 t rfl) e)
    rw [weight_enter] at h1
    simp only [left, weight_enter]
    rw [← h1]
    have h2 : (∑ r, if F.gave r = none then 1 else 0) = 0 := by simp [hg]
    have h3 : (∑ r, if F.sol r = none then 0 else 1) = 0 := by simp [fun r => (hrest r (hg r)).1]
    rw [h2, h3]
    simp
    nlinarith
  | back r x hx =>
    have := sum_flip (fun r' => if Function.update F.sol r none r' = none then 0 else 1)
      (fun r' => if F.sol r' = none then 0 else 1) r
      (fun r' hr' => by simp only [Function.update_of_ne hr']) (by simp [hx])
    have h2 : remaining tm { F.g with st := { F.g.st with loc := bring rk r x F.g.st.loc } } =
        remaining tm F.g := rfl
    simp only [left]
    rw [h2]
    omega

/-- **C138.** Every schedule begun ends: it has at most `left` moves, and can be carried to the end. -/
theorem meet_ends [Fintype T] [Fintype R] {tm : Team U R T C} {rk : U → R} {l : List (Item U C M B)}
    {init : U → Loc U C M B} (ho : Own tm) (hk : Ranked tm rk) (hl : Fine l) (hi : ∀ u, idle (init u)) :
    (∀ (F : ℕ → FSt U R T C M B) (n : ℕ), F 0 = fstart tm l init →
      (∀ i < n, FMove tm rk (F i) (F (i + 1))) → n ≤ left tm (fstart tm l init)) ∧
    ∀ F, FReach tm rk l init F → ∃ F', Relation.ReflTransGen (FMove tm rk) F F' ∧ FEnded F' := by
  constructor
  · intro F n h0 h
    have key : ∀ i ≤ n, FReach tm rk l init (F i) ∧ i + left tm (F i) ≤ left tm (fstart tm l init) := by
      intro i
      induction i with
      | zero => intro _; rw [h0]; exact ⟨.refl, by omega⟩
      | succ i ih =>
        intro hi'
        obtain ⟨a, b⟩ := ih (by omega)
        have hm := h i (by omega)
        have := move_left hm (finv_reach ho hk hl hi a).rest
        exact ⟨a.tail hm, by omega⟩
    have := (key n le_rfl).2
    omega
  · intro F h
    generalize hn : left tm F = n
    induction n using Nat.strong_induction_on generalizing F with
    | _ n ih =>
      by_cases he : FEnded F
      · exact ⟨F, .refl, he⟩
      · obtain ⟨F', hm⟩ := (meet_safe ho hk hl hi h).2.2.2 he
        have := move_left hm (finv_reach ho hk hl hi h).rest
        obtain ⟨F'', hr, he'⟩ := ih _ (by omega) F' (h.tail hm) rfl
        exact ⟨F'', .head hm hr, he'⟩

/-- **C138.** The result is that of the stages taken by all units together. -/
theorem meet_result {tm : Team U R T C} {rk : U → R} {l : List (Item U C M B)} {init : U → Loc U C M B}
    {F : FSt U R T C M B} (ho : Own tm) (hk : Ranked tm rk) (hl : Fine l) (hi : ∀ u, idle (init u))
    (h : FReach tm rk l init F) (he : FEnded F) :
    (fun u => (F.g.st.loc u).mem) =
      (together tm l 0 (plainStart init fun c u => ((init u).com c).sbuf)).mem ∧ F.g.time = total l := by
  have inv := finv_reach ho hk hl hi h
  have hv : view rk F = F.g := by unfold view; rw [vloc_all _ he.2]
  have hr := inv.reach
  rw [hv] at hr
  exact result ho hl hi hr he.1

/-! ## The run -/

section Sim

variable {nR : ℕ} {nT nU : Fin nR → ℕ} {hT : ∀ r, 0 < nT r}
  {nbrs : (Σ r, Fin (nU r)) → List (Σ r, Fin (nU r))} {early : (Σ r, Fin (nU r)) → CommType → ℕ → Bool}

omit [DecidableEq C] in
theorem ranked_sim (early : (Σ r, Fin (nU r)) → C → ℕ → Bool) :
    Ranked (simTeam nR nT nU hT nbrs early) Sigma.fst :=
  fun t u hu => ((mem_simUnits t u).mp hu).1

/-- **C138.** The steps of the Green-Naghdi program with the collective operations rank by rank: every
schedule is safe, ends, and ends with the result of the stages taken by all units together. -/
theorem gn_meet (hb : ∀ r, nU r + nT r ≤ 2 ^ 32) (hn : ∀ u v, v ∈ nbrs u → u ∈ nbrs v) (m : Method)
    (k : Kernels (Σ r, Fin (nU r)) M B) (d : Correction (Σ r, Fin (nU r)) M B) (wd sl : Bool)
    (ns nd nsteps : ℕ) (init : (Σ r, Fin (nU r)) → Loc (Σ r, Fin (nU r)) CommType M B)
    (hi : ∀ u, idle (init u)) {F : FSt (Σ r, Fin (nU r)) (Fin nR) (Σ r, Fin (nT r)) CommType M B}
    (h : FReach (simTeam nR nT nU hT nbrs early) Sigma.fst (gnRunText m k d wd sl ns nd nsteps) init F) :
    (∀ t, F.sol t.1 = none → step (simTeam nR nT nU hT nbrs early) t F.g.st ≠ .ub) ∧ ¬ Race F.g.st ∧
    (∀ t : Σ r, Fin (nT r), F.gave t.1 ≠ none → F.g.st.rest t = []) ∧
    (∃ F', Relation.ReflTransGen (FMove (simTeam nR nT nU hT nbrs early) Sigma.fst) F F' ∧ FEnded F') ∧
    (FEnded F → (fun u => (F.g.st.loc u).mem) =
      gnMem nbrs m k d wd sl ns nd nsteps 0 (fun u => (init u).mem)) := by
  have ho : Own (simTeam nR nT nU hT nbrs early) := own_sim hb hn
  have hk := ranked_sim (nT := nT) (nU := nU) (hT := hT) (nbrs := nbrs) early
  have hl := fine_run m k d wd sl ns nd nsteps
  obtain ⟨h1, h2, h3, -⟩ := meet_safe ho hk hl hi h
  refine ⟨h1, h2, h3, (meet_ends ho hk hl hi).2 F h, fun he => ?_⟩
  rw [(meet_result ho hk hl hi h he).1, steps_gn_mem]
  rfl

end Sim

/-- There is such a schedule: the ranks and units of `demoTeam`. -/
example (m : Method) : ∃ F, FReach demoTeam Sigma.fst (gnRunText m restKernels sumUp true true 2 1 3) demoInit F ∧
    FEnded F := by
  have hn : ∀ u v, v ∈ demoNbrs u → u ∈ demoNbrs v := by decide
  have hb : ∀ r, demoNU r + demoNT r ≤ 2 ^ 32 := by decide
  obtain ⟨-, -, -, ⟨F, hr, he⟩, -⟩ := gn_meet (hT := demoNT_pos) (early := fun _ _ _ => false) hb hn m
    restKernels sumUp true true 2 1 3 demoInit demo_idle Relation.ReflTransGen.refl
  exact ⟨F, hr, he⟩

end Verif.GnSchedule.Props
