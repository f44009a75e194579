import Verif.Lemmas.Rounds
import Mathlib.Data.Finset.Max
import Mathlib.Tactic.DeriveFintype

/-!
# C136: threads around a common linear system
-/

namespace Verif.Rounds.Props

set_option linter.unusedSectionVars false

variable {U R T C M G P : Type} [DecidableEq U] [DecidableEq R] [DecidableEq T] [Fintype R] [Fintype T]
variable {tm : Crew U R T} {k : Round U R C M G P} {c : C} {mem : U → M} {glob : R → G}

theorem inv_start (r0 : R) : Inv tm k r0 ⟨some c, mem, glob⟩ (start c mem glob : St U R T C M G P) fun _ => 0 where
  ctl _ := rfl
  done _ h := by simp [start] at h
  arrived _ := rfl
  mem t i u _ := by simp [start, Pc.treated, memAt, rounds]
  glob r := by simp [start, Pc.acted, rounds]
  gave r := by simp [start, Pc.given, hist]
  bar _ _ _ := by simp [start, Pc.passed]
  mast _ h := by simp [start, Pc.masterly] at h
  coll _ h := by simp [start] at h
  live _ i h := by omega
  bound t i h := by simp [start] at h; omega

theorem inv_run (hg : Good tm) (hk : Agrees k) (r0 : R) {m : ℕ} {s : St U R T C M G P}
    (h : Run tm k m (start c mem glob) s) : ∃ n, Inv tm k r0 ⟨some c, mem, glob⟩ s n := by
  generalize ha : (start c mem glob : St U R T C M G P) = a at h
  induction h with
  | refl => subst ha; exact ⟨_, inv_start r0⟩
  | tail t _ hs ih =>
    obtain ⟨n, hn⟩ := ih ha
    exact inv_step hg hk hn hs

theorem none_stays {r0 : R} {x : Snap U R C M G} {n : ℕ} (h : (rounds tm k r0 x n).ctl = none) {m : ℕ} (hm : n ≤ m) :
    rounds tm k r0 x m = rounds tm k r0 x n := by
  induction m, hm using Nat.le_induction with
  | base => rfl
  | succ m _ ih => rw [rounds, ih, round, h]

/-- **C136.** When all threads are done, the units hold what the rounds of all threads together give, whatever the schedule was. -/
theorem rounds_result (hg : Good tm) (hk : Agrees k) (r0 : R) {N : ℕ}
    (hN : (rounds tm k r0 ⟨some c, mem, glob⟩ N).ctl = none) {m : ℕ} {s : St U R T C M G P}
    (h : Run tm k m (start c mem glob) s) (hd : ∀ t, s.ctl t = none) :
    s.mem = (rounds tm k r0 ⟨some c, mem, glob⟩ N).mem ∧ s.glob = (rounds tm k r0 ⟨some c, mem, glob⟩ N).glob := by
  obtain ⟨n, hi⟩ := inv_run hg hk r0 h
  have key : ∀ t, rounds tm k r0 ⟨some c, mem, glob⟩ (n t) = rounds tm k r0 ⟨some c, mem, glob⟩ N := fun t => by
    have h1 : (rounds tm k r0 ⟨some c, mem, glob⟩ (n t)).ctl = none := by rw [← hi.ctl t, hd t]
    rcases le_total (n t) N with h2 | h2
    · exact (none_stays h1 h2).symm
    · exact none_stays hN h2
  constructor
  · funext u
    obtain ⟨i, hu⟩ := List.getElem?_of_mem ((hg.mem (tm.own u) u).2 rfl)
    rw [hi.mem _ i u hu, hi.done _ (hd _)]
    simp [Pc.treated, memAt, key]
  · funext r
    rw [hi.glob r, hi.done _ (hd _)]
    simp [Pc.acted, key]

/-- **C136.** All threads of all ranks go through the same number of rounds. -/
theorem same_rounds (hg : Good tm) (hk : Agrees k) {m : ℕ} {s : St U R T C M G P}
    (h : Run tm k m (start c mem glob) s) (hd : ∀ t, s.ctl t = none) (t t' : T) : s.arrived t = s.arrived t' := by
  obtain ⟨n, hi⟩ := inv_run hg hk (tm.rank t) h
  have h1 : ∀ a b, n b ≤ n a := fun a b => by
    by_contra hlt
    exact hi.live b (n a) (by omega) (by rw [← hi.ctl a, hd a])
  rw [hi.arrived t, hi.arrived t', hi.done t (hd t), hi.done t' (hd t'), le_antisymm (h1 t' t) (h1 t t')]

/-- **C136.** While the master of a rank reads the units of its rank and writes the shared data, the other threads of the rank are at
barriers: none of them touches a unit or reads the shared data. -/
theorem no_race (hg : Good tm) (hk : Agrees k) {m : ℕ} {s : St U R T C M G P}
    (h : Run tm k m (start c mem glob) s) {t t' : T} (hr : tm.rank t = tm.rank t') (hne : t ≠ t') (hp : s.pc t = .give ∨ s.pc t = .fetch) :
    s.pc t' = .leaveA ∨ s.pc t' = .arriveB ∨ s.pc t' = .leaveB := by
  obtain ⟨n, hi⟩ := inv_run hg hk (tm.rank t) h
  have hm : (s.pc t).masterly = true := by rcases hp with e | e <;> rw [e] <;> rfl
  obtain ⟨_, h2, h3⟩ := between hg hi hr hm
  have h4 : (s.pc t').masterly ≠ true := fun e => by
    have h5 := hi.mast t' e
    rw [← hr] at h5
    exact hne ((hi.mast t hm).trans h5.symm)
  cases e : s.pc t' <;> simp_all [Pc.arr, Pc.passed, Pc.masterly]

/-- A thread that is not in a collective operation can go on if nobody is behind it. -/
theorem can_move {r0 : R} {x : Snap U R C M G} {s : St U R T C M G P} {n : T → ℕ} (hi : Inv tm k r0 x s n) {t : T} (hc : s.ctl t ≠ none)
    (hmin : ∀ t', s.ctl t' ≠ none → s.arrived t ≤ s.arrived t') (hf : s.pc t ≠ .fetch) : ∃ s', step tm k t s = some s' := by
  have hop : open? tm t s = true := by
    refine decide_eq_true fun t' _ => ?_
    by_cases hd : s.ctl t' = none
    · have h1 : n t < n t' := by
        by_contra hlt
        refine hc ?_
        have := hi.ctl t'
        rw [hd] at this
        rw [hi.ctl t, none_stays this.symm (by omega), ← this]
      have := hi.arrived t
      have := hi.arrived t'
      have := arr_le (s.pc t)
      omega
    · exact hmin t' hd
  obtain ⟨c, hc'⟩ := Option.ne_none_iff_exists'.1 hc
  rw [step, hc', Option.bind_some]
  cases e : s.pc t with
  | before i => rw [stepAt]; cases (tm.units t)[i]? <;> exact ⟨_, rfl⟩
  | arriveA => exact ⟨_, rfl⟩
  | leaveA => rw [stepAt, if_pos hop]; exact ⟨_, rfl⟩
  | give => rw [stepAt]; by_cases h : k.coll c = true <;> simp [h]
  | fetch => exact absurd e hf
  | arriveB => exact ⟨_, rfl⟩
  | leaveB => rw [stepAt, if_pos hop]; exact ⟨_, rfl⟩
  | after i => rw [stepAt]; cases (tm.units t)[i]? <;> exact ⟨_, rfl⟩
  | test => exact ⟨_, rfl⟩

/-- **C136.** No deadlock: as long as a thread is not done, some thread can go on. -/
theorem no_deadlock (hg : Good tm) (hk : Agrees k) {m : ℕ} {s : St U R T C M G P}
    (h : Run tm k m (start c mem glob) s) (hd : ∃ t, s.ctl t ≠ none) : ∃ t s', step tm k t s = some s' := by
  classical
  obtain ⟨t0, ht0⟩ := hd
  obtain ⟨n, hi⟩ := inv_run hg hk (tm.rank t0) h
  obtain ⟨t, ht, hmin⟩ := Finset.exists_min_image (Finset.univ.filter fun t => s.ctl t ≠ none) s.arrived ⟨t0, by simpa using ht0⟩
  simp only [Finset.mem_filter, Finset.mem_univ, true_and] at ht hmin
  by_cases hf : s.pc t = .fetch
  · obtain ⟨c', hc'⟩ := Option.ne_none_iff_exists'.1 ht
    by_cases hco : complete? (tm.rank t) s = true
    · refine ⟨t, ?_⟩
      rw [step, hc', Option.bind_some, hf, stepAt, if_pos hco]
      exact ⟨_, rfl⟩
    · have hco' : ¬ ∀ r', (s.gave (tm.rank t)).length ≤ (s.gave r').length := fun e => hco (decide_eq_true e)
      push Not at hco'
      obtain ⟨r', hr'⟩ := hco'
      have hm := hi.mast t (by rw [hf]; rfl)
      have hn : n (tm.master r') + (if (s.pc (tm.master r')).given then 1 else 0) ≤ n t := by
        by_contra hlt
        rw [hi.gave, hi.gave, ← hm, hf] at hr'
        have := (hist_prefix tm k (tm.rank t0) ⟨some c, mem, glob⟩ r' (show n t + 1 ≤ n (tm.master r') + (if (s.pc (tm.master r')).given then 1 else 0) by omega)).length_le
        rw [hist_length tm k (tm.rank t0) ⟨some c, mem, glob⟩ r' (tm.rank t)] at this
        rw [show Pc.fetch.given = true from rfl, if_pos rfl] at hr'
        omega
      have a1 := hi.arrived t
      have a2 := hi.arrived (tm.master r')
      rw [hf] at a1
      simp only [Pc.arr] at a1
      have hnd : s.ctl (tm.master r') ≠ none := fun e => ht (by
        have := hi.ctl (tm.master r')
        rw [e] at this
        rw [hi.ctl t, none_stays this.symm (by omega), ← this])
      have hle : s.arrived (tm.master r') ≤ s.arrived t ∧ s.pc (tm.master r') ≠ .fetch := by
        have h0 := hmin _ hnd
        have := arr_le (s.pc (tm.master r'))
        cases e : s.pc (tm.master r') <;> simp [e, Pc.given, Pc.arr] at * <;> omega
      exact ⟨_, can_move hi hnd (fun t' h' => hle.1.trans (hmin t' h')) hle.2⟩
  · exact ⟨t, can_move hi ht (fun t' h' => hmin t' h') hf⟩

/-- How far a thread with `l` units is after a barrier. -/
def place (l : ℕ) : Pc → ℕ
  | .leaveA => 0
  | .give => 1
  | .fetch => 2
  | .arriveB => 3
  | .leaveB => 0
  | .after i => 1 + i
  | .test => l + 2
  | .before i => l + 3 + i
  | .arriveA => 2 * l + 4

/-- How far a thread is. -/
def weight (tm : Crew U R T) (s : St U R T C M G P) (t : T) : ℕ :=
  s.arrived t * (2 * (tm.units t).length + 5) + place (tm.units t).length (s.pc t)

theorem weight_step {r0 : R} {x : Snap U R C M G} {s s' : St U R T C M G P} {n : T → ℕ} (hi : Inv tm k r0 x s n) {t : T}
    (hs : step tm k t s = some s') : weight tm s t < weight tm s' t ∧ ∀ t', t' ≠ t → weight tm s' t' = weight tm s t' := by
  obtain ⟨c, hc, hs⟩ := Option.bind_eq_some_iff.1 hs
  have hbd := hi.bound t
  cases hp : s.pc t with
  | before i =>
    rw [hp, stepAt] at hs
    have hl := hbd i (Or.inl hp)
    cases hu : (tm.units t)[i]? with
    | none =>
      simp only [hu, Option.some.injEq] at hs
      subst hs
      refine ⟨?_, fun t' e => by simp [weight, go, Function.update_of_ne e]⟩
      simp [weight, go, hp, place]; omega
    | some u =>
      simp only [hu, Option.some.injEq] at hs
      subst hs
      refine ⟨?_, fun t' e => by simp [weight, go, treat, Function.update_of_ne e]⟩
      simp [weight, go, treat, hp, place]
  | arriveA =>
    rw [hp, stepAt] at hs
    obtain rfl := Option.some.inj hs
    refine ⟨?_, fun t' e => by simp [weight, go, reachBar, Function.update_of_ne e]⟩
    simp [weight, go, reachBar, hp, place, add_mul]
  | leaveA =>
    rw [hp, stepAt] at hs
    by_cases ho : open? tm t s = true
    · rw [if_pos ho] at hs
      obtain rfl := Option.some.inj hs
      refine ⟨?_, fun t' e => by simp [weight, go, Function.update_of_ne e]⟩
      by_cases hm : t = tm.master (tm.rank t)
      · rw [if_pos hm]; simp [weight, go, hp, place]
      · rw [if_neg hm]; simp [weight, go, hp, place]
    · rw [if_neg ho] at hs; simp at hs
  | give =>
    rw [hp, stepAt] at hs
    by_cases hco : k.coll c = true
    · rw [if_pos hco] at hs
      obtain rfl := Option.some.inj hs
      refine ⟨?_, fun t' e => by simp [weight, go, contribute, Function.update_of_ne e]⟩
      simp [weight, go, contribute, hp, place]
    · rw [if_neg hco] at hs
      obtain rfl := Option.some.inj hs
      refine ⟨?_, fun t' e => by simp [weight, go, setGlob, Function.update_of_ne e]⟩
      simp [weight, go, setGlob, hp, place]
  | fetch =>
    rw [hp, stepAt] at hs
    by_cases ho : complete? (tm.rank t) s = true
    · rw [if_pos ho] at hs
      obtain rfl := Option.some.inj hs
      refine ⟨?_, fun t' e => by simp [weight, go, setGlob, Function.update_of_ne e]⟩
      simp [weight, go, setGlob, hp, place]
    · rw [if_neg ho] at hs; simp at hs
  | arriveB =>
    rw [hp, stepAt] at hs
    obtain rfl := Option.some.inj hs
    refine ⟨?_, fun t' e => by simp [weight, go, reachBar, Function.update_of_ne e]⟩
    simp [weight, go, reachBar, hp, place, add_mul]
  | leaveB =>
    rw [hp, stepAt] at hs
    by_cases ho : open? tm t s = true
    · rw [if_pos ho] at hs
      obtain rfl := Option.some.inj hs
      refine ⟨?_, fun t' e => by simp [weight, go, Function.update_of_ne e]⟩
      simp [weight, go, hp, place]
    · rw [if_neg ho] at hs; simp at hs
  | after i =>
    rw [hp, stepAt] at hs
    have hl := hbd i (Or.inr hp)
    cases hu : (tm.units t)[i]? with
    | none =>
      simp only [hu, Option.some.injEq] at hs
      subst hs
      refine ⟨?_, fun t' e => by simp [weight, go, Function.update_of_ne e]⟩
      simp [weight, go, hp, place]; omega
    | some u =>
      simp only [hu, Option.some.injEq] at hs
      subst hs
      refine ⟨?_, fun t' e => by simp [weight, go, treat, Function.update_of_ne e]⟩
      simp [weight, go, treat, hp, place]
  | test =>
    rw [hp, stepAt] at hs
    obtain rfl := Option.some.inj hs
    refine ⟨?_, fun t' e => by simp [weight, go, Function.update_of_ne e]⟩
    simp [weight, go, hp, place]

theorem weight_run (hg : Good tm) (hk : Agrees k) (r0 : R) {m : ℕ} {s : St U R T C M G P}
    (h : Run tm k m (start c mem glob) s) : m ≤ ∑ t, weight tm s t := by
  classical
  generalize ha : (start c mem glob : St U R T C M G P) = a at h
  induction h with
  | refl => exact Nat.zero_le _
  | tail t hr hs ih =>
    obtain ⟨n, hi⟩ := inv_run hg hk r0 (ha ▸ hr)
    obtain ⟨h1, h2⟩ := weight_step hi hs
    refine Nat.lt_of_le_of_lt (ih ha) ?_
    exact Finset.sum_lt_sum (fun t' _ => by
      by_cases e : t' = t
      · rw [e]; exact h1.le
      · rw [h2 t' e]) ⟨t, Finset.mem_univ _, h1⟩

/-- **C136.** Every schedule ends: it has no more steps than this. -/
theorem rounds_end (hg : Good tm) (hk : Agrees k) (r0 : R) {N : ℕ}
    (hN : (rounds tm k r0 ⟨some c, mem, glob⟩ N).ctl = none) {m : ℕ} {s : St U R T C M G P}
    (h : Run tm k m (start c mem glob) s) : m ≤ ∑ t, (2 * N + 1) * (2 * (tm.units t).length + 5) := by
  refine (weight_run hg hk r0 h).trans (Finset.sum_le_sum fun t _ => ?_)
  obtain ⟨n, hi⟩ := inv_run hg hk r0 h
  have h1 : n t ≤ N := by
    by_contra hlt
    exact hi.live t N (by omega) hN
  have h2 : s.arrived t ≤ 2 * N := by
    rw [hi.arrived t]
    by_cases e : s.ctl t = none
    · rw [hi.done t e]; simp [Pc.arr]; exact h1
    · have : n t ≠ N := fun e' => e (by rw [hi.ctl t, e', hN])
      have := arr_le (s.pc t)
      omega
  have h3 : place (tm.units t).length (s.pc t) ≤ 2 * (tm.units t).length + 5 := by
    have hb := hi.bound t
    cases e : s.pc t <;> simp [place]
    · have := hb _ (Or.inl e); omega
    · have := hb _ (Or.inr e); omega
    · omega
  rw [weight, add_mul, one_mul]
  exact Nat.add_le_add (Nat.mul_le_mul_right _ h2) h3

/-! ## The implicit program -/

section Ihdg
variable {X Y : Type} (k : Newton U R M P X Y) (tm)

/-- One Newton iteration of all units: the new units and whether the correction was small. -/
def iteration (n : ℕ) (m : U → M) : (U → M) × Bool :=
  let l := fun u => k.kernels n u (m u)
  let x := k.solve fun r => some (k.assemble r fun u => if tm.rank (tm.own u) = r then some (l u) else none)
  (fun u => k.update n (k.scatter (tm.rank (tm.own u)) x) u (l u), k.small x)

/-- At most `fuel` iterations, the last one when the correction is small. -/
def newtonLoop (n : ℕ) : ℕ → (U → M) → U → M
  | 0, m => m
  | fuel + 1, m => if (iteration tm k n m).2 then (iteration tm k n m).1 else newtonLoop n fuel (iteration tm k n m).1

/-- A stage with the stepper advanced `n` times before. -/
def newtonStage (n : ℕ) (m : U → M) : U → M :=
  fun u => k.finish (n + 1) u (newtonLoop tm k n 100 (fun u => k.init n u (m u)) u)

/-- The first `n` stages. -/
def newtonRun : ℕ → (U → M) → U → M
  | 0, m => m
  | n + 1, m => newtonStage tm k n (newtonRun n m)

variable {tm}

theorem newton_agrees (nst : ℕ) : Agrees (newtonRound k nst) where
  coll c h r r' ps g g' := by cases c with
    | iter s it => rfl
    | tick s => simp [newtonRound] at h
  solo c h g g' := by cases c with
    | iter s it => simp [newtonRound] at h
    | tick s => rfl

theorem rounds_add {tm : Crew U R T} {k : Round U R C M G P} (r0 : R) (x : Snap U R C M G) (a b : ℕ) :
    rounds tm k r0 x (a + b) = rounds tm k r0 (rounds tm k r0 x a) b := by
  induction b with
  | zero => rfl
  | succ b ih => rw [Nat.add_succ, rounds, ih, rounds]

variable {k}

/-- The loop of a stage. -/
theorem loop_rounds (nst : ℕ) (r0 : R) (s : ℕ) (fuel it : ℕ) (hf : it + fuel = 100) (hpos : 0 < fuel) (x : Snap U R Ctl M (Shared Y))
    (hc : x.ctl = some (.iter s it)) (hcl : ∀ r, (x.glob r).clock = s) :
    ∃ j, (rounds tm (newtonRound k nst) r0 x j).ctl = some (.tick s) ∧
      (∀ r, ((rounds tm (newtonRound k nst) r0 x j).glob r).clock = s) ∧
      (rounds tm (newtonRound k nst) r0 x j).mem = newtonLoop tm k s fuel fun u => if it = 0 then k.init s u (x.mem u) else x.mem u := by
  induction fuel generalizing it x with
  | zero => omega
  | succ fuel ih =>
    set m0 : U → M := fun u => if it = 0 then k.init s u (x.mem u) else x.mem u with hm0
    have h1 : middle tm (newtonRound k nst) (.iter s it) x = fun u => k.kernels s u (m0 u) := by
      funext u; simp [middle, newtonRound, hcl, hm0]
    have ho : ∀ r, offer tm (newtonRound k nst) (.iter s it) x r =
        k.assemble r fun u => if tm.rank (tm.own u) = r then some (k.kernels s u (m0 u)) else none := fun r => by
      rw [offer, h1]; rfl
    have h2 : ∀ r, result tm (newtonRound k nst) (.iter s it) x r =
        ⟨k.scatter r (k.solve fun r => some (k.assemble r fun u => if tm.rank (tm.own u) = r then some (k.kernels s u (m0 u)) else none)),
          (iteration tm k s m0).2, s⟩ := fun r => by
      have e : result tm (newtonRound k nst) (.iter s it) x r =
        ⟨k.scatter r (k.solve fun r => some (offer tm (newtonRound k nst) (.iter s it) x r)),
          k.small (k.solve fun r => some (offer tm (newtonRound k nst) (.iter s it) x r)), (x.glob r).clock⟩ := rfl
      rw [e]
      simp only [ho, hcl]
      rfl
    have c1 : (round tm (newtonRound k nst) r0 x).ctl = some (if (iteration tm k s m0).2 || it + 1 == 100 then .tick s else .iter s (it + 1)) := by
      rw [round, hc]
      simp only [h2]
      rfl
    have c2 : ∀ r, ((round tm (newtonRound k nst) r0 x).glob r).clock = s := fun r => by
      rw [round, hc]
      simp only [h2]
    have c3 : (round tm (newtonRound k nst) r0 x).mem = (iteration tm k s m0).1 := by
      rw [round, hc]
      funext u
      simp only [h2, h1]
      rfl
    rw [newtonLoop]
    by_cases hs : (iteration tm k s m0).2 = true
    · refine ⟨1, ?_, c2, ?_⟩
      · rw [show rounds tm (newtonRound k nst) r0 x 1 = round tm (newtonRound k nst) r0 x from rfl, c1]; simp [hs]
      · rw [if_pos hs]; exact c3
    · rw [if_neg hs]
      by_cases h0 : fuel = 0
      · subst h0
        refine ⟨1, ?_, c2, c3⟩
        rw [show rounds tm (newtonRound k nst) r0 x 1 = round tm (newtonRound k nst) r0 x from rfl, c1]
        have : it + 1 = 100 := by omega
        simp [this]
      · have h99 : it ≠ 99 := by omega
        obtain ⟨j, d1, d2, d3⟩ := ih (it + 1) (by omega) (by omega) (round tm (newtonRound k nst) r0 x)
          (by rw [c1]; simp [hs, h99]) c2
        refine ⟨1 + j, ?_⟩
        rw [rounds_add, show rounds tm (newtonRound k nst) r0 x 1 = round tm (newtonRound k nst) r0 x from rfl]
        refine ⟨d1, d2, d3.trans ?_⟩
        simp [c3]

/-- The rounds end, with the units of `newtonRun`. -/
theorem run_rounds (nst : ℕ) (hn : 0 < nst) (r0 : R) (mem : U → M) (glob : R → Shared Y) (hcl : ∀ r, (glob r).clock = 0) :
    ∃ j, (rounds tm (newtonRound k nst) r0 ⟨some (.iter 0 0), mem, glob⟩ j).ctl = none ∧
      (rounds tm (newtonRound k nst) r0 ⟨some (.iter 0 0), mem, glob⟩ j).mem = newtonRun tm k nst mem ∧
      ∀ r, ((rounds tm (newtonRound k nst) r0 ⟨some (.iter 0 0), mem, glob⟩ j).glob r).clock = nst := by
  have key : ∀ n < nst, ∃ j, (rounds tm (newtonRound k nst) r0 ⟨some (.iter 0 0), mem, glob⟩ j).ctl = (if n + 1 < nst then some (.iter (n + 1) 0) else none) ∧
      (rounds tm (newtonRound k nst) r0 ⟨some (.iter 0 0), mem, glob⟩ j).mem = newtonRun tm k (n + 1) mem ∧
      ∀ r, ((rounds tm (newtonRound k nst) r0 ⟨some (.iter 0 0), mem, glob⟩ j).glob r).clock = n + 1 := by
    have one : ∀ n, ∀ x : Snap U R Ctl M (Shared Y), x.ctl = some (.iter n 0) → (∀ r, (x.glob r).clock = n) →
        ∃ j, (rounds tm (newtonRound k nst) r0 x j).ctl = (if n + 1 < nst then some (.iter (n + 1) 0) else none) ∧
          (rounds tm (newtonRound k nst) r0 x j).mem = newtonStage tm k n x.mem ∧
          ∀ r, ((rounds tm (newtonRound k nst) r0 x j).glob r).clock = n + 1 := by
      intro n x hx hc
      obtain ⟨j, h1, h2, h3⟩ := loop_rounds (tm := tm) (k := k) nst r0 n 100 0 (by omega) (by omega) x hx hc
      refine ⟨j + 1, ?_⟩
      have e : ∀ r, result tm (newtonRound k nst) (.tick n) (rounds tm (newtonRound k nst) r0 x j) r =
          { (rounds tm (newtonRound k nst) r0 x j).glob r with clock := ((rounds tm (newtonRound k nst) r0 x j).glob r).clock + 1 } := fun _ => rfl
      rw [rounds, round, h1]
      refine ⟨rfl, ?_, fun r => ?_⟩
      · funext u
        simp only [e, h2]
        rw [newtonStage]
        have : middle tm (newtonRound k nst) (.tick n) (rounds tm (newtonRound k nst) r0 x j) = (rounds tm (newtonRound k nst) r0 x j).mem := rfl
        rw [this, h3]
        rfl
      · simp only [e, h2]
    intro n
    induction n with
    | zero =>
      intro _
      exact one 0 ⟨some (.iter 0 0), mem, glob⟩ rfl hcl
    | succ n ih =>
      intro hlt
      obtain ⟨j, h1, h2, h3⟩ := ih (by omega)
      rw [if_pos hlt] at h1
      obtain ⟨j', d1, d2, d3⟩ := one (n + 1) _ h1 h3
      refine ⟨j + j', ?_⟩
      rw [rounds_add]
      exact ⟨d1, d2.trans (by rw [h2]; rfl), d3⟩
  obtain ⟨j, h1, h2, h3⟩ := key (nst - 1) (by omega)
  have e : nst - 1 + 1 = nst := by omega
  rw [e] at h1 h2 h3
  exact ⟨j, by rw [h1, if_neg (lt_irrefl _)], h2, h3⟩

/-- **C136.** Every schedule of the implicit program ends with the solution all threads would compute together, and the stepper of every rank has been advanced
once for each stage. -/
theorem newton_schedules (hg : Good tm) (nst : ℕ) (hn : 0 < nst) [Nonempty R] {glob : R → Shared Y} (hcl : ∀ r, (glob r).clock = 0)
    {m : ℕ} {s : St U R T Ctl M (Shared Y) P} (h : Run tm (newtonRound k nst) m (start (.iter 0 0) mem glob) s) (hd : ∀ t, s.ctl t = none) :
    s.mem = newtonRun tm k nst mem ∧ ∀ r, (s.glob r).clock = nst := by
  obtain ⟨r0⟩ := ‹Nonempty R›
  obtain ⟨j, h1, h2, h3⟩ := run_rounds (tm := tm) (k := k) nst hn r0 mem glob hcl
  obtain ⟨e1, e2⟩ := rounds_result hg (newton_agrees k nst) r0 h1 h hd
  exact ⟨e1.trans h2, fun r => by rw [e2]; exact h3 r⟩

/-- **C136.** Every schedule of the implicit program can be brought to its end, and there is a bound on its steps. -/
theorem newton_ends (hg : Good tm) (nst : ℕ) (hn : 0 < nst) [Nonempty R] {glob : R → Shared Y} (hcl : ∀ r, (glob r).clock = 0) :
    (∃ N, ∀ (m : ℕ) (s : St U R T Ctl M (Shared Y) P), Run tm (newtonRound k nst) m (start (.iter 0 0) mem glob) s → m ≤ N) ∧
    ∀ (m : ℕ) (s : St U R T Ctl M (Shared Y) P), Run tm (newtonRound k nst) m (start (.iter 0 0) mem glob) s →
      ∃ (m' : ℕ) (s' : St U R T Ctl M (Shared Y) P), Run tm (newtonRound k nst) (m + m') (start (.iter 0 0) mem glob) s' ∧ ∀ t, s'.ctl t = none := by
  obtain ⟨r0⟩ := ‹Nonempty R›
  obtain ⟨j, h1, -, -⟩ := run_rounds (tm := tm) (k := k) nst hn r0 mem glob hcl
  have hb := fun (m : ℕ) (s : St U R T Ctl M (Shared Y) P) (h : Run tm (newtonRound k nst) m (start (.iter 0 0) mem glob) s) =>
    rounds_end hg (newton_agrees k nst) r0 h1 h
  refine ⟨⟨_, hb⟩, ?_⟩
  generalize (∑ t, (2 * j + 1) * (2 * (tm.units t).length + 5)) = N at hb
  intro m s h
  obtain ⟨d, hd⟩ : ∃ d, N - m = d := ⟨_, rfl⟩
  induction d generalizing m s with
  | zero =>
    refine ⟨0, s, h, fun t => ?_⟩
    by_contra hc
    obtain ⟨t', s', hs⟩ := no_deadlock hg (newton_agrees k nst) h ⟨t, hc⟩
    have := hb _ _ (h.tail t' hs)
    omega
  | succ d ih =>
    by_cases hc : ∀ t, s.ctl t = none
    · exact ⟨0, s, h, hc⟩
    · push Not at hc
      obtain ⟨t', s', hs⟩ := no_deadlock hg (newton_agrees k nst) h hc
      obtain ⟨m', s'', h1, h2⟩ := ih (m + 1) s' (h.tail t' hs) (by omega)
      exact ⟨1 + m', s'', by rw [← Nat.add_assoc]; exact h1, h2⟩

end Ihdg

/-! ## Cases -/

/-- Two ranks with two threads and one, each with one unit. -/
def threeCrew : Crew (Fin 3) (Fin 2) (Fin 3) where
  rank t := if t = 2 then 1 else 0
  master r := if r = 0 then 0 else 2
  units t := [t]
  own u := u

theorem three_good : Good threeCrew where
  master := by decide
  mem t u := by simp [threeCrew]
  nodup t := by simp [threeCrew]

/-- A program that adds one to each unit until the sum of all units is ten. -/
def countUp : Newton (Fin 3) (Fin 2) ℕ ℕ ℕ ℕ where
  init _ _ m := m
  kernels _ _ m := m
  assemble _ m := (m 0).getD 0 + (m 1).getD 0 + (m 2).getD 0
  solve ps := (ps 0).getD 0 + (ps 1).getD 0
  scatter _ x := x
  small x := decide (10 ≤ x)
  update _ _ _ m := m + 1
  finish _ _ m := m

/-- It takes five iterations in the first stage and one in the second, under every schedule. -/
example {m : ℕ} {s : St (Fin 3) (Fin 2) (Fin 3) Ctl ℕ (Shared ℕ) ℕ}
    (h : Run threeCrew (newtonRound countUp 2) m (start (.iter 0 0) (fun _ => 0) fun _ => ⟨0, false, 0⟩) s) (hd : ∀ t, s.ctl t = none) :
    s.mem = fun _ => 6 := by
  rw [(newton_schedules three_good 2 (by omega) (fun _ => rfl) h hd).1]
  funext u
  revert u
  decide

/-- There is such a schedule. -/
example : ∃ (m : ℕ) (s : St (Fin 3) (Fin 2) (Fin 3) Ctl ℕ (Shared ℕ) ℕ),
    Run threeCrew (newtonRound countUp 2) m (start (.iter 0 0) (fun _ => 0) fun _ => ⟨0, false, 0⟩) s ∧ ∀ t, s.ctl t = none := by
  obtain ⟨m, s, h1, h2⟩ := (newton_ends (k := countUp) three_good 2 (by omega) (mem := fun _ => 0) (glob := fun _ => ⟨0, false, 0⟩) (fun _ => rfl)).2 0 _ (.refl _)
  exact ⟨_, s, h1, h2⟩

/-- Two ranks with one thread each and no units. -/
def pair : Crew (Fin 0) (Fin 2) (Fin 2) where
  rank t := t
  master r := r
  units _ := []
  own u := u.elim0

/-- A round after which rank 0 stops and rank 1 goes on: what happens if every rank looks at the norm of its own part. -/
def selfish : Round (Fin 0) (Fin 2) Bool Bool Bool Bool where
  before _ _ _ m := m
  coll _ := true
  part _ _ _ := true
  act _ r _ _ := decide (r = 0)
  solo _ g := g
  after _ _ _ m := m
  next _ g := if g then none else some true

/-- Some threads, one after the other. -/
def sched (tm : Crew U R T) (k : Round U R C M G P) : List T → St U R T C M G P → Option (St U R T C M G P)
  | [], s => some s
  | t :: l, s => (sched tm k l s).bind (step tm k t)

theorem sched_run {l : List T} {s s' : St U R T C M G P} (h : sched tm k l s = some s') : Run tm k l.length s s' := by
  induction l generalizing s' with
  | nil => obtain rfl := Option.some.inj h; exact .refl _
  | cons t l ih =>
    obtain ⟨a, h1, h2⟩ := Option.bind_eq_some_iff.1 h
    exact (ih h1).tail t h2

/-- The common decision is needed: with decisions of their own the ranks block each other. -/
theorem selfish_deadlock : Good pair ∧ ∃ (m : ℕ) (s : St (Fin 0) (Fin 2) (Fin 2) Bool Bool Bool Bool),
    Run pair selfish m (start true (fun u => u.elim0) fun _ => false) s ∧ (∃ t, s.ctl t ≠ none) ∧ ∀ t, step pair selfish t s = none := by
  refine ⟨⟨by decide, fun t u => u.elim0, fun t => List.nodup_nil⟩, ?_⟩
  have key : ∃ s, sched pair selfish (List.replicate 9 1 ++ List.replicate 5 0 ++ List.replicate 4 1 ++ List.replicate 4 0)
      (start true (fun u => u.elim0) fun _ => false) = some s ∧ (∃ t, s.ctl t ≠ none) ∧ ∀ t, (step pair selfish t s).isNone = true := by
    have h : (sched pair selfish (List.replicate 9 1 ++ List.replicate 5 0 ++ List.replicate 4 1 ++ List.replicate 4 0)
      (start true (fun u => u.elim0) fun _ => false)).isSome = true := by decide +kernel
    exact ⟨_, (Option.some_get h).symm, ⟨1, by decide +kernel +revert⟩, by decide +kernel +revert⟩
  obtain ⟨s, h1, h2, h3⟩ := key
  exact ⟨_, s, sched_run h1, h2, fun t => Option.isNone_iff_eq_none.1 (h3 t)⟩

end Verif.Rounds.Props
