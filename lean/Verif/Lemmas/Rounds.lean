import Verif.Model.Rounds
import Mathlib.Algebra.BigOperators.Group.Finset.Basic
import Mathlib.Algebra.Order.BigOperators.Group.Finset
import Mathlib.Tactic.Linarith

/-! Lemmas about `Verif.Model.Rounds`: the position of the threads determines the state. -/

namespace Verif.Rounds

set_option linter.unusedSectionVars false

variable {U R T C M G P : Type} [DecidableEq U] [DecidableEq R] [DecidableEq T] [Fintype R] [Fintype T]

/-- Every rank has its master, and every unit is in the list of its thread, once. -/
structure Good (tm : Crew U R T) : Prop where
  master : ∀ r, tm.rank (tm.master r) = r
  mem : ∀ t u, u ∈ tm.units t ↔ tm.own u = t
  nodup : ∀ t, (tm.units t).Nodup

/-- All ranks come to the same decision. -/
structure Agrees (k : Round U R C M G P) : Prop where
  coll : ∀ c, k.coll c = true → ∀ r r' ps g g', k.next c (k.act c r ps g) = k.next c (k.act c r' ps g')
  solo : ∀ c, k.coll c = false → ∀ g g', k.next c (k.solo c g) = k.next c (k.solo c g')

/-- Barriers of the round reached. -/
def Pc.arr : Pc → ℕ
  | .before _ => 0
  | .arriveA => 0
  | .leaveA => 1
  | .give => 1
  | .fetch => 1
  | .arriveB => 1
  | .leaveB => 2
  | .after _ => 2
  | .test => 2

/-- Barriers of the round passed. -/
def Pc.passed : Pc → ℕ
  | .before _ => 0
  | .arriveA => 0
  | .leaveA => 0
  | .give => 1
  | .fetch => 1
  | .arriveB => 1
  | .leaveB => 1
  | .after _ => 2
  | .test => 2

/-- The master has changed the shared data. -/
def Pc.acted : Pc → Bool
  | .before _ => false
  | .arriveA => false
  | .leaveA => false
  | .give => false
  | .fetch => false
  | .arriveB => true
  | .leaveB => true
  | .after _ => true
  | .test => true

/-- The master has contributed. -/
def Pc.given : Pc → Bool
  | .before _ => false
  | .arriveA => false
  | .leaveA => false
  | .give => false
  | .fetch => true
  | .arriveB => true
  | .leaveB => true
  | .after _ => true
  | .test => true

/-- How often the `i`-th unit has been treated. -/
def Pc.treated (i : ℕ) : Pc → ℕ
  | .before j => if i < j then 1 else 0
  | .after j => if i < j then 2 else 1
  | .test => 2
  | _ => 1

/-- Only the master is in the middle. -/
def Pc.masterly : Pc → Bool
  | .give => true
  | .fetch => true
  | _ => false

section Seq
variable (tm : Crew U R T) (k : Round U R C M G P) (r0 : R) (x : Snap U R C M G)

/-- The units in round `n` after the first kernels. -/
def mid (n : ℕ) : U → M :=
  match (rounds tm k r0 x n).ctl with
  | none => (rounds tm k r0 x n).mem
  | some c => middle tm k c (rounds tm k r0 x n)

/-- A unit in round `n` after `j` treatments. -/
def memAt (n j : ℕ) (u : U) : M :=
  if j = 0 then (rounds tm k r0 x n).mem u else if j = 1 then mid tm k r0 x n u else (rounds tm k r0 x (n + 1)).mem u

/-- The contributions of `r` before round `n`. -/
def hist (r : R) : ℕ → List P
  | 0 => []
  | n + 1 => hist r n ++ match (rounds tm k r0 x n).ctl with
    | none => []
    | some c => if k.coll c then [offer tm k c (rounds tm k r0 x n) r] else []

theorem hist_length (r r' : R) (n : ℕ) : (hist tm k r0 x r n).length = (hist tm k r0 x r' n).length := by
  induction n with
  | zero => rfl
  | succ n ih =>
    simp only [hist, List.length_append, ih]
    rcases (rounds tm k r0 x n).ctl with _ | c
    · rfl
    · by_cases h : k.coll c = true <;> simp [h]

theorem hist_prefix (r : R) {n m : ℕ} (h : n ≤ m) : hist tm k r0 x r n <+: hist tm k r0 x r m := by
  induction m, h using Nat.le_induction with
  | base => exact List.prefix_rfl
  | succ m _ ih => exact ih.trans (List.prefix_append _ _)

theorem hist_get (r r' : R) {n m : ℕ} {c : C} (hc : (rounds tm k r0 x n).ctl = some c) (hk : k.coll c = true)
    (hl : (hist tm k r0 x r (n + 1)).length ≤ (hist tm k r0 x r' m).length) :
    (hist tm k r0 x r' m)[(hist tm k r0 x r (n + 1)).length - 1]? = some (offer tm k c (rounds tm k r0 x n) r') := by
  have e : ∀ r, hist tm k r0 x r (n + 1) = hist tm k r0 x r n ++ [offer tm k c (rounds tm k r0 x n) r] := fun r => by
    simp [hist, hc, hk]
  have hm : n + 1 ≤ m := by
    by_contra hlt
    have h1 := (hist_prefix tm k r0 x r' (show m ≤ n by omega)).length_le
    have h2 := hist_length tm k r0 x r r' n
    rw [e] at hl
    simp at hl
    omega
  obtain ⟨z, hz⟩ := hist_prefix tm k r0 x r' hm
  rw [← hz, hist_length tm k r0 x r r' (n + 1), e r']
  simp

/-- The state given by the round and the place of each thread. -/
structure Inv (s : St U R T C M G P) (n : T → ℕ) : Prop where
  ctl : ∀ t, s.ctl t = (rounds tm k r0 x (n t)).ctl
  done : ∀ t, s.ctl t = none → s.pc t = .before 0
  arrived : ∀ t, s.arrived t = 2 * n t + (s.pc t).arr
  mem : ∀ t i u, (tm.units t)[i]? = some u → s.mem u = memAt tm k r0 x (n t) ((s.pc t).treated i) u
  glob : ∀ r, s.glob r = (rounds tm k r0 x (n (tm.master r) + if (s.pc (tm.master r)).acted then 1 else 0)).glob r
  gave : ∀ r, s.gave r = hist tm k r0 x r (n (tm.master r) + if (s.pc (tm.master r)).given then 1 else 0)
  bar : ∀ t t', tm.rank t = tm.rank t' → 2 * n t + (s.pc t).passed ≤ s.arrived t'
  mast : ∀ t, (s.pc t).masterly = true → t = tm.master (tm.rank t)
  coll : ∀ t, s.pc t = .fetch → ∀ c, s.ctl t = some c → k.coll c = true
  live : ∀ t, ∀ i < n t, (rounds tm k r0 x i).ctl ≠ none
  bound : ∀ t i, s.pc t = .before i ∨ s.pc t = .after i → i ≤ (tm.units t).length


variable {tm k r0 x}

theorem rounds_succ {n : ℕ} {c : C} (hc : (rounds tm k r0 x n).ctl = some c) :
    rounds tm k r0 x (n + 1) =
      { ctl := k.next c (result tm k c (rounds tm k r0 x n) r0)
        mem := fun u => k.after c (result tm k c (rounds tm k r0 x n) (tm.rank (tm.own u))) u (middle tm k c (rounds tm k r0 x n) u)
        glob := result tm k c (rounds tm k r0 x n) } := by
  rw [rounds, round, hc]

theorem mid_some {n : ℕ} {c : C} (hc : (rounds tm k r0 x n).ctl = some c) :
    mid tm k r0 x n = middle tm k c (rounds tm k r0 x n) := by rw [mid, hc]

/-- The invariant after a step of thread `t` from what the step changes. -/
theorem inv_move (hg : Good tm) {s s' : St U R T C M G P} {n : T → ℕ} (h : Inv tm k r0 x s n) (t : T) (q : Pc) (m : ℕ) (hlv : ∀ i < m, (rounds tm k r0 x i).ctl ≠ none)
    (hpc : s'.pc = Function.update s.pc t q) (hcs : ∀ t', t' ≠ t → s'.ctl t' = s.ctl t')
    (hct : s'.ctl t = (rounds tm k r0 x m).ctl) (hd : s'.ctl t = none → q = .before 0)
    (has : ∀ t', t' ≠ t → s'.arrived t' = s.arrived t') (hat : s'.arrived t = 2 * m + q.arr) (hle : s.arrived t ≤ s'.arrived t)
    (hms : ∀ u, tm.own u ≠ t → s'.mem u = s.mem u)
    (hmt : ∀ i u, (tm.units t)[i]? = some u → s'.mem u = memAt tm k r0 x m (q.treated i) u)
    (hgs : ∀ r, tm.master r ≠ t → s'.glob r = s.glob r)
    (hgt : ∀ r, tm.master r = t → s'.glob r = (rounds tm k r0 x (m + if q.acted then 1 else 0)).glob r)
    (hvs : ∀ r, tm.master r ≠ t → s'.gave r = s.gave r)
    (hvt : ∀ r, tm.master r = t → s'.gave r = hist tm k r0 x r (m + if q.given then 1 else 0))
    (hb : ∀ t', tm.rank t = tm.rank t' → 2 * m + q.passed ≤ s'.arrived t')
    (hmas : q.masterly = true → t = tm.master (tm.rank t)) (hcl : q = .fetch → ∀ c, s'.ctl t = some c → k.coll c = true)
    (hbd : ∀ i, q = .before i ∨ q = .after i → i ≤ (tm.units t).length) :
    Inv tm k r0 x s' (Function.update n t m) := by
  have harr : ∀ t', s.arrived t' ≤ s'.arrived t' := fun t' => by
    by_cases e : t' = t
    · rw [e]; exact hle
    · rw [has t' e]
  constructor
  · intro t'
    by_cases e : t' = t
    · subst e; simpa using hct
    · rw [hcs t' e, Function.update_of_ne e]; exact h.ctl t'
  · intro t' hn
    by_cases e : t' = t
    · subst e; rw [hpc]; simpa using hd hn
    · rw [hcs t' e] at hn; rw [hpc, Function.update_of_ne e]; exact h.done t' hn
  · intro t'
    by_cases e : t' = t
    · subst e; rw [hpc]; simpa using hat
    · rw [has t' e, hpc, Function.update_of_ne e, Function.update_of_ne e]; exact h.arrived t'
  · intro t' i u hu
    by_cases e : t' = t
    · subst e; rw [hpc]; simpa using hmt i u hu
    · have ho : tm.own u = t' := (hg.mem t' u).1 (List.mem_of_getElem? hu)
      rw [hms u (by rw [ho]; exact e), hpc, Function.update_of_ne e, Function.update_of_ne e]; exact h.mem t' i u hu
  · intro r
    by_cases e : tm.master r = t
    · rw [hpc, e]; simpa using hgt r e
    · rw [hgs r e, hpc, Function.update_of_ne e, Function.update_of_ne e]; exact h.glob r
  · intro r
    by_cases e : tm.master r = t
    · rw [hpc, e]; simpa using hvt r e
    · rw [hvs r e, hpc, Function.update_of_ne e, Function.update_of_ne e]; exact h.gave r
  · intro a b hab
    by_cases e : a = t
    · subst e; rw [hpc]; simpa using hb b hab
    · rw [hpc, Function.update_of_ne e, Function.update_of_ne e]; exact (h.bar a b hab).trans (harr b)
  · intro t' hm'
    by_cases e : t' = t
    · subst e; rw [hpc] at hm'; exact hmas (by simpa using hm')
    · rw [hpc, Function.update_of_ne e] at hm'; exact h.mast t' hm'
  · intro t' hf c hc
    by_cases e : t' = t
    · subst e; rw [hpc] at hf; exact hcl (by simpa using hf) c hc
    · rw [hpc, Function.update_of_ne e] at hf; rw [hcs t' e] at hc; exact h.coll t' hf c hc
  · intro t'
    by_cases e : t' = t
    · subst e; simpa using hlv
    · rw [Function.update_of_ne e]; exact h.live t'
  · intro t' i hi
    by_cases e : t' = t
    · subst e; rw [hpc] at hi; exact hbd i (by simpa using hi)
    · rw [hpc, Function.update_of_ne e] at hi; exact h.bound t' i hi

theorem acted_cases (p : Pc) : (p.acted = false ∧ p.arr ≤ 1) ∨ (p.acted = true ∧ 1 ≤ p.passed ∧ p.arr ≤ 2) := by
  cases p <;> simp [Pc.acted, Pc.arr, Pc.passed]

/-- Outside the barriers the shared data are those of the round. -/
theorem glob_even (hg : Good tm) {s : St U R T C M G P} {n : T → ℕ} (h : Inv tm k r0 x s n) (t : T) (a : ℕ)
    (h1 : s.arrived t = 2 * a) (h2 : 2 * n t + (s.pc t).passed = 2 * a) :
    s.glob (tm.rank t) = (rounds tm k r0 x a).glob (tm.rank t) := by
  have b1 := h.bar t (tm.master (tm.rank t)) (hg.master _).symm
  have b2 := h.bar (tm.master (tm.rank t)) t (hg.master _)
  have b3 := h.arrived (tm.master (tm.rank t))
  rw [h.glob]
  congr 2
  rcases acted_cases (s.pc (tm.master (tm.rank t))) with ⟨e, e1⟩ | ⟨e, e1, e2⟩ <;> rw [e] <;> simp <;> omega

theorem between_cases (p : Pc) (h1 : 1 ≤ p.arr) (h2 : p.passed ≤ 1) (i : ℕ) : p.treated i = 1 := by
  cases p <;> simp [Pc.treated, Pc.arr, Pc.passed] at *

theorem arr_le (p : Pc) : p.arr ≤ 2 := by cases p <;> simp [Pc.arr]

/-- While the master is between the barriers, so are the other threads of its rank. -/
theorem between (_hg : Good tm) {s : St U R T C M G P} {n : T → ℕ} (h : Inv tm k r0 x s n) {t t' : T} (hr : tm.rank t = tm.rank t')
    (hm : (s.pc t).masterly = true) : n t' = n t ∧ 1 ≤ (s.pc t').arr ∧ (s.pc t').passed ≤ 1 := by
  have b1 := h.bar t t' hr
  have b2 := h.bar t' t hr.symm
  have b3 := h.arrived t
  have b4 := h.arrived t'
  have e : (s.pc t).arr = 1 ∧ (s.pc t).passed = 1 := by
    cases hp : s.pc t <;> simp [hp, Pc.masterly, Pc.arr, Pc.passed] at *
  have := arr_le (s.pc t')
  omega

theorem seen_mid (hg : Good tm) {s : St U R T C M G P} {n : T → ℕ} (h : Inv tm k r0 x s n) {t : T} (hm : (s.pc t).masterly = true)
    {c : C} (hc : s.ctl t = some c) :
    k.part c (tm.rank t) (seen tm (tm.rank t) s.mem) = offer tm k c (rounds tm k r0 x (n t)) (tm.rank t) := by
  rw [offer]
  congr 1
  funext u
  simp only [seen]
  by_cases e : tm.rank (tm.own u) = tm.rank t
  · rw [if_pos e, if_pos e]
    obtain ⟨i, hi⟩ := List.getElem?_of_mem ((hg.mem (tm.own u) u).2 rfl)
    obtain ⟨e1, e2, e3⟩ := between hg h e.symm hm
    rw [h.mem _ i u hi, e1, between_cases _ e2 e3, ← mid_some (by rw [← h.ctl t, hc])]
    rfl
  · rw [if_neg e, if_neg e]


theorem own_get (hg : Good tm) {t : T} {i : ℕ} {u : U} (hu : (tm.units t)[i]? = some u) : tm.own u = t :=
  (hg.mem t u).1 (List.mem_of_getElem? hu)

theorem get_inj (hg : Good tm) {t : T} {i j : ℕ} {u : U} (hi : (tm.units t)[i]? = some u) (hj : (tm.units t)[j]? = some u) : i = j := by
  obtain ⟨h1, h2⟩ := List.getElem?_eq_some_iff.1 hi
  obtain ⟨h3, h4⟩ := List.getElem?_eq_some_iff.1 hj
  exact (List.Nodup.getElem_inj_iff (hg.nodup t)).1 (h2.trans h4.symm)

/-- A step that only moves thread `t` on. -/
theorem inv_go (hg : Good tm) {s : St U R T C M G P} {n : T → ℕ} (h : Inv tm k r0 x s n) (t : T) (q : Pc) {c : C} (hc : s.ctl t = some c)
    (ha : q.arr = (s.pc t).arr) (ht : ∀ i < (tm.units t).length, q.treated i = (s.pc t).treated i)
    (hact : t = tm.master (tm.rank t) → q.acted = (s.pc t).acted) (hgiv : t = tm.master (tm.rank t) → q.given = (s.pc t).given)
    (hb : ∀ t', tm.rank t = tm.rank t' → 2 * n t + q.passed ≤ s.arrived t')
    (hmas : q.masterly = true → t = tm.master (tm.rank t)) (hnf : q ≠ .fetch)
    (hbd : ∀ i, q = .before i ∨ q = .after i → i ≤ (tm.units t).length) :
    ∃ n', Inv tm k r0 x (go t q s) n' := by
  have hmr : ∀ r, tm.master r = t → t = tm.master (tm.rank t) := fun r e => by rw [← e, hg.master]
  refine ⟨_, inv_move hg h t q (n t) (h.live t) rfl (fun _ _ => rfl) (h.ctl t) (fun e => ?_) (fun _ _ => rfl) ?_ le_rfl
    (fun _ _ => rfl) (fun i u hu => ?_) (fun _ _ => rfl) (fun r e => ?_) (fun _ _ => rfl) (fun r e => ?_) hb hmas (fun e => absurd e hnf) hbd⟩
  · rw [show (go t q s).ctl t = s.ctl t from rfl, hc] at e; simp at e
  · rw [ha]; exact h.arrived t
  · rw [ht i (List.getElem?_eq_some_iff.1 hu).1]; exact h.mem t i u hu
  · rw [hact (hmr r e), ← e]; exact h.glob r
  · rw [hgiv (hmr r e), ← e]; exact h.gave r

/-- A step that reaches a barrier. -/
theorem inv_reach (hg : Good tm) {s : St U R T C M G P} {n : T → ℕ} (h : Inv tm k r0 x s n) (t : T) (q : Pc) {c : C} (hc : s.ctl t = some c)
    (ha : q.arr = (s.pc t).arr + 1) (ht : ∀ i, q.treated i = (s.pc t).treated i)
    (hact : q.acted = (s.pc t).acted) (hgiv : q.given = (s.pc t).given) (hp : q.passed = (s.pc t).passed)
    (hmas : q.masterly = true → t = tm.master (tm.rank t)) (hnf : q ≠ .fetch)
    (hbd : ∀ i, q = .before i ∨ q = .after i → i ≤ (tm.units t).length) :
    ∃ n', Inv tm k r0 x (reachBar t q s) n' := by
  have harr := h.arrived t
  refine ⟨_, inv_move hg h t q (n t) (h.live t) rfl (fun _ _ => rfl) (h.ctl t) (fun e => ?_) (fun t' e => Function.update_of_ne e _ _) ?_ ?_
    (fun _ _ => rfl) (fun i u hu => ?_) (fun _ _ => rfl) (fun r e => ?_) (fun _ _ => rfl) (fun r e => ?_) (fun t' e => ?_) hmas (fun e => absurd e hnf) hbd⟩
  · rw [show (reachBar t q s).ctl t = s.ctl t from rfl, hc] at e; simp at e
  · simp only [reachBar, Function.update_self]; omega
  · simp only [reachBar, Function.update_self]; omega
  · rw [ht i]; exact h.mem t i u hu
  · rw [hact, ← e]; exact h.glob r
  · rw [hgiv, ← e]; exact h.gave r
  · have := h.bar t t' e
    rw [hp]
    by_cases e' : t' = t
    · subst e'; simp only [reachBar, Function.update_self]; omega
    · simp only [reachBar, Function.update_of_ne e']; exact this

/-- Every step keeps the invariant. -/
theorem inv_step (hg : Good tm) (hk : Agrees k) {s s' : St U R T C M G P} {n : T → ℕ} (h : Inv tm k r0 x s n) {t : T}
    (hs : step tm k t s = some s') : ∃ n', Inv tm k r0 x s' n' := by
  obtain ⟨c, hc, hs⟩ := Option.bind_eq_some_iff.1 hs
  have hcn : (rounds tm k r0 x (n t)).ctl = some c := by rw [← h.ctl t, hc]
  have harr := h.arrived t
  have hbar := h.bar t
  have hmr : ∀ r, tm.master r = t → tm.rank t = r := fun r e => by rw [← e, hg.master]
  cases hp : s.pc t with
  | before i =>
    rw [hp, stepAt] at hs
    have hev : s.glob (tm.rank t) = (rounds tm k r0 x (n t)).glob (tm.rank t) :=
      glob_even hg h t (n t) (by rw [harr, hp]; rfl) (by rw [hp]; rfl)
    cases hu : (tm.units t)[i]? with
    | none =>
      simp only [hu, Option.some.injEq] at hs
      subst hs
      have hl := List.getElem?_eq_none_iff.1 hu
      refine inv_go hg h t .arriveA hc (by rw [hp]; rfl) (fun j hj => ?_) (fun _ => by rw [hp]; rfl) (fun _ => by rw [hp]; rfl)
        (fun t' e => ?_) (by simp [Pc.masterly]) (by simp) (by simp)
      · rw [hp]; simp [Pc.treated]; omega
      · have := hbar t' e; rw [hp] at this; exact this
    | some u =>
      simp only [hu, Option.some.injEq] at hs
      subst hs
      have ho := own_get hg hu
      refine ⟨_, inv_move hg h t (.before (i + 1)) (n t) (h.live t) rfl (fun _ _ => rfl) (h.ctl t) (fun e => ?_) (fun _ _ => rfl) ?_ le_rfl
        (fun v hv => ?_) (fun j v hv => ?_) (fun _ _ => rfl) (fun r e => ?_) (fun _ _ => rfl) (fun r e => ?_) (fun t' e => ?_) (by simp [Pc.masterly]) (by simp) (fun j hj => ?_)⟩
      · rw [show (go t (.before (i + 1)) (treat (k.before c (s.glob (tm.rank t))) u s)).ctl t = s.ctl t from rfl, hc] at e; simp at e
      · have := harr; rw [hp] at this; exact this
      · simp only [go, treat]
        rw [Function.update_of_ne]
        rintro rfl
        exact hv ho
      · simp only [go, treat]
        by_cases e : v = u
        · subst e
          have hji := get_inj hg hv hu
          subst hji
          rw [Function.update_self, h.mem t j v hu, hp, hev]
          simp [Pc.treated, memAt, mid_some hcn, middle, ho]
        · rw [Function.update_of_ne e, h.mem t j v hv, hp]
          have hji : j ≠ i := by
            rintro rfl
            rw [hu] at hv
            exact e (Option.some.inj hv).symm
          have : j < i + 1 ↔ j < i := by omega
          simp [Pc.treated, this]
      · have := h.glob r; rw [e, hp] at this; exact this
      · have := h.gave r; rw [e, hp] at this; exact this
      · have := hbar t' e; rw [hp] at this; exact this
      · have := (List.getElem?_eq_some_iff.1 hu).1
        simp at hj; omega
  | arriveA =>
    rw [hp, stepAt] at hs
    obtain rfl := Option.some.inj hs
    exact inv_reach hg h t .leaveA hc (by rw [hp]; rfl) (fun _ => by rw [hp]; rfl) (by rw [hp]; rfl) (by rw [hp]; rfl) (by rw [hp]; rfl)
      (by simp [Pc.masterly]) (by simp) (by simp)
  | leaveA =>
    rw [hp, stepAt] at hs
    by_cases ho : open? tm t s = true
    · rw [if_pos ho] at hs
      obtain rfl := Option.some.inj hs
      have ho' := of_decide_eq_true ho
      rw [harr, hp] at ho'
      by_cases hm : t = tm.master (tm.rank t)
      · rw [if_pos hm]
        exact inv_go hg h t .give hc (by rw [hp]; rfl) (fun _ _ => by rw [hp]; rfl) (fun _ => by rw [hp]; rfl) (fun _ => by rw [hp]; rfl)
          (fun t' e => ho' t' e.symm) (fun _ => hm) (by simp) (by simp)
      · rw [if_neg hm]
        exact inv_go hg h t .arriveB hc (by rw [hp]; rfl) (fun _ _ => by rw [hp]; rfl) (fun e => absurd e hm) (fun e => absurd e hm)
          (fun t' e => ho' t' e.symm) (by simp [Pc.masterly]) (by simp) (by simp)
    · rw [if_neg ho] at hs; simp at hs
  | give =>
    rw [hp, stepAt] at hs
    have hm := h.mast t (by rw [hp]; rfl)
    by_cases hco : k.coll c = true
    · rw [if_pos hco] at hs
      obtain rfl := Option.some.inj hs
      refine ⟨_, inv_move hg h t .fetch (n t) (h.live t) rfl (fun _ _ => rfl) (h.ctl t) (fun e => ?_) (fun _ _ => rfl) ?_ le_rfl
        (fun _ _ => rfl) (fun j v hv => ?_) (fun _ _ => rfl) (fun r e => ?_) (fun r e => ?_) (fun r e => ?_) (fun t' e => ?_) (fun _ => hm) (fun _ c' hc' => by obtain rfl := Option.some.inj (hc.symm.trans hc'); exact hco) (by simp)⟩
      · simp [go, contribute, hc] at e
      · have := harr; rw [hp] at this; exact this
      · have := h.mem t j v hv; rw [hp] at this; exact this
      · have := h.glob r; rw [e, hp] at this; exact this
      · simp only [go, contribute]
        rw [Function.update_of_ne]
        rintro rfl
        exact e hm.symm
      · have hr := hmr r e
        subst hr
        have := h.gave (tm.rank t)
        rw [e, hp] at this
        simp only [go, contribute, Function.update_self]
        rw [this, seen_mid hg h (by rw [hp]; rfl) hc]
        simp [Pc.given, hist, hcn, hco]
      · have := hbar t' e; rw [hp] at this; exact this
    · rw [if_neg hco] at hs
      obtain rfl := Option.some.inj hs
      refine ⟨_, inv_move hg h t .arriveB (n t) (h.live t) rfl (fun _ _ => rfl) (h.ctl t) (fun e => ?_) (fun _ _ => rfl) ?_ le_rfl
        (fun _ _ => rfl) (fun j v hv => ?_) (fun r e => ?_) (fun r e => ?_) (fun _ _ => rfl) (fun r e => ?_) (fun t' e => ?_) (by simp [Pc.masterly]) (by simp) (by simp)⟩
      · simp [go, setGlob, hc] at e
      · have := harr; rw [hp] at this; exact this
      · have := h.mem t j v hv; rw [hp] at this; exact this
      · simp only [go, setGlob]
        rw [Function.update_of_ne]
        rintro rfl
        exact e hm.symm
      · have hr := hmr r e
        subst hr
        have := h.glob (tm.rank t)
        rw [e, hp] at this
        simp only [go, setGlob, Function.update_self, Pc.acted, if_true, rounds_succ hcn, result, if_neg hco]
        rw [this]
        simp [Pc.acted]
      · have := h.gave r
        rw [e, hp] at this
        simp only [go, setGlob]
        rw [this]
        simp [Pc.given, hist, hcn, hco]
      · have := hbar t' e; rw [hp] at this; exact this
  | fetch =>
    rw [hp, stepAt] at hs
    have hm := h.mast t (by rw [hp]; rfl)
    by_cases hco : complete? (tm.rank t) s = true
    · rw [if_pos hco] at hs
      obtain rfl := Option.some.inj hs
      have hco' := of_decide_eq_true hco
      refine ⟨_, inv_move hg h t .arriveB (n t) (h.live t) rfl (fun _ _ => rfl) (h.ctl t) (fun e => ?_) (fun _ _ => rfl) ?_ le_rfl
        (fun _ _ => rfl) (fun j v hv => ?_) (fun r e => ?_) (fun r e => ?_) (fun _ _ => rfl) (fun r e => ?_) (fun t' e => ?_) (by simp [Pc.masterly]) (by simp) (by simp)⟩
      · simp [go, setGlob, hc] at e
      · have := harr; rw [hp] at this; exact this
      · have := h.mem t j v hv; rw [hp] at this; exact this
      · simp only [go, setGlob]
        rw [Function.update_of_ne]
        rintro rfl
        exact e hm.symm
      · have hr := hmr r e
        subst hr
        have hgl := h.glob (tm.rank t)
        have hgv := h.gave (tm.rank t)
        rw [e, hp] at hgl hgv
        simp only [Pc.acted, Pc.given, if_true] at hgl hgv
        have hcoll : k.coll c = true := h.coll t hp c hc
        simp only [go, setGlob, Function.update_self, Pc.acted, if_true, rounds_succ hcn, result, if_pos hcoll]
        have hps : (fun r => (s.gave r)[(s.gave (tm.rank t)).length - 1]?) = fun r' => some (offer tm k c (rounds tm k r0 x (n t)) r') := by
          funext r'
          have hl := hco' r'
          rw [hgv, h.gave r'] at hl ⊢
          exact hist_get tm k r0 x _ _ hcn hcoll hl
        rw [hps, hgl]
        simp
      · have := h.gave r; rw [e, hp] at this; exact this
      · have := hbar t' e; rw [hp] at this; exact this
    · rw [if_neg hco] at hs; simp at hs
  | arriveB =>
    rw [hp, stepAt] at hs
    obtain rfl := Option.some.inj hs
    exact inv_reach hg h t .leaveB hc (by rw [hp]; rfl) (fun _ => by rw [hp]; rfl) (by rw [hp]; rfl) (by rw [hp]; rfl) (by rw [hp]; rfl)
      (by simp [Pc.masterly]) (by simp) (by simp)
  | leaveB =>
    rw [hp, stepAt] at hs
    by_cases ho : open? tm t s = true
    · rw [if_pos ho] at hs
      obtain rfl := Option.some.inj hs
      have ho' := of_decide_eq_true ho
      rw [harr, hp] at ho'
      exact inv_go hg h t (.after 0) hc (by rw [hp]; rfl) (fun _ _ => by rw [hp]; rfl) (fun _ => by rw [hp]; rfl) (fun _ => by rw [hp]; rfl)
          (fun t' e => ho' t' e.symm) (by simp [Pc.masterly]) (by simp) (by simp)
    · rw [if_neg ho] at hs; simp at hs
  | after i =>
    rw [hp, stepAt] at hs
    have hev : s.glob (tm.rank t) = (rounds tm k r0 x (n t + 1)).glob (tm.rank t) :=
      glob_even hg h t (n t + 1) (by rw [harr, hp]; rfl) (by rw [hp]; rfl)
    cases hu : (tm.units t)[i]? with
    | none =>
      simp only [hu, Option.some.injEq] at hs
      subst hs
      have hl := List.getElem?_eq_none_iff.1 hu
      refine inv_go hg h t .test hc (by rw [hp]; rfl) (fun j hj => ?_) (fun _ => by rw [hp]; rfl) (fun _ => by rw [hp]; rfl)
        (fun t' e => ?_) (by simp [Pc.masterly]) (by simp) (by simp)
      · rw [hp]; simp [Pc.treated]; omega
      · have := hbar t' e; rw [hp] at this; exact this
    | some u =>
      simp only [hu, Option.some.injEq] at hs
      subst hs
      have ho := own_get hg hu
      refine ⟨_, inv_move hg h t (.after (i + 1)) (n t) (h.live t) rfl (fun _ _ => rfl) (h.ctl t) (fun e => ?_) (fun _ _ => rfl) ?_ le_rfl
        (fun v hv => ?_) (fun j v hv => ?_) (fun _ _ => rfl) (fun r e => ?_) (fun _ _ => rfl) (fun r e => ?_) (fun t' e => ?_) (by simp [Pc.masterly]) (by simp) (fun j hj => ?_)⟩
      · simp [go, treat, hc] at e
      · have := harr; rw [hp] at this; exact this
      · simp only [go, treat]
        rw [Function.update_of_ne]
        rintro rfl
        exact hv ho
      · simp only [go, treat]
        by_cases e : v = u
        · subst e
          have hji := get_inj hg hv hu
          subst hji
          rw [Function.update_self, h.mem t j v hu, hp, hev, rounds_succ hcn]
          simp [Pc.treated, memAt, mid_some hcn, rounds_succ hcn, ho]
        · rw [Function.update_of_ne e, h.mem t j v hv, hp]
          have hji : j ≠ i := by
            rintro rfl
            rw [hu] at hv
            exact e (Option.some.inj hv).symm
          have : j < i + 1 ↔ j < i := by omega
          simp [Pc.treated, this]
      · have := h.glob r; rw [e, hp] at this; exact this
      · have := h.gave r; rw [e, hp] at this; exact this
      · have := hbar t' e; rw [hp] at this; exact this
      · have := (List.getElem?_eq_some_iff.1 hu).1
        simp at hj; omega
  | test =>
    rw [hp, stepAt] at hs
    obtain rfl := Option.some.inj hs
    have hev : s.glob (tm.rank t) = (rounds tm k r0 x (n t + 1)).glob (tm.rank t) :=
      glob_even hg h t (n t + 1) (by rw [harr, hp]; rfl) (by rw [hp]; rfl)
    refine ⟨_, inv_move hg h t (.before 0) (n t + 1) (fun i hi => by
      rcases Nat.lt_succ_iff_lt_or_eq.1 hi with hi | rfl
      · exact h.live t i hi
      · rw [hcn]; simp) rfl (fun t' e => Function.update_of_ne e _ _) ?_ (fun _ => rfl) (fun _ _ => rfl) ?_ le_rfl
      (fun _ _ => rfl) (fun j v hv => ?_) (fun _ _ => rfl) (fun r e => ?_) (fun _ _ => rfl) (fun r e => ?_) (fun t' e => ?_) (by simp [Pc.masterly]) (by simp) (by simp)⟩
    · simp only [Function.update_self]
      rw [hev, rounds_succ hcn]
      simp only [result]
      by_cases hco : k.coll c = true
      · rw [if_pos hco, if_pos hco]; exact hk.coll c hco _ _ _ _ _
      · rw [if_neg hco, if_neg hco]; exact hk.solo c (by simpa using hco) _ _
    · have := harr; rw [hp] at this; simp only [go]; rw [this]; simp [Pc.arr]; omega
    · have := h.mem t j v hv; rw [hp] at this; exact this
    · have := h.glob r; rw [e, hp] at this; exact this
    · have := h.gave r; rw [e, hp] at this; exact this
    · have := hbar t' e; rw [hp] at this; simp only [go]; simp [Pc.passed] at *; omega

end Seq

end Verif.Rounds
