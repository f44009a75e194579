import Verif.Lemmas.Schedule

/-!
# The lockstep run: what the requests look like after each line
-/

namespace Verif.Schedule

variable {U R T C M B : Type} [DecidableEq U] [DecidableEq R] [DecidableEq T] [DecidableEq C]

omit [DecidableEq U] in
theorem flags_append (c : C) (f : Flags) (a b : List (UOp U C M B)) :
    flags c f (a ++ b) = flags c (flags c f a) b := List.foldl_append ..

omit [DecidableEq U] in
theorem checked_append (c : C) (f : Flags) (a b : List (UOp U C M B)) :
    checked c f (a ++ b) = (checked c f a && checked c (flags c f a) b) := by
  induction a generalizing f with
  | nil => simp [checked, flags]
  | cons o a ih => simp only [List.cons_append, checked, ih, flags, List.foldl_cons, Bool.and_assoc]

omit [DecidableEq R] [DecidableEq T] in
theorem lock_append (tm : Team U R T C) (a b : List (ℕ × UOp U C M B)) (xs : U → Loc U C M B) :
    lock tm (a ++ b) xs = lock tm b (lock tm a xs) := by
  induction a generalizing xs with
  | nil => rfl
  | cons p a ih => obtain ⟨n, o⟩ := p; exact ih _

/-- The requests of a unit as the text says. -/
structure Agree (tm : Team U R T C) (u : U) (c : C) (l : List (UOp U C M B)) (q : Req U B) : Prop where
  rAct : q.rAct = (flags c idleFlags l).rA
  sAct : q.sAct = (flags c idleFlags l).sA
  started : q.started = l.countP (isSend c)
  posted : q.posted = l.countP (isPost c)
  balP : q.posted = q.recvd + (flags c idleFlags l).rA.toNat
  balS : q.started = q.recvd + (flags c idleFlags l).nw.toNat
  len : ∀ v ∈ tm.nbrs u, (q.out v).length = q.started

omit [DecidableEq R] [DecidableEq T] in
/-- An operation keeps the requests as the text says. -/
theorem agree_step (tm : Team U R T C) (u : U) (c : C) (l : List (UOp U C M B)) (o : UOp U C M B) (n : ℕ)
    (xs : U → Loc U C M B) (hok : okay c (flags c idleFlags l) o = true)
    (h : Agree tm u c l ((xs u).com c)) :
    Agree tm u c (l ++ [o]) ((eff tm o u n xs).com c) := by
  obtain ⟨h1, h2, h3, h4, h5, h6, h7⟩ := h
  have hf : flags c idleFlags (l ++ [o]) = flag c (flags c idleFlags l) o := by
    rw [flags_append]; rfl
  cases o with
  | work f =>
    refine ⟨?_, ?_, ?_, ?_, ?_, ?_, ?_⟩ <;>
      simp_all [eff, flag, List.countP_append, isSend, isPost]
  | take d f =>
    refine ⟨?_, ?_, ?_, ?_, ?_, ?_, ?_⟩ <;>
      simp_all [eff, flag, List.countP_append, isSend, isPost]
  | pack d f =>
    by_cases hd : d = c
    · subst hd
      refine ⟨?_, ?_, ?_, ?_, ?_, ?_, ?_⟩ <;>
        simp_all [eff, setCom, flag, List.countP_append, isSend, isPost]
    · have hd' : ¬ c = d := fun e => hd e.symm
      refine ⟨?_, ?_, ?_, ?_, ?_, ?_, ?_⟩ <;>
        simp_all [eff, setCom, flag, List.countP_append, isSend, isPost]
  | post d =>
    by_cases hd : d = c
    · subst hd
      have hr : (flags d idleFlags l).rA = false := by simpa [okay] using hok
      rw [hr] at h5
      simp only [Bool.toNat_false, Nat.add_zero] at h5
      refine ⟨?_, ?_, ?_, ?_, ?_, ?_, ?_⟩ <;>
        simp_all [eff, setCom, flag, List.countP_append, isSend, isPost]
    · have hd' : ¬ c = d := fun e => hd e.symm
      refine ⟨?_, ?_, ?_, ?_, ?_, ?_, ?_⟩ <;>
        simp_all [eff, setCom, flag, List.countP_append, isSend, isPost]
  | send d =>
    by_cases hd : d = c
    · subst hd
      have hr : (flags d idleFlags l).nw = false := by
        have := hok; simp [okay] at this; exact this.2
      rw [hr] at h6
      simp only [Bool.toNat_false, Nat.add_zero] at h6
      refine ⟨?_, ?_, ?_, ?_, ?_, ?_, ?_⟩ <;>
        simp_all [eff, setCom, flag, List.countP_append, isSend, isPost]
    · have hd' : ¬ c = d := fun e => hd e.symm
      refine ⟨?_, ?_, ?_, ?_, ?_, ?_, ?_⟩ <;>
        simp_all [eff, setCom, flag, List.countP_append, isSend, isPost]
  | waitR d =>
    by_cases hd : d = c
    · subst hd
      have hr : (flags d idleFlags l).rA = true ∧ (flags d idleFlags l).nw = true := by
        simpa [okay] using hok
      rw [hr.1] at h5 h1
      rw [hr.2] at h6
      simp only [Bool.toNat_true] at h5 h6
      refine ⟨?_, ?_, ?_, ?_, ?_, ?_, ?_⟩ <;>
        simp_all [eff, setCom, flag, List.countP_append, isSend, isPost]
    · have hd' : ¬ c = d := fun e => hd e.symm
      by_cases ha : ((xs u).com d).rAct = true
      · refine ⟨?_, ?_, ?_, ?_, ?_, ?_, ?_⟩ <;>
          simp_all [eff, setCom, flag, List.countP_append, isSend, isPost]
      · refine ⟨?_, ?_, ?_, ?_, ?_, ?_, ?_⟩ <;>
          simp_all [eff, setCom, flag, List.countP_append, isSend, isPost]
  | waitS d =>
    by_cases hd : d = c
    · subst hd
      refine ⟨?_, ?_, ?_, ?_, ?_, ?_, ?_⟩ <;>
        simp_all [eff, setCom, flag, List.countP_append, isSend, isPost]
    · have hd' : ¬ c = d := fun e => hd e.symm
      refine ⟨?_, ?_, ?_, ?_, ?_, ?_, ?_⟩ <;>
        simp_all [eff, setCom, flag, List.countP_append, isSend, isPost]

omit [DecidableEq R] [DecidableEq T] in
/-- In the lockstep run the requests are as the text says. -/
theorem agree_lock (tm : Team U R T C) (init : U → Loc U C M B) (hi : ∀ u, idle (init u)) (c : C)
    (l : List (ℕ × UOp U C M B)) (h : checked c idleFlags (l.map Prod.snd) = true) (u : U) :
    Agree tm u c (l.map Prod.snd) ((lock tm l init u).com c) := by
  induction l using List.reverseRecOn generalizing u with
  | nil =>
    obtain ⟨h1, h2, h3, h4, h5, h6⟩ := hi u c
    refine ⟨?_, ?_, ?_, ?_, ?_, ?_, ?_⟩ <;> simp_all [lock, flags, idleFlags]
  | append_singleton l p ih =>
    obtain ⟨n, o⟩ := p
    simp only [List.map_append, List.map_cons, List.map_nil] at h ⊢
    rw [checked_append, Bool.and_eq_true] at h
    rw [lock_append]
    refine agree_step tm u c _ o n _ ?_ (ih h.1 u)
    simpa [checked] using h.2

/-- The messages sent are never taken back. -/
def Grows (x y : Loc U C M B) : Prop := ∀ c v, (x.com c).out v <+: (y.com c).out v

omit [DecidableEq R] [DecidableEq T] in
theorem grows_eff (tm : Team U R T C) (o : UOp U C M B) (u : U) (n : ℕ) (xs : U → Loc U C M B) :
    Grows (xs u) (eff tm o u n xs) := by
  intro c v
  cases o with
  | work f => exact List.prefix_refl _
  | take d f => exact List.prefix_refl _
  | pack d f =>
    by_cases hd : c = d
    · subst hd; simp [eff, setCom]
    · simp [eff, setCom, hd]
  | post d =>
    by_cases hd : c = d
    · subst hd; simp [eff, setCom]
    · simp [eff, setCom, hd]
  | send d =>
    by_cases hd : c = d
    · subst hd; simp only [eff, setCom, Function.update_self]; split <;> simp
    · simp [eff, setCom, hd]
  | waitR d =>
    by_cases ha : ((xs u).com d).rAct = true
    · by_cases hd : c = d
      · subst hd; simp [eff, setCom, ha]
      · simp [eff, setCom, hd, ha]
    · simp [eff, ha]
  | waitS d =>
    by_cases hd : c = d
    · subst hd; simp [eff, setCom]
    · simp [eff, setCom, hd]

omit [DecidableEq R] [DecidableEq T] in
theorem grows_lock (tm : Team U R T C) (l : List (ℕ × UOp U C M B)) (xs : U → Loc U C M B) (u : U) :
    Grows (xs u) (lock tm l xs u) := by
  induction l generalizing xs with
  | nil => exact fun c v => List.prefix_refl _
  | cons p l ih =>
    obtain ⟨n, o⟩ := p
    exact fun c v => (grows_eff tm o u n xs c v).trans (ih (fun u => eff tm o u n xs) c v)

omit [DecidableEq R] [DecidableEq T] in
theorem grows_take (tm : Team U R T C) (l : List (ℕ × UOp U C M B)) (xs : U → Loc U C M B) (u : U)
    {j k : ℕ} (h : j ≤ k) : Grows (lock tm (l.take j) xs u) (lock tm (l.take k) xs u) := by
  obtain ⟨d, rfl⟩ := Nat.exists_eq_add_of_le h
  rw [List.take_add, lock_append]
  exact grows_lock tm _ _ u

omit [DecidableEq R] [DecidableEq T] in
/-- An operation depends on the other units only through the messages it waits for. -/
theorem eff_congr (tm : Team U R T C) (o : UOp U C M B) (u : U) (n : ℕ) (xs ys : U → Loc U C M B)
    (hu : xs u = ys u)
    (h : ∀ c, o = .waitR c → ((ys u).com c).rAct = true → ∀ v ∈ tm.nbrs u,
      (((xs v).com c).out u)[((ys u).com c).recvd]? = (((ys v).com c).out u)[((ys u).com c).recvd]?) :
    eff tm o u n xs = eff tm o u n ys := by
  cases o with
  | waitR c =>
    simp only [eff, hu]
    by_cases ha : ((ys u).com c).rAct = true
    · rw [if_pos ha, if_pos ha]
      have : arrivals tm c u xs ((ys u).com c) = arrivals tm c u ys ((ys u).com c) := by
        funext v
        simp only [arrivals]
        by_cases hv : v ∈ tm.nbrs u
        · rw [if_pos hv, if_pos hv, h c rfl ha v hv]
        · rw [if_neg hv, if_neg hv]
      rw [this]
    · rw [if_neg ha, if_neg ha]
  | _ => simp only [eff, hu]

end Verif.Schedule
