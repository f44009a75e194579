import Verif.Lemmas.ScheduleLock

/-!
# Where a thread stands in the text
-/

namespace Verif.Schedule

variable {U R T C M B : Type} [DecidableEq U] [DecidableEq R] [DecidableEq T] [DecidableEq C]

def isUnit (u : U) : Op U C M B → Bool
  | .unit v _ => decide (v = u)
  | _ => false

def isArrive : Op U C M B → Bool
  | .arrive => true
  | _ => false

def isLeave : Op U C M B → Bool
  | .leave => true
  | _ => false

def isTick : Op U C M B → Bool
  | .tick => true
  | _ => false

/-- Cutting a concatenation before one of its elements. -/
theorem split_flatMap {α β : Type} (l : List α) (e : α → List β) (d : List β) (x : β) (r : List β)
    (h : d ++ x :: r = l.flatMap e) :
    ∃ a y b l1 l2, l = a ++ y :: b ∧ e y = l1 ++ x :: l2 ∧ d = a.flatMap e ++ l1 := by
  induction l generalizing d with
  | nil => simp at h
  | cons y l ih =>
    rw [List.flatMap_cons] at h
    rcases List.append_eq_append_iff.mp h with ⟨z, h1, h2⟩ | ⟨z, h1, h2⟩
    · cases z with
      | nil =>
        simp only [List.append_nil] at h1
        simp only [List.nil_append] at h2
        obtain ⟨a, y', b, l1, l2, e1, e2, e3⟩ := ih [] (by simpa using h2)
        exact ⟨y :: a, y', b, l1, l2, by rw [e1]; rfl, e2, by
          rw [List.flatMap_cons, List.append_assoc, ← e3, List.append_nil, h1]⟩
      | cons x' z =>
        simp only [List.cons_append, List.cons.injEq] at h2
        obtain ⟨rfl, h2⟩ := h2
        exact ⟨[], y, l, d, z, rfl, h1, by simp⟩
    · obtain ⟨a, y', b, l1, l2, e1, e2, e3⟩ := ih z h2.symm
      exact ⟨y :: a, y', b, l1, l2, by rw [e1]; rfl, e2, by
          rw [List.flatMap_cons, List.append_assoc, ← e3, h1]⟩

theorem countP_zero {α : Type} (p : α → Bool) (l : List α) (h : ∀ x ∈ l, p x = false) : l.countP p = 0 := by
  rw [List.countP_eq_zero]
  intro x hx; rw [h x hx]; simp

omit [DecidableEq U] [DecidableEq R] [DecidableEq C] in
theorem code_append (tm : Team U R T C) (a b : List (Phase U C M B)) (t : T) :
    code tm (a ++ b) t = code tm a t ++ code tm b t := List.flatMap_append ..

omit [DecidableEq U] [DecidableEq R] [DecidableEq C] in
theorem code_cons (tm : Team U R T C) (p : Phase U C M B) (b : List (Phase U C M B)) (t : T) :
    code tm (p :: b) t = expand tm t p ++ code tm b t := List.flatMap_cons ..

omit [DecidableEq U] [DecidableEq R] [DecidableEq T] [DecidableEq C] in
theorem mem_loop {us : List U} {ops : List (UOp U C M B)} {x : Op U C M B}
    (h : x ∈ us.flatMap fun u => ops.map (Op.unit u)) : ∃ u ∈ us, ∃ o ∈ ops, x = .unit u o := by
  simp only [List.mem_flatMap, List.mem_map] at h
  obtain ⟨u, hu, o, ho, rfl⟩ := h
  exact ⟨u, hu, o, ho, rfl⟩

omit [DecidableEq U] [DecidableEq R] [DecidableEq C] in
theorem count_arrive (tm : Team U R T C) (a : List (Phase U C M B)) (t : T) :
    (code tm a t).countP isArrive = arrives a := by
  induction a with
  | nil => rfl
  | cons p a ih =>
    rw [code_cons, List.countP_append, ih]
    cases p with
    | each ops =>
      rw [countP_zero]
      · simp [arrives]
      · intro x hx
        obtain ⟨u, -, o, -, rfl⟩ := mem_loop hx
        rfl
    | arrive => simp [expand, isArrive, arrives]; ring
    | leave => simp [expand, isArrive, arrives]
    | master => simp only [expand]; split <;> simp [isArrive, arrives]

omit [DecidableEq U] [DecidableEq R] [DecidableEq C] in
theorem count_leave (tm : Team U R T C) (a : List (Phase U C M B)) (t : T) :
    (code tm a t).countP isLeave = leaves a := by
  induction a with
  | nil => rfl
  | cons p a ih =>
    rw [code_cons, List.countP_append, ih]
    cases p with
    | each ops =>
      rw [countP_zero]
      · simp [leaves]
      · intro x hx
        obtain ⟨u, -, o, -, rfl⟩ := mem_loop hx
        rfl
    | arrive => simp [expand, isLeave, leaves]
    | leave => simp [expand, isLeave, leaves]; ring
    | master => simp only [expand]; split <;> simp [isLeave, leaves]

omit [DecidableEq U] [DecidableEq R] [DecidableEq C] in
theorem count_tick (tm : Team U R T C) (a : List (Phase U C M B)) (t : T)
    (h : t = tm.master (tm.rank t)) : (code tm a t).countP isTick = masters a := by
  induction a with
  | nil => rfl
  | cons p a ih =>
    rw [code_cons, List.countP_append, ih]
    cases p with
    | each ops =>
      rw [countP_zero]
      · simp [masters]
      · intro x hx
        obtain ⟨u, -, o, -, rfl⟩ := mem_loop hx
        rfl
    | arrive => simp [expand, isTick, masters]
    | leave => simp [expand, isTick, masters]
    | master => simp only [expand]; rw [if_pos h]; simp [isTick, masters]; ring

omit [DecidableEq R] [DecidableEq T] [DecidableEq C] in
theorem count_body (u v : U) (ops : List (UOp U C M B)) :
    (ops.map (Op.unit v)).countP (isUnit u) = if v = u then ops.length else 0 := by
  by_cases h : v = u
  · rw [if_pos h, List.countP_eq_length.mpr]
    · simp
    · intro x hx
      obtain ⟨o, -, rfl⟩ := List.mem_map.mp hx
      simp [isUnit, h]
  · rw [if_neg h]
    refine countP_zero _ _ fun x hx => ?_
    obtain ⟨o, -, rfl⟩ := List.mem_map.mp hx
    simp [isUnit, h]

omit [DecidableEq R] [DecidableEq T] [DecidableEq C] in
theorem count_loop (u : U) (us : List U) (hn : us.Nodup) (ops : List (UOp U C M B)) :
    (us.flatMap fun v => ops.map (Op.unit v)).countP (isUnit u) = if u ∈ us then ops.length else 0 := by
  induction us with
  | nil => simp
  | cons v us ih =>
    rw [List.nodup_cons] at hn
    rw [List.flatMap_cons, List.countP_append, count_body, ih hn.2]
    by_cases h : v = u
    · subst h; simp [hn.1]
    · have h' : ¬ u = v := fun e => h e.symm
      simp [h, h']

omit [DecidableEq R] [DecidableEq C] in
theorem count_unit (tm : Team U R T C) (hn : ∀ t, (tm.units t).Nodup) (a : List (Phase U C M B)) (t : T)
    (u : U) (hu : u ∈ tm.units t) (n : ℕ) :
    (code tm a t).countP (isUnit u) = (lines n a).length := by
  induction a generalizing n with
  | nil => rfl
  | cons p a ih =>
    rw [code_cons, List.countP_append]
    cases p with
    | each ops =>
      rw [ih n]
      simp only [expand, lines, List.length_append, List.length_map]
      rw [count_loop u _ (hn t), if_pos hu]
    | arrive => rw [ih n]; simp [expand, isUnit, lines]
    | leave => rw [ih n]; simp [expand, isUnit, lines]
    | master => rw [ih (n + 1)]; simp only [expand, lines]; split <;> simp [isUnit]

/-- A thread that has done `d` stands behind the statements `a`. -/
structure Behind (tm : Team U R T C) (t : T) (a : List (Phase U C M B)) (d : List (Op U C M B)) : Prop where
  arr : d.countP isArrive = arrives a
  lv : d.countP isLeave = leaves a
  tk : t = tm.master (tm.rank t) → d.countP isTick = masters a
  un : ∀ u ∈ tm.units t, (lines 0 a).length ≤ d.countP (isUnit u)

omit [DecidableEq R] [DecidableEq C] in
theorem behind_code (tm : Team U R T C) (hn : ∀ t, (tm.units t).Nodup) (t : T)
    (a : List (Phase U C M B)) (l : List (Op U C M B))
    (hl : ∀ x ∈ l, isArrive x = false ∧ isLeave x = false ∧ isTick x = false) :
    Behind tm t a (code tm a t ++ l) := by
  refine ⟨?_, ?_, fun h => ?_, fun u hu => ?_⟩
  · rw [List.countP_append, count_arrive, countP_zero _ l fun x hx => (hl x hx).1]; rfl
  · rw [List.countP_append, count_leave, countP_zero _ l fun x hx => (hl x hx).2.1]; rfl
  · rw [List.countP_append, count_tick tm a t h, countP_zero _ l fun x hx => (hl x hx).2.2]; rfl
  · rw [List.countP_append, count_unit tm hn a t u hu 0]; omega

/-- The statement a thread is at, given what it has done and its next operation. -/
inductive At (tm : Team U R T C) (t : T) (phs : List (Phase U C M B)) (d : List (Op U C M B)) :
    Op U C M B → List (Phase U C M B) → Prop where
  | unit (a b : List (Phase U C M B)) (o1 o2 : List (UOp U C M B)) (u : U) (o : UOp U C M B)
      (hphs : phs = a ++ .each (o1 ++ o :: o2) :: b) (hu : u ∈ tm.units t)
      (hk : d.countP (isUnit u) = (lines 0 a).length + o1.length) (hb : Behind tm t a d) :
      At tm t phs d (.unit u o) a
  | arrive (a b : List (Phase U C M B)) (hphs : phs = a ++ .arrive :: b) (hb : Behind tm t a d) :
      At tm t phs d .arrive a
  | leave (a b : List (Phase U C M B)) (hphs : phs = a ++ .leave :: b) (hb : Behind tm t a d) :
      At tm t phs d .leave a
  | tick (a b : List (Phase U C M B)) (hphs : phs = a ++ .master :: b) (hb : Behind tm t a d)
      (hm : t = tm.master (tm.rank t)) :
      At tm t phs d .tick a

omit [DecidableEq R] [DecidableEq C] in
theorem at_of_text (tm : Team U R T C) (hn : ∀ t, (tm.units t).Nodup) (t : T)
    (phs : List (Phase U C M B)) (d : List (Op U C M B)) (op : Op U C M B) (r : List (Op U C M B))
    (h : d ++ op :: r = code tm phs t) : ∃ a, At tm t phs d op a := by
  obtain ⟨a, ph, b, l1, l2, e1, e2, e3⟩ := split_flatMap phs (expand tm t) d op r h
  have e3' : d = code tm a t ++ l1 := e3
  have single : ∀ x : Op U C M B, [x] = l1 ++ op :: l2 → l1 = [] ∧ op = x := by
    intro x hx
    cases l1 with
    | nil => simp only [List.nil_append, List.cons.injEq] at hx; exact ⟨rfl, hx.1.symm⟩
    | cons y l1 => simp at hx
  cases ph with
  | each ops =>
    simp only [expand] at e2
    obtain ⟨us1, u, us2, m1, m2, f1, f2, f3⟩ :=
      split_flatMap (tm.units t) (fun u => ops.map (Op.unit u)) l1 op l2 e2.symm
    obtain ⟨o1, o', g1, g2, g3⟩ := List.map_eq_append_iff.mp f2
    obtain ⟨o, o2, g4, g5, g6⟩ := List.map_eq_cons_iff.mp g3
    subst g5
    refine ⟨a, At.unit a b o1 o2 u o ?_ ?_ ?_ ?_⟩
    · rw [e1, g1, g4]
    · rw [f1]; simp
    · have hnd := hn t
      rw [f1] at hnd
      have hu1 : u ∉ us1 := by
        intro hm
        exact (List.nodup_append.mp hnd).2.2 u hm u (by simp) rfl
      rw [e3', f3, List.countP_append, List.countP_append, count_unit tm hn a t u (by rw [f1]; simp) 0,
        count_loop u us1 (List.nodup_append.mp hnd).1, if_neg hu1, ← g2, count_body, if_pos rfl]
      omega
    · rw [e3']
      refine behind_code tm hn t a l1 fun x hx => ?_
      have : x ∈ (tm.units t).flatMap fun u => ops.map (Op.unit u) := by
        rw [e2]; exact List.mem_append_left _ hx
      obtain ⟨v, -, o', -, rfl⟩ := mem_loop this
      exact ⟨rfl, rfl, rfl⟩
  | arrive =>
    obtain ⟨rfl, rfl⟩ := single _ e2
    exact ⟨a, At.arrive a b e1 (by rw [e3']; exact behind_code tm hn t a [] (by simp))⟩
  | leave =>
    obtain ⟨rfl, rfl⟩ := single _ e2
    exact ⟨a, At.leave a b e1 (by rw [e3']; exact behind_code tm hn t a [] (by simp))⟩
  | master =>
    simp only [expand] at e2
    by_cases hm : t = tm.master (tm.rank t)
    · rw [if_pos hm] at e2
      obtain ⟨rfl, rfl⟩ := single _ e2
      exact ⟨a, At.tick a b e1 (by rw [e3']; exact behind_code tm hn t a [] (by simp)) hm⟩
    · rw [if_neg hm] at e2
      simp at e2

omit [DecidableEq R] [DecidableEq T] [DecidableEq C] in
theorem At.behind {tm : Team U R T C} {t : T} {phs : List (Phase U C M B)} {d : List (Op U C M B)}
    {op : Op U C M B} {a : List (Phase U C M B)} (h : At tm t phs d op a) :
    Behind tm t a d ∧ ∃ ph b, phs = a ++ ph :: b := by
  cases h with
  | unit a b o1 o2 u o hphs hu hk hb => exact ⟨hb, _, _, hphs⟩
  | arrive a b hphs hb => exact ⟨hb, _, _, hphs⟩
  | leave a b hphs hb => exact ⟨hb, _, _, hphs⟩
  | tick a b hphs hb hm => exact ⟨hb, _, _, hphs⟩

omit [DecidableEq R] [DecidableEq C] in
/-- Every thread stands somewhere. -/
theorem behind_of_text (tm : Team U R T C) (hn : ∀ t, (tm.units t).Nodup) (t : T)
    (phs : List (Phase U C M B)) (d r : List (Op U C M B)) (h : d ++ r = code tm phs t) :
    ∃ a b, phs = a ++ b ∧ Behind tm t a d := by
  cases r with
  | nil =>
    refine ⟨phs, [], by simp, ?_⟩
    rw [List.append_nil] at h
    have := behind_code tm hn t phs [] (by simp)
    rwa [List.append_nil, ← h] at this
  | cons op r =>
    obtain ⟨a, ha⟩ := at_of_text tm hn t phs d op r h
    obtain ⟨hb, ph, b, e⟩ := ha.behind
    exact ⟨a, _, e, hb⟩

omit [DecidableEq U] [DecidableEq R] [DecidableEq T] [DecidableEq C] in
theorem masters_mem (z : List (Phase U C M B)) (h : masters z ≠ 0) : ∃ z1 z2, z = z1 ++ .master :: z2 := by
  induction z with
  | nil => exact absurd rfl h
  | cons p z ih =>
    cases p with
    | master => exact ⟨[], z, rfl⟩
    | each ops => obtain ⟨z1, z2, e⟩ := ih h; exact ⟨.each ops :: z1, z2, by rw [e]; rfl⟩
    | arrive => obtain ⟨z1, z2, e⟩ := ih h; exact ⟨.arrive :: z1, z2, by rw [e]; rfl⟩
    | leave => obtain ⟨z1, z2, e⟩ := ih h; exact ⟨.leave :: z1, z2, by rw [e]; rfl⟩

omit [DecidableEq U] [DecidableEq R] [DecidableEq T] [DecidableEq C] in
/-- Two threads of a rank, one of them inside a loop, are separated by no advance of the stepper. -/
theorem same_clock {phs a b a' b' : List (Phase U C M B)} {ops : List (UOp U C M B)}
    (hg : guarded false false phs = true) (h : phs = a ++ .each ops :: b) (h' : phs = a' ++ b')
    (h1 : leaves a ≤ arrives a') (h2 : leaves a' ≤ arrives a) : masters a' = masters a := by
  obtain ⟨ha, hev⟩ := guarded_each (by rw [← h]; exact hg)
  by_contra hne
  rcases List.append_eq_append_iff.mp (h.symm.trans h') with ⟨z, hz, hz'⟩ | ⟨z, hz, hz'⟩
  · -- the other thread is further on
    have hm : masters z ≠ 0 := by
      intro h0; apply hne; rw [hz, masters_append, h0, Nat.add_zero]
    obtain ⟨z1, z2, rfl⟩ := masters_mem z hm
    have hg' : guarded false false ((a ++ z1) ++ .master :: (z2 ++ b')) = true := by
      have e : phs = (a ++ z1) ++ .master :: (z2 ++ b') := by rw [h', hz]; simp
      rw [← e]; exact hg
    obtain ⟨g1, g2⟩ := guarded_master hg'
    rw [hz, leaves_append, leaves_append] at h2
    rw [leaves_append] at g2
    omega
  · have hm : masters z ≠ 0 := by
      intro h0; apply hne; rw [hz, masters_append, h0, Nat.add_zero]
    obtain ⟨z1, z2, rfl⟩ := masters_mem z hm
    have hg' : guarded false false ((a' ++ z1) ++ .master :: (z2 ++ .each ops :: b)) = true := by
      have e : phs = (a' ++ z1) ++ .master :: (z2 ++ .each ops :: b) := by rw [h, hz]; simp
      rw [← e]; exact hg
    obtain ⟨g1, g2⟩ := guarded_master hg'
    have h3 : arrives a' ≤ arrives (a' ++ z1) := by rw [arrives_append]; omega
    have h4 : leaves (a' ++ z1) ≤ leaves a := by
      rw [hz, leaves_append, leaves_append, leaves_append]; omega
    omega

end Verif.Schedule
