import Verif.Model.SweStage
import Verif.Lemmas.ShuOsher
import Verif.Props.Stepper

/-!
Helper lemmas: invariants of a run of stages.
-/

namespace Verif.Stepper
section
variable {K : Type} [Field K] {E : Type} [AddCommGroup E] [Module K E]

/-- What `UpdateState` does to the slots. -/
theorem updateState_forward {tab : Tableau} {n : ℕ} {dt : K} {u x : ℕ → E} {k : ℕ} {slots : List (Slot E)}
    (ha : ∀ i s, i < n → s ≤ i → entry tab.ark i s = some (tabA tab i s))
    (hb : ∀ i s, i < n → s ≤ i → entry tab.brk i s = some (tabB tab i s))
    (hlen : n + 1 ≤ slots.length) (hk : k < n) (hq : ∀ s, s ≤ k → slots[s]? = some ⟨u s, x s⟩) :
    ∃ slots', updateState tab n dt k slots = some slots' ∧ slots'.length = slots.length ∧
      (k + 1 = n → ∃ y, slots'[0]? = some ⟨∑ s ∈ Finset.range (k + 1), ((tabA tab k s : K) • u s + (dt * (tabB tab k s : K)) • x s), y⟩) ∧
      (k + 1 ≠ n → (∀ s, s ≤ k → slots'[s]? = some ⟨u s, x s⟩) ∧
        ∃ y, slots'[k + 1]? = some ⟨∑ s ∈ Finset.range (k + 1), ((tabA tab k s : K) • u s + (dt * (tabB tab k s : K)) • x s), y⟩) := by
  have hacc := accumulate_eq (dt := dt) u x ha hb hk hq
  set v := ∑ s ∈ Finset.range (k + 1), ((tabA tab k s : K) • u s + (dt * (tabB tab k s : K)) • x s) with hv
  have hk1 : k + 1 < slots.length := by omega
  set y := slots[k+1] with hy
  have hy' : slots[k+1]? = some y := by simp [hy, hk1]
  set slots2 := slots.set (k + 1) ⟨v, y.solution⟩ with hs2
  have hset2 : setQ slots (k + 1) v = some slots2 := by simp [setQ, hy', hs2]
  have hl2 : slots2.length = slots.length := by simp [hs2]
  have hq2 : ∀ s, s ≤ k → slots2[s]? = some ⟨u s, x s⟩ := by
    intro s hs
    rw [hs2, List.getElem?_set_ne (by omega)]; exact hq s hs
  have hv2 : slots2[k+1]? = some ⟨v, y.solution⟩ := by simp [hs2, hk1]
  by_cases hlast : k + 1 = n
  · have h0 := hq2 0 (by omega)
    have hn : slots2[n]? = some ⟨v, y.solution⟩ := by rw [← hlast]; exact hv2
    set slots3 := slots2.set 0 ⟨v, x 0⟩ with hs3
    have hset3 : setQ slots2 0 v = some slots3 := by simp [setQ, h0, hs3]
    have hl3 : slots3.length = slots.length := by simp [hs3, hl2]
    have hn3 : slots3[n]? = some ⟨v, y.solution⟩ := by
      rw [hs3, List.getElem?_set_ne (by omega)]; exact hn
    set slots4 := slots3.set n ⟨u 0, y.solution⟩ with hs4
    have hset4 : setQ slots3 n (u 0) = some slots4 := by simp [setQ, hn3, hs4]
    have hl4 : slots4.length = slots.length := by simp [hs4, hl3]
    have h04 : slots4[0]? = some ⟨v, x 0⟩ := by
      rw [hs4, List.getElem?_set_ne (by omega), hs3]
      exact List.getElem?_set_self (by omega)
    have hupd : updateState tab n dt k slots = some slots4 := by
      simp only [updateState, hacc, hset2, Option.bind_eq_bind, Option.bind_some, if_pos hlast, h0, hn, hset3, hset4]
    exact ⟨slots4, hupd, hl4, fun _ => ⟨_, h04⟩, fun h => absurd hlast h⟩
  · have hupd : updateState tab n dt k slots = some slots2 := by
      simp [updateState, hacc, hset2, hlast]
    exact ⟨slots2, hupd, hl2, fun h => absurd h hlast, fun _ => ⟨hq2, _, hv2⟩⟩

end
end Verif.Stepper

namespace Verif.Swe
open Verif.Geometry Verif.Element Verif.Stepper

variable {K : Type} [Field K] [LinearOrder K]

theorem bindOk {α β : Type} {a : Res α} {f : α → Res β} {b : β} (h : (a >>= f) = .ok b) : ∃ x, a = .ok x ∧ f x = .ok b := by
  cases a with
  | error e => cases h
  | ok x => exact ⟨x, rfl, h⟩

theorem okBind {α β : Type} (a : α) (f : α → Res β) : ((Except.ok a : Res α) >>= f) = f a := rfl

/-- Slots before stage `s.stage`: the states so far are good, the increments so far are good. -/
structure RunInv (A S : State K → Prop) (G : (ℕ → Bool) → Prop) (ns : ℕ) (s : Run K) : Prop where
  stage : s.stage < ns
  len : ns + 1 ≤ s.slots.length
  good : ∀ i, i ≤ s.stage → ∃ sl, s.slots[i]? = some sl ∧ A sl.q
  incr : ∀ i, i < s.stage → ∃ sl, s.slots[i]? = some sl ∧ S sl.solution
  wet : G s.wet

/-- A stage: update of the slots, then post-processing of the new state. -/
theorem with_forward {v : Env K} {dat : ℕ → EltData K} {m : Mesh K} {tab : Tableau} {ns o : ℕ} {dt : K} (pp : PostParams K)
    {R : (ℕ → Bool) → State K → State K} {A S : State K → Prop} {G : (ℕ → Bool) → Prop} (htab : tableau ns o = some tab)
    (hcomb : ∀ k, k < ns → ∀ u x : ℕ → State K, (∀ s, s ≤ k → A (u s) ∧ S (x s)) →
      A (∑ s ∈ Finset.range (k + 1), ((tabA tab k s : K) • u s + (dt * (tabB tab k s : K)) • x s)))
    (hrhs : ∀ q wet, A q → G wet → S (solve v dat (R wet q)))
    {s : Run K} (hs : RunInv A S G ns s) :
    ∃ (slots : List (Slot (State K))) (q y : State K), A q ∧ ns + 1 ≤ slots.length ∧
      slots[(s.stage + 1) % ns]? = some ⟨q, y⟩ ∧
      (∀ i, i < (s.stage + 1) % ns → ∃ sl, slots[i]? = some sl ∧ A sl.q ∧ S sl.solution) ∧
      stageWith v dat m tab ns dt pp R s = (do
        let f ← wdAll dat m pp.wd ⟨q, s.wet, s.emptied⟩
        return ⟨slots.set ((s.stage + 1) % ns) ⟨(slAll v dat m pp.sl f).q, y⟩, (s.stage + 1) % ns, (slAll v dat m pp.sl f).wet,
          (slAll v dat m pp.sl f).emptied⟩) := by
  obtain ⟨ha, hb⟩ := Props.entries_ok htab
  obtain ⟨cur, hcur, hAcur⟩ := hs.good s.stage le_rfl
  have hlen := hs.len
  have hst := hs.stage
  set X := solve v dat (R s.wet cur.q) with hX
  have hSX : S X := hrhs _ _ hAcur hs.wet
  set slots1 := s.slots.set s.stage ⟨cur.q, X⟩ with hs1
  have hset : setSolution s.slots s.stage X = some slots1 := by simp [setSolution, hcur, hs1]
  have hl1 : slots1.length = s.slots.length := by simp [hs1]
  have hget : ∀ i, i ≤ s.stage → ∃ sl, slots1[i]? = some sl ∧ A sl.q ∧ S sl.solution := by
    intro i hi
    rcases Nat.lt_or_eq_of_le hi with hlt | rfl
    · obtain ⟨sl, h1, h2⟩ := hs.good i hi
      obtain ⟨sl', h3, h4⟩ := hs.incr i hlt
      rw [h1] at h3
      cases h3
      exact ⟨sl, by rw [hs1, List.getElem?_set_ne (by omega)]; exact h1, h2, h4⟩
    · exact ⟨⟨cur.q, X⟩, by rw [hs1]; exact List.getElem?_set_self (by omega), hAcur, hSX⟩
  set u : ℕ → State K := fun i => ((slots1[i]?).getD ⟨0, 0⟩).q with hu
  set x : ℕ → State K := fun i => ((slots1[i]?).getD ⟨0, 0⟩).solution with hx
  have hq : ∀ i, i ≤ s.stage → slots1[i]? = some ⟨u i, x i⟩ := by
    intro i hi
    obtain ⟨sl, h1, _⟩ := hget i hi
    rw [hu, hx]
    simp only [h1, Option.getD_some]
  have hux : ∀ i, i ≤ s.stage → A (u i) ∧ S (x i) := by
    intro i hi
    obtain ⟨sl, h1, h2, h3⟩ := hget i hi
    rw [hu, hx]
    simp only [h1, Option.getD_some]
    exact ⟨h2, h3⟩
  obtain ⟨slots2, hupd, hl2, hlast, hmid⟩ := updateState_forward (dt := dt) ha hb (by omega) hst hq
  have hA := hcomb s.stage hst u x hux
  set w := ∑ i ∈ Finset.range (s.stage + 1), ((tabA tab s.stage i : K) • u i + (dt * (tabB tab s.stage i : K)) • x i) with hw
  have hnew : ∃ y, slots2[(s.stage + 1) % ns]? = some ⟨w, y⟩ := by
    by_cases h : s.stage + 1 = ns
    · rw [h, Nat.mod_self]; exact hlast h
    · rw [Nat.mod_eq_of_lt (by omega)]; exact (hmid h).2
  obtain ⟨y, hy⟩ := hnew
  refine ⟨slots2, w, y, hA, by omega, hy, ?_, ?_⟩
  · intro i hi
    by_cases h : s.stage + 1 = ns
    · rw [h, Nat.mod_self] at hi; omega
    · rw [Nat.mod_eq_of_lt (by omega)] at hi
      exact ⟨_, (hmid h).1 i (by omega), hux i (by omega)⟩
  · unfold stageWith
    simp only [hcur, slotOr, okBind]
    rw [← hX, hset]
    simp only [okBind]
    rw [hupd]
    simp only [okBind, hy]
    cases wdAll dat m pp.wd ⟨w, s.wet, s.emptied⟩ with
    | error e => rfl
    | ok f => simp only [okBind, setQ, hy, Option.bind_eq_bind, Option.bind_some]; rfl

/-- Invariance under one stage. -/
theorem with_invariant {v : Env K} {dat : ℕ → EltData K} {m : Mesh K} {tab : Tableau} {ns o : ℕ} {dt : K} {pp : PostParams K}
    {R : (ℕ → Bool) → State K → State K} {A S : State K → Prop} {G : (ℕ → Bool) → Prop} (htab : tableau ns o = some tab)
    (hcomb : ∀ k, k < ns → ∀ u x : ℕ → State K, (∀ s, s ≤ k → A (u s) ∧ S (x s)) →
      A (∑ s ∈ Finset.range (k + 1), ((tabA tab k s : K) • u s + (dt * (tabB tab k s : K)) • x s)))
    (hrhs : ∀ q wet, A q → G wet → S (solve v dat (R wet q)))
    (hpost : ∀ q wet em f, wdAll dat m pp.wd ⟨q, wet, em⟩ = .ok f → f.emptied = false → em = false ∧
      (A q → G wet → A (slAll v dat m pp.sl f).q ∧ G (slAll v dat m pp.sl f).wet))
    {s s' : Run K} (hs : RunInv A S G ns s) (h : stageWith v dat m tab ns dt pp R s = .ok s') (hem : s'.emptied = false) :
    RunInv A S G ns s' := by
  obtain ⟨slots, q, y, hA, hl, hy, hold, e⟩ := with_forward pp htab hcomb hrhs hs
  rw [e] at h
  obtain ⟨f, hf, h⟩ := bindOk h
  cases h
  have hfe : f.emptied = false := by
    cases hsl : pp.sl with
    | none => rw [hsl] at hem; exact hem
    | some p => rw [hsl] at hem; exact hem
  obtain ⟨_, hp⟩ := hpost q s.wet s.emptied f hf hfe
  obtain ⟨hp1, hp2⟩ := hp hA hs.wet
  have hns := hs.stage
  have hmod : (s.stage + 1) % ns < ns := Nat.mod_lt _ (by omega)
  refine ⟨hmod, by simpa using hl, ?_, ?_, hp2⟩
  · intro i hi
    simp only at hi ⊢
    rcases Nat.lt_or_eq_of_le hi with hlt | rfl
    · obtain ⟨sl, h1, h2, _⟩ := hold i hlt
      exact ⟨sl, by rw [List.getElem?_set_ne (by omega)]; exact h1, h2⟩
    · exact ⟨_, List.getElem?_set_self (by omega), hp1⟩
  · intro i hi
    simp only at hi ⊢
    obtain ⟨sl, h1, _, h3⟩ := hold i hi
    exact ⟨sl, by rw [List.getElem?_set_ne (by omega)]; exact h1, h3⟩

theorem with_emptied {v : Env K} {dat : ℕ → EltData K} {m : Mesh K} {tab : Tableau} {ns : ℕ} {dt : K} {pp : PostParams K}
    {R : (ℕ → Bool) → State K → State K}
    (hpost : ∀ q wet em f, wdAll dat m pp.wd ⟨q, wet, em⟩ = .ok f → f.emptied = false → em = false)
    {s s' : Run K} (h : stageWith v dat m tab ns dt pp R s = .ok s') (hem : s'.emptied = false) : s.emptied = false := by
  unfold stageWith at h
  obtain ⟨_, _, h⟩ := bindOk h
  obtain ⟨_, _, h⟩ := bindOk h
  obtain ⟨_, _, h⟩ := bindOk h
  obtain ⟨_, _, h⟩ := bindOk h
  obtain ⟨f, hf, h⟩ := bindOk h
  obtain ⟨_, _, h⟩ := bindOk h
  cases h
  refine hpost _ _ _ f hf ?_
  cases hsl : pp.sl with
  | none => rw [hsl] at hem; exact hem
  | some p => rw [hsl] at hem; exact hem

/-- Invariance under a run. -/
theorem withRun_invariant {v : Env K} {dat : ℕ → EltData K} {m : Mesh K} {tab : Tableau} {ns o : ℕ} {dt : K} {pp : PostParams K}
    {R : ℕ → (ℕ → Bool) → State K → State K} {A S : State K → Prop} {G : (ℕ → Bool) → Prop} (htab : tableau ns o = some tab)
    (hcomb : ∀ k, k < ns → ∀ u x : ℕ → State K, (∀ s, s ≤ k → A (u s) ∧ S (x s)) →
      A (∑ s ∈ Finset.range (k + 1), ((tabA tab k s : K) • u s + (dt * (tabB tab k s : K)) • x s)))
    (hrhs : ∀ k q wet, A q → G wet → S (solve v dat (R k wet q)))
    (hpost : ∀ q wet em f, wdAll dat m pp.wd ⟨q, wet, em⟩ = .ok f → f.emptied = false → em = false ∧
      (A q → G wet → A (slAll v dat m pp.sl f).q ∧ G (slAll v dat m pp.sl f).wet))
    {s s' : Run K} (hs : RunInv A S G ns s) (n : ℕ) (h : runWith v dat m tab ns dt pp R n s = .ok s') (hem : s'.emptied = false) :
    RunInv A S G ns s' := by
  induction n generalizing s' with
  | zero => cases h; exact hs
  | succ n ih =>
    rw [runWith] at h
    obtain ⟨s1, h1, h2⟩ := bindOk h
    have he := with_emptied (fun q wet em f hf hfe => (hpost q wet em f hf hfe).1) h2 hem
    exact with_invariant htab hcomb (hrhs _) hpost (ih h1 he) h2 hem

/-- A run succeeds and keeps a property which post-processing keeps. -/
theorem withRun_keeps {v : Env K} {dat : ℕ → EltData K} {m : Mesh K} {tab : Tableau} {ns o : ℕ} {dt : K} {pp : PostParams K}
    {R : ℕ → (ℕ → Bool) → State K → State K} {A S : State K → Prop} {G : (ℕ → Bool) → Prop} (htab : tableau ns o = some tab)
    (hcomb : ∀ k, k < ns → ∀ u x : ℕ → State K, (∀ s, s ≤ k → A (u s) ∧ S (x s)) →
      A (∑ s ∈ Finset.range (k + 1), ((tabA tab k s : K) • u s + (dt * (tabB tab k s : K)) • x s)))
    (hrhs : ∀ k q wet, A q → G wet → S (solve v dat (R k wet q)))
    (hpost : ∀ q wet em, A q → G wet → ∃ f, wdAll dat m pp.wd ⟨q, wet, em⟩ = .ok f ∧ f.emptied = em ∧ A (slAll v dat m pp.sl f).q ∧
      G (slAll v dat m pp.sl f).wet)
    {s : Run K} (hs : RunInv A S G ns s) (n : ℕ) :
    ∃ s', runWith v dat m tab ns dt pp R n s = .ok s' ∧ RunInv A S G ns s' ∧ s'.emptied = s.emptied := by
  induction n with
  | zero => exact ⟨s, rfl, hs, rfl⟩
  | succ n ih =>
    obtain ⟨s1, h1, h2, h3⟩ := ih
    obtain ⟨slots, q, y, hA, hl, hy, hold, e⟩ := with_forward (v := v) (dat := dat) (m := m) (dt := dt) pp htab hcomb (hrhs n) h2
    obtain ⟨f, hf, hfe, hp1, hp2⟩ := hpost q s1.wet s1.emptied hA h2.wet
    rw [hf] at e
    have hns := h2.stage
    have hmod : (s1.stage + 1) % ns < ns := Nat.mod_lt _ (by omega)
    refine ⟨_, by rw [runWith, h1]; exact e, ⟨hmod, by simpa using hl, ?_, ?_, hp2⟩, ?_⟩
    · intro i hi
      simp only at hi ⊢
      rcases Nat.lt_or_eq_of_le hi with hlt | rfl
      · obtain ⟨sl, h1, h2, _⟩ := hold i hlt
        exact ⟨sl, by rw [List.getElem?_set_ne (by omega)]; exact h1, h2⟩
      · exact ⟨_, List.getElem?_set_self (by omega), hp1⟩
    · intro i hi
      simp only at hi ⊢
      obtain ⟨sl, h1, _, h3⟩ := hold i hi
      exact ⟨sl, by rw [List.getElem?_set_ne (by omega)]; exact h1, h3⟩
    · simp only
      rw [← h3, ← hfe]
      cases pp.sl <;> rfl

/-! ### The same for the RKDG scheme -/

theorem runSerial_succ (v : Env K) (dat : ℕ → EltData K) (m : Mesh K) (tab : Tableau) (ns : ℕ) (dt : K) (pp : PostParams K) (junk : State K)
    (time ramp : ℕ → K) (n : ℕ) (s : Run K) : runSerial v dat m tab ns dt pp junk time ramp (n + 1) s =
      (do let s ← runSerial v dat m tab ns dt pp junk time ramp n s; stageSerial v dat m tab ns dt pp junk (time n) (ramp n) s) := rfl

/-- A stage: update of the slots, then post-processing of the new state. -/
theorem stage_forward {v : Env K} {dat : ℕ → EltData K} {m : Mesh K} {tab : Tableau} {ns o : ℕ} {dt : K} (pp : PostParams K) {junk : State K}
    {t ramp : K} {A S : State K → Prop} {G : (ℕ → Bool) → Prop} (htab : tableau ns o = some tab)
    (hcomb : ∀ k, k < ns → ∀ u x : ℕ → State K, (∀ s, s ≤ k → A (u s) ∧ S (x s)) →
      A (∑ s ∈ Finset.range (k + 1), ((tabA tab k s : K) • u s + (dt * (tabB tab k s : K)) • x s)))
    (hrhs : ∀ q wet, A q → G wet → S (solve v dat (localRhs v dat m wet t ramp q junk)))
    {s : Run K} (hs : RunInv A S G ns s) :
    ∃ (slots : List (Slot (State K))) (q y : State K), A q ∧ ns + 1 ≤ slots.length ∧
      slots[(s.stage + 1) % ns]? = some ⟨q, y⟩ ∧
      (∀ i, i < (s.stage + 1) % ns → ∃ sl, slots[i]? = some sl ∧ A sl.q ∧ S sl.solution) ∧
      stageSerial v dat m tab ns dt pp junk t ramp s = (do
        let f ← wdAll dat m pp.wd ⟨q, s.wet, s.emptied⟩
        return ⟨slots.set ((s.stage + 1) % ns) ⟨(slAll v dat m pp.sl f).q, y⟩, (s.stage + 1) % ns, (slAll v dat m pp.sl f).wet,
          (slAll v dat m pp.sl f).emptied⟩) :=
  with_forward (R := fun wet q => localRhs v dat m wet t ramp q junk) pp htab hcomb hrhs hs

/-- Invariance under a run. -/
theorem run_invariant {v : Env K} {dat : ℕ → EltData K} {m : Mesh K} {tab : Tableau} {ns o : ℕ} {dt : K} {pp : PostParams K} {junk : State K}
    {time ramp : ℕ → K} {A S : State K → Prop} {G : (ℕ → Bool) → Prop} (htab : tableau ns o = some tab)
    (hcomb : ∀ k, k < ns → ∀ u x : ℕ → State K, (∀ s, s ≤ k → A (u s) ∧ S (x s)) →
      A (∑ s ∈ Finset.range (k + 1), ((tabA tab k s : K) • u s + (dt * (tabB tab k s : K)) • x s)))
    (hrhs : ∀ t r q wet, A q → G wet → S (solve v dat (localRhs v dat m wet t r q junk)))
    (hpost : ∀ q wet em f, wdAll dat m pp.wd ⟨q, wet, em⟩ = .ok f → f.emptied = false → em = false ∧
      (A q → G wet → A (slAll v dat m pp.sl f).q ∧ G (slAll v dat m pp.sl f).wet))
    {s s' : Run K} (hs : RunInv A S G ns s) (n : ℕ) (h : runSerial v dat m tab ns dt pp junk time ramp n s = .ok s') (hem : s'.emptied = false) :
    RunInv A S G ns s' :=
  withRun_invariant (R := fun k wet q => localRhs v dat m wet (time k) (ramp k) q junk) htab hcomb (fun k => hrhs (time k) (ramp k)) hpost hs n h hem

end Verif.Swe
