import Verif.Lemmas.Stepper
import Mathlib.Algebra.Module.BigOperators
import Mathlib.Algebra.BigOperators.Intervals

/-!
Helper lemmas: a full run over the stages of one time step.
-/

namespace Verif.Stepper

/-- Table entry as a total function (only used in range). -/
def tabA (tab : Tableau) (i s : ℕ) : ℚ := (entry tab.ark i s).getD 0
/-- Table entry as a total function (only used in range). -/
def tabB (tab : Tableau) (i s : ℕ) : ℚ := (entry tab.brk i s).getD 0

theorem entry_of_rows {m : List (List ℚ)} {n : ℕ} (hl : m.length = n)
    (hr : ∀ i (h : i < m.length), (m[i]).length = i + 1) {i s : ℕ} (hi : i < n) (hs : s ≤ i) :
    entry m i s = some ((entry m i s).getD 0) := by
  have h1 : i < m.length := by omega
  have h2 : s < (m[i]).length := by rw [hr i h1]; omega
  simp [entry, h1, h2]

section
variable {K : Type} [Field K] {E : Type} [AddCommGroup E] [Module K E]

theorem foldlM_some {E : Type} [AddCommMonoid E] (f : E → ℕ → Option E) (g : ℕ → E) (m : ℕ) (acc : E)
    (hf : ∀ s, s < m → ∀ a, f a s = some (a + g s)) :
    (List.range m).foldlM f acc = some (acc + ∑ s ∈ Finset.range m, g s) := by
  induction m generalizing acc with
  | zero => simp
  | succ m ih =>
    rw [List.range_succ, List.foldlM_append, ih acc (fun s hs => hf s (by omega))]
    simp [hf m (by omega), Finset.sum_range_succ, add_assoc]

theorem accumulate_eq {tab : Tableau} {dt : K} {stage n : ℕ} {slots : List (Slot E)} (u x : ℕ → E)
    (ha : ∀ i s, i < n → s ≤ i → entry tab.ark i s = some (tabA tab i s))
    (hb : ∀ i s, i < n → s ≤ i → entry tab.brk i s = some (tabB tab i s))
    (hst : stage < n)
    (hq : ∀ s, s ≤ stage → slots[s]? = some ⟨u s, x s⟩) :
    accumulate tab dt stage slots = some (∑ s ∈ Finset.range (stage + 1),
      ((tabA tab stage s : K) • u s + (dt * (tabB tab stage s : K)) • x s)) := by
  unfold accumulate
  rw [foldlM_some (g := fun s => ((tabA tab stage s : K) • u s + (dt * (tabB tab stage s : K)) • x s))]
  · simp
  · intro s hs a
    have h1 := ha stage s hst (by omega)
    have h2 := hb stage s hst (by omega)
    have h3 := hq s (by omega)
    simp [h1, h2, h3]

/-- State of the slots in the middle of a step, before stage `k`. -/
structure MidInv (n : ℕ) (rhs : ℕ → E → E) (u : ℕ → E) (k : ℕ) (slots : List (Slot E)) : Prop where
  len : n + 1 ≤ slots.length
  done : ∀ s, s < k → slots[s]? = some ⟨u s, rhs s (u s)⟩
  cur : ∃ x, slots[k]? = some ⟨u k, x⟩

theorem stageStep_mid {tab : Tableau} {n : ℕ} {dt : K} {rhs post : ℕ → E → E} {u : ℕ → E} {k : ℕ}
    {slots : List (Slot E)}
    (ha : ∀ i s, i < n → s ≤ i → entry tab.ark i s = some (tabA tab i s))
    (hb : ∀ i s, i < n → s ≤ i → entry tab.brk i s = some (tabB tab i s))
    (hu : ∀ i, i < n → u (i + 1) = post i (∑ s ∈ Finset.range (i + 1),
      ((tabA tab i s : K) • u s + (dt * (tabB tab i s : K)) • rhs s (u s))))
    (h : MidInv n rhs u k slots) (hk : k < n) :
    ∃ slots', stageStep tab n dt rhs post k slots = some (slots', (k + 1) % n) ∧ slots'.length = slots.length ∧
      (if k + 1 = n then ∃ x, slots'[0]? = some ⟨u n, x⟩ else MidInv n rhs u (k + 1) slots') := by
  obtain ⟨x, hx⟩ := h.cur
  have hlen := h.len
  have hkl : k < slots.length := by omega
  set slots1 := slots.set k ⟨u k, rhs k (u k)⟩ with hs1
  have hset : setSolution slots k (rhs k (u k)) = some slots1 := by
    simp [setSolution, hx, hs1]
  have hl1 : slots1.length = slots.length := by simp [hs1]
  have hq1 : ∀ s, s ≤ k → slots1[s]? = some ⟨u s, rhs s (u s)⟩ := by
    intro s hs
    rcases Nat.lt_or_eq_of_le hs with hlt | rfl
    · rw [hs1, List.getElem?_set_ne (by omega)]; exact h.done s hlt
    · simp [hs1, hkl]
  have hacc := accumulate_eq (dt := dt) u (fun s => rhs s (u s)) ha hb hk hq1
  set v := ∑ s ∈ Finset.range (k + 1), ((tabA tab k s : K) • u s + (dt * (tabB tab k s : K)) • rhs s (u s)) with hv
  have huk := hu k hk
  have hk1 : k + 1 < slots1.length := by omega
  set y := slots1[k+1] with hy
  have hy' : slots1[k+1]? = some y := by simp [hy, hk1]
  set slots2 := slots1.set (k + 1) ⟨v, y.solution⟩ with hs2
  have hset2 : setQ slots1 (k + 1) v = some slots2 := by simp [setQ, hy', hs2]
  have hl2 : slots2.length = slots.length := by simp [hs2, hl1]
  have hq2 : ∀ s, s ≤ k → slots2[s]? = some ⟨u s, rhs s (u s)⟩ := by
    intro s hs
    rw [hs2, List.getElem?_set_ne (by omega)]; exact hq1 s hs
  have hv2 : slots2[k+1]? = some ⟨v, y.solution⟩ := by simp [hs2, hk1]
  by_cases hlast : k + 1 = n
  · have h0 := hq2 0 (by omega)
    have hn : slots2[n]? = some ⟨v, y.solution⟩ := by rw [← hlast]; exact hv2
    set slots3 := slots2.set 0 ⟨v, rhs 0 (u 0)⟩ with hs3
    have hset3 : setQ slots2 0 v = some slots3 := by simp [setQ, h0, hs3]
    have hl3 : slots3.length = slots.length := by simp [hs3, hl2]
    have hn3 : slots3[n]? = some ⟨v, y.solution⟩ := by
      rw [hs3, List.getElem?_set_ne (by omega)]; exact hn
    set slots4 := slots3.set n ⟨u 0, y.solution⟩ with hs4
    have hset4 : setQ slots3 n (u 0) = some slots4 := by simp [setQ, hn3, hs4]
    have hl4 : slots4.length = slots.length := by simp [hs4, hl3]
    have h04 : slots4[0]? = some ⟨v, rhs 0 (u 0)⟩ := by
      rw [hs4, List.getElem?_set_ne (by omega), hs3]
      exact List.getElem?_set_self (by omega)
    have hupd : updateState tab n dt k slots1 = some slots4 := by
      simp only [updateState, hacc, hset2, Option.bind_eq_bind, Option.bind_some, if_pos hlast, h0, hn, hset3, hset4]
    refine ⟨slots4.set 0 ⟨post k v, rhs 0 (u 0)⟩, ?_, by simp [hl4], ?_⟩
    · have hm : (k + 1) % n = 0 := by rw [hlast]; simp
      simp [stageStep, hx, hset, hupd, hm, h04, setQ]
    · simp only [hlast, if_true]
      refine ⟨rhs 0 (u 0), ?_⟩
      rw [← hlast, huk]
      exact List.getElem?_set_self (by omega)
  · have hupd : updateState tab n dt k slots1 = some slots2 := by
      simp [updateState, hacc, hset2, hlast]
    have hm : (k + 1) % n = k + 1 := Nat.mod_eq_of_lt (by omega)
    refine ⟨slots2.set (k + 1) ⟨post k v, y.solution⟩, ?_, by simp [hl2], ?_⟩
    · simp [stageStep, hx, hset, hupd, hm, hv2, setQ]
    · simp only [hlast, if_false]
      refine ⟨by simp [hl2, hlen], ?_, ⟨y.solution, ?_⟩⟩
      · intro s hs
        rw [List.getElem?_set_ne (by omega)]; exact hq2 s (by omega)
      · rw [huk]; exact List.getElem?_set_self (by omega)

theorem runStages_mid {tab : Tableau} {n : ℕ} {dt : K} {rhs post : ℕ → E → E} {u : ℕ → E}
    {slots : List (Slot E)}
    (ha : ∀ i s, i < n → s ≤ i → entry tab.ark i s = some (tabA tab i s))
    (hb : ∀ i s, i < n → s ≤ i → entry tab.brk i s = some (tabB tab i s))
    (hu : ∀ i, i < n → u (i + 1) = post i (∑ s ∈ Finset.range (i + 1),
      ((tabA tab i s : K) • u s + (dt * (tabB tab i s : K)) • rhs s (u s))))
    (h : MidInv n rhs u 0 slots) (k : ℕ) (hk : k < n) :
    ∃ slots', runStages tab n dt rhs post k (slots, 0) = some (slots', k) ∧ slots'.length = slots.length ∧
      MidInv n rhs u k slots' := by
  induction k with
  | zero => exact ⟨slots, rfl, rfl, h⟩
  | succ k ih =>
    obtain ⟨s1, h1, hl1, hm1⟩ := ih (by omega)
    obtain ⟨s2, h2, hl2, hm2⟩ := stageStep_mid (dt := dt) (post := post) ha hb hu hm1 (by omega)
    rw [if_neg (by omega)] at hm2
    rw [Nat.mod_eq_of_lt hk] at h2
    exact ⟨s2, by simp [runStages, h1, h2], by omega, hm2⟩

theorem runStages_full {tab : Tableau} {n : ℕ} {dt : K} {rhs post : ℕ → E → E} {u : ℕ → E}
    {slots : List (Slot E)} (hn : 1 ≤ n)
    (ha : ∀ i s, i < n → s ≤ i → entry tab.ark i s = some (tabA tab i s))
    (hb : ∀ i s, i < n → s ≤ i → entry tab.brk i s = some (tabB tab i s))
    (hu : ∀ i, i < n → u (i + 1) = post i (∑ s ∈ Finset.range (i + 1),
      ((tabA tab i s : K) • u s + (dt * (tabB tab i s : K)) • rhs s (u s))))
    (h : MidInv n rhs u 0 slots) :
    ∃ slots', runStages tab n dt rhs post n (slots, 0) = some (slots', 0) ∧ slots'.length = slots.length ∧
      ∃ x, slots'[0]? = some ⟨u n, x⟩ := by
  obtain ⟨m, rfl⟩ : ∃ m, n = m + 1 := ⟨n - 1, by omega⟩
  obtain ⟨s1, h1, hl1, hm1⟩ := runStages_mid (dt := dt) (post := post) ha hb hu h m (by omega)
  obtain ⟨s2, h2, hl2, hm2⟩ := stageStep_mid (dt := dt) (post := post) ha hb hu hm1 (by omega)
  simp only [if_true] at hm2
  rw [Nat.mod_self] at h2
  exact ⟨s2, by simp [runStages, h1, h2], by omega, hm2⟩

end

end Verif.Stepper
