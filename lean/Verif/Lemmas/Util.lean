import Verif.Model.Util
import Mathlib.Data.Nat.Digits.Lemmas
import Mathlib.Data.Finset.Card
import Mathlib.Tactic.IntervalCases
import Mathlib.Tactic.NormNum
import Mathlib.Tactic.Ring
import Mathlib.Tactic.Linarith

namespace Verif.Util

theorem digitChar_inj {a b : ℕ} (ha : a < 10) (hb : b < 10) (h : digitChar a = digitChar b) : a = b := by
  revert h
  interval_cases a <;> interval_cases b <;> decide

theorem dec_eq_map (n : ℕ) : dec n = ((if n = 0 then [0] else (Nat.digits 10 n)).reverse).map digitChar := by
  unfold dec; split_ifs <;> rfl

theorem map_digitChar_inj {l m : List ℕ} (hl : ∀ x ∈ l, x < 10) (hm : ∀ x ∈ m, x < 10)
    (h : l.map digitChar = m.map digitChar) : l = m := by
  induction l generalizing m with
  | nil => cases m <;> simp_all
  | cons a l ih =>
    cases m with
    | nil => simp at h
    | cons b m =>
      simp only [List.map_cons, List.cons.injEq] at h
      rw [digitChar_inj (hl a (by simp)) (hm b (by simp)) h.1,
        ih (fun x hx => hl x (by simp [hx])) (fun x hx => hm x (by simp [hx])) h.2]

theorem decDigits_lt (n : ℕ) : ∀ x ∈ ((if n = 0 then [0] else (Nat.digits 10 n)).reverse), x < 10 := by
  intro x hx
  rw [List.mem_reverse] at hx
  split_ifs at hx with h
  · simp at hx; omega
  · exact Nat.digits_lt_base (by norm_num) hx

theorem dec_injective : Function.Injective dec := by
  intro a b h
  rw [dec_eq_map, dec_eq_map] at h
  have h2 := List.reverse_injective (map_digitChar_inj (decDigits_lt a) (decDigits_lt b) h)
  have : Nat.ofDigits 10 (if a = 0 then [0] else Nat.digits 10 a) = a := by
    split_ifs with h0
    · simp [h0]
    · exact Nat.ofDigits_digits 10 a
  rw [← this, h2]
  split_ifs with h0
  · simp [h0]
  · exact Nat.ofDigits_digits 10 b

theorem dec_ne_nil (n : ℕ) : dec n ≠ [] := by
  rw [dec_eq_map]
  intro h
  rw [List.map_eq_nil_iff, List.reverse_eq_nil_iff] at h
  split_ifs at h with h0
  exact h0 (by simpa using Nat.digits_eq_nil_iff_eq_zero.mp h)

/-- Every character of a printed number is a decimal digit. -/
theorem dec_digit {n : ℕ} {c : Char} (h : c ∈ dec n) : ∃ d, d < 10 ∧ c = digitChar d := by
  rw [dec_eq_map, List.mem_map] at h
  obtain ⟨d, hd, rfl⟩ := h
  exact ⟨d, decDigits_lt n d hd, rfl⟩

theorem digitChar_ne {d : ℕ} (hd : d < 10) {c : Char} (hc : c ∉ ['0','1','2','3','4','5','6','7','8','9']) :
    digitChar d ≠ c := by
  rintro rfl
  revert hc
  interval_cases d <;> decide

/-! ### Containers -/

section
variable {Ty : Type} [DecidableEq Ty] {α : Type}

theorem typeIndex_lt {T : Ty} {l : List Ty} {i : ℕ} (h : typeIndex T l = some i) : i < l.length := by
  induction l generalizing i with
  | nil => simp [typeIndex] at h
  | cons U l ih =>
    unfold typeIndex at h
    split_ifs at h with hT
    · simp at h; subst h; simp
    · obtain ⟨j, hj, rfl⟩ := Option.map_eq_some_iff.mp h
      have := ih hj
      simp; omega

theorem typeIndex_get {T : Ty} {l : List Ty} {i : ℕ} (h : typeIndex T l = some i) : l[i]? = some T := by
  induction l generalizing i with
  | nil => simp [typeIndex] at h
  | cons U l ih =>
    unfold typeIndex at h
    split_ifs at h with hT
    · simp at h; subst h; simp [hT]
    · obtain ⟨j, hj, rfl⟩ := Option.map_eq_some_iff.mp h
      rw [Nat.add_comm]; simpa using ih hj

theorem typeIndex_isSome {T : Ty} {l : List Ty} (h : T ∈ l) : ∃ i, typeIndex T l = some i := by
  induction l with
  | nil => simp at h
  | cons U l ih =>
    unfold typeIndex
    split_ifs with hT
    · exact ⟨0, rfl⟩
    · obtain ⟨i, hi⟩ := ih (by simpa [hT] using h)
      exact ⟨1 + i, by simp [hi]⟩

theorem typeIndex_none {T : Ty} {l : List Ty} (h : T ∉ l) : typeIndex T l = none := by
  cases hh : typeIndex T l with
  | none => rfl
  | some i => exact absurd (List.mem_of_getElem? (typeIndex_get hh)) h

theorem typeIndex_inj {T U : Ty} {l : List Ty} {i : ℕ} (h : typeIndex T l = some i) (h' : typeIndex U l = some i) :
    T = U := by
  have a := typeIndex_get h
  have b := typeIndex_get h'
  rw [a] at b; exact Option.some.inj b

/-- Slot of type `T`. -/
def slotOf {β : Type} (types : List Ty) (data : List (List β)) (T : Ty) : Option (List β) :=
  (typeIndex T types).bind fun i => data[i]?

theorem slotOf_modify {β : Type} {types : List Ty} {data : List (List β)}
    {T : Ty} {i : ℕ} (hi : typeIndex T types = some i) (f : List β → List β) (U : Ty) :
    slotOf types (data.modify i f) U = if U = T then (slotOf types data U).map f else slotOf types data U := by
  unfold slotOf
  by_cases hU : U = T
  · subst hU
    simp [hi]
  · rw [if_neg hU]
    cases hj : typeIndex U types with
    | none => rfl
    | some j =>
      have : i ≠ j := fun h => hU (typeIndex_inj hj (h ▸ hi))
      simp [List.getElem?_modify, this]

theorem sum_length_modify {β : Type} (data : List (List β)) (i : ℕ) (hi : i < data.length) (f : List β → List β) (d : ℕ)
    (hf : ∀ l, data[i]? = some l → (f l).length = l.length + d) :
    ((data.modify i f).map List.length).sum = (data.map List.length).sum + d := by
  induction data generalizing i with
  | nil => simp at hi
  | cons l data ih =>
    cases i with
    | zero => have := hf l (by simp); simp [this]; omega
    | succ i =>
      have := ih i (by simpa using hi) (fun l hl => hf l (by simpa using hl))
      simp [this]; omega

theorem foldl_size {β : Type} (data : List (List β)) :
    data.foldl (fun s l => (s + l.length) % 2 ^ 32) 0 = (data.map List.length).sum % 2 ^ 32 := by
  have : ∀ a, a < 2 ^ 32 → data.foldl (fun s l => (s + l.length) % 2 ^ 32) a = (a + (data.map List.length).sum) % 2 ^ 32 := by
    induction data with
    | nil => intro a ha; simp; omega
    | cons l data ih =>
      intro a ha
      rw [List.foldl_cons, ih _ (Nat.mod_lt _ (by norm_num))]
      simp only [List.map_cons, List.sum_cons]
      omega
  simpa using this 0 (by norm_num)

end

end Verif.Util
