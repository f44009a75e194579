import Verif.Model.Text
import Verif.Lemmas.Util
import Verif.Lemmas.MeshMeta

namespace Verif.Text
open Verif Verif.Util

theorem toNat_ofNat {b : ℕ} (hb : b < 256) : (Char.ofNat b).toNat = b := by
  have hv : b.isValidChar := Or.inl (by omega)
  rw [Char.ofNat, dif_pos hv]
  simp [Char.ofNatAux, Char.toNat]

theorem digitChar_toNat {d : ℕ} (hd : d < 10) : (digitChar d).toNat = 48 + d := toNat_ofNat (by omega)

theorem dec_isDig {n : ℕ} : ∀ c ∈ dec n, isDig c = true := by
  intro c hc
  obtain ⟨d, hd, rfl⟩ := dec_digit hc
  rw [isDig, digitChar_toNat hd]
  simp; omega

theorem isDig_not_ws {c : Char} (h : isDig c = true) : isWs c = false := by
  simp [isDig, isWs] at *
  omega

theorem foldl_digits (l : List ℕ) (hl : ∀ x ∈ l, x < 10) (a : ℕ) :
    (l.map digitChar).foldl (fun a c => 10 * a + (c.toNat - 48)) a = l.foldl (fun a d => 10 * a + d) a := by
  induction l generalizing a with
  | nil => rfl
  | cons x l ih =>
    rw [List.map_cons, List.foldl_cons, List.foldl_cons, digitChar_toNat (hl x (by simp)),
      ih (fun y hy => hl y (by simp [hy]))]
    congr 1; omega

theorem foldl_reverse_ofDigits (l : List ℕ) : l.reverse.foldl (fun a d => 10 * a + d) 0 = Nat.ofDigits 10 l := by
  induction l with
  | nil => rfl
  | cons x l ih => rw [List.reverse_cons, List.foldl_append, ih, Nat.ofDigits_cons]; simp; omega

theorem dec_value (n : ℕ) : (dec n).foldl (fun a c => 10 * a + (c.toNat - 48)) 0 = n := by
  rw [dec_eq_map, foldl_digits _ (decDigits_lt n), foldl_reverse_ofDigits]
  split_ifs with h
  · simp [h]
  · exact Nat.ofDigits_digits 10 n

theorem dropWhile_all {p : Char → Bool} {l : List Char} (h : ∀ c ∈ l, p c = true) (r : List Char) :
    (l ++ r).dropWhile p = r.dropWhile p := by
  induction l with
  | nil => rfl
  | cons a l ih =>
    rw [List.cons_append, List.dropWhile_cons_of_pos (h a (by simp)), ih (fun c hc => h c (by simp [hc]))]

theorem takeWhile_all {p : Char → Bool} {l : List Char} (h : ∀ c ∈ l, p c = true) (r : List Char) :
    (l ++ r).takeWhile p = l ++ r.takeWhile p := by
  induction l with
  | nil => rfl
  | cons a l ih =>
    rw [List.cons_append, List.takeWhile_cons_of_pos (h a (by simp)), ih (fun c hc => h c (by simp [hc])),
      List.cons_append]

/-- The text starts with a character that is not a digit (or is empty). -/
def Ends (r : List Char) : Prop := ∀ c t, r = c :: t → isDig c = false

theorem ends_dropWhile {r : List Char} (h : Ends r) : r.dropWhile isDig = r ∧ r.takeWhile isDig = [] := by
  cases r with
  | nil => exact ⟨rfl, rfl⟩
  | cons c t =>
    have := h c t rfl
    exact ⟨List.dropWhile_cons_of_neg (by simp [this]), List.takeWhile_cons_of_neg (by simp [this])⟩

theorem rdUint_dec {n : ℕ} (hn : n < 2 ^ 32) {ws r : List Char} (hws : ∀ c ∈ ws, isWs c = true) (hr : Ends r) :
    rdUint (ws ++ (dec n ++ r)) = some (n, r) := by
  have hd : (ws ++ (dec n ++ r)).dropWhile isWs = dec n ++ r := by
    rw [dropWhile_all hws]
    have h1 := dec_ne_nil n
    have h2 := @dec_isDig n
    cases h : dec n with
    | nil => exact absurd h h1
    | cons a l =>
      rw [List.cons_append, List.dropWhile_cons_of_neg]
      simp [isDig_not_ws (h2 a (by simp [h]))]
  unfold rdUint
  simp only
  rw [hd, takeWhile_all dec_isDig, (ends_dropWhile hr).2, List.append_nil, dec_value, if_neg (dec_ne_nil n), if_pos hn,
    dropWhile_all dec_isDig, (ends_dropWhile hr).1]

theorem rdUint_dec0 {n : ℕ} (hn : n < 2 ^ 32) {r : List Char} (hr : Ends r) : rdUint (dec n ++ r) = some (n, r) :=
  rdUint_dec (ws := []) hn (by simp) hr

theorem rdUint_spDec {n : ℕ} (hn : n < 2 ^ 32) {r : List Char} (hr : Ends r) : rdUint (spDec n ++ r) = some (n, r) :=
  rdUint_dec (ws := [' ']) hn (by simp; decide) hr

theorem ends_cons {c : Char} {t : List Char} (h : isDig c = false) : Ends (c :: t) := by
  rintro _ _ ⟨⟩; exact h

theorem ends_nil : Ends [] := by rintro _ _ ⟨⟩

theorem ends_spDec (n : ℕ) (r : List Char) : Ends (spDec n ++ r) := ends_cons (by decide)

theorem ends_spDecs (l : List ℕ) {r : List Char} (hr : Ends r) : Ends (l.flatMap spDec ++ r) := by
  cases l with
  | nil => simpa using hr
  | cons a l => rw [List.flatMap_cons, List.append_assoc]; exact ends_spDec _ _

theorem ends_spBytes (l : List ℕ) {r : List Char} (hr : Ends r) : Ends (l.flatMap spByte ++ r) := by
  cases l with
  | nil => simpa using hr
  | cons a l => rw [List.flatMap_cons, List.append_assoc]; exact ends_cons (by decide)

theorem rdMany_spDec (l : List ℕ) (hl : ∀ x ∈ l, x < 2 ^ 32) {r : List Char} (hr : Ends r) :
    rdMany rdUint l.length (l.flatMap spDec ++ r) = some (l, r) := by
  induction l with
  | nil => rfl
  | cons a l ih =>
    rw [List.flatMap_cons, List.append_assoc, List.length_cons, rdMany,
      rdUint_spDec (hl a (by simp)) (ends_spDecs l hr)]
    simp [ih (fun x hx => hl x (by simp [hx]))]

theorem rdChar_spByte {b : ℕ} (hb : isWs (Char.ofNat b) = false) (r : List Char) :
    rdChar (spByte b ++ r) = some (Char.ofNat b, r) := by
  unfold rdChar spByte
  have : ([' ', Char.ofNat b] ++ r).dropWhile isWs = Char.ofNat b :: r := by
    rw [List.cons_append, List.dropWhile_cons_of_pos (by decide), List.cons_append, List.nil_append,
      List.dropWhile_cons_of_neg (by simp [hb])]
  rw [this]

theorem rdMany_spByte (l : List ℕ) (hl : ∀ b ∈ l, isWs (Char.ofNat b) = false) (r : List Char) :
    rdMany rdChar l.length (l.flatMap spByte ++ r) = some (l.map Char.ofNat, r) := by
  induction l with
  | nil => rfl
  | cons a l ih =>
    rw [List.flatMap_cons, List.append_assoc, List.length_cons, rdMany, rdChar_spByte (hl a (by simp))]
    simp [ih (fun x hx => hl x (by simp [hx]))]

theorem ignore_nl (l : List Char) (hl : ∀ c ∈ l, c ≠ '\n') (r : List Char) (n : ℕ) (hn : l.length < n) :
    ignore n (l ++ '\n' :: r) = r := by
  induction l generalizing n with
  | nil =>
    cases n with
    | zero => simp at hn
    | succ n => simp [ignore]
  | cons a l ih =>
    cases n with
    | zero => simp at hn
    | succ n =>
      rw [List.cons_append, ignore, if_neg (hl a (by simp))]
      exact ih (fun c hc => hl c (by simp [hc])) n (by simpa using hn)

theorem ignore_nl0 (r : List Char) : ignore 1000 ('\n' :: r) = r := ignore_nl [] (by simp) r 1000 (by simp)

/-- A sequence of records, each of which is read back, is read back. -/
theorem rdMany_flatMap {α β : Type} (rd : List Char → Option (β × List Char)) (wr : α → List Char) (f : α → β)
    (l : List α) (h : ∀ x ∈ l, ∀ r, rd (wr x ++ r) = some (f x, r)) (r : List Char) :
    rdMany rd l.length (l.flatMap wr ++ r) = some (l.map f, r) := by
  induction l with
  | nil => rfl
  | cons a l ih =>
    rw [List.flatMap_cons, List.append_assoc, List.length_cons, rdMany, h a (by simp)]
    simp [ih (fun x hx => h x (by simp [hx]))]

theorem rdWord_word {w r : List Char} (hw : w ≠ []) (hc : ∀ c ∈ w, isWs c = false) {ws : List Char}
    (hws : ∀ c ∈ ws, isWs c = true) {c : Char} (hcw : isWs c = true) :
    rdWord (ws ++ (w ++ c :: r)) = some (w, c :: r) := by
  have hd : (ws ++ (w ++ c :: r)).dropWhile isWs = w ++ c :: r := by
    rw [dropWhile_all hws]
    cases w with
    | nil => exact absurd rfl hw
    | cons a l => rw [List.cons_append, List.dropWhile_cons_of_neg]; simp [hc a (by simp)]
  have hp : ∀ x ∈ w, (!isWs x) = true := fun x hx => by simp [hc x hx]
  unfold rdWord
  simp only
  rw [hd, takeWhile_all hp, dropWhile_all hp, List.takeWhile_cons_of_neg (by simp [hcw]),
    List.dropWhile_cons_of_neg (by simp [hcw]), List.append_nil, if_neg hw]

/-! ### Maps -/

theorem upsert_new {β : Type} {m : List (ℕ × β)} {k : ℕ} (h : m.lookup k = none) (v : β) :
    upsert m k v = m ++ [(k, v)] := by simp [upsert, h]

theorem foldl_upsert {β : Type} (l : List (ℕ × β)) (hl : (l.map Prod.fst).Nodup) (m : List (ℕ × β))
    (hm : ∀ x ∈ l, m.lookup x.1 = none) :
    l.foldl (fun m x => upsert m x.1 x.2) m = m ++ l := by
  induction l generalizing m with
  | nil => simp
  | cons a l ih =>
    rw [List.map_cons, List.nodup_cons] at hl
    rw [List.foldl_cons, upsert_new (hm a (by simp)), ih hl.2, List.append_assoc]; · rfl
    intro x hx
    rw [List.lookup_append, hm x (by simp [hx]), Option.none_or]
    have : x.1 ≠ a.1 := fun h => hl.1 (List.mem_map.mpr ⟨x, hx, h⟩)
    have hb : (x.1 == a.1) = false := by simpa using this
    simp [List.lookup, hb]

end Verif.Text
