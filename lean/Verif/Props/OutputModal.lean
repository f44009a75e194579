import Verif.Props.OutputCase

/-!
# C111: the modal files are the history of the coefficients
-/

namespace Verif.Output.Props
open Verif.Geometry Verif.Element Verif.Swe

variable {K W : Type}

/-- A reader of modal files: a line with one number begins a record, the lines with the number of an element and a value after it belong to it. The result is what comes
before the first record, and the records. -/
def readModal : List (List (Tok W)) → Option (List (ℕ × W) × List (W × List (ℕ × W)))
  | [] => some ([], [])
  | [.x t] :: l => (readModal l).map fun r => ([], (t, r.1) :: r.2)
  | [.n e, .x v] :: l => (readModal l).map fun r => ((e, v) :: r.1, r.2)
  | _ :: _ => none

/-- The values of an element in a record. -/
def ofElt (r : List (ℕ × W)) (e : ℕ) : List W := (r.filter fun x => x.1 == e).map Prod.snd

/-- The record is that of the coefficients `u` at time `t`. -/
structure Records [Field K] (P : Printer K W) (S : Scene K) (t : K) (u : ℕ → ℕ → K) (r : W × List (ℕ × W)) : Prop where
  time : r.1 = P.time t
  elts : ∀ x ∈ r.2, x.1 ∈ S.elts
  values : ∀ e ∈ S.elts, ofElt r.2 e = (List.range (ndof (S.dat e).elt.p)).map fun d => P.sci (u e d)

variable [Field K]

/-- The entries of a record as they are written. -/
def entries (P : Printer K W) (S : Scene K) (u : ℕ → ℕ → K) (l : List ℕ) : List (ℕ × W) :=
  l.flatMap fun e => (List.range (ndof (S.dat e).elt.p)).map fun d => (e, P.sci (u e d))

theorem read_entries (l : List (ℕ × W)) (rest : List (List (Tok W))) :
    readModal (l.map (fun x => [.n x.1, .x x.2]) ++ rest) = (readModal rest).map fun r => (l ++ r.1, r.2) := by
  induction l with
  | nil => simp
  | cons x l ih =>
    rw [List.map_cons, List.cons_append, readModal, ih, Option.map_map]
    rfl

theorem read_lines [LinearOrder K] (P : Printer K W) (S : Scene K) (t : K) (u : ℕ → ℕ → K) (rest : List (List (Tok W))) :
    readModal (modalLines P S t u ++ rest) = (readModal rest).map fun r => ([], (P.time t, entries P S u S.elts ++ r.1) :: r.2) := by
  have h : (S.elts.flatMap fun e => (List.range (ndof (S.dat e).elt.p)).map fun d => [(Tok.n e : Tok W), .x (P.sci (u e d))]) =
      (entries P S u S.elts).map fun x => [.n x.1, .x x.2] := by
    simp only [entries, List.map_flatMap, List.map_map]
    rfl
  rw [modalLines, List.cons_append, readModal, h, read_entries, Option.map_map]
  rfl

theorem entries_mem (P : Printer K W) (S : Scene K) (u : ℕ → ℕ → K) (l : List ℕ) {x : ℕ × W} (h : x ∈ entries P S u l) : x.1 ∈ l := by
  obtain ⟨e, he, h1⟩ := List.mem_flatMap.mp h
  obtain ⟨d, _, rfl⟩ := List.mem_map.mp h1
  exact he

theorem entries_of (P : Printer K W) (S : Scene K) (u : ℕ → ℕ → K) (l : List ℕ) (hl : l.Nodup) {e : ℕ} (he : e ∈ l) :
    ofElt (entries P S u l) e = (List.range (ndof (S.dat e).elt.p)).map fun d => P.sci (u e d) := by
  induction l with
  | nil => cases he
  | cons b l ih =>
    rw [List.nodup_cons] at hl
    have hsplit : ofElt (entries P S u (b :: l)) e = ofElt ((List.range (ndof (S.dat b).elt.p)).map fun d => (b, P.sci (u b d))) e ++ ofElt (entries P S u l) e := by
      simp [ofElt, entries, List.flatMap_cons]
    rw [hsplit]
    by_cases hb : e = b
    · subst hb
      have h0 : ofElt (entries P S u l) e = [] := by
        unfold ofElt
        rw [List.filter_eq_nil_iff.mpr, List.map_nil]
        intro x hx h
        exact hl.1 (eq_of_beq h ▸ entries_mem P S u l hx)
      rw [h0, List.append_nil, ofElt, List.filter_eq_self.mpr, List.map_map]
      · rfl
      · intro x hx
        obtain ⟨d, _, rfl⟩ := List.mem_map.mp hx
        simp
    · have h0 : ofElt ((List.range (ndof (S.dat b).elt.p)).map fun d => (b, P.sci (u b d))) e = [] := by
        unfold ofElt
        rw [List.filter_eq_nil_iff.mpr, List.map_nil]
        intro x hx h
        obtain ⟨d, _, rfl⟩ := List.mem_map.mp hx
        exact hb (eq_of_beq h).symm
      rw [h0, List.nil_append]
      exact ih hl.2 (by simpa [hb] using he)

/-- The records in the file. -/
def recordsOf (P : Printer K W) (freq : ℕ) (S : ℕ → Scene K) (t : ℕ → K) (u : ℕ → ℕ → ℕ → K) (n : ℕ) : List (W × List (ℕ × W)) :=
  (List.range (n / freq + 1)).map fun i => (P.time (t (i * freq)), entries P (S (i * freq)) (u (i * freq)) (S (i * freq)).elts)

variable [LinearOrder K]

/-- The file is the lines of the output steps. -/
theorem modalRun_eq (P : Printer K W) {freq : ℕ} (hf : 0 < freq) (S : ℕ → Scene K) (t : ℕ → K) (u : ℕ → ℕ → ℕ → K) (old : List (List (Tok W))) (n : ℕ) :
    modalRun P freq S t u old n = (List.range (n / freq + 1)).flatMap fun i => modalLines P (S (i * freq)) (t (i * freq)) (u (i * freq)) := by
  induction n with
  | zero => simp [modalRun, writeModal]
  | succ n ih =>
    rw [modalRun, writeModal, ih]
    by_cases h : (n + 1) % freq = 0
    · rw [if_pos h, if_neg (Nat.succ_ne_zero n)]
      have hd : freq ∣ n + 1 := Nat.dvd_of_mod_eq_zero h
      rw [Nat.succ_div_of_dvd hd, List.range_succ (n := n / freq + 1), List.flatMap_append]
      have h2 : (n / freq + 1) * freq = n + 1 := by
        rw [← Nat.succ_div_of_dvd hd]
        exact Nat.div_mul_cancel hd
      simp only [List.flatMap_cons, List.flatMap_nil, List.append_nil, h2]
    · rw [if_neg h, Nat.succ_div_of_not_dvd fun hd => h (Nat.mod_eq_zero_of_dvd hd)]

theorem read_blocks (P : Printer K W) (S : ℕ → Scene K) (t : ℕ → K) (u : ℕ → ℕ → ℕ → K) (l : List ℕ) :
    readModal (l.flatMap fun k => modalLines P (S k) (t k) (u k)) = some ([], l.map fun k => (P.time (t k), entries P (S k) (u k) (S k).elts)) := by
  induction l with
  | nil => rfl
  | cons k l ih => rw [List.flatMap_cons, read_lines, ih]; simp

/-- The modal file after step `n`, whatever it contained before the run, has one record for each output step 0, `freq`, 2`freq`, … up to `n`, with the time and all coefficients of
all elements at that step in order, and nothing else. -/
theorem modal_history (P : Printer K W) {freq : ℕ} (hf : 0 < freq) (S : ℕ → Scene K) (hS : ∀ k, (S k).elts.Nodup) (t : ℕ → K) (u : ℕ → ℕ → ℕ → K) (old : List (List (Tok W)))
    (n : ℕ) :
    ∃ recs, readModal (modalRun P freq S t u old n) = some ([], recs) ∧ recs.length = n / freq + 1 ∧
      ∀ i, i * freq ≤ n → ∃ r, recs[i]? = some r ∧ Records P (S (i * freq)) (t (i * freq)) (u (i * freq)) r := by
  refine ⟨recordsOf P freq S t u n, ?_, by simp [recordsOf], ?_⟩
  · rw [modalRun_eq P hf, ← List.flatMap_map (· * freq) (fun k => modalLines P (S k) (t k) (u k)), read_blocks, List.map_map]
    rfl
  · intro i hi
    have hlt : i < n / freq + 1 := Nat.lt_succ_of_le ((Nat.le_div_iff_mul_le hf).mpr hi)
    refine ⟨(P.time (t (i * freq)), entries P (S (i * freq)) (u (i * freq)) (S (i * freq)).elts), by simp [recordsOf, hlt], rfl, ?_, ?_⟩
    · intro x hx
      exact entries_mem P _ _ _ hx
    · intro e he
      exact entries_of P _ _ _ (hS _) he

example : readModal (modalRun asIs 2 (fun _ => twoScene 1) (fun k => k) (fun k e d => 100 * k + 10 * e + d) [[.w "old"]] 5) =
    some ([], [(0, [(0, 0), (0, 1), (0, 2), (1, 10), (1, 11), (1, 12)]), (2, [(0, 200), (0, 201), (0, 202), (1, 210), (1, 211), (1, 212)]),
      (4, [(0, 400), (0, 401), (0, 402), (1, 410), (1, 411), (1, 412)])]) := by decide +kernel

end Verif.Output.Props
