import Verif.Model.Bcis
import Mathlib.Data.List.Forall2
import Mathlib.Tactic

/-!
# C56: boundary condition files are read as they are laid out
-/

namespace Verif.Bcis.Props

open Verif.Bcis

variable {K : Type}

/-! ## The documented format -/

/-- One constituent of a tide or flow boundary: frequency, forcing factor, equilibrium argument, and a row for every node (number, amplitude,
phase). -/
structure Con (K : Type) where
  freq : K
  ff : K
  eq : K
  rows : List (ℕ × K × K)

/-- Sections of the file. -/
inductive Sec (K : Type) where
  | tide (n : ℕ) (cons : List (Con K))
  | flow (n : ℕ) (cons : List (Con K))
  | levee (rows : List ((ℕ × ℕ) × LeveeData K))
  | other (btype n : ℕ)

/-- Every constituent lists all nodes; other sections have other numbers. -/
def Sec.Wf : Sec K → Prop
  | .tide n cons => ∀ c ∈ cons, c.rows.length = n
  | .flow n cons => ∀ c ∈ cons, c.rows.length = n
  | .levee _ => True
  | .other bt _ => bt ≠ 1 ∧ bt ≠ 2 ∧ bt ≠ 129

/-- The numbers of a line, integers and reals. -/
abbrev Nums (K : Type) := List (ℕ ⊕ K)

/-- A line contains certain numbers, and possibly more text. -/
def Fits : Nums K → List (Tok K) → Prop
  | [], _ => True
  | _ :: _, [] => False
  | .inl n :: r, t :: l => t.nat = some n ∧ Fits r l
  | .inr x :: r, t :: l => t.num = some x ∧ Fits r l

def rowNums (r : ℕ × K × K) : Nums K := [.inl r.1, .inr r.2.1, .inr r.2.2]

def Con.lines (c : Con K) : List (Nums K) := [.inr c.freq, .inr c.ff, .inr c.eq] :: c.rows.map rowNums

def leveeNums (r : (ℕ × ℕ) × LeveeData K) : Nums K := [.inl r.1.1, .inl r.1.2, .inr r.2.barrier, .inr r.2.sub, .inr r.2.super]

/-- The lines of a section. -/
def Sec.lines : Sec K → List (Nums K)
  | .tide n cons => [.inl 1, .inl n] :: [.inl cons.length] :: cons.flatMap Con.lines
  | .flow n cons => [.inl 2, .inl n] :: [.inl cons.length] :: cons.flatMap Con.lines
  | .levee rows => [.inl 129, .inl rows.length] :: rows.map leveeNums
  | .other bt n => [[.inl bt, .inl n]]

/-- What a section of constituents says about node `k`: for every row naming it, in order, the numbers of the constituent and of the row. -/
def hits (cons : List (Con K)) (k : ℕ) : List (K × K × K × K × K) :=
  cons.flatMap fun c => (c.rows.filter fun r => r.1 = k).map fun r => (c.freq, c.ff, c.eq, r.2.1, r.2.2)

/-- Data of node `k`. -/
def nodeSpec (cons : List (Con K)) (k : ℕ) : Option (NodeData K) :=
  match hits cons k with
  | [] => none
  | l => some ⟨l.map (·.1), l.map (·.2.1), l.map (·.2.2.1), l.map (·.2.2.2.1), l.map (·.2.2.2.2)⟩

def Sec.tides : Sec K → List (Nodes K)
  | .tide _ cons => [nodeSpec cons]
  | _ => []

def Sec.flows : Sec K → List (Nodes K)
  | .flow _ cons => [nodeSpec cons]
  | _ => []

def Sec.levees : Sec K → List ((ℕ × ℕ) × LeveeData K)
  | .levee rows => rows
  | _ => []

/-- What the whole file says; of several rows for one pair of levee nodes the last one counts. -/
def meaning (secs : List (Sec K)) : Data K :=
  ⟨secs.flatMap Sec.tides, secs.flatMap Sec.flows, fun k => (secs.flatMap Sec.levees).reverse.lookup k⟩

/-! ## Reading -/

theorem split_lines {α β : Type} {R : α → β → Prop} {a b : List α} {l : List β} (h : List.Forall₂ R (a ++ b) l) :
    ∃ la lb, List.Forall₂ R a la ∧ List.Forall₂ R b lb ∧ l = la ++ lb := by
  induction a generalizing l with
  | nil => exact ⟨[], l, .nil, h, rfl⟩
  | cons x a ih =>
    cases h with
    | cons hx h =>
      obtain ⟨la, lb, h1, h2, rfl⟩ := ih h
      exact ⟨_ :: la, lb, .cons hx h1, h2, rfl⟩

theorem okBind {α β : Type} (a : α) (f : α → Res β) : ((Except.ok a : Res α) >>= f) = f a := rfl

theorem fits_nat {n : ℕ} {r : Nums K} {l : List (Tok K)} (h : Fits (.inl n :: r) l) (old : Option ℕ) :
    ∃ l', takeNat l old = .ok (some n, l') ∧ Fits r l' := by
  cases l with
  | nil => exact h.elim
  | cons t l =>
    obtain ⟨h1, h2⟩ := h
    refine ⟨l, ?_, h2⟩
    rw [takeNat, h1]

theorem fits_num {x : K} {r : Nums K} {l : List (Tok K)} (h : Fits (.inr x :: r) l) (old : Option K) :
    ∃ l', takeNum l old = .ok (some x, l') ∧ Fits r l' := by
  cases l with
  | nil => exact h.elim
  | cons t l =>
    obtain ⟨h1, h2⟩ := h
    refine ⟨l, ?_, h2⟩
    rw [takeNum, h1]

theorem getline_cons {s : Src K} {l : List (Tok K)} {r : List (List (Tok K))} (h : s.rest = l :: r) :
    (getline s).1.rest = r ∧ (getline s).1.line = l ∧ (getline s).2 = true := by
  rw [getline, h]; exact ⟨rfl, rfl, rfl⟩

theorem row_read {s : Src K} {v : Vars K} {f ff eq : K} {r : ℕ × K × K} {l : List (Tok K)} {rest : List (List (Tok K))} (m : Nodes K)
    (hs : s.rest = l :: rest) (hl : Fits (rowNums r) l) (h1 : v.freq = some f) (h2 : v.fact = some ff) (h3 : v.eq = some eq) :
    ∃ s' v', readRow s v m = .ok (s', v', addRow m f ff eq r.1 r.2.1 r.2.2) ∧ s'.rest = rest ∧ v'.freq = some f ∧ v'.fact = some ff ∧
      v'.eq = some eq := by
  obtain ⟨g1, g2, _⟩ := getline_cons hs
  obtain ⟨l1, e1, hl⟩ := fits_nat hl v.node
  obtain ⟨l2, e2, hl⟩ := fits_num hl v.amp
  obtain ⟨l3, e3, _⟩ := fits_num hl v.phase
  refine ⟨(getline s).1, { v with node := some r.1, amp := some r.2.1, phase := some r.2.2 }, ?_, g1, h1, h2, h3⟩
  rw [readRow]
  simp only [g2]
  rw [e1, okBind]
  simp only
  rw [e2, okBind]
  simp only
  rw [e3, okBind, h1, h2, h3]
  rfl

/-- The rows of a constituent put into the map. -/
def addCon (m : Nodes K) (c : Con K) : Nodes K := c.rows.foldl (fun m r => addRow m c.freq c.ff c.eq r.1 r.2.1 r.2.2) m

theorem rows_read {f ff eq : K} (rows : List (ℕ × K × K)) {s : Src K} {v : Vars K} {lines rest : List (List (Tok K))} (m : Nodes K)
    (hs : s.rest = lines ++ rest) (hl : List.Forall₂ Fits (rows.map rowNums) lines) (h1 : v.freq = some f) (h2 : v.fact = some ff)
    (h3 : v.eq = some eq) :
    ∃ s' v', readRows rows.length s v m = .ok (s', v', rows.foldl (fun m r => addRow m f ff eq r.1 r.2.1 r.2.2) m) ∧ s'.rest = rest := by
  induction rows generalizing s v lines m with
  | nil =>
    rw [List.map_nil, List.forall₂_nil_left_iff] at hl
    subst hl
    exact ⟨s, v, rfl, hs⟩
  | cons r rows ih =>
    rw [List.map_cons] at hl
    cases hl with
    | cons hr hl =>
      obtain ⟨s', v', e, g, a1, a2, a3⟩ := row_read m (by rw [hs]; rfl) hr h1 h2 h3
      obtain ⟨s2, v2, e2, g2⟩ := ih (addRow m f ff eq r.1 r.2.1 r.2.2) g hl a1 a2 a3
      refine ⟨s2, v2, ?_, g2⟩
      rw [List.length_cons, readRows, e, okBind]
      exact e2

theorem cons_read (n : ℕ) (cons : List (Con K)) (hn : ∀ c ∈ cons, c.rows.length = n) {s : Src K} (v : Vars K) {lines rest : List (List (Tok K))}
    (m : Nodes K) (hs : s.rest = lines ++ rest) (hl : List.Forall₂ Fits (cons.flatMap Con.lines) lines) :
    ∃ s', readCons n cons.length s v m = .ok (s', cons.foldl addCon m) ∧ s'.rest = rest := by
  induction cons generalizing s v lines m with
  | nil =>
    rw [List.flatMap_nil, List.forall₂_nil_left_iff] at hl
    subst hl
    exact ⟨s, rfl, hs⟩
  | cons c cons ih =>
    rw [List.flatMap_cons, Con.lines, List.cons_append] at hl
    cases hl with
    | @cons _ l _ lines hh hl =>
      obtain ⟨la, lb, hla, hlb, rfl⟩ : ∃ la lb, List.Forall₂ Fits (c.rows.map rowNums) la ∧ List.Forall₂ Fits (cons.flatMap Con.lines) lb ∧ lines = la ++ lb := by
        exact split_lines hl
      obtain ⟨g1, g2, _⟩ := getline_cons (s := s) (l := l) (r := la ++ (lb ++ rest)) (by rw [hs]; simp)
      obtain ⟨l1, e1, hh⟩ := fits_num hh v.freq
      obtain ⟨l2, e2, hh⟩ := fits_num hh v.fact
      obtain ⟨l3, e3, _⟩ := fits_num hh v.eq
      have hhead : readConHead s v = .ok ((getline s).1, { v with freq := some c.freq, fact := some c.ff, eq := some c.eq }) := by
        rw [readConHead]
        simp only [g2]
        rw [e1, okBind]
        simp only
        rw [e2, okBind]
        simp only
        rw [e3, okBind]
        rfl
      obtain ⟨s2, v2, e4, g4⟩ := rows_read (f := c.freq) (ff := c.ff) (eq := c.eq) c.rows
        (v := { v with freq := some c.freq, fact := some c.ff, eq := some c.eq }) m g1 hla rfl rfl rfl
      obtain ⟨s3, e5, g5⟩ := ih (fun c' h => hn c' (List.mem_cons_of_mem _ h)) v2 (addCon m c) g4 hlb
      refine ⟨s3, ?_, g5⟩
      rw [List.length_cons, readCons, hhead, okBind]
      simp only
      rw [← hn c List.mem_cons_self, e4, okBind, hn c List.mem_cons_self]
      exact e5

theorem addRow_at (m : Nodes K) (f ff eq : K) (r : ℕ × K × K) (k : ℕ) :
    addRow m f ff eq r.1 r.2.1 r.2.2 k = if r.1 = k then some ⟨((m k).getD .empty).frequency ++ [f], ((m k).getD .empty).forcing ++ [ff],
      ((m k).getD .empty).equilibrium ++ [eq], ((m k).getD .empty).amplitude ++ [r.2.1], ((m k).getD .empty).phase ++ [r.2.2]⟩ else m k := by
  rw [addRow]
  by_cases h : r.1 = k
  · subst h; simp
  · rw [if_neg h, Function.update_of_ne (Ne.symm h)]

/-- Data with more rows appended. -/
def extend (o : Option (NodeData K)) (l : List (K × K × K × K × K)) : Option (NodeData K) :=
  match l with
  | [] => o
  | l => some ⟨(o.getD .empty).frequency ++ l.map (·.1), (o.getD .empty).forcing ++ l.map (·.2.1), (o.getD .empty).equilibrium ++ l.map (·.2.2.1),
      (o.getD .empty).amplitude ++ l.map (·.2.2.2.1), (o.getD .empty).phase ++ l.map (·.2.2.2.2)⟩

theorem extend_append (o : Option (NodeData K)) (a b : List (K × K × K × K × K)) : extend (extend o a) b = extend o (a ++ b) := by
  cases a with
  | nil => rfl
  | cons x a =>
    cases b with
    | nil => simp [extend]
    | cons y b => simp [extend]

theorem rows_at (f ff eq : K) (rows : List (ℕ × K × K)) (m : Nodes K) (k : ℕ) :
    rows.foldl (fun m r => addRow m f ff eq r.1 r.2.1 r.2.2) m k =
      extend (m k) ((rows.filter fun r => r.1 = k).map fun r => (f, ff, eq, r.2.1, r.2.2)) := by
  induction rows generalizing m with
  | nil => rfl
  | cons r rows ih =>
    rw [List.foldl_cons, ih, addRow_at]
    by_cases h : r.1 = k
    · rw [if_pos h, List.filter_cons_of_pos (by simpa using h), List.map_cons,
        ← List.singleton_append (x := (f, ff, eq, r.2.1, r.2.2)), ← extend_append]
      rfl
    · rw [if_neg h, List.filter_cons_of_neg (by simpa using h)]

theorem cons_at (cons : List (Con K)) (m : Nodes K) (k : ℕ) : cons.foldl addCon m k = extend (m k) (hits cons k) := by
  induction cons generalizing m with
  | nil => rfl
  | cons c cons ih =>
    rw [List.foldl_cons, ih, addCon, rows_at, extend_append]
    rfl

theorem cons_spec (cons : List (Con K)) : cons.foldl addCon (fun _ => none) = nodeSpec cons := by
  funext k
  rw [cons_at, nodeSpec]
  cases hits cons k with
  | nil => rfl
  | cons x l => simp [extend, NodeData.empty]

theorem forcing_read (n : ℕ) (cons : List (Con K)) (hn : ∀ c ∈ cons, c.rows.length = n) {s : Src K} {lines rest : List (List (Tok K))}
    (hs : s.rest = lines ++ rest) (hl : List.Forall₂ Fits ([.inl cons.length] :: cons.flatMap Con.lines) lines) :
    ∃ s', readForcing n s = .ok (s', nodeSpec cons) ∧ s'.rest = rest := by
  cases hl with
  | @cons _ l _ lines hh hl =>
    obtain ⟨g1, g2, _⟩ := getline_cons (s := s) (l := l) (r := lines ++ rest) hs
    obtain ⟨l1, e1, _⟩ := fits_nat hh none
    obtain ⟨s', e, g⟩ := cons_read n cons hn ⟨none, none, none, none, none, none⟩ (fun _ => none) g1 hl
    refine ⟨s', ?_, g⟩
    rw [cons_spec] at e
    rw [readForcing]
    simp only [g2]
    rw [e1, okBind]
    exact e

theorem levees_read (rows : List ((ℕ × ℕ) × LeveeData K)) {s : Src K} (front back : Option ℕ) {lines rest : List (List (Tok K))}
    (m : ℕ × ℕ → Option (LeveeData K)) (hs : s.rest = lines ++ rest) (hl : List.Forall₂ Fits (rows.map leveeNums) lines) :
    ∃ s', readLevees rows.length s front back m = .ok (s', rows.foldl (fun m r => Function.update m r.1 (some r.2)) m) ∧ s'.rest = rest := by
  induction rows generalizing s front back lines m with
  | nil =>
    rw [List.map_nil, List.forall₂_nil_left_iff] at hl
    subst hl
    exact ⟨s, rfl, hs⟩
  | cons r rows ih =>
    rw [List.map_cons] at hl
    cases hl with
    | @cons _ l _ lines hh hl =>
      obtain ⟨g1, g2, _⟩ := getline_cons (s := s) (l := l) (r := lines ++ rest) hs
      obtain ⟨l1, e1, hh⟩ := fits_nat hh front
      obtain ⟨l2, e2, hh⟩ := fits_nat hh back
      obtain ⟨l3, e3, hh⟩ := fits_num hh none
      obtain ⟨l4, e4, hh⟩ := fits_num hh none
      obtain ⟨l5, e5, _⟩ := fits_num hh none
      obtain ⟨s', e, g⟩ := ih (some r.1.1) (some r.1.2) (Function.update m r.1 (some r.2)) g1 hl
      refine ⟨s', ?_, g⟩
      rw [List.length_cons, readLevees]
      simp only [g2]
      rw [e1, okBind]
      simp only
      rw [e2, okBind]
      simp only
      rw [e3, okBind]
      simp only
      rw [e4, okBind]
      simp only
      rw [e5, okBind]
      exact e

theorem update_lookup (rows : List ((ℕ × ℕ) × LeveeData K)) (m : ℕ × ℕ → Option (LeveeData K)) (k : ℕ × ℕ) :
    rows.foldl (fun (m : ℕ × ℕ → Option (LeveeData K)) r => Function.update m r.1 (some r.2)) m k = (rows.reverse.lookup k).or (m k) := by
  induction rows generalizing m with
  | nil => rfl
  | cons r rows ih =>
    rw [List.foldl_cons, ih, List.reverse_cons, List.lookup_append]
    by_cases h : k = r.1
    · subst h
      simp [List.lookup]
    · rw [Function.update_of_ne h]
      have : ([r] : List ((ℕ × ℕ) × LeveeData K)).lookup k = none := by
        have : (k == r.1) = false := by simpa using h
        simp [List.lookup, this]
      rw [this, Option.or_none]

/-- Data with those of a section added. -/
def addSec (d : Data K) (s : Sec K) : Data K :=
  ⟨d.tide ++ s.tides, d.flow ++ s.flows, fun k => (s.levees.reverse.lookup k).or (d.levee k)⟩

/-- Number and count in the first line of a section. -/
def Sec.head : Sec K → ℕ × ℕ
  | .tide n _ => (1, n)
  | .flow n _ => (2, n)
  | .levee rows => (129, rows.length)
  | .other bt n => (bt, n)

theorem lines_head (c : Sec K) : ∃ t, c.lines = [.inl c.head.1, .inl c.head.2] :: t := by
  cases c <;> exact ⟨_, rfl⟩

theorem section_read (c : Sec K) (hc : c.Wf) {s : Src K} {lines rest : List (List (Tok K))} (d : Data K) (hs : s.rest = lines ++ rest)
    (hl : List.Forall₂ Fits c.lines.tail lines) :
    ∃ s', (nodesUsed c.head.1 (some c.head.2) >>= fun n => readSection c.head.1 n s d) = .ok (s', addSec d c) ∧ s'.rest = rest := by
  cases c with
  | tide n cons =>
    obtain ⟨s', e, g⟩ := forcing_read n cons hc hs hl
    refine ⟨s', ?_, g⟩
    show (readForcing n s >>= _) = _
    rw [e, okBind]
    simp [addSec, Sec.tides, Sec.flows, Sec.levees, pure, Except.pure]
  | flow n cons =>
    obtain ⟨s', e, g⟩ := forcing_read n cons hc hs hl
    refine ⟨s', ?_, g⟩
    show (readForcing n s >>= _) = _
    rw [e, okBind]
    simp [addSec, Sec.tides, Sec.flows, Sec.levees, pure, Except.pure]
  | levee rows =>
    obtain ⟨s', e, g⟩ := levees_read rows none none d.levee hs hl
    refine ⟨s', ?_, g⟩
    show (readLevees rows.length s none none d.levee >>= _) = _
    rw [e, okBind]
    have : rows.foldl (fun (m : ℕ × ℕ → Option (LeveeData K)) r => Function.update m r.1 (some r.2)) d.levee = fun k => (rows.reverse.lookup k).or (d.levee k) := by
      funext k; exact update_lookup rows d.levee k
    rw [this]
    simp [addSec, Sec.tides, Sec.flows, Sec.levees, pure, Except.pure]
  | other bt n =>
    obtain ⟨h1, h2, h3⟩ := hc
    change List.Forall₂ Fits [] lines at hl
    rw [List.forall₂_nil_left_iff] at hl
    subst hl
    refine ⟨s, ?_, hs⟩
    show (nodesUsed bt (some n) >>= fun n => readSection bt n s d) = _
    rw [nodesUsed, if_neg (by simp [h1, h2, h3]), okBind, readSection, if_neg h1, if_neg h2, if_neg h3]
    simp [addSec, Sec.tides, Sec.flows, Sec.levees]

/-- Reading sections and then whatever follows. -/
theorem sections_then (secs : List (Sec K)) (hw : ∀ c ∈ secs, c.Wf) {s : Src K} {lines rest : List (List (Tok K))} (bt nn : Option ℕ) (d : Data K)
    (fuel : ℕ) (hf : secs.length ≤ fuel) (hs : s.rest = lines ++ rest) (hl : List.Forall₂ Fits (secs.flatMap Sec.lines) lines) :
    ∃ s' , readLoop fuel s bt nn d = readLoop (fuel - secs.length) s' ((secs.getLast?.map (·.head.1)).or bt) ((secs.getLast?.map (·.head.2)).or nn)
      (secs.foldl addSec d) ∧ s'.rest = rest := by
  induction secs generalizing s lines bt nn d fuel with
  | nil =>
    rw [List.flatMap_nil, List.forall₂_nil_left_iff] at hl
    subst hl
    exact ⟨s, rfl, hs⟩
  | cons c secs ih =>
    obtain ⟨fuel, rfl⟩ : ∃ k, fuel = k + 1 := ⟨fuel - 1, by rw [List.length_cons] at hf; omega⟩
    rw [List.flatMap_cons] at hl
    obtain ⟨la, lb, hla, hlb, rfl⟩ := split_lines hl
    obtain ⟨t, ht⟩ := lines_head c
    rw [ht] at hla
    cases hla with
    | @cons _ l _ la hh hla =>
      obtain ⟨g1, g2, g3⟩ := getline_cons (s := s) (l := l) (r := la ++ (lb ++ rest)) (by rw [hs]; simp)
      obtain ⟨l1, e1, hh⟩ := fits_nat hh bt
      obtain ⟨l2, e2, _⟩ := fits_nat hh nn
      obtain ⟨s2, e3, g4⟩ := section_read c (hw c List.mem_cons_self) d g1 (by rw [ht]; exact hla)
      obtain ⟨s3, e4, g5⟩ := ih (fun c' h => hw c' (List.mem_cons_of_mem _ h)) (some c.head.1) (some c.head.2) (addSec d c) fuel
        (by rw [List.length_cons] at hf; omega) g4 hlb
      refine ⟨s3, ?_, g5⟩
      rw [readLoop]
      have hg : getline s = ((getline s).1, true) := by rw [← g3]
      rw [hg]
      simp only [g2]
      rw [e1, okBind]
      simp only
      rw [e2, okBind]
      simp only [use]
      rw [okBind]
      have : (nodesUsed c.head.1 (some c.head.2) >>= fun n => readSection c.head.1 n (getline s).1 d >>= fun x =>
          readLoop fuel x.1 (some c.head.1) (some c.head.2) x.2) =
          ((nodesUsed c.head.1 (some c.head.2) >>= fun n => readSection c.head.1 n (getline s).1 d) >>= fun x =>
          readLoop fuel x.1 (some c.head.1) (some c.head.2) x.2) := by
        cases nodesUsed c.head.1 (some c.head.2) <;> rfl
      refine Eq.trans this ?_
      rw [e3, okBind]
      simp only
      rw [e4, List.foldl_cons, List.length_cons, Nat.add_sub_add_right]
      cases secs with
      | nil => rfl
      | cons c' secs =>
        rw [List.getLast?_cons_cons]
        obtain ⟨x, hx⟩ : ∃ x, (c' :: secs).getLast? = some x := ⟨_, List.getLast?_eq_some_getLast (by simp)⟩
        rw [hx]
        rfl

theorem fold_meaning (secs : List (Sec K)) (d : Data K) : secs.foldl addSec d =
    ⟨d.tide ++ (meaning secs).tide, d.flow ++ (meaning secs).flow, fun k => ((meaning secs).levee k).or (d.levee k)⟩ := by
  induction secs generalizing d with
  | nil => simp [meaning]
  | cons c secs ih =>
    rw [List.foldl_cons, ih]
    simp [meaning, addSec, Option.or_assoc, List.lookup_append]

theorem fuel_enough (secs : List (Sec K)) {lines : List (List (Tok K))} (hl : List.Forall₂ Fits (secs.flatMap Sec.lines) lines) :
    secs.length ≤ lines.length := by
  rw [← hl.length_eq]
  clear hl
  induction secs with
  | nil => simp
  | cons c secs ih =>
    obtain ⟨t, ht⟩ := lines_head c
    rw [List.flatMap_cons, ht, List.length_append, List.length_cons, List.length_cons]
    omega

/-- **C56** A file that is laid out in the documented format, with any text after the numbers of a line and with or without a newline at the end, is
read as what it says. -/
theorem read_layout (nl : Bool) (secs : List (Sec K)) (hw : ∀ c ∈ secs, c.Wf) (file : List (List (Tok K)))
    (hl : List.Forall₂ Fits (secs.flatMap Sec.lines) file) : readBcis nl file = .ok (meaning secs) := by
  have hlen := fuel_enough secs hl
  obtain ⟨s', e, g⟩ := sections_then secs hw (s := ⟨file, [], false, nl⟩) (lines := file) (rest := []) none none ⟨[], [], fun _ => none⟩
    (file.length + 1) (by omega) (by simp) hl
  rw [readBcis, e]
  obtain ⟨k, hk⟩ : ∃ k, file.length + 1 - secs.length = k + 1 := ⟨file.length - secs.length, by omega⟩
  rw [hk, readLoop]
  have hg : (getline s').2 = false := by
    rw [getline, g]
    cases h : s'.eof <;> simp [h]
  have : getline s' = ((getline s').1, false) := by rw [← hg]
  rw [this]
  simp [fold_meaning]

/-- A blank line after a last section of tide or flow data makes the program read that section again, with a number of constituents that it never
got. -/
theorem trailing_blank (secs : List (Sec K)) (hw : ∀ c ∈ secs, c.Wf) (file : List (List (Tok K)))
    (hl : List.Forall₂ Fits (secs.flatMap Sec.lines) file) (n : ℕ) (cons : List (Con K))
    (hlast : secs.getLast? = some (.tide n cons) ∨ secs.getLast? = some (.flow n cons)) (nl : Bool) :
    readBcis nl (file ++ [[]]) = .error .ub := by
  have hlen := fuel_enough secs hl
  obtain ⟨s', e, g⟩ := sections_then secs hw (s := ⟨file ++ [[]], [], false, nl⟩) (lines := file) (rest := [[]]) none none ⟨[], [], fun _ => none⟩
    ((file ++ [[]]).length + 1) (by simp; omega) (by simp) hl
  rw [readBcis, e]
  obtain ⟨k, hk⟩ : ∃ k, (file ++ [[]]).length + 1 - secs.length = k + 1 := ⟨file.length + 1 - secs.length, by simp; omega⟩
  rw [hk, readLoop]
  have hg : getline s' = ({ s' with rest := [], line := [], eof := !s'.nl }, true) := by
    rw [getline, g]; simp
  rw [hg]
  rcases hlast with h | h <;> rw [h] <;> simp [Sec.head, takeNat, use, nodesUsed, readSection, readForcing, getline, bind, Except.bind] <;>
    cases s'.nl <;> rfl

/-! ## Use of the data -/

theorem mapM_ok {α β : Type} {f : α → Res β} {g : α → β} {l : List α} (h : ∀ x ∈ l, f x = .ok (g x)) : l.mapM f = .ok (l.map g) := by
  induction l with
  | nil => rfl
  | cons x l ih =>
    rw [List.mapM_cons, h x List.mem_cons_self, okBind, ih fun y hy => h y (List.mem_cons_of_mem _ hy), okBind]
    rfl

theorem range_ok {β : Type} {n : ℕ} {f : ℕ → Res β} {l : List β} (hn : l.length = n) (h : ∀ i (hi : i < l.length), f i = .ok l[i]) :
    (List.range n).mapM f = .ok l := by
  subst hn
  cases l with
  | nil => rfl
  | cons x l =>
    rw [mapM_ok (g := fun i => (x :: l).getD i x)]
    · congr 1
      apply List.ext_getElem
      · simp
      · intro i h1 h2
        simp at h1
        simp [List.getD, h1]
    · intro i hi
      have hi' := List.mem_range.1 hi
      rw [h i hi', List.getD, List.getElem?_eq_getElem hi']
      rfl

theorem idx_map {α β : Type} (l : List α) (f : α → β) (i : ℕ) (h : i < l.length) : idx (l.map f) i = .ok (f l[i]) := by
  simp [idx, h]

theorem hits_once (cons : List (Con K)) (a : ℕ) (p : Con K → K × K) (h : ∀ c ∈ cons, (c.rows.filter fun r => r.1 = a) = [(a, p c)]) :
    hits cons a = cons.map fun c => (c.freq, c.ff, c.eq, (p c).1, (p c).2) := by
  induction cons with
  | nil => rfl
  | cons c cons ih =>
    rw [hits, List.flatMap_cons, h c List.mem_cons_self, List.map_cons]
    show _ :: hits cons a = _
    rw [ih fun c' h' => h c' (List.mem_cons_of_mem _ h')]
    rfl

theorem nodeSpec_once (cons : List (Con K)) (hne : cons ≠ []) (a : ℕ) (p : Con K → K × K)
    (h : ∀ c ∈ cons, (c.rows.filter fun r => r.1 = a) = [(a, p c)]) :
    nodeSpec cons a = some ⟨cons.map (·.freq), cons.map (·.ff), cons.map (·.eq), cons.map fun c => (p c).1, cons.map fun c => (p c).2⟩ := by
  rw [nodeSpec, hits_once cons a p h]
  cases cons with
  | nil => exact (hne rfl).elim
  | cons c cons => simp [Function.comp_def]

theorem find_first (pre post : List (Nodes K)) (m : Nodes K) (a b : ℕ) (da db : NodeData K) (hpre : ∀ x ∈ pre, x a = none ∨ x b = none)
    (ha : m a = some da) (hb : m b = some db) : findData (pre ++ m :: post) [a, b] = .ok [da, db] := by
  have hsome : ((pre ++ m :: post).findSome? fun m => getData m [a, b]) = some [da, db] := by
    induction pre with
    | nil => simp [getData, ha, hb]
    | cons x pre ih =>
      rw [List.cons_append, List.findSome?_cons]
      have : getData x [a, b] = none := by
        rcases hpre x List.mem_cons_self with h | h <;> simp [getData, h]
      rw [this]
      exact ih fun y hy => hpre y (List.mem_cons_of_mem _ hy)
  rw [findData, hsome]

section
variable [Field K]

/-- **C56, at the Gauss points** Let a section with at least one constituent list the end nodes `a`, `b` of a boundary edge once in every
constituent, and let no earlier section list both. Then the forcing at the point `z ∈ [-1, 1]` of the edge has the constituents of the section in
order, with amplitude and phase linear between the values given for `a` and `b`. -/
theorem forcing_gp (pre post : List (Nodes K)) (cons : List (Con K)) (hne : cons ≠ []) (a b : ℕ) (pa pb : Con K → K × K)
    (ha : ∀ c ∈ cons, (c.rows.filter fun r => r.1 = a) = [(a, pa c)]) (hb : ∀ c ∈ cons, (c.rows.filter fun r => r.1 = b) = [(b, pb c)])
    (hpre : ∀ x ∈ pre, x a = none ∨ x b = none) (z : K) :
    (do let f ← mkForcing (← findData (pre ++ nodeSpec cons :: post) [a, b]); f.atGp z) =
      .ok (cons.map fun c => ⟨c.freq, c.ff, c.eq, (pa c).1 * ((1 - z) / 2) + (pb c).1 * ((1 + z) / 2),
        (pa c).2 * ((1 - z) / 2) + (pb c).2 * ((1 + z) / 2)⟩) := by
  rw [find_first pre post _ a b _ _ hpre (nodeSpec_once cons hne a pa ha) (nodeSpec_once cons hne b pb hb), okBind]
  have hf : mkForcing [⟨cons.map (·.freq), cons.map (·.ff), cons.map (·.eq), cons.map fun c => (pa c).1, cons.map fun c => (pa c).2⟩,
      (⟨cons.map (·.freq), cons.map (·.ff), cons.map (·.eq), cons.map fun c => (pb c).1, cons.map fun c => (pb c).2⟩ : NodeData K)] =
      .ok ⟨cons.map (·.freq), cons.map (·.ff), cons.map (·.eq), cons.map fun c => [(pa c).1, (pb c).1], cons.map fun c => [(pa c).2, (pb c).2]⟩ := by
    rw [mkForcing]
    have h0 : ∀ (x y : NodeData K), idx [x, y] 0 = .ok x := fun _ _ => rfl
    rw [h0, okBind]
    simp only
    rw [range_ok (l := cons.map fun c => [(pa c).1, (pb c).1]) (by simp), okBind]
    · rw [range_ok (l := cons.map fun c => [(pa c).2, (pb c).2]) (by simp)]
      · rfl
      · intro i hi
        have hi' : i < cons.length := by simpa using hi
        simp [idx_map _ _ _ hi', bind, Except.bind, pure, Except.pure]
    · intro i hi
      have hi' : i < cons.length := by simpa using hi
      simp [idx_map _ _ _ hi', bind, Except.bind, pure, Except.pure]
  rw [hf, okBind, Forcing.atGp]
  apply range_ok (by simp)
  intro i hi
  have hi' : i < cons.length := by simpa using hi
  simp only [idx_map _ _ _ hi', okBind, nodalAt]
  simp [pure, Except.pure, Geometry.boundaryPsi]

omit [Field K] in
/-- Without a section that lists both nodes the program stops with an exception. -/
theorem no_forcing (bs : List (Nodes K)) (a b : ℕ) (h : ∀ x ∈ bs, x a = none ∨ x b = none) : findData bs [a, b] = .error .exc := by
  have : (bs.findSome? fun m => getData m [a, b]) = none := by
    rw [List.findSome?_eq_none_iff]
    intro x hx
    rcases h x hx with h | h <;> simp [getData, h]
  rw [findData, this]

/-- **C56, levees** The interior side has nodes `a`, `b`, the exterior side nodes `b'`, `a'` facing them. If the file has data for `a` and `a'` in one
order (and none in the other), and for `b` and `b'`, then at the Gauss point `z` the crest and the coefficients are linear between those of the two pairs. -/
theorem levee_gp (secs : List (Sec K)) (a b a' b' : ℕ) (da db : LeveeData K)
    (ha : (meaning secs).levee (a, a') = some da ∨ ((meaning secs).levee (a, a') = none ∧ (meaning secs).levee (a', a) = some da))
    (hb : (meaning secs).levee (b, b') = some db ∨ ((meaning secs).levee (b, b') = none ∧ (meaning secs).levee (b', b) = some db)) (z : K) :
    (do leveeAtGp (← findLevees (meaning secs).levee [a, b] [b', a']) z) =
      .ok ⟨da.barrier * ((1 - z) / 2) + db.barrier * ((1 + z) / 2), da.sub * ((1 - z) / 2) + db.sub * ((1 + z) / 2),
        da.super * ((1 - z) / 2) + db.super * ((1 + z) / 2)⟩ := by
  have h1 : findLevee (meaning secs).levee a a' = .ok da := by
    rw [findLevee]; rcases ha with h | ⟨h, h'⟩
    · rw [h]
    · rw [h, h']
  have h2 : findLevee (meaning secs).levee b b' = .ok db := by
    rw [findLevee]; rcases hb with h | ⟨h, h'⟩
    · rw [h]
    · rw [h, h']
  have h : findLevees (meaning secs).levee [a, b] [b', a'] = .ok [da, db] := by
    rw [findLevees]
    apply range_ok (n := 2) (l := [da, db]) rfl
    intro i hi
    rw [List.length_cons, List.length_singleton] at hi
    interval_cases i
    · exact h1
    · exact h2
  rw [h]
  simp [leveeAtGp, nodalAt, Geometry.boundaryPsi, bind, Except.bind, pure, Except.pure]

end

/-! ## Examples -/

/-- Text of a whole number. -/
def nt (n : ℕ) : Tok ℚ := ⟨some n, some n⟩
/-- Text of a number with a decimal point: what an integer read takes from it is the part before the point, so only the number is used. -/
def dt (x : ℚ) : Tok ℚ := ⟨none, some x⟩
/-- Text that is no number. -/
def wt : Tok ℚ := ⟨none, none⟩

/-- Two constituents on three nodes, a levee of one pair given twice, land in between. -/
def sampleSecs : List (Sec ℚ) :=
  [.tide 3 [⟨1, 2, 3, [(7, 1 / 2, 350), (8, 3 / 2, 10), (9, 1, 0)]⟩, ⟨4, 5, 6, [(7, 1, 20), (8, 1, 30), (9, 1, 40)]⟩],
   .other 0 12,
   .levee [((1, 2), ⟨1, 1, 1⟩), ((3, 4), ⟨2, 1, 1⟩), ((1, 2), ⟨3, 1, 1⟩)]]

def sampleFile : List (List (Tok ℚ)) :=
  [[nt 1, nt 3, wt, wt], [nt 2], [nt 1, nt 2, nt 3, wt], [nt 7, dt (1 / 2), nt 350], [nt 8, dt (3 / 2), nt 10], [nt 9, nt 1, nt 0],
   [nt 4, nt 5, nt 6], [nt 7, nt 1, nt 20], [nt 8, nt 1, nt 30], [nt 9, nt 1, nt 40], [nt 0, nt 12, wt],
   [nt 129, nt 3], [nt 1, nt 2, nt 1, nt 1, nt 1], [nt 3, nt 4, nt 2, nt 1, nt 1], [nt 1, nt 2, nt 3, nt 1, nt 1]]

theorem sample_wf : ∀ c ∈ sampleSecs, c.Wf := by
  intro c hc
  simp only [sampleSecs, List.mem_cons, List.not_mem_nil, or_false] at hc
  rcases hc with rfl | rfl | rfl
  · intro c hc
    simp only [List.mem_cons, List.not_mem_nil, or_false] at hc
    rcases hc with rfl | rfl <;> rfl
  · exact ⟨by decide, by decide, by decide⟩
  · trivial

theorem sample_lines : List.Forall₂ Fits (sampleSecs.flatMap Sec.lines) sampleFile := by
  simp [sampleSecs, sampleFile, Sec.lines, Con.lines, rowNums, leveeNums, Fits, nt, dt, wt]

example : readBcis true sampleFile = .ok (meaning sampleSecs) := read_layout true _ sample_wf _ sample_lines

example : (readBcis true sampleFile).toOption.map (fun d => (d.tide.map fun m => m 8, d.flow.length, d.levee (1, 2), d.levee (2, 1))) =
    some ([some ⟨[1, 4], [2, 5], [3, 6], [3 / 2, 1], [10, 30]⟩], 0, some ⟨3, 1, 1⟩, none) := by decide +kernel

/-- In the middle between nodes with phases 350 and 10 degrees the phase is 180 degrees, and not 0. -/
example : (do let f ← mkForcing (← findData (meaning sampleSecs).tide [7, 8]); f.atGp 0) =
    .ok [⟨1, 2, 3, 1, 180⟩, ⟨4, 5, 6, 1, 25⟩] := by
  decide +kernel

/-- A node that misses a constituent is read beyond the end of its data. -/
example : (do mkForcing (← findData [nodeSpec [⟨1, 1, 0, [(7, 1, 0), (8, 1, 0)]⟩, ⟨2, 1, 0, [(7, 1, 0), (9, 1, 0)]⟩]] [7, 8])) =
    (.error .ub : Res (Forcing ℚ)) := by decide +kernel

/-- The reverse order of the nodes: the second constituent is silently dropped. -/
example : (do let f ← mkForcing (← findData [nodeSpec [⟨1, 1, 0, [(7, 1, 0), (8, 1, 0)]⟩, ⟨2, 1, 0, [(7, 1, 0), (9, 1, 0)]⟩]] [8, 7]); f.atGp 0) =
    .ok [(⟨1, 1, 0, 1, 0⟩ : Swe.Constituent ℚ)] := by decide +kernel

example : (do leveeAtGp (← findLevees (meaning sampleSecs).levee [4, 1] [2, 3]) 0) = .ok (⟨5 / 2, 1, 1⟩ : Swe.LeveeGp ℚ) := by decide +kernel

/-- A blank last line. -/
example : readBcis true (([[nt 1, nt 1], [nt 1], [nt 1, nt 2, nt 3], [nt 7, nt 1, nt 1]] : List (List (Tok ℚ))) ++ [[]]) = .error .ub :=
  trailing_blank [.tide 1 [⟨1, 2, 3, [(7, 1, 1)]⟩]] (by simp [Sec.Wf]) _ (by simp [Sec.lines, Con.lines, rowNums, Fits, nt]) 1
    [⟨1, 2, 3, [(7, 1, 1)]⟩] (Or.inl rfl) true

end Verif.Bcis.Props
