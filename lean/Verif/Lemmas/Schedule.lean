import Verif.Model.Schedule
import Mathlib.Tactic.Ring
import Mathlib.Algebra.Group.Nat.Even
import Mathlib.Data.List.Infix

/-!
# Interleavings: the conditions on the text, and the lockstep run

`Sound` collects what has to be checked in the text of a program: requests are used in the right order,
a loop that waits does not contain what it waits for, and the stepper is advanced between two barriers.
-/

namespace Verif.Schedule

variable {U R T C M B : Type} [DecidableEq U] [DecidableEq R] [DecidableEq T] [DecidableEq C]

/-! ## What is checked in the text -/

/-- The requests of one communication type, as the text leaves them: receive active, send active, sent
but not yet received. -/
structure Flags where
  rA : Bool
  sA : Bool
  nw : Bool

/-- The flags after one line. -/
def flag (c : C) (f : Flags) : UOp U C M B → Flags
  | .post d => if d = c then { f with rA := true } else f
  | .send d => if d = c then { f with sA := true, nw := true } else f
  | .waitR d => if d = c then { f with rA := false, nw := false } else f
  | .waitS d => if d = c then { f with sA := false } else f
  | _ => f

/-- The line is in order. -/
def okay (c : C) (f : Flags) : UOp U C M B → Bool
  | .post d => if d = c then !f.rA else true
  | .pack d _ => if d = c then !f.sA else true
  | .send d => if d = c then !f.sA && !f.nw else true
  | .waitR d => if d = c then f.rA && f.nw else true
  | .take d _ => if d = c then !f.rA else true
  | .waitS d => if d = c then f.sA && (f.rA || !f.nw) else true
  | .work _ => true

/-- Every line is in order. -/
def checked (c : C) : Flags → List (UOp U C M B) → Bool
  | _, [] => true
  | f, o :: l => okay c f o && checked c (flag c f o) l

/-- The flags after some lines. -/
def flags (c : C) (f : Flags) (l : List (UOp U C M B)) : Flags := l.foldl (flag c) f

def isSend (c : C) : UOp U C M B → Bool
  | .send d => decide (d = c)
  | _ => false

def isPost (c : C) : UOp U C M B → Bool
  | .post d => decide (d = c)
  | _ => false

def isWaitR (c : C) : UOp U C M B → Bool
  | .waitR d => decide (d = c)
  | _ => false

def isWaitS (c : C) : UOp U C M B → Bool
  | .waitS d => decide (d = c)
  | _ => false

/-- A loop that waits for the receives does not start the sends, and a loop that waits for the sends
does not start the receives. -/
def apart (c : C) : Phase U C M B → Bool
  | .each ops => (!ops.any (isWaitR c) || !ops.any (isSend c)) &&
      (!ops.any (isWaitS c) || !ops.any (isPost c))
  | _ => true

/-- Between an odd number of barriers and the next the stepper may be advanced and nothing else happens;
`ins` is true between reaching a barrier and leaving it. -/
def guarded : Bool → Bool → List (Phase U C M B) → Bool
  | _, _, [] => true
  | odd, ins, .each _ :: r => !odd && !ins && guarded odd ins r
  | odd, ins, .arrive :: r => !ins && guarded odd true r
  | odd, ins, .leave :: r => ins && guarded (!odd) false r
  | odd, ins, .master :: r => odd && !ins && guarded odd ins r

def idleFlags : Flags := ⟨false, false, false⟩

/-- The conditions on a text. -/
structure Sound (phs : List (Phase U C M B)) : Prop where
  order : ∀ c, checked c idleFlags ((lines 0 phs).map Prod.snd) = true
  apart : ∀ c, ∀ ph ∈ phs, apart c ph = true
  guard : guarded false false phs = true

/-- The conditions on the distribution of the units. -/
structure Own (tm : Team U R T C) : Prop where
  owner : ∀ u, ∃ t, u ∈ tm.units t
  unique : ∀ u t t', u ∈ tm.units t → u ∈ tm.units t' → t = t'
  nodup : ∀ t, (tm.units t).Nodup
  crew : ∀ r t, t ∈ tm.crew r ↔ tm.rank t = r
  master : ∀ r, (∃ t, tm.rank t = r) → tm.rank (tm.master r) = r
  symm : ∀ u v, v ∈ tm.nbrs u → u ∈ tm.nbrs v

/-! ## The lines of a text -/

def masters : List (Phase U C M B) → ℕ
  | [] => 0
  | .master :: r => masters r + 1
  | _ :: r => masters r

def arrives : List (Phase U C M B) → ℕ
  | [] => 0
  | .arrive :: r => arrives r + 1
  | _ :: r => arrives r

def leaves : List (Phase U C M B) → ℕ
  | [] => 0
  | .leave :: r => leaves r + 1
  | _ :: r => leaves r

omit [DecidableEq U] [DecidableEq C] in
theorem masters_append (a b : List (Phase U C M B)) : masters (a ++ b) = masters a + masters b := by
  induction a with
  | nil => simp [masters]
  | cons p a ih => cases p <;> simp [masters, ih]; ring

omit [DecidableEq U] [DecidableEq C] in
theorem arrives_append (a b : List (Phase U C M B)) : arrives (a ++ b) = arrives a + arrives b := by
  induction a with
  | nil => simp [arrives]
  | cons p a ih => cases p <;> simp [arrives, ih]; ring

omit [DecidableEq U] [DecidableEq C] in
theorem leaves_append (a b : List (Phase U C M B)) : leaves (a ++ b) = leaves a + leaves b := by
  induction a with
  | nil => simp [leaves]
  | cons p a ih => cases p <;> simp [leaves, ih]; ring

omit [DecidableEq U] [DecidableEq C] in
theorem lines_append (a b : List (Phase U C M B)) (n : ℕ) :
    lines n (a ++ b) = lines n a ++ lines (n + masters a) b := by
  induction a generalizing n with
  | nil => simp [lines, masters]
  | cons p a ih =>
    cases p <;> simp [lines, masters, ih]
    congr 1; ring

omit [DecidableEq U] [DecidableEq C] in
/-- Where the barriers stand at a statement of a guarded text. -/
theorem guarded_at (a : List (Phase U C M B)) (odd ins : Bool) (b : List (Phase U C M B))
    (h : guarded odd ins (a ++ b) = true) :
    ∃ odd' ins' : Bool, guarded odd' ins' b = true ∧ (odd.toNat + leaves a) % 2 = odd'.toNat ∧
      arrives a + ins.toNat = leaves a + ins'.toNat := by
  induction a generalizing odd ins with
  | nil => exact ⟨odd, ins, h, by cases odd <;> rfl, by simp [arrives, leaves]⟩
  | cons p a ih =>
    cases p with
    | each ops =>
      simp only [List.cons_append, guarded, Bool.and_eq_true] at h
      exact ih odd ins h.2
    | master =>
      simp only [List.cons_append, guarded, Bool.and_eq_true] at h
      exact ih odd ins h.2
    | arrive =>
      simp only [List.cons_append, guarded, Bool.and_eq_true] at h
      obtain ⟨o, i, h1, h2, h3⟩ := ih odd true h.2
      have hi : ins = false := by simpa using h.1
      subst hi
      refine ⟨o, i, h1, h2, ?_⟩
      simp only [leaves, arrives, Bool.toNat_true, Bool.toNat_false] at h3 ⊢
      omega
    | leave =>
      simp only [List.cons_append, guarded, Bool.and_eq_true] at h
      obtain ⟨o, i, h1, h2, h3⟩ := ih (!odd) false h.2
      have hi : ins = true := h.1
      subst hi
      refine ⟨o, i, h1, ?_, ?_⟩
      · cases odd <;> simp only [leaves, Bool.not_true, Bool.not_false, Bool.toNat_true,
          Bool.toNat_false] at h2 ⊢ <;> omega
      · simp only [leaves, arrives, Bool.toNat_true, Bool.toNat_false] at h3 ⊢
        omega

omit [DecidableEq U] [DecidableEq C] in
/-- At a loop the barriers are balanced and even. -/
theorem guarded_each {a : List (Phase U C M B)} {ops : List (UOp U C M B)} {b : List (Phase U C M B)}
    (h : guarded false false (a ++ .each ops :: b) = true) :
    arrives a = leaves a ∧ leaves a % 2 = 0 := by
  obtain ⟨o, i, h1, h2, h3⟩ := guarded_at a false false _ h
  simp only [guarded, Bool.and_eq_true] at h1
  have ho : o = false := by simpa using h1.1.1
  have hi : i = false := by simpa using h1.1.2
  subst ho hi
  simp only [Bool.toNat_false] at h2 h3
  omega

omit [DecidableEq U] [DecidableEq C] in
/-- Where the stepper is advanced the barriers are balanced and odd. -/
theorem guarded_master {a : List (Phase U C M B)} {b : List (Phase U C M B)}
    (h : guarded false false (a ++ .master :: b) = true) :
    arrives a = leaves a ∧ leaves a % 2 = 1 := by
  obtain ⟨o, i, h1, h2, h3⟩ := guarded_at a false false _ h
  simp only [guarded, Bool.and_eq_true] at h1
  have ho : o = true := by simpa using h1.1.1
  have hi : i = false := by simpa using h1.1.2
  subst ho hi
  simp only [Bool.toNat_false, Bool.toNat_true] at h2 h3
  omega

omit [DecidableEq U] [DecidableEq C] in
/-- At a place where a barrier is left it has been reached. -/
theorem guarded_leave {a : List (Phase U C M B)} {b : List (Phase U C M B)}
    (h : guarded false false (a ++ .leave :: b) = true) : arrives a = leaves a + 1 := by
  obtain ⟨o, i, h1, h2, h3⟩ := guarded_at a false false _ h
  simp only [guarded, Bool.and_eq_true] at h1
  have hi : i = true := h1.1
  subst hi
  simp only [Bool.toNat_false, Bool.toNat_true] at h2 h3
  omega

omit [DecidableEq U] [DecidableEq C] in
/-- At every place at least as many barriers have been reached as left. -/
theorem guarded_le {a : List (Phase U C M B)} {b : List (Phase U C M B)}
    (h : guarded false false (a ++ b) = true) : leaves a ≤ arrives a := by
  obtain ⟨o, i, h1, h2, h3⟩ := guarded_at a false false _ h
  simp only [Bool.toNat_false] at h3
  omega

end Verif.Schedule
