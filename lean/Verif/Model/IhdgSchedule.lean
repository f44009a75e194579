import Verif.Model.GnSchedule

/-!
# The implicit program with its slope limiter, as it is scheduled

In `ihdg_swe_proc_ompi_step.hpp` the number of collective operations depends on what they compute: after
each one all threads look at `global_data.converged`.  After the Newton loop the slope limiter sends
messages between units.  So a program is a tree: a text of `Verif.Model.Schedule`, then either the end or
a place where the masters of all ranks meet, after which it goes on one way or the other.

`Verif.Model.Rounds` has the same loop without the messages of the limiter, and with the barriers and
masters one by one.

Simplifications: what all masters do at a place is one step, and so is the decision, which all ranks take
alike since `VecNorm` gives all of them the same number (`Verif.Rounds.Props.newton_agrees`); messages are
counted anew after a place; otherwise as in `Verif.Model.Schedule`.
-/

namespace Verif.IhdgSchedule

open Verif.Schedule Verif.GnSchedule

variable {U R T C M B : Type} [DecidableEq U] [DecidableEq R] [DecidableEq T] [DecidableEq C]

/-- What the masters do together: the memories of all units before and after, and the decision. -/
abbrev Meet (U M : Type) := ℕ → (U → M) → (U → M) × Bool

/-- A program. -/
inductive Prog (U C M B : Type) where
  | fin (a : List (Phase U C M B))
  | place (a : List (Phase U C M B)) (f : Meet U M) (yes no : Prog U C M B)

/-- The text up to the next place. -/
def Prog.text : Prog U C M B → List (Phase U C M B)
  | .fin a => a
  | .place a _ _ _ => a

/-- The next place. -/
def Prog.todo : Prog U C M B → Option (Meet U M × Prog U C M B × Prog U C M B)
  | .fin _ => none
  | .place _ f y z => some (f, y, z)

/-- A text and then a program. -/
def seq (a : List (Phase U C M B)) : Prog U C M B → Prog U C M B
  | .fin b => .fin (a ++ b)
  | .place b f y z => .place (a ++ b) f y z

/-- The machine: the threads, what comes at the next place, and how often the stepper has been advanced
there. -/
structure PSt (U R T C M B : Type) where
  st : St U R T C M B
  todo : Option (Meet U M × Prog U C M B × Prog U C M B)
  time : ℕ

/-- The threads take up the program `l` after `k` advances. -/
def take (tm : Team U R T C) (l : Prog U C M B) (k : ℕ) (init : U → Loc U C M B) : PSt U R T C M B :=
  { st := start tm (l.text.map (later k)) init, todo := l.todo, time := k + ticks l.text }

/-- What can happen: some thread moves, or all threads are at the next place and the masters do what is
to be done there. -/
inductive PMove (tm : Team U R T C) : PSt U R T C M B → PSt U R T C M B → Prop
  | thread (g : PSt U R T C M B) (t : T) (s : St U R T C M B) (h : step tm t g.st = .next s) :
      PMove tm g { g with st := s }
  | masters (g : PSt U R T C M B) (f : Meet U M) (y z : Prog U C M B)
      (hf : ∀ t, g.st.rest t = []) (h : g.todo = some (f, y, z)) :
      PMove tm g (take tm (if (f g.time fun u => (g.st.loc u).mem).2 then y else z) g.time
        (passed (fun m => (f g.time m).1) g.st.loc))

/-- The states some schedule leads to. -/
def PReach (tm : Team U R T C) (l : Prog U C M B) (init : U → Loc U C M B) (g : PSt U R T C M B) :
    Prop := Relation.ReflTransGen (PMove tm) (take tm l 0 init) g

/-- All threads have come to the end. -/
def PEnded (g : PSt U R T C M B) : Prop := (∀ t, g.st.rest t = []) ∧ g.todo = none

/-! ## The text -/

/-- The kernels of the Newton loop. -/
structure Implicit (U M : Type) where
  /-- `init_iteration` -/
  init : U → ℕ → M → M
  /-- local and global kernels, condensation -/
  kern : U → ℕ → M → M
  /-- assembly, solution, distribution and the norm -/
  solve : Meet U M
  /-- `q_hat`, `q` and the local right-hand sides -/
  update : U → ℕ → M → M
  /-- `std::swap` -/
  swap : U → ℕ → M → M

/-- `ihdg_swe_proc_ompi_step.hpp` lines 43-91 with `ihdg_swe_proc_ompi_sol_glob_prob.hpp` lines 7-396:
at most `i` iterations. -/
def newton (w : Implicit U M) : ℕ → Prog U CommType M B → Prog U CommType M B
  | 0, r => r
  | i + 1, r => .place [.each [.work w.kern]] w.solve
      (seq [.each [.work w.update]] r) (seq [.each [.work w.update]] (newton w i r))

/-- `ihdg_swe_proc_ompi_step.hpp` lines 93-118: after the loop. -/
def closing (k : Kernels U M B) (w : Implicit U M) (sl : Bool) : List (Phase U CommType M B) :=
  barrier ++ [Phase.master] ++ barrier ++ [.each [.work w.swap]] ++
  (if sl then limiterText k else []) ++ [.each [.work k.check]]

/-- `ihdg_swe_proc_ompi_step.hpp` lines 17-24 and 39-118: one stage, and then `r`. -/
def stage (k : Kernels U M B) (w : Implicit U M) (sl : Bool) (r : Prog U CommType M B) :
    Prog U CommType M B :=
  seq [.each [.work k.parse], .each [.work w.init]] (newton w 100 (seq (closing k w sl) r))

/-- `n` stages, and then `r`. -/
def stages (k : Kernels U M B) (w : Implicit U M) (sl : Bool) : ℕ → Prog U CommType M B → Prog U CommType M B
  | 0, r => r
  | n + 1, r => stage k w sl (stages k w sl n r)

/-- `ihdg_swe_proc_ompi_step.hpp` lines 10-31 (`step_ompi`) for all steps. -/
def steps (k : Kernels U M B) (w : Implicit U M) (sl : Bool) (ns : ℕ) : ℕ → Prog U CommType M B
  | 0 => .fin []
  | s + 1 => stages k w sl ns (seq [.each [.work k.output]] (steps k w sl ns s))

end Verif.IhdgSchedule
