import Verif.Model.GnSchedule

/-!
# The collective operations of the Green-Naghdi program, rank by rank

In `Verif.Model.GnSchedule` all masters pass a place in one move.  Here each master hands in what it has
read of the units of its rank when the threads of its rank are there (first barrier), the operation is
complete when all ranks have handed in, and each master comes back at a time of its own, writes what
its units read, and only then lets the threads of its rank go on (second barrier); the threads of other
ranks may have gone on, and sent messages, long before.

Sources: `ehdg_gn_proc_ompi_sol_glob_prob.hpp` lines 147-326, `recon_avg_derivatives_ompi.hpp` lines 8-76
and 81-140.  Simplification: what a master hands in is a copy of its units.
-/

namespace Verif.GnSchedule

open Verif.Schedule

variable {U R T C M B : Type} [DecidableEq U] [DecidableEq R] [DecidableEq T] [DecidableEq C]

/-- The machine: the threads, what each master has handed in, and what the masters that have not come
back yet will bring. -/
structure FSt (U R T C M B : Type) where
  g : GSt U R T C M B
  gave : R → Option (U → M)
  sol : R → Option (U → M)

/-- Messages are counted anew. -/
def recount (xs : U → Loc U C M B) : U → Loc U C M B := fun u =>
  { mem := (xs u).mem, com := fun c => renew ((xs u).com c) }

/-- What all ranks have handed in; `rk u` is the rank of `u`. -/
def gathered (rk : U → R) (gave : R → Option (U → M)) (xs : U → Loc U C M B) : U → M := fun u =>
  match gave (rk u) with
  | some x => x u
  | none => (xs u).mem

/-- The units of rank `r` are given `x`. -/
def bring (rk : U → R) (r : R) (x : U → M) (xs : U → Loc U C M B) : U → Loc U C M B := fun u =>
  if rk u = r then { mem := x u, com := (xs u).com } else xs u

/-- What can happen. -/
inductive FMove (tm : Team U R T C) (rk : U → R) : FSt U R T C M B → FSt U R T C M B → Prop
  /-- a thread whose master is back goes on -/
  | thread (F : FSt U R T C M B) (t : T) (s : St U R T C M B) (hs : F.sol (tm.rank t) = none)
      (h : step tm t F.g.st = .next s) : FMove tm rk F { F with g := { F.g with st := s } }
  /-- the master of `r` hands in -/
  | give (F : FSt U R T C M B) (r : R) (hf : ∀ t, tm.rank t = r → F.g.st.rest t = [])
      (ht : F.g.todo ≠ none) (hg : F.gave r = none) (hs : F.sol r = none) :
      FMove tm rk F { F with gave := Function.update F.gave r (some fun u => (F.g.st.loc u).mem) }
  /-- all have handed in -/
  | meet (F : FSt U R T C M B) (f : ℕ → (U → M) → U → M) (l : List (Item U C M B))
      (h : F.g.todo = some (f, l)) (hg : ∀ r, F.gave r ≠ none) :
      FMove tm rk F
        { g := enter tm l F.g.time (recount F.g.st.loc), gave := fun _ => none
          sol := fun _ => some (f F.g.time (gathered rk F.gave F.g.st.loc)) }
  /-- the master of `r` comes back -/
  | back (F : FSt U R T C M B) (r : R) (x : U → M) (h : F.sol r = some x) :
      FMove tm rk F
        { F with
          g := { F.g with st := { F.g.st with loc := bring rk r x F.g.st.loc } }
          sol := Function.update F.sol r none }

/-- The machine at the start. -/
def fstart (tm : Team U R T C) (l : List (Item U C M B)) (init : U → Loc U C M B) : FSt U R T C M B :=
  { g := enter tm l 0 init, gave := fun _ => none, sol := fun _ => none }

/-- The states some schedule leads to. -/
def FReach (tm : Team U R T C) (rk : U → R) (l : List (Item U C M B)) (init : U → Loc U C M B)
    (F : FSt U R T C M B) : Prop := Relation.ReflTransGen (FMove tm rk) (fstart tm l init) F

/-- All threads have come to the end and all masters are back. -/
def FEnded (F : FSt U R T C M B) : Prop := Ended F.g ∧ ∀ r, F.sol r = none

end Verif.GnSchedule
