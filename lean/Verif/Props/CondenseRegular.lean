import Verif.Props.CondenseP
import Verif.Props.GnRegular

/-!
# The condensed system is regular where the whole one is

If the equations of elements and edges together have one solution only and the elements' own matrices have inverses, then the matrix of the global system is
regular, on one rank (`serial_regular`) and on several (`ranks_regular`).
-/

namespace Verif.Ihdg.Props
open Verif.Ehdg Verif.Ihdg
open Verif.Gn (PEdge)
open Verif.Gn.Props (Regular)

variable {K : Type} [Field K]

/-- The blocks without right-hand sides. -/
def hom (b : Blocks K) : Blocks K := { b with rl := fun _ _ => 0, rg := fun _ _ => 0 }

def homP (p : PBlocks K) : PBlocks K := { p with rl := fun _ _ => 0, hr := fun _ _ _ => 0 }

/-- The equations without right-hand sides have the zero solution only. -/
def Sole (s : Skeleton) (b : Blocks K) : Prop :=
  ∀ dq y, ElementEq s (hom b) dq y → EdgeEq s (hom b) dq y → (∀ e ∈ s.elts, ∀ i < s.size e, dq e i = 0) ∧ ∀ k < s.edges.length, ∀ j < s.esize k, y k j = 0

theorem sum_sub {α : Type} (l : List α) (f g : α → K) : (l.map fun a => f a - g a).sum = (l.map f).sum - (l.map g).sum := by
  induction l with
  | nil => simp
  | cons a l ih => simp only [List.map_cons, List.sum_cons, ih]; ring

/-- Then those with right-hand sides have one solution at most. -/
theorem sole_unique {s : Skeleton} {b : Blocks K} (h : Sole s b) (dq y dq' y' : ℕ → ℕ → K) (h1 : ElementEq s b dq y) (h2 : EdgeEq s b dq y) (h3 : ElementEq s b dq' y')
    (h4 : EdgeEq s b dq' y') : (∀ e ∈ s.elts, ∀ i < s.size e, dq e i = dq' e i) ∧ ∀ k < s.edges.length, ∀ j < s.esize k, y k j = y' k j := by
  obtain ⟨h5, h6⟩ := h (fun e i => dq e i - dq' e i) (fun k j => y k j - y' k j) (fun e he i hi => by
    have a := h1 e he i hi
    have c := h3 e he i hi
    simp only [hom, mul_sub, Finset.sum_sub_distrib, sum_sub]
    linear_combination a - c) (fun k hk i hi => by
    have a := h2 k hk i hi
    have c := h4 k hk i hi
    simp only [hom, mul_sub, Finset.sum_sub_distrib, sum_sub]
    linear_combination a - c)
  exact ⟨fun e he i hi => sub_eq_zero.1 (h5 e he i hi), fun k hk j hj => sub_eq_zero.1 (h6 k hk j hj)⟩

theorem inverses_hom (I : Inverse K) (b : Blocks K) (s : Skeleton) (l : List ℕ) : inverses I (hom b) s l = inverses I b s l := by
  induction l with
  | nil => rfl
  | cons e l ih => rw [inverses, inverses, ih]; rfl

/-- Whether all inverses are found does not depend on the order of the elements. -/
theorem inverses_isSome (I : Inverse K) (b : Blocks K) (s : Skeleton) (l : List ℕ) : (inverses I b s l).isSome ↔ ∀ e ∈ l, (I (s.size e) (b.dl e)).isSome := by
  induction l with
  | nil => simp [inverses]
  | cons e l ih =>
    rw [inverses, List.forall_mem_cons, ← ih]
    rcases I (s.size e) (b.dl e) with - | m
    · simp
    · rcases inverses I b s l with - | t <;> simp

theorem rhs_hom (s : Skeleton) (t : Numbering) (b : Blocks K) (inv : ℕ → ℕ → ℕ → K) : assembleRhs s t (hom b) inv = fun _ => 0 := by
  unfold assembleRhs
  generalize s.edges.zipIdx = l
  induction l with
  | nil => rfl
  | cons x l ih =>
    rw [List.foldl_cons]
    have : setSub (fun _ => (0 : K)) ((t.edge x.2).headD 0) (t.edge x.2).length (ownRhs s (hom b) inv x.1 x.2) = fun _ => 0 := by
      funext i
      simp [setSub, ownRhs, hom, mulV]
    rw [this, ih]

theorem rhs_homP (P : PSkeleton) (t : PNumbering) (p : PBlocks K) (inv : ℕ → ℕ → ℕ → K) : (assembleP P t (homP p) inv).2 = fun _ => 0 := by
  unfold assembleP
  simp only
  generalize P.edges = l
  induction l with
  | nil => rfl
  | cons x l ih =>
    rw [List.foldl_cons]
    have : addP P t (homP p) inv (fun _ => 0) x = fun _ => 0 := by
      funext i
      simp [addP, ownRhsP, homP, mulV]
    rw [this, ih]

theorem gathers_hom {P : PSkeleton} {s : Skeleton} {p : PBlocks K} {b : Blocks K} (h : Gathers P s p b) : Gathers P s (homP p) (hom b) :=
  ⟨h.dl, fun _ _ _ _ => rfl, h.dh, h.dg, h.dhg, fun k hk i _ => by simp [hom, homP]⟩

open Classical in
/-- A solver that returns `z` where it is a solution. -/
noncomputable def known (z : ℕ → K) : Solver K := fun n A r => if ∀ i < n, ∑ j ∈ Finset.range n, A i j * z j = r i then some z else none

theorem known_solves (z : ℕ → K) : Solves (known z) := by
  intro n A r x h
  unfold known at h
  split_ifs at h with hz
  cases h
  exact hz

variable [LinearOrder K] [IsStrictOrderedRing K]

theorem squares_zero {n : ℕ} {x : ℕ → K} (h : ∑ r ∈ Finset.range n, x r * x r = 0) : ∀ i < n, x i = 0 := by
  intro i hi
  have := (Finset.sum_eq_zero_iff_of_nonneg fun r _ => mul_self_nonneg (x r)).1 h i (Finset.mem_range.2 hi)
  exact mul_self_eq_zero.1 this

theorem serial_regular {I : Inverse K} (hI : ∀ n M N, I n M = some N → RightInv n M N) {s : Skeleton} (hw : WellFormed s) {b : Blocks K} (hs : Sole s b) {inv : ℕ → ℕ → ℕ → K}
    (hi : inverses I b s s.elts = some inv) : Regular (number s).off (assemble s (number s) b inv) := by
  intro z hz
  have hc : ∃ dq, condense I (known z) s (hom b) = some (dq, z) := by
    unfold condense
    have hk : known z (number s).off (assemble s (number s) (hom b) inv) (assembleRhs s (number s) (hom b) inv) = some z := by
      rw [rhs_hom]
      exact if_pos hz
    rw [inverses_hom, hi]
    simp only [Option.bind_eq_bind, Option.bind_some, hk]
    exact ⟨_, rfl⟩
  obtain ⟨dq, hc⟩ := hc
  obtain ⟨h1, h2⟩ := condensed hI (known_solves z) hw hc
  obtain ⟨-, h4⟩ := hs _ _ h1 h2
  refine squares_zero ?_
  rw [sum_serial s hw.pos fun a => a * a]
  exact Finset.sum_eq_zero fun k hk => Finset.sum_eq_zero fun j hj => by rw [h4 k (Finset.mem_range.1 hk) j (Finset.mem_range.1 hj), mul_zero]

theorem ranks_regular {I : Inverse K} (hI : ∀ n M N, I n M = some N → RightInv n M N) {P : PSkeleton} {s : Skeleton} (hP : Shared P s) (hw : WellFormed s) {p : PBlocks K} {b : Blocks K}
    (hb : Gathers P s p b) (hs : Sole s b) {inv : ℕ → ℕ → ℕ → K} (hi : inverses I p.elt P.sizes P.elts = some inv) :
    Regular (numberP P).total (assembleP P (numberP P) p inv).1 := by
  intro z hz
  have hi' : inverses I (homP p).elt P.sizes P.elts = some inv := by
    rw [← inverses_hom] at hi ⊢
    exact hi
  have hk : known z (numberP P).total (assembleP P (numberP P) (homP p) inv).1 (assembleP P (numberP P) (homP p) inv).2 = some z := by
    rw [rhs_homP]
    exact if_pos hz
  obtain ⟨dq, dh, hc⟩ := parallel_total hP hi' hk
  obtain ⟨h1, h2, -⟩ := parallel_condensed hI (known_solves z) hP hw (gathers_hom hb) hc
  obtain ⟨-, h4⟩ := hs _ _ h1 h2
  refine squares_zero ?_
  rw [sum_whole hP fun a => a * a]
  exact Finset.sum_eq_zero fun k hk => Finset.sum_eq_zero fun j hj => by rw [h4 k (Finset.mem_range.1 hk) j (Finset.mem_range.1 hj), mul_zero]

end Verif.Ihdg.Props
