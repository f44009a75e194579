import Verif.Model.SweStage
import Mathlib.Algebra.BigOperators.Group.List.Basic
import Mathlib.Tactic.Ring
import Mathlib.Tactic.Abel

/-!
Helper lemmas: the right-hand side of one element as a sum over its faces.
-/

namespace Verif.Swe
open Verif.Geometry Verif.Element

variable {K : Type} [Field K] [LinearOrder K]

/-- What an interface subtracts from element `e`, with the numbers of the faces. -/
def intTerms (v : Env K) (dat : ℕ → EltData K) (wet : ℕ → Bool) (q : State K) (e : ℕ) (i : Iface K) : List (ℕ × (Fin 3 → ℕ → K)) :=
  if wet i.ein || wet i.eex then
    (if i.ein = e then [(i.fin, i.inTerm v dat wet q)] else []) ++ (if i.eex = e then [(i.fex, i.exTerm v dat wet q)] else [])
  else []

/-- What a boundary subtracts from element `e`. -/
def bndTerms (v : Env K) (dat : ℕ → EltData K) (wet : ℕ → Bool) (t ramp : K) (q : State K) (e : ℕ) (b : Bnd K) : List (ℕ × (Fin 3 → ℕ → K)) :=
  if wet b.e then (if b.e = e then [(b.f, b.term v dat t ramp q)] else []) else []

/-- What all faces subtract from element `e`. -/
def faceTerms (v : Env K) (dat : ℕ → EltData K) (m : Mesh K) (wet : ℕ → Bool) (t ramp : K) (q : State K) (e : ℕ) : List (ℕ × (Fin 3 → ℕ → K)) :=
  m.ints.flatMap (intTerms v dat wet q e) ++ m.bnds.flatMap (bndTerms v dat wet t ramp q e)

omit [LinearOrder K] in
theorem subAt_at (r : State K) (a e : ℕ) (x : Fin 3 → ℕ → K) : subAt r a x e = r e - if a = e then x else 0 := by
  unfold subAt
  by_cases h : a = e
  · subst h; simp
  · rw [Function.update_of_ne (Ne.symm h), if_neg h, sub_zero]

theorem interface_at (v : Env K) (dat : ℕ → EltData K) (wet : ℕ → Bool) (q : State K) (l : List (Iface K)) (r : State K) (e : ℕ) :
    (l.foldl (interfaceKernel v dat wet q) r) e = r e - ((l.flatMap (intTerms v dat wet q e)).map Prod.snd).sum := by
  induction l generalizing r with
  | nil => simp
  | cons i l ih =>
    rw [List.foldl_cons, ih, List.flatMap_cons, List.map_append, List.sum_append]
    have : interfaceKernel v dat wet q r i e = r e - ((intTerms v dat wet q e i).map Prod.snd).sum := by
      unfold interfaceKernel intTerms
      split
      · rw [subAt_at, subAt_at]
        split <;> split <;> simp [sub_sub]
      · simp
    rw [this]; abel

theorem boundary_at (v : Env K) (dat : ℕ → EltData K) (wet : ℕ → Bool) (t ramp : K) (q : State K) (l : List (Bnd K)) (r : State K) (e : ℕ) :
    (l.foldl (boundaryKernel v dat wet t ramp q) r) e = r e - ((l.flatMap (bndTerms v dat wet t ramp q e)).map Prod.snd).sum := by
  induction l generalizing r with
  | nil => simp
  | cons b l ih =>
    rw [List.foldl_cons, ih, List.flatMap_cons, List.map_append, List.sum_append]
    have : boundaryKernel v dat wet t ramp q r b e = r e - ((bndTerms v dat wet t ramp q e b).map Prod.snd).sum := by
      unfold boundaryKernel bndTerms
      split
      · rw [subAt_at]
        split <;> simp
      · simp
    rw [this]; abel

theorem volume_at (v : Env K) (dat : ℕ → EltData K) (wet : ℕ → Bool) (q : State K) (l : List ℕ) (r : State K) (e : ℕ) :
    (l.foldl (volumeKernel v dat wet q) r) e = if e ∈ l then (if wet e then volumeTerm v (dat e) (q e) else 0) else r e := by
  induction l generalizing r with
  | nil => simp
  | cons a l ih =>
    rw [List.foldl_cons, ih]
    by_cases h : e ∈ l
    · simp [h]
    · by_cases ha : e = a
      · subst ha; simp [h, volumeKernel]
      · simp [h, ha, volumeKernel]

theorem source_at (v : Env K) (dat : ℕ → EltData K) (wet : ℕ → Bool) (t : K) (q : State K) {l : List ℕ} (hl : l.Nodup) (r : State K) (e : ℕ) :
    (l.foldl (sourceKernel v dat wet t q) r) e = r e + if e ∈ l then (if wet e then sourceTerm v (dat e) t (q e) else 0) else 0 := by
  induction l generalizing r with
  | nil => simp
  | cons a l ih =>
    rw [List.nodup_cons] at hl
    rw [List.foldl_cons, ih hl.2]
    have : sourceKernel v dat wet t q r a e = r e + if e = a then (if wet e then sourceTerm v (dat e) t (q e) else 0) else 0 := by
      unfold sourceKernel
      by_cases ha : e = a
      · subst ha
        by_cases hw : wet e <;> simp [hw]
      · by_cases hw : wet a <;> simp [hw, ha]
    rw [this]
    by_cases ha : e = a
    · subst ha
      simp [hl.1]
    · simp [ha]

/-- The right-hand side of one element. -/
theorem localRhs_at (v : Env K) (dat : ℕ → EltData K) (m : Mesh K) (hn : m.elts.Nodup) (wet : ℕ → Bool) (t ramp : K) (q r : State K) (e : ℕ) :
    localRhs v dat m wet t ramp q r e =
      (if e ∈ m.elts then (if wet e then volumeTerm v (dat e) (q e) + sourceTerm v (dat e) t (q e) else 0) else r e) -
      ((faceTerms v dat m wet t ramp q e).map Prod.snd).sum := by
  simp only [localRhs]
  rw [boundary_at, interface_at, source_at v dat wet t q hn, volume_at, faceTerms, List.map_append, List.sum_append]
  rw [← sub_sub]
  congr 2
  by_cases he : e ∈ m.elts
  · by_cases hw : wet e <;> simp [he, hw]
  · simp [he]

end Verif.Swe
