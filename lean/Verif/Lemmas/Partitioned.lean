import Verif.Model.SweParallel
import Verif.Lemmas.RhsAt
import Verif.Props.SweFlux
import Verif.Props.SweLimiter
import Mathlib.Algebra.BigOperators.Group.List.Lemmas

/-!
Helper lemmas for the comparison of the serial and the partitioned program.
-/

namespace Verif.Swe
open Verif.Geometry Verif.Element

/-! ### Monadic folds -/

theorem foldlM_pure {α S : Type} (f : S → α → Res S) (g : S → α → S) (l : List α) (h : ∀ x ∈ l, ∀ s, f s x = .ok (g s x)) (s : S) :
    l.foldlM f s = .ok (l.foldl g s) := by
  induction l generalizing s with
  | nil => rfl
  | cons x l ih =>
    rw [List.foldlM_cons, h x List.mem_cons_self, List.foldl_cons]
    exact ih (fun y hy => h y (List.mem_cons_of_mem _ hy)) _

theorem foldlM_flat {α β S : Type} (f : S → β → Res S) (k : α → List β) (l : List α) (s : S) :
    l.foldlM (fun s a => (k a).foldlM f s) s = (l.flatMap k).foldlM f s := by
  induction l generalizing s with
  | nil => rfl
  | cons a l ih =>
    rw [List.foldlM_cons, List.flatMap_cons, List.foldlM_append]
    congr 1
    funext s
    exact ih s

theorem sequence_ok {α : Type} (f : ℕ → Res α) (g : ℕ → α) (n : ℕ) (h : ∀ j < n, f j = .ok (g j)) :
    sequenceRes f n = .ok ((List.range n).map g) := by
  induction n with
  | zero => rfl
  | succ n ih =>
    rw [sequenceRes, ih fun j hj => h j (by omega), h n (by omega), List.range_succ, List.map_append]
    rfl

/-! ### Sums over faces -/

section
variable {K : Type} [Field K] [LinearOrder K]

/-- The right-hand side of one element after all kernels of all submeshes but those of distributed boundaries. -/
theorem localAll_at (v : Env K) (dat : ℕ → EltData K) (wet : ℕ → Bool) (t ramp : K) (q : State K) (e : ℕ) (ms : List (Mesh K))
    (hn : (ms.flatMap Mesh.elts).Nodup)
    (hi : ∀ s ∈ ms, ∀ i ∈ s.ints, i.ein ∈ s.elts ∧ i.eex ∈ s.elts) (hb : ∀ s ∈ ms, ∀ b ∈ s.bnds, b.e ∈ s.elts) (r : State K) :
    (ms.foldl (fun r m => localRhs v dat m wet t ramp q r) r) e =
      (if e ∈ ms.flatMap Mesh.elts then (if wet e then volumeTerm v (dat e) (q e) + sourceTerm v (dat e) t (q e) else 0) else r e) -
      ((((ms.flatMap Mesh.ints).flatMap (intTerms v dat wet q e)).map Prod.snd).sum +
        (((ms.flatMap Mesh.bnds).flatMap (bndTerms v dat wet t ramp q e)).map Prod.snd).sum) := by
  induction ms generalizing r with
  | nil => simp
  | cons m ms ih =>
    rw [List.flatMap_cons, List.nodup_append] at hn
    obtain ⟨n1, n2, n3⟩ := hn
    rw [List.foldl_cons, ih n2 (fun s hs => hi s (List.mem_cons_of_mem _ hs)) (fun s hs => hb s (List.mem_cons_of_mem _ hs)),
      localRhs_at v dat m n1]
    simp only [List.flatMap_cons, List.flatMap_append, List.map_append, List.sum_append, List.mem_append, faceTerms]
    by_cases h : e ∈ ms.flatMap Mesh.elts
    · have hm : e ∉ m.elts := fun hm => n3 e hm e h rfl
      have z1 : m.ints.flatMap (intTerms v dat wet q e) = [] := by
        rw [List.flatMap_eq_nil_iff]
        intro i hii
        have := hi m List.mem_cons_self i hii
        unfold intTerms
        rw [if_neg (fun h : i.ein = e => hm (h ▸ this.1)), if_neg (fun h : i.eex = e => hm (h ▸ this.2))]
        simp
      have z2 : m.bnds.flatMap (bndTerms v dat wet t ramp q e) = [] := by
        rw [List.flatMap_eq_nil_iff]
        intro b hbb
        have := hb m List.mem_cons_self b hbb
        unfold bndTerms
        rw [if_neg (fun h : b.e = e => hm (h ▸ this))]
        simp
      rw [z1, z2]
      simp [h]
    · simp only [h, or_false, if_false]
      abel

/-- Sums over lists that are permutations of each other. -/
theorem sum_perm {α β : Type} [AddCommMonoid β] {l l' : List α} (h : l.Perm l') (f : α → List (ℕ × β)) :
    ((l.flatMap f).map Prod.snd).sum = ((l'.flatMap f).map Prod.snd).sum :=
  ((h.flatMap_right f).map Prod.snd).sum_eq
end

end Verif.Swe
