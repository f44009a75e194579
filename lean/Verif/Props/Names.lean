import Verif.Model.Partition
import Verif.Lemmas.Text

/-!
# Submesh numbering and file names (C23)
-/

namespace Verif.Partition.Props
open Verif Verif.MeshMeta Verif.Util Verif.Text Verif.Partition

/-- **C23** Locality and submesh number can be recovered from the rank id, and every rank id is one of a pair. -/
theorem rank_bijective (n : ℕ) (hn : 0 < n) :
    (∀ loc sub, loc < n → (loc + n * sub) % n = loc ∧ (loc + n * sub) / n = sub) ∧
    ∀ r, r % n < n ∧ r % n + n * (r / n) = r := by
  refine ⟨fun loc sub h => ⟨?_, ?_⟩, fun r => ⟨Nat.mod_lt r hn, Nat.mod_add_div r n⟩⟩
  · rw [Nat.add_mul_mod_self_left, Nat.mod_eq_of_lt h]
  · rw [Nat.add_mul_div_left _ _ hn, Nat.div_eq_of_lt h, Nat.zero_add]

theorem stem_dot (s t : List Char) (ht : '.' ∉ t) : stem (s ++ '.' :: t) = s := by
  unfold stem
  rw [if_pos (by simp)]
  have : (s ++ '.' :: t).reverse = t.reverse ++ '.' :: s.reverse := by simp
  rw [this, List.dropWhile_append_of_pos (by
    intro c hc
    have : c ≠ '.' := fun h => ht (by rw [List.mem_reverse] at hc; exact h ▸ hc)
    simpa using this)]
  simp

theorem dotPart_dot (s t : List Char) (ht : '.' ∉ t) : dotPart (s ++ '.' :: t) = .ok ('.' :: t) := by
  unfold dotPart
  rw [if_pos (by simp)]
  have : (s ++ '.' :: t).reverse = t.reverse ++ '.' :: s.reverse := by simp
  rw [this, List.takeWhile_append_of_pos (by
    intro c hc
    have : c ≠ '.' := fun h => ht (by rw [List.mem_reverse] at hc; exact h ▸ hc)
    simpa using this)]
  simp

theorem meta_lit : ".meta".toList = '.' :: ['m', 'e', 't', 'a'] := by decide +kernel
theorem dbmd_lit : ".dbmd".toList = '.' :: ['d', 'b', 'm', 'd'] := by decide +kernel

/-- **C23** For every mesh file name (with or without extension or further dots) the files written by the partitioner for
submesh `(n, m)` are those for which rank `n` looks, and which unit `(n, m)` then opens, when started with the input file
written by the partitioner. -/
theorem names_agree (mesh : List Char) (n m : ℕ) :
    simMesh (updatedMesh mesh) n m = .ok (metaName mesh n m) ∧
    unitMesh (updatedMesh mesh) n m = .ok (metaName mesh n m) ∧
    unitDb (updatedMesh mesh) n m = .ok (dbmdName mesh n m) := by
  have h1 : stem (updatedMesh mesh) = stem mesh := by
    unfold updatedMesh; rw [meta_lit]; exact stem_dot _ _ (by decide)
  have h2 : dotPart (updatedMesh mesh) = .ok ".meta".toList := by
    unfold updatedMesh; rw [meta_lit]; exact dotPart_dot _ _ (by decide)
  have h3 : stem (dbName (updatedMesh mesh)) = stem mesh := by
    unfold dbName; rw [h1, dbmd_lit]; exact stem_dot _ _ (by decide)
  have h4 : dotPart (dbName (updatedMesh mesh)) = .ok ".dbmd".toList := by
    unfold dbName; rw [h1, dbmd_lit]; exact dotPart_dot _ _ (by decide)
  refine ⟨?_, ?_, ?_⟩
  · unfold simMesh
    rw [h2, h1]
    simp only [metaName, suffix]
    show Except.ok _ = Except.ok _
    simp
  · unfold unitMesh insertBeforeDot
    rw [h2, h1]
    rfl
  · unfold unitDb insertBeforeDot
    rw [h4, h3]
    rfl

theorem dec_no_us (n : ℕ) : '_' ∉ dec n := fun h => absurd (dec_isDig _ h) (by decide)

theorem suffix_inj {n m n' m' : ℕ} (h : suffix n m = suffix n' m') : n = n' ∧ m = m' := by
  unfold suffix at h
  simp only [List.cons_append, List.cons.injEq, true_and] at h
  have key : ∀ (a b a' b' : List Char), '_' ∉ a → '_' ∉ a' → a ++ '_' :: b = a' ++ '_' :: b' → a = a' ∧ b = b' := by
    intro a
    induction a with
    | nil =>
      intro b a' b' _ h2 h3
      cases a' with
      | nil => simpa using h3
      | cons c a' => simp at h3 h2; exact absurd h3.1 h2.1
    | cons c a ih =>
      intro b a' b' h1 h2 h3
      cases a' with
      | nil => simp at h3 h1; exact absurd h3.1.symm h1.1
      | cons c' a' =>
        simp only [List.cons_append, List.cons.injEq, List.mem_cons, not_or] at h1 h2 h3
        obtain ⟨rfl, rfl⟩ := ih b a' b' h1.2 h2.2 h3.2
        exact ⟨by rw [h3.1], rfl⟩
  obtain ⟨h1, h2⟩ := key _ _ _ _ (dec_no_us n) (dec_no_us n') h
  exact ⟨dec_injective h1, dec_injective h2⟩

/-- **C23** No two submeshes are written to the same file. -/
theorem names_injective (mesh : List Char) (n m n' m' : ℕ) :
    (metaName mesh n m = metaName mesh n' m' → (n, m) = (n', m')) ∧
    (dbmdName mesh n m = dbmdName mesh n' m' → (n, m) = (n', m')) ∧ metaName mesh n m ≠ dbmdName mesh n' m' := by
  refine ⟨?_, ?_, ?_⟩
  · intro h
    unfold metaName at h
    have h := List.append_cancel_left (List.append_cancel_right h)
    obtain ⟨rfl, rfl⟩ := suffix_inj h
    rfl
  · intro h
    unfold dbmdName at h
    have h := List.append_cancel_left (List.append_cancel_right h)
    obtain ⟨rfl, rfl⟩ := suffix_inj h
    rfl
  · intro h
    have := congrArg List.getLast? h
    unfold metaName dbmdName at this
    rw [meta_lit, dbmd_lit] at this
    simp at this

theorem discover_spec {ex : ℕ → Bool} {c : ℕ} (h : ∀ m, ex m = true ↔ m < c) (fuel sub : ℕ) (hs : sub ≤ c) (hf : c ≤ sub + fuel) :
    discover ex fuel sub = some c := by
  induction fuel generalizing sub with
  | zero =>
    have : sub = c := by omega
    subst this
    have hx : ex sub = false := by
      rw [← Bool.not_eq_true]; intro q; have := (h sub).mp q; omega
    simp [discover, hx]
  | succ fuel ih =>
    unfold discover
    by_cases hc : sub < c
    · rw [if_pos ((h sub).mpr hc)]
      exact ih (sub + 1) (by omega) (by omega)
    · have : sub = c := by omega
      subst this
      rw [if_neg (fun q => by have := (h sub).mp q; omega)]

/-- **C23** If the files for submeshes are exactly those written by the partitioner (`count n` for rank `n`), then rank `n`
creates exactly `count n` units: the loop stops after `count n` iterations. -/
theorem discover_exact (mesh : List Char) (numRanks : ℕ) (count : ℕ → ℕ) (exist : List Char → Bool)
    (he : ∀ n m, exist (metaName mesh n m) = true ↔ n < numRanks ∧ m < count n) (n : ℕ) (hn : n < numRanks) (fuel : ℕ)
    (hf : count n ≤ fuel) :
    discover (fun m => match simMesh (updatedMesh mesh) n m with | .ok f => exist f | .error _ => false) fuel 0 = some (count n) := by
  apply discover_spec (c := count n) _ _ _ (by omega) (by omega)
  intro m
  rw [(names_agree mesh n m).1]
  simp only [he]
  exact ⟨fun h => h.2, fun h => ⟨hn, h⟩⟩

example : metaName "quad.1/mesh.14".toList 3 12 = "quad.1/mesh_3_12.meta".toList ∧
    simMesh (updatedMesh "quad.1/mesh.14".toList) 3 12 = .ok "quad.1/mesh_3_12.meta".toList := by decide +kernel
example : discover (fun m => decide (m < 3)) 10 0 = some 3 := by decide
/-- Without any dot in its own mesh name the parallel simulation throws. -/
example : simMesh "mesh".toList 0 0 = .error .exc := by decide +kernel

end Verif.Partition.Props
