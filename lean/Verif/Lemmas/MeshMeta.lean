import Verif.Model.MeshMeta
import Mathlib.Data.List.Nodup
import Mathlib.Data.Sym.Sym2
import Mathlib.Tactic.SplitIfs

/-!
# Lemmas for the mesh metadata: the edge dictionary and the loop over it
-/

namespace Verif.MeshMeta
open Verif Verif.Adcirc

theorem ok_bind {α β : Type} (x : α) (f : α → Res β) : (Except.ok x >>= f) = f x := rfl

theorem bind_ok {α β : Type} {x : Res α} {f : α → Res β} {b : β} (h : (x >>= f) = .ok b) : ∃ a, x = .ok a ∧ f a = .ok b := by
  cases x with
  | error e => exact nomatch h
  | ok a => exact ⟨a, rfl, h⟩

theorem atKey_ok {α β : Type} [BEq α] {m : List (α × β)} {k : α} {x : β} : atKey m k = .ok x ↔ m.lookup k = some x := by
  unfold atKey
  cases m.lookup k <;> simp

theorem edgeKey_eq (a b : ℕ) (ha : a < 2 ^ 32) (hb : b < 2 ^ 32) : edgeKey a b = min a b * 2 ^ 32 + max a b := by
  unfold edgeKey
  have h1 : (min a b) <<< 32 < 2 ^ 64 := by rw [Nat.shiftLeft_eq]; omega
  rw [Nat.mod_eq_of_lt h1, ← Nat.shiftLeft_add_eq_or_of_lt (by omega), Nat.shiftLeft_eq]

theorem edgeKey_iff (a b c d : ℕ) (ha : a < 2 ^ 32) (hb : b < 2 ^ 32) (hc : c < 2 ^ 32) (hd : d < 2 ^ 32) :
    edgeKey a b = edgeKey c d ↔ s(a, b) = s(c, d) := by
  rw [edgeKey_eq a b ha hb, edgeKey_eq c d hc hd, Sym2.eq_iff]
  omega

/-! ### Association lists -/

/-- Change the values of an association list. -/
def mapVal {α : Type} (g : ℕ → α → α) (l : List (ℕ × α)) : List (ℕ × α) := l.map fun p => (p.1, g p.1 p.2)

theorem mapVal_fst {α : Type} (g : ℕ → α → α) (l : List (ℕ × α)) : (mapVal g l).map Prod.fst = l.map Prod.fst := by
  simp [mapVal, Function.comp_def]

theorem lookup_map_val {α : Type} (l : List (ℕ × α)) (g : ℕ → α → α) (k : ℕ) :
    (mapVal g l).lookup k = (l.lookup k).map (g k) := by
  unfold mapVal
  induction l with
  | nil => rfl
  | cons p l ih =>
    obtain ⟨i, x⟩ := p
    simp only [List.map_cons, List.lookup_cons]
    by_cases h : k = i
    · subst h; simp
    · have : (k == i) = false := by simpa using h
      simp [this, ih]

theorem mem_of_lookup {α : Type} {l : List (ℕ × α)} {k : ℕ} {x : α} (h : l.lookup k = some x) : (k, x) ∈ l := by
  induction l with
  | nil => simp at h
  | cons p l ih =>
    obtain ⟨i, y⟩ := p
    rw [List.lookup_cons] at h
    by_cases hk : k = i
    · subst hk; simp at h; simp [h]
    · have : (k == i) = false := by simpa using hk
      rw [this] at h
      exact List.mem_cons_of_mem _ (ih h)

theorem lookup_of_mem {α : Type} {l : List (ℕ × α)} (hn : (l.map Prod.fst).Nodup) {k : ℕ} {x : α} (h : (k, x) ∈ l) :
    l.lookup k = some x := by
  induction l with
  | nil => simp at h
  | cons p l ih =>
    obtain ⟨i, y⟩ := p
    rw [List.map_cons, List.nodup_cons] at hn
    rw [List.lookup_cons]
    rcases List.mem_cons.mp h with h | h
    · cases h; simp
    · rename_i h0
      have hne : k ≠ i := by
        rintro rfl; exact hn.1 (List.mem_map.mpr ⟨(k, x), by assumption, rfl⟩)
      have : (k == i) = false := by simpa using hne
      rw [this]; exact ih hn.2 h

theorem lookup_none {α : Type} {l : List (ℕ × α)} {k : ℕ} : l.lookup k = none ↔ k ∉ l.map Prod.fst := by
  induction l with
  | nil => simp
  | cons p l ih =>
    obtain ⟨i, y⟩ := p
    rw [List.lookup_cons]
    by_cases hk : k = i
    · subst hk; simp
    · have : (k == i) = false := by simpa using hk
      rw [this]
      simp only [ih, List.map_cons, List.mem_cons, hk, false_or]

/-! ### The dictionary -/

/-- The entry of a key, given the faces that have been entered under it, in order. -/
def entryOf : List Face → Option (Face × Face)
  | [] => none
  | x :: xs => some (x, xs.getLast?.getD (DEFAULT_ID, 0))

theorem entryOf_append (l : List Face) (f : Face) :
    entryOf (l ++ [f]) = match entryOf l with | none => some (f, (DEFAULT_ID, 0)) | some e => some (e.1, f) := by
  cases l with
  | nil => rfl
  | cons x xs => simp [entryOf]

/-- Faces entered under key `k`. -/
def under (occ : List (ℕ × Face)) (k : ℕ) : List Face := (occ.filter fun f => f.1 == k).map Prod.snd

theorem under_append (occ : List (ℕ × Face)) (f : ℕ × Face) (k : ℕ) :
    under (occ ++ [f]) k = if f.1 = k then under occ k ++ [f.2] else under occ k := by
  unfold under
  rw [List.filter_append, List.map_append]
  by_cases h : f.1 = k
  · simp [h]
  · simp [h]

theorem addEdge_map (d : Dict) (f : ℕ × Face) :
    (d.map fun (k, x) => if k = f.1 then (k, (x.1, f.2)) else (k, x)) =
      mapVal (fun k x => if k = f.1 then (x.1, f.2) else x) d := by
  apply List.map_congr_left
  rintro ⟨k, x⟩ _
  simp only
  split_ifs <;> rfl

theorem dict_inv (occ : List (ℕ × Face)) :
    ((occ.foldl addEdge []).map Prod.fst).Nodup ∧
    ∀ k, (occ.foldl addEdge []).lookup k = entryOf (under occ k) := by
  induction occ using List.reverseRecOn with
  | nil => exact ⟨by simp, fun k => rfl⟩
  | append_singleton occ f ih =>
    obtain ⟨hn, hl⟩ := ih
    rw [List.foldl_append, List.foldl_cons, List.foldl_nil]
    set d := occ.foldl addEdge [] with hd
    unfold addEdge
    by_cases hs : (d.lookup f.1).isSome
    · rw [if_pos hs, addEdge_map]
      refine ⟨by rw [mapVal_fst]; exact hn, ?_⟩
      intro k
      rw [lookup_map_val, hl, under_append]
      by_cases hk : f.1 = k
      · subst hk
        rw [if_pos rfl, entryOf_append]
        rw [hl] at hs
        obtain ⟨e, he⟩ := Option.isSome_iff_exists.mp hs
        rw [he]; simp
      · rw [if_neg hk]
        have hk' : ¬ k = f.1 := fun h => hk h.symm
        cases entryOf (under occ k) <;> simp [hk']
    · rw [if_neg hs]
      have hnone : d.lookup f.1 = none := Option.not_isSome_iff_eq_none.mp hs
      refine ⟨?_, ?_⟩
      · rw [List.map_append, List.nodup_append]
        refine ⟨hn, by simp, ?_⟩
        intro a ha b hb hab
        simp at hb
        subst hb; subst hab
        exact lookup_none.mp hnone ha
      · intro k
        rw [List.lookup_append, hl, under_append]
        by_cases hk : f.1 = k
        · subst hk
          rw [if_pos rfl, entryOf_append]
          rw [hl] at hnone
          rw [hnone]; simp
        · rw [if_neg hk]
          have : (k == f.1) = false := by simpa using fun h => hk h.symm
          simp [List.lookup, this]

/-! ### Writing faces -/

/-- Neighbour and boundary type of a face. -/
def slot (els : Elts) (f : Face) : Option (ℕ × ℕ) :=
  match els.lookup f.1 with
  | none => none
  | some e =>
    match e.nbr[f.2]?, e.btype[f.2]? with
    | some a, some b => some (a, b)
    | _, _ => none

/-- Ids and nodes, which are never changed. -/
def skel (els : Elts) : List (ℕ × List ℕ) := els.map fun p => (p.1, p.2.nodes)

theorem setFace_map (els : Elts) (f : Face) (nb bt : ℕ) :
    (els.map fun (i, e) =>
      if i = f.1 then (i, { e with nbr := e.nbr.set f.2 nb, btype := e.btype.set f.2 bt }) else (i, e)) =
    mapVal (fun i (e : Elt) =>
      if i = f.1 then { e with nbr := e.nbr.set f.2 nb, btype := e.btype.set f.2 bt } else e) els := by
  apply List.map_congr_left
  rintro ⟨k, x⟩ _
  simp only
  split_ifs <;> rfl

theorem setFace_spec (els : Elts) (f : Face) (nb bt : ℕ) (h : slot els f ≠ none) :
    ∃ els', setFace els f nb bt = .ok els' ∧ skel els' = skel els ∧
      ∀ g, slot els' g = if g = f then some (nb, bt) else slot els g := by
  unfold slot at h
  cases hl : els.lookup f.1 with
  | none => rw [hl] at h; exact absurd rfl h
  | some e =>
    rw [hl] at h
    unfold setFace
    rw [hl]
    refine ⟨_, rfl, ?_, ?_⟩
    · rw [setFace_map]
      unfold skel mapVal
      rw [List.map_map]
      apply List.map_congr_left
      rintro ⟨k, x⟩ _
      simp only [Function.comp]
      split_ifs <;> rfl
    · intro g
      rw [setFace_map]
      unfold slot
      rw [lookup_map_val]
      by_cases hg : g.1 = f.1
      · rw [hg, hl]
        simp only [Option.map_some, if_true]
        cases hn : e.nbr[f.2]? with
        | none => simp only [hn] at h; exact absurd rfl h
        | some a =>
          cases hb : e.btype[f.2]? with
          | none => simp only [hn, hb] at h; exact absurd rfl h
          | some b =>
            have l1 := (List.getElem?_eq_some_iff.mp hn).1
            have l2 := (List.getElem?_eq_some_iff.mp hb).1
            by_cases hk : g.2 = f.2
            · rw [if_pos (Prod.ext hg hk), hk, List.getElem?_set_self l1, List.getElem?_set_self l2]
            · rw [if_neg (fun h => hk (congrArg Prod.snd h)), List.getElem?_set_ne (fun h => hk h.symm),
                List.getElem?_set_ne (fun h => hk h.symm)]
      · rw [if_neg (fun h => hg (congrArg Prod.fst h))]
        cases hlg : els.lookup g.1 with
        | none => simp
        | some e' => simp [hg]

/-! ### The loop -/

/-- The entry writes to the face. -/
def Touch (x : ℕ × (Face × Face)) (p : Face) : Prop := p = x.2.1 ∨ (x.2.2.1 ≠ DEFAULT_ID ∧ p = x.2.2)

/-- End points of a face of the mesh file. -/
def ends {W R : Type} (m : Fort14 W R) (f : Face) : Option (ℕ × ℕ) :=
  (m.elements.lookup f.1).map fun (_, n0, n1, n2) =>
    ([n0, n1, n2].getD ((f.2 + 1) % 3) 0, [n0, n1, n2].getD ((f.2 + 2) % 3) 0)

/-- What the entry writes to the face. -/
def Val {W R : Type} (m : Fort14 W R) (d : Dict) (x : ℕ × (Face × Face)) (p : Face) (v : ℕ × ℕ) : Prop :=
  (x.2.2.1 ≠ DEFAULT_ID ∧ v.2 = internal ∧ ((p = x.2.2 ∧ v.1 = x.2.1.1) ∨ (p ≠ x.2.2 ∧ v.1 = x.2.2.1))) ∨
  (x.2.2.1 = DEFAULT_ID ∧ ∃ a b, ends m x.2.1 = some (a, b) ∧ getIbtype m a b = .ok v.2 ∧
    ((Util.isInternal v.2 = false ∧ v.1 = DEFAULT_ID) ∨
     (Util.isInternal v.2 = true ∧ ∃ q y, getInternalNodePair m a b = .ok q ∧ d.lookup (edgeKey q.1 q.2) = some y ∧ v.1 = y.1.1)))

/-- What must hold for the entry not to raise an exception. -/
def CanDo {W R : Type} (m : Fort14 W R) (d : Dict) (x : ℕ × (Face × Face)) : Prop :=
  x.2.2.1 = DEFAULT_ID → ∃ a b, ends m x.2.1 = some (a, b) ∧ ∃ bt, getIbtype m a b = .ok bt ∧
    (Util.isInternal bt = true → ∃ q y, getInternalNodePair m a b = .ok q ∧ d.lookup (edgeKey q.1 q.2) = some y)

theorem processEdge_spec {W R : Type} (m : Fort14 W R) (d : Dict) (els els' : Elts) (x : ℕ × (Face × Face))
    (hs : ∀ p, Touch x p → slot els p ≠ none) (h : processEdge m d els x = .ok els') :
    skel els' = skel els ∧ (∀ p, ¬ Touch x p → slot els' p = slot els p) ∧
    ∀ p, Touch x p → ∃ v, Val m d x p v ∧ slot els' p = some v := by
  obtain ⟨k, A, B⟩ := x
  unfold processEdge at h
  simp only at h
  by_cases hB : B.1 ≠ DEFAULT_ID
  · rw [if_pos hB] at h
    obtain ⟨e1, h1, h2⟩ := bind_ok h
    obtain ⟨e1', g1, s1, v1⟩ := setFace_spec els A B.1 internal (hs A (Or.inl rfl))
    rw [g1] at h1; cases h1
    have hsB : slot e1 B ≠ none := by
      rw [v1]; split_ifs
      · simp
      · exact hs B (Or.inr ⟨hB, rfl⟩)
    obtain ⟨e2', g2, s2, v2⟩ := setFace_spec e1 B A.1 internal hsB
    rw [g2] at h2; cases h2
    refine ⟨s2.trans s1, ?_, ?_⟩
    · intro p hp
      have n1 : p ≠ A := fun e => hp (Or.inl e)
      have n2 : p ≠ B := fun e => hp (Or.inr ⟨hB, e⟩)
      rw [v2, if_neg n2, v1, if_neg n1]
    · intro p hp
      rw [v2]
      by_cases hpB : p = B
      · exact ⟨(A.1, internal), Or.inl ⟨hB, rfl, Or.inl ⟨hpB, rfl⟩⟩, by rw [if_pos hpB]⟩
      · have hpA : p = A := by
          rcases hp with h | h
          · exact h
          · exact absurd h.2 hpB
        exact ⟨(B.1, internal), Or.inl ⟨hB, rfl, Or.inr ⟨hpB, rfl⟩⟩, by rw [if_neg hpB, v1, if_pos hpA]⟩
  · rw [if_neg hB] at h
    have hB' : B.1 = DEFAULT_ID := not_not.mp hB
    obtain ⟨el, h1, h⟩ := bind_ok h
    rw [atKey_ok] at h1
    obtain ⟨ty, n0, n1, n2⟩ := el
    simp only at h
    have hends : ends m A = some ([n0, n1, n2].getD ((A.2 + 1) % 3) 0, [n0, n1, n2].getD ((A.2 + 2) % 3) 0) := by
      unfold ends; rw [h1]; rfl
    generalize [n0, n1, n2].getD ((A.2 + 1) % 3) 0 = a at h hends
    generalize [n0, n1, n2].getD ((A.2 + 2) % 3) 0 = b at h hends
    obtain ⟨bt, hbt, h⟩ := bind_ok h
    obtain ⟨e1, h3, h⟩ := bind_ok h
    obtain ⟨e1', g1, s1, v1⟩ := setFace_spec els A DEFAULT_ID bt (hs A (Or.inl rfl))
    rw [g1] at h3; cases h3
    have htouch : ∀ p, Touch (k, A, B) p ↔ p = A := by
      intro p; constructor
      · rintro (h | h)
        · exact h
        · exact absurd hB' h.1
      · exact Or.inl
    by_cases hi : Util.isInternal bt = true
    · rw [if_pos hi] at h
      obtain ⟨q, hq, h⟩ := bind_ok h
      obtain ⟨q0, q1⟩ := q
      simp only at h
      obtain ⟨y, hy, h⟩ := bind_ok h
      rw [atKey_ok] at hy
      obtain ⟨e2', g2, s2, v2⟩ := setFace_spec e1 A y.1.1 bt (by rw [v1]; simp)
      rw [g2] at h; cases h
      refine ⟨s2.trans s1, ?_, ?_⟩
      · intro p hp
        rw [htouch] at hp
        rw [v2, if_neg hp, v1, if_neg hp]
      · intro p hp
        rw [htouch] at hp
        refine ⟨(y.1.1, bt), Or.inr ⟨hB', a, b, hends, hbt, Or.inr ⟨hi, (q0, q1), y, hq, hy, rfl⟩⟩, by rw [v2, if_pos hp]⟩
    · rw [if_neg hi] at h
      cases h
      refine ⟨s1, ?_, ?_⟩
      · intro p hp
        rw [htouch] at hp
        rw [v1, if_neg hp]
      · intro p hp
        rw [htouch] at hp
        refine ⟨(DEFAULT_ID, bt), Or.inr ⟨hB', a, b, hends, hbt, Or.inl ⟨by simpa using hi, rfl⟩⟩, by rw [v1, if_pos hp]⟩

theorem processEdge_ok {W R : Type} (m : Fort14 W R) (d : Dict) (els : Elts) (x : ℕ × (Face × Face))
    (hs : ∀ p, Touch x p → slot els p ≠ none) (hc : CanDo m d x) : ∃ els', processEdge m d els x = .ok els' := by
  obtain ⟨k, A, B⟩ := x
  unfold processEdge
  simp only
  by_cases hB : B.1 ≠ DEFAULT_ID
  · rw [if_pos hB]
    obtain ⟨e1, g1, s1, v1⟩ := setFace_spec els A B.1 internal (hs A (Or.inl rfl))
    rw [g1, ok_bind]
    have hsB : slot e1 B ≠ none := by
      rw [v1]; split_ifs
      · simp
      · exact hs B (Or.inr ⟨hB, rfl⟩)
    obtain ⟨e2, g2, _⟩ := setFace_spec e1 B A.1 internal hsB
    exact ⟨e2, g2⟩
  · rw [if_neg hB]
    obtain ⟨a, b, hends, bt, hbt, hint⟩ := hc (not_not.mp hB)
    simp only at hends
    unfold ends at hends
    rw [Option.map_eq_some_iff] at hends
    obtain ⟨⟨ty, n0, n1, n2⟩, hl, hab⟩ := hends
    rw [atKey_ok.mpr hl, ok_bind]
    simp only [Prod.mk.injEq] at hab
    simp only [hab.1, hab.2]
    rw [hbt, ok_bind]
    obtain ⟨e1, g1, s1, v1⟩ := setFace_spec els A DEFAULT_ID bt (hs A (Or.inl rfl))
    rw [g1, ok_bind]
    by_cases hi : Util.isInternal bt = true
    · obtain ⟨q, y, hq, hy⟩ := hint hi
      rw [if_pos hi, hq, ok_bind]
      rw [atKey_ok.mpr hy, ok_bind]
      obtain ⟨e2, g2, _⟩ := setFace_spec e1 A y.1.1 bt (by rw [v1]; simp)
      exact ⟨e2, g2⟩
    · rw [if_neg hi]
      exact ⟨e1, rfl⟩

theorem loop_spec {W R : Type} (m : Fort14 W R) (d : Dict) (L : Dict) (els els' : Elts)
    (hs : ∀ x ∈ L, ∀ p, Touch x p → slot els p ≠ none) (h : L.foldlM (processEdge m d) els = .ok els') :
    skel els' = skel els ∧ (∀ p, (∀ x ∈ L, ¬ Touch x p) → slot els' p = slot els p) ∧
    ∀ x ∈ L, ∀ p, Touch x p → (∀ y ∈ L, Touch y p → y = x) → ∃ v, Val m d x p v ∧ slot els' p = some v := by
  induction L generalizing els with
  | nil =>
    cases h
    exact ⟨rfl, fun _ _ => rfl, fun x hx => by simp at hx⟩
  | cons y L ih =>
    rw [List.foldlM_cons] at h
    obtain ⟨e1, h1, h2⟩ := bind_ok h
    obtain ⟨s1, n1, v1⟩ := processEdge_spec m d els e1 y (hs y (by simp)) h1
    have hs' : ∀ x ∈ L, ∀ p, Touch x p → slot e1 p ≠ none := by
      intro x hx p hp
      by_cases hy : Touch y p
      · obtain ⟨v, _, hv⟩ := v1 p hy
        rw [hv]; simp
      · rw [n1 p hy]; exact hs x (by simp [hx]) p hp
    obtain ⟨s2, n2, v2⟩ := ih e1 hs' h2
    refine ⟨s2.trans s1, ?_, ?_⟩
    · intro p hp
      rw [n2 p (fun x hx => hp x (by simp [hx])), n1 p (hp y (by simp))]
    · intro x hx p hp huniq
      by_cases hxL : x ∈ L
      · exact v2 x hxL p hp (fun z hz hzp => huniq z (by simp [hz]) hzp)
      · have hxy : x = y := by
          rcases List.mem_cons.mp hx with h | h
          · exact h
          · exact absurd h hxL
        subst hxy
        obtain ⟨v, hv, hsl⟩ := v1 p hp
        refine ⟨v, hv, ?_⟩
        rw [n2 p, hsl]
        intro z hz hzp
        exact hxL (huniq z (by simp [hz]) hzp ▸ hz)

theorem loop_ok {W R : Type} (m : Fort14 W R) (d : Dict) (L : Dict) (els : Elts)
    (hs : ∀ x ∈ L, ∀ p, Touch x p → slot els p ≠ none) (hc : ∀ x ∈ L, CanDo m d x) :
    ∃ els', L.foldlM (processEdge m d) els = .ok els' := by
  induction L generalizing els with
  | nil => exact ⟨els, rfl⟩
  | cons y L ih =>
    obtain ⟨e1, h1⟩ := processEdge_ok m d els y (hs y (by simp)) (hc y (by simp))
    obtain ⟨s1, n1, v1⟩ := processEdge_spec m d els e1 y (hs y (by simp)) h1
    obtain ⟨e2, h2⟩ := ih e1 (by
      intro x hx p hp
      by_cases hy : Touch y p
      · obtain ⟨v, _, hv⟩ := v1 p hy
        rw [hv]; simp
      · rw [n1 p hy]; exact hs x (by simp [hx]) p hp) (fun x hx => hc x (by simp [hx]))
    exact ⟨e2, by rw [List.foldlM_cons, h1, ok_bind]; exact h2⟩

end Verif.MeshMeta
