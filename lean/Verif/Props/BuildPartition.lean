import Verif.Props.MeshMeta
import Verif.Props.Dbmd

/-!
# Metadata built from a mesh file satisfy the premises of the partitioner theorems
-/

namespace Verif.Partition.Props
open Verif Verif.Adcirc Verif.MeshMeta Verif.MeshMeta.Props Verif.Util Verif.Text Verif.Partition

variable {W R : Type}

/-- All elements have three faces. -/
def Three (els : Elts) : Prop := ∀ x ∈ els, x.2.nbr.length = 3 ∧ x.2.btype.length = 3

theorem setFace_three {els els' : Elts} {f : Face} {nb bt : ℕ} (h : Three els) (hs : setFace els f nb bt = .ok els') : Three els' := by
  unfold setFace at hs
  split at hs
  · cases hs
  · cases hs
    intro x hx
    obtain ⟨y, hy, rfl⟩ := List.mem_map.mp hx
    have := h y hy
    obtain ⟨i, e⟩ := y
    simp only
    split_ifs
    · simpa using this
    · exact this

theorem processEdge_three {m : Fort14 W R} {d : Dict} {els els' : Elts} {x : ℕ × (Face × Face)} (h : Three els)
    (hp : processEdge m d els x = .ok els') : Three els' := by
  obtain ⟨key, A, B⟩ := x
  delta processEdge at hp
  simp only at hp
  by_cases hd : B.1 ≠ DEFAULT_ID
  · rw [if_pos hd] at hp
    obtain ⟨e1, h1, hp⟩ := bind_ok hp
    exact setFace_three (setFace_three h h1) hp
  · rw [if_neg hd] at hp
    obtain ⟨⟨t, n0, n1, n2⟩, -, hp⟩ := bind_ok hp
    simp only at hp
    obtain ⟨bt, -, hp⟩ := bind_ok hp
    obtain ⟨e1, h1, hp⟩ := bind_ok hp
    by_cases hi : isInternal bt = true
    · rw [if_pos hi] at hp
      obtain ⟨⟨q0, q1⟩, -, hp⟩ := bind_ok hp
      simp only at hp
      obtain ⟨y, -, hp⟩ := bind_ok hp
      exact setFace_three (setFace_three h h1) hp
    · rw [if_neg hi] at hp
      cases hp
      exact setFace_three h h1

theorem build_three {m : Fort14 W R} {order : Dict} {M : Elts} (h : build m order = .ok M) : Three M := by
  unfold build at h
  have h0 : Three (initElts m.elements) := by
    intro x hx
    obtain ⟨y, -, rfl⟩ := List.mem_map.mp hx
    exact ⟨rfl, rfl⟩
  generalize initElts m.elements = els at h h0
  induction order generalizing els with
  | nil => cases h; exact h0
  | cons x L ih =>
    rw [List.foldlM_cons] at h
    obtain ⟨e1, h1, h⟩ := bind_ok h
    exact ih e1 h (processEdge_three h0 h1)

/-- Levee partners are 32-bit node ids. -/
def LeveeSmall (m : Fort14 W R) : Prop :=
  ∀ a b q, getInternalNodePair m a b = .ok q → q.1 < 2 ^ 32 ∧ q.2 < 2 ^ 32

theorem elt_slot {M : Elts} (hk : (M.map Prod.fst).Nodup) {x : ℕ × Elt} (hx : x ∈ M) {k nb b : ℕ} (h1 : x.2.nbr[k]? = some nb)
    (h2 : x.2.btype[k]? = some b) : slot M (x.1, k) = some (nb, b) := by
  unfold slot
  simp only
  rw [lookup_of_mem hk (show (x.1, x.2) ∈ M from hx)]
  simp only [h1, h2]

/-- What `build` stores is consistent. -/
theorem build_consistent (m : Fort14 W R) (hm : Conforming m) (hl : LeveeSmall m) (order : Dict)
    (hperm : order.Perm (edgeDict m.elements)) (M : Elts) (h : build m order = .ok M) :
    Consistent M ∧ (∀ x ∈ M, ∀ k < 3, ∃ a b, IsFace m x.1 k a b) ∧ (M.map Prod.fst) = m.elements.map Prod.fst := by
  obtain ⟨hskel, hadj⟩ := adjacency m hm order hperm M h
  have h3 := build_three h
  have hids : M.map Prod.fst = m.elements.map Prod.fst := by
    have := congrArg (List.map Prod.fst) hskel
    rw [List.map_map, List.map_map] at this
    exact this
  have hk : (M.map Prod.fst).Nodup := by rw [hids]; exact hm.ids
  have hfaces : ∀ x ∈ M, ∀ k < 3, ∃ a b, IsFace m x.1 k a b := by
    intro x hx k hk3
    have : x.1 ∈ m.elements.map Prod.fst := by rw [← hids]; exact List.mem_map.mpr ⟨x, hx, rfl⟩
    obtain ⟨⟨i, ty, n0, n1, n2⟩, hy, hi⟩ := List.mem_map.mp this
    simp only at hi
    subst hi
    have : k = 0 ∨ k = 1 ∨ k = 2 := by omega
    rcases this with rfl | rfl | rfl
    · exact ⟨n1, n2, ty, n0, n1, n2, hy, Or.inl ⟨rfl, rfl, rfl⟩⟩
    · exact ⟨n2, n0, ty, n0, n1, n2, hy, Or.inr (Or.inl ⟨rfl, rfl, rfl⟩)⟩
    · exact ⟨n0, n1, ty, n0, n1, n2, hy, Or.inr (Or.inr ⟨rfl, rfl, rfl⟩)⟩
  have hex : ∀ {e k a b}, IsFace m e k a b → e ∈ M.map Prod.fst ∧ e ≠ DEFAULT_ID := by
    intro e k a b hf
    refine ⟨?_, (isFace_lt m hm hf).2.2.1⟩
    obtain ⟨ty, n0, n1, n2, h1, -⟩ := hf
    rw [hids]
    exact List.mem_map.mpr ⟨_, h1, rfl⟩
  -- the two kinds of faces
  have hall : ∀ x ∈ M, ∀ k nb b : ℕ, x.2.nbr[k]? = some nb → x.2.btype[k]? = some b →
      (nb ∈ M.map Prod.fst ∧ nb ≠ DEFAULT_ID ∧ 128 ≤ b ∧ b < 192) ∨ (nb = DEFAULT_ID ∧ b < 128) := by
    intro x hx k nb b h1 h2
    have hk3 : k < 3 := by rw [← (h3 x hx).1]; exact (List.getElem?_eq_some_iff.mp h1).1
    obtain ⟨p, q, hf⟩ := hfaces x hx k hk3
    have hsl := elt_slot hk hx h1 h2
    obtain ⟨g1, g2⟩ := hadj _ _ _ _ hf
    by_cases halone : ∀ e' k' a' b', IsFace m e' k' a' b' → s(a', b') = s(p, q) → (e', k') = (x.1, k)
    · obtain ⟨nb', bt, hbt, hsl', hb1, hb2⟩ := g2 halone
      rw [hsl] at hsl'
      cases hsl'
      by_cases hb : 128 ≤ b ∧ b < 192
      · left
        obtain ⟨qq, hq, hq2⟩ := hb2 hb
        obtain ⟨l1, l2⟩ := hl _ _ _ hq
        obtain ⟨k', a', b', hf', -⟩ := hq2 l1 l2
        exact ⟨(hex hf').1, (hex hf').2, hb⟩
      · right
        refine ⟨hb1 hb, ?_⟩
        have := getIbtype_ne_internal m _ _ _ hbt
        simp only [List.mem_cons, List.not_mem_nil, or_false] at this
        omega
    · push Not at halone
      obtain ⟨e2, k2, a2, b2, hf2, hs2, hne⟩ := halone
      have := g1 e2 k2 a2 b2 hf2 hne hs2
      rw [hsl] at this
      cases this
      left
      exact ⟨(hex hf2).1, (hex hf2).2, by omega, by omega⟩
  refine ⟨⟨hk, ?_, fun x hx => (h3 x hx).1, fun x hx => (h3 x hx).2, ?_, ?_⟩, hfaces, hids⟩
  · intro x hx
    obtain ⟨a, b, hf⟩ := hfaces x hx 0 (by omega)
    exact (hex hf).2
  · intro x hx nb hnb hd
    obtain ⟨k, hk1⟩ := List.mem_iff_getElem?.mp hnb
    have hk3 : k < x.2.btype.length := by rw [(h3 x hx).2, ← (h3 x hx).1]; exact (List.getElem?_eq_some_iff.mp hk1).1
    rcases hall x hx k nb _ hk1 (List.getElem?_eq_getElem hk3) with q | q
    · exact q.1
    · exact absurd q.1 hd
  · intro x hx k nb b h1 h2
    rcases hall x hx k nb b h1 h2 with q | q
    · exact Or.inl q.2
    · exact Or.inr q

/-- Triangles have three different edges, and two triangles share at most one edge. -/
structure Proper (m : Fort14 W R) : Prop where
  self : ∀ e k a b k' a' b', IsFace m e k a b → IsFace m e k' a' b' → s(a, b) = s(a', b') → k = k'
  share : ∀ e e' j a b j' a' b' k c d k' c' d', e ≠ e' → IsFace m e j a b → IsFace m e' j' a' b' → s(a', b') = s(a, b) →
    IsFace m e k c d → IsFace m e' k' c' d' → s(c', d') = s(c, d) → j = k

/-- Without levees, contacts in the built metadata are mutual and single. -/
theorem build_simple (m : Fort14 W R) (hm : Conforming m) (hp : Proper m) (hno : ∀ a b t, getIbtype m a b = .ok t → t < 128)
    (order : Dict) (hperm : order.Perm (edgeDict m.elements)) (M : Elts) (h : build m order = .ok M) (hc : Consistent M)
    (hfaces : ∀ x ∈ M, ∀ k < 3, ∃ a b, IsFace m x.1 k a b) (hids : M.map Prod.fst = m.elements.map Prod.fst) : Simple M := by
  have hadj := (adjacency m hm order hperm M h).2
  -- a neighbour has a face on the same edge
  have key : ∀ x ∈ M, ∀ k nb : ℕ, nb ≠ DEFAULT_ID → x.2.nbr[k]? = some nb → ∃ a b k' a' b', IsFace m x.1 k a b ∧
      IsFace m nb k' a' b' ∧ (nb, k') ≠ (x.1, k) ∧ s(a', b') = s(a, b) := by
    intro x hx k nb hd h1
    have hk3 : k < 3 := by rw [← hc.nbr3 x hx]; exact (List.getElem?_eq_some_iff.mp h1).1
    have hk3' : k < x.2.btype.length := by rw [hc.bt3 x hx]; exact hk3
    obtain ⟨a, b, hf⟩ := hfaces x hx k hk3
    have hsl := elt_slot hc.keys hx h1 (List.getElem?_eq_getElem hk3')
    obtain ⟨g1, g2⟩ := hadj _ _ _ _ hf
    by_cases halone : ∀ e' k' a' b', IsFace m e' k' a' b' → s(a', b') = s(a, b) → (e', k') = (x.1, k)
    · obtain ⟨nb', bt, hbt, hsl', hb1, -⟩ := g2 halone
      rw [hsl] at hsl'
      cases hsl'
      have := hno _ _ _ hbt
      exact absurd (hb1 (by omega)) hd
    · push Not at halone
      obtain ⟨e2, k2, a2, b2, hf2, hs2, hne⟩ := halone
      have := g1 e2 k2 a2 b2 hf2 hne hs2
      rw [hsl] at this
      simp only [Option.some.injEq, Prod.mk.injEq] at this
      obtain ⟨rfl, -⟩ := this
      exact ⟨a, b, k2, a2, b2, hf, hf2, hne, hs2⟩
  constructor
  · intro x hx nb hnb hd
    obtain ⟨k, hk1⟩ := List.mem_iff_getElem?.mp hnb
    obtain ⟨a, b, k', a', b', hf, hf', hne, hs⟩ := key x hx k nb hd hk1
    have hmem : nb ∈ M.map Prod.fst := hc.closed x hx nb hnb hd
    obtain ⟨y, hy, rfl⟩ := List.mem_map.mp hmem
    refine ⟨y, hy, rfl, ?_⟩
    have hsl := (hadj _ _ _ _ hf').1 _ _ _ _ hf hne.symm hs.symm
    unfold slot at hsl
    simp only at hsl
    rw [lookup_of_mem hc.keys (show (y.1, y.2) ∈ M from hy)] at hsl
    simp only at hsl
    split at hsl
    · cases hsl
      rename_i q _
      exact List.mem_of_getElem? q
    · cases hsl
  · intro x hx j k nb hd h1 h2
    obtain ⟨a, b, j', a', b', hf, hf', hne, hs⟩ := key x hx j nb hd h1
    obtain ⟨c, d, k', c', d', hg, hg', hne2, hs2⟩ := key x hx k nb hd h2
    by_cases he : x.1 = nb
    · subst he
      exact absurd (by rw [hp.self _ _ _ _ _ _ _ hf hf' hs.symm]) hne
    · exact hp.share _ _ _ _ _ _ _ _ _ _ _ _ _ _ he hf hf' hs hg hg' hs2

/-- C13 and C20-C22 from the mesh file on: for every conforming mesh without levees in which two triangles share at most one
edge, the metadata can be partitioned in any way, and every face between two submeshes gets exactly one entry in the file of
its submesh. -/
theorem mesh_to_files {N : Type} (m : Fort14 W R) (hm : Conforming m) (hpr : Proper m)
    (hno : ∀ a b t, getIbtype m a b = .ok t → t < 128) (hl : LeveeSmall m) (dictOrder : Dict)
    (hperm : dictOrder.Perm (edgeDict m.elements)) (M : Elts) (h : build m dictOrder = .ok M)
    {nodes : List (ℕ × N)} {e2p : List (ℕ × ℕ)} {part : ℕ → ℕ} {numParts numNodes rpl : ℕ} {nodeOrder edgeOrder : List (ℕ × ℕ)}
    (ha : Assigned M e2p part numParts numNodes rpl nodeOrder)
    (hn : ∀ x ∈ M, ∀ i ∈ x.2.nodes, i ∈ nodes.map Prod.fst) (ho : edgeOrder.Perm (edgeKeys M)) (p : ℕ) :
    ∃ S sub, partition M nodes e2p numParts numNodes rpl nodeOrder edgeOrder = .ok S ∧
      ∀ order : List (ℕ × ℕ), order.Perm (cutFaces M (lists S)) → ∃ sh, sharedFaces M (lists S) p order = .ok sh ∧
        ∀ shared : List ((ℕ × ℕ) × List DBPair), shared.Perm sh → ∀ a k nb, CutFace M sub a k nb →
          ((fileOf (lists S).length (sub a).1 (sub a).2 shared).flatMap (·.pairs)).countP
            (fun x => decide (x.elA = a ∧ x.bdA = k ∨ x.elB = a ∧ x.bdB = k)) = 1 := by
  obtain ⟨hc, hf, hids⟩ := build_consistent m hm hl dictOrder hperm M h
  exact partition_then_files hc (build_simple m hm hpr hno dictOrder hperm M h hc hf hids) ha hn ho p

end Verif.Partition.Props
