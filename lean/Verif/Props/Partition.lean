import Verif.Lemmas.Partition

/-!
# Partitioning (C20, C21)
-/

namespace Verif.Partition.Props
open Verif Verif.MeshMeta Verif.Util Verif.Text Verif.Partition

variable {N : Type}

/-- Mesh metadata as `MeshMetaData(AdcircFormat)` produces it: distinct ids (none of them the sentinel), three faces per element, neighbours exist, and
a face has a neighbour iff its type code is an internal one. -/
structure Consistent (els : Elts) : Prop where
  keys : (els.map Prod.fst).Nodup
  ids : ∀ x ∈ els, x.1 ≠ DEFAULT_ID
  nbr3 : ∀ x ∈ els, x.2.nbr.length = 3
  bt3 : ∀ x ∈ els, x.2.btype.length = 3
  closed : ∀ x ∈ els, ∀ nb ∈ x.2.nbr, nb ≠ DEFAULT_ID → nb ∈ els.map Prod.fst
  typed : ∀ x ∈ els, ∀ (k nb b : ℕ), x.2.nbr[k]? = some nb → x.2.btype[k]? = some b →
    (nb ≠ DEFAULT_ID ∧ 128 ≤ b ∧ b < 192) ∨ (nb = DEFAULT_ID ∧ b < 128)

/-- The results of the two METIS calls: each element has a partition, each used partition a node. -/
structure Assigned (els : Elts) (e2p : List (ℕ × ℕ)) (part : ℕ → ℕ) (numParts numNodes rpl : ℕ) (nodeOrder : List (ℕ × ℕ)) :
    Prop where
  elt : ∀ x ∈ els, e2p.lookup x.1 = some (part x.1)
  rpl : rpl ≠ 0
  keys : (nodeOrder.map Prod.fst).Nodup
  range : ∀ x ∈ nodeOrder, x.1 < numParts ∧ x.2 < numNodes
  used : ∀ x ∈ els, part x.1 ∈ nodeOrder.map Prod.fst

/-- What the submeshes must be: `sub` gives the submesh of each element. -/
structure SplitInto (els : Elts) (nodes : List (ℕ × N)) (part : ℕ → ℕ) (S : Subs N) (sub : ℕ → ℕ × ℕ) : Prop where
  /-- the submesh exists -/
  has : ∀ x ∈ els, S.has (sub x.1).1 (sub x.1).2
  /-- elements are together iff they were assigned to the same partition -/
  same : ∀ x ∈ els, ∀ y ∈ els, sub x.1 = sub y.1 ↔ part x.1 = part y.1
  /-- every element is in its submesh -/
  mem : ∀ x ∈ els, ∃ e', (x.1, e') ∈ (S.get (sub x.1).1 (sub x.1).2).elements
  /-- a submesh contains only elements of the mesh that belong there, with the same nodes and neighbours -/
  only : ∀ r l, ∀ y ∈ (S.get r l).elements, ∃ e, (y.1, e) ∈ els ∧ sub y.1 = (r, l) ∧ y.2.nodes = e.nodes ∧ y.2.nbr = e.nbr
  /-- no element twice in a submesh -/
  once : ∀ r l, ((S.get r l).elements.map Prod.fst).Nodup
  /-- the nodes of its elements are there, with the right coordinates -/
  node : ∀ x ∈ els, ∀ i ∈ x.2.nodes, (S.get (sub x.1).1 (sub x.1).2).nodes.lookup i = nodes.lookup i
  /-- no other coordinates -/
  node' : ∀ r l i x, (S.get r l).nodes.lookup i = some x → nodes.lookup i = some x

/-- What must happen to the face types: internal faces towards another submesh get the distributed variant (64 higher), all
others are unchanged. -/
def FacesMarked (els : Elts) (S : Subs N) (sub : ℕ → ℕ × ℕ) : Prop :=
  ∀ x ∈ els, ∀ e', (x.1, e') ∈ (S.get (sub x.1).1 (sub x.1).2).elements →
    e'.btype.length = x.2.btype.length ∧
    ∀ k nb b : ℕ, x.2.nbr[k]? = some nb → x.2.btype[k]? = some b →
      e'.btype[k]? = some (if (128 ≤ b ∧ b < 192) ∧ sub x.1 ≠ sub nb then b + 64 else b)

theorem getElem?_mapIdx' {α β : Type} (f : ℕ → α → β) (l : List α) (k : ℕ) : (l.mapIdx f)[k]? = l[k]?.map (f k) := by
  rw [List.getElem?_mapIdx]

/-- C20 and C21: for every assignment of elements to partitions and of partitions to nodes, and whatever the iteration
orders of the hash maps, `partition` succeeds, the submeshes contain every element exactly once in the assigned submesh with
its nodes and neighbours, and exactly the internal faces towards other submeshes are marked distributed. -/
theorem partition_spec {els : Elts} {nodes : List (ℕ × N)} {e2p : List (ℕ × ℕ)} {part : ℕ → ℕ}
    {numParts numNodes rpl : ℕ} {nodeOrder edgeOrder : List (ℕ × ℕ)} (hc : Consistent els)
    (ha : Assigned els e2p part numParts numNodes rpl nodeOrder)
    (hn : ∀ x ∈ els, ∀ i ∈ x.2.nodes, i ∈ nodes.map Prod.fst) (ho : edgeOrder.Perm (edgeKeys els)) :
    ∃ S sub, partition els nodes e2p numParts numNodes rpl nodeOrder edgeOrder = .ok S ∧
      SplitInto els nodes part S sub ∧ FacesMarked els S sub := by
  obtain ⟨rr, hrr, hinv⟩ := roundRobin_inv ha.rpl ha.keys ha.range
  -- the place of a partition
  have hpl : ∀ x ∈ els, ∃ y ∈ nodeOrder, y.1 = part x.1 := by
    intro x hx
    obtain ⟨y, hy, h⟩ := List.mem_map.mp (ha.used x hx)
    exact ⟨y, hy, h⟩
  let loc : ℕ → ℕ × ℕ := fun p => ((rr.p2r.lookup p).getD 0, rr.p2l p)
  let pl : ℕ → ℕ × ℕ := fun id => loc (part id)
  have hplace : ∀ x ∈ els, place e2p rr x.1 = .ok (pl x.1) := by
    intro x hx
    unfold place atKey
    rw [ha.elt x hx]
    rfl
  have hrange : ∀ x ∈ els, (pl x.1).1 < numNodes * rpl ∧ (pl x.1).2 < rr.partCtr (pl x.1).1 := by
    intro x hx
    obtain ⟨y, hy, hyp⟩ := hpl x hx
    obtain ⟨j, hj, hr⟩ := hinv.rank y hy
    have hlt := hinv.lt y hy _ hr
    rw [hyp] at hr hlt
    have h1 : (pl x.1).1 = j + rpl * y.2 := by simp only [pl, loc, hr, Option.getD_some]
    refine ⟨?_, by rw [h1]; exact hlt⟩
    rw [h1]
    have h2 := (ha.range y hy).2
    calc j + rpl * y.2 < rpl + rpl * y.2 := by omega
      _ = rpl * (y.2 + 1) := by ring
      _ ≤ rpl * numNodes := Nat.mul_le_mul_left _ h2
      _ = numNodes * rpl := Nat.mul_comm _ _
  have hn' : ∀ x ∈ els, ∀ i ∈ x.2.nodes, ∃ y, nodes.lookup i = some y := fun x hx i hi =>
    Option.isSome_iff_exists.mp ((mem_keys_iff nodes i).mp (hn x hx i hi))
  obtain ⟨S1, hS1, hA⟩ := assemble_inv (cnt := rr.partCtr) els hc.keys hplace hrange hn'
  have hkey : ∀ x ∈ edgeOrder, x = pairKey x.1 x.2 := by
    intro x hx
    obtain ⟨y, -, nb, -, -, rfl⟩ := mem_edgeKeys.mp (ho.mem_iff.mp hx)
    unfold pairKey
    simp only [Prod.mk.injEq]; omega
  have hmem : ∀ x ∈ edgeOrder, (els.lookup x.1).isSome ∧ (els.lookup x.2).isSome := by
    intro x hx
    obtain ⟨y, hy, nb, h1, h2, rfl⟩ := mem_edgeKeys.mp (ho.mem_iff.mp hx)
    have ka : (els.lookup y.1).isSome := (mem_keys_iff els y.1).mp (List.mem_map_of_mem hy)
    have kb : (els.lookup nb).isSome := (mem_keys_iff els nb).mp (hc.closed y hy nb h1 h2)
    unfold pairKey
    rcases le_total y.1 nb with h | h
    · simp only [min_eq_left h, max_eq_right h]; exact ⟨ka, kb⟩
    · simp only [min_eq_right h, max_eq_left h]; exact ⟨kb, ka⟩
  have hhas1 : ∀ x ∈ els, S1.has (pl x.1).1 (pl x.1).2 := by
    intro x hx; unfold Subs.has; rw [hA.nr, hA.cnt]; exact hrange x hx
  obtain ⟨S, hS, hI⟩ := split_inv (e2p := e2p) (rr := rr) (part := part) (pl := pl) edgeOrder
    (ho.nodup_iff.mpr (List.nodup_dedup _)) hkey hmem ha.elt hplace hc.keys (fun x hx => by rw [hc.nbr3 x hx])
    hhas1 hA.elts
  have hlook : ∀ r l id, (S.get r l).elements.lookup id =
      if pl id = (r, l) then (els.lookup id).map (splitElt part edgeOrder id) else none := by
    intro r l id
    rw [hI.elts, hA.elts]
    split_ifs <;> rfl
  have honce : ∀ r l, ((S.get r l).elements.map Prod.fst).Nodup := fun r l => by rw [hI.keys]; exact hA.keys r l
  refine ⟨S, pl, ?_, ?_, ?_⟩
  · unfold partition
    rw [hrr]
    simp only [ok_bind]
    rw [hS1]
    simp only [ok_bind]
    exact hS
  · refine ⟨?_, ?_, ?_, ?_, honce, ?_, ?_⟩
    · intro x hx; unfold Subs.has; rw [hI.nr, hI.cnt]; exact hhas1 x hx
    · intro x hx y hy
      constructor
      · intro h
        obtain ⟨u, hu, hup⟩ := hpl x hx
        obtain ⟨v, hv, hvp⟩ := hpl y hy
        obtain ⟨i, hi, hiu⟩ := hinv.rank u hu
        obtain ⟨j, hj, hjv⟩ := hinv.rank v hv
        simp only [pl, loc, Prod.mk.injEq] at h
        rw [← hup, ← hvp, hiu, hjv] at h
        simp only [Option.getD_some] at h
        rw [← hup, ← hvp]
        exact hinv.inj u hu v hv _ hiu (by rw [hjv, h.1]) h.2
      · intro h; simp only [pl, h]
    · rintro ⟨i, e⟩ hx
      refine ⟨splitElt part edgeOrder i e, mem_of_lookup ?_⟩
      rw [hlook, if_pos rfl, lookup_of_mem hc.keys hx]; rfl
    · rintro r l ⟨i, e'⟩ hy
      have h := lookup_of_mem (honce r l) hy
      rw [hlook] at h
      split_ifs at h with hp
      rw [Option.map_eq_some_iff] at h
      obtain ⟨e, he, rfl⟩ := h
      exact ⟨e, mem_of_lookup he, hp, rfl, rfl⟩
    · intro x hx i hi
      rw [hI.nodes]; exact hA.node x hx i hi
    · intro r l i x h
      rw [hI.nodes] at h; exact hA.node' r l i x h
  · rintro ⟨i, e⟩ hx e' he'
    have h := lookup_of_mem (honce _ _) he'
    rw [hlook, if_pos rfl, lookup_of_mem hc.keys hx] at h
    simp only [Option.map_some, Option.some.injEq] at h
    subst h
    refine ⟨by simp [splitElt], ?_⟩
    intro k nb b hnb hb
    simp only [splitElt]
    rw [getElem?_mapIdx', hb, Option.map_some]
    congr 1
    have hk : k < 3 := by
      rw [← hc.nbr3 _ hx]
      exact (List.getElem?_eq_some_iff.mp hnb).1
    rcases hc.typed _ hx k nb b hnb hb with ⟨h1, h2⟩ | ⟨h1, h2⟩
    · have hnbm : nb ∈ e.nbr := List.mem_of_getElem? hnb
      have hin : pairKey i nb ∈ edgeOrder := ho.mem_iff.mpr (mem_edgeKeys.mpr ⟨(i, e), hx, nb, hnbm, h1, rfl⟩)
      obtain ⟨z, hz, hz1⟩ := List.mem_map.mp (hc.closed _ hx nb hnbm h1)
      by_cases hpp : part i = part nb
      · rw [if_neg, if_neg]
        · rintro ⟨-, h⟩; exact h (by simp only [pl, hpp])
        · rintro ⟨-, nb', h3, -, h4⟩
          rw [hnb, Option.some.injEq] at h3
          subst h3
          exact h4 hpp
      · rw [if_pos ⟨hk, nb, hnb, hin, hpp⟩, if_pos]
        · unfold distributed DISTRIBUTED_OFFSET; omega
        · refine ⟨h2, fun h => hpp ?_⟩
          obtain ⟨u, hu, hup⟩ := hpl _ hx
          obtain ⟨v, hv, hvp⟩ := hpl z hz
          rw [hz1] at hvp
          obtain ⟨i1, hi, hiu⟩ := hinv.rank u hu
          obtain ⟨j, hj, hjv⟩ := hinv.rank v hv
          simp only [pl, loc, Prod.mk.injEq] at h
          simp only at hup
          rw [← hup, ← hvp, hiu, hjv] at h
          simp only [Option.getD_some] at h
          rw [← hup, ← hvp]
          exact hinv.inj u hu v hv _ hiu (by rw [hjv, h.1]) h.2
    · rw [if_neg, if_neg (by omega)]
      rintro ⟨-, nb', h3, h4, -⟩
      rw [hnb, Option.some.injEq] at h3
      subst h3
      obtain ⟨y, hy, nb', h5, h6, h7⟩ := mem_edgeKeys.mp (ho.mem_iff.mp h4)
      rcases (pairKey_eq_iff _ _ _ _).mp h7 with ⟨h8, h9⟩ | ⟨h8, h9⟩
      · exact h6 (h9.trans h1)
      · exact hc.ids y hy (h8.trans h1)

/-- Three triangles in a row; the first two in partition 0, the third in partition 1. -/
def three : Elts :=
  [(0, ⟨[0, 1, 2], [1, DEFAULT_ID, DEFAULT_ID], [128, 0, 1]⟩), (1, ⟨[3, 2, 1], [0, DEFAULT_ID, 2], [128, 0, 128]⟩),
   (2, ⟨[2, 3, 4], [DEFAULT_ID, DEFAULT_ID, 1], [0, 2, 128]⟩)]

/-- Non-vacuity: the premises hold for `three`, and the face between elements 1 and 2 is marked on both sides. -/
theorem three_consistent : Consistent three := by
  refine ⟨by decide, by decide, by decide, by decide, by decide, ?_⟩
  intro x hx k nb b h1 h2
  have hk : k < 3 := by
    have h3 : ∀ x ∈ three, x.2.nbr.length = 3 := by decide
    rw [← h3 x hx]; exact (List.getElem?_eq_some_iff.mp h1).1
  have : ∀ x ∈ three, ∀ k < 3, ∀ nb ∈ x.2.nbr, ∀ b ∈ x.2.btype, x.2.nbr[k]? = some nb → x.2.btype[k]? = some b →
    (nb ≠ DEFAULT_ID ∧ 128 ≤ b ∧ b < 192) ∨ (nb = DEFAULT_ID ∧ b < 128) := by decide
  exact this x hx k hk nb (List.mem_of_getElem? h1) b (List.mem_of_getElem? h2) h1 h2

example : Assigned three [(0, 0), (1, 0), (2, 1)] (fun i => if i = 2 then 1 else 0) 2 1 1 [(0, 0), (1, 0)] :=
  ⟨by decide, by decide, by decide, by decide, by decide⟩

example : (match partition three [(0, ()), (1, ()), (2, ()), (3, ()), (4, ())] [(0, 0), (1, 0), (2, 1)] 2 1 1
      [(0, 0), (1, 0)] [(0, 1), (1, 2)] with
    | .ok S => decide ((S.get 0 0).elements = [(0, ⟨[0, 1, 2], [1, DEFAULT_ID, DEFAULT_ID], [128, 0, 1]⟩),
          (1, ⟨[3, 2, 1], [0, DEFAULT_ID, 2], [128, 0, 192]⟩)] ∧
        (S.get 0 1).elements = [(2, ⟨[2, 3, 4], [DEFAULT_ID, DEFAULT_ID, 1], [0, 2, 192]⟩)] ∧
        (S.get 0 1).nodes.map Prod.fst = [2, 3, 4])
    | .error _ => false) = true := by decide +kernel
example : [(0, 1), (1, 2)] = edgeKeys three := by decide +kernel

end Verif.Partition.Props
