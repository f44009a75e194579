import Verif.Model.Csr
import Verif.Lemmas.MeshMeta
import Mathlib.Data.List.Nodup
import Mathlib.Data.List.Basic
import Mathlib.Tactic.Ring
import Mathlib.Tactic.Linarith

/-!
# The graphs passed to METIS (C24)
-/

namespace Verif.Csr.Props
open Verif Verif.MeshMeta Verif.Csr

/-! ### Lists -/

theorem scanl_get {α : Type} (L : α → ℕ) (l : List α) (s i : ℕ) (hi : i ≤ l.length) :
    (l.scanl (fun a x => a + L x) s)[i]? = some (s + ((l.take i).map L).sum) := by
  induction l generalizing s i with
  | nil =>
    have : i = 0 := by simpa using hi
    subst this; simp
  | cons x l ih =>
    rw [List.scanl_cons]
    cases i with
    | zero => simp
    | succ i =>
      rw [List.getElem?_cons_succ, ih _ _ (by simpa using hi), List.take_succ_cons, List.map_cons, List.sum_cons]
      congr 1; omega

theorem slice_flatMap {α β : Type} (f : α → List β) (l : List α) (i : ℕ) (hi : i < l.length) :
    ((l.flatMap f).drop (((l.take i).map fun x => (f x).length).sum)).take (f l[i]).length = f l[i] := by
  have hlen : (((l.take i).map fun x => (f x).length).sum) = ((l.take i).flatMap f).length := by
    rw [List.length_flatMap]
  have hl : l = l.take i ++ l[i] :: l.drop (i + 1) := by
    rw [← List.drop_eq_getElem_cons hi, List.take_append_drop]
  conv_lhs => rw [hlen]
  have : l.flatMap f = (l.take i).flatMap f ++ (f l[i] ++ (l.drop (i + 1)).flatMap f) := by
    conv_lhs => rw [hl]
    rw [List.flatMap_append, List.flatMap_cons]
  rw [this, List.drop_left, List.take_left]

theorem mapM_ok {α β : Type} {f : α → Res β} {g : α → β} {l : List α} (h : ∀ x ∈ l, f x = .ok (g x)) :
    l.mapM f = .ok (l.map g) := by
  induction l with
  | nil => rfl
  | cons x l ih =>
    rw [List.mapM_cons, h x (by simp), ok_bind, ih (fun y hy => h y (by simp [hy])), ok_bind]
    rfl

theorem lookup_gen {α β : Type} [BEq α] [LawfulBEq α] {l : List (α × β)} (hn : (l.map Prod.fst).Nodup) {k : α} {x : β}
    (h : (k, x) ∈ l) : l.lookup k = some x := by
  induction l with
  | nil => simp at h
  | cons a l ih =>
    rw [List.map_cons, List.nodup_cons] at hn
    rw [List.lookup]
    rcases List.mem_cons.mp h with rfl | h'
    · simp
    · have hne : (k == a.1) = false := by
        rw [beq_eq_false_iff_ne]
        rintro rfl
        exact hn.1 (List.mem_map.mpr ⟨_, h', rfl⟩)
      simp only [hne]
      exact ih hn.2 h'

/-! ### The specification -/

/-- The two ends are joined by an edge of the input, in either direction. -/
def Joined (ew : EdgeW) (a b : ℤ) : Prop := (∃ w, ((a, b), w) ∈ ew) ∨ ∃ w, ((b, a), w) ∈ ew

/-- A well-formed graph for METIS: row `i` is `adj[xadj[i]] … adj[xadj[i+1]-1]`. -/
structure WellFormed (c : Csr) (ncon : ℕ) : Prop where
  xlen : c.xadj.length = c.nodes.length + 1
  first : c.xadj[0]? = some 0
  last : c.xadj[c.nodes.length]? = some c.adj.length
  mono : ∀ i (lo hi : ℕ), c.xadj[i]? = some lo → c.xadj[i + 1]? = some hi → lo ≤ hi ∧ hi ≤ c.adj.length
  range : ∀ j ∈ c.adj, j < c.nodes.length
  wlen : c.adjwgt.length = c.adj.length
  vlen : c.vwgt.length = c.nodes.length * ncon

/-- The entries `(column, weight)` of a row. -/
def row (c : Csr) (i : ℕ) : List (ℕ × ℚ) :=
  let lo := c.xadj.getD i 0
  let hi := c.xadj.getD (i + 1) 0
  ((c.adj.zip c.adjwgt).drop lo).take (hi - lo)

theorem mem_edges (ew : EdgeW) (a b : ℤ) : b ∈ edges ew a ↔ Joined ew a b := by
  unfold edges edgeSet Joined
  rw [List.mem_insertionSort, List.mem_dedup, List.mem_flatMap]
  constructor
  · rintro ⟨⟨⟨x, y⟩, w⟩, hp, h⟩
    simp only [List.mem_append] at h
    rcases h with h | h
    · split_ifs at h with hx
      · simp only [List.mem_singleton] at h; subst h; subst hx; exact Or.inl ⟨w, hp⟩
      · simp at h
    · split_ifs at h with hx
      · simp only [List.mem_singleton] at h; subst h; subst hx; exact Or.inr ⟨w, hp⟩
      · simp at h
  · rintro (⟨w, h⟩ | ⟨w, h⟩)
    · exact ⟨_, h, by simp⟩
    · exact ⟨_, h, by simp⟩

theorem edges_sorted (ew : EdgeW) (a : ℤ) : (edges ew a).Pairwise (· < ·) := by
  have h1 : (edges ew a).Pairwise (· ≤ ·) := List.pairwise_insertionSort _ _
  have h2 : (edges ew a).Nodup := ((List.perm_insertionSort _ _).nodup_iff).mpr (List.nodup_dedup _)
  exact (List.Pairwise.and h1 h2).imp fun h => lt_of_le_of_ne h.1 h.2

theorem nodes_sorted {nw : NodeW} (hk : (nw.map Prod.fst).Nodup) :
    (((nw.map Prod.fst).insertionSort (· ≤ ·)).Pairwise (· < ·)) := by
  have h1 : ((nw.map Prod.fst).insertionSort (· ≤ ·)).Pairwise (· ≤ ·) := List.pairwise_insertionSort _ _
  have h2 := ((List.perm_insertionSort (· ≤ ·) (nw.map Prod.fst)).nodup_iff).mpr hk
  exact (List.Pairwise.and h1 h2).imp fun h => lt_of_le_of_ne h.1 h.2

theorem mapping_lookup {nodes : List ℤ} (hn : nodes.Nodup) {d : ℤ} (hd : d ∈ nodes) :
    atKey (mapping nodes) d = .ok (nodes.idxOf d) := by
  unfold atKey mapping
  rw [lookup_gen (x := nodes.idxOf d)]
  · rw [List.map_reverse, List.nodup_reverse]
    have : nodes.zipIdx.map Prod.fst = nodes := by simp
    rw [this]; exact hn
  · rw [List.mem_reverse, List.mem_zipIdx_iff_getElem?]
    exact List.getElem?_idxOf hd

theorem weight_comm (ew : EdgeW) (a b : ℤ) : weight ew a b = weight ew b a := by
  unfold weight; rw [add_comm]

/-- **C24** For all node and edge weights with the same number of constraints for each node and edges between given nodes:
the graph is made without an exception, its arrays are well-formed, its vertices are the given nodes in increasing order,
and row `i` has, in increasing order, exactly the columns `j` such that nodes `i` and `j` are joined in the input in one
direction or the other, each with the sum of the two weights. -/
theorem csr_spec {nw : NodeW} {ew : EdgeW} {ncon : ℕ} (hk : (nw.map Prod.fst).Nodup) (hne : nw ≠ [])
    (hc : ∀ x ∈ nw, x.2.length = ncon) (he : ∀ x ∈ ew, x.1.1 ∈ nw.map Prod.fst ∧ x.1.2 ∈ nw.map Prod.fst) :
    ∃ c, make nw ew = .ok c ∧ WellFormed c ncon ∧ c.nodes.Perm (nw.map Prod.fst) ∧ c.nodes.Pairwise (· < ·) ∧
      ∀ i a, c.nodes[i]? = some a → ((row c i).map Prod.fst).Pairwise (· < ·) ∧
        ∀ j w, (j, w) ∈ row c i ↔ ∃ b, c.nodes[j]? = some b ∧ Joined ew a b ∧
          w = (ew.lookup (a, b)).getD 0 + (ew.lookup (b, a)).getD 0 := by
  set nodes := (nw.map Prod.fst).insertionSort (· ≤ ·) with hnodes
  have hperm : nodes.Perm (nw.map Prod.fst) := List.perm_insertionSort _ _
  have hsort := nodes_sorted hk
  rw [← hnodes] at hsort
  have hnd : nodes.Nodup := hperm.nodup_iff.mpr hk
  have hhead : (nw.headD (0, [])).2.length = ncon := by
    cases nw with
    | nil => exact absurd rfl hne
    | cons x l => exact hc x (by simp)
  have hmk : mkNodes nw = .ok nodes := by
    unfold mkNodes
    rw [if_pos]
    rw [List.all_eq_true]
    intro x hx
    rw [hhead, hc x hx]; simp
  have hclosed : ∀ a b, Joined ew a b → b ∈ nodes := by
    intro a b h
    rw [hperm.mem_iff]
    rcases h with ⟨w, h⟩ | ⟨w, h⟩
    · exact (he _ h).2
    · exact (he _ h).1
  let A : ℤ → List ℕ := fun src => (edges ew src).map nodes.idxOf
  let Wt : ℤ → List ℚ := fun src => (edges ew src).map (weight ew src)
  have hadj : adj ew nodes = .ok (nodes.flatMap A) := by
    unfold adj
    rw [mapM_ok (g := A), ok_bind]
    · rw [List.flatMap_def]; rfl
    · intro src _
      exact mapM_ok (fun d hd => mapping_lookup hnd (hclosed src d ((mem_edges ew src d).mp hd)))
  let v : ℤ → List ℚ := fun id => ((nw.lookup id).getD [])
  have hv : ∀ id ∈ nodes, nw.lookup id = some (v id) ∧ (v id).length = ncon := by
    intro id hid
    rw [hperm.mem_iff] at hid
    obtain ⟨x, hx, rfl⟩ := List.mem_map.mp hid
    have := lookup_gen hk (show (x.1, x.2) ∈ nw from hx)
    simp only [v, this, Option.getD_some, true_and]
    exact hc x hx
  have hvw : nodeWgts nw nodes = .ok (nodes.flatMap v) := by
    unfold nodeWgts
    rw [mapM_ok (g := v), ok_bind]
    · rw [List.flatMap_def]; rfl
    · intro id hid
      obtain ⟨h1, h2⟩ := hv id hid
      unfold atKey
      rw [h1]
      simp only [ok_bind, hhead]
      rw [mapM_ok (g := fun c => (v id).getD c 0)]
      · congr 1
        apply List.ext_getElem?
        intro c
        rw [List.getElem?_map]
        by_cases hcc : c < ncon
        · rw [List.getElem?_range hcc]
          simp [List.getD_eq_getElem?_getD, List.getElem?_eq_getElem (h2 ▸ hcc : c < (v id).length)]
        · rw [List.getElem?_eq_none (by simpa using hcc), List.getElem?_eq_none (by omega)]
          rfl
      · intro c hcm
        rw [List.mem_range] at hcm
        unfold atIdx
        rw [List.getElem?_eq_getElem (h2 ▸ hcm : c < (v id).length)]
        simp [List.getD_eq_getElem?_getD, List.getElem?_eq_getElem (h2 ▸ hcm : c < (v id).length)]
  refine ⟨⟨nodes, xadj ew nodes, nodes.flatMap A, nodes.flatMap v, edgeWgts ew nodes⟩, ?_, ?_, hperm, hsort, ?_⟩
  · unfold make
    rw [hmk, ok_bind, hadj, ok_bind, hvw, ok_bind]
    rfl
  · have hx : ∀ i ≤ nodes.length, (xadj ew nodes)[i]? = some (((nodes.take i).map fun x => (A x).length).sum) := by
      intro i hi
      unfold xadj
      rw [scanl_get _ _ _ _ hi]
      simp [A]
    have hAlen : (nodes.flatMap A).length = (nodes.map fun x => (A x).length).sum := List.length_flatMap
    refine ⟨by simp [xadj], by rw [hx 0 (by omega)]; simp, ?_, ?_, ?_, ?_, ?_⟩
    · rw [hx _ le_rfl, List.take_length]
      simp only [hAlen]
    · intro i lo hi h1 h2
      have hi2 : i + 1 ≤ nodes.length := by
        have := (List.getElem?_eq_some_iff.mp h2).1
        simp [xadj] at this
        omega
      rw [hx i (by omega), Option.some.injEq] at h1
      rw [hx (i + 1) hi2, Option.some.injEq] at h2
      subst h1; subst h2
      simp only [hAlen]
      constructor
      · rw [List.take_succ_eq_append_getElem hi2, List.map_append, List.sum_append]; omega
      · conv_rhs => rw [← List.take_append_drop (i + 1) nodes, List.map_append, List.sum_append]
        omega
    · intro j hj
      obtain ⟨src, -, hj⟩ := List.mem_flatMap.mp hj
      obtain ⟨d, hd, rfl⟩ := List.mem_map.mp hj
      exact List.idxOf_lt_length_of_mem (hclosed src d ((mem_edges ew src d).mp hd))
    · simp only [edgeWgts, List.length_flatMap, List.length_map, A]
    · simp only [List.length_flatMap]
      have : nodes.map (fun x => (v x).length) = nodes.map (fun _ => ncon) :=
        List.map_congr_left (fun x hx => (hv x hx).2)
      rw [this]; simp
  · intro i a hi
    obtain ⟨hlt, rfl⟩ := List.getElem?_eq_some_iff.mp hi
    simp only at hlt hi ⊢
    have hrow : row ⟨nodes, xadj ew nodes, nodes.flatMap A, nodes.flatMap v, edgeWgts ew nodes⟩ i =
        (edges ew nodes[i]).map fun d => (nodes.idxOf d, weight ew nodes[i] d) := by
      have hz : (nodes.flatMap A).zip (edgeWgts ew nodes) =
          nodes.flatMap fun src => (edges ew src).map fun d => (nodes.idxOf d, weight ew src d) := by
        unfold edgeWgts
        generalize hN : nodes.flatMap A = X
        rw [← hN]
        clear hN
        have aux : ∀ l : List ℤ, (l.flatMap A).zip (l.flatMap fun src => (edges ew src).map (weight ew src)) =
            l.flatMap fun src => (edges ew src).map fun d => (nodes.idxOf d, weight ew src d) := by
          intro l
          induction l with
          | nil => rfl
          | cons x l ih =>
            rw [List.flatMap_cons, List.flatMap_cons, List.flatMap_cons, List.zip_append (by simp [A]), ih]
            congr 1
            simp only [A]
            rw [List.zip_map']
        exact aux nodes
      unfold row
      simp only
      rw [hz]
      have g1 : (xadj ew nodes).getD i 0 = ((nodes.take i).map fun x => ((edges ew x).map fun d => (nodes.idxOf d, weight ew x d)).length).sum := by
        rw [List.getD_eq_getElem?_getD, xadj, scanl_get _ _ _ _ hlt.le]
        simp
      have g2 : (xadj ew nodes).getD (i + 1) 0 - (xadj ew nodes).getD i 0 = ((edges ew nodes[i]).map fun d => (nodes.idxOf d, weight ew nodes[i] d)).length := by
        rw [g1, List.getD_eq_getElem?_getD, xadj, scanl_get _ _ _ _ hlt, List.take_succ_eq_append_getElem hlt, List.map_append, List.sum_append]
        simp only [List.map_cons, List.map_nil, List.sum_cons, List.sum_nil, Option.getD_some, List.length_map]
        omega
      rw [g2, g1]
      exact slice_flatMap (fun src => (edges ew src).map fun d => (nodes.idxOf d, weight ew src d)) nodes i hlt
    have hsrt := edges_sorted ew nodes[i]
    have hmem : ∀ d ∈ edges ew nodes[i], d ∈ nodes := fun d hd => hclosed _ d ((mem_edges ew _ d).mp hd)
    rw [hrow]
    constructor
    · rw [List.map_map, List.pairwise_map]
      refine hsrt.imp_of_mem ?_
      intro x y hx hy hxy
      simp only [Function.comp]
      by_contra hle
      push Not at hle
      have px := List.idxOf_lt_length_of_mem (hmem x hx)
      have py := List.idxOf_lt_length_of_mem (hmem y hy)
      rcases Nat.lt_or_eq_of_le hle with h | h
      · have := List.pairwise_iff_getElem.mp hsort _ _ py px h
        rw [List.getElem_idxOf, List.getElem_idxOf] at this
        omega
      · have e1 : nodes[nodes.idxOf x] = x := List.getElem_idxOf px
        have e2 : nodes[nodes.idxOf y] = y := List.getElem_idxOf py
        have : x = y := by rw [← e1, ← e2]; simp only [h]
        omega
    · intro j w
      rw [List.mem_map]
      constructor
      · rintro ⟨d, hd, he⟩
        rw [Prod.mk.injEq] at he
        obtain ⟨rfl, rfl⟩ := he
        exact ⟨d, List.getElem?_idxOf (hmem d hd), (mem_edges ew _ d).mp hd, rfl⟩
      · rintro ⟨b, hb, hj, rfl⟩
        refine ⟨b, (mem_edges ew _ b).mpr hj, ?_⟩
        obtain ⟨hjl, rfl⟩ := List.getElem?_eq_some_iff.mp hb
        rw [hnd.idxOf_getElem]
        rfl

/-- **C24** The graph is symmetric with equal weights, and has no self loops if the input has none. -/
theorem csr_symmetric {nw : NodeW} {ew : EdgeW} {ncon : ℕ} (hk : (nw.map Prod.fst).Nodup) (hne : nw ≠ [])
    (hc : ∀ x ∈ nw, x.2.length = ncon) (he : ∀ x ∈ ew, x.1.1 ∈ nw.map Prod.fst ∧ x.1.2 ∈ nw.map Prod.fst) :
    ∃ c, make nw ew = .ok c ∧ (∀ i j w, i < c.nodes.length → (j, w) ∈ row c i → j < c.nodes.length ∧ (i, w) ∈ row c j) ∧
      ((∀ x ∈ ew, x.1.1 ≠ x.1.2) → ∀ i w, i < c.nodes.length → (i, w) ∉ row c i) := by
  obtain ⟨c, h1, -, -, hs, h2⟩ := csr_spec hk hne hc he
  refine ⟨c, h1, ?_, ?_⟩
  · intro i j w hi h
    obtain ⟨b, hb, hj, rfl⟩ := ((h2 i _ (List.getElem?_eq_getElem hi)).2 j w).mp h
    refine ⟨(List.getElem?_eq_some_iff.mp hb).1, ((h2 j b hb).2 i _).mpr ⟨_, List.getElem?_eq_getElem hi, ?_, add_comm _ _⟩⟩
    exact hj.symm
  · intro hloop i w hi h
    obtain ⟨b, hb, hj, rfl⟩ := ((h2 i _ (List.getElem?_eq_getElem hi)).2 i w).mp h
    rw [List.getElem?_eq_getElem hi, Option.some.injEq] at hb
    subst hb
    rcases hj with ⟨w, q⟩ | ⟨w, q⟩
    · exact hloop _ q rfl
    · exact hloop _ q rfl

/-- Nodes with different numbers of constraints are rejected. -/
theorem csr_reject (nw : NodeW) (ew : EdgeW) (x y : ℤ × List ℚ) (hx : x ∈ nw) (hy : y ∈ nw) (h : x.2.length ≠ y.2.length) :
    make nw ew = .error .exc := by
  unfold make mkNodes
  rw [if_neg]
  · rfl
  · intro hall
    rw [List.all_eq_true] at hall
    have h1 := hall x hx
    have h2 := hall y hy
    simp only [decide_eq_true_eq] at h1 h2
    exact h (h1.trans h2.symm)

/-- Non-vacuity: a triangle with a tail; ids out of order. -/
def sampleN : NodeW := [(7, [1]), (-2, [3]), (5, [2]), (9, [4])]
def sampleE : EdgeW := [((5, 7), 2), ((7, -2), 3), ((-2, 5), 1), ((9, 7), 1), ((7, 9), 4)]
example : (match make sampleN sampleE with
    | .ok c => decide (c.nodes = [-2, 5, 7, 9] ∧ c.xadj = [0, 2, 4, 7, 8] ∧ c.adj = [1, 2, 0, 2, 0, 1, 3, 2] ∧
        c.vwgt = [3, 2, 1, 4] ∧ c.adjwgt = [1, 3, 1, 2, 3, 2, 5, 5])
    | .error _ => false) = true := by decide +kernel
example : (sampleN.map Prod.fst).Nodup ∧ (∀ x ∈ sampleN, x.2.length = 1) ∧
    ∀ x ∈ sampleE, x.1.1 ∈ sampleN.map Prod.fst ∧ x.1.2 ∈ sampleN.map Prod.fst := by decide

/-- Finding: the second graph passed to METIS (submeshes to localities) gets a self loop for each partition with an edge
between two of its elements, because `partition` adds the weights of uncut edges under the key `(p, p)`. METIS requires
graphs without self loops. -/
theorem submesh_self_loop (e2p : List (ℤ × ℤ)) (ew : EdgeW) (m : EdgeW) (h : submeshEdges e2p ew = .ok m) (e : (ℤ × ℤ) × ℚ)
    (he : e ∈ ew) (p : ℤ) (h1 : e2p.lookup e.1.1 = some p) (h2 : e2p.lookup e.1.2 = some p) : Joined m p p := by
  have key : ∀ (l : EdgeW) (m0 m : EdgeW), l.foldlM (fun (m : EdgeW) e => do
      let a ← atKey e2p e.1.1
      let b ← atKey e2p e.1.2
      let k := (min a b, max a b)
      pure (match m.lookup k with
        | some _ => m.map fun x => if x.1 = k then (x.1, x.2 + e.2) else x
        | none => m ++ [(k, e.2)])) m0 = (.ok m : Res EdgeW) → ((p, p) ∈ m0.map Prod.fst ∨ e ∈ l) → (p, p) ∈ m.map Prod.fst := by
    intro l
    induction l with
    | nil =>
      intro m0 m h hor
      cases h
      rcases hor with h | h
      · exact h
      · simp at h
    | cons x l ih =>
      intro m0 m h hor
      rw [List.foldlM_cons] at h
      obtain ⟨m1, hm1, h⟩ := bind_ok h
      refine ih m1 m h ?_
      obtain ⟨a, ha, hm1⟩ := bind_ok hm1
      obtain ⟨b, hb, hm1⟩ := bind_ok hm1
      rw [atKey_ok] at ha hb
      cases hm1
      rcases hor with h0 | h0
      · left
        split
        · have : (m0.map fun y => if y.1 = (min a b, max a b) then (y.1, y.2 + x.2) else y).map Prod.fst = m0.map Prod.fst := by
            rw [List.map_map]
            apply List.map_congr_left
            intro y _
            simp only [Function.comp]
            split_ifs <;> rfl
          rw [this]; exact h0
        · rw [List.map_append, List.mem_append]; exact Or.inl h0
      · rcases List.mem_cons.mp h0 with rfl | h0
        · left
          rw [h1, Option.some.injEq] at ha
          rw [h2, Option.some.injEq] at hb
          subst ha; subst hb
          simp only [min_self, max_self]
          split
          · rename_i _ hl
            have hmem : (p, p) ∈ m0.map Prod.fst := by
              by_contra hno
              have : ∀ (q : EdgeW), (p, p) ∉ q.map Prod.fst → q.lookup (p, p) = none := by
                intro q
                induction q with
                | nil => intro _; rfl
                | cons y q ih =>
                  intro hq
                  rw [List.map_cons, List.mem_cons, not_or] at hq
                  rw [List.lookup]
                  have hb : ((p, p) == y.1) = false := beq_eq_false_iff_ne.mpr hq.1
                  simp only [hb]
                  exact ih hq.2
              rw [this m0 hno] at hl
              cases hl
            have : (m0.map fun y => if y.1 = (p, p) then (y.1, y.2 + e.2) else y).map Prod.fst = m0.map Prod.fst := by
              rw [List.map_map]
              apply List.map_congr_left
              intro y _
              simp only [Function.comp]
              split_ifs <;> rfl
            rw [this]; exact hmem
          · simp
        · exact Or.inr h0
  obtain ⟨y, hy, hy2⟩ := List.mem_map.mp (key ew [] m h (Or.inr he))
  exact Or.inl ⟨y.2, by rw [← hy2]; exact hy⟩

/-- Two elements of one partition: METIS gets the graph with one vertex for partition 0, one for 1, and loops. -/
example : (match submeshEdges [(0, 0), (1, 0), (2, 1)] [((0, 1), 1), ((1, 2), 1)] with
    | .ok m => decide (m = [((0, 0), 1), ((0, 1), 1)])
    | .error _ => false) = true := by decide +kernel

end Verif.Csr.Props
