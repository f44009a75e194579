import Verif.Model.Partition
import Verif.Lemmas.MeshMeta
import Verif.Lemmas.Text
import Mathlib.Data.List.Perm.Basic
import Mathlib.Data.List.Nodup

namespace Verif.Partition
open Verif Verif.MeshMeta Verif.Util Verif.Text

/-! ### Maps -/

theorem lookup_upsert {β : Type} (m : List (ℕ × β)) (k : ℕ) (v : β) (k' : ℕ) :
    (upsert m k v).lookup k' = if k' = k then some v else m.lookup k' := by
  unfold upsert
  split_ifs with h1 h2 h2
  · subst h2
    induction m with
    | nil => simp at h1
    | cons a m ih =>
      rw [List.map_cons]
      by_cases hk : a.1 = k'
      · subst hk; simp
      · have hb : (k' == a.1) = false := by simpa using fun h : k' = a.1 => hk h.symm
        rw [List.lookup] at h1
        simp only [hb] at h1
        have hb2 : (a.1 == k') = false := by simpa using hk
        rw [if_neg (by simpa using hk), List.lookup]
        simp only [hb]
        exact ih h1
  · clear h1
    induction m with
    | nil => rfl
    | cons a m ih =>
      rw [List.map_cons]
      by_cases hk : a.1 = k
      · rw [if_pos (by simpa using hk)]
        have hb : (k' == a.1) = false := by rw [hk]; simpa using h2
        simp only [List.lookup, hb]
        exact ih
      · rw [if_neg (by simpa using hk)]
        simp only [List.lookup]
        cases k' == a.1 with
        | true => rfl
        | false => exact ih
  · subst h2
    rw [List.lookup_append]
    have : m.lookup k' = none := Option.not_isSome_iff_eq_none.mp h1
    simp [this]
  · rw [List.lookup_append]
    have hb : (k' == k) = false := by simpa using h2
    simp [List.lookup, hb]

theorem lookup_insertNew {β : Type} (m : List (ℕ × β)) (k : ℕ) (v : β) (k' : ℕ) :
    (insertNew m k v).lookup k' = if k' = k ∧ m.lookup k = none then some v else m.lookup k' := by
  unfold insertNew
  by_cases h : (m.lookup k).isSome
  · rw [if_pos h, if_neg]
    rintro ⟨-, h'⟩
    rw [h'] at h; simp at h
  · rw [if_neg h]
    have hn : m.lookup k = none := Option.not_isSome_iff_eq_none.mp h
    rw [List.lookup_append]
    by_cases hk : k' = k
    · subst hk; simp [hn]
    · have hb : (k' == k) = false := by simpa using hk
      simp [List.lookup, hb, hk]

/-! ### Round robin -/

/-- State of the assignment loop after the entries `done`. -/
structure RRInv (rpl : ℕ) (done : List (ℕ × ℕ)) (s : RR) : Prop where
  ctr : ∀ n, s.rankCtr n < rpl
  rank : ∀ x ∈ done, ∃ j, j < rpl ∧ s.p2r.lookup x.1 = some (j + rpl * x.2)
  lt : ∀ x ∈ done, ∀ r, s.p2r.lookup x.1 = some r → s.p2l x.1 < s.partCtr r
  inj : ∀ x ∈ done, ∀ y ∈ done, ∀ r, s.p2r.lookup x.1 = some r → s.p2r.lookup y.1 = some r →
    s.p2l x.1 = s.p2l y.1 → x.1 = y.1
  fill : ∀ r l, l < s.partCtr r → ∃ x ∈ done, s.p2r.lookup x.1 = some r ∧ s.p2l x.1 = l

theorem rrStep_inv {numParts numNodes rpl : ℕ} {done : List (ℕ × ℕ)} {s s' : RR} {x : ℕ × ℕ}
    (hx : x.1 ∉ done.map Prod.fst) (hi : RRInv rpl done s) (h : rrStep numParts numNodes rpl s x = .ok s') :
    RRInv rpl (done ++ [x]) s' := by
  unfold rrStep at h
  by_cases hc : x.1 < numParts ∧ x.2 < numNodes ∧ rpl ≠ 0
  swap
  · rw [if_neg hc] at h; cases h
  rw [if_pos hc] at h
  simp only [Except.ok.injEq] at h
  subst h
  have hne : ∀ y ∈ done, y.1 ≠ x.1 := fun y hy h => hx (h ▸ List.mem_map_of_mem hy)
  have hpos : 0 < rpl := Nat.pos_of_ne_zero hc.2.2
  have key : ∀ y ∈ done ++ [x], (upsert s.p2r x.1 (s.rankCtr x.2 + rpl * x.2)).lookup y.1 =
      if y.1 = x.1 then some (s.rankCtr x.2 + rpl * x.2) else s.p2r.lookup y.1 := fun y _ => lookup_upsert _ _ _ _
  refine ⟨?_, ?_, ?_, ?_, ?_⟩
  · intro n
    simp only [setAt]
    split_ifs
    · exact Nat.mod_lt _ hpos
    · exact hi.ctr n
  · intro y hy
    rw [key y hy]
    rcases List.mem_append.mp hy with hy | hy
    · rw [if_neg (hne y hy)]; exact hi.rank y hy
    · rw [List.mem_singleton] at hy; subst hy
      exact ⟨_, hi.ctr _, if_pos rfl⟩
  · intro y hy r hr
    rw [key y hy] at hr
    simp only [setAt]
    rcases List.mem_append.mp hy with hy | hy
    · rw [if_neg (hne y hy)] at hr ⊢
      have := hi.lt y hy r hr
      split_ifs with h1
      · subst h1; omega
      · exact this
    · rw [List.mem_singleton] at hy; subst hy
      rw [if_pos rfl, Option.some.injEq] at hr
      subst hr
      simp
  · intro y hy z hz r hr1 hr2 hl
    rw [key y hy] at hr1
    rw [key z hz] at hr2
    simp only [setAt] at hl
    have hy0 := List.mem_append.mp hy
    have hz0 := List.mem_append.mp hz
    clear hy hz
    rcases hy0 with hy | hy <;> rcases hz0 with hz | hz
    · rw [if_neg (hne y hy)] at hr1 hl
      rw [if_neg (hne z hz)] at hr2 hl
      exact hi.inj y hy z hz r hr1 hr2 hl
    · rw [List.mem_singleton] at hz; subst hz
      rw [if_neg (hne y hy)] at hr1 hl
      rw [if_pos rfl] at hr2 hl
      simp only [Option.some.injEq] at hr2; subst hr2
      have := hi.lt y hy _ hr1
      omega
    · rw [List.mem_singleton] at hy; subst hy
      rw [if_neg (hne z hz)] at hr2 hl
      rw [if_pos rfl] at hr1 hl
      simp only [Option.some.injEq] at hr1; subst hr1
      have := hi.lt z hz _ hr2
      omega
    · rw [List.mem_singleton] at hy hz; subst hy; subst hz; rfl
  · intro r l hl
    simp only [setAt] at hl
    have old : l < s.partCtr r → ∃ y ∈ done ++ [x], (upsert s.p2r x.1 (s.rankCtr x.2 + rpl * x.2)).lookup y.1 = some r ∧
        setAt s.p2l x.1 (s.partCtr (s.rankCtr x.2 + rpl * x.2)) y.1 = l := by
      intro hl
      obtain ⟨y, hy, h1, h2⟩ := hi.fill r l hl
      refine ⟨y, List.mem_append_left _ hy, ?_, ?_⟩
      · rw [key y (List.mem_append_left _ hy), if_neg (hne y hy)]; exact h1
      · simp only [setAt, if_neg (hne y hy)]; exact h2
    split_ifs at hl with h1
    · rcases Nat.lt_succ_iff_lt_or_eq.mp hl with hl | hl
      · exact old (h1 ▸ hl)
      · refine ⟨x, by simp, ?_, ?_⟩
        · rw [key x (by simp), if_pos rfl, h1]
        · simp [setAt, hl]
    · exact old hl

theorem roundRobin_inv {numParts numNodes rpl : ℕ} {order : List (ℕ × ℕ)} (hrpl : rpl ≠ 0)
    (hnd : (order.map Prod.fst).Nodup) (hb : ∀ x ∈ order, x.1 < numParts ∧ x.2 < numNodes) :
    ∃ s, roundRobin numParts numNodes rpl order = .ok s ∧ RRInv rpl order s := by
  have gen : ∀ (rest done : List (ℕ × ℕ)) (s : RR), ((done ++ rest).map Prod.fst).Nodup →
      (∀ x ∈ rest, x.1 < numParts ∧ x.2 < numNodes) → RRInv rpl done s →
      ∃ s', rest.foldlM (rrStep numParts numNodes rpl) s = .ok s' ∧ RRInv rpl (done ++ rest) s' := by
    intro rest
    induction rest with
    | nil => intro done s _ _ hi; exact ⟨s, rfl, by simpa using hi⟩
    | cons x rest ih =>
      intro done s hnd hb hi
      have hx : x.1 ∉ done.map Prod.fst := by
        rw [List.map_append, List.map_cons, List.nodup_append] at hnd
        intro h
        exact hnd.2.2 _ h _ (by simp) rfl
      have hs : ∃ s1, rrStep numParts numNodes rpl s x = .ok s1 := by
        unfold rrStep
        rw [if_pos ⟨(hb x (by simp)).1, (hb x (by simp)).2, hrpl⟩]
        exact ⟨_, rfl⟩
      obtain ⟨s1, hs1⟩ := hs
      obtain ⟨s', h1, h2⟩ := ih (done ++ [x]) s1 (by simpa using hnd) (fun y hy => hb y (by simp [hy]))
        (rrStep_inv hx hi hs1)
      refine ⟨s', ?_, by simpa using h2⟩
      rw [List.foldlM_cons, hs1, ok_bind, h1]
  obtain ⟨s, h1, h2⟩ := gen order [] ⟨fun _ => 0, fun _ => 0, [], fun _ => 0⟩ (by simpa using hnd) hb
    ⟨fun _ => Nat.pos_of_ne_zero hrpl, by simp, by simp, by simp, by simp⟩
  exact ⟨s, h1, by simpa using h2⟩

/-! ### Assembly -/

section
variable {N : Type}

theorem addNodes_spec (nodes : List (ℕ × N)) (ids : List ℕ) (hids : ∀ i ∈ ids, ∃ x, nodes.lookup i = some x)
    (m : List (ℕ × N)) :
    ∃ m', addNodes nodes m ids = .ok m' ∧ ∀ i, m'.lookup i = if i ∈ ids then nodes.lookup i else m.lookup i := by
  induction ids generalizing m with
  | nil => exact ⟨m, rfl, by simp⟩
  | cons a ids ih =>
    obtain ⟨x, hx⟩ := hids a (by simp)
    obtain ⟨m', h1, h2⟩ := ih (fun i hi => hids i (by simp [hi])) (upsert m a x)
    refine ⟨m', ?_, ?_⟩
    · unfold addNodes at h1 ⊢
      rw [List.foldlM_cons]
      simp only [atKey, hx, ok_bind]
      exact h1
    · intro i
      rw [h2, lookup_upsert]
      by_cases hi : i ∈ ids
      · simp [hi]
      · by_cases ha : i = a
        · subst ha; simp [hx]
        · simp [hi, ha]

/-- Submeshes after the elements `done` have been put in their places. -/
structure AsmInv (nodes : List (ℕ × N)) (pl : ℕ → ℕ × ℕ) (nr : ℕ) (cnt : ℕ → ℕ) (done : Elts) (S : Subs N) : Prop where
  nr : S.numRanks = nr
  cnt : S.count = cnt
  elts : ∀ r l id, (S.get r l).elements.lookup id = if pl id = (r, l) then done.lookup id else none
  keys : ∀ r l, ((S.get r l).elements.map Prod.fst).Nodup
  node : ∀ x ∈ done, ∀ i ∈ x.2.nodes, (S.get (pl x.1).1 (pl x.1).2).nodes.lookup i = nodes.lookup i
  node' : ∀ r l i x, (S.get r l).nodes.lookup i = some x → nodes.lookup i = some x

theorem mem_keys_iff {β : Type} (l : List (ℕ × β)) (k : ℕ) : k ∈ l.map Prod.fst ↔ (l.lookup k).isSome := by
  induction l with
  | nil => simp
  | cons a l ih =>
    rw [List.map_cons, List.mem_cons, ih, List.lookup]
    by_cases h : k = a.1
    · subst h; simp
    · have hb : (k == a.1) = false := by simpa using h
      simp [hb, h]

theorem nodup_insertNew {β : Type} {m : List (ℕ × β)} (h : (m.map Prod.fst).Nodup) (k : ℕ) (v : β) :
    ((insertNew m k v).map Prod.fst).Nodup := by
  unfold insertNew
  split_ifs with hk
  · exact h
  · rw [List.map_append, List.nodup_append]
    refine ⟨h, by simp, ?_⟩
    intro a ha b hb
    simp only [List.map_cons, List.map_nil, List.mem_singleton] at hb
    subst hb
    rintro rfl
    rw [mem_keys_iff] at ha
    exact hk ha

theorem addElt_inv {e2p : List (ℕ × ℕ)} {rr : RR} {nodes : List (ℕ × N)} {pl : ℕ → ℕ × ℕ} {nr : ℕ} {cnt : ℕ → ℕ}
    {done : Elts} {S : Subs N} {x : ℕ × Elt} (hi : AsmInv nodes pl nr cnt done S) (hx : x.1 ∉ done.map Prod.fst)
    (hp : place e2p rr x.1 = .ok (pl x.1)) (hr : (pl x.1).1 < nr ∧ (pl x.1).2 < cnt (pl x.1).1)
    (hn : ∀ i ∈ x.2.nodes, ∃ y, nodes.lookup i = some y) :
    ∃ S', addElt e2p rr nodes S x = .ok S' ∧ AsmInv nodes pl nr cnt (done ++ [x]) S' := by
  obtain ⟨m', h1, h2⟩ := addNodes_spec nodes x.2.nodes hn (S.get (pl x.1).1 (pl x.1).2).nodes
  have hhas : S.has (pl x.1).1 (pl x.1).2 := by
    unfold Subs.has; rw [hi.nr, hi.cnt]; exact hr
  have hstep : addElt e2p rr nodes S x = .ok (S.put (pl x.1).1 (pl x.1).2
      ⟨insertNew (S.get (pl x.1).1 (pl x.1).2).elements x.1 x.2, m'⟩) := by
    unfold addElt
    rw [hp]
    simp only [ok_bind]
    rw [if_pos hhas]
    simp only [h1, ok_bind]
    rfl
  refine ⟨_, hstep, ?_⟩
  have hnone : (S.get (pl x.1).1 (pl x.1).2).elements.lookup x.1 = none := by
    rw [hi.elts, if_pos rfl]
    by_contra h
    exact hx ((mem_keys_iff done x.1).mpr (Option.isSome_iff_ne_none.mpr h))
  have hdone : done.lookup x.1 = none := by
    by_contra h
    exact hx ((mem_keys_iff done x.1).mpr (Option.isSome_iff_ne_none.mpr h))
  refine ⟨hi.nr, hi.cnt, ?_, ?_, ?_, ?_⟩
  · intro r l id
    have hl : (done ++ [x]).lookup id = if id = x.1 then some x.2 else done.lookup id := by
      rw [List.lookup_append]
      by_cases h : id = x.1
      · subst h; simp [hdone, List.lookup]
      · have hb : (id == x.1) = false := by simpa using h
        simp [List.lookup, hb, h]
    simp only [Subs.put]
    split_ifs with h1' h2' h2'
    · rw [lookup_insertNew, hnone, hl]
      by_cases h : id = x.1
      · rw [if_pos ⟨h, rfl⟩, if_pos h]
      · simp only [h, false_and, if_false]
        rw [hi.elts, if_pos (by rw [h2', h1'.1, h1'.2])]
    · rw [lookup_insertNew, hnone]
      have h : id ≠ x.1 := by rintro rfl; exact h2' (by rw [h1'.1, h1'.2])
      simp only [h, false_and, if_false]
      rw [hi.elts, if_neg]
      intro h'; exact h2' (by rw [h', h1'.1, h1'.2])
    · rw [hi.elts, if_pos h2', hl, if_neg]
      rintro rfl
      exact h1' ⟨by rw [h2'], by rw [h2']⟩
    · rw [hi.elts, if_neg h2']
  · intro r l
    simp only [Subs.put]
    split_ifs
    · exact nodup_insertNew (hi.keys _ _) _ _
    · exact hi.keys r l
  · intro y hy i hiy
    simp only [Subs.put]
    rcases List.mem_append.mp hy with hy | hy
    · split_ifs with hc
      · rw [h2]
        split_ifs
        · rfl
        · rw [← hi.node y hy i hiy, hc.1, hc.2]
      · exact hi.node y hy i hiy
    · rw [List.mem_singleton] at hy; subst hy
      rw [if_pos ⟨rfl, rfl⟩, h2, if_pos hiy]
  · intro r l i y hy
    simp only [Subs.put] at hy
    split_ifs at hy with hc
    · rw [h2] at hy
      split_ifs at hy
      · exact hy
      · exact hi.node' _ _ i y hy
    · exact hi.node' r l i y hy

theorem assemble_inv {e2p : List (ℕ × ℕ)} {rr : RR} {nodes : List (ℕ × N)} {pl : ℕ → ℕ × ℕ} {nr : ℕ} {cnt : ℕ → ℕ}
    (els : Elts) (hnd : (els.map Prod.fst).Nodup) (hp : ∀ x ∈ els, place e2p rr x.1 = .ok (pl x.1))
    (hr : ∀ x ∈ els, (pl x.1).1 < nr ∧ (pl x.1).2 < cnt (pl x.1).1)
    (hn : ∀ x ∈ els, ∀ i ∈ x.2.nodes, ∃ y, nodes.lookup i = some y) :
    ∃ S, els.foldlM (addElt e2p rr nodes) ⟨nr, cnt, fun _ _ => ⟨[], []⟩⟩ = .ok S ∧ AsmInv nodes pl nr cnt els S := by
  have gen : ∀ (rest done : Elts) (S : Subs N), ((done ++ rest).map Prod.fst).Nodup →
      (∀ x ∈ rest, x ∈ els) → AsmInv nodes pl nr cnt done S →
      ∃ S', rest.foldlM (addElt e2p rr nodes) S = .ok S' ∧ AsmInv nodes pl nr cnt (done ++ rest) S' := by
    intro rest
    induction rest with
    | nil => intro done S _ _ hi; exact ⟨S, rfl, by simpa using hi⟩
    | cons x rest ih =>
      intro done S hnd hsub hi
      have hx : x.1 ∉ done.map Prod.fst := by
        rw [List.map_append, List.map_cons, List.nodup_append] at hnd
        intro h
        exact hnd.2.2 _ h _ (by simp) rfl
      have hxe := hsub x (by simp)
      obtain ⟨S1, h1, hi1⟩ := addElt_inv (e2p := e2p) (rr := rr) hi hx (hp x hxe) (hr x hxe) (hn x hxe)
      obtain ⟨S', h2, hi2⟩ := ih (done ++ [x]) S1 (by simpa using hnd) (fun y hy => hsub y (by simp [hy])) hi1
      refine ⟨S', ?_, by simpa using hi2⟩
      rw [List.foldlM_cons, h1, ok_bind, h2]
  obtain ⟨S, h1, h2⟩ := gen els [] ⟨nr, cnt, fun _ _ => ⟨[], []⟩⟩ (by simpa using hnd) (fun _ h => h)
    ⟨rfl, rfl, by simp, by simp, by simp, by simp⟩
  exact ⟨S, h1, by simpa using h2⟩

/-! ### Splitting -/

theorem mapIdx_same {α : Type} {f : ℕ → α → α} (h : ∀ k x, f k x = x) (l : List α) : l.mapIdx f = l := by
  apply List.ext_getElem (by simp)
  intro i h1 h2
  rw [List.getElem_mapIdx, h]

theorem markFaces_id {nbr : List ℕ} {b : ℕ} (h : b ∉ nbr.take 3) (e : Elt) : markFaces nbr b e = e := by
  unfold markFaces
  have : (e.btype.mapIdx fun k x => if k < 3 ∧ nbr[k]? = some b then distributed x else x) = e.btype := by
    apply mapIdx_same
    intro k x
    rw [if_neg]
    rintro ⟨hk, hb⟩
    apply h
    rw [List.mem_take_iff_getElem]
    rw [List.getElem?_eq_some_iff] at hb
    obtain ⟨hlt, hb⟩ := hb
    exact ⟨k, by omega, hb⟩
  rw [this]

/-- Effect of `markSide`, as seen by lookups. -/
theorem markSide_spec {e2p : List (ℕ × ℕ)} {rr : RR} {els : Elts} {a b : ℕ} {S : Subs N} {pa : ℕ × ℕ} {e : Elt}
    (hp : place e2p rr a = .ok pa) (he : els.lookup a = some e) (h3 : 3 ≤ e.nbr.length) (hr : S.has pa.1 pa.2)
    (hin : ((S.get pa.1 pa.2).elements.lookup a).isSome) :
    ∃ S', markSide e2p rr els a b S = .ok S' ∧ S'.numRanks = S.numRanks ∧ S'.count = S.count ∧
      (∀ r l, (S'.get r l).nodes = (S.get r l).nodes) ∧
      (∀ r l, (S'.get r l).elements.map Prod.fst = (S.get r l).elements.map Prod.fst) ∧
      ∀ r l id, (S'.get r l).elements.lookup id =
        if (r, l) = pa ∧ id = a then ((S.get r l).elements.lookup id).map (markFaces e.nbr b)
        else (S.get r l).elements.lookup id := by
  unfold markSide
  rw [hp]
  simp only [ok_bind, atKey, he]
  rw [if_neg (by omega)]
  by_cases hb : b ∈ e.nbr.take 3
  · rw [if_pos hb, if_pos hr]
    obtain ⟨y, hy⟩ := Option.isSome_iff_exists.mp hin
    simp only [hy, ok_bind]
    have hmap : ∀ l : Elts, (l.map fun (i, y) => if i = a then (i, markFaces e.nbr b y) else (i, y)) =
        mapVal (fun i y => if i = a then markFaces e.nbr b y else y) l := by
      intro l
      apply List.map_congr_left
      rintro ⟨i, y⟩ _
      simp only
      split_ifs <;> rfl
    refine ⟨_, rfl, rfl, rfl, ?_, ?_, ?_⟩
    · intro r l
      simp only [Subs.put]
      split_ifs with hc
      · rw [hc.1, hc.2]
      · rfl
    · intro r l
      simp only [Subs.put, hmap]
      split_ifs with hc
      · rw [mapVal_fst, hc.1, hc.2]
      · rfl
    · intro r l id
      simp only [Subs.put, hmap]
      by_cases hc : r = pa.1 ∧ l = pa.2
      · rw [if_pos hc]
        have hc' : (r, l) = pa := by rw [hc.1, hc.2]
        simp only [lookup_map_val, hc', true_and]
        rw [hc.1, hc.2]
        by_cases hid : id = a
        · simp [hid]
        · simp [hid]
      · rw [if_neg hc, if_neg]
        rintro ⟨h, -⟩
        exact hc ⟨by rw [← h], by rw [← h]⟩
  · rw [if_neg hb]
    refine ⟨S, rfl, rfl, rfl, fun _ _ => rfl, fun _ _ => rfl, ?_⟩
    intro r l id
    split_ifs
    · cases (S.get r l).elements.lookup id with
      | none => rfl
      | some y => simp [markFaces_id hb]
    · rfl

/-- The record of element `a` after the edges `done` have been split. -/
def splitElt (part : ℕ → ℕ) (done : List (ℕ × ℕ)) (a : ℕ) (e : Elt) : Elt :=
  { e with btype := e.btype.mapIdx fun k b =>
      if k < 3 ∧ ∃ nb, e.nbr[k]? = some nb ∧ pairKey a nb ∈ done ∧ part a ≠ part nb then distributed b else b }

theorem splitElt_nil (part : ℕ → ℕ) (a : ℕ) (e : Elt) : splitElt part [] a e = e := by
  unfold splitElt
  rw [mapIdx_same]
  intro k b
  rw [if_neg]
  rintro ⟨-, nb, -, h, -⟩
  simp at h

theorem pairKey_eq_iff (a b c d : ℕ) : pairKey a b = pairKey c d ↔ (a = c ∧ b = d) ∨ (a = d ∧ b = c) := by
  unfold pairKey
  rw [Prod.mk.injEq]
  omega

theorem pairKey_comm (a b : ℕ) : pairKey a b = pairKey b a := by
  unfold pairKey; rw [min_comm, max_comm]

theorem mapIdx_congr' {α β : Type} {f g : ℕ → α → β} (h : ∀ k x, f k x = g k x) (l : List α) : l.mapIdx f = l.mapIdx g := by
  have : f = g := by funext k x; exact h k x
  rw [this]

/-- An edge that is not a contact of `a` with another partition leaves its record alone. -/
theorem splitElt_skip (part : ℕ → ℕ) (done : List (ℕ × ℕ)) (a : ℕ) (e : Elt) (edg : ℕ × ℕ)
    (h : ∀ nb, pairKey a nb = edg → part a = part nb) :
    splitElt part (done ++ [edg]) a e = splitElt part done a e := by
  unfold splitElt
  congr 1
  apply mapIdx_congr'
  intro k b
  congr 1
  apply propext
  constructor
  · rintro ⟨hk, nb, h1, h2, h3⟩
    rcases List.mem_append.mp h2 with h2 | h2
    · exact ⟨hk, nb, h1, h2, h3⟩
    · rw [List.mem_singleton] at h2
      exact absurd (h nb h2) h3
  · rintro ⟨hk, nb, h1, h2, h3⟩
    exact ⟨hk, nb, h1, List.mem_append_left _ h2, h3⟩

/-- Marking the faces towards `b` adds the edge `{a, b}`. -/
theorem splitElt_mark (part : ℕ → ℕ) (done : List (ℕ × ℕ)) (a b : ℕ) (e : Elt) (hab : a ≠ b) (hp : part a ≠ part b)
    (hnew : pairKey a b ∉ done) :
    splitElt part (done ++ [pairKey a b]) a e = markFaces e.nbr b (splitElt part done a e) := by
  unfold splitElt markFaces
  simp only
  rw [List.mapIdx_mapIdx]
  congr 1
  apply mapIdx_congr'
  intro k x
  simp only [Function.comp]
  by_cases hk : k < 3
  swap
  · simp [hk]
  by_cases hb : e.nbr[k]? = some b
  · rw [if_pos ⟨hk, b, hb, by simp, hp⟩, if_pos ⟨hk, hb⟩, if_neg]
    rintro ⟨-, nb, h1, h2, -⟩
    rw [hb, Option.some.injEq] at h1
    subst h1
    exact hnew h2
  · rw [if_neg (c := k < 3 ∧ e.nbr[k]? = some b) (fun h => hb h.2)]
    congr 1
    apply propext
    constructor
    · rintro ⟨hk, nb, h1, h2, h3⟩
      rcases List.mem_append.mp h2 with h2 | h2
      · exact ⟨hk, nb, h1, h2, h3⟩
      · rw [List.mem_singleton, pairKey_eq_iff] at h2
        rcases h2 with ⟨-, h2⟩ | ⟨h2, -⟩
        · exact absurd (h2 ▸ h1) hb
        · exact absurd h2 hab
    · rintro ⟨hk, nb, h1, h2, h3⟩
      exact ⟨hk, nb, h1, List.mem_append_left _ h2, h3⟩

/-- Submeshes after the edges `done` have been split. -/
structure SplitInv (els : Elts) (part : ℕ → ℕ) (pl : ℕ → ℕ × ℕ) (S0 : Subs N) (done : List (ℕ × ℕ)) (S : Subs N) : Prop where
  nr : S.numRanks = S0.numRanks
  cnt : S.count = S0.count
  nodes : ∀ r l, (S.get r l).nodes = (S0.get r l).nodes
  keys : ∀ r l, (S.get r l).elements.map Prod.fst = (S0.get r l).elements.map Prod.fst
  elts : ∀ r l id, (S.get r l).elements.lookup id = ((S0.get r l).elements.lookup id).map (splitElt part done id)

theorem splitEdge_inv {e2p : List (ℕ × ℕ)} {rr : RR} {els : Elts} {part : ℕ → ℕ} {pl : ℕ → ℕ × ℕ} {S0 S : Subs N}
    {done : List (ℕ × ℕ)} (hi : SplitInv els part pl S0 done S) (a b : ℕ) (hnew : pairKey a b ∉ done)
    (he2p : ∀ x ∈ els, e2p.lookup x.1 = some (part x.1)) (hp : ∀ x ∈ els, place e2p rr x.1 = .ok (pl x.1))
    (hnd : (els.map Prod.fst).Nodup) (h3 : ∀ x ∈ els, 3 ≤ x.2.nbr.length)
    (hr : ∀ x ∈ els, S0.has (pl x.1).1 (pl x.1).2)
    (h0 : ∀ r l id, (S0.get r l).elements.lookup id = if pl id = (r, l) then els.lookup id else none)
    (ha : (els.lookup a).isSome) (hb : (els.lookup b).isSome) :
    ∃ S', splitEdge e2p rr els S (a, b) = .ok S' ∧ SplitInv els part pl S0 (done ++ [pairKey a b]) S' := by
  obtain ⟨ea, hea⟩ := Option.isSome_iff_exists.mp ha
  obtain ⟨eb, heb⟩ := Option.isSome_iff_exists.mp hb
  have hma := mem_of_lookup hea
  have hmb := mem_of_lookup heb
  unfold splitEdge
  simp only [atKey, he2p _ hma, he2p _ hmb, ok_bind]
  by_cases hpp : part a = part b
  · rw [if_neg (by simpa using hpp)]
    refine ⟨S, rfl, hi.nr, hi.cnt, hi.nodes, hi.keys, ?_⟩
    intro r l id
    rw [hi.elts]
    cases (S0.get r l).elements.lookup id with
    | none => rfl
    | some y =>
      simp only [Option.map_some]
      rw [splitElt_skip]
      intro nb h
      rcases (pairKey_eq_iff _ _ _ _).mp h with ⟨rfl, rfl⟩ | ⟨rfl, rfl⟩
      · exact hpp
      · exact hpp.symm
  · rw [if_pos (by simpa using hpp)]
    have hab : a ≠ b := fun h => hpp (by rw [h])
    have hasS : ∀ x ∈ els, S.has (pl x.1).1 (pl x.1).2 := by
      intro x hx; unfold Subs.has; rw [hi.nr, hi.cnt]; exact hr x hx
    have inS : ∀ x ∈ els, ((S.get (pl x.1).1 (pl x.1).2).elements.lookup x.1).isSome := by
      rintro ⟨i, y⟩ hx
      rw [hi.elts, h0, if_pos rfl, lookup_of_mem hnd hx]; rfl
    obtain ⟨S1, hs1, n1, c1, nd1, k1, e1⟩ := markSide_spec (b := b) (hp _ hma) hea (h3 _ hma) (hasS _ hma) (inS _ hma)
    have has1 : S1.has (pl b).1 (pl b).2 := by
      unfold Subs.has; rw [n1, c1]; exact hasS _ hmb
    have in1 : ((S1.get (pl b).1 (pl b).2).elements.lookup b).isSome := by
      rw [e1, if_neg (fun h => hab h.2.symm)]; exact inS _ hmb
    obtain ⟨S2, hs2, n2, c2, nd2, k2, e2⟩ := markSide_spec (b := a) (hp _ hmb) heb (h3 _ hmb) has1 in1
    refine ⟨S2, by rw [hs1, ok_bind, hs2], n2.trans (n1.trans hi.nr), c2.trans (c1.trans hi.cnt),
      fun r l => (nd2 r l).trans ((nd1 r l).trans (hi.nodes r l)), fun r l => (k2 r l).trans ((k1 r l).trans (hi.keys r l)), ?_⟩
    intro r l id
    rw [e2, e1, hi.elts]
    by_cases hida : id = a
    · subst hida
      rw [if_neg (fun h => hab h.2)]
      by_cases hrl : (r, l) = pl id
      · rw [if_pos ⟨hrl, rfl⟩, h0, if_pos hrl.symm, hea]
        simp only [Option.map_some]
        rw [splitElt_mark _ _ _ _ _ hab hpp hnew]
      · rw [if_neg (fun h => hrl h.1), h0, if_neg (fun h => hrl h.symm)]; rfl
    · by_cases hidb : id = b
      · subst hidb
        by_cases hrl : (r, l) = pl id
        · rw [if_pos ⟨hrl, rfl⟩, if_neg (fun h => hida h.2), h0, if_pos hrl.symm, heb]
          simp only [Option.map_some]
          rw [pairKey_comm, splitElt_mark _ _ _ _ _ (Ne.symm hab) (fun h => hpp h.symm) (by rwa [pairKey_comm])]
        · rw [if_neg (fun h => hrl h.1), if_neg (fun h => hida h.2), h0, if_neg (fun h => hrl h.symm)]; rfl
      · rw [if_neg (fun h => hidb h.2), if_neg (fun h => hida h.2)]
        cases (S0.get r l).elements.lookup id with
        | none => rfl
        | some y =>
          simp only [Option.map_some]
          rw [splitElt_skip]
          intro nb h
          rcases (pairKey_eq_iff _ _ _ _).mp h with ⟨rfl, rfl⟩ | ⟨rfl, rfl⟩
          · exact absurd rfl hida
          · exact absurd rfl hidb

theorem split_inv {e2p : List (ℕ × ℕ)} {rr : RR} {els : Elts} {part : ℕ → ℕ} {pl : ℕ → ℕ × ℕ} {S0 : Subs N}
    (edges : List (ℕ × ℕ)) (hend : edges.Nodup) (hkey : ∀ x ∈ edges, x = pairKey x.1 x.2)
    (hmem : ∀ x ∈ edges, (els.lookup x.1).isSome ∧ (els.lookup x.2).isSome)
    (he2p : ∀ x ∈ els, e2p.lookup x.1 = some (part x.1)) (hp : ∀ x ∈ els, place e2p rr x.1 = .ok (pl x.1))
    (hnd : (els.map Prod.fst).Nodup) (h3 : ∀ x ∈ els, 3 ≤ x.2.nbr.length)
    (hr : ∀ x ∈ els, S0.has (pl x.1).1 (pl x.1).2)
    (h0 : ∀ r l id, (S0.get r l).elements.lookup id = if pl id = (r, l) then els.lookup id else none) :
    ∃ S, edges.foldlM (splitEdge e2p rr els) S0 = .ok S ∧ SplitInv els part pl S0 edges S := by
  have gen : ∀ (rest done : List (ℕ × ℕ)) (S : Subs N), (done ++ rest).Nodup → (∀ x ∈ rest, x ∈ edges) →
      SplitInv els part pl S0 done S →
      ∃ S', rest.foldlM (splitEdge e2p rr els) S = .ok S' ∧ SplitInv els part pl S0 (done ++ rest) S' := by
    intro rest
    induction rest with
    | nil => intro done S _ _ hi; exact ⟨S, rfl, by simpa using hi⟩
    | cons x rest ih =>
      intro done S hn hsub hi
      have hxm := hsub x (by simp)
      have hx : x ∉ done := by
        rw [List.nodup_append] at hn
        intro h
        exact hn.2.2 _ h _ (by simp) rfl
      have hk := hkey x hxm
      obtain ⟨S1, h1, hi1⟩ := splitEdge_inv (e2p := e2p) (rr := rr) hi x.1 x.2 (by rw [← hk]; exact hx) he2p hp hnd h3 hr h0
        (hmem x hxm).1 (hmem x hxm).2
      rw [← hk] at hi1
      obtain ⟨S', h2, hi2⟩ := ih (done ++ [x]) S1 (by simpa using hn) (fun y hy => hsub y (by simp [hy])) hi1
      refine ⟨S', ?_, by simpa using hi2⟩
      rw [List.foldlM_cons]
      have h1' : splitEdge e2p rr els S x = .ok S1 := h1
      rw [h1', ok_bind, h2]
  obtain ⟨S, h1, h2⟩ := gen edges [] S0 (by simpa using hend) (fun _ h => h)
    ⟨rfl, rfl, fun _ _ => rfl, fun _ _ => rfl, by
      intro r l id
      cases (S0.get r l).elements.lookup id with
      | none => rfl
      | some y => rw [Option.map_some, splitElt_nil]⟩
  exact ⟨S, h1, by simpa using h2⟩

theorem mem_edgeKeys {els : Elts} {x : ℕ × ℕ} :
    x ∈ edgeKeys els ↔ ∃ y ∈ els, ∃ nb ∈ y.2.nbr, nb ≠ DEFAULT_ID ∧ pairKey y.1 nb = x := by
  unfold edgeKeys eltEdges
  rw [List.mem_dedup, List.mem_flatMap]
  simp only [List.mem_map, List.mem_filter, decide_eq_true_eq]
  constructor
  · rintro ⟨y, hy, nb, ⟨h1, h2⟩, h3⟩; exact ⟨y, hy, nb, h1, h2, h3⟩
  · rintro ⟨y, hy, nb, h1, h2, h3⟩; exact ⟨y, hy, nb, ⟨h1, h2⟩, h3⟩

end

end Verif.Partition
