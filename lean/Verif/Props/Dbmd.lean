import Verif.Props.Partition
import Verif.Props.Text

/-!
# Distributed interface files (C22)
-/

namespace Verif.Partition.Props
open Verif Verif.MeshMeta Verif.Util Verif.Text Verif.Partition

/-- `submeshes[r][l].elements`. -/
def getSub (subs : List (List Elts)) (r l : ℕ) : Option Elts := (subs[r]?).bind (·[l]?)

/-- The submeshes of a partitioned mesh (what C20 and C21 establish, in terms of the nested vectors). -/
structure Parts (els : Elts) (subs : List (List Elts)) (sub : ℕ → ℕ × ℕ) : Prop where
  keys : (els.map Prod.fst).Nodup
  mem : ∀ x ∈ els, ∃ s, getSub subs (sub x.1).1 (sub x.1).2 = some s ∧ ∃ e', (x.1, e') ∈ s
  only : ∀ r l s, getSub subs r l = some s → ∀ y ∈ s, sub y.1 = (r, l) ∧ ∃ e, (y.1, e) ∈ els ∧ y.2.nbr = e.nbr ∧
    y.2.btype.length = e.btype.length ∧
    ∀ k nb b : ℕ, e.nbr[k]? = some nb → e.btype[k]? = some b →
      y.2.btype[k]? = some (if (128 ≤ b ∧ b < 192) ∧ (r, l) ≠ sub nb then b + 64 else b)

/-- A face of the mesh between elements of different submeshes: face `k` of element `a` (record `e`) has the internal type
and the neighbour `nb`, which is in another submesh. -/
def CutFace (els : Elts) (sub : ℕ → ℕ × ℕ) (a k nb : ℕ) : Prop :=
  ∃ e b, (a, e) ∈ els ∧ e.nbr[k]? = some nb ∧ e.btype[k]? = some b ∧ 128 ≤ b ∧ b < 192 ∧ sub a ≠ sub nb

/-- Contacts are mutual, and two elements meet in at most one face. -/
structure Simple (els : Elts) : Prop where
  both : ∀ x ∈ els, ∀ nb ∈ x.2.nbr, nb ≠ DEFAULT_ID → ∃ y ∈ els, y.1 = nb ∧ x.1 ∈ y.2.nbr
  once : ∀ x ∈ els, ∀ (j k nb : ℕ), nb ≠ DEFAULT_ID → x.2.nbr[j]? = some nb → x.2.nbr[k]? = some nb → j = k

theorem isInternal_eq (b : ℕ) : isInternal b = true ↔ 128 ≤ b ∧ b < 192 := by
  unfold isInternal
  rw [Bool.and_eq_true, decide_eq_true_iff, decide_eq_true_iff]
  exact Iff.rfl

theorem mem_internalFaces {els : Elts} {f : ℕ × ℕ} :
    f ∈ internalFaces els ↔ ∃ x ∈ els, ∃ k nb b : ℕ, x.2.nbr[k]? = some nb ∧ x.2.btype[k]? = some b ∧
      128 ≤ b ∧ b < 192 ∧ f = pairKey x.1 nb := by
  unfold internalFaces
  rw [List.mem_flatMap]
  constructor
  · rintro ⟨x, hx, hf⟩
    rw [List.mem_map] at hf
    obtain ⟨y, hy, rfl⟩ := hf
    rw [List.mem_filter] at hy
    obtain ⟨hy1, hy2⟩ := hy
    obtain ⟨k, hk⟩ := List.mem_iff_getElem?.mp hy1
    rw [List.getElem?_zip_eq_some] at hk
    have := (isInternal_eq _).mp hy2
    exact ⟨x, hx, k, y.1, y.2, hk.1, hk.2, this.1, this.2, rfl⟩
  · rintro ⟨x, hx, k, nb, b, h1, h2, h3, h4, rfl⟩
    refine ⟨x, hx, List.mem_map.mpr ⟨(nb, b), List.mem_filter.mpr ⟨?_, (isInternal_eq b).mpr ⟨h3, h4⟩⟩, rfl⟩⟩
    exact List.mem_iff_getElem?.mpr ⟨k, List.getElem?_zip_eq_some.mpr ⟨h1, h2⟩⟩

theorem mem_rows {subs : List (List Elts)} {row s} (h1 : row ∈ subs) (h2 : s ∈ row) : ∃ r l, getSub subs r l = some s := by
  obtain ⟨r, hr⟩ := List.mem_iff_getElem?.mp h1
  obtain ⟨l, hl⟩ := List.mem_iff_getElem?.mp h2
  exact ⟨r, l, by simp [getSub, hr, hl]⟩

theorem rows_mem {subs : List (List Elts)} {r l : ℕ} {s} (h : getSub subs r l = some s) : ∃ row ∈ subs, s ∈ row := by
  unfold getSub at h
  rw [Option.bind_eq_some_iff] at h
  obtain ⟨row, h1, h2⟩ := h
  exact ⟨row, List.mem_of_getElem? h1, List.mem_of_getElem? h2⟩

theorem mem_cutFaces {els : Elts} {subs : List (List Elts)} {f : ℕ × ℕ} :
    f ∈ cutFaces els subs ↔ f ∈ internalFaces els ∧ ∀ r l s, getSub subs r l = some s → f ∉ internalFaces s := by
  unfold cutFaces
  rw [List.mem_filter, List.mem_dedup]
  apply and_congr_right
  intro _
  simp only [Bool.not_eq_true', List.any_eq_false]
  constructor
  · intro h r l s hs
    obtain ⟨row, h1, h2⟩ := rows_mem hs
    have := h row h1
    rw [List.any_eq_true] at this
    exact fun hf => this ⟨s, h2, by simpa using hf⟩
  · intro h row h1 h2
    rw [List.any_eq_true] at h2
    obtain ⟨s, hs, hf⟩ := h2
    obtain ⟨r, l, hrl⟩ := mem_rows h1 hs
    exact h r l s hrl (by simpa using hf)

/-- The faces left over are exactly the cut faces. -/
theorem cutFaces_iff {els : Elts} {subs : List (List Elts)} {sub : ℕ → ℕ × ℕ} (hc : Consistent els) (hp : Parts els subs sub)
    (f : ℕ × ℕ) : f ∈ cutFaces els subs ↔ ∃ a k nb, CutFace els sub a k nb ∧ f = pairKey a nb := by
  rw [mem_cutFaces, mem_internalFaces]
  constructor
  · rintro ⟨⟨⟨a, e⟩, hx, k, nb, b, h1, h2, h3, h4, rfl⟩, h⟩
    refine ⟨a, k, nb, ⟨e, b, hx, h1, h2, h3, h4, fun hs => ?_⟩, rfl⟩
    obtain ⟨s, hs1, e', he'⟩ := hp.mem _ hx
    obtain ⟨-, e2, he2, hn, -, hb⟩ := hp.only _ _ s hs1 _ he'
    have : e2 = e := by
      have q1 := lookup_of_mem hp.keys he2
      rw [lookup_of_mem hp.keys hx, Option.some.injEq] at q1
      exact q1.symm
    subst this
    have hb := hb k nb b h1 h2
    rw [if_neg (by rintro ⟨-, q⟩; exact q hs)] at hb
    exact h _ _ s hs1 (mem_internalFaces.mpr ⟨_, he', k, nb, b, hn ▸ h1, hb, h3, h4, rfl⟩)
  · rintro ⟨a, k, nb, ⟨e, b, hx, h1, h2, h3, h4, hs⟩, rfl⟩
    refine ⟨⟨_, hx, k, nb, b, h1, h2, h3, h4, rfl⟩, ?_⟩
    intro r l s hrl hf
    obtain ⟨⟨i, y⟩, hy, k', nb', b', g1, g2, g3, g4, g5⟩ := mem_internalFaces.mp hf
    obtain ⟨hsub, e2, he2, hn, hlen, hb⟩ := hp.only r l s hrl _ hy
    simp only at hsub hn hlen hb g1 g2 g5
    -- the original type of this face
    have hk' : k' < e2.btype.length := by
      rw [← hlen]; exact (List.getElem?_eq_some_iff.mp g2).1
    have q2 : e2.btype[k']? = some e2.btype[k'] := List.getElem?_eq_getElem hk'
    have q1 : e2.nbr[k']? = some nb' := by rw [← hn]; exact g1
    have q3 := hb k' nb' _ q1 q2
    rw [g2, Option.some.injEq] at q3
    have hsame : sub i = sub nb' := by
      by_contra hne
      rw [hsub] at hne
      rcases hc.typed _ he2 k' nb' _ q1 q2 with ⟨-, h5⟩ | ⟨-, h5⟩
      · rw [if_pos ⟨h5, hne⟩] at q3; omega
      · rw [if_neg (by omega)] at q3; omega
    rcases (pairKey_eq_iff _ _ _ _).mp g5 with ⟨rfl, rfl⟩ | ⟨rfl, rfl⟩
    · exact hs hsame
    · exact hs hsame.symm

/-! ### Ranks -/

theorem lookup_foldl_insertNew (L : List (ℕ × ℕ)) (m : List (ℕ × ℕ)) (k : ℕ) :
    (L.foldl (fun m x => insertNew m x.1 x.2) m).lookup k = ((m.lookup k).or (L.lookup k)) := by
  induction L generalizing m with
  | nil => simp
  | cons x L ih =>
    rw [List.foldl_cons, ih, lookup_insertNew, List.lookup]
    by_cases h : k = x.1
    · subst h
      cases hm : m.lookup x.1 <;> simp
    · have hb : (k == x.1) = false := by simpa using h
      simp [hb, h]

theorem lookup_const {L : List (ℕ × ℕ)} {k v : ℕ} (hmem : (k, v) ∈ L) (hall : ∀ x ∈ L, x.1 = k → x.2 = v) :
    L.lookup k = some v := by
  have hs : (L.lookup k).isSome := (mem_keys_iff L k).mp (List.mem_map.mpr ⟨_, hmem, rfl⟩)
  obtain ⟨w, hw⟩ := Option.isSome_iff_exists.mp hs
  rw [hw]; exact congrArg some (hall _ (mem_of_lookup hw) rfl)

theorem rankOf_lookup {els : Elts} {subs : List (List Elts)} {sub : ℕ → ℕ × ℕ} (hp : Parts els subs sub) {x : ℕ × Elt}
    (hx : x ∈ els) : (rankOf subs).lookup x.1 = some ((sub x.1).1 + subs.length * (sub x.1).2) := by
  unfold rankOf
  rw [lookup_foldl_insertNew]
  simp only [List.lookup_nil, Option.none_or]
  apply lookup_const
  · obtain ⟨s, hs, e', he'⟩ := hp.mem x hx
    unfold getSub at hs
    rw [Option.bind_eq_some_iff] at hs
    obtain ⟨row, h1, h2⟩ := hs
    rw [List.mem_flatMap]
    refine ⟨(row, (sub x.1).1), List.mem_zipIdx_iff_getElem?.mpr h1, ?_⟩
    rw [List.mem_flatMap]
    refine ⟨(s, (sub x.1).2), List.mem_zipIdx_iff_getElem?.mpr h2, ?_⟩
    exact List.mem_map.mpr ⟨_, he', rfl⟩
  · intro y hy hk
    rw [List.mem_flatMap] at hy
    obtain ⟨⟨row, r⟩, h1, hy⟩ := hy
    rw [List.mem_flatMap] at hy
    obtain ⟨⟨s, l⟩, h2, hy⟩ := hy
    obtain ⟨z, hz, rfl⟩ := List.mem_map.mp hy
    have hg : getSub subs r l = some s := by
      have h1' := List.mem_zipIdx_iff_getElem?.mp h1
      have h2' := List.mem_zipIdx_iff_getElem?.mp h2
      simp only at h1' h2'
      simp [getSub, h1', h2']
    have := (hp.only r l s hg z hz).1
    simp only at hk ⊢
    rw [hk] at this
    rw [this]

/-! ### The shared faces -/

/-- The rank number of a submesh. -/
def rk (n : ℕ) (A : ℕ × ℕ) : ℕ := A.1 + n * A.2

theorem rk_decode {n : ℕ} {A : ℕ × ℕ} (h : A.1 < n) : (rk n A % n, rk n A / n) = A := by
  unfold rk
  rw [Nat.add_mul_mod_self_left, Nat.mod_eq_of_lt h, Nat.add_mul_div_left _ _ (by omega), Nat.div_eq_of_lt h, Nat.zero_add]

theorem rk_inj {n : ℕ} {A B : ℕ × ℕ} (hA : A.1 < n) (hB : B.1 < n) (h : rk n A = rk n B) : A = B := by
  rw [← rk_decode hA, ← rk_decode hB, h]

/-- The entry of a cut face `{a, b}`, `a ≤ b`. -/
def entry (els : Elts) (n : ℕ) (sub : ℕ → ℕ × ℕ) (p : ℕ) (f : ℕ × ℕ) : (ℕ × ℕ) × DBPair :=
  let fA := lastFace ((els.lookup f.1).getD ⟨[], [], []⟩).nbr f.2
  let fB := lastFace ((els.lookup f.2).getD ⟨[], [], []⟩).nbr f.1
  (pairKey (rk n (sub f.1)) (rk n (sub f.2)),
   if rk n (sub f.1) > rk n (sub f.2) then ⟨f.2, f.1, fB, fA, p⟩ else ⟨f.1, f.2, fA, fB, p⟩)

theorem lookup_upsert' {β : Type} (m : List ((ℕ × ℕ) × β)) (k : ℕ × ℕ) (v : β) (k' : ℕ × ℕ) :
    (upsert m k v).lookup k' = if k' = k then some v else m.lookup k' := by
  unfold upsert
  split_ifs with h1 h2 h2
  · subst h2
    induction m with
    | nil => simp at h1
    | cons a m ih =>
      rw [List.map_cons]
      by_cases hk : a.1 = k'
      · subst hk; simp
      · have hb : (k' == a.1) = false := beq_eq_false_iff_ne.mpr (Ne.symm hk)
        rw [List.lookup] at h1
        simp only [hb] at h1
        rw [if_neg (by simpa using hk), List.lookup]
        simp only [hb]
        exact ih h1
  · clear h1
    induction m with
    | nil => rfl
    | cons a m ih =>
      rw [List.map_cons]
      by_cases hk : a.1 = k
      · rw [if_pos (by simpa using hk)]
        have hb : (k' == a.1) = false := by rw [hk]; exact beq_eq_false_iff_ne.mpr h2
        simp only [List.lookup, hb]
        exact ih
      · rw [if_neg (by simpa using hk)]
        simp only [List.lookup]
        cases k' == a.1 with
        | true => rfl
        | false => exact ih
  · subst h2
    rw [List.lookup_append]
    have : m.lookup k' = none := Option.not_isSome_iff_eq_none.mp h1
    simp [this]
  · rw [List.lookup_append]
    have hb : (k' == k) = false := beq_eq_false_iff_ne.mpr h2
    simp [List.lookup, hb]

theorem mem_keys_iff' {β : Type} (l : List ((ℕ × ℕ) × β)) (k : ℕ × ℕ) : k ∈ l.map Prod.fst ↔ (l.lookup k).isSome := by
  induction l with
  | nil => simp
  | cons a l ih =>
    rw [List.map_cons, List.mem_cons, ih, List.lookup]
    by_cases h : k = a.1
    · subst h; simp
    · have hb : (k == a.1) = false := beq_eq_false_iff_ne.mpr h
      simp [hb, h]

theorem mem_lookup' {β : Type} {l : List ((ℕ × ℕ) × β)} (hn : (l.map Prod.fst).Nodup) {k : ℕ × ℕ} {x : β} :
    (k, x) ∈ l ↔ l.lookup k = some x := by
  induction l with
  | nil => simp
  | cons a l ih =>
    rw [List.map_cons, List.nodup_cons] at hn
    rw [List.mem_cons, List.lookup]
    by_cases h : k = a.1
    · subst h
      simp only [beq_self_eq_true]
      constructor
      · rintro (h | h)
        · rw [← h]
        · exact absurd (List.mem_map.mpr ⟨_, h, rfl⟩) hn.1
      · intro h
        left
        rw [Option.some.injEq] at h
        rw [← h]
    · have hb : (k == a.1) = false := beq_eq_false_iff_ne.mpr h
      simp only [hb]
      rw [← ih hn.2]
      constructor
      · rintro (h' | h')
        · exact absurd (by rw [← h']) h
        · exact h'
      · exact Or.inr

theorem keys_upsert {β : Type} {m : List ((ℕ × ℕ) × β)} (h : (m.map Prod.fst).Nodup) (k : ℕ × ℕ) (v : β) :
    ((upsert m k v).map Prod.fst).Nodup := by
  unfold upsert
  split_ifs with hk
  · have : (m.map fun x => if x.1 == k then (x.1, v) else x).map Prod.fst = m.map Prod.fst := by
      rw [List.map_map]
      apply List.map_congr_left
      intro x _
      simp only [Function.comp]
      split_ifs <;> rfl
    rw [this]; exact h
  · rw [List.map_append, List.nodup_append]
    refine ⟨h, by simp, ?_⟩
    intro a ha b hb
    simp only [List.map_cons, List.map_nil, List.mem_singleton] at hb
    subst hb
    rintro rfl
    rw [mem_keys_iff'] at ha
    exact hk ha

/-- The faces whose entry has the key `k`, in order. -/
def underKey (els : Elts) (n : ℕ) (sub : ℕ → ℕ × ℕ) (p : ℕ) (order : List (ℕ × ℕ)) (k : ℕ × ℕ) : List DBPair :=
  (order.filter fun f => (entry els n sub p f).1 = k).map fun f => (entry els n sub p f).2

theorem sharedFaces_spec {els : Elts} {subs : List (List Elts)} {sub : ℕ → ℕ × ℕ} (hp : Parts els subs sub) (p : ℕ)
    (order : List (ℕ × ℕ)) (ho : ∀ f ∈ order, (els.lookup f.1).isSome ∧ (els.lookup f.2).isSome) :
    ∃ m, sharedFaces els subs p order = .ok m ∧ (m.map Prod.fst).Nodup ∧
      ∀ k, m.lookup k = if underKey els subs.length sub p order k = [] then none
        else some (underKey els subs.length sub p order k) := by
  unfold sharedFaces
  induction order using List.reverseRecOn with
  | nil => exact ⟨[], rfl, by simp, fun k => rfl⟩
  | append_singleton order f ih =>
    obtain ⟨m, h1, h2, h3⟩ := ih (fun f hf => ho f (by simp [hf]))
    obtain ⟨ha, hb⟩ := ho f (by simp)
    obtain ⟨eA, hA⟩ := Option.isSome_iff_exists.mp ha
    obtain ⟨eB, hB⟩ := Option.isSome_iff_exists.mp hb
    have rA := rankOf_lookup hp (mem_of_lookup hA)
    have rB := rankOf_lookup hp (mem_of_lookup hB)
    have hent : addFace els (rankOf subs) p m f = .ok (upsert m (entry els subs.length sub p f).1
        ((m.lookup (entry els subs.length sub p f).1).getD [] ++ [(entry els subs.length sub p f).2])) := by
      unfold addFace
      simp only at rA rB
      simp only [atKey, rA, rB, hA, hB, ok_bind]
      simp only [entry, hA, hB, Option.getD_some, rk]
      rfl
    refine ⟨_, by rw [List.foldlM_append, h1, ok_bind, List.foldlM_cons, hent, ok_bind]; rfl, keys_upsert h2 _ _, ?_⟩
    intro k
    rw [lookup_upsert', h3, h3]
    have hu : underKey els subs.length sub p (order ++ [f]) k = if k = (entry els subs.length sub p f).1 then
        underKey els subs.length sub p order k ++ [(entry els subs.length sub p f).2]
        else underKey els subs.length sub p order k := by
      unfold underKey
      rw [List.filter_append, List.map_append]
      by_cases h : k = (entry els subs.length sub p f).1
      · rw [if_pos h, List.filter_cons_of_pos (by simp [h])]
        rfl
      · rw [if_neg h, List.filter_cons_of_neg (by simpa using fun h' => h h'.symm)]
        simp
    rw [hu]
    by_cases h : k = (entry els subs.length sub p f).1
    · rw [if_pos h, if_pos h, ← h]
      have hne : ∀ (l : List DBPair) x, (if l ++ [x] = [] then (none : Option (List DBPair)) else some (l ++ [x])) = some (l ++ [x]) :=
        fun l x => if_neg (by simp)
      rw [hne]
      by_cases h4 : underKey els subs.length sub p order k = []
      · rw [if_pos h4, h4]; rfl
      · rw [if_neg h4]; rfl
    · rw [if_neg h, if_neg h]

/-! ### The files -/

theorem lastFace_aux (nbr : List ℕ) (nb : ℕ) (o r : ℕ) :
    (∃ k, nbr[k]? = some nb ∧ (nbr.zipIdx o).foldl (fun r x => if nb = x.1 then x.2 else r) r = o + k) ∨
    (nb ∉ nbr ∧ (nbr.zipIdx o).foldl (fun r x => if nb = x.1 then x.2 else r) r = r) := by
  induction nbr generalizing o r with
  | nil => right; simp
  | cons y nbr ih =>
    rw [List.zipIdx_cons, List.foldl_cons]
    rcases ih (o + 1) (if nb = y then o else r) with ⟨k, h1, h2⟩ | ⟨h1, h2⟩
    · left; exact ⟨k + 1, h1, by rw [h2]; omega⟩
    · rw [h2]
      by_cases h : nb = y
      · left; exact ⟨0, by simp [h], by simp [h]⟩
      · right; exact ⟨by simp [h, h1], by simp [h]⟩

theorem lastFace_mem {nbr : List ℕ} {nb : ℕ} (h : nb ∈ nbr) : nbr[lastFace nbr nb]? = some nb := by
  rcases lastFace_aux nbr nb 0 DEFAULT_ID with ⟨k, h1, h2⟩ | ⟨h1, -⟩
  · unfold lastFace
    rw [h2, Nat.zero_add]
    exact h1
  · exact absurd h h1

theorem elt_unique {els : Elts} (h : (els.map Prod.fst).Nodup) {a : ℕ} {e e' : Elt} (h1 : (a, e) ∈ els) (h2 : (a, e') ∈ els) :
    e = e' := by
  have q := lookup_of_mem h h1
  rw [lookup_of_mem h h2, Option.some.injEq] at q
  exact q.symm

theorem cut_unique {els : Elts} {sub : ℕ → ℕ × ℕ} (hc : Consistent els) {a k nb nb' : ℕ} (h : CutFace els sub a k nb)
    (h' : CutFace els sub a k nb') : nb = nb' := by
  obtain ⟨e, b, h1, h2, -⟩ := h
  obtain ⟨e', b', h1', h2', -⟩ := h'
  rw [elt_unique hc.keys h1 h1', h2', Option.some.injEq] at h2
  exact h2.symm

theorem cut_face_unique {els : Elts} {sub : ℕ → ℕ × ℕ} (hc : Consistent els) (hs : Simple els) {a k k' nb : ℕ}
    (h : CutFace els sub a k nb) (h' : CutFace els sub a k' nb) : k = k' := by
  obtain ⟨e, b, h1, h2, h3, h4, h5, -⟩ := h
  obtain ⟨e', b', h1', h2', -⟩ := h'
  obtain rfl := elt_unique hc.keys h1 h1'
  rcases hc.typed _ h1 k nb b h2 h3 with ⟨h6, -⟩ | ⟨-, h6⟩
  · exact hs.once _ h1 k k' nb h6 h2 h2'
  · omega

/-- The other side of a cut face; the face numbers are those the writer finds. -/
theorem cut_sides {els : Elts} {sub : ℕ → ℕ × ℕ} (hc : Consistent els) (hs : Simple els) {a k nb : ℕ}
    (h : CutFace els sub a k nb) :
    ∃ eA eB, els.lookup a = some eA ∧ els.lookup nb = some eB ∧ lastFace eA.nbr nb = k ∧
      CutFace els sub nb (lastFace eB.nbr a) a := by
  have h0 := h
  obtain ⟨e, b, h1, h2, h3, h4, h5, h6⟩ := h
  rcases hc.typed _ h1 k nb b h2 h3 with ⟨hd, -⟩ | ⟨-, h7⟩
  swap
  · omega
  have hmem : nb ∈ e.nbr := List.mem_of_getElem? h2
  obtain ⟨⟨i, y⟩, hy, rfl, hm⟩ := hs.both _ h1 nb hmem hd
  have hl := lastFace_mem hm
  have hk := lastFace_mem hmem
  refine ⟨e, y, lookup_of_mem hc.keys h1, lookup_of_mem hc.keys hy, hs.once _ h1 _ k i hd hk h2, ?_⟩
  have hlt : lastFace y.nbr a < y.btype.length := by
    rw [hc.bt3 _ hy, ← hc.nbr3 _ hy]; exact (List.getElem?_eq_some_iff.mp hl).1
  rcases hc.typed _ hy _ a _ hl (List.getElem?_eq_getElem hlt) with ⟨-, g1, g2⟩ | ⟨g1, -⟩
  · exact ⟨y, _, hy, hl, List.getElem?_eq_getElem hlt, g1, g2, fun q => h6 q.symm⟩
  · exact absurd g1 (hc.ids _ h1)

/-- An entry of a cut face names both sides. -/
theorem entry_spec {els : Elts} {sub : ℕ → ℕ × ℕ} {n p : ℕ} (hc : Consistent els) (hs : Simple els)
    (hn : ∀ x ∈ els, (sub x.1).1 < n) {a k nb : ℕ} (h : CutFace els sub a k nb) :
    let x := entry els n sub p (pairKey a nb)
    CutFace els sub x.2.elA x.2.bdA x.2.elB ∧ CutFace els sub x.2.elB x.2.bdB x.2.elA ∧ x.2.p = p ∧
    x.1 = (rk n (sub x.2.elA), rk n (sub x.2.elB)) ∧ x.1.1 < x.1.2 ∧
    ((x.2.elA = a ∧ x.2.bdA = k ∧ x.2.elB = nb) ∨ (x.2.elB = a ∧ x.2.bdB = k ∧ x.2.elA = nb)) := by
  obtain ⟨eA, eB, hA, hB, hk, hcut⟩ := cut_sides hc hs h
  have hsub : sub a ≠ sub nb := by obtain ⟨_, _, _, _, _, _, _, h⟩ := h; exact h
  have hrk : rk n (sub a) ≠ rk n (sub nb) := fun q =>
    hsub (rk_inj (hn _ (mem_of_lookup hA)) (hn _ (mem_of_lookup hB)) q)
  subst hk
  rcases Nat.lt_trichotomy a nb with hlt | heq | hgt
  · have e1 : pairKey a nb = (a, nb) := by unfold pairKey; rw [min_eq_left hlt.le, max_eq_right hlt.le]
    simp only [e1, entry, hA, hB, Option.getD_some]
    by_cases hr : rk n (sub a) > rk n (sub nb)
    · simp only [if_pos hr, pairKey, min_eq_right hr.le, max_eq_left hr.le]
      exact ⟨hcut, h, trivial, trivial, hr, Or.inr ⟨trivial, trivial, trivial⟩⟩
    · have hr' : rk n (sub a) < rk n (sub nb) := by omega
      simp only [if_neg hr, pairKey, min_eq_left hr'.le, max_eq_right hr'.le]
      exact ⟨h, hcut, trivial, trivial, hr', Or.inl ⟨trivial, trivial, trivial⟩⟩
  · exact absurd (by rw [heq]) hsub
  · have e1 : pairKey a nb = (nb, a) := by unfold pairKey; rw [min_eq_right hgt.le, max_eq_left hgt.le]
    simp only [e1, entry, hA, hB, Option.getD_some]
    by_cases hr : rk n (sub nb) > rk n (sub a)
    · simp only [if_pos hr, pairKey, min_eq_right hr.le, max_eq_left hr.le]
      exact ⟨h, hcut, trivial, trivial, hr, Or.inl ⟨trivial, trivial, trivial⟩⟩
    · have hr' : rk n (sub nb) < rk n (sub a) := by omega
      simp only [if_neg hr, pairKey, min_eq_left hr'.le, max_eq_right hr'.le]
      exact ⟨hcut, h, trivial, trivial, hr', Or.inr ⟨trivial, trivial, trivial⟩⟩

theorem countP_one {α : Type} {l : List α} {P : α → Bool} (hn : l.Nodup) {x : α} (hx : x ∈ l) (hP : P x = true)
    (hu : ∀ y ∈ l, P y = true → y = x) : l.countP P = 1 := by
  induction l with
  | nil => simp at hx
  | cons a l ih =>
    rw [List.nodup_cons] at hn
    rw [List.countP_cons]
    rcases List.mem_cons.mp hx with rfl | hx'
    · have : l.countP P = 0 := by
        rw [List.countP_eq_zero]
        intro y hy hPy
        exact hn.1 (hu y (by simp [hy]) hPy ▸ hy)
      simp [this, hP]
    · have : P a = false := by
        by_contra h
        rw [Bool.not_eq_false] at h
        have := hu a (by simp) h
        exact hn.1 (this ▸ hx')
      simp [this, ih hn.2 hx' (fun y hy => hu y (by simp [hy]))]

theorem countP_blocks {l : List Block} {P : DBPair → Bool} (hn : l.Nodup) {b0 : Block} (h0 : b0 ∈ l) (h1 : b0.pairs.countP P = 1)
    (hz : ∀ b ∈ l, b ≠ b0 → ∀ x ∈ b.pairs, P x = false) : (l.flatMap (·.pairs)).countP P = 1 := by
  induction l with
  | nil => simp at h0
  | cons a l ih =>
    rw [List.nodup_cons] at hn
    rw [List.flatMap_cons, List.countP_append]
    rcases List.mem_cons.mp h0 with rfl | h'
    · have : (l.flatMap (·.pairs)).countP P = 0 := by
        rw [List.countP_eq_zero]
        intro x hx
        obtain ⟨b, hb, hxb⟩ := List.mem_flatMap.mp hx
        rw [hz b (by simp [hb]) (fun q => hn.1 (q ▸ hb)) x hxb]
        simp
      rw [this, h1]
    · have : a.pairs.countP P = 0 := by
        rw [List.countP_eq_zero]
        intro x hx
        rw [hz a (by simp) (fun q => hn.1 (q ▸ h')) x hx]
        simp
      rw [this, ih hn.2 h' (fun b hb => hz b (by simp [hb]))]

theorem mem_fileOf {n loc sb : ℕ} {shared : List ((ℕ × ℕ) × List DBPair)} {b : Block} :
    b ∈ fileOf n loc sb shared ↔ ∃ sf ∈ shared, b = ⟨(sf.1.1 % n, sf.1.1 / n), (sf.1.2 % n, sf.1.2 / n), sf.2⟩ ∧
      ((loc, sb) = b.A ∨ (loc, sb) = b.B) := by
  unfold fileOf
  rw [List.mem_filterMap]
  apply exists_congr
  intro sf
  apply and_congr_right
  intro _
  simp only
  constructor
  · intro h
    split_ifs at h with hc
    rw [Option.some.injEq] at h
    subst h
    refine ⟨rfl, ?_⟩
    rcases hc with ⟨rfl, rfl⟩ | ⟨rfl, rfl⟩
    · exact Or.inl rfl
    · exact Or.inr rfl
  · rintro ⟨rfl, h⟩
    rw [if_pos]
    rcases h with h | h
    · simp only [Prod.mk.injEq] at h; exact Or.inl ⟨h.1.symm, h.2.symm⟩
    · simp only [Prod.mk.injEq] at h; exact Or.inr ⟨h.1.symm, h.2.symm⟩

/-- **C22** For every consistent mesh in which contacts are mutual and two elements meet in at most one face, every split
into submeshes, and whatever the orders of the hash set `faces` and the hash map `shared_faces`: writing the distributed
interface files does not fail, and
* a block in the file of a submesh joins it to a different submesh, and is also, identically, in the file of the other;
* a file has at most one block for each pair of submeshes;
* each entry names a cut face from both sides: element and face number in submesh A, and in submesh B;
* each face of an element towards another submesh has exactly one entry in the file of the element's submesh. -/
theorem dbmd_files {els : Elts} {subs : List (List Elts)} {sub : ℕ → ℕ × ℕ} (hc : Consistent els) (hs : Simple els)
    (hp : Parts els subs sub) (p : ℕ) (order : List (ℕ × ℕ)) (ho : order.Perm (cutFaces els subs)) :
    ∃ m, sharedFaces els subs p order = .ok m ∧ ∀ shared : List ((ℕ × ℕ) × List DBPair), shared.Perm m →
      let file : ℕ × ℕ → List Block := fun A => fileOf subs.length A.1 A.2 shared
      (∀ A, ∀ b ∈ file A, b.A ≠ b.B ∧ (A = b.A ∨ A = b.B) ∧ b ∈ file b.A ∧ b ∈ file b.B) ∧
      (∀ A, (file A).Pairwise fun b b' => s(b.A, b.B) ≠ s(b'.A, b'.B)) ∧
      (∀ A, ∀ b ∈ file A, ∀ x ∈ b.pairs, x.p = p ∧ sub x.elA = b.A ∧ sub x.elB = b.B ∧
        CutFace els sub x.elA x.bdA x.elB ∧ CutFace els sub x.elB x.bdB x.elA) ∧
      (∀ a k nb, CutFace els sub a k nb →
        ((file (sub a)).flatMap (·.pairs)).countP
          (fun x => decide (x.elA = a ∧ x.bdA = k ∨ x.elB = a ∧ x.bdB = k)) = 1) := by
  have hn : ∀ x ∈ els, (sub x.1).1 < subs.length := by
    intro x hx
    obtain ⟨s, h, -⟩ := hp.mem x hx
    unfold getSub at h
    rw [Option.bind_eq_some_iff] at h
    obtain ⟨row, h1, -⟩ := h
    exact (List.getElem?_eq_some_iff.mp h1).1
  have hcut : ∀ f, f ∈ order ↔ ∃ a k nb, CutFace els sub a k nb ∧ f = pairKey a nb := fun f => by
    rw [ho.mem_iff]; exact cutFaces_iff hc hp f
  have hond : order.Nodup := ho.nodup_iff.mpr ((List.nodup_dedup _).filter _)
  obtain ⟨m, hm, hnd, hlook⟩ := sharedFaces_spec hp p order (by
    intro f hf
    obtain ⟨a, k, nb, h, rfl⟩ := (hcut f).mp hf
    obtain ⟨eA, eB, hA, hB, -⟩ := cut_sides hc hs h
    unfold pairKey
    rcases le_total a nb with h' | h'
    · rw [min_eq_left h', max_eq_right h', hA, hB]; exact ⟨rfl, rfl⟩
    · rw [min_eq_right h', max_eq_left h', hA, hB]; exact ⟨rfl, rfl⟩)
  refine ⟨m, hm, ?_⟩
  intro shared hsh file
  -- the entries of `shared`
  have hmem : ∀ sf, sf ∈ shared ↔ (underKey els subs.length sub p order sf.1 ≠ [] ∧
      sf.2 = underKey els subs.length sub p order sf.1) := by
    rintro ⟨k, l⟩
    rw [hsh.mem_iff, mem_lookup' hnd, hlook]
    simp only
    split_ifs with h
    · simp [h]
    · rw [Option.some.injEq]
      exact ⟨fun q => ⟨h, q.symm⟩, fun q => q.2.symm⟩
  have hunder : ∀ key x, x ∈ underKey els subs.length sub p order key ↔
      ∃ a k nb, CutFace els sub a k nb ∧ (key, x) = entry els subs.length sub p (pairKey a nb) := by
    intro key x
    unfold underKey
    rw [List.mem_map]
    constructor
    · rintro ⟨f, hf, rfl⟩
      rw [List.mem_filter, decide_eq_true_iff] at hf
      obtain ⟨hf1, hf2⟩ := hf
      obtain ⟨a, k, nb, h, rfl⟩ := (hcut f).mp hf1
      exact ⟨a, k, nb, h, by rw [← hf2]⟩
    · rintro ⟨a, k, nb, h, he⟩
      exact ⟨pairKey a nb, List.mem_filter.mpr ⟨(hcut _).mpr ⟨a, k, nb, h, rfl⟩, by rw [← he]; simp⟩, by rw [← he]⟩
  -- keys are increasing pairs of rank numbers
  have hkey : ∀ sf ∈ shared, ∃ a k nb, CutFace els sub a k nb ∧ sf.1 = (rk subs.length (sub a), rk subs.length (sub nb)) ∧
      sf.1.1 < sf.1.2 ∧ (sub a).1 < subs.length ∧ (sub nb).1 < subs.length := by
    intro sf hsf
    obtain ⟨h1, -⟩ := (hmem sf).mp hsf
    obtain ⟨x, hx⟩ := List.exists_mem_of_ne_nil _ h1
    obtain ⟨a, k, nb, h, he⟩ := (hunder _ x).mp hx
    have := entry_spec (p := p) hc hs hn h
    simp only [← he] at this
    obtain ⟨c1, c2, -, c4, c5, -⟩ := this
    have c1' := c1
    obtain ⟨e, b, q, -⟩ := c1'
    obtain ⟨e', b', q', -⟩ := c2
    exact ⟨x.elA, x.bdA, x.elB, c1, c4, c5, hn _ q, hn _ q'⟩
  have hAB : ∀ sf ∈ shared, (sf.1.1 % subs.length, sf.1.1 / subs.length) ≠ (sf.1.2 % subs.length, sf.1.2 / subs.length) := by
    intro sf hsf
    obtain ⟨a, k, nb, h, h1, h2, h3, h4⟩ := hkey sf hsf
    rw [h1]
    simp only
    rw [rk_decode h3, rk_decode h4]
    obtain ⟨_, _, _, _, _, _, _, h⟩ := h
    exact h
  have hpair : ∀ A, (file A).Pairwise fun b b' => s(b.A, b.B) ≠ s(b'.A, b'.B) := by
    intro A
    simp only [file, fileOf]
    rw [List.pairwise_filterMap]
    have hnd' : (shared.map Prod.fst).Nodup := (hsh.map Prod.fst).nodup_iff.mpr hnd
    have hpw : shared.Pairwise fun a b => a.1 ≠ b.1 := List.pairwise_map.mp hnd'
    refine hpw.imp_of_mem ?_
    intro sf sf' hsf hsf' hne b hb b' hb'
    split_ifs at hb hb' with c1 c2
    rw [Option.some.injEq] at hb hb'
    subst hb; subst hb'
    intro q
    simp only [Sym2.eq_iff] at q
    obtain ⟨-, -, -, -, h1, h2, -, -⟩ := hkey sf hsf
    obtain ⟨-, -, -, -, h1', h2', -, -⟩ := hkey sf' hsf'
    have dm : ∀ u v : ℕ, (u % subs.length, u / subs.length) = (v % subs.length, v / subs.length) → u = v := by
      intro u v huv
      rw [Prod.mk.injEq] at huv
      rw [← Nat.mod_add_div u subs.length, ← Nat.mod_add_div v subs.length, huv.1, huv.2]
    rcases q with ⟨q1, q2⟩ | ⟨q1, q2⟩
    · exact hne (Prod.ext (dm _ _ q1) (dm _ _ q2))
    · have := dm _ _ q1
      have := dm _ _ q2
      omega
  have hentry : ∀ A, ∀ b ∈ file A, ∀ x ∈ b.pairs, x.p = p ∧ sub x.elA = b.A ∧ sub x.elB = b.B ∧
        CutFace els sub x.elA x.bdA x.elB ∧ CutFace els sub x.elB x.bdB x.elA := by
    intro A b hb x hx
    obtain ⟨sf, hsf, rfl, -⟩ := mem_fileOf.mp hb
    simp only at hx ⊢
    obtain ⟨-, h2⟩ := (hmem sf).mp hsf
    rw [h2] at hx
    obtain ⟨a, k, nb, h, he⟩ := (hunder _ x).mp hx
    have := entry_spec (p := p) hc hs hn h
    simp only [← he] at this
    obtain ⟨c1, c2, c3, c4, c5, -⟩ := this
    rw [c4]
    simp only
    have c1' := c1
    have c2' := c2
    obtain ⟨e, b, q, -⟩ := c1'
    obtain ⟨e', b', q', -⟩ := c2'
    rw [rk_decode (hn _ q), rk_decode (hn _ q')]
    exact ⟨c3, rfl, rfl, c1, c2⟩
  refine ⟨?_, hpair, hentry, ?_⟩
  · intro A b hb
    obtain ⟨sf, hsf, rfl, hA⟩ := mem_fileOf.mp hb
    exact ⟨hAB sf hsf, hA, mem_fileOf.mpr ⟨sf, hsf, rfl, Or.inl rfl⟩, mem_fileOf.mpr ⟨sf, hsf, rfl, Or.inr rfl⟩⟩
  · intro a k nb h
    have hes := entry_spec (p := p) hc hs hn h
    set x0 := entry els subs.length sub p (pairKey a nb) with hx0
    simp only at hes
    obtain ⟨c1, c2, c3, c4, c5, c6⟩ := hes
    have hx0mem : x0.2 ∈ underKey els subs.length sub p order x0.1 := (hunder _ _).mpr ⟨a, k, nb, h, rfl⟩
    have hsf : (x0.1, underKey els subs.length sub p order x0.1) ∈ shared :=
      (hmem _).mpr ⟨List.ne_nil_of_mem hx0mem, rfl⟩
    have c1' := c1
    have c2' := c2
    obtain ⟨e, b, q, -⟩ := c1'
    obtain ⟨e', b', q', -⟩ := c2'
    let b0 : Block := ⟨(x0.1.1 % subs.length, x0.1.1 / subs.length), (x0.1.2 % subs.length, x0.1.2 / subs.length),
      underKey els subs.length sub p order x0.1⟩
    have hb0A : b0.A = sub x0.2.elA := by simp only [b0]; rw [c4]; exact rk_decode (hn _ q)
    have hb0B : b0.B = sub x0.2.elB := by simp only [b0]; rw [c4]; exact rk_decode (hn _ q')
    have hb0 : b0 ∈ file (sub a) := by
      refine mem_fileOf.mpr ⟨_, hsf, rfl, ?_⟩
      rcases c6 with ⟨g1, -, -⟩ | ⟨g1, -, -⟩
      · left; rw [← g1]; exact hb0A.symm
      · right; rw [← g1]; exact hb0B.symm
    have hb0s : s(b0.A, b0.B) = s(sub a, sub nb) := by
      rw [hb0A, hb0B]
      rcases c6 with ⟨g1, -, g3⟩ | ⟨g1, -, g3⟩
      · rw [g1, g3]
      · rw [g1, g3, Sym2.eq_swap]
    have hall : ∀ A, ∀ b ∈ file A, ∀ x ∈ b.pairs, (x.elA = a ∧ x.bdA = k ∨ x.elB = a ∧ x.bdB = k) →
        s(x.elA, x.elB) = s(a, nb) ∧ s(b.A, b.B) = s(sub a, sub nb) := by
      intro A b hb x hx hP
      obtain ⟨-, g2, g3, g4, g5⟩ := hentry A b hb x hx
      rcases hP with ⟨rfl, rfl⟩ | ⟨rfl, rfl⟩
      · have := cut_unique hc g4 h
        rw [← g2, ← g3, this]; exact ⟨rfl, rfl⟩
      · have := cut_unique hc g5 h
        rw [← g2, ← g3, this]; exact ⟨Sym2.eq_swap, Sym2.eq_swap⟩
    refine countP_blocks (l := file (sub a)) (b0 := b0) ((hpair _).imp (fun hne q => hne (by rw [q]))) hb0 ?_ ?_
    · -- in the block of this pair of submeshes
      simp only [b0]
      unfold underKey
      rw [List.countP_map]
      refine countP_one (hond.filter _) (x := pairKey a nb) ?_ ?_ ?_
      · rw [List.mem_filter]
        exact ⟨(hcut _).mpr ⟨a, k, nb, h, rfl⟩, by rw [← hx0]; simp⟩
      · simp only [Function.comp, decide_eq_true_eq]
        rw [← hx0]
        rcases c6 with ⟨g1, g2, -⟩ | ⟨g1, g2, -⟩
        · exact Or.inl ⟨g1, g2⟩
        · exact Or.inr ⟨g1, g2⟩
      · intro f hf hP
        simp only [Function.comp, decide_eq_true_eq] at hP
        rw [List.mem_filter, decide_eq_true_iff] at hf
        obtain ⟨hf1, hf2⟩ := hf
        obtain ⟨a', k', nb', h', rfl⟩ := (hcut f).mp hf1
        have hx : (entry els subs.length sub p (pairKey a' nb')).2 ∈ b0.pairs :=
          (hunder _ _).mpr ⟨a', k', nb', h', by rw [← hf2]⟩
        obtain ⟨w, -⟩ := hall _ b0 hb0 _ hx hP
        have := entry_spec (p := p) hc hs hn h'
        obtain ⟨-, -, -, -, -, c6'⟩ := this
        rcases c6' with ⟨g1, -, g3⟩ | ⟨g1, -, g3⟩
        · rw [g1, g3, Sym2.eq_iff] at w
          exact (pairKey_eq_iff _ _ _ _).mpr w
        · rw [g1, g3, Sym2.eq_swap, Sym2.eq_iff] at w
          exact (pairKey_eq_iff _ _ _ _).mpr w
    · intro b hb hne x hx
      rw [decide_eq_false_iff_not]
      intro hP
      obtain ⟨-, w⟩ := hall _ b hb x hx hP
      haveI : Std.Symm (fun b b' : Block => s(b.A, b.B) ≠ s(b'.A, b'.B)) := ⟨fun _ _ h => Ne.symm h⟩
      exact (hpair (sub a)).forall hb hb0 hne (w.trans hb0s.symm)

/-! ### Together with `partition` -/

/-- The nested vectors of element maps, `submeshes[r][l].elements`. -/
def lists {N : Type} (S : Subs N) : List (List Elts) :=
  (List.range S.numRanks).map fun r => (List.range (S.count r)).map fun l => (S.get r l).elements

theorem getSub_lists {N : Type} (S : Subs N) (r l : ℕ) (s : Elts) :
    getSub (lists S) r l = some s ↔ S.has r l ∧ s = (S.get r l).elements := by
  unfold getSub lists Subs.has
  rw [List.getElem?_map]
  by_cases hr : r < S.numRanks
  · rw [List.getElem?_range hr, Option.map_some, Option.bind_some, List.getElem?_map]
    by_cases hl : l < S.count r
    · rw [List.getElem?_range hl, Option.map_some, Option.some.injEq]
      exact ⟨fun h => ⟨⟨hr, hl⟩, h.symm⟩, fun h => h.2.symm⟩
    · rw [List.getElem?_eq_none (by simpa using hl)]
      exact ⟨fun h => by simp at h, fun h => absurd h.1.2 hl⟩
  · rw [List.getElem?_eq_none (by simpa using hr)]
    exact ⟨fun h => by simp at h, fun h => absurd h.1.1 hr⟩

/-- The submeshes made by `partition` have the form assumed in `dbmd_files`. -/
theorem parts_of_partition {N : Type} {els : Elts} {nodes : List (ℕ × N)} {part : ℕ → ℕ} {S : Subs N} {sub : ℕ → ℕ × ℕ}
    (hc : Consistent els) (h1 : SplitInto els nodes part S sub) (h2 : FacesMarked els S sub) : Parts els (lists S) sub := by
  refine ⟨hc.keys, ?_, ?_⟩
  · intro x hx
    exact ⟨_, (getSub_lists S _ _ _).mpr ⟨h1.has x hx, rfl⟩, h1.mem x hx⟩
  · intro r l s hs y hy
    obtain ⟨-, rfl⟩ := (getSub_lists S r l s).mp hs
    obtain ⟨e, he, hsub, -, hn⟩ := h1.only r l y hy
    have := h2 _ he y.2 (by simp only [hsub]; exact hy)
    simp only [hsub] at this
    exact ⟨hsub, e, he, hn, this.1, this.2⟩

/-- C20-C22 together: the files written after partitioning any consistent mesh. -/
theorem partition_then_files {N : Type} {els : Elts} {nodes : List (ℕ × N)} {e2p : List (ℕ × ℕ)} {part : ℕ → ℕ}
    {numParts numNodes rpl : ℕ} {nodeOrder edgeOrder : List (ℕ × ℕ)} (hc : Consistent els) (hs : Simple els)
    (ha : Assigned els e2p part numParts numNodes rpl nodeOrder)
    (hn : ∀ x ∈ els, ∀ i ∈ x.2.nodes, i ∈ nodes.map Prod.fst) (ho : edgeOrder.Perm (edgeKeys els)) (p : ℕ) :
    ∃ S sub, partition els nodes e2p numParts numNodes rpl nodeOrder edgeOrder = .ok S ∧
      ∀ order : List (ℕ × ℕ), order.Perm (cutFaces els (lists S)) → ∃ m, sharedFaces els (lists S) p order = .ok m ∧
        ∀ shared : List ((ℕ × ℕ) × List DBPair), shared.Perm m → ∀ a k nb, CutFace els sub a k nb →
          ((fileOf (lists S).length (sub a).1 (sub a).2 shared).flatMap (·.pairs)).countP
            (fun x => decide (x.elA = a ∧ x.bdA = k ∨ x.elB = a ∧ x.bdB = k)) = 1 := by
  obtain ⟨S, sub, h1, h2, h3⟩ := partition_spec hc ha hn ho
  refine ⟨S, sub, h1, ?_⟩
  intro order hord
  obtain ⟨m, hm, h4⟩ := dbmd_files hc hs (parts_of_partition hc h2 h3) p order hord
  exact ⟨m, hm, fun shared hsh => (h4 shared hsh).2.2.2⟩

/-- Non-vacuity: the row of three triangles. -/
theorem three_simple : Simple three := by
  refine ⟨by decide, ?_⟩
  intro x hx j k nb hd h1 h2
  have h3 : ∀ x ∈ three, x.2.nbr.length = 3 := by decide
  have hj := (List.getElem?_eq_some_iff.mp h1).1
  have hk := (List.getElem?_eq_some_iff.mp h2).1
  rw [h3 x hx] at hj hk
  have : ∀ x ∈ three, ∀ j < 3, ∀ k < 3, ∀ nb ∈ x.2.nbr, nb ≠ DEFAULT_ID → x.2.nbr[j]? = some nb → x.2.nbr[k]? = some nb → j = k := by
    decide
  exact this x hx j hj k hk nb (List.mem_of_getElem? h1) hd h1 h2

def threeSubs : List (List Elts) :=
  [[[(0, ⟨[0, 1, 2], [1, DEFAULT_ID, DEFAULT_ID], [128, 0, 1]⟩), (1, ⟨[3, 2, 1], [0, DEFAULT_ID, 2], [128, 0, 192]⟩)],
    [(2, ⟨[2, 3, 4], [DEFAULT_ID, DEFAULT_ID, 1], [0, 2, 192]⟩)]]]

example : cutFaces three threeSubs = [(1, 2)] ∧
    (match sharedFaces three threeSubs 1 [(1, 2)] with
     | .ok m => decide (fileOf 1 0 0 m = [⟨(0, 0), (0, 1), [⟨1, 2, 2, 2, 1⟩]⟩] ∧ fileOf 1 0 1 m = fileOf 1 0 0 m)
     | .error _ => false) = true := by decide +kernel

/-! ### Two elements meeting twice -/

/-- Two elements that meet in the faces 0 and 1 of each. -/
def twice : Elts :=
  [(0, ⟨[0, 1, 2], [1, 1, DEFAULT_ID], [128, 129, 0]⟩), (1, ⟨[3, 4, 5], [0, 0, DEFAULT_ID], [128, 129, 0]⟩)]

def twiceSubs : List (List Elts) :=
  [[[(0, ⟨[0, 1, 2], [1, 1, DEFAULT_ID], [192, 193, 0]⟩)], [(1, ⟨[3, 4, 5], [0, 0, DEFAULT_ID], [192, 193, 0]⟩)]]]

/-- Finding: faces are identified by the two element ids, so if two elements meet in two faces and are separated, only one
of the two faces gets an entry; face 0 of both elements is missing from the file. (Two triangles can only meet twice
across a levee or in a degenerate mesh.) -/
theorem double_contact_lost : CutFace twice (fun i => (0, i)) 0 0 1 ∧ CutFace twice (fun i => (0, i)) 0 1 1 ∧
    cutFaces twice twiceSubs = [(0, 1)] ∧
    (match sharedFaces twice twiceSubs 1 [(0, 1)] with
     | .ok m => decide (fileOf 1 0 0 m = [⟨(0, 0), (0, 1), [⟨0, 1, 1, 1, 1⟩]⟩])
     | .error _ => false) = true :=
  ⟨⟨⟨[0, 1, 2], [1, 1, DEFAULT_ID], [128, 129, 0]⟩, 128, by decide⟩,
   ⟨⟨[0, 1, 2], [1, 1, DEFAULT_ID], [128, 129, 0]⟩, 129, by decide⟩, by decide +kernel, by decide +kernel⟩

end Verif.Partition.Props
