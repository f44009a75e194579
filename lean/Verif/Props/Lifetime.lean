import Mathlib.Order.Basic
import Verif.Model.Lifetime

/-!
# No reference outlives what it refers to
-/

namespace Verif.Lifetime.Props
open Verif Verif.Lifetime

/-- No cell at an address which has not been used. -/
def Fresh (h : Heap) : Prop := ∀ a, h.next ≤ a → h.cell a = none

theorem live_lt {h : Heap} (hf : Fresh h) {a : Addr} {x : Cell} (ha : h.cell a = some x) : a < h.next := by
  by_contra hn
  rw [hf a (by omega)] at ha
  cases ha

theorem alloc_fresh {h : Heap} (hf : Fresh h) (x : Cell) : Fresh (h.alloc x).1 := by
  intro a ha
  have ha : h.next + 1 ≤ a := ha
  show Function.update h.cell h.next (some x) a = none
  rw [Function.update_of_ne (by omega)]
  exact hf a (by omega)

theorem alloc_new (h : Heap) (x : Cell) : (h.alloc x).1.cell (h.alloc x).2 = some x := Function.update_self ..

theorem alloc_old {h : Heap} (x : Cell) {a : Addr} (ha : a ≠ h.next) : (h.alloc x).1.cell a = h.cell a := Function.update_of_ne ha ..

theorem alloc_live {h : Heap} (hf : Fresh h) (y : Cell) {a : Addr} {x : Cell} (ha : h.cell a = some x) : (h.alloc y).1.cell a = some x := by
  rw [alloc_old y (by have := live_lt hf ha; omega)]
  exact ha

theorem free_fresh {h : Heap} (hf : Fresh h) (b : Addr) : Fresh (h.free b) := by
  intro a ha
  show Function.update h.cell b none a = none
  by_cases hab : a = b
  · rw [hab]; exact Function.update_self ..
  · rw [Function.update_of_ne hab]; exact hf a ha

theorem free_ne {h : Heap} {a b : Addr} (hab : a ≠ b) : (h.free b).cell a = h.cell a := Function.update_of_ne hab ..

theorem read_ok {h : Heap} {a : Addr} {x : Cell} (ha : h.cell a = some x) : h.read a = .ok x := by
  unfold Heap.read
  rw [ha]

theorem forall2_cell {h0 h h' : Heap} {l l' : List ℕ} (h2 : List.Forall₂ (fun a b => h'.cell b = h.cell a) l l')
    (hk : ∀ a ∈ l, h.cell a = h0.cell a) : List.Forall₂ (fun a b => h'.cell b = h0.cell a) l l' := by
  induction h2 with
  | nil => exact .nil
  | cons hab _ ih => exact .cons (by rw [hab, hk _ List.mem_cons_self]) (ih fun b hb => hk b (List.mem_cons_of_mem _ hb))

/-- The move of the contents of a vector. -/
theorem relocate_spec : ∀ (l : List Addr) (h : Heap), Fresh h → l.Nodup → (∀ a ∈ l, ∃ x, h.cell a = some x) →
    ∃ h' l', relocate h l = .ok (h', l') ∧ Fresh h' ∧ h.next ≤ h'.next ∧ List.Forall₂ (fun a b => h'.cell b = h.cell a) l l' ∧ l'.Nodup ∧
      (∀ b ∈ l', h.next ≤ b) ∧ ∀ a, a ∉ l → a < h.next → h'.cell a = h.cell a
  | [], h, hf, _, _ => ⟨h, [], rfl, hf, Nat.le_refl _, .nil, .nil, by simp, fun _ _ _ => rfl⟩
  | a :: l, h, hf, hn, hl => by
    obtain ⟨x, hx⟩ := hl a List.mem_cons_self
    have hlt := live_lt hf hx
    have hal : a ∉ l := (List.nodup_cons.1 hn).1
    have hkeep : ∀ b, b ≠ a → b < h.next → (((h.alloc x).1.free a).cell b) = h.cell b := fun b hb hbl => by
      rw [free_ne hb, alloc_old x (by omega)]
    have hll : ∀ b ∈ l, b < h.next := fun b hb => by
      obtain ⟨y, hy⟩ := hl b (List.mem_cons_of_mem _ hb)
      exact live_lt hf hy
    obtain ⟨h', l', hr, hf', hle, h2, hnd, hge, hk⟩ := relocate_spec l ((h.alloc x).1.free a) (free_fresh (alloc_fresh hf x) a)
      (List.nodup_cons.1 hn).2 fun b hb => by
        obtain ⟨y, hy⟩ := hl b (List.mem_cons_of_mem _ hb)
        exact ⟨y, by rw [hkeep b (fun e => hal (e ▸ hb)) (live_lt hf hy)]; exact hy⟩
    have hle : h.next + 1 ≤ h'.next := hle
    have hge : ∀ b ∈ l', h.next + 1 ≤ b := hge
    refine ⟨h', h.next :: l', ?_, hf', by omega, .cons ?_ ?_, List.nodup_cons.2 ⟨fun hm => absurd (hge _ hm) (by omega), hnd⟩, ?_, ?_⟩
    · rw [relocate, read_ok hx]
      show (relocate ((h.alloc x).1.free a) l >>= fun y => pure (y.1, (h.alloc x).2 :: y.2)) = _
      rw [hr]
      rfl
    · rw [hk h.next (fun hm => absurd (hll _ hm) (by omega)) (show h.next < h.next + 1 by omega), free_ne (by omega), hx]
      exact alloc_new h x
    · exact forall2_cell h2 fun b hb => hkeep b (fun e => hal (e ▸ hb)) (hll b hb)
    · intro b hb
      rcases List.mem_cons.1 hb with rfl | hb
      · exact Nat.le_refl _
      · have := hge b hb; omega
    · intro b hb hbl
      rw [hk b (fun hm => hb (List.mem_cons_of_mem _ hm)) (show b < h.next + 1 by omega)]
      exact hkeep b (fun e => hb (e ▸ List.mem_cons_self)) hbl

/-- A new element of a vector: the others may have moved, everything else stays where it is. -/
theorem emplace_spec (grow : ℕ → ℕ) {h : Heap} (hf : Fresh h) {v : Vec} (hn : v.at'.Nodup) (hl : ∀ a ∈ v.at', ∃ x, h.cell a = some x) (x : Cell) :
    ∃ h' v' l' a', emplaceBack grow h v x = .ok (h', v') ∧ Fresh h' ∧ v'.at' = l' ++ [a'] ∧
      List.Forall₂ (fun a b => h'.cell b = h.cell a) v.at' l' ∧ h'.cell a' = some x ∧ v'.at'.Nodup ∧
      ∀ a y, a ∉ v.at' → h.cell a = some y → h'.cell a = some y := by
  have hll : ∀ b ∈ v.at', b < h.next := fun b hb => by
    obtain ⟨y, hy⟩ := hl b hb
    exact live_lt hf hy
  unfold emplaceBack
  by_cases hc : v.at'.length < v.cap
  · rw [if_pos hc]
    refine ⟨_, _, v.at', h.next, rfl, alloc_fresh hf x, rfl, ?_, alloc_new h x, ?_, fun a y _ hy => alloc_live hf x hy⟩
    · exact List.forall₂_same.2 fun b hb => alloc_old x (by have := hll b hb; omega)
    · exact List.nodup_append.2 ⟨hn, by simp, fun a ha b hb => by
        rw [List.mem_singleton.1 hb]; have := hll a ha; exact Nat.ne_of_lt this⟩
  · rw [if_neg hc]
    obtain ⟨h', l', hr, hf', hle, h2, hnd, hge, hk⟩ := relocate_spec v.at' (h.alloc x).1 (alloc_fresh hf x) hn fun b hb => by
      obtain ⟨y, hy⟩ := hl b hb
      exact ⟨y, alloc_live hf x hy⟩
    have hge : ∀ b ∈ l', h.next + 1 ≤ b := hge
    refine ⟨h', ⟨grow v.cap, l' ++ [h.next]⟩, l', h.next, ?_, hf', rfl, ?_, ?_, ?_, ?_⟩
    · rw [hr]
      rfl
    · exact forall2_cell h2 fun b hb => alloc_old x (by have := hll b hb; omega)
    · rw [hk h.next (fun hm => absurd (hll _ hm) (by omega)) (show h.next < h.next + 1 by omega)]
      exact alloc_new h x
    · exact List.nodup_append.2 ⟨hnd, by simp, fun a ha b hb => by
        rw [List.mem_singleton.1 hb]; have := hge a ha; omega⟩
    · intro a y ha hy
      have := live_lt hf hy
      rw [hk a ha (show a < h.next + 1 by omega)]
      exact alloc_live hf x hy

/-- What has been asked for so far: elements, those with raw boundaries, faces of each type (elements, rank boundary), sizes of buffers, types with edges,
requests. -/
structure Asked where
  ids : List ℕ
  ready : List ℕ
  faces : ℕ → List (List ℕ × Option ℕ)
  sizes : List (List ℕ)
  edged : List ℕ
  registered : Bool

/-- A face refers to the data of its elements, to the master and to its rank boundary. -/
def IsFace (s : St) (c : ℕ) (a : Addr) (f : List ℕ × Option ℕ) : Prop :=
  ∃ ds ms buf, s.h.cell a = some (.face c f.1 ds ms buf) ∧ List.Forall₂ (fun i d => (i, d) ∈ s.elts) f.1 ds ∧ (∀ m ∈ ms, m = s.masters) ∧
    (f.2 = none → buf = none) ∧ ∀ r, f.2 = some r → ∃ b, s.ranks[r]? = some b ∧ buf = some b

/-- The unit holds what has been asked for, and all references are good. -/
structure Holds (s : St) (A : Asked) : Prop where
  fresh : Fresh s.h
  master : s.h.cell s.masters = some .masters
  ids : s.elts.map Prod.fst = A.ids
  distinct : A.ids.Nodup
  elts : ∀ x ∈ s.elts, s.h.cell x.2 = some (.elt x.1 s.masters)
  raws : ∀ r ∈ s.raws, (r.id, r.data) ∈ s.elts ∧ r.master = s.masters
  ready : ∀ id ∈ A.ready, ∀ b < 3, ∃ r, findRaw s.raws (id, b) = .ok r
  nranks : s.ranks.length = A.sizes.length
  ranks : ∀ r a sz, s.ranks[r]? = some a → A.sizes[r]? = some sz →
    ∃ bs, s.h.cell a = some (.rank r bs) ∧ List.Forall₂ (fun b n => s.h.cell b = some (.block r n)) bs sz
  faces : ∀ c, List.Forall₂ (IsFace s c) (s.faces c).at' (A.faces c)
  nodup : ∀ c, (s.faces c).at'.Nodup
  edges : ∀ c ∈ A.edged, List.Forall₂ (fun e a => s.h.cell e = some (.edge c a)) (s.edges c).at' (s.faces c).at'
  noEdges : ∀ c, c ∉ A.edged → (s.edges c).at' = []
  requests : A.registered = true → s.requests.map s.h.cell = A.sizes.zipIdx.flatMap fun x => x.1.map fun n => some (.block x.2 n)

theorem forall2_left {α β : Type} {R : α → β → Prop} {l : List α} {m : List β} (h : List.Forall₂ R l m) : ∀ a ∈ l, ∃ b ∈ m, R a b := by
  induction h with
  | nil => simp
  | cons hab _ ih =>
    intro x hx
    rcases List.mem_cons.1 hx with rfl | hx
    · exact ⟨_, List.mem_cons_self, hab⟩
    · obtain ⟨b, hb, hr⟩ := ih x hx
      exact ⟨b, List.mem_cons_of_mem _ hb, hr⟩

theorem face_live {s : St} {A : Asked} (H : Holds s A) {c : ℕ} {a : Addr} (ha : a ∈ (s.faces c).at') :
    ∃ i d m b, s.h.cell a = some (.face c i d m b) := by
  obtain ⟨f, _, ds, ms, buf, h, _⟩ := forall2_left (H.faces c) a ha
  exact ⟨_, _, _, _, h⟩

theorem face_mono {s s' : St} {c : ℕ} {a : Addr} {f : List ℕ × Option ℕ} (h : IsFace s c a f)
    (hk : ∀ i d m b, s.h.cell a = some (.face c i d m b) → s'.h.cell a = some (.face c i d m b)) (he : ∀ x ∈ s.elts, x ∈ s'.elts)
    (hm : s'.masters = s.masters) (hr : s'.ranks = s.ranks) : IsFace s' c a f := by
  obtain ⟨ds, ms, buf, h1, h2, h3, h4, h5⟩ := h
  exact ⟨ds, ms, buf, hk _ _ _ _ h1, h2.imp fun i d => he (i, d), by rw [hm]; exact h3, h4, by rw [hr]; exact h5⟩

/-- Elements do not move when others are made, and their pointer to the master stays good. -/
theorem element_step {s : St} {A : Asked} (H : Holds s A) (hq : A.registered = false) (id : ℕ) :
    Holds (createElement s id) { A with ids := if id ∈ A.ids then A.ids else A.ids ++ [id] } := by
  have hany : s.elts.any (·.1 = id) = true ↔ id ∈ A.ids := by
    rw [← H.ids, List.any_eq_true, List.mem_map]
    simp
  have hA1 := alloc_fresh H.fresh (.elt id s.masters)
  have hgen : ∀ (h' : Heap) (l : List (ℕ × Addr)) (ids : List ℕ), Fresh h' → (∀ a x, s.h.cell a = some x → h'.cell a = some x) →
      (∀ x ∈ s.elts, x ∈ l) → l.map Prod.fst = ids → ids.Nodup → (∀ x ∈ l, h'.cell x.2 = some (.elt x.1 s.masters)) →
      Holds { s with h := h', elts := l } { A with ids := ids } := by
    intro h' l ids hf hk hs hi hd he
    refine ⟨hf, hk _ _ H.master, hi, hd, he, fun r hr => ⟨hs _ (H.raws r hr).1, (H.raws r hr).2⟩, H.ready, H.nranks, ?_, ?_, H.nodup, ?_, H.noEdges,
      fun h => by rw [hq] at h; cases h⟩
    · intro r a sz ha hz
      obtain ⟨bs, h1, h2⟩ := H.ranks r a sz ha hz
      exact ⟨bs, hk _ _ h1, h2.imp fun b n hb => hk _ _ hb⟩
    · intro c
      refine (H.faces c).imp fun a f h => ?_
      exact face_mono (s := s) h (fun i d m b => hk a (.face c i d m b)) hs rfl rfl
    · exact fun c hc => (H.edges c hc).imp fun e a h => hk _ _ h
  have hk1 : ∀ a x, s.h.cell a = some x → ((s.h.alloc (.elt id s.masters)).1.free s.h.next).cell a = some x := fun a x ha => by
    rw [free_ne (by have := live_lt H.fresh ha; omega)]
    exact alloc_live H.fresh _ ha
  by_cases hc : s.elts.any (·.1 = id) = true
  · have : createElement s id = { s with h := (s.h.alloc (.elt id s.masters)).1.free s.h.next } := by
      delta createElement
      show (if s.elts.any (·.1 = id) = true then _ else _) = _
      rw [if_pos hc]
      rfl
    rw [this, if_pos (hany.1 hc)]
    exact hgen _ _ _ (free_fresh hA1 _) hk1 (fun _ h => h) H.ids H.distinct fun x hx => hk1 _ _ (H.elts x hx)
  · set h1 := (s.h.alloc (.elt id s.masters)).1 with hh1
    have : createElement s id =
        { s with h := (h1.alloc (.elt id s.masters)).1.free s.h.next, elts := s.elts ++ [(id, s.h.next + 1)] } := by
      delta createElement
      show (if s.elts.any (·.1 = id) = true then _ else _) = _
      rw [if_neg hc]
      rfl
    have hk2 : ∀ a x, s.h.cell a = some x → ((h1.alloc (.elt id s.masters)).1.free s.h.next).cell a = some x := fun a x ha => by
      rw [free_ne (by have := live_lt H.fresh ha; omega)]
      exact alloc_live hA1 _ (alloc_live H.fresh _ ha)
    rw [this, if_neg fun h => hc (hany.2 h)]
    refine hgen _ _ _ (free_fresh (alloc_fresh hA1 _) _) hk2 (fun x hx => List.mem_append_left _ hx) (by rw [List.map_append, H.ids]; rfl) ?_ ?_
    · exact List.nodup_append.2 ⟨H.distinct, by simp, fun a ha b hb => by
        rw [List.mem_singleton.1 hb]; rintro rfl; exact hc (hany.2 ha)⟩
    · intro x hx
      rcases List.mem_append.1 hx with hx | hx
      · exact hk2 _ _ (H.elts x hx)
      · rw [List.mem_singleton.1 hx]
        show ((h1.alloc (.elt id s.masters)).1.free s.h.next).cell (s.h.next + 1) = _
        rw [free_ne (by omega)]
        exact alloc_new h1 _


theorem mapM_map {α β : Type} {f : α → Res β} {g : α → β} : ∀ {l : List α}, (∀ x ∈ l, f x = .ok (g x)) → l.mapM f = .ok (l.map g)
  | [], _ => rfl
  | x :: l, h => by
    rw [List.mapM_cons, h x List.mem_cons_self, mapM_map fun y hy => h y (List.mem_cons_of_mem _ hy)]
    rfl

theorem mapM_or {α β : Type} {f : α → Res β} (hf : ∀ x, f x = .error .exc ∨ ∃ y, f x = .ok y) : ∀ l : List α,
    (l.mapM f = .error .exc ∧ ∃ x ∈ l, f x = .error .exc) ∨ ∃ ys, l.mapM f = .ok ys ∧ List.Forall₂ (fun x y => f x = .ok y) l ys
  | [] => .inr ⟨[], rfl, .nil⟩
  | x :: l => by
    rw [List.mapM_cons]
    rcases hf x with h | ⟨y, h⟩
    · exact .inl ⟨by rw [h]; rfl, x, List.mem_cons_self, h⟩
    rcases mapM_or hf l with ⟨h2, z, hz, h3⟩ | ⟨ys, h2, h3⟩
    · exact .inl ⟨by rw [h, h2]; rfl, z, List.mem_cons_of_mem _ hz, h3⟩
    · exact .inr ⟨y :: ys, by rw [h, h2]; rfl, .cons h h3⟩

theorem raws_of {s : St} {A : Asked} (H : Holds s A) {x : ℕ × ℕ} (hx : x ∈ s.elts) :
    rawsOf s.h x = .ok ((List.range 3).map fun b => ⟨x.1, b, x.2, s.masters⟩) := by
  unfold rawsOf
  rw [read_ok (H.elts x hx)]
  show (s.h.read s.masters >>= _) = _
  rw [read_ok H.master]
  rfl

theorem find_raw (raws : List Raw) (k : ℕ × ℕ) :
    findRaw raws k = .error .exc ∨ ∃ r, findRaw raws k = .ok r ∧ r ∈ raws ∧ r.id = k.1 := by
  unfold findRaw
  cases h : raws.find? fun r => r.id = k.1 && r.b = k.2 with
  | none => exact .inl rfl
  | some r =>
    refine .inr ⟨r, rfl, List.mem_of_find?_eq_some h, ?_⟩
    have := List.find?_some h
    simp only [Bool.and_eq_true, decide_eq_true_eq] at this
    exact this.1

theorem find_ok {raws : List Raw} {k : ℕ × ℕ} {r : Raw} (hr : r ∈ raws) (h : r.id = k.1 ∧ r.b = k.2) : ∃ r', findRaw raws k = .ok r' := by
  unfold findRaw
  cases hf : raws.find? fun r => r.id = k.1 && r.b = k.2 with
  | none => exact absurd (List.find?_eq_none.1 hf r hr) (by simp [h.1, h.2])
  | some r' => exact ⟨r', rfl⟩

/-- Raw boundaries refer to elements in the map and to the master of the mesh. -/
theorem raws_step (grow : ℕ → ℕ) (n : ℕ) {s : St} {A : Asked} (H : Holds s A) :
    ∃ s', step grow n s .rawBoundaries = .ok s' ∧ Holds s' { A with ready := A.ids } := by
  refine ⟨{ s with raws := (s.elts.map fun x => (List.range 3).map fun b => (⟨x.1, b, x.2, s.masters⟩ : Raw)).flatten }, ?_, ?_⟩
  · show (s.elts.mapM (rawsOf s.h) >>= _) = _
    rw [mapM_map fun x hx => raws_of H hx]
    rfl
  refine ⟨H.fresh, H.master, H.ids, H.distinct, H.elts, ?_, ?_, H.nranks, H.ranks, fun c => ?_, H.nodup, H.edges, H.noEdges, H.requests⟩
  · intro r hr
    obtain ⟨l, hl, hr⟩ := List.mem_flatten.1 hr
    obtain ⟨x, hx, rfl⟩ := List.mem_map.1 hl
    obtain ⟨b, _, rfl⟩ := List.mem_map.1 hr
    exact ⟨hx, rfl⟩
  · intro id hid b hb
    have hid : id ∈ A.ids := hid
    rw [← H.ids] at hid
    obtain ⟨x, hx, rfl⟩ := List.mem_map.1 hid
    exact find_ok (List.mem_flatten.2 ⟨_, List.mem_map.2 ⟨x, hx, rfl⟩, List.mem_map.2 ⟨b, List.mem_range.2 hb, rfl⟩⟩) ⟨rfl, rfl⟩
  · exact (H.faces c).imp fun a f h => face_mono h (fun _ _ _ _ h => h) (fun _ h => h) rfl rfl

/-- The constructor of a face finds everything it reads. -/
theorem new_face {s : St} {A : Asked} (H : Holds s A) (c : ℕ) (keys : List (ℕ × ℕ)) (buf : Option ℕ) :
    (newFace s c keys buf = .error .exc ∧ ∃ k ∈ keys, findRaw s.raws k = .error .exc) ∨
    ∃ ds ms, newFace s c keys buf = .ok (.face c (keys.map Prod.fst) ds ms buf) ∧
      List.Forall₂ (fun i d => (i, d) ∈ s.elts) (keys.map Prod.fst) ds ∧ ∀ m ∈ ms, m = s.masters := by
  unfold newFace
  rcases mapM_or (f := findRaw s.raws) (fun k => (find_raw s.raws k).imp id fun ⟨r, h, _⟩ => ⟨r, h⟩) keys with ⟨h, hk⟩ | ⟨rs, h, h2⟩
  · exact .inl ⟨by rw [h]; rfl, hk⟩
  replace h2 : List.Forall₂ (fun k r => r ∈ s.raws ∧ r.id = k.1) keys rs := h2.imp fun k r hk => by
    rcases find_raw s.raws k with h | ⟨r', h, h'⟩
    · rw [h] at hk; cases hk
    · rw [h] at hk; cases hk; exact h'
  have hrs : ∀ r ∈ rs, r ∈ s.raws := fun r hr => by
    obtain ⟨k, _, h⟩ := forall2_left h2.flip r hr
    exact h.1
  have hids : rs.map Raw.id = keys.map Prod.fst := by
    clear h hrs
    induction h2 with
    | nil => rfl
    | cons h _ ih => rw [List.map_cons, List.map_cons, ih, h.2]
  refine .inr ⟨rs.map Raw.data, rs.map Raw.master, ?_, ?_, ?_⟩
  · rw [h]
    show (rs.mapM (fun r => s.h.read r.data) >>= fun _ => rs.mapM (fun r => s.h.read r.master) >>= fun _ => _) = _
    rw [mapM_map (g := fun r => .elt r.id s.masters) fun r hr => read_ok (H.elts _ (H.raws r (hrs r hr)).1),
      mapM_map (g := fun _ => .masters) fun r hr => read_ok (by rw [(H.raws r (hrs r hr)).2]; exact H.master), ← hids]
    rfl
  · rw [← hids]
    clear h2 h hids
    induction rs with
    | nil => exact .nil
    | cons r rs ih => exact .cons (H.raws r (hrs r List.mem_cons_self)).1 (ih fun r' hr' => hrs r' (List.mem_cons_of_mem _ hr'))
  · intro m hm
    obtain ⟨r, hr, rfl⟩ := List.mem_map.1 hm
    exact (H.raws r (hrs r hr)).2

theorem not_in {s : St} {A : Asked} (H : Holds s A) {c : ℕ} {a : ℕ} {x : Cell} (ha : s.h.cell a = some x) (hx : ∀ i d m b, x ≠ .face c i d m b) :
    a ∉ (s.faces c).at' := fun hm => by
  obtain ⟨i, d, m, b, h⟩ := face_live H hm
  rw [ha] at h
  cases h
  exact hx i d m b rfl

theorem forall2_live {s : St} {A : Asked} (H : Holds s A) (c : ℕ) : ∀ a ∈ (s.faces c).at', ∃ x, s.h.cell a = some x := fun a ha => by
  obtain ⟨i, d, m, b, h⟩ := face_live H ha
  exact ⟨_, h⟩

theorem forall2_moved {R : ℕ → List ℕ × Option ℕ → Prop} {Q : ℕ → List ℕ × Option ℕ → Prop} {S : ℕ → ℕ → Prop} {l l' : List ℕ} {m : List (List ℕ × Option ℕ)}
    (h : List.Forall₂ R l m) (h2 : List.Forall₂ S l l') (hQ : ∀ a b f, R a f → S a b → Q b f) : List.Forall₂ Q l' m := by
  induction h generalizing l' with
  | nil => cases h2; exact .nil
  | cons hab _ ih =>
    cases h2 with
    | cons h3 h4 => exact .cons (hQ _ _ _ hab h3) (ih h4)

/-- A new face: those of its type may move, and nothing refers to them yet. -/
theorem face_step (grow : ℕ → ℕ) {s : St} {A : Asked} (H : Holds s A) (he : A.edged = []) (hq : A.registered = false) (c : ℕ) (keys : List (ℕ × ℕ))
    {buf : Option ℕ} {ro : Option ℕ} (hn : ro = none → buf = none) (hb : ∀ r, ro = some r → ∃ b, s.ranks[r]? = some b ∧ buf = some b) :
    (createFace grow s c keys buf = .error .exc ∧ ∃ k ∈ keys, findRaw s.raws k = .error .exc) ∨
    ∃ s', createFace grow s c keys buf = .ok s' ∧ Holds s' { A with faces := Function.update A.faces c (A.faces c ++ [(keys.map Prod.fst, ro)]) } := by
  unfold createFace
  rcases new_face H c keys buf with ⟨h, hk⟩ | ⟨ds, ms, h, hds, hms⟩
  · exact .inl ⟨by rw [h]; rfl, hk⟩
  obtain ⟨h', v', l', a', hem, hf, hv, h2, ha', hnd, hkeep⟩ := emplace_spec grow H.fresh (H.nodup c) (forall2_live H c)
    (.face c (keys.map Prod.fst) ds ms buf)
  refine .inr ⟨{ s with h := h', faces := Function.update s.faces c v' }, ?_, ?_⟩
  · rw [h]
    show (emplaceBack grow s.h (s.faces c) (.face c (keys.map Prod.fst) ds ms buf) >>= _) = _
    rw [hem]
    rfl
  have hk : ∀ a x, s.h.cell a = some x → (∀ i d m b, x ≠ .face c i d m b) → h'.cell a = some x := fun a x ha hx => hkeep a x (not_in H ha hx) ha
  refine ⟨hf, hk _ _ H.master (by simp), H.ids, H.distinct, fun x hx => hk _ _ (H.elts x hx) (by simp), H.raws, H.ready, H.nranks, ?_, ?_, ?_, ?_, H.noEdges, ?_⟩
  · intro r a sz ha hz
    obtain ⟨bs, h1, h2⟩ := H.ranks r a sz ha hz
    exact ⟨bs, hk _ _ h1 (by simp), h2.imp fun b n hb => hk _ _ hb (by simp)⟩
  · intro c'
    show List.Forall₂ _ (Function.update s.faces c v' c').at' (Function.update A.faces c (A.faces c ++ [(keys.map Prod.fst, ro)]) c')
    by_cases hc : c' = c
    · subst hc
      rw [Function.update_self, Function.update_self, hv]
      refine List.rel_append ?_ (.cons ⟨ds, ms, buf, ha', hds, hms, hn, hb⟩ .nil)
      refine forall2_moved (H.faces c') h2 fun a b f hR hS => ?_
      obtain ⟨ds, ms, buf, h1, h2, h3, h4, h5⟩ := hR
      exact ⟨ds, ms, buf, hS.trans h1, h2, h3, h4, h5⟩
    · rw [Function.update_of_ne hc, Function.update_of_ne hc]
      refine (H.faces c').imp fun a f h => ?_
      exact face_mono (s := s) h (fun i d m b ha => hk a _ ha (by intros; simp; intro h; exact absurd h hc)) (fun _ h => h) rfl rfl
  · intro c'
    show (Function.update s.faces c v' c').at'.Nodup
    by_cases hc : c' = c
    · subst hc; rw [Function.update_self]; exact hnd
    · rw [Function.update_of_ne hc]; exact H.nodup c'
  · intro c' hc'
    have hc' : c' ∈ A.edged := hc'
    rw [he] at hc'
    cases hc'
  · intro h
    have h : A.registered = true := h
    rw [hq] at h
    cases h

theorem freeAll_fresh : ∀ (l : List ℕ) {h : Heap}, Fresh h → Fresh (freeAll h l)
  | [], _, hf => hf
  | a :: l, h, hf => freeAll_fresh l (h := h.free a) (free_fresh hf a)

theorem freeAll_keeps : ∀ (l : List ℕ) {h : Heap} {a : ℕ}, a ∉ l → (freeAll h l).cell a = h.cell a
  | [], _, _, _ => rfl
  | b :: l, h, a, ha => by
    show (freeAll (h.free b) l).cell a = _
    have hab : a ≠ b := fun e => ha (e ▸ List.mem_cons_self)
    rw [freeAll_keeps l fun hm => ha (List.mem_cons_of_mem _ hm), free_ne hab]

theorem blocks_spec (r : ℕ) : ∀ (sizes : List ℕ) {h : Heap}, Fresh h → Fresh (allocBlocks r h sizes).1 ∧
    (∀ a x, h.cell a = some x → (allocBlocks r h sizes).1.cell a = some x) ∧
    List.Forall₂ (fun b n => (allocBlocks r h sizes).1.cell b = some (.block r n)) (allocBlocks r h sizes).2 sizes
  | [], _, hf => ⟨hf, fun _ _ h => h, .nil⟩
  | n :: l, h, hf => by
    obtain ⟨h1, h2, h3⟩ := blocks_spec r l (h := (h.alloc (.block r n)).1) (alloc_fresh hf _)
    exact ⟨h1, fun a x ha => h2 a x (alloc_live hf _ ha), .cons (h2 _ _ (alloc_new h _)) h3⟩

/-- New storage for the buffers of one rank boundary; no request knows the old one yet. -/
theorem resize_step {s : St} {A : Asked} (H : Holds s A) (hq : A.registered = false) (r : ℕ) (sizes : List ℕ) :
    (resize s r sizes = .error .exc ∧ A.sizes.length ≤ r) ∨ ∃ s', resize s r sizes = .ok s' ∧ Holds s' { A with sizes := A.sizes.set r sizes } := by
  by_cases hr : A.sizes.length ≤ r
  · refine .inl ⟨?_, hr⟩
    unfold resize rankOf
    rw [List.getElem?_eq_none (by rw [H.nranks]; exact hr)]
    rfl
  have hr : r < A.sizes.length := Nat.lt_of_not_le hr
  have hr' : r < s.ranks.length := by rw [H.nranks]; exact hr
  have ha : s.ranks[r]? = some s.ranks[r] := List.getElem?_eq_getElem hr'
  generalize s.ranks[r] = a at ha
  obtain ⟨old, hold, hbl⟩ := H.ranks r a A.sizes[r] ha (List.getElem?_eq_getElem hr)
  have hblk : ∀ b ∈ old, ∃ n, s.h.cell b = some (.block r n) := fun b hb => by
    obtain ⟨n, _, h⟩ := forall2_left hbl b hb
    exact ⟨n, h⟩
  obtain ⟨hf, hk, hnew⟩ := blocks_spec r sizes (freeAll_fresh old H.fresh)
  set X := allocBlocks r (freeAll s.h old) sizes with hX
  -- everything but the old blocks stays until the rank boundary is written
  have hk0 : ∀ b x, s.h.cell b = some x → (∀ n, x ≠ .block r n) → X.1.cell b = some x := fun b x hb hx => by
    refine hk b x ?_
    rw [freeAll_keeps old fun hm => ?_]
    · exact hb
    · obtain ⟨n, h⟩ := hblk b hm
      rw [hb] at h
      cases h
      exact hx n rfl
  have hka : X.1.cell a = some (.rank r old) := hk0 a _ hold (by simp)
  have hupd : ∀ b x, X.1.cell b = some x → (∀ o, x ≠ .rank r o) → Function.update X.1.cell a (some (.rank r X.2)) b = some x := fun b x hb hx => by
    rw [Function.update_of_ne]
    · exact hb
    · rintro rfl
      rw [hka] at hb
      cases hb
      exact hx old rfl
  have hk1 : ∀ b x, s.h.cell b = some x → (∀ n, x ≠ .block r n) → (∀ o, x ≠ .rank r o) →
      Function.update X.1.cell a (some (.rank r X.2)) b = some x := fun b x hb h1 h2 => hupd b x (hk0 b x hb h1) h2
  refine .inr ⟨{ s with h := ⟨X.1.next, Function.update X.1.cell a (some (.rank r X.2))⟩ }, ?_, ?_⟩
  · unfold resize rankOf
    rw [ha]
    show (s.h.read a >>= _) = _
    rw [read_ok hold]
    rfl
  refine ⟨?_, hk1 _ _ H.master (by simp) (by simp), H.ids, H.distinct, fun x hx => hk1 _ _ (H.elts x hx) (by simp) (by simp), H.raws, H.ready, ?_, ?_, ?_,
    H.nodup, ?_, H.noEdges, ?_⟩
  · intro b hb
    show Function.update X.1.cell a (some (.rank r X.2)) b = none
    have hb : X.1.next ≤ b := hb
    rw [Function.update_of_ne (by have := live_lt hf hka; omega)]
    exact hf b hb
  · show s.ranks.length = (A.sizes.set r sizes).length
    rw [List.length_set]; exact H.nranks
  · intro r' a' sz ha' hsz
    have ha' : s.ranks[r']? = some a' := ha'
    have hsz : (A.sizes.set r sizes)[r']? = some sz := hsz
    by_cases hrr : r' = r
    · subst hrr
      rw [ha] at ha'
      cases ha'
      rw [List.getElem?_set_self hr] at hsz
      cases hsz
      exact ⟨X.2, Function.update_self .., hnew.imp fun b n hb => hupd _ _ hb (by simp)⟩
    · rw [List.getElem?_set_ne (Ne.symm hrr)] at hsz
      obtain ⟨bs, h1, h2⟩ := H.ranks r' a' sz ha' hsz
      exact ⟨bs, hk1 _ _ h1 (by simp) (by simp [hrr]), h2.imp fun b n hb => hk1 _ _ hb (by simp [hrr]) (by simp)⟩
  · intro c
    refine (H.faces c).imp fun b f h => ?_
    exact face_mono (s := s) h (fun i d m b' hb => hk1 b _ hb (by simp) (by simp)) (fun _ h => h) rfl rfl
  · exact fun c hc => (H.edges c hc).imp fun e b h => hk1 _ _ h (by simp) (by simp)
  · intro h
    have h : A.registered = true := h
    rw [hq] at h
    cases h

/-- The loop over the faces of a type. -/
theorem edges_loop (grow : ℕ → ℕ) (c : ℕ) {h0 : Heap} : ∀ (l pre : List ℕ) (x : Heap × Vec), Fresh x.1 → x.2.at'.Nodup →
    (∀ a y, h0.cell a = some y → (∀ f, y ≠ .edge c f) → x.1.cell a = some y) →
    List.Forall₂ (fun e a => x.1.cell e = some (.edge c a)) x.2.at' pre → (∀ a ∈ l, ∃ i d m b, h0.cell a = some (.face c i d m b)) →
    ∃ y, l.foldlM (createEdge grow c) x = .ok y ∧ Fresh y.1 ∧ (∀ a z, h0.cell a = some z → (∀ f, z ≠ .edge c f) → y.1.cell a = some z) ∧
      List.Forall₂ (fun e a => y.1.cell e = some (.edge c a)) y.2.at' (pre ++ l)
  | [], pre, x, hf, _, hk, h2, _ => ⟨x, rfl, hf, hk, by rw [List.append_nil]; exact h2⟩
  | a :: l, pre, x, hf, hn, hk, h2, hl => by
    have hlive : ∀ e ∈ x.2.at', ∃ f, x.1.cell e = some (.edge c f) := fun e he => by
      obtain ⟨f, _, h⟩ := forall2_left h2 e he
      exact ⟨f, h⟩
    obtain ⟨h', v', l', a', hem, hf', hv, h2', ha', hnd, hkeep⟩ := emplace_spec grow hf hn (fun e he => by
      obtain ⟨f, h⟩ := hlive e he
      exact ⟨_, h⟩) (.edge c a)
    obtain ⟨i, d, m, b, hface⟩ := hl a List.mem_cons_self
    have hstep : createEdge grow c x a = .ok (h', v') := by
      unfold createEdge
      rw [read_ok (hk _ _ hface (by simp))]
      exact hem
    have h3 : List.Forall₂ (fun e a => h'.cell e = some (.edge c a)) v'.at' (pre ++ [a]) := by
      rw [hv]
      refine List.rel_append ?_ (.cons ha' .nil)
      clear hem hv hnd hkeep hlive hstep hn
      generalize x.2.at' = l0 at h2 h2'
      induction h2 generalizing l' with
      | nil => cases h2'; exact .nil
      | cons hab _ ih =>
        cases h2' with
        | cons h3 h4 => exact .cons (h3.trans hab) (ih _ h4)
    obtain ⟨y, hy, h4, h5, h6⟩ := edges_loop grow c (h0 := h0) l (pre ++ [a]) (h', v') hf' hnd (fun b y hb hy => hkeep b y (fun hm => by
        obtain ⟨f, h⟩ := hlive b hm
        rw [hk b y hb hy] at h
        cases h
        exact hy f rfl) (hk b y hb hy)) h3 fun b hb => hl b (List.mem_cons_of_mem _ hb)
    refine ⟨y, ?_, h4, h5, ?_⟩
    · rw [List.foldlM_cons, hstep]
      exact hy
    · rw [List.append_assoc] at h6
      exact h6

/-- The edges of the faces of one type. -/
theorem edges_step (grow : ℕ → ℕ) {s : St} {A : Asked} (H : Holds s A) (hq : A.registered = false) {c : ℕ} (hc : c ∉ A.edged) :
    ∃ s', createEdges grow s c = .ok s' ∧ Holds s' { A with edged := c :: A.edged } := by
  obtain ⟨y, hy, hf, hk, h2⟩ := edges_loop grow c (h0 := s.h) (s.faces c).at' [] (s.h, s.edges c) H.fresh (by rw [H.noEdges c hc]; exact .nil)
    (fun a y ha _ => ha) (by rw [H.noEdges c hc]; exact .nil) fun a ha => face_live H ha
  refine ⟨{ s with h := y.1, edges := Function.update s.edges c y.2 }, ?_, ?_⟩
  · unfold createEdges
    rw [hy]
    rfl
  refine ⟨hf, hk _ _ H.master (by simp), H.ids, H.distinct, fun x hx => hk _ _ (H.elts x hx) (by simp), H.raws, H.ready, H.nranks, ?_, ?_, H.nodup, ?_, ?_, ?_⟩
  · intro r a sz ha hz
    obtain ⟨bs, h1, h2⟩ := H.ranks r a sz ha hz
    exact ⟨bs, hk _ _ h1 (by simp), h2.imp fun b n hb => hk _ _ hb (by simp)⟩
  · intro c'
    refine (H.faces c').imp fun a f h => ?_
    exact face_mono (s := s) h (fun i d m b ha => hk a _ ha (by simp)) (fun _ h => h) rfl rfl
  · intro c' hc'
    show List.Forall₂ _ (Function.update s.edges c y.2 c').at' (s.faces c').at'
    by_cases hcc : c' = c
    · subst hcc
      rw [Function.update_self]
      exact h2
    · rw [Function.update_of_ne hcc]
      have hc' : c' ∈ A.edged := (List.mem_cons.1 hc').resolve_left hcc
      exact (H.edges c' hc').imp fun e a h => hk _ _ h (by intro f; simp; intro h; exact absurd h hcc)
  · intro c' hc'
    show (Function.update s.edges c y.2 c').at' = []
    have hcc : c' ≠ c := fun e => hc' (List.mem_cons.2 (.inl e))
    rw [Function.update_of_ne hcc]
    exact H.noEdges c' fun h => hc' (List.mem_cons_of_mem _ h)
  · intro h
    have h : A.registered = true := h
    rw [hq] at h
    cases h


theorem map_blocks {cell : ℕ → Option Cell} {r : ℕ} {bs sz : List ℕ} (h : List.Forall₂ (fun b n => cell b = some (.block r n)) bs sz) :
    bs.map cell = sz.map fun n => some (.block r n) := by
  induction h with
  | nil => rfl
  | cons h _ ih => rw [List.map_cons, List.map_cons, ih, h]

theorem flatten_blocks {cell : ℕ → Option Cell} : ∀ {as : List (List ℕ)} {sz : List (List ℕ)} {k : ℕ},
    List.Forall₂ (fun bs x => List.Forall₂ (fun b n => cell b = some (.block x.2 n)) bs x.1) as (sz.zipIdx k) →
    as.flatten.map cell = (sz.zipIdx k).flatMap fun x => x.1.map fun n => some (.block x.2 n) := by
  intro as sz k h
  generalize sz.zipIdx k = z at h
  induction h with
  | nil => rfl
  | cons h _ ih =>
    rw [List.flatten_cons, List.map_append, ih, List.flatMap_cons, map_blocks h]

/-- The requests get the storage of the buffers of all rank boundaries. -/
theorem register_step {s : St} {A : Asked} (H : Holds s A) : ∃ s', register s = .ok s' ∧ Holds s' { A with registered := true } := by
  have hex : ∃ bs, s.ranks.mapM (blocksAt s.h) = .ok bs ∧
      List.Forall₂ (fun bs x => List.Forall₂ (fun b n => s.h.cell b = some (.block x.2 n)) bs x.1) bs A.sizes.zipIdx := by
    have hgen : ∀ (l : List ℕ) (z : List (List ℕ)) (k : ℕ), l.length = z.length →
        (∀ r a sz, l[r]? = some a → z[r]? = some sz → ∃ bs, s.h.cell a = some (.rank (k + r) bs) ∧
          List.Forall₂ (fun b n => s.h.cell b = some (.block (k + r) n)) bs sz) →
        ∃ bs, l.mapM (blocksAt s.h) = .ok bs ∧
          List.Forall₂ (fun bs x => List.Forall₂ (fun b n => s.h.cell b = some (.block x.2 n)) bs x.1) bs (z.zipIdx k) := by
      intro l
      induction l with
      | nil =>
        intro z k hz _
        rw [List.length_eq_zero_iff.1 hz.symm]
        exact ⟨[], rfl, .nil⟩
      | cons a l ih =>
        intro z k hz hr
        cases z with
        | nil => cases hz
        | cons y z =>
          obtain ⟨b, h1, h2⟩ := hr 0 a y rfl rfl
          obtain ⟨bs, h3, h4⟩ := ih z (k + 1) (Nat.succ.inj hz) fun r a' sz ha hs => by
            have := hr (r + 1) a' sz (by simpa using ha) (by simpa using hs)
            rw [show k + (r + 1) = k + 1 + r by omega] at this
            exact this
          refine ⟨b :: bs, ?_, .cons h2 h4⟩
          have hb : blocksAt s.h a = .ok b := by
            unfold blocksAt
            rw [read_ok h1]
            rfl
          rw [List.mapM_cons, hb, h3]
          rfl
    exact hgen s.ranks A.sizes 0 H.nranks fun r a sz ha hs => by rw [Nat.zero_add]; exact H.ranks r a sz ha hs
  obtain ⟨bs, h1, h2⟩ := hex
  refine ⟨{ s with requests := bs.flatten }, ?_, ?_⟩
  · unfold register
    rw [h1]
    rfl
  exact ⟨H.fresh, H.master, H.ids, H.distinct, H.elts, H.raws, H.ready, H.nranks, H.ranks, fun c =>
    (H.faces c).imp fun a f h => face_mono h (fun _ _ _ _ h => h) (fun _ h => h) rfl rfl, H.nodup, H.edges, H.noEdges, fun _ => flatten_blocks h2⟩

theorem mapM_live {h : Heap} {l : List ℕ} (hl : ∀ a ∈ l, ∃ x, h.cell a = some x) : ∃ ys, l.mapM h.read = .ok ys := by
  induction l with
  | nil => exact ⟨[], rfl⟩
  | cons a l ih =>
    obtain ⟨x, hx⟩ := hl a List.mem_cons_self
    obtain ⟨ys, hy⟩ := ih fun b hb => hl b (List.mem_cons_of_mem _ hb)
    exact ⟨x :: ys, by rw [List.mapM_cons, read_ok hx, hy]; rfl⟩

theorem read_face {s : St} {A : Asked} (H : Holds s A) {c : ℕ} {a : ℕ} (ha : a ∈ (s.faces c).at') : readFace s.h a = .ok () := by
  obtain ⟨f, _, ds, ms, buf, h1, h2, h3, h4, h5⟩ := forall2_left (H.faces c) a ha
  have hd : ∀ d ∈ ds, ∃ x, s.h.cell d = some x := fun d hd => by
    obtain ⟨i, _, h⟩ := forall2_left h2.flip d hd
    exact ⟨_, H.elts _ h⟩
  obtain ⟨ys, hy⟩ := mapM_live hd
  obtain ⟨zs, hz⟩ := mapM_live (h := s.h) (l := ms) fun m hm => ⟨.masters, by rw [h3 m hm]; exact H.master⟩
  unfold readFace
  rw [read_ok h1]
  show (ds.mapM s.h.read >>= fun _ => ms.mapM s.h.read >>= fun _ => _) = _
  rw [hy, hz]
  cases hr : f.2 with
  | none => rw [h4 hr]; rfl
  | some r =>
    obtain ⟨b, hb, rfl⟩ := h5 r hr
    have hlt : r < A.sizes.length := by
      rw [← H.nranks]
      by_contra hn
      rw [List.getElem?_eq_none (by omega)] at hb
      cases hb
    obtain ⟨bs, hbs, hbl⟩ := H.ranks r b A.sizes[r] hb (List.getElem?_eq_getElem hlt)
    obtain ⟨ws, hw⟩ := mapM_live (h := s.h) (l := bs) fun x hx => by
      obtain ⟨n, _, h⟩ := forall2_left hbl x hx
      exact ⟨_, h⟩
    have hbk : blocksAt s.h b = .ok bs := by
      unfold blocksAt
      rw [read_ok hbs]
      rfl
    show (blocksAt s.h b >>= fun bs => bs.mapM s.h.read >>= fun _ => _) = _
    rw [hbk]
    show (bs.mapM s.h.read >>= fun _ => _) = _
    rw [hw]
    rfl

/-- Whatever a stage uses exists. -/
theorem access_ok (n : ℕ) {s : St} {A : Asked} (H : Holds s A) (hq : A.registered = true ∨ s.requests = []) : access n s = .ok () := by
  unfold access
  rw [mapM_map fun x hx => raws_of H hx]
  show (((List.range n).flatMap fun c => (s.faces c).at').mapM (readFace s.h) >>= fun _ =>
    ((List.range n).flatMap fun c => (s.edges c).at').mapM (readEdge s.h) >>= fun _ => s.requests.mapM s.h.read >>= fun _ => _) = _
  rw [mapM_map (g := fun _ => ()) fun a ha => by
    obtain ⟨c, _, ha⟩ := List.mem_flatMap.1 ha
    exact read_face H ha]
  show (((List.range n).flatMap fun c => (s.edges c).at').mapM (readEdge s.h) >>= fun _ => s.requests.mapM s.h.read >>= fun _ => _) = _
  rw [mapM_map (g := fun _ => ()) fun e he => by
    obtain ⟨c, _, he⟩ := List.mem_flatMap.1 he
    by_cases hc : c ∈ A.edged
    · obtain ⟨a, ha, h⟩ := forall2_left (H.edges c hc) e he
      unfold readEdge
      rw [read_ok h]
      exact read_face H ha
    · rw [H.noEdges c hc] at he
      cases he]
  show (s.requests.mapM s.h.read >>= fun _ => _) = _
  obtain ⟨ys, hy⟩ := mapM_live (h := s.h) (l := s.requests) fun a ha => by
    rcases hq with hq | hq
    · have hm : s.h.cell a ∈ s.requests.map s.h.cell := List.mem_map.2 ⟨a, ha, rfl⟩
      rw [H.requests hq] at hm
      obtain ⟨x, _, hm⟩ := List.mem_flatMap.1 hm
      obtain ⟨n, _, hm⟩ := List.mem_map.1 hm
      exact ⟨_, hm.symm⟩
    · rw [hq] at ha
      cases ha
  rw [hy]
  rfl

/-- What an instruction asks for. -/
def ask (A : Asked) : Instr → Asked
  | .element id => { A with ids := if id ∈ A.ids then A.ids else A.ids ++ [id] }
  | .rawBoundaries => { A with ready := A.ids }
  | .face c keys => { A with faces := Function.update A.faces c (A.faces c ++ [(keys.map Prod.fst, none)]) }
  | .dface c key r => { A with faces := Function.update A.faces c (A.faces c ++ [([key.1], some r)]) }
  | .resize r sizes => { A with sizes := A.sizes.set r sizes }
  | .edges c => { A with edged := c :: A.edged }
  | .register => { A with registered := true }
  | .access => A

/-- The order which the code keeps: faces and buffers before edges, and all of these before the requests. -/
def InOrder (A : Asked) : Instr → Prop
  | .element _ => A.registered = false
  | .rawBoundaries => A.registered = false
  | .face _ _ => A.registered = false ∧ A.edged = []
  | .dface _ _ _ => A.registered = false ∧ A.edged = []
  | .resize _ _ => A.registered = false
  | .edges c => A.registered = false ∧ c ∉ A.edged
  | .register => True
  | .access => A.registered = true

/-- Faces of elements which exist, rank boundaries which exist. -/
def Exists (A : Asked) : Instr → Prop
  | .face _ keys => ∀ k ∈ keys, k.1 ∈ A.ready ∧ k.2 < 3
  | .dface _ key r => (key.1 ∈ A.ready ∧ key.2 < 3) ∧ r < A.sizes.length
  | .resize r _ => r < A.sizes.length
  | _ => True

theorem step_spec (grow : ℕ → ℕ) (n : ℕ) {s : St} {A : Asked} (H : Holds s A) {i : Instr} (hi : InOrder A i) :
    (step grow n s i = .error .exc ∧ ¬ Exists A i) ∨ ∃ s', step grow n s i = .ok s' ∧ Holds s' (ask A i) := by
  cases i with
  | element id => exact .inr ⟨_, rfl, element_step H hi id⟩
  | rawBoundaries => exact .inr (raws_step grow n H)
  | face c keys =>
    rcases face_step grow H hi.2 hi.1 c keys (buf := none) (ro := none) (fun _ => rfl) (by simp) with ⟨h, k, hk, hk'⟩ | h
    · refine .inl ⟨h, fun he => ?_⟩
      obtain ⟨r, hr⟩ := H.ready k.1 (he k hk).1 k.2 (he k hk).2
      rw [hk'] at hr
      cases hr
    · exact .inr h
  | dface c key r =>
    by_cases hr : r < s.ranks.length
    · have ha : s.ranks[r]? = some s.ranks[r] := List.getElem?_eq_getElem hr
      have hro : rankOf s r = .ok s.ranks[r] := by unfold rankOf; rw [ha]
      have hst : step grow n s (.dface c key r) = createFace grow s c [key] (some s.ranks[r]) := by
        show (rankOf s r >>= fun a => createFace grow s c [key] (some a)) = _
        rw [hro]
        rfl
      rw [hst]
      rcases face_step grow H hi.2 hi.1 c [key] (buf := some s.ranks[r]) (ro := some r) (by simp)
        (fun r' h => by cases h; exact ⟨_, ha, rfl⟩) with ⟨h, k, hk, hk'⟩ | h
      · refine .inl ⟨h, fun he => ?_⟩
        rw [List.mem_singleton.1 hk] at hk'
        obtain ⟨r, hr⟩ := H.ready key.1 he.1.1 key.2 he.1.2
        rw [hk'] at hr
        cases hr
      · exact .inr h
    · refine .inl ⟨?_, fun he => hr (by rw [H.nranks]; exact he.2)⟩
      show (rankOf s r >>= fun a => createFace grow s c [key] (some a)) = _
      unfold rankOf
      rw [List.getElem?_eq_none (by omega)]
      rfl
  | resize r sizes =>
    rcases resize_step H hi r sizes with ⟨h, hr⟩ | h
    · exact .inl ⟨h, fun he : r < A.sizes.length => by omega⟩
    · exact .inr h
  | edges c => exact .inr (edges_step grow H hi.1 hi.2)
  | register => exact .inr (register_step H)
  | access =>
    refine .inr ⟨s, ?_, H⟩
    show (access n s >>= fun _ => _) = _
    rw [access_ok n H (.inl hi)]
    rfl

/-- A program in order. -/
def Ordered : Asked → List Instr → Prop
  | _, [] => True
  | A, i :: p => InOrder A i ∧ Ordered (ask A i) p

/-- A program all of whose faces and rank boundaries exist. -/
def Existing : Asked → List Instr → Prop
  | _, [] => True
  | A, i :: p => Exists A i ∧ Existing (ask A i) p

theorem run_spec (grow : ℕ → ℕ) (n : ℕ) : ∀ (p : List Instr) {s : St} {A : Asked}, Holds s A → Ordered A p →
    (run grow n s p = .error .exc ∧ ¬ Existing A p) ∨ ∃ s', run grow n s p = .ok s' ∧ Holds s' (p.foldl ask A)
  | [], s, A, H, _ => .inr ⟨s, rfl, H⟩
  | i :: p, s, A, H, ho => by
    have hr : run grow n s (i :: p) = step grow n s i >>= fun s' => run grow n s' p := List.foldlM_cons
    rw [hr]
    rcases step_spec grow n H ho.1 with ⟨h, he⟩ | ⟨s', h, H'⟩
    · exact .inl ⟨by rw [h]; rfl, fun hx => he hx.1⟩
    · rw [h]
      rcases run_spec grow n p H' ho.2 with ⟨h2, he⟩ | h2
      · exact .inl ⟨h2, fun hx => he hx.2⟩
      · exact .inr h2


theorem ranks_spec : ∀ (n r : ℕ) {h : Heap}, Fresh h → Fresh (allocRanks h r n).1 ∧ (∀ a x, h.cell a = some x → (allocRanks h r n).1.cell a = some x) ∧
    (allocRanks h r n).2.length = n ∧ ∀ i a, (allocRanks h r n).2[i]? = some a → (allocRanks h r n).1.cell a = some (.rank (r + i) [])
  | 0, _, _, hf => ⟨hf, fun _ _ h => h, rfl, fun i a h => by simp [allocRanks] at h⟩
  | n + 1, r, h, hf => by
    obtain ⟨h1, h2, h3, h4⟩ := ranks_spec n (r + 1) (h := (h.alloc (.rank r [])).1) (alloc_fresh hf _)
    refine ⟨h1, fun a x ha => h2 a x (alloc_live hf _ ha), congrArg (· + 1) h3, fun i a hi => ?_⟩
    cases i with
    | zero =>
      have hi : some h.next = some a := hi
      cases hi
      exact h2 _ _ (alloc_new h _)
    | succ i =>
      have := h4 i a hi
      rw [show r + 1 + i = r + (i + 1) by omega] at this
      exact this

/-- A new unit. -/
theorem fresh_holds (cap nranks : ℕ) : Holds (fresh cap nranks) ⟨[], [], fun _ => [], List.replicate nranks [], [], false⟩ := by
  have hf0 : Fresh ⟨0, fun _ => none⟩ := fun _ _ => rfl
  have hf2 : Fresh (((Heap.alloc ⟨0, fun _ => none⟩ .masters).1.alloc .masters).1.free 1) := free_fresh (alloc_fresh (alloc_fresh hf0 _) _) _
  obtain ⟨h1, h2, h3, h4⟩ := ranks_spec nranks 0 hf2
  refine ⟨h1, h2 0 .masters rfl, rfl, .nil, (fun x hx => by cases hx), (fun x hx => by cases hx), (fun x hx => by cases hx), ?_, ?_, fun _ => .nil, fun _ => .nil,
    (fun x hx => by cases hx), fun _ _ => rfl, (fun h => by cases h)⟩
  · rw [List.length_replicate]
    exact h3
  · intro r a sz ha hs
    have hs' : (List.replicate nranks ([] : List ℕ))[r]? = some sz := hs
    have := h4 r a ha
    rw [Nat.zero_add] at this
    rw [List.mem_replicate.1 (List.mem_of_getElem? hs') |>.2]
    exact ⟨[], this, .nil⟩

theorem ordered_append : ∀ (p q : List Instr) (A : Asked), Ordered A (p ++ q) ↔ Ordered A p ∧ Ordered (p.foldl ask A) q
  | [], q, A => ⟨fun h => ⟨trivial, h⟩, fun h => h.2⟩
  | i :: p, q, A => by
    show (_ ∧ Ordered (ask A i) (p ++ q)) ↔ (_ ∧ _) ∧ _
    rw [ordered_append p q (ask A i), and_assoc]
    rfl

theorem existing_append : ∀ (p q : List Instr) (A : Asked), Existing A (p ++ q) ↔ Existing A p ∧ Existing (p.foldl ask A) q
  | [], q, A => ⟨fun h => ⟨trivial, h⟩, fun h => h.2⟩
  | i :: p, q, A => by
    show (_ ∧ Existing (ask A i) (p ++ q)) ↔ (_ ∧ _) ∧ _
    rw [existing_append p q (ask A i), and_assoc]
    rfl

/-- Instructions of the first phase. -/
def First : Instr → Prop
  | .edges _ => False
  | .register => False
  | .access => False
  | _ => True

theorem first_spec : ∀ (p : List Instr) (A : Asked), (∀ i ∈ p, First i) → A.registered = false → A.edged = [] →
    Ordered A p ∧ (p.foldl ask A).registered = false ∧ (p.foldl ask A).edged = []
  | [], _, _, h1, h2 => ⟨trivial, h1, h2⟩
  | i :: p, A, hp, h1, h2 => by
    have hi := hp i List.mem_cons_self
    have h3 : (ask A i).registered = false ∧ (ask A i).edged = [] ∧ InOrder A i := by
      cases i <;> simp_all [ask, InOrder, First]
    obtain ⟨h4, h5⟩ := first_spec p (ask A i) (fun j hj => hp j (List.mem_cons_of_mem _ hj)) h3.1 h3.2.1
    exact ⟨⟨h3.2.2, h4⟩, h5⟩

theorem elements_asked : ∀ (ids : List ℕ) (A : Asked), (∀ x ∈ ids, x ∉ A.ids) → ids.Nodup →
    (ids.map Instr.element).foldl ask A = { A with ids := A.ids ++ ids } ∧ Existing A (ids.map Instr.element)
  | [], A, _, _ => ⟨by simp, trivial⟩
  | x :: ids, A, h, hn => by
    have hx : ask A (.element x) = { A with ids := A.ids ++ [x] } := by
      show { A with ids := if x ∈ A.ids then A.ids else A.ids ++ [x] } = _
      rw [if_neg (h x List.mem_cons_self)]
    obtain ⟨h1, h2⟩ := elements_asked ids (ask A (.element x)) (fun y hy hm => by
      rw [hx] at hm
      rcases List.mem_append.1 hm with hm | hm
      · exact h y (List.mem_cons_of_mem _ hy) hm
      · rw [List.mem_singleton.1 hm] at hy
        exact (List.nodup_cons.1 hn).1 hy) (List.nodup_cons.1 hn).2
    refine ⟨?_, trivial, h2⟩
    rw [List.map_cons, List.foldl_cons, h1, hx]
    simp [List.append_assoc]

theorem faces_asked : ∀ (fs : List (ℕ × List (ℕ × ℕ))) (A : Asked),
    (fs.map fun f => Instr.face f.1 f.2).foldl ask A =
      { A with faces := fun c => A.faces c ++ (fs.filter (·.1 = c)).map fun f => (f.2.map Prod.fst, none) } ∧
    ((∀ f ∈ fs, ∀ k ∈ f.2, k.1 ∈ A.ready ∧ k.2 < 3) → Existing A (fs.map fun f => Instr.face f.1 f.2))
  | [], A => ⟨by simp, fun _ => trivial⟩
  | f :: fs, A => by
    obtain ⟨h1, h2⟩ := faces_asked fs (ask A (.face f.1 f.2))
    refine ⟨?_, fun h => ⟨h f List.mem_cons_self, h2 fun g hg => h g (List.mem_cons_of_mem _ hg)⟩⟩
    rw [List.map_cons, List.foldl_cons, h1]
    show Asked.mk _ _ _ _ _ _ = Asked.mk _ _ _ _ _ _
    congr 1
    funext c
    show Function.update A.faces f.1 _ c ++ _ = _
    by_cases hc : c = f.1
    · subst hc
      rw [Function.update_self, List.filter_cons_of_pos (by simp), List.map_cons, List.append_assoc]
      rfl
    · rw [Function.update_of_ne hc, List.filter_cons_of_neg (by simpa using Ne.symm hc)]

theorem dfaces_asked (r : ℕ) : ∀ (fs : List (ℕ × (ℕ × ℕ))) (A : Asked),
    (fs.map fun f => Instr.dface f.1 f.2 r).foldl ask A =
      { A with faces := fun c => A.faces c ++ (fs.filter (·.1 = c)).map fun f => ([f.2.1], some r) } ∧
    ((∀ f ∈ fs, f.2.1 ∈ A.ready ∧ f.2.2 < 3) → r < A.sizes.length → Existing A (fs.map fun f => Instr.dface f.1 f.2 r))
  | [], A => ⟨by simp, fun _ _ => trivial⟩
  | f :: fs, A => by
    obtain ⟨h1, h2⟩ := dfaces_asked r fs (ask A (.dface f.1 f.2 r))
    refine ⟨?_, fun h hr => ⟨⟨h f List.mem_cons_self, hr⟩, h2 (fun g hg => h g (List.mem_cons_of_mem _ hg)) hr⟩⟩
    rw [List.map_cons, List.foldl_cons, h1]
    show Asked.mk _ _ _ _ _ _ = Asked.mk _ _ _ _ _ _
    congr 1
    funext c
    show Function.update A.faces f.1 _ c ++ _ = _
    by_cases hc : c = f.1
    · subst hc
      rw [Function.update_self, List.filter_cons_of_pos (by simp), List.map_cons, List.append_assoc]
      rfl
    · rw [Function.update_of_ne hc, List.filter_cons_of_neg (by simpa using Ne.symm hc)]

theorem ranks_asked : ∀ (rs : List (List (ℕ × (ℕ × ℕ)) × List ℕ)) (k : ℕ) (A : Asked), A.sizes.length = k + rs.length →
    ((rs.zipIdx k).flatMap rankProgram).foldl ask A =
      { A with
        faces := fun c => A.faces c ++ (rs.zipIdx k).flatMap fun x => (x.1.1.filter (·.1 = c)).map fun f => ([f.2.1], some x.2),
        sizes := A.sizes.take k ++ rs.map Prod.snd } ∧
    ((∀ x ∈ rs, ∀ f ∈ x.1, f.2.1 ∈ A.ready ∧ f.2.2 < 3) → Existing A ((rs.zipIdx k).flatMap rankProgram))
  | [], k, A, hk => ⟨by
      have : A.sizes.take k = A.sizes := List.take_of_length_le (by simpa using Nat.le_of_eq hk)
      simp [this], fun _ => trivial⟩
  | x :: rs, k, A, hk => by
    have hk' : k < A.sizes.length := by rw [hk, List.length_cons]; omega
    obtain ⟨h1, h2⟩ := dfaces_asked k x.1 A
    set B := (x.1.map fun f => Instr.dface f.1 f.2 k).foldl ask A with hB
    obtain ⟨h3, h4⟩ := ranks_asked rs (k + 1) (ask B (.resize k x.2)) (by
      show (B.sizes.set k x.2).length = _
      rw [List.length_set, h1]
      show A.sizes.length = _
      rw [hk, List.length_cons]; omega)
    have hfold : (((x :: rs).zipIdx k).flatMap rankProgram).foldl ask A = ((rs.zipIdx (k + 1)).flatMap rankProgram).foldl ask (ask B (.resize k x.2)) := by
      rw [List.zipIdx_cons, List.flatMap_cons, List.foldl_append]
      congr 1
      show List.foldl ask A ((x.1.map fun f => Instr.dface f.1 f.2 k) ++ [Instr.resize k x.2]) = _
      rw [List.foldl_append]
      rfl
    refine ⟨?_, fun h => ?_⟩
    · rw [hfold, h3, h1]
      show Asked.mk _ _ _ _ _ _ = Asked.mk _ _ _ _ _ _
      congr 1
      · funext c
        show (A.faces c ++ _) ++ _ = _
        rw [List.zipIdx_cons, List.flatMap_cons, List.append_assoc]
      · show (A.sizes.set k x.2).take (k + 1) ++ _ = _
        rw [List.take_succ_eq_append_getElem (by rw [List.length_set]; exact hk'), List.getElem_set_self, List.take_set_of_le (Nat.le_refl k),
          List.append_assoc]
        rfl
    · rw [List.zipIdx_cons, List.flatMap_cons, existing_append]
      have hfo : (rankProgram (x, k)).foldl ask A = ask B (.resize k x.2) := by
        show List.foldl ask A ((x.1.map fun f => Instr.dface f.1 f.2 k) ++ [Instr.resize k x.2]) = _
        rw [List.foldl_append]
        rfl
      rw [hfo]
      refine ⟨?_, h4 fun y hy f hf => ?_⟩
      · show Existing A ((x.1.map fun f => Instr.dface f.1 f.2 k) ++ [Instr.resize k x.2])
        rw [existing_append]
        refine ⟨h2 (h x List.mem_cons_self) hk', ?_, trivial⟩
        show k < B.sizes.length
        rw [h1]
        exact hk'
      · have := h y (List.mem_cons_of_mem _ hy) f hf
        show f.2.1 ∈ B.ready ∧ _
        rw [h1]
        exact this

theorem edges_asked : ∀ (cs : List ℕ) (A : Asked), A.registered = false → cs.Nodup → (∀ c ∈ cs, c ∉ A.edged) →
    (cs.map Instr.edges).foldl ask A = { A with edged := cs.reverse ++ A.edged } ∧ Ordered A (cs.map Instr.edges) ∧ Existing A (cs.map Instr.edges)
  | [], A, _, _, _ => ⟨by simp, trivial, trivial⟩
  | c :: cs, A, hq, hn, hc => by
    obtain ⟨h1, h2, h3⟩ := edges_asked cs (ask A (.edges c)) hq (List.nodup_cons.1 hn).2 fun c' hc' hm => by
      rcases List.mem_cons.1 hm with rfl | hm
      · exact (List.nodup_cons.1 hn).1 hc'
      · exact hc c' (List.mem_cons_of_mem _ hc') hm
    refine ⟨?_, ⟨⟨hq, hc c List.mem_cons_self⟩, h2⟩, trivial, h3⟩
    rw [List.map_cons, List.foldl_cons, h1]
    show Asked.mk _ _ _ _ _ _ = Asked.mk _ _ _ _ _ _
    congr 1
    show cs.reverse ++ c :: A.edged = _
    rw [List.reverse_cons, List.append_assoc]
    rfl

/-- The faces of type `c` which a plan asks for, in order: their elements, and the rank boundary if they are distributed. -/
def facesAsked (p : Plan) (c : ℕ) : List (List ℕ × Option ℕ) :=
  ((p.faces.filter (·.1 = c)).map fun f => (f.2.map Prod.fst, none)) ++
    p.ranks.zipIdx.flatMap fun x => (x.1.1.filter (·.1 = c)).map fun f => ([f.2.1], some x.2)

/-- All faces of the plan belong to its elements. -/
def PlanGood (p : Plan) : Prop :=
  (∀ f ∈ p.faces, ∀ k ∈ f.2, k.1 ∈ p.ids ∧ k.2 < 3) ∧ ∀ x ∈ p.ranks, ∀ f ∈ x.1, f.2.1 ∈ p.ids ∧ f.2.2 < 3

/-- Every reference leads to the object it was made for. -/
structure Sound (p : Plan) (cs : List ℕ) (s : St) : Prop where
  master : s.h.cell s.masters = some .masters
  ids : s.elts.map Prod.fst = p.ids
  elts : ∀ x ∈ s.elts, s.h.cell x.2 = some (.elt x.1 s.masters)
  faces : ∀ c, List.Forall₂ (IsFace s c) (s.faces c).at' (facesAsked p c)
  edges : ∀ c ∈ cs, List.Forall₂ (fun e a => s.h.cell e = some (.edge c a)) (s.edges c).at' (s.faces c).at'
  ranks : ∀ r a sz, s.ranks[r]? = some a → (p.ranks.map Prod.snd)[r]? = some sz →
    ∃ bs, s.h.cell a = some (.rank r bs) ∧ List.Forall₂ (fun b n => s.h.cell b = some (.block r n)) bs sz
  requests : s.requests.map s.h.cell = p.ranks.zipIdx.flatMap fun x => x.1.2.map fun n => some (.block x.2 n)

theorem zip_map (l : List (List (ℕ × (ℕ × ℕ)) × List ℕ)) : ∀ k : ℕ, ((l.map Prod.snd).zipIdx k).flatMap (fun x => x.1.map fun n => some (Cell.block x.2 n)) =
    (l.zipIdx k).flatMap fun x => x.1.2.map fun n => some (.block x.2 n) := by
  induction l with
  | nil => exact fun _ => rfl
  | cons x l ih =>
    intro k
    rw [List.map_cons, List.zipIdx_cons, List.zipIdx_cons, List.flatMap_cons, List.flatMap_cons, ih]

/-- C124. Whatever the mesh, the types of faces, the initial capacities and the way vectors grow: the construction of a unit never follows a reference to
something that has gone. It succeeds if the faces belong to elements; then every element points to the master of the mesh, every face refers to its own
elements and to the buffers of its rank boundary, every edge to the face it was made for, the requests hold the storage of the buffers, and any number of
stages finds all of this alive. -/
theorem no_dangling (grow : ℕ → ℕ) (n cap : ℕ) (p : Plan) (cs : List ℕ) (hid : p.ids.Nodup) (hcs : cs.Nodup) :
    (run grow n (fresh cap p.ranks.length) (program p cs) = .error .exc ∧ ¬ PlanGood p) ∨
    ∃ s, run grow n (fresh cap p.ranks.length) (program p cs) = .ok s ∧ Sound p cs s ∧ ∀ k, run grow n s (List.replicate k .access) = .ok s := by
  set A0 : Asked := ⟨[], [], fun _ => [], List.replicate p.ranks.length [], [], false⟩ with hA0
  obtain ⟨e1, e2⟩ := elements_asked p.ids A0 (by intro x _ h; cases h) hid
  set A1 := ask { A0 with ids := A0.ids ++ p.ids } .rawBoundaries with hA1
  obtain ⟨f1, f2⟩ := faces_asked p.faces A1
  set A2 : Asked := { A1 with faces := fun c => A1.faces c ++ (p.faces.filter (·.1 = c)).map fun f => (f.2.map Prod.fst, none) } with hA2
  obtain ⟨r1, r2⟩ := ranks_asked p.ranks 0 A2 (by rw [Nat.zero_add]; exact List.length_replicate ..)
  set A3 : Asked := { A2 with
        faces := fun c => A2.faces c ++ (p.ranks.zipIdx 0).flatMap fun x => (x.1.1.filter (·.1 = c)).map fun f => ([f.2.1], some x.2),
        sizes := A2.sizes.take 0 ++ p.ranks.map Prod.snd } with hA3
  have hfirst : List.foldl ask A0 (p.ids.map Instr.element ++ [Instr.rawBoundaries] ++ (p.faces.map fun f => Instr.face f.1 f.2) ++
      p.ranks.zipIdx.flatMap rankProgram) = A3 := by
    rw [List.foldl_append, List.foldl_append, List.foldl_append, e1]
    show ((p.ranks.zipIdx).flatMap rankProgram).foldl ask ((p.faces.map fun f => Instr.face f.1 f.2).foldl ask A1) = _
    rw [f1, r1]
  obtain ⟨g1, g2, g3⟩ := edges_asked cs A3 rfl hcs (by intro c _ h; cases h)
  have hall : (program p cs).foldl ask A0 = { A3 with edged := cs.reverse ++ A3.edged, registered := true } := by
    unfold program
    rw [List.foldl_append, hfirst, List.foldl_append, g1]
    rfl
  have hord : Ordered A0 (program p cs) := by
    unfold program
    rw [ordered_append, hfirst]
    refine ⟨(first_spec _ A0 ?_ rfl rfl).1, (ordered_append _ _ _).2 ⟨g2, trivial, trivial⟩⟩
    intro i hi
    rcases List.mem_append.1 hi with hi | hi
    · rcases List.mem_append.1 hi with hi | hi
      · rcases List.mem_append.1 hi with hi | hi
        · obtain ⟨_, _, rfl⟩ := List.mem_map.1 hi; trivial
        · rw [List.mem_singleton.1 hi]; trivial
      · obtain ⟨_, _, rfl⟩ := List.mem_map.1 hi; trivial
    · obtain ⟨x, _, hi⟩ := List.mem_flatMap.1 hi
      rcases List.mem_append.1 hi with hi | hi
      · obtain ⟨_, _, rfl⟩ := List.mem_map.1 hi; trivial
      · rw [List.mem_singleton.1 hi]; trivial
  have hex : PlanGood p → Existing A0 (program p cs) := fun hg => by
    unfold program
    rw [existing_append, hfirst, existing_append, existing_append, existing_append, existing_append]
    refine ⟨⟨⟨⟨e2, trivial, trivial⟩, ?_⟩, ?_⟩, g3, trivial, trivial⟩
    · rw [List.foldl_append, e1]
      exact f2 hg.1
    · rw [List.foldl_append, List.foldl_append, e1]
      show Existing ((p.faces.map fun f => Instr.face f.1 f.2).foldl ask A1) _
      rw [f1]
      exact r2 hg.2
  rcases run_spec grow n (program p cs) (fresh_holds cap p.ranks.length) hord with ⟨h, hne⟩ | ⟨s, h, H⟩
  · exact .inl ⟨h, fun hg => hne (hex hg)⟩
  have H : Holds s ((program p cs).foldl ask A0) := H
  rw [hall] at H
  refine .inr ⟨s, h, ⟨H.master, H.ids, H.elts, H.faces, fun c hc => H.edges c ?_, H.ranks, ?_⟩, fun k => ?_⟩
  · exact List.mem_append_left _ (List.mem_reverse.2 hc)
  · exact (H.requests rfl).trans (zip_map p.ranks 0)
  · have hst : step grow n s .access = .ok s := by
      show (access n s >>= fun _ => _) = _
      rw [access_ok n H (.inl rfl)]
      rfl
    induction k with
    | zero => rfl
    | succ k ih =>
      rw [List.replicate_succ]
      show (step grow n s .access >>= fun s' => run grow n s' _) = _
      rw [hst]
      exact ih

/-- Two triangles, an interface, walls of type 1, a distributed face of type 2, one rank boundary with two buffers. -/
def twoPlan : Plan := ⟨[7, 9], [(0, [(7, 0), (9, 1)]), (1, [(7, 1)]), (1, [(7, 2)]), (1, [(9, 0)])], [([(2, (9, 2))], [4, 6])]⟩

/-- The theorem is about programs that succeed. -/
example : PlanGood twoPlan := by unfold PlanGood twoPlan; decide

/-- They do succeed, and the vector of walls did move its contents. -/
example : (match run (fun c => 2 * c) 3 (fresh 1 1) (program twoPlan [1, 0, 2]) with
    | .ok s => decide ((s.faces 1).at'.length = 3 ∧ (s.faces 1).at'.Nodup ∧ s.h.cell 8 = none ∧ (s.edges 1).at'.length = 3 ∧ s.requests.length = 2 ∧
        access 3 s = .ok ())
    | .error _ => false) = true := by decide +kernel

/-- Another order would not do: edges made before the last face of their type refer to faces which have moved. -/
example : run (fun c => 2 * c) 2 (fresh 1 0) [.element 7, .rawBoundaries, .face 1 [(7, 0)], .edges 1, .face 1 [(7, 1)]] |>.toOption |>.isSome := by
  decide +kernel

example : (match run (fun c => 2 * c) 2 (fresh 1 0) [.element 7, .rawBoundaries, .face 1 [(7, 0)], .edges 1, .face 1 [(7, 1)], .access] with
    | .error e => decide (e = .ub)
    | .ok _ => false) = true := by decide +kernel

/-- Nor would it do to hand the buffers to the library before they have their size. -/
example : (match run (fun c => 2 * c) 3 (fresh 1 1)
      [.element 7, .rawBoundaries, .resize 0 [1], .register, .dface 2 (7, 0) 0, .resize 0 [4], .access] with
    | .error e => decide (e = .ub)
    | .ok _ => false) = true := by decide +kernel

end Verif.Lifetime.Props
