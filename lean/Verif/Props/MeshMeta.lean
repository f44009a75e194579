import Verif.Lemmas.MeshMeta
import Verif.Props.Adcirc

/-!
# Properties C12, C13: edge keys and element adjacency
-/

namespace Verif.MeshMeta.Props
open Verif Verif.Adcirc Verif.MeshMeta

/-- **C12** Two edges get the same key iff they join the same two nodes, for all 32-bit node ids. -/
theorem edge_key_iff (a b c d : ℕ) (ha : a < 2 ^ 32) (hb : b < 2 ^ 32) (hc : c < 2 ^ 32) (hd : d < 2 ^ 32) :
    edgeKey a b = edgeKey c d ↔ s(a, b) = s(c, d) := edgeKey_iff a b c d ha hb hc hd

/-- The key fits into 64 bits. -/
theorem edge_key_lt (a b : ℕ) (ha : a < 2 ^ 32) (hb : b < 2 ^ 32) : edgeKey a b < 2 ^ 64 := by
  rw [edgeKey_eq a b ha hb]; omega

example : edgeKey 7 4294967295 = edgeKey 4294967295 7 ∧ edgeKey 1 2 ≠ edgeKey 1 3 ∧ edgeKey 0 1 ≠ edgeKey 1 1 := by decide

/-- Face `k` of element `e` joins the nodes `a`, `b` (in this order). -/
def IsFace {W R : Type} (m : Fort14 W R) (e k a b : ℕ) : Prop :=
  ∃ ty n0 n1 n2, (e, ty, n0, n1, n2) ∈ m.elements ∧
    ((k = 0 ∧ a = n1 ∧ b = n2) ∨ (k = 1 ∧ a = n2 ∧ b = n0) ∨ (k = 2 ∧ a = n0 ∧ b = n1))

/-- A conforming triangulation: element ids are distinct and below the sentinel, node ids have 32 bits, and no edge belongs
to three different faces. -/
structure Conforming {W R : Type} (m : Fort14 W R) : Prop where
  ids : (m.elements.map Prod.fst).Nodup
  small : ∀ x ∈ m.elements, x.1 < 2 ^ 32 - 1 ∧ x.2.2.1 < 2 ^ 32 ∧ x.2.2.2.1 < 2 ^ 32 ∧ x.2.2.2.2 < 2 ^ 32
  two : ∀ e₁ k₁ a₁ b₁ e₂ k₂ a₂ b₂ e₃ k₃ a₃ b₃, IsFace m e₁ k₁ a₁ b₁ → IsFace m e₂ k₂ a₂ b₂ → IsFace m e₃ k₃ a₃ b₃ →
    s(a₁, b₁) = s(a₂, b₂) → s(a₂, b₂) = s(a₃, b₃) →
    ((e₁, k₁) = (e₂, k₂) ∨ (e₂, k₂) = (e₃, k₃) ∨ (e₁, k₁) = (e₃, k₃))

variable {W R : Type}

theorem mem_faces (m : Fort14 W R) (key e k : ℕ) :
    (key, (e, k)) ∈ m.elements.flatMap faces ↔ ∃ a b, IsFace m e k a b ∧ key = edgeKey a b := by
  rw [List.mem_flatMap]
  constructor
  · rintro ⟨⟨id, ty, n0, n1, n2⟩, hm, hf⟩
    unfold faces at hf
    rw [List.mem_map] at hf
    obtain ⟨k', hk', he⟩ := hf
    rw [List.mem_range] at hk'
    simp only [Prod.mk.injEq] at he
    obtain ⟨h1, rfl, rfl⟩ := he
    have : k' = 0 ∨ k' = 1 ∨ k' = 2 := by omega
    rcases this with rfl | rfl | rfl
    · exact ⟨n1, n2, ⟨ty, n0, n1, n2, hm, Or.inl ⟨rfl, rfl, rfl⟩⟩, h1.symm⟩
    · exact ⟨n2, n0, ⟨ty, n0, n1, n2, hm, Or.inr (Or.inl ⟨rfl, rfl, rfl⟩)⟩, h1.symm⟩
    · exact ⟨n0, n1, ⟨ty, n0, n1, n2, hm, Or.inr (Or.inr ⟨rfl, rfl, rfl⟩)⟩, h1.symm⟩
  · rintro ⟨a, b, ⟨ty, n0, n1, n2, hm, h⟩, rfl⟩
    refine ⟨_, hm, ?_⟩
    rcases h with ⟨rfl, rfl, rfl⟩ | ⟨rfl, rfl, rfl⟩ | ⟨rfl, rfl, rfl⟩ <;> simp [faces, List.range_succ]

theorem isFace_unique (m : Fort14 W R) (hm : Conforming m) {e k a b a' b' : ℕ} (h : IsFace m e k a b)
    (h' : IsFace m e k a' b') : a = a' ∧ b = b' := by
  obtain ⟨ty, n0, n1, n2, h1, h2⟩ := h
  obtain ⟨ty', n0', n1', n2', h1', h2'⟩ := h'
  have e1 := lookup_of_mem hm.ids h1
  have e2 := lookup_of_mem hm.ids h1'
  rw [e1] at e2
  simp only [Option.some.injEq, Prod.mk.injEq] at e2
  omega

theorem isFace_lt (m : Fort14 W R) (hm : Conforming m) {e k a b : ℕ} (h : IsFace m e k a b) :
    a < 2 ^ 32 ∧ b < 2 ^ 32 ∧ e ≠ DEFAULT_ID ∧ k < 3 := by
  obtain ⟨ty, n0, n1, n2, h1, h2⟩ := h
  have := hm.small _ h1
  simp only at this
  unfold DEFAULT_ID
  omega

theorem ends_of_isFace (m : Fort14 W R) (hm : Conforming m) {e k a b : ℕ} (h : IsFace m e k a b) :
    ends m (e, k) = some (a, b) := by
  obtain ⟨ty, n0, n1, n2, h1, h2⟩ := h
  unfold ends
  simp only
  rw [lookup_of_mem hm.ids h1]
  rcases h2 with ⟨rfl, rfl, rfl⟩ | ⟨rfl, rfl, rfl⟩ | ⟨rfl, rfl, rfl⟩ <;> rfl

theorem occ_nodup (m : Fort14 W R) (hm : Conforming m) : ((m.elements.flatMap faces).map Prod.snd).Nodup := by
  have hids := hm.ids
  generalize m.elements = els at hids
  induction els with
  | nil => simp
  | cons x xs ih =>
    rw [List.map_cons, List.nodup_cons] at hids
    rw [List.flatMap_cons, List.map_append, List.nodup_append]
    refine ⟨?_, ih hids.2, ?_⟩
    · obtain ⟨id, ty, n0, n1, n2⟩ := x
      simp [faces, List.range_succ]
    · intro f hf g hg hfg
      subst hfg
      obtain ⟨⟨key, f'⟩, h1, rfl⟩ := List.mem_map.mp hf
      obtain ⟨⟨key', g'⟩, h2, he⟩ := List.mem_map.mp hg
      simp only at he
      subst he
      obtain ⟨y, hy, hy2⟩ := List.mem_flatMap.mp h2
      have c1 : ∀ (z : ℕ × ℕ × ℕ × ℕ × ℕ) (q : ℕ × Face), q ∈ faces z → q.2.1 = z.1 := by
        rintro ⟨id, ty, n0, n1, n2⟩ q hq
        unfold faces at hq
        rw [List.mem_map] at hq
        obtain ⟨_, _, rfl⟩ := hq
        rfl
      have e1 := c1 x _ h1
      have e2 := c1 y _ hy2
      simp only at e1 e2
      exact hids.1 (List.mem_map.mpr ⟨y, hy, by rw [← e2, e1]⟩)

/-- Faces entered under the key of a face. -/
theorem mem_under (m : Fort14 W R) (hm : Conforming m) {e k a b : ℕ} (h : IsFace m e k a b) (f : Face) :
    f ∈ under (m.elements.flatMap faces) (edgeKey a b) ↔ ∃ a' b', IsFace m f.1 f.2 a' b' ∧ s(a', b') = s(a, b) := by
  unfold under
  rw [List.mem_map]
  obtain ⟨ha, hb, _⟩ := isFace_lt m hm h
  constructor
  · rintro ⟨⟨key, f'⟩, hmem, rfl⟩
    rw [List.mem_filter] at hmem
    obtain ⟨h1, h2⟩ := hmem
    simp only [beq_iff_eq] at h2
    obtain ⟨a', b', h3, rfl⟩ := (mem_faces m key f'.1 f'.2).mp h1
    obtain ⟨ha', hb', _⟩ := isFace_lt m hm h3
    exact ⟨a', b', h3, (edgeKey_iff a' b' a b ha' hb' ha hb).mp h2⟩
  · rintro ⟨a', b', h3, h4⟩
    obtain ⟨ha', hb', _⟩ := isFace_lt m hm h3
    refine ⟨(edgeKey a b, f), ?_, rfl⟩
    rw [List.mem_filter]
    refine ⟨(mem_faces m _ f.1 f.2).mpr ⟨a', b', h3, ((edgeKey_iff a' b' a b ha' hb' ha hb).mpr h4).symm⟩, by simp⟩

theorem under_nodup (m : Fort14 W R) (hm : Conforming m) (key : ℕ) : (under (m.elements.flatMap faces) key).Nodup := by
  unfold under
  exact (occ_nodup m hm).sublist (List.Sublist.map _ List.filter_sublist)

/-- The dictionary entry of a face: alone, or together with the one other face on the same edge. -/
theorem dict_entry (m : Fort14 W R) (hm : Conforming m) {e k a b : ℕ} (h : IsFace m e k a b) :
    (under (m.elements.flatMap faces) (edgeKey a b) = [(e, k)]) ∨
    (∃ f : Face, f ≠ (e, k) ∧ (∃ a' b', IsFace m f.1 f.2 a' b' ∧ s(a', b') = s(a, b)) ∧
      (under (m.elements.flatMap faces) (edgeKey a b) = [(e, k), f] ∨
       under (m.elements.flatMap faces) (edgeKey a b) = [f, (e, k)])) := by
  have hmem := mem_under m hm h
  have hnd := under_nodup m hm (edgeKey a b)
  have hself : (e, k) ∈ under (m.elements.flatMap faces) (edgeKey a b) := (hmem _).mpr ⟨a, b, h, rfl⟩
  match hu : under (m.elements.flatMap faces) (edgeKey a b) with
  | [] => rw [hu] at hself; simp at hself
  | [f] => rw [hu] at hself; simp at hself; left; rw [hself]
  | [f, g] =>
    right
    rw [hu] at hself hnd
    have hfg : f ≠ g := by simpa using hnd
    rcases List.mem_cons.mp hself with h1 | h1
    · refine ⟨g, fun h2 => hfg (h1 ▸ h2.symm), (hmem g).mp (by rw [hu]; simp), Or.inl (by rw [h1])⟩
    · have h1 : (e, k) = g := by simpa using h1
      refine ⟨f, fun h2 => hfg (h2.trans h1), (hmem f).mp (by rw [hu]; simp), Or.inr (by rw [h1])⟩
  | f :: g :: i :: rest =>
    exfalso
    obtain ⟨a1, b1, h1, s1⟩ := (hmem f).mp (by rw [hu]; simp)
    obtain ⟨a2, b2, h2, s2⟩ := (hmem g).mp (by rw [hu]; simp)
    obtain ⟨a3, b3, h3, s3⟩ := (hmem i).mp (by rw [hu]; simp)
    rw [hu] at hnd
    simp only [List.nodup_cons, List.mem_cons, not_or] at hnd
    rcases hm.two _ _ _ _ _ _ _ _ _ _ _ _ h1 h2 h3 (s1.trans s2.symm) (s2.trans s3.symm) with h | h | h
    · exact hnd.1.1 h
    · exact hnd.2.1.1 h
    · exact hnd.1.2.1 h

theorem entry_shape (m : Fort14 W R) (hm : Conforming m) (key : ℕ) (x : Face × Face)
    (h : (key, x) ∈ edgeDict m.elements) :
    ∃ a b, IsFace m x.1.1 x.1.2 a b ∧ key = edgeKey a b ∧
      (x.2.1 = DEFAULT_ID ∧ under (m.elements.flatMap faces) key = [x.1] ∨
       x.2.1 ≠ DEFAULT_ID ∧ under (m.elements.flatMap faces) key = [x.1, x.2] ∧ x.2 ≠ x.1 ∧
        ∃ a' b', IsFace m x.2.1 x.2.2 a' b' ∧ s(a', b') = s(a, b)) := by
  have hinv := dict_inv (m.elements.flatMap faces)
  have hl := lookup_of_mem hinv.1 h
  rw [hinv.2] at hl
  -- some face is under the key
  have hne : ∃ f, f ∈ under (m.elements.flatMap faces) key ∧ f = x.1 := by
    cases hu : under (m.elements.flatMap faces) key with
    | nil => rw [hu] at hl; simp [entryOf] at hl
    | cons f fs =>
      rw [hu] at hl; simp only [entryOf, Option.some.injEq] at hl
      exact ⟨f, by simp, by rw [← hl]⟩
  obtain ⟨f, hf, rfl⟩ := hne
  have hf2 := hf
  unfold under at hf
  obtain ⟨⟨key', f'⟩, hmem, he⟩ := List.mem_map.mp hf
  rw [List.mem_filter] at hmem
  obtain ⟨h1, h2⟩ := hmem
  simp only [beq_iff_eq] at h2 he
  subst h2; subst he
  obtain ⟨a, b, hface, rfl⟩ := (mem_faces m _ _ _).mp h1
  refine ⟨a, b, hface, rfl, ?_⟩
  rcases dict_entry m hm hface with hu | ⟨g, hg1, hg2, hu | hu⟩
  · left
    rw [hu] at hl
    simp only [entryOf, Option.some.injEq] at hl
    refine ⟨by rw [← hl]; rfl, by rw [hu]⟩
  · right
    rw [hu] at hl
    simp only [entryOf, Option.some.injEq] at hl
    have hx2 : x.2 = g := by rw [← hl]; rfl
    obtain ⟨a', b', hg3, hg4⟩ := hg2
    refine ⟨by rw [hx2]; exact (isFace_lt m hm hg3).2.2.1, by rw [hu, hx2], by rw [hx2]; exact hg1, a', b', by rw [hx2]; exact hg3, hg4⟩
  · exfalso
    rw [hu] at hl
    simp only [entryOf, Option.some.injEq] at hl
    have : x.1 = g := by rw [← hl]
    exact hg1 this.symm

theorem touch_iff (m : Fort14 W R) (hm : Conforming m) (key : ℕ) (x : Face × Face) (h : (key, x) ∈ edgeDict m.elements) (p : Face) :
    Touch (key, x) p ↔ p ∈ under (m.elements.flatMap faces) key := by
  obtain ⟨a, b, _, _, ⟨h1, h2⟩ | ⟨h1, h2, _⟩⟩ := entry_shape m hm key x h
  · rw [h2]
    unfold Touch
    simp [h1]
  · rw [h2]
    unfold Touch
    simp [h1]

theorem under_key (m : Fort14 W R) (hm : Conforming m) {e k a b key : ℕ} (h : IsFace m e k a b)
    (hu : (e, k) ∈ under (m.elements.flatMap faces) key) : key = edgeKey a b := by
  unfold under at hu
  obtain ⟨⟨key', f'⟩, hmem, he⟩ := List.mem_map.mp hu
  rw [List.mem_filter] at hmem
  obtain ⟨h1, h2⟩ := hmem
  simp only [beq_iff_eq] at h2 he
  subst h2; subst he
  obtain ⟨a', b', hface, rfl⟩ := (mem_faces m _ _ _).mp h1
  obtain ⟨rfl, rfl⟩ := isFace_unique m hm h hface
  rfl

theorem slot_init (m : Fort14 W R) (hm : Conforming m) {e k a b : ℕ} (h : IsFace m e k a b) :
    slot (initElts m.elements) (e, k) ≠ none := by
  obtain ⟨ty, n0, n1, n2, h1, h2⟩ := h
  have hk : k < 3 := by omega
  have hl : (initElts m.elements).lookup e = some ⟨[n0, n1, n2], [0, 0, 0], [0, 0, 0]⟩ := by
    apply lookup_of_mem
    · unfold initElts
      rw [List.map_map]
      exact hm.ids
    · exact List.mem_map.mpr ⟨_, h1, rfl⟩
  unfold slot
  simp only
  rw [hl]
  have : k = 0 ∨ k = 1 ∨ k = 2 := by omega
  rcases this with rfl | rfl | rfl <;> simp

/-- All faces written by an entry exist. -/
theorem touched_exist (m : Fort14 W R) (hm : Conforming m) (x : ℕ × (Face × Face)) (hx : x ∈ edgeDict m.elements) (p : Face)
    (hp : Touch x p) : slot (initElts m.elements) p ≠ none := by
  obtain ⟨key, x⟩ := x
  rw [touch_iff m hm key x hx] at hp
  obtain ⟨a, b, h1, rfl, _⟩ := entry_shape m hm key x hx
  obtain ⟨a', b', h2, _⟩ := (mem_under m hm h1 p).mp hp
  exact slot_init m hm h2

/-- What is stored for each face. -/
theorem build_face (m : Fort14 W R) (hm : Conforming m) (order : Dict) (hperm : order.Perm (edgeDict m.elements)) (M : Elts)
    (h : build m order = .ok M) {e k a b : ℕ} (hf : IsFace m e k a b) :
    ∃ x v, (edgeKey a b, x) ∈ edgeDict m.elements ∧ Val m (edgeDict m.elements) (edgeKey a b, x) (e, k) v ∧
      slot M (e, k) = some v ∧ (e, k) ∈ under (m.elements.flatMap faces) (edgeKey a b) := by
  have hinv := dict_inv (m.elements.flatMap faces)
  have hself : (e, k) ∈ under (m.elements.flatMap faces) (edgeKey a b) := (mem_under m hm hf _).mpr ⟨a, b, hf, rfl⟩
  have hex : ∃ x, (edgeDict m.elements).lookup (edgeKey a b) = some x := by
    unfold edgeDict
    rw [hinv.2]
    cases hu : under (m.elements.flatMap faces) (edgeKey a b) with
    | nil => rw [hu] at hself; simp at hself
    | cons f fs => exact ⟨_, rfl⟩
  obtain ⟨x, hx⟩ := hex
  have hxm := mem_of_lookup hx
  obtain ⟨_, _, h3⟩ := loop_spec m (edgeDict m.elements) order _ M
    (fun y hy p hp => touched_exist m hm y (hperm.mem_iff.mp hy) p hp) h
  obtain ⟨v, hv, hs⟩ := h3 (edgeKey a b, x) (hperm.mem_iff.mpr hxm) (e, k) ((touch_iff m hm _ x hxm _).mpr hself) (by
    rintro ⟨key, y⟩ hy hty
    have hym := hperm.mem_iff.mp hy
    rw [touch_iff m hm key y hym] at hty
    have := under_key m hm hf hty
    subst this
    have e1 := lookup_of_mem hinv.1 hym
    have e2 := lookup_of_mem hinv.1 hxm
    rw [e1] at e2
    simp only [Option.some.injEq] at e2
    rw [e2])
  exact ⟨x, v, hxm, hv, hs, hself⟩

/-- **C13** For every conforming mesh, every iteration order of the elements (the order of `m.elements`) and every iteration
order of the edge dictionary: if the metadata are built, ids and nodes are those of the file; a face that shares its edge
with another face has that face's element as neighbour and type internal (128); every other face has the type given by the
boundary classification and the sentinel as neighbour, or, for levees, an element with a face on the opposite edge. -/
theorem adjacency (m : Fort14 W R) (hm : Conforming m) (order : Dict) (hperm : order.Perm (edgeDict m.elements)) (M : Elts)
    (h : build m order = .ok M) :
    (M.map fun p => (p.1, p.2.nodes)) = (m.elements.map fun (i, _, a, b, c) => (i, [a, b, c])) ∧
    ∀ e k a b, IsFace m e k a b →
      (∀ e' k' a' b', IsFace m e' k' a' b' → (e', k') ≠ (e, k) → s(a', b') = s(a, b) → slot M (e, k) = some (e', 128)) ∧
      ((∀ e' k' a' b', IsFace m e' k' a' b' → s(a', b') = s(a, b) → (e', k') = (e, k)) →
        ∃ nb bt, getIbtype m a b = .ok bt ∧ slot M (e, k) = some (nb, bt) ∧
          (¬ (128 ≤ bt ∧ bt < 192) → nb = 2 ^ 32 - 1) ∧
          ((128 ≤ bt ∧ bt < 192) → ∃ q, getInternalNodePair m a b = .ok q ∧
            (q.1 < 2 ^ 32 → q.2 < 2 ^ 32 → ∃ k' a' b', IsFace m nb k' a' b' ∧ s(a', b') = s(q.1, q.2)))) := by
  constructor
  · have := (loop_spec m (edgeDict m.elements) order _ M
      (fun y hy p hp => touched_exist m hm y (hperm.mem_iff.mp hy) p hp) h).1
    unfold skel at this
    rw [this]
    simp [initElts]
  · intro e k a b hf
    obtain ⟨x, v, hxm, hv, hs, hself⟩ := build_face m hm order hperm M h hf
    obtain ⟨a0, b0, hA, hkey, hshape⟩ := entry_shape m hm _ x hxm
    constructor
    · intro e' k' a' b' hf' hne hsame
      have hother : (e', k') ∈ under (m.elements.flatMap faces) (edgeKey a b) := (mem_under m hm hf _).mpr ⟨a', b', hf', hsame⟩
      rcases hshape with ⟨_, hu⟩ | ⟨hd, hu, hne2, _⟩
      · rw [hu] at hself hother
        simp only [List.mem_singleton] at hself hother
        exact absurd (hother.trans hself.symm) hne
      · rw [hs]
        rw [hu] at hself hother
        simp only [List.mem_cons, List.not_mem_nil, or_false] at hself hother
        rcases hv with ⟨_, hv2, hv3⟩ | ⟨hd', _⟩
        · rcases hv3 with ⟨hp, hv1⟩ | ⟨hp, hv1⟩
          · rcases hother with ho | ho
            · rw [← ho] at hv1
              exact congrArg some (Prod.ext hv1 hv2)
            · exact absurd (ho.trans hp.symm) hne
          · rcases hother with ho | ho
            · rcases hself with hs' | hs'
              · exact absurd (ho.trans hs'.symm) hne
              · exact absurd hs' hp
            · simp only at hv1
              rw [← ho] at hv1
              exact congrArg some (Prod.ext hv1 hv2)
        · exact absurd hd' hd
    · intro halone
      rcases hshape with ⟨hd, hu⟩ | ⟨hd, hu, hne2, a', b', hB, hBs⟩
      · rw [hu] at hself
        simp only [List.mem_singleton] at hself
        rcases hv with ⟨hd', _⟩ | ⟨_, a1, b1, hends, hib, hv3⟩
        · exact absurd hd hd'
        · simp only at hends
          rw [← hself, ends_of_isFace m hm hf] at hends
          simp only [Option.some.injEq, Prod.mk.injEq] at hends
          obtain ⟨rfl, rfl⟩ := hends
          have hint : Util.isInternal v.2 = true ↔ (128 ≤ v.2 ∧ v.2 < 192) := by
            unfold Util.isInternal
            rw [Bool.and_eq_true, decide_eq_true_iff, decide_eq_true_iff]
            rfl
          refine ⟨v.1, v.2, hib, hs, ?_, ?_⟩
          · intro hni
            rcases hv3 with ⟨_, h1⟩ | ⟨h1, _⟩
            · exact h1
            · exact absurd (hint.mp h1) hni
          · intro hi
            rcases hv3 with ⟨h1, _⟩ | ⟨_, q, y, hq, hy, hv1⟩
            · rw [hint.mpr hi] at h1; exact absurd h1 (by simp)
            · refine ⟨q, hq, ?_⟩
              intro hq1 hq2
              obtain ⟨a2, b2, hf2, hk2, _⟩ := entry_shape m hm _ y (mem_of_lookup hy)
              obtain ⟨ha2, hb2, _⟩ := isFace_lt m hm hf2
              refine ⟨y.1.2, a2, b2, by rw [hv1]; exact hf2, ?_⟩
              exact ((edgeKey_iff _ _ _ _ hq1 hq2 ha2 hb2).mp hk2).symm
      · exfalso
        rw [hu] at hself
        simp only [List.mem_cons, List.not_mem_nil, or_false] at hself
        have hAm : x.1 ∈ under (m.elements.flatMap faces) (edgeKey a b) := by rw [hu]; simp
        have hBm : x.2 ∈ under (m.elements.flatMap faces) (edgeKey a b) := by rw [hu]; simp
        obtain ⟨a3, b3, h3, s3⟩ := (mem_under m hm hf _).mp hAm
        obtain ⟨a4, b4, h4, s4⟩ := (mem_under m hm hf _).mp hBm
        exact hne2 ((halone _ _ _ _ h4 s4).trans (halone _ _ _ _ h3 s3).symm)

/-! ### Consequences -/

theorem segmentType_range (IBTYPE : List ℕ) (NBVV : List (List ℕ)) (BAR : List (ℕ × List (Bar R))) (p0 p1 fuel seg t : ℕ)
    (h : segmentType IBTYPE NBVV BAR p0 p1 fuel seg = .ok (some t)) : t ∈ [0, 2, 3, 4, 129] := by
  induction fuel generalizing seg with
  | zero => cases h
  | succ fuel ih =>
    unfold segmentType at h
    obtain ⟨ty, _, h⟩ := bind_ok h
    obtain ⟨nb, _, h⟩ := bind_ok h
    split_ifs at h
    all_goals first
      | exact ih _ h
      | (cases h; decide)
      | (obtain ⟨ib, _, h⟩ := bind_ok h
         split_ifs at h
         · cases h; decide
         · exact ih _ h)

/-- The classification never returns the code of plain internal faces. -/
theorem getIbtype_ne_internal (m : Fort14 W R) (p0 p1 t : ℕ) (h : getIbtype m p0 p1 = .ok t) : t ∈ [0, 1, 2, 3, 4, 129] := by
  delta getIbtype at h
  by_cases h1 : m.NBDV.any (hasEdge p0 p1 none) = true
  · rw [if_pos h1] at h; cases h; decide
  · rw [if_neg h1] at h
    obtain ⟨r, hr, h⟩ := bind_ok h
    cases r with
    | some t' =>
      cases h
      have := segmentType_range _ _ _ _ _ _ _ _ hr
      simp only [List.mem_cons, List.not_mem_nil, or_false] at this ⊢
      omega
    | none =>
      simp only at h
      by_cases h2 : m.NBGN.any (hasEdge p0 p1 none) = true
      · rw [if_pos h2] at h; cases h; decide
      · rw [if_neg h2] at h
        obtain ⟨r2, _, h⟩ := bind_ok h
        cases r2
        · cases h
        · cases h; decide

/-- **C13** (exactly when) face `k` of `e` is internal with neighbour `e'` iff `e'` has another face with the same end nodes;
the relation is symmetric. -/
theorem internal_iff (m : Fort14 W R) (hm : Conforming m) (order : Dict) (hperm : order.Perm (edgeDict m.elements)) (M : Elts)
    (h : build m order = .ok M) (e k a b e' : ℕ) (hf : IsFace m e k a b) :
    slot M (e, k) = some (e', 128) ↔ ∃ k' a' b', IsFace m e' k' a' b' ∧ (e', k') ≠ (e, k) ∧ s(a', b') = s(a, b) := by
  obtain ⟨_, hadj⟩ := adjacency m hm order hperm M h
  obtain ⟨h1, h2⟩ := hadj e k a b hf
  constructor
  · intro hs
    by_contra hno
    by_cases halone : ∀ e' k' a' b', IsFace m e' k' a' b' → s(a', b') = s(a, b) → (e', k') = (e, k)
    · obtain ⟨nb, bt, hbt, hsl, _⟩ := h2 halone
      rw [hs] at hsl
      cases hsl
      have := getIbtype_ne_internal m a b 128 hbt
      simp at this
    · push Not at halone
      obtain ⟨e2, k2, a2, b2, hf2, hs2, hne⟩ := halone
      have := h1 e2 k2 a2 b2 hf2 hne hs2
      rw [hs] at this
      cases this
      exact hno ⟨k2, a2, b2, hf2, hne, hs2⟩
  · rintro ⟨k', a', b', hf', hne, hs⟩
    exact h1 e' k' a' b' hf' hne hs

/-- **C13** (symmetry) the neighbour of a face that is internal has a face that points back. -/
theorem internal_symm (m : Fort14 W R) (hm : Conforming m) (order : Dict) (hperm : order.Perm (edgeDict m.elements)) (M : Elts)
    (h : build m order = .ok M) (e k a b e' : ℕ) (hf : IsFace m e k a b) (hs : slot M (e, k) = some (e', 128)) :
    ∃ k' a' b', IsFace m e' k' a' b' ∧ s(a', b') = s(a, b) ∧ slot M (e', k') = some (e, 128) := by
  obtain ⟨k', a', b', hf', hne, hsame⟩ := (internal_iff m hm order hperm M h e k a b e' hf).mp hs
  exact ⟨k', a', b', hf', hsame, ((adjacency m hm order hperm M h).2 e' k' a' b' hf').1 e k a b hf hne.symm hsame.symm⟩

/-- **C13** (no failure) the metadata are built whenever each edge that belongs to one face only can be classified and, if
it is a levee, its opposite is an edge of the mesh. -/
theorem build_ok (m : Fort14 W R) (hm : Conforming m) (order : Dict) (hperm : order.Perm (edgeDict m.elements))
    (hc : ∀ e k a b, IsFace m e k a b →
      (∀ e' k' a' b', IsFace m e' k' a' b' → s(a', b') = s(a, b) → (e', k') = (e, k)) →
      ∃ bt, getIbtype m a b = .ok bt ∧ (128 ≤ bt → ∃ q e' k' a' b', getInternalNodePair m a b = .ok q ∧
        IsFace m e' k' a' b' ∧ q.1 < 2 ^ 32 ∧ q.2 < 2 ^ 32 ∧ s(a', b') = s(q.1, q.2))) :
    ∃ M, build m order = .ok M := by
  refine loop_ok m _ order _ (fun y hy p hp => touched_exist m hm y (hperm.mem_iff.mp hy) p hp) ?_
  rintro ⟨key, x⟩ hx hd
  obtain ⟨a, b, hA, rfl, ⟨_, hu⟩ | ⟨hd', _⟩⟩ := entry_shape m hm key x (hperm.mem_iff.mp hx)
  · refine ⟨a, b, ends_of_isFace m hm hA, ?_⟩
    obtain ⟨bt, hbt, hint⟩ := hc _ _ _ _ hA (by
      intro e' k' a' b' hf' hs
      have := (mem_under m hm hA (e', k')).mpr ⟨a', b', hf', hs⟩
      rw [hu] at this
      simpa using this)
    refine ⟨bt, hbt, ?_⟩
    intro hi
    have hge : 128 ≤ bt := by
      simp [Util.isInternal, Util.INTERNAL] at hi; exact hi.1
    obtain ⟨q, e', k', a', b', hq, hf', hq1, hq2, hs⟩ := hint hge
    obtain ⟨ha', hb', _⟩ := isFace_lt m hm hf'
    have hk := (edgeKey_iff a' b' q.1 q.2 ha' hb' hq1 hq2).mpr hs
    have hself : (e', k') ∈ under (m.elements.flatMap faces) (edgeKey a' b') := (mem_under m hm hf' _).mpr ⟨a', b', hf', rfl⟩
    have hinv := (dict_inv (m.elements.flatMap faces)).2 (edgeKey a' b')
    cases hu' : under (m.elements.flatMap faces) (edgeKey a' b') with
    | nil => rw [hu'] at hself; simp at hself
    | cons f fs =>
      rw [hu'] at hinv
      exact ⟨q, _, hq, by rw [← hk]; exact hinv⟩
  · exact absurd hd hd'

/-- **C13** (order independence) Two runs over the same mesh with any iteration orders of the element map and of the edge
dictionary store the same neighbour and type for each face, provided the edges opposite to levee edges belong to one face. -/
theorem order_independent (m : Fort14 W R) (hm : Conforming m) (els' : List (ℕ × ℕ × ℕ × ℕ × ℕ)) (hels : els'.Perm m.elements)
    (order order' : Dict) (hperm : order.Perm (edgeDict m.elements)) (hperm' : order'.Perm (edgeDict els')) (M M' : Elts)
    (h : build m order = .ok M) (h' : build { m with elements := els' } order' = .ok M')
    (hlev : ∀ a b q, getInternalNodePair m a b = .ok q → q.1 < 2 ^ 32 ∧ q.2 < 2 ^ 32 ∧
      ∀ e₁ k₁ a₁ b₁ e₂ k₂ a₂ b₂, IsFace m e₁ k₁ a₁ b₁ → IsFace m e₂ k₂ a₂ b₂ → s(a₁, b₁) = s(q.1, q.2) →
        s(a₂, b₂) = s(q.1, q.2) → e₁ = e₂)
    (e k a b : ℕ) (hf : IsFace m e k a b) : slot M (e, k) = slot M' (e, k) := by
  have hface : ∀ e k a b, IsFace { m with elements := els' } e k a b ↔ IsFace m e k a b := by
    intro e k a b
    unfold IsFace
    simp only [hels.mem_iff]
  have hm' : Conforming { m with elements := els' } := by
    refine ⟨(hels.map Prod.fst).nodup_iff.mpr hm.ids, fun x hx => hm.small x (hels.mem_iff.mp hx), ?_⟩
    intro e₁ k₁ a₁ b₁ e₂ k₂ a₂ b₂ e₃ k₃ a₃ b₃ h1 h2 h3
    exact hm.two e₁ k₁ a₁ b₁ e₂ k₂ a₂ b₂ e₃ k₃ a₃ b₃ ((hface _ _ _ _).mp h1) ((hface _ _ _ _).mp h2) ((hface _ _ _ _).mp h3)
  obtain ⟨p1, p2⟩ := (adjacency m hm order hperm M h).2 e k a b hf
  obtain ⟨p1', p2'⟩ := (adjacency _ hm' order' hperm' M' h').2 e k a b ((hface _ _ _ _).mpr hf)
  by_cases halone : ∀ e' k' a' b', IsFace m e' k' a' b' → s(a', b') = s(a, b) → (e', k') = (e, k)
  · obtain ⟨nb, bt, hbt, hs, hn, hi⟩ := p2 halone
    obtain ⟨nb', bt', hbt', hs', hn', hi'⟩ := p2' (fun e' k' a' b' hf' => halone e' k' a' b' ((hface _ _ _ _).mp hf'))
    have hbb : bt = bt' := by
      have : getIbtype m a b = getIbtype { m with elements := els' } a b := rfl
      rw [this, hbt'] at hbt; cases hbt; rfl
    subst hbb
    rw [hs, hs']
    by_cases hint : 128 ≤ bt ∧ bt < 192
    · obtain ⟨q, hq, hq'⟩ := hi hint
      obtain ⟨r, hr, hr'⟩ := hi' hint
      have hqr : q = r := by
        have : getInternalNodePair m a b = getInternalNodePair { m with elements := els' } a b := rfl
        rw [this, hr] at hq; cases hq; rfl
      subst hqr
      obtain ⟨l1, l2, huniq⟩ := hlev a b q hq
      obtain ⟨k1, a1, b1, f1, s1⟩ := hq' l1 l2
      obtain ⟨k2, a2, b2, f2, s2⟩ := hr' l1 l2
      rw [huniq _ _ _ _ _ _ _ _ f1 ((hface _ _ _ _).mp f2) s1 s2]
    · rw [hn hint, hn' hint]
  · push Not at halone
    obtain ⟨e2, k2, a2, b2, hf2, hs2, hne⟩ := halone
    rw [p1 e2 k2 a2 b2 hf2 hne hs2, p1' e2 k2 a2 b2 ((hface _ _ _ _).mpr hf2) hne hs2]

/-- Two triangles separated by a levee from a third one. -/
def sampleMesh : Fort14 String ℕ :=
  { name := "m", nodes := [], elements := [(10, 3, 1, 2, 3), (11, 3, 4, 3, 2), (12, 3, 5, 6, 7)],
    NOPE := 1, NETA := 2, NBDV := [[1, 2]], NBOU := 2, NVEL := 9,
    IBTYPE := [0, 24], NBVV := [[4, 2], [3, 4]],
    BAR := [(1, [⟨5, 1, 1, 1⟩, ⟨6, 1, 1, 1⟩])], gen := some (1, 2), NBGN := [[1, 3], [6, 7, 5]] }

example : (build sampleMesh (edgeDict sampleMesh.elements).reverse) =
    .ok [(10, ⟨[1, 2, 3], [11, 2 ^ 32 - 1, 2 ^ 32 - 1], [128, 0, 1]⟩),
         (11, ⟨[4, 3, 2], [10, 2 ^ 32 - 1, 12], [128, 0, 129]⟩),
         (12, ⟨[5, 6, 7], [2 ^ 32 - 1, 2 ^ 32 - 1, 11], [0, 0, 129]⟩)] := by decide

theorem sampleMesh_conforming : Conforming sampleMesh := by
  have hface : ∀ e k a b, IsFace sampleMesh e k a b →
      (e, k, a, b) ∈ [(10, 0, 2, 3), (10, 1, 3, 1), (10, 2, 1, 2), (11, 0, 3, 2), (11, 1, 2, 4), (11, 2, 4, 3),
        (12, 0, 6, 7), (12, 1, 7, 5), (12, 2, 5, 6)] := by
    rintro e k a b ⟨ty, n0, n1, n2, h1, h2⟩
    simp only [sampleMesh, List.mem_cons, Prod.mk.injEq, List.not_mem_nil, or_false] at h1
    rcases h1 with ⟨rfl, rfl, rfl, rfl, rfl⟩ | ⟨rfl, rfl, rfl, rfl, rfl⟩ | ⟨rfl, rfl, rfl, rfl, rfl⟩ <;>
    rcases h2 with ⟨rfl, rfl, rfl⟩ | ⟨rfl, rfl, rfl⟩ | ⟨rfl, rfl, rfl⟩ <;> decide
  refine ⟨by decide, by decide, ?_⟩
  intro e₁ k₁ a₁ b₁ e₂ k₂ a₂ b₂ e₃ k₃ a₃ b₃ h1 h2 h3 s1 s2
  have g1 := hface _ _ _ _ h1
  have g2 := hface _ _ _ _ h2
  have g3 := hface _ _ _ _ h3
  rw [Sym2.eq_iff] at s1 s2
  have key : ∀ x ∈ [(10, 0, 2, 3), (10, 1, 3, 1), (10, 2, 1, 2), (11, 0, 3, 2), (11, 1, 2, 4), (11, 2, 4, 3),
        (12, 0, 6, 7), (12, 1, 7, 5), (12, 2, 5, 6)], ∀ y ∈ [(10, 0, 2, 3), (10, 1, 3, 1), (10, 2, 1, 2), (11, 0, 3, 2),
        (11, 1, 2, 4), (11, 2, 4, 3), (12, 0, 6, 7), (12, 1, 7, 5), (12, 2, 5, 6)],
        ∀ z ∈ [(10, 0, 2, 3), (10, 1, 3, 1), (10, 2, 1, 2), (11, 0, 3, 2), (11, 1, 2, 4), (11, 2, 4, 3),
        (12, 0, 6, 7), (12, 1, 7, 5), (12, 2, 5, 6)],
      (x.2.2.1 = y.2.2.1 ∧ x.2.2.2 = y.2.2.2 ∨ x.2.2.1 = y.2.2.2 ∧ x.2.2.2 = y.2.2.1) →
      (y.2.2.1 = z.2.2.1 ∧ y.2.2.2 = z.2.2.2 ∨ y.2.2.1 = z.2.2.2 ∧ y.2.2.2 = z.2.2.1) →
      ((x.1, x.2.1) = (y.1, y.2.1) ∨ (y.1, y.2.1) = (z.1, z.2.1) ∨ (x.1, x.2.1) = (z.1, z.2.1)) := by decide +kernel
  exact key _ g1 _ g2 _ g3 s1 s2

example : ∃ M, build sampleMesh (edgeDict sampleMesh.elements) = .ok M ∧ slot M (11, 0) = some (10, 128) ∧
    slot M (10, 0) = some (11, 128) := ⟨_, rfl, rfl, rfl⟩

end Verif.MeshMeta.Props
