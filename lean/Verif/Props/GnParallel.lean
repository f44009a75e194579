import Verif.Lemmas.GnParallel
import Verif.Props.GnCondense

/-!
# C95: the global problem of the dispersive correction on several ranks

The ranks number every edge of the whole mesh once, both sides of a cut edge with the same number (`renumberP_numbered`), and what all ranks together assemble,
solve and substitute is a solution of the system of the whole mesh (`parallel_solved`).
-/

namespace Verif.Gn.Props
open Verif.Gn Verif.Ihdg Verif.Ehdg Verif.Ihdg.Props

/-- The edge of the whole mesh which an edge of a submesh stands for, with the face on the first of both submeshes first; nothing on the second submesh. -/
def joined (home : ℕ → ℕ × ℕ) : PEdge → Option (List Face)
  | .int c c' => some [c, c']
  | .bnd c => some [c]
  | .dist c ex => if (home c.e).1 < (home ex.e).1 ∨ ((home c.e).1 = (home ex.e).1 ∧ (home c.e).2 < (home ex.e).2) then some [c, ex] else none

/-- `P` is a partition of the mesh `s`: distributed boundaries come in pairs, on different submeshes. -/
structure Shared (P : PSkel) (s : Skel) : Prop where
  elts : ∀ e, e ∈ P.elts ↔ e ∈ s.elts
  ndof : P.ndof = s.ndof
  size : P.m = s.m
  nodup : (P.edges.flatMap PEdge.faces).Nodup
  pair : ∀ c ex, PEdge.dist c ex ∈ P.edges → PEdge.dist ex c ∈ P.edges
  homes : ∀ c ex, PEdge.dist c ex ∈ P.edges → P.home c.e ≠ P.home ex.e
  edges : s.edges.Perm (P.edges.filterMap (joined P.home))

theorem before_iff (a b : ℕ × ℕ) : before a b = true ↔ a.1 < b.1 ∨ (a.1 = b.1 ∧ a.2 < b.2) := by
  unfold before; simp

theorem before_asymm {a b : ℕ × ℕ} (h : before a b = true) : before b a = false := by
  rw [Bool.eq_false_iff, Ne, before_iff]
  rw [before_iff] at h
  omega

theorem before_total {a b : ℕ × ℕ} (h : a ≠ b) : before a b = true ∨ before b a = true := by
  rw [before_iff, before_iff]
  by_contra hc
  push Not at hc
  exact h (Prod.ext (by omega) (by omega))

section
variable {P : PSkel} {s : Skel} (hP : Shared P s)
include hP

theorem shared_edge {k : ℕ} (hk : k < s.edges.length) : ∃ x ∈ P.edges, joined P.home x = some s.edges[k] :=
  List.mem_filterMap.1 (hP.edges.mem_iff.1 (List.getElem_mem hk))

theorem edge_shared {x : PEdge} (hx : x ∈ P.edges) {l : List Face} (h : joined P.home x = some l) : ∃ k, ∃ hk : k < s.edges.length, s.edges[k] = l := by
  obtain ⟨k, hk, he⟩ := List.getElem_of_mem (hP.edges.mem_iff.2 (List.mem_filterMap.2 ⟨x, hx, h⟩))
  exact ⟨k, hk, he⟩

/-- The edge of the whole mesh at an edge of a submesh. -/
theorem edge_of {x : PEdge} (hx : x ∈ P.edges) : ∃ k, ∃ hk : k < s.edges.length, ∀ c ∈ x.faces, c ∈ s.edges[k] := by
  cases x with
  | int c c' => obtain ⟨k, hk, he⟩ := edge_shared hP hx rfl; exact ⟨k, hk, fun d hd => he ▸ hd⟩
  | bnd c => obtain ⟨k, hk, he⟩ := edge_shared hP hx rfl; exact ⟨k, hk, fun d hd => he ▸ hd⟩
  | dist c ex =>
    rcases before_total (hP.homes c ex hx) with h | h
    · obtain ⟨k, hk, he⟩ := edge_shared hP hx (l := [c, ex]) (if_pos ((before_iff _ _).1 h))
      refine ⟨k, hk, fun d hd => ?_⟩
      rw [he]
      simp only [PEdge.faces, List.mem_singleton] at hd
      simp [hd]
    · obtain ⟨k, hk, he⟩ := edge_shared hP (hP.pair c ex hx) (l := [ex, c]) (if_pos ((before_iff _ _).1 h))
      refine ⟨k, hk, fun d hd => ?_⟩
      rw [he]
      simp only [PEdge.faces, List.mem_singleton] at hd
      simp [hd]

theorem face_mem {c : Face} : c ∈ P.edges.flatMap PEdge.faces ↔ c ∈ s.edges.flatten := by
  constructor
  · intro h
    obtain ⟨x, hx, hc⟩ := List.mem_flatMap.1 h
    obtain ⟨k, hk, hm⟩ := edge_of hP hx
    exact List.mem_flatten.2 ⟨_, List.getElem_mem hk, hm c hc⟩
  · intro h
    obtain ⟨l, hl, hc⟩ := List.mem_flatten.1 h
    obtain ⟨x, hx, hj⟩ := List.mem_filterMap.1 (hP.edges.mem_iff.1 hl)
    cases x with
    | int d d' => cases hj; exact List.mem_flatMap.2 ⟨_, hx, hc⟩
    | bnd d => cases hj; exact List.mem_flatMap.2 ⟨_, hx, hc⟩
    | dist d ex =>
      simp only [joined] at hj
      by_cases hb : (P.home d.e).1 < (P.home ex.e).1 ∨ ((P.home d.e).1 = (P.home ex.e).1 ∧ (P.home d.e).2 < (P.home ex.e).2)
      · rw [if_pos hb] at hj
        cases hj
        rcases List.mem_cons.1 hc with rfl | hc
        · exact List.mem_flatMap.2 ⟨_, hx, by simp [PEdge.faces]⟩
        · rw [List.mem_singleton] at hc
          subst hc
          exact List.mem_flatMap.2 ⟨_, hP.pair _ _ hx, by simp [PEdge.faces]⟩
      · rw [if_neg hb] at hj; cases hj

end

/-! ### Numbering -/

theorem split_ranks {P : PSkel} {x : PEdge} (hx : x ∈ P.edges) : ∃ R1 r1 r2 R2, P.ranks = R1 ++ (r1 ++ x :: r2) :: R2 := by
  obtain ⟨r, hr, hx⟩ := List.mem_flatten.1 hx
  obtain ⟨R1, R2, h⟩ := List.append_of_mem hr
  obtain ⟨r1, r2, rfl⟩ := List.append_of_mem hx
  exact ⟨R1, r1, r2, R2, h⟩

theorem zip_split {α : Type} (R1 R2 : List α) (r : α) (o : List ℕ) (h : o.length = (R1 ++ r :: R2).length) :
    (R1 ++ r :: R2).zip o = R1.zip (o.take R1.length) ++ (r, o.getD R1.length 0) :: R2.zip (o.drop (R1.length + 1)) := by
  have h1 : R1.length < o.length := by simp at h; omega
  conv_lhs => rw [← List.take_append_drop R1.length o]
  rw [List.zip_append (by simp; omega), List.drop_eq_getElem_cons h1, List.zip_cons_cons]
  simp [List.getD_eq_getElem?_getD, h1]

section
variable {P : PSkel} {wet : ℕ → Bool}

/-- The numbers before the ranks exchange them. -/
def sentNumbers (P : PSkel) (wet : ℕ → Bool) (t : PIndex) : ℕ → ℕ → ℕ :=
  (P.ranks.zip (offsets (P.ranks.foldl (takeNumbers P.home wet) ([], t.face)).1)).foldl (fun f r => r.1.foldl (shiftNumber P.home wet r.2) f)
    (P.ranks.foldl (takeNumbers P.home wet) ([], t.face)).2

theorem sent_at (hn : (P.edges.flatMap PEdge.faces).Nodup) (t : PIndex) {x : PEdge} (hw : takes P.home wet x) {R1 r1 r2 R2}
    (hr : P.ranks = R1 ++ (r1 ++ x :: r2) :: R2) {c : Face} (hc : c ∈ x.faces) :
    sentNumbers P wet t c.e c.f = (R1.flatten ++ r1).countP (takes P.home wet) := by
  unfold PSkel.edges at hn
  unfold sentNumbers
  rw [takes_counts, List.nil_append]
  have hl : (offsets (P.ranks.map (List.countP (takes P.home wet)))).length = P.ranks.length := by
    rw [offsets_length (by rw [hr]; simp), List.length_map]
  have hz := zip_split R1 R2 (r1 ++ x :: r2) (offsets (P.ranks.map (List.countP (takes P.home wet)))) (by rw [hl, hr])
  rw [← hr] at hz
  have hn' : (((P.ranks.zip (offsets (P.ranks.map (List.countP (takes P.home wet))))).map Prod.fst).flatten.flatMap PEdge.faces).Nodup := by
    rw [List.map_fst_zip (by rw [hl])]; exact hn
  rw [hz] at hn' ⊢
  rw [shifts_at hw hn' _ hc]
  rw [hr] at hn ⊢
  rw [takes_at hw hn _ (own_mem x), offsets_get (by simp)]
  simp only [List.map_append, List.map_cons, List.countP_append, List.countP_flatten]
  rw [List.take_left' (by simp)]
  omega

theorem renumberP_face (P : PSkel) (wet : ℕ → Bool) (t : PIndex) :
    (renumberP P wet t).face = (P.ranks.foldl (localNumbers P.home wet (sentNumbers P wet t)) (sentNumbers P wet t, t.loc, [])).1 := rfl

theorem renumberP_total (P : PSkel) (wet : ℕ → Bool) (t : PIndex) : (renumberP P wet t).total = P.edges.countP (takes P.home wet) := by
  show (P.ranks.foldl (takeNumbers P.home wet) ([], t.face)).1.sum = _
  rw [takes_counts, PSkel.edges, List.countP_flatten]
  simp

theorem face_final (hn : (P.edges.flatMap PEdge.faces).Nodup) (t : PIndex) {x : PEdge} (hx : x ∈ P.edges) {c : Face} (hc : c ∈ x.faces) :
    (renumberP P wet t).face c.e c.f = if wetEdge wet x.faces then receive P.home (sentNumbers P wet t) (sentNumbers P wet t) x c.e c.f else sentNumbers P wet t c.e c.f := by
  obtain ⟨R1, r1, r2, R2, hr⟩ := split_ranks hx
  rw [renumberP_face]
  unfold PSkel.edges at hn
  rw [hr] at hn
  have := (locals_at (home := P.home) (wet := wet) (sentNumbers P wet t) hn (sentNumbers P wet t, t.loc, [])).1 c hc
  rw [← hr] at this
  exact this

/-- The edges which a rank numbers. -/
theorem number_takes (hn : (P.edges.flatMap PEdge.faces).Nodup) (t : PIndex) {x : PEdge} (hx : x ∈ P.edges) (hw : takes P.home wet x) :
    ∃ E1 E2, P.edges = E1 ++ x :: E2 ∧ ∀ c ∈ x.faces, (renumberP P wet t).face c.e c.f = E1.countP (takes P.home wet) := by
  obtain ⟨R1, r1, r2, R2, hr⟩ := split_ranks hx
  refine ⟨R1.flatten ++ r1, r2 ++ R2.flatten, by unfold PSkel.edges; rw [hr]; simp, fun c hc => ?_⟩
  rw [face_final hn t hx hc, ← sent_at hn t hw hr hc]
  cases x with
  | int => simp [receive]
  | bnd => simp [receive]
  | dist d ex =>
    have hb : before (P.home ex.e) (P.home d.e) = false := by
      simp only [takes, Bool.and_eq_true] at hw
      exact before_asymm hw.2
    simp [receive, hb]

/-- The edges whose number a rank receives. -/
theorem number_dist (hn : (P.edges.flatMap PEdge.faces).Nodup) (t : PIndex) {c ex : Face} (hx : PEdge.dist c ex ∈ P.edges) (hx' : PEdge.dist ex c ∈ P.edges) (hw : wet c.e)
    (hb : before (P.home ex.e) (P.home c.e)) : (renumberP P wet t).face c.e c.f = (renumberP P wet t).face ex.e ex.f := by
  have hwe : wetEdge wet (PEdge.dist c ex).faces = true := by simp [wetEdge, PEdge.faces, hw]
  rw [face_final hn t hx (c := c) (by simp [PEdge.faces]), face_final hn t hx' (c := ex) (by simp [PEdge.faces]), if_pos hwe]
  have h1 : receive P.home (sentNumbers P wet t) (sentNumbers P wet t) (PEdge.dist c ex) c.e c.f = sentNumbers P wet t ex.e ex.f := by
    unfold receive
    simp only [if_pos hb]
    rw [setIdx_at, if_pos rfl]
  have h2 : receive P.home (sentNumbers P wet t) (sentNumbers P wet t) (PEdge.dist ex c) ex.e ex.f = sentNumbers P wet t ex.e ex.f := by
    unfold receive
    simp only [before_asymm hb]
    rfl
  rw [h1, h2, ite_self]

theorem split_eq {α : Type} {p : α → Bool} {l E1 E2 F1 F2 : List α} {x y : α} (h1 : l = E1 ++ x :: E2) (h2 : l = F1 ++ y :: F2) (hx : p x) (hy : p y)
    (h : E1.countP p = F1.countP p) : x = y := by
  have key : ∀ (E1 F1 E2 F2 : List α) (x y : α), E1 ++ x :: E2 = F1 ++ y :: F2 → p x → E1.countP p = F1.countP p → F1.length ≤ E1.length ∨ False := by
    intro E1 F1 E2 F2 x y he hx hc
    left
    by_contra hlt
    push Not at hlt
    have ht := congrArg (List.take (E1.length + 1)) he
    rw [List.take_append, List.take_of_length_le (by omega), show E1.length + 1 - E1.length = 1 by omega, List.take_append_of_le_length (by omega)] at ht
    have hs : (E1 ++ [x]).Sublist F1 := by
      have : E1 ++ [x] = F1.take (E1.length + 1) := by simpa using ht
      rw [this]; exact List.take_sublist _ _
    have := hs.countP_le (p := p)
    rw [List.countP_append] at this
    simp [hx] at this
    omega
  have he : E1 ++ x :: E2 = F1 ++ y :: F2 := h1 ▸ h2
  have l1 := (key E1 F1 E2 F2 x y he hx h).resolve_right id
  have l2 := (key F1 E1 F2 E2 y x he.symm hy h.symm).resolve_right id
  obtain ⟨_, h3⟩ := List.append_inj he (by omega)
  exact (List.cons.inj h3).1

end

/-- What the numbers of the ranks have to be: an edge of a wet element has one number, on both sides of a cut, no other edge has the same one, and the
vector of a rank holds the number of the edge at the place the edge remembers. -/
structure PNumbered (P : PSkel) (wet : ℕ → Bool) (t : PIndex) : Prop where
  lt : ∀ x ∈ P.edges, wetEdge wet x.faces → t.face x.own.e x.own.f < t.total
  same : ∀ x ∈ P.edges, wetEdge wet x.faces → ∀ c ∈ x.faces, t.face c.e c.f = t.face x.own.e x.own.f
  pair : ∀ c ex, PEdge.dist c ex ∈ P.edges → wet c.e → wet ex.e → t.face c.e c.f = t.face ex.e ex.f
  inj : ∀ x ∈ P.edges, ∀ y ∈ P.edges, wetEdge wet x.faces → wetEdge wet y.faces → t.face x.own.e x.own.f = t.face y.own.e y.own.f →
    x = y ∨ ∃ c ex, x = .dist c ex ∧ y = .dist ex c
  ranks : t.globals.length = P.ranks.length
  loc : ∀ p ∈ P.ranks.zip t.globals, ∀ x ∈ p.1, wetEdge wet x.faces → t.loc x.own.e x.own.f < p.2.length ∧ p.2.getD (t.loc x.own.e x.own.f) 0 = t.face x.own.e x.own.f

theorem PNumbered.mono {P : PSkel} {wet wet' : ℕ → Bool} (hw : ∀ e, wet' e → wet e) {t : PIndex} (h : PNumbered P wet t) : PNumbered P wet' t := by
  have hE : ∀ l : List Face, wetEdge wet' l → wetEdge wet l := by
    intro l hl
    obtain ⟨c, hc, hm⟩ := List.any_eq_true.1 hl
    exact List.any_eq_true.2 ⟨c, hc, hw _ hm⟩
  exact ⟨fun x hx hx' => h.lt x hx (hE _ hx'), fun x hx hx' => h.same x hx (hE _ hx'), fun c ex hx h1 h2 => h.pair c ex hx (hw _ h1) (hw _ h2),
    fun x hx y hy h1 h2 => h.inj x hx y hy (hE _ h1) (hE _ h2), h.ranks, fun p hp x hx hx' => h.loc p hp x hx (hE _ hx')⟩

section
variable {P : PSkel} {s : Skel} {wet : ℕ → Bool}

/-- A wet edge is numbered by its rank, or it is the second side of a cut and the other rank numbers it. -/
theorem takes_or (hP : Shared P s) {x : PEdge} (hx : x ∈ P.edges) (hw : wetEdge wet x.faces) :
    takes P.home wet x ∨ ∃ c ex, x = .dist c ex ∧ PEdge.dist ex c ∈ P.edges ∧ takes P.home wet (.dist ex c) ∧ before (P.home ex.e) (P.home c.e) := by
  cases x with
  | int c c' => exact .inl hw
  | bnd c => exact .inl hw
  | dist c ex =>
    have hc : wet c.e = true := by simpa [wetEdge, PEdge.faces] using hw
    rcases before_total (hP.homes c ex hx) with h | h
    · left; simp [takes, hc, h]
    · right; exact ⟨c, ex, rfl, hP.pair c ex hx, by simp [takes, hc, h], h⟩

/-- C95. The numbering with wetting and drying. -/
theorem renumberP_numbered (hP : Shared P s) (wet : ℕ → Bool) (t : PIndex) : PNumbered P wet (renumberP P wet t) := by
  -- the edge which carries the number
  have hrep : ∀ x ∈ P.edges, wetEdge wet x.faces → ∃ y E1 E2, takes P.home wet y ∧ P.edges = E1 ++ y :: E2 ∧ (x = y ∨ ∃ c ex, x = .dist c ex ∧ y = .dist ex c) ∧
      ∀ c ∈ x.faces, (renumberP P wet t).face c.e c.f = E1.countP (takes P.home wet) := by
    intro x hx hw
    rcases takes_or hP hx hw with h | ⟨c, ex, rfl, h1, h2, h3⟩
    · obtain ⟨E1, E2, he, hc⟩ := number_takes hP.nodup t hx h
      exact ⟨x, E1, E2, h, he, .inl rfl, hc⟩
    · obtain ⟨E1, E2, he, hc⟩ := number_takes hP.nodup t h1 h2
      refine ⟨_, E1, E2, h2, he, .inr ⟨c, ex, rfl, rfl⟩, fun d hd => ?_⟩
      simp only [PEdge.faces, List.mem_singleton] at hd
      subst hd
      rw [number_dist hP.nodup t hx h1 (by simpa [wetEdge, PEdge.faces] using hw) h3]
      exact hc ex (by simp [PEdge.faces])
  have hown := fun x : PEdge => own_mem x
  have hglob : (renumberP P wet t).globals = P.ranks.map fun r => (r.filter fun x => wetEdge wet x.faces).map fun x =>
      receive P.home (sentNumbers P wet t) (sentNumbers P wet t) x x.own.e x.own.f := by
    show (P.ranks.foldl (localNumbers P.home wet (sentNumbers P wet t)) (sentNumbers P wet t, t.loc, [])).2.2 = _
    rw [locals_globals _ _ _ hP.nodup, List.nil_append]
  refine ⟨?_, ?_, ?_, ?_, by rw [hglob, List.length_map], ?_⟩
  · intro x hx hw
    obtain ⟨y, E1, E2, hy, he, _, hc⟩ := hrep x hx hw
    rw [hc _ (hown x), renumberP_total, he, List.countP_append, List.countP_cons_of_pos hy]
    omega
  · intro x hx hw c hc
    obtain ⟨y, E1, E2, hy, he, _, h⟩ := hrep x hx hw
    rw [h c hc, h _ (hown x)]
  · intro c ex hx hc hex
    have hx' := hP.pair c ex hx
    rcases before_total (hP.homes c ex hx) with h | h
    · exact (number_dist hP.nodup t hx' hx hex h).symm
    · exact number_dist hP.nodup t hx hx' hc h
  · intro x hx y hy hwx hwy he
    obtain ⟨x', E1, E2, hx', hE, hxx, hcx⟩ := hrep x hx hwx
    obtain ⟨y', F1, F2, hy', hF, hyy, hcy⟩ := hrep y hy hwy
    rw [hcx _ (hown x), hcy _ (hown y)] at he
    have hxy := split_eq hE hF hx' hy' he
    subst hxy
    rcases hxx with rfl | ⟨c, ex, rfl, rfl⟩
    · rcases hyy with rfl | ⟨d, dx, rfl, rfl⟩
      · exact .inl rfl
      · exact .inr ⟨dx, d, rfl, rfl⟩
    · rcases hyy with rfl | ⟨d, dx, rfl, h⟩
      · exact .inr ⟨c, ex, rfl, rfl⟩
      · cases h; exact .inl rfl
  · intro p hp x hx hw
    rw [hglob] at hp
    have hp2 : p.1 ∈ P.ranks ∧ p.2 = (p.1.filter fun x => wetEdge wet x.faces).map fun x =>
        receive P.home (sentNumbers P wet t) (sentNumbers P wet t) x x.own.e x.own.f := by
      obtain ⟨n, hn1, hn2⟩ := List.getElem_of_mem hp
      rw [List.getElem_zip] at hn2
      rw [← hn2]
      exact ⟨List.getElem_mem _, List.getElem_map _⟩
    obtain ⟨hr, h2⟩ := hp2
    obtain ⟨R1, R2, hR⟩ := List.append_of_mem hr
    obtain ⟨r1, r2, hr'⟩ := List.append_of_mem hx
    have hn := hP.nodup
    unfold PSkel.edges at hn
    rw [hr'] at hR
    rw [hR] at hn
    have hloc : (renumberP P wet t).loc x.own.e x.own.f = r1.countP fun x => wetEdge wet x.faces := by
      show (P.ranks.foldl (localNumbers P.home wet (sentNumbers P wet t)) (sentNumbers P wet t, t.loc, [])).2.1 x.own.e x.own.f = _
      rw [hR]
      exact (locals_at (home := P.home) (wet := wet) (sentNumbers P wet t) hn (sentNumbers P wet t, t.loc, [])).2 hw
    have hxe : x ∈ P.edges := List.mem_flatten.2 ⟨p.1, hr, hx⟩
    rw [hloc, h2, hr', List.filter_append, List.filter_cons_of_pos (p := fun x : PEdge => wetEdge wet x.faces) hw, List.countP_eq_length_filter]
    refine ⟨by simp, ?_⟩
    rw [face_final hP.nodup t hxe (hown x), if_pos hw]
    simp [List.getD_eq_getElem?_getD]

/-- C95. The numbering of the preprocessor, without wetting and drying. -/
theorem initialP_numbered (hP : Shared P s) (wet : ℕ → Bool) : PNumbered P wet (initialP P) := (renumberP_numbered hP (fun _ => true) _).mono fun _ _ => rfl

/-! ### The numbers of the whole mesh -/

/-- The number of an edge of the whole mesh: that of one of its faces on a wet element. -/
def numOf (wet : ℕ → Bool) (t : PIndex) (l : List Face) : ℕ :=
  match l.find? fun c => wet c.e with
  | some c => t.face c.e c.f
  | none => 0

def whole (s : Skel) (wet : ℕ → Bool) (t : PIndex) : Index :=
  ⟨t.total, fun k => numOf wet t (s.edges.getD k []), fun e f => numOf wet t ((s.edges.find? fun l => l.contains (⟨e, f⟩ : Face)).getD [])⟩

theorem dist_edge (hP : Shared P s) {c ex : Face} (hx : PEdge.dist c ex ∈ P.edges) : ∃ k, ∃ hk : k < s.edges.length, c ∈ s.edges[k] ∧ ex ∈ s.edges[k] := by
  rcases before_total (hP.homes c ex hx) with h | h
  · obtain ⟨k, hk, he⟩ := edge_shared hP hx (l := [c, ex]) (if_pos ((before_iff _ _).1 h))
    exact ⟨k, hk, by simp [he], by simp [he]⟩
  · obtain ⟨k, hk, he⟩ := edge_shared hP (hP.pair c ex hx) (l := [ex, c]) (if_pos ((before_iff _ _).1 h))
    exact ⟨k, hk, by simp [he], by simp [he]⟩

/-- Two wet faces of an edge of the whole mesh have the same number. -/
theorem num_same (hP : Shared P s) {t : PIndex} (ht : PNumbered P wet t) {k : ℕ} (hk : k < s.edges.length) {c d : Face} (hc : c ∈ s.edges[k]) (hd : d ∈ s.edges[k])
    (hwc : wet c.e) (hwd : wet d.e) : t.face c.e c.f = t.face d.e d.f := by
  obtain ⟨x, hx, hj⟩ := shared_edge hP hk
  have hin : ∀ l, joined P.home x = some l → l = s.edges[k] := fun l h => Option.some.inj (h.symm.trans hj)
  cases x with
  | int a a' =>
    have hl := hin _ rfl
    rw [← hl] at hc hd
    have hw : wetEdge wet (PEdge.int a a').faces := wetEdge_of (c := c) hc hwc
    rw [ht.same _ hx hw c hc, ht.same _ hx hw d hd]
  | bnd a =>
    have hl := hin _ rfl
    rw [← hl, List.mem_singleton] at hc hd
    rw [hc, hd]
  | dist a b =>
    simp only [joined] at hj
    by_cases hb : (P.home a.e).1 < (P.home b.e).1 ∨ ((P.home a.e).1 = (P.home b.e).1 ∧ (P.home a.e).2 < (P.home b.e).2)
    · rw [if_pos hb] at hj
      have hl := Option.some.inj hj
      rw [← hl] at hc hd
      simp only [List.mem_cons, List.not_mem_nil, or_false] at hc hd
      rcases hc with rfl | rfl <;> rcases hd with rfl | rfl
      · rfl
      · exact ht.pair _ _ hx hwc hwd
      · exact (ht.pair _ _ hx hwd hwc).symm
      · rfl
    · rw [if_neg hb] at hj; cases hj

theorem whole_edge (hP : Shared P s) {t : PIndex} (ht : PNumbered P wet t) {k : ℕ} (hk : k < s.edges.length) {c : Face} (hc : c ∈ s.edges[k]) (hw : wet c.e) :
    (whole s wet t).edge k = t.face c.e c.f := by
  show numOf wet t (s.edges.getD k []) = _
  rw [getD_edge' s hk]
  unfold numOf
  rcases hf : s.edges[k].find? (fun c => wet c.e) with _ | d
  · have := List.find?_eq_none.1 hf c hc
    exact absurd hw this
  · rw [hf]
    exact num_same hP ht hk (List.mem_of_find?_eq_some hf) hc (by simpa using List.find?_some hf) hw

theorem whole_face (hs : Whole s) (wet : ℕ → Bool) (t : PIndex) {k : ℕ} (hk : k < s.edges.length) {c : Face} (hc : c ∈ s.edges[k]) :
    (whole s wet t).face c.e c.f = (whole s wet t).edge k := by
  show numOf wet t _ = numOf wet t _
  rw [getD_edge' s hk]
  rcases hf : s.edges.find? (fun l => l.contains (⟨c.e, c.f⟩ : Face)) with _ | l
  · have := List.find?_eq_none.1 hf _ (List.getElem_mem hk)
    simp [hc] at this
  · have hm : c ∈ l := by simpa using List.find?_some hf
    obtain ⟨j, hj, rfl⟩ := List.getElem_of_mem (List.mem_of_find?_eq_some hf)
    have := edge_unique hs hj hk hm hc
    subst this
    rw [hf]
    rfl

/-- The faces of a wet element have the number of their edge in the whole mesh. -/
theorem whole_wet (hP : Shared P s) (hs : Whole s) {t : PIndex} (ht : PNumbered P wet t) {e f : ℕ} (he : e ∈ s.elts) (hf : f < 3) (hw : wet e) :
    t.face e f = (whole s wet t).face e f := by
  obtain ⟨k, hk, hm⟩ := face_edge hs he hf
  rw [← whole_edge hP ht hk hm hw]
  exact (whole_face hs wet t hk hm).symm

theorem wet_face {wet : ℕ → Bool} {l : List Face} (h : wetEdge wet l) : ∃ c ∈ l, wet c.e := List.any_eq_true.1 h

/-- A wet edge of a submesh and the edge of the whole mesh of the same number. -/
theorem num_iff (hP : Shared P s) (hs : Whole s) {t : PIndex} (ht : PNumbered P wet t) {k : ℕ} (hk : k < s.edges.length) (hwk : wetEdge wet s.edges[k]) {y : PEdge}
    (hy : y ∈ P.edges) (hw : wetEdge wet y.faces) : t.face y.own.e y.own.f = (whole s wet t).edge k ↔ y.own ∈ s.edges[k] := by
  obtain ⟨c, hc, hwc⟩ := wet_face hw
  obtain ⟨j, hj, hm⟩ := edge_of hP hy
  constructor
  · intro h
    obtain ⟨d, hd, hwd⟩ := wet_face hwk
    rw [whole_edge hP ht hk hd hwd] at h
    obtain ⟨z, hz, hdz⟩ := List.mem_flatMap.1 ((face_mem hP).2 (List.mem_flatten.2 ⟨_, List.getElem_mem hk, hd⟩))
    have hwz : wetEdge wet z.faces := wetEdge_of hdz hwd
    rw [ht.same z hz hwz d hdz] at h
    rcases ht.inj y hy z hz hw hwz h with rfl | ⟨a, b, rfl, rfl⟩
    · have := edge_unique hs hj hk (hm d hdz) hd
      subst this
      exact hm _ (own_mem _)
    · obtain ⟨i, hi, h1, h2⟩ := dist_edge hP hy
      simp only [PEdge.faces, List.mem_singleton] at hdz
      subst hdz
      have := edge_unique hs hi hk h2 hd
      subst this
      exact h1
  · intro h
    have := edge_unique hs hj hk (hm _ (own_mem y)) h
    subst this
    rw [whole_edge hP ht hk (hm c hc) hwc, ht.same y hy hw c hc]

theorem whole_numbered (hP : Shared P s) (hs : Whole s) {t : PIndex} (ht : PNumbered P wet t) : Numbered s wet (whole s wet t) := by
  have hrep : ∀ (k : ℕ) (hk : k < s.edges.length), wetEdge wet s.edges[k] → ∃ y ∈ P.edges, wetEdge wet y.faces ∧ y.own ∈ s.edges[k] := by
    intro k hk hw
    obtain ⟨c, hc, hwc⟩ := wet_face hw
    obtain ⟨y, hy, hcy⟩ := List.mem_flatMap.1 ((face_mem hP).2 (List.mem_flatten.2 ⟨_, List.getElem_mem hk, hc⟩))
    obtain ⟨j, hj, hm⟩ := edge_of hP hy
    have := edge_unique hs hj hk (hm c hcy) hc
    subst this
    exact ⟨y, hy, wetEdge_of hcy hwc, hm _ (own_mem y)⟩
  refine ⟨?_, ?_, ?_⟩
  · intro k hk hw
    obtain ⟨y, hy, hwy, hm⟩ := hrep k hk hw
    rw [← (num_iff hP hs ht hk hw hy hwy).2 hm]
    exact ht.lt y hy hwy
  · intro j k hj hk hwj hwk he
    obtain ⟨y, hy, hwy, hm⟩ := hrep j hj hwj
    have h1 := (num_iff hP hs ht hj hwj hy hwy).2 hm
    rw [he] at h1
    exact edge_unique hs hj hk hm ((num_iff hP hs ht hk hwk hy hwy).1 h1)
  · intro k hk hw c hc
    exact whole_face hs wet t hk hc

end

/-! ### Rows -/

section
variable {K : Type} [Field K] {P : PSkel} {s : Skel} {wet : ℕ → Bool}

theorem sum_filter_if {α : Type} {l : List α} {p : α → Bool} {f g : α → K} (h : ∀ y ∈ l, f y = if p y then g y else 0) : (l.map f).sum = ((l.filter p).map g).sum := by
  induction l with
  | nil => rfl
  | cons a l ih =>
    have ih := ih fun y hy => h y (by simp [hy])
    have ha := h a (by simp)
    by_cases hp : p a = true
    · rw [List.filter_cons_of_pos hp, List.map_cons, List.map_cons, List.sum_cons, List.sum_cons, ih, ha, if_pos hp]
    · rw [List.filter_cons_of_neg hp, List.map_cons, List.sum_cons, ih, ha, if_neg hp, zero_add]

/-- Every face of a wet element is numbered. -/
theorem wetFace_lt (hP : Shared P s) (hs : Whole s) {t : PIndex} (ht : PNumbered P wet t) {y : PEdge} (hy : y ∈ P.edges) {c : Face} (hc : c ∈ y.faces) (hw : wet c.e) {f : ℕ}
    (hf : f < 3) : t.face c.e f < t.total := by
  have hce := (hs.elt c ((face_mem hP).1 (List.mem_flatMap.2 ⟨y, hy, hc⟩))).1
  obtain ⟨z, hz, hm⟩ := List.mem_flatMap.1 ((face_mem hP).2 (hs.cover c.e hce f hf))
  have hwz : wetEdge wet z.faces := wetEdge_of hm hw
  have := ht.same z hz hwz _ hm
  simp only at this
  rw [this]
  exact ht.lt z hz hwz

theorem tripletsP_cols (hP : Shared P s) (hs : Whole s) {t : PIndex} (ht : PNumbered P wet t) (b : DcBlocks K) (hh : ℕ → ℕ → ℕ → ℕ → K) (l : Local K) :
    ∀ y ∈ P.edges.flatMap (tripletsP P t wet b hh l), y.2.1 < t.total * P.m := by
  have hT : ∀ (r c : List ℕ) (m : ℕ → ℕ → K), ∀ y ∈ triplets r c m, y.2.1 ∈ c := by
    intro r c m y hy
    unfold triplets at hy
    rw [List.mem_flatMap] at hy
    obtain ⟨a, _, hy⟩ := hy
    rw [List.mem_map] at hy
    obtain ⟨⟨z, j⟩, hz, rfl⟩ := hy
    exact List.fst_mem_of_mem_zipIdx hz
  have hE : ∀ n < t.total, ∀ a ∈ rangeAt P.sizes n, a < t.total * P.m := by
    intro n hn a ha
    unfold rangeAt at ha
    rw [List.mem_map] at ha
    obtain ⟨j, hj, rfl⟩ := ha
    exact at_lt (List.mem_range.1 hj) hn
  intro y hy
  rw [List.mem_flatMap] at hy
  obtain ⟨z, hz, hy⟩ := hy
  unfold tripletsP at hy
  by_cases hw : wetEdge wet z.faces = true
  · rw [if_pos hw, List.mem_append] at hy
    rcases hy with hy | hy
    · exact hE _ (ht.lt z hz hw) _ (hT _ _ _ y hy)
    · rw [List.mem_flatMap] at hy
      obtain ⟨c, hc, hy⟩ := hy
      rw [List.mem_filter] at hc
      rw [List.mem_flatMap] at hy
      obtain ⟨f, hf, hy⟩ := hy
      rw [List.mem_filter, List.mem_range] at hf
      exact hE _ (wetFace_lt hP hs ht hz hc.1 (by simpa using hc.2) hf.1) _ (hT _ _ _ y hy)
  · rw [if_neg hw] at hy; exact absurd hy (by simp)

/-- What the edges of number `n`, on all ranks, contribute to a row. -/
theorem row_P (hP : Shared P s) (hs : Whole s) {t : PIndex} (ht : PNumbered P wet t) (b : DcBlocks K) (hh : ℕ → ℕ → ℕ → ℕ → K) (l : Local K) (x : ℕ → K) (n : ℕ) {i : ℕ}
    (hi : i < P.m) :
    ∑ c ∈ Finset.range (t.total * P.m), (assembleP P t wet b hh l).1 (n * P.m + i) c * x c =
      ((P.edges.filter fun y => wetEdge wet y.faces && decide (t.face y.own.e y.own.f = n)).map fun y =>
        ∑ j ∈ Finset.range P.m, hh y.own.e y.own.f i j * x (n * P.m + j) - ((y.faces.filter fun c => wet c.e).map fun c =>
          ∑ f ∈ Finset.range 3, mulV P.m (through P.sizes b l c f) (fun j => x (t.face c.e f * P.m + j)) i).sum).sum := by
  unfold assembleP
  simp only
  rw [fromTriplets_dot _ _ (tripletsP_cols hP hs ht b hh l), rowDot_flatMap]
  refine sum_filter_if fun y hy => ?_
  unfold tripletsP
  by_cases hw : wetEdge wet y.faces = true
  · rw [if_pos hw]
    have hat : ∀ (a c : ℕ) (M : ℕ → ℕ → K), rowDot (triplets (rangeAt P.sizes a) (rangeAt P.sizes c) M) x (n * P.m + i) =
        if a = n then ∑ j ∈ Finset.range P.m, M i j * x (c * P.m + j) else 0 := fun a c M => rowDot_at P.sizes hi a n c M x
    simp only [rowDot_append, rowDot_flatMap, hat, hw, Bool.true_and]
    by_cases hn : t.face y.own.e y.own.f = n
    · simp only [if_pos hn, decide_eq_true hn, if_true]
      have hown : ∑ j ∈ Finset.range P.m, ownP P wet b hh l y i j * x (t.face y.own.e y.own.f * P.m + j) =
          ∑ j ∈ Finset.range P.m, hh y.own.e y.own.f i j * x (t.face y.own.e y.own.f * P.m + j) - ((y.faces.filter fun c => wet c.e).map fun c =>
            ∑ j ∈ Finset.range P.m, through P.sizes b l c c.f i j * x (t.face y.own.e y.own.f * P.m + j)).sum := by
        unfold ownP
        simp only [sub_mul, Finset.sum_sub_distrib]
        congr 1
        induction (y.faces.filter fun c => wet c.e) with
        | nil => simp
        | cons a l ih => simp only [List.map_cons, List.sum_cons, add_mul, Finset.sum_add_distrib, ih]
      rw [hown, ← hn, sub_add, sub_right_inj, list_sub]
      congr 1
      refine List.map_congr_left fun c hc => ?_
      rw [List.mem_filter] at hc
      have hcf : c.f < 3 := (hs.elt c ((face_mem hP).1 (List.mem_flatMap.2 ⟨y, hy, hc.1⟩))).2
      have hface : t.face c.e c.f = t.face y.own.e y.own.f := ht.same y hy hw c hc.1
      have hfil : ∀ g : ℕ → K, (((List.range 3).filter (· ≠ c.f)).map fun f => -g f).sum = g c.f - ∑ f ∈ Finset.range 3, g f := by
        intro g
        have : c.f = 0 ∨ c.f = 1 ∨ c.f = 2 := by omega
        rcases this with h | h | h <;> rw [h] <;> simp [List.range_succ, Finset.sum_range_succ] <;> ring
      have hneg : ∀ f, ∑ j ∈ Finset.range P.m, -through P.sizes b l c f i j * x (t.face c.e f * P.m + j) =
          -mulV P.m (through P.sizes b l c f) (fun j => x (t.face c.e f * P.m + j)) i := by
        intro f; unfold mulV; simp only [neg_mul, Finset.sum_neg_distrib]
      simp only [hneg]
      rw [hfil fun f => mulV P.m (through P.sizes b l c f) (fun j => x (t.face c.e f * P.m + j)) i, ← hface]
      unfold mulV
      ring
    · simp only [if_neg hn, decide_eq_false hn]
      simp
  · rw [if_neg hw]
    simp [hw, rowDot]

theorem edgeRhs_eq (P : PSkel) (wet : ℕ → Bool) (b : DcBlocks K) (l : Local K) (y : PEdge) (i : ℕ) :
    edgeRhs P wet b l y i = -((y.faces.filter fun c => wet c.e).map fun c => mulV (2 * P.ndof c.e) (hatSchur P.sizes b l c) (l.rhs c.e) i).sum := by
  unfold edgeRhs
  have : ∀ (cs : List Face) (a : K), cs.foldl (fun v c => v - mulV (2 * P.ndof c.e) (hatSchur P.sizes b l c) (l.rhs c.e) i) a =
      a - (cs.map fun c => mulV (2 * P.ndof c.e) (hatSchur P.sizes b l c) (l.rhs c.e) i).sum := by
    intro cs
    induction cs with
    | nil => intro a; simp
    | cons c cs ih => intro a; rw [List.foldl_cons, ih, List.map_cons, List.sum_cons]; ring
  rw [this, zero_sub]

theorem rhs_P (P : PSkel) (wet : ℕ → Bool) (t : PIndex) (b : DcBlocks K) (hh : ℕ → ℕ → ℕ → ℕ → K) (l : Local K) (n : ℕ) {i : ℕ} (hi : i < P.m) :
    (assembleP P t wet b hh l).2 (n * P.m + i) = ((P.edges.filter fun y => wetEdge wet y.faces && decide (t.face y.own.e y.own.f = n)).map fun y =>
      -((y.faces.filter fun c => wet c.e).map fun c => mulV (2 * P.ndof c.e) (hatSchur P.sizes b l c) (l.rhs c.e) i).sum).sum := by
  have key : ∀ (es : List PEdge) (v : ℕ → K), es.foldl (rhsP P t wet b l) v (n * P.m + i) = v (n * P.m + i) +
      ((es.filter fun y => wetEdge wet y.faces && decide (t.face y.own.e y.own.f = n)).map fun y => edgeRhs P wet b l y i).sum := by
    intro es
    induction es with
    | nil => intro v; simp
    | cons y es ih =>
      intro v
      rw [List.foldl_cons, ih]
      have hstep : rhsP P t wet b l v y (n * P.m + i) = v (n * P.m + i) +
          if (wetEdge wet y.faces && decide (t.face y.own.e y.own.f = n)) = true then edgeRhs P wet b l y i else 0 := by
        unfold rhsP
        by_cases hw : wetEdge wet y.faces = true
        · rw [if_pos hw]
          unfold addBlock
          by_cases hn : t.face y.own.e y.own.f = n
          · rw [hn, if_pos ⟨by omega, by omega⟩, Nat.add_sub_cancel_left]
            simp [hw]
          · rw [if_neg]
            · simp [hn]
            · rintro ⟨h1, h2⟩
              exact hn (at_unique (i := n * P.m + i - t.face y.own.e y.own.f * P.m) (j := i) (by omega) hi (by omega)).1
        · rw [if_neg hw]; simp [hw]
      rw [hstep]
      by_cases hp : (wetEdge wet y.faces && decide (t.face y.own.e y.own.f = n)) = true
      · rw [if_pos hp, List.filter_cons_of_pos (p := fun y : PEdge => wetEdge wet y.faces && decide (t.face y.own.e y.own.f = n)) hp, List.map_cons, List.sum_cons]
        ring
      · rw [if_neg hp, List.filter_cons_of_neg (p := fun y : PEdge => wetEdge wet y.faces && decide (t.face y.own.e y.own.f = n)) hp, add_zero]
  unfold assembleP
  simp only
  rw [key, zero_add]
  exact congrArg List.sum (List.map_congr_left fun y _ => edgeRhs_eq P wet b l y i)

/-- The wet faces of the edges of a number, on all ranks, are those of the edge of the whole mesh. -/
theorem faces_perm (hP : Shared P s) (hs : Whole s) {t : PIndex} (ht : PNumbered P wet t) {k : ℕ} (hk : k < s.edges.length) (hwk : wetEdge wet s.edges[k]) :
    ((P.edges.filter fun y => wetEdge wet y.faces && decide (t.face y.own.e y.own.f = (whole s wet t).edge k)).flatMap fun y => y.faces.filter fun c => wet c.e).Perm
      (s.edges[k].filter fun c => wet c.e) := by
  have hn1 : ((P.edges.filter fun y => wetEdge wet y.faces && decide (t.face y.own.e y.own.f = (whole s wet t).edge k)).flatMap fun y => y.faces.filter fun c => wet c.e).Nodup := by
    rw [← List.filter_flatMap]
    refine List.Nodup.filter _ (hP.nodup.sublist ?_)
    rw [List.flatMap_def, List.flatMap_def]
    exact (List.filter_sublist.map _).flatten
  refine (List.perm_ext_iff_of_nodup hn1 ((edge_faces' hs hk).1.filter _)).2 fun c => ?_
  simp only [List.mem_flatMap, List.mem_filter, Bool.and_eq_true, decide_eq_true_eq]
  constructor
  · rintro ⟨y, ⟨hy, hw, hn⟩, hc, hwc⟩
    have hm := (num_iff hP hs ht hk hwk hy hw).1 hn
    obtain ⟨j, hj, hjm⟩ := edge_of hP hy
    have := edge_unique hs hj hk (hjm _ (own_mem y)) hm
    subst this
    exact ⟨hjm c hc, hwc⟩
  · rintro ⟨hc, hwc⟩
    obtain ⟨y, hy, hcy⟩ := List.mem_flatMap.1 ((face_mem hP).2 (List.mem_flatten.2 ⟨_, List.getElem_mem hk, hc⟩))
    have hw : wetEdge wet y.faces := wetEdge_of hcy hwc
    refine ⟨y, ⟨hy, hw, ?_⟩, hcy, hwc⟩
    rw [← ht.same y hy hw c hcy, whole_edge hP ht hk hc hwc]

theorem faces_sum (hP : Shared P s) (hs : Whole s) {t : PIndex} (ht : PNumbered P wet t) {k : ℕ} (hk : k < s.edges.length) (hwk : wetEdge wet s.edges[k]) (g : Face → K) :
    ((P.edges.filter fun y => wetEdge wet y.faces && decide (t.face y.own.e y.own.f = (whole s wet t).edge k)).map fun y => ((y.faces.filter fun c => wet c.e).map g).sum).sum =
      ((s.edges[k].filter fun c => wet c.e).map g).sum := by
  rw [← ((faces_perm hP hs ht hk hwk).map g).sum_eq, List.map_flatMap, List.flatMap_def, List.sum_flatten, List.map_map]
  rfl

/-! ### Back substitution -/

theorem back_rank {t : PIndex} {l : Local K} {x : ℕ → K} {gs : List ℕ} : ∀ (r : List PEdge) (v w : ℕ → ℕ → K), r.foldlM (backP P t wet l gs x) v = some w →
    (∀ y ∈ r, wetEdge wet y.faces → ∀ c ∈ y.faces, gs.getD (t.loc y.own.e y.own.f) 0 = t.face c.e c.f) → ∀ e, wet e → ∀ i,
      w e i = v e i - (((r.flatMap PEdge.faces).filter fun c => c.e = e).map fun c => mulV P.m (l.hat e c.f) (fun j => x (t.face e c.f * P.m + j)) i).sum := by
  intro r
  induction r with
  | nil => intro v w h _ e _ i; cases h; simp
  | cons y r ih =>
    intro v w h hg e he i
    rw [List.foldlM_cons] at h
    simp only [Option.bind_eq_bind, Option.bind_eq_some_iff] at h
    obtain ⟨v', hv', h⟩ := h
    rw [ih v' w h (fun z hz => hg z (by simp [hz])) e he i, List.flatMap_cons, List.filter_append, List.map_append, List.sum_append, ← sub_sub]
    congr 1
    unfold backP at hv'
    by_cases hin : t.loc y.own.e y.own.f * P.m + P.m ≤ gs.length * P.m
    · rw [if_pos hin] at hv'
      cases hv'
      have hsc : ∀ c ∈ y.faces, wet c.e → ∀ j < P.m, scattered P gs x (t.loc y.own.e y.own.f * P.m + j) = x (t.face c.e c.f * P.m + j) := by
        intro c hc hw j hj
        unfold scattered
        rw [Nat.mul_comm (t.loc y.own.e y.own.f), Nat.mul_add_div (by omega), Nat.div_eq_of_lt hj, Nat.mul_add_mod, Nat.mod_eq_of_lt hj, Nat.add_zero, hg y (by simp) (wetEdge_of hc hw) c hc]
      have : ∀ (cs : List Face), (∀ c ∈ cs, c ∈ y.faces) → ∀ (v : ℕ → ℕ → K), ((cs.filter fun c => wet c.e).foldl (fun (r : ℕ → ℕ → K) c => Function.update r c.e fun i =>
          r c.e i - mulV P.m (l.hat c.e c.f) (fun j => scattered P gs x (t.loc y.own.e y.own.f * P.m + j)) i) v) e i =
          v e i - ((cs.filter fun c => c.e = e).map fun c => mulV P.m (l.hat e c.f) (fun j => x (t.face e c.f * P.m + j)) i).sum := by
        intro cs
        induction cs with
        | nil => simp
        | cons d cs ih =>
          intro hcs v
          have ih := ih fun c hc => hcs c (by simp [hc])
          by_cases hd : wet d.e = true
          · rw [List.filter_cons_of_pos (by simpa using hd), List.foldl_cons]
            refine (ih _).trans ?_
            by_cases hde : d.e = e
            · rw [List.filter_cons_of_pos (by simpa using hde), List.map_cons, List.sum_cons]
              subst hde
              rw [Function.update_self, mulV_congr _ _ (hsc d (hcs d (by simp)) hd)]
              ring
            · rw [List.filter_cons_of_neg (by simpa using hde), Function.update_of_ne (Ne.symm hde)]
          · have hde : d.e ≠ e := by rintro h; rw [h] at hd; exact hd he
            rw [List.filter_cons_of_neg (by simpa using hd), List.filter_cons_of_neg (by simpa using hde)]
            exact ih v
      exact this y.faces (fun _ h => h) v
    · rw [if_neg hin] at hv'; cases hv'

theorem back_ranks {t : PIndex} {l : Local K} {x : ℕ → K} : ∀ (rs : List (List PEdge × List ℕ)) (v w : ℕ → ℕ → K),
    rs.foldlM (fun w r => r.1.foldlM (backP P t wet l r.2 x) w) v = some w →
    (∀ p ∈ rs, ∀ y ∈ p.1, wetEdge wet y.faces → ∀ c ∈ y.faces, p.2.getD (t.loc y.own.e y.own.f) 0 = t.face c.e c.f) → ∀ e, wet e → ∀ i,
      w e i = v e i - ((((rs.map Prod.fst).flatten.flatMap PEdge.faces).filter fun c => c.e = e).map fun c =>
        mulV P.m (l.hat e c.f) (fun j => x (t.face e c.f * P.m + j)) i).sum := by
  intro rs
  induction rs with
  | nil => intro v w h _ e _ i; cases h; simp
  | cons p rs ih =>
    intro v w h hg e he i
    rw [List.foldlM_cons] at h
    simp only [Option.bind_eq_bind, Option.bind_eq_some_iff] at h
    obtain ⟨v', hv', h⟩ := h
    rw [ih v' w h (fun q hq => hg q (by simp [hq])) e he i, back_rank p.1 v v' hv' (hg p (by simp)) e he i]
    rw [List.map_cons, List.flatten_cons, List.flatMap_append, List.filter_append, List.map_append, List.sum_append, sub_sub]

theorem through_shared (hP : Shared P s) (b : DcBlocks K) (l : Local K) : through P.sizes b l = through s b l := by
  have : P.sizes.ndof = s.ndof := hP.ndof
  unfold through hatSchur
  rw [this]

theorem hatSchur_shared (hP : Shared P s) (b : DcBlocks K) (l : Local K) : hatSchur P.sizes b l = hatSchur s b l := by
  have : P.sizes.ndof = s.ndof := hP.ndof
  unfold hatSchur
  rw [this]

/-- The rows of a system which the ranks have assembled. -/
theorem parallel_rows [LinearOrder K] (hP : Shared P s) (hs : Whole s) {t : PIndex} (ht : PNumbered P wet t) {b : DcBlocks K} {hh : ℕ → ℕ → ℕ → ℕ → K}
    (hhh : ∀ (k : ℕ) (hk : k < s.edges.length), (∃ c ∈ s.edges[k], wet c.e) → ∀ i < s.m, ∀ j < s.m, b.ahh k i j =
      ((P.edges.filter fun y => wetEdge wet y.faces && decide (y.own ∈ s.edges[k])).map fun y => hh y.own.e y.own.f i j).sum)
    {l : Local K} {x : ℕ → K} (hx : ∀ r < t.total * P.m, ∑ c ∈ Finset.range (t.total * P.m), (assembleP P t wet b hh l).1 r c * x c = (assembleP P t wet b hh l).2 r) :
    ∀ (k : ℕ) (hk : k < s.edges.length), wetEdge wet s.edges[k] → ∀ i < s.m, ∑ j ∈ Finset.range s.m, b.ahh k i j * x ((whole s wet t).edge k * s.m + j) -
      ((s.edges[k].filter fun c => wet c.e).map fun c => ∑ f ∈ Finset.range 3, mulV s.m (through s b l c f) (fun j => x ((whole s wet t).face c.e f * s.m + j)) i).sum =
      -((s.edges[k].filter fun c => wet c.e).map fun c => mulV (2 * s.ndof c.e) (hatSchur s b l c) (l.rhs c.e) i).sum := by
  have hT := whole_numbered hP hs ht
  intro k hk hw i hi
  have hi' : i < P.m := hP.size ▸ hi
  have hrow := hx ((whole s wet t).edge k * P.m + i) (at_lt hi' (hT.lt k hk hw))
  rw [rhs_P P wet t b hh l _ hi'] at hrow
  have hrow := (row_P hP hs ht b hh l x _ hi').symm.trans hrow
  have hcols : ∀ (es : List PEdge) (A : PEdge → ℕ → K) (B C : PEdge → K) (y : ℕ → K), (es.map fun z => ∑ j ∈ Finset.range P.m, A z j * y j - B z).sum = (es.map fun z => -C z).sum →
      ∑ j ∈ Finset.range P.m, (es.map fun z => A z j).sum * y j - (es.map B).sum = -(es.map C).sum := by
    intro es A B C y
    have h1 : (es.map fun z => ∑ j ∈ Finset.range P.m, A z j * y j - B z).sum = ∑ j ∈ Finset.range P.m, (es.map fun z => A z j).sum * y j - (es.map B).sum := by
      induction es with
      | nil => simp
      | cons a es ih => simp only [List.map_cons, List.sum_cons, add_mul, Finset.sum_add_distrib, ih]; ring
    have h2 : (es.map fun z => -C z).sum = -(es.map C).sum := by
      clear h1
      induction es with
      | nil => simp
      | cons a es ih => simp only [List.map_cons, List.sum_cons, neg_add, ih]
    rw [h1, h2]
    exact id
  have hrow := hcols _ _ _ _ _ hrow
  rw [faces_sum hP hs ht hk hw, faces_sum hP hs ht hk hw, through_shared hP, hatSchur_shared hP, hP.size, hP.ndof] at hrow
  rw [← hrow]
  congr 1
  · refine Finset.sum_congr rfl fun j hj => ?_
    rw [hhh k hk (by simpa [wetEdge] using hw) i hi j (Finset.mem_range.1 hj)]
    congr 3
    refine List.filter_congr fun y hy => ?_
    by_cases hwy : wetEdge wet y.faces = true
    · rw [hwy, Bool.true_and, Bool.true_and]
      exact decide_eq_decide.2 (num_iff hP hs ht hk hw hy hwy).symm
    · simp [hwy]
  · congr 1
    refine List.map_congr_left fun c hc => ?_
    rw [List.mem_filter] at hc
    refine Finset.sum_congr rfl fun f hf => ?_
    rw [whole_wet hP hs ht ((edge_faces' hs hk).2 c hc.1).1 (Finset.mem_range.1 hf) (by simpa using hc.2)]

/-- C95. What the ranks together compute is a solution of the equations of the whole mesh: those of the elements with the traces (`W1Eq`, `W2Eq`) and those of
the edges (`HatEq`). The block of an edge is the sum of what the ranks at its two sides compute for it. -/
theorem parallel_solved [LinearOrder K] {I : Inverse K} (hI : ∀ n M N, I n M = some N → RightInv n M N) {slv : Solver K} (hS : Solves slv) (hP : Shared P s) (hs : Whole s)
    {wd : Bool} {t0 t : PIndex} (h0 : wd = false → PNumbered P wet t0) {b : DcBlocks K} {hh : ℕ → ℕ → ℕ → ℕ → K}
    (hhh : ∀ (k : ℕ) (hk : k < s.edges.length), (∃ c ∈ s.edges[k], wet c.e) → ∀ i < s.m, ∀ j < s.m, b.ahh k i j =
      ((P.edges.filter fun y => wetEdge wet y.faces && decide (y.own ∈ s.edges[k])).map fun y => hh y.own.e y.own.f i j).sum)
    {x : ℕ → K} {w1 : ℕ → ℕ → K} (h : solveP I slv P wd wet t0 b hh = some (t, x, w1)) :
    Numbered s wet (whole s wet t) ∧ ∃ w2, W1Eq s wet b w1 w2 (trace s (whole s wet t) x) ∧ W2Eq s wet b w1 w2 (trace s (whole s wet t) x) ∧
      HatEq s wet b w1 w2 (trace s (whole s wet t) x) := by
  unfold solveP at h
  simp only [Option.bind_eq_bind, Option.bind_eq_some_iff] at h
  obtain ⟨l, hl, x', hx, w, hb, h⟩ := h
  cases h
  have ht : PNumbered P wet (if wd = true then renumberP P wet t0 else t0) := by
    by_cases hwd : wd = true
    · rw [if_pos hwd]; exact renumberP_numbered hP wet t0
    · rw [if_neg hwd]; exact h0 (by simpa using hwd)
  generalize (if wd = true then renumberP P wet t0 else t0) = t at *
  have hT := whole_numbered hP hs ht
  refine ⟨hT, dc_rows hs hT (l := l) ?_ ?_ ?_⟩
  · intro e he hw
    have h1 := elimAll_spec hI hS P.elts l hl e ((hP.elts e).2 he) hw
    have hn : P.sizes.ndof = s.ndof := hP.ndof
    have hm : P.sizes.m = s.m := hP.size
    obtain ⟨h1, h2, h3⟩ := h1
    unfold schur schurHat at *
    rw [hn] at h1 h2 h3
    rw [hm] at h2
    exact ⟨h1, h2, h3⟩
  · exact parallel_rows hP hs ht hhh (hS _ _ _ _ hx)
  · intro e he hw i
    have hg : ∀ p ∈ P.ranks.zip t.globals, ∀ y ∈ p.1, wetEdge wet y.faces → ∀ c ∈ y.faces, p.2.getD (t.loc y.own.e y.own.f) 0 = t.face c.e c.f := by
      intro p hp y hy hwy c hc
      rw [(ht.loc p hp y hy hwy).2, ht.same y (List.mem_flatten.2 ⟨p.1, (List.of_mem_zip hp).1, hy⟩) hwy c hc]
    rw [back_ranks _ l.rhs w1 hb hg e hw i, List.map_fst_zip (by rw [ht.ranks])]
    have hfl : ∀ c ∈ P.ranks.flatten.flatMap PEdge.faces, c.f < 3 := fun c hc => (hs.elt c ((face_mem hP).1 hc)).2
    change l.rhs e i - (((P.edges.flatMap PEdge.faces).filter fun c => c.e = e).map _).sum = _
    rw [filter_sum hP.nodup hfl e fun f => mulV P.m (l.hat e f) (fun j => x (t.face e f * P.m + j)) i]
    congr 1
    refine Eq.trans ?_ (traces_faces hs hT l.hat x he hw i).symm
    refine Finset.sum_congr rfl fun f hf => ?_
    have hf := Finset.mem_range.1 hf
    rw [if_pos ((face_mem hP).2 (hs.cover e he f hf)), whole_wet hP hs ht he hf hw, hP.size]

end

/-- C95. If the equations of the whole mesh have one solution at most, several ranks compute what one computes. -/
theorem parallel_serial {K : Type} [Field K] [LinearOrder K] {I I' : Inverse K} (hI : ∀ n M N, I n M = some N → RightInv n M N) (hI' : ∀ n M N, I' n M = some N → RightInv n M N)
    {slv slv' : Solver K} (hS : Solves slv) (hS' : Solves slv') {P : PSkel} {s : Skel} (hP : Shared P s) (hs : Whole s) {wet : ℕ → Bool}
    {wd : Bool} {t0 t : PIndex} (h0 : wd = false → PNumbered P wet t0) {u0 u : Index} (h0' : wd = false → Numbered s wet u0) {b : DcBlocks K} {hh : ℕ → ℕ → ℕ → ℕ → K}
    (hhh : ∀ (k : ℕ) (hk : k < s.edges.length), (∃ c ∈ s.edges[k], wet c.e) → ∀ i < s.m, ∀ j < s.m, b.ahh k i j =
      ((P.edges.filter fun y => wetEdge wet y.faces && decide (y.own ∈ s.edges[k])).map fun y => hh y.own.e y.own.f i j).sum)
    (hu : ∀ w1 w2 y v1 v2 z, (W1Eq s wet b w1 w2 y ∧ W2Eq s wet b w1 w2 y ∧ HatEq s wet b w1 w2 y) → (W1Eq s wet b v1 v2 z ∧ W2Eq s wet b v1 v2 z ∧ HatEq s wet b v1 v2 z) →
      ∀ e ∈ s.elts, wet e → ∀ i < 2 * s.ndof e, w1 e i = v1 e i)
    {x y : ℕ → K} {w1 v1 : ℕ → ℕ → K} (h : solveP I slv P wd wet t0 b hh = some (t, x, w1)) (h' : solveDc I' slv' s wd wet u0 b = some (u, y, v1)) :
    ∀ e ∈ s.elts, wet e → ∀ i < 2 * s.ndof e, w1 e i = v1 e i := by
  obtain ⟨_, w2, hw⟩ := parallel_solved hI hS hP hs h0 hhh h
  obtain ⟨v2, hv⟩ := dc_solved hI' hS' hs h0' h'
  exact hu _ _ _ _ _ _ hw hv

/-- C89 is false on several ranks, too: with wetting and drying a rank all of whose elements are dry takes its part of an empty vector, the correction fails on
every rank, whatever the solvers do. -/
theorem parallel_fails {K : Type} [Field K] [LinearOrder K] (I : Inverse K) (slv : Solver K) {P : PSkel} {s : Skel} (hP : Shared P s) (hm : 0 < P.m) {wet : ℕ → Bool} {r : List PEdge}
    (hr : r ∈ P.ranks) (hne : r ≠ []) (hdry : ∀ y ∈ r, wetEdge wet y.faces = false) (t0 : PIndex) (b : DcBlocks K) (hh : ℕ → ℕ → ℕ → ℕ → K) :
    solveP I slv P true wet t0 b hh = none := by
  have hglob : (renumberP P wet t0).globals = P.ranks.map fun r => (r.filter fun x => wetEdge wet x.faces).map fun x =>
      receive P.home (sentNumbers P wet t0) (sentNumbers P wet t0) x x.own.e x.own.f := by
    show (P.ranks.foldl (localNumbers P.home wet (sentNumbers P wet t0)) (sentNumbers P wet t0, t0.loc, [])).2.2 = _
    rw [locals_globals _ _ _ hP.nodup, List.nil_append]
  have hmem : (r, ([] : List ℕ)) ∈ P.ranks.zip (renumberP P wet t0).globals := by
    obtain ⟨n, hn, rfl⟩ := List.getElem_of_mem hr
    have hl : n < (P.ranks.zip (renumberP P wet t0).globals).length := by rw [hglob]; simpa using hn
    have : (P.ranks.zip (renumberP P wet t0).globals)[n] = (P.ranks[n], []) := by
      rw [List.getElem_zip]
      congr 1
      simp only [hglob, List.getElem_map]
      rw [List.filter_eq_nil_iff.2 fun y hy => by simp [hdry y hy], List.map_nil]
    exact this ▸ List.getElem_mem hl
  have hrank : ∀ (l : Local K) (x : ℕ → K) (v : ℕ → ℕ → K), r.foldlM (backP P (renumberP P wet t0) wet l [] x) v = none := by
    intro l x v
    obtain ⟨y, r', rfl⟩ := List.exists_cons_of_ne_nil hne
    rw [List.foldlM_cons]
    have : backP P (renumberP P wet t0) wet l [] x v y = none := by
      unfold backP
      rw [if_neg (by simp; omega)]
    rw [this]; rfl
  have hall : ∀ (l : Local K) (x : ℕ → K) (rs : List (List PEdge × List ℕ)) (v : ℕ → ℕ → K), (r, ([] : List ℕ)) ∈ rs →
      rs.foldlM (fun w r => r.1.foldlM (backP P (renumberP P wet t0) wet l r.2 x) w) v = none := by
    intro l x rs
    induction rs with
    | nil => intro v h; cases h
    | cons p rs ih =>
      intro v h
      rw [List.foldlM_cons]
      rcases List.mem_cons.1 h with h | h
      · subst h
        simp only
        rw [hrank]; rfl
      · simp only [Option.bind_eq_bind, ih _ h, Option.bind_none]
        cases List.foldlM (backP P (renumberP P wet t0) wet l p.2 x) v p.1 <;> rfl
  unfold solveP
  simp only [if_true, Option.bind_eq_bind, hall _ _ _ _ hmem]
  cases elimAll I slv P.sizes wet b P.elts with
  | none => rfl
  | some l =>
    simp only [Option.bind_some]
    cases slv ((renumberP P wet t0).total * P.m) (assembleP P (renumberP P wet t0) wet b hh l).1 (assembleP P (renumberP P wet t0) wet b hh l).2 <;> rfl

/-! ### Non-vacuity: the two elements of `pair` on two ranks -/

def pairP : PSkel where
  elts := [0, 1]
  ranks := [[.bnd ⟨0, 0⟩, .bnd ⟨0, 2⟩, .dist ⟨0, 1⟩ ⟨1, 2⟩], [.bnd ⟨1, 0⟩, .bnd ⟨1, 1⟩, .dist ⟨1, 2⟩ ⟨0, 1⟩]]
  home e := (e, 0)
  ndof _ := 1
  m := 2

theorem pairP_shared : Shared pairP pair where
  elts _ := Iff.rfl
  ndof := rfl
  size := rfl
  nodup := by decide
  pair c ex h := by
    simp [PSkel.edges, pairP] at h ⊢
    rcases h with ⟨rfl, rfl⟩ | ⟨rfl, rfl⟩ <;> simp
  homes c ex h := by
    simp [PSkel.edges, pairP] at h
    rcases h with ⟨rfl, rfl⟩ | ⟨rfl, rfl⟩ <;> simp [pairP]
  edges := by decide

/-- The blocks of the edges: the cut edge has one half on every rank. -/
def pairHh (e f i j : ℕ) : ℚ :=
  if (e, f) = (0, 1) ∨ (e, f) = (1, 2) then pairBlocks.ahh 0 i j / 2
  else if (e, f) = (0, 0) then pairBlocks.ahh 1 i j
  else if (e, f) = (0, 2) then pairBlocks.ahh 2 i j
  else if (e, f) = (1, 0) then pairBlocks.ahh 3 i j
  else pairBlocks.ahh 4 i j

set_option maxRecDepth 100000 in
/-- On the two ranks the correction succeeds, with wetting and drying and without, and gives what it gives on one. -/
theorem pairP_solves :
    (∀ (k : ℕ) (hk : k < pair.edges.length), ∀ i < pair.m, ∀ j < pair.m, pairBlocks.ahh k i j =
      ((pairP.edges.filter fun y => wetEdge (fun _ => true) y.faces && decide (y.own ∈ pair.edges[k])).map fun y => pairHh y.own.e y.own.f i j).sum) ∧
    (solveP diagInv gauss pairP true (fun _ => true) (initialP pairP) pairBlocks pairHh).isSome ∧
    (solveP diagInv gauss pairP false (fun _ => true) (initialP pairP) pairBlocks pairHh).isSome ∧
    ∀ e < 2, ∀ i < 2, (solveP diagInv gauss pairP true (fun _ => true) (initialP pairP) pairBlocks pairHh).map (fun r => r.2.2 e i) =
      (solveDc diagInv gauss pair true (fun _ => true) (initial pair) pairBlocks).map (fun r => r.2.2 e i) := by
  refine ⟨by decide +kernel, by decide +kernel, by decide +kernel, by decide +kernel⟩

example {r} (h : solveP diagInv gauss pairP true (fun _ => true) (initialP pairP) pairBlocks pairHh = some r) :
    ∃ w2, HatEq pair (fun _ => true) pairBlocks r.2.2 w2 (trace pair (whole pair (fun _ => true) r.1) r.2.1) := by
  obtain ⟨w2, _, _, h3⟩ := (parallel_solved diagInv_right gauss_solves pairP_shared pair_whole (fun h => by cases h) (fun k hk _ => pairP_solves.1 k hk) h).2
  exact ⟨w2, h3⟩

/-- The second rank's only element dry. -/
theorem parallel_fails_pair (I : Inverse ℚ) (slv : Solver ℚ) (b : DcBlocks ℚ) (hh : ℕ → ℕ → ℕ → ℕ → ℚ) : solveP I slv pairP true (fun e => e == 0) (initialP pairP) b hh = none :=
  parallel_fails I slv pairP_shared (by decide) (r := [.bnd ⟨1, 0⟩, .bnd ⟨1, 1⟩, .dist ⟨1, 2⟩ ⟨0, 1⟩]) (by decide) (by decide) (by decide) _ b hh

end Verif.Gn.Props
