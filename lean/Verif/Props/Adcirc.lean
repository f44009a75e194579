import Verif.Model.Adcirc
import Mathlib.Data.List.Infix
import Mathlib.Data.List.Nodup
import Mathlib.Data.List.Perm.Basic
import Mathlib.Tactic.Linarith
import Mathlib.Tactic.SplitIfs

/-!
# Properties C14–C17: the fort.14 mesh file
-/

namespace Verif.Adcirc.Props
open Verif Verif.Adcirc

/-! ## C14 -/

/-- The two nodes are consecutive in the list, in one of the two orders. -/
def Edge (p0 p1 : ℕ) (l : List ℕ) : Prop := [p0, p1] <:+: l ∨ [p1, p0] <:+: l

theorem pair_infix_cons (a b x : ℕ) (xs : List ℕ) :
    [a, b] <:+: x :: xs ↔ (x = a ∧ xs.head? = some b) ∨ [a, b] <:+: xs := by
  rw [List.infix_cons_iff]
  constructor
  · rintro (h | h)
    · left
      cases xs with
      | nil => simp at h
      | cons y ys => simp [List.cons_prefix_cons] at h; simp [h.1, h.2]
    · exact Or.inr h
  · rintro (⟨rfl, h⟩ | h)
    · left
      cases xs with
      | nil => simp at h
      | cons y ys => simp at h; simp [h]
    · exact Or.inr h

theorem hasEdge_iff_aux (p0 p1 : ℕ) (l : List ℕ) (prev : Option ℕ) :
    hasEdge p0 p1 prev l = true ↔ (Edge p0 p1 l ∨ (prev = some p1 ∧ l.head? = some p0)) := by
  unfold Edge
  induction l generalizing prev with
  | nil => simp [hasEdge]
  | cons x xs ih =>
    rw [hasEdge, pair_infix_cons, pair_infix_cons]
    by_cases hx : x = p0
    · subst hx
      rw [if_pos rfl, Bool.or_eq_true, Bool.or_eq_true, ih none]
      simp only [beq_iff_eq, List.head?_cons]
      constructor
      · rintro ((h | h) | (h | h) | h)
        · simp [h]
        · simp [h]
        · exact Or.inl (Or.inl (Or.inr h))
        · exact Or.inl (Or.inr (Or.inr h))
        · simp at h
      · rintro (((h | h) | (⟨h1, h2⟩ | h)) | h)
        · simp [h.2]
        · simp [h]
        · rw [← h1] at *; simp [h2]
        · simp [h]
        · simp [h.1]
    · rw [if_neg hx, ih (some x)]
      simp only [List.head?_cons, Option.some.injEq]
      constructor
      · rintro ((h | h) | h)
        · simp [h]
        · simp [h]
        · simp [h.1, h.2]
      · rintro (((h | h) | (h | h)) | h)
        · exact absurd h.1 hx
        · simp [h]
        · simp [h.1, h.2]
        · simp [h]
        · exact absurd h.2 hx

/-- **C14** (recognition) `has_edge` on a whole list holds iff the two nodes are consecutive in it, in either order. -/
theorem hasEdge_iff (p0 p1 : ℕ) (l : List ℕ) : hasEdge p0 p1 none l = true ↔ Edge p0 p1 l := by
  rw [hasEdge_iff_aux]; simp

example : hasEdge 3 2 none [1, 2, 4, 2, 3, 5] = true ∧ ¬ hasEdge 1 4 none [1, 2, 4, 2, 3, 5] = true := by decide

/-- Lengths match and each barrier segment has its (nonempty) back side. -/
structure WF {W R : Type} (m : Fort14 W R) : Prop where
  tylen : m.IBTYPE.length = m.NBOU
  nblen : m.NBVV.length = m.NBOU
  bar : ∀ seg ty nb, m.IBTYPE[seg]? = some ty → ty % 10 = 4 → m.NBVV[seg]? = some nb →
    ∃ b, m.BAR.lookup seg = some b ∧ b.length = nb.length ∧ b ≠ []

/-- Segment `seg` contains the edge and is of boundary type `t`. -/
def SegHas {W R : Type} (m : Fort14 W R) (p0 p1 seg t : ℕ) : Prop :=
  ∃ ty nb, m.IBTYPE[seg]? = some ty ∧ m.NBVV[seg]? = some nb ∧
    ((ty % 10 = 0 ∧ Edge p0 p1 nb ∧ t = 0) ∨
     (ty % 10 = 2 ∧ Edge p0 p1 nb ∧ t = 2) ∨
     (ty % 10 = 4 ∧ (Edge p0 p1 nb ∨ ∃ b, m.BAR.lookup seg = some b ∧ Edge p0 p1 (b.map Bar.ibconn)) ∧ t = 129) ∨
     (ty = 77 ∧ Edge p0 p1 nb ∧ t = 3) ∨
     (ty = 88 ∧ Edge p0 p1 nb ∧ t = 4))

/-- The edge joins the two first or the two last nodes of an internal barrier. -/
def LeveeEnd {W R : Type} (m : Fort14 W R) (p0 p1 : ℕ) : Prop :=
  ∃ seg ty nb b, m.IBTYPE[seg]? = some ty ∧ ty % 10 = 4 ∧ m.NBVV[seg]? = some nb ∧ m.BAR.lookup seg = some b ∧
    ∃ x y, ((nb.head? = some x ∧ (b.map Bar.ibconn).head? = some y) ∨
      (nb.getLast? = some x ∧ (b.map Bar.ibconn).getLast? = some y)) ∧ ((p0 = x ∧ p1 = y) ∨ (p0 = y ∧ p1 = x))

theorem ok_bind {α β : Type} (x : α) (f : α → Res β) : (Except.ok x >>= f) = f x := rfl

theorem idx_ok {α : Type} {l : List α} {i : ℕ} {x : α} (h : l[i]? = some x) : idx l i = .ok x := by
  simp [idx, h]

theorem segmentType_spec {W R : Type} (m : Fort14 W R) (hm : WF m) (p0 p1 fuel seg : ℕ) (h : seg + fuel = m.NBOU) :
    (∃ s t, seg ≤ s ∧ SegHas m p0 p1 s t ∧ (∀ s', seg ≤ s' → s' < s → ∀ t', ¬ SegHas m p0 p1 s' t') ∧
      segmentType m.IBTYPE m.NBVV m.BAR p0 p1 fuel seg = .ok (some t)) ∨
    ((∀ s t, seg ≤ s → ¬ SegHas m p0 p1 s t) ∧ segmentType m.IBTYPE m.NBVV m.BAR p0 p1 fuel seg = .ok none) := by
  induction fuel generalizing seg with
  | zero =>
    right
    refine ⟨?_, rfl⟩
    rintro s t hs ⟨ty, nb, h1, _⟩
    have := (List.getElem?_eq_some_iff.mp h1).1
    rw [hm.tylen] at this; omega
  | succ fuel ih =>
    have hlt : seg < m.NBOU := by omega
    obtain ⟨ty, hty⟩ : ∃ ty, m.IBTYPE[seg]? = some ty := ⟨_, List.getElem?_eq_getElem (by rw [hm.tylen]; exact hlt)⟩
    obtain ⟨nb, hnb⟩ : ∃ nb, m.NBVV[seg]? = some nb := ⟨_, List.getElem?_eq_getElem (by rw [hm.nblen]; exact hlt)⟩
    have hit : ∀ t, SegHas m p0 p1 seg t → segmentType m.IBTYPE m.NBVV m.BAR p0 p1 (fuel + 1) seg = .ok (some t) →
        (∃ s t, seg ≤ s ∧ SegHas m p0 p1 s t ∧ (∀ s', seg ≤ s' → s' < s → ∀ t', ¬ SegHas m p0 p1 s' t') ∧
          segmentType m.IBTYPE m.NBVV m.BAR p0 p1 (fuel + 1) seg = .ok (some t)) := by
      intro t ht he
      exact ⟨seg, t, le_rfl, ht, fun s' h1 h2 => by omega, he⟩
    have hmiss : (∀ t, ¬ SegHas m p0 p1 seg t) → segmentType m.IBTYPE m.NBVV m.BAR p0 p1 (fuel + 1) seg =
          segmentType m.IBTYPE m.NBVV m.BAR p0 p1 fuel (seg + 1) →
        ((∃ s t, seg ≤ s ∧ SegHas m p0 p1 s t ∧ (∀ s', seg ≤ s' → s' < s → ∀ t', ¬ SegHas m p0 p1 s' t') ∧
          segmentType m.IBTYPE m.NBVV m.BAR p0 p1 (fuel + 1) seg = .ok (some t)) ∨
        ((∀ s t, seg ≤ s → ¬ SegHas m p0 p1 s t) ∧ segmentType m.IBTYPE m.NBVV m.BAR p0 p1 (fuel + 1) seg = .ok none)) := by
      intro hno he
      rcases ih (seg + 1) (by omega) with ⟨s, t, h1, h2, h3, h4⟩ | ⟨h1, h2⟩
      · left
        refine ⟨s, t, by omega, h2, ?_, by rw [he, h4]⟩
        intro s' ha hb t'
        rcases Nat.lt_or_eq_of_le ha with hc | rfl
        · exact h3 s' hc hb t'
        · exact hno t'
      · right
        refine ⟨?_, by rw [he, h2]⟩
        intro s t hs
        rcases Nat.lt_or_eq_of_le hs with hc | rfl
        · exact h1 s t hc
        · exact hno t
    have hsh : ∀ t, SegHas m p0 p1 seg t ↔ 
      ((ty % 10 = 0 ∧ Edge p0 p1 nb ∧ t = 0) ∨ (ty % 10 = 2 ∧ Edge p0 p1 nb ∧ t = 2) ∨
       (ty % 10 = 4 ∧ (Edge p0 p1 nb ∨ ∃ b, m.BAR.lookup seg = some b ∧ Edge p0 p1 (b.map Bar.ibconn)) ∧ t = 129) ∨
       (ty = 77 ∧ Edge p0 p1 nb ∧ t = 3) ∨ (ty = 88 ∧ Edge p0 p1 nb ∧ t = 4)) := by
      intro t
      unfold SegHas
      constructor
      · rintro ⟨ty', nb', h1, h2, h3⟩
        rw [hty] at h1; rw [hnb] at h2
        cases h1; cases h2; exact h3
      · intro h3; exact ⟨ty, nb, hty, hnb, h3⟩
    have hseg : segmentType m.IBTYPE m.NBVV m.BAR p0 p1 (fuel + 1) seg = (do
        if ty % 10 = 0 then
          if hasEdge p0 p1 none nb then return some land
        else if ty % 10 = 2 then
          if hasEdge p0 p1 none nb then return some flow
        else if ty % 10 = 4 then
          if hasEdge p0 p1 none nb then return some levee
          let ib ← ibconnOf m.BAR seg
          if hasEdge p0 p1 none ib then return some levee
        else if ty = 77 then
          if hasEdge p0 p1 none nb then return some function
        else if ty = 88 then
          if hasEdge p0 p1 none nb then return some outflow
        segmentType m.IBTYPE m.NBVV m.BAR p0 p1 fuel (seg + 1)) := by
      conv_lhs => unfold segmentType
      rw [idx_ok hty, ok_bind, idx_ok hnb, ok_bind]
    by_cases h0 : ty % 10 = 0
    · by_cases he : Edge p0 p1 nb
      · left; refine hit 0 ((hsh 0).mpr (Or.inl ⟨h0, he, rfl⟩)) ?_
        rw [hseg, if_pos h0, if_pos ((hasEdge_iff _ _ _).mpr he)]; rfl
      · refine hmiss ?_ ?_
        · intro t ht; rw [hsh] at ht; rcases ht with h | h | h | h | h
          · exact he h.2.1
          · omega
          · omega
          · omega
          · omega
        · rw [hseg, if_pos h0, if_neg (fun h => he ((hasEdge_iff _ _ _).mp h))]
    by_cases h2 : ty % 10 = 2
    · by_cases he : Edge p0 p1 nb
      · left; refine hit 2 ((hsh 2).mpr (Or.inr (Or.inl ⟨h2, he, rfl⟩))) ?_
        rw [hseg, if_neg h0, if_pos h2, if_pos ((hasEdge_iff _ _ _).mpr he)]; rfl
      · refine hmiss ?_ ?_
        · intro t ht; rw [hsh] at ht; rcases ht with h | h | h | h | h
          · omega
          · exact he h.2.1
          · omega
          · omega
          · omega
        · rw [hseg, if_neg h0, if_pos h2, if_neg (fun h => he ((hasEdge_iff _ _ _).mp h))]
    by_cases h4 : ty % 10 = 4
    · obtain ⟨b, hb, _, _⟩ := hm.bar seg ty nb hty h4 hnb
      have hib : ibconnOf m.BAR seg = .ok (b.map Bar.ibconn) := by simp [ibconnOf, atKey, hb, Except.map]
      by_cases he : Edge p0 p1 nb
      · left; refine hit 129 ((hsh 129).mpr (Or.inr (Or.inr (Or.inl ⟨h4, Or.inl he, rfl⟩)))) ?_
        rw [hseg, if_neg h0, if_neg h2, if_pos h4, if_pos ((hasEdge_iff _ _ _).mpr he)]; rfl
      · by_cases he2 : Edge p0 p1 (b.map Bar.ibconn)
        · left; refine hit 129 ((hsh 129).mpr (Or.inr (Or.inr (Or.inl ⟨h4, Or.inr ⟨b, hb, he2⟩, rfl⟩)))) ?_
          rw [hseg, if_neg h0, if_neg h2, if_pos h4, if_neg (fun h => he ((hasEdge_iff _ _ _).mp h)), hib, ok_bind,
            if_pos ((hasEdge_iff _ _ _).mpr he2)]; rfl
        · refine hmiss ?_ ?_
          · intro t ht; rw [hsh] at ht; rcases ht with h | h | h | h | h
            · omega
            · omega
            · rcases h.2.1 with h' | ⟨b', hb', h'⟩
              · exact he h'
              · rw [hb] at hb'; cases hb'; exact he2 h'
            · omega
            · omega
          · rw [hseg, if_neg h0, if_neg h2, if_pos h4, if_neg (fun h => he ((hasEdge_iff _ _ _).mp h)), hib, ok_bind,
              if_neg (fun h => he2 ((hasEdge_iff _ _ _).mp h))]
    by_cases h7 : ty = 77
    · by_cases he : Edge p0 p1 nb
      · left; refine hit 3 ((hsh 3).mpr (Or.inr (Or.inr (Or.inr (Or.inl ⟨h7, he, rfl⟩))))) ?_
        rw [hseg, if_neg h0, if_neg h2, if_neg h4, if_pos h7, if_pos ((hasEdge_iff _ _ _).mpr he)]; rfl
      · refine hmiss ?_ ?_
        · intro t ht; rw [hsh] at ht; rcases ht with h | h | h | h | h
          · omega
          · omega
          · omega
          · exact he h.2.1
          · omega
        · rw [hseg, if_neg h0, if_neg h2, if_neg h4, if_pos h7, if_neg (fun h => he ((hasEdge_iff _ _ _).mp h))]
    by_cases h8 : ty = 88
    · by_cases he : Edge p0 p1 nb
      · left; refine hit 4 ((hsh 4).mpr (Or.inr (Or.inr (Or.inr (Or.inr ⟨h8, he, rfl⟩))))) ?_
        rw [hseg, if_neg h0, if_neg h2, if_neg h4, if_neg h7, if_pos h8, if_pos ((hasEdge_iff _ _ _).mpr he)]; rfl
      · refine hmiss ?_ ?_
        · intro t ht; rw [hsh] at ht; rcases ht with h | h | h | h | h
          · omega
          · omega
          · omega
          · omega
          · exact he h.2.1
        · rw [hseg, if_neg h0, if_neg h2, if_neg h4, if_neg h7, if_pos h8, if_neg (fun h => he ((hasEdge_iff _ _ _).mp h))]
    · refine hmiss ?_ ?_
      · intro t ht; rw [hsh] at ht; omega
      · rw [hseg, if_neg h0, if_neg h2, if_neg h4, if_neg h7, if_neg h8]

theorem minmax_pair (p q x y : ℕ) : (min p q = min x y ∧ max p q = max x y) ↔ ((p = x ∧ q = y) ∨ (p = y ∧ q = x)) := by
  omega

theorem leveeEnd_spec {W R : Type} (m : Fort14 W R) (hm : WF m) (p0 p1 fuel seg : ℕ) (h : seg + fuel = m.NBOU) :
    ∃ r, leveeEnd m.IBTYPE m.NBVV m.BAR p0 p1 fuel seg = .ok r ∧ (r = true ↔
      ∃ s ty nb b, seg ≤ s ∧ m.IBTYPE[s]? = some ty ∧ ty % 10 = 4 ∧ m.NBVV[s]? = some nb ∧ m.BAR.lookup s = some b ∧
        ∃ x y, ((nb.head? = some x ∧ (b.map Bar.ibconn).head? = some y) ∨
          (nb.getLast? = some x ∧ (b.map Bar.ibconn).getLast? = some y)) ∧ ((p0 = x ∧ p1 = y) ∨ (p0 = y ∧ p1 = x))) := by
  induction fuel generalizing seg with
  | zero =>
    refine ⟨false, rfl, by simp, ?_⟩
    rintro ⟨s, ty, nb, b, hs, h1, _⟩
    have := (List.getElem?_eq_some_iff.mp h1).1
    rw [hm.tylen] at this; omega
  | succ fuel ih =>
    have hlt : seg < m.NBOU := by omega
    obtain ⟨ty, hty⟩ : ∃ ty, m.IBTYPE[seg]? = some ty := ⟨_, List.getElem?_eq_getElem (by rw [hm.tylen]; exact hlt)⟩
    obtain ⟨nb, hnb⟩ : ∃ nb, m.NBVV[seg]? = some nb := ⟨_, List.getElem?_eq_getElem (by rw [hm.nblen]; exact hlt)⟩
    obtain ⟨r, hr, hiff⟩ := ih (seg + 1) (by omega)
    unfold leveeEnd
    rw [idx_ok hty, ok_bind]
    by_cases h4 : ty % 10 = 4
    · obtain ⟨b, hb, hlen, hne⟩ := hm.bar seg ty nb hty h4 hnb
      have hib : ibconnOf m.BAR seg = .ok (b.map Bar.ibconn) := by simp [ibconnOf, atKey, hb, Except.map]
      rw [if_pos h4, idx_ok hnb, ok_bind, hib, ok_bind]
      set ib := b.map Bar.ibconn with hibdef
      have hibne : ib ≠ [] := by simpa [hibdef] using hne
      have hnbne : nb ≠ [] := by
        intro h0; rw [h0] at hlen; exact hne (List.length_eq_zero_iff.mp hlen)
      obtain ⟨a, ha⟩ : ∃ a, nb.head? = some a := ⟨_, List.head?_eq_some_head hnbne⟩
      obtain ⟨c, hc⟩ : ∃ c, ib.head? = some c := ⟨_, List.head?_eq_some_head hibne⟩
      obtain ⟨d, hd⟩ : ∃ d, nb.getLast? = some d := ⟨_, List.getLast?_eq_some_getLast hnbne⟩
      obtain ⟨e, he⟩ : ∃ e, ib.getLast? = some e := ⟨_, List.getLast?_eq_some_getLast hibne⟩
      have f1 : firstOf nb = .ok a := by
        unfold firstOf; apply idx_ok; rw [← List.head?_eq_getElem?]; exact ha
      have f2 : firstOf ib = .ok c := by
        unfold firstOf; apply idx_ok; rw [← List.head?_eq_getElem?]; exact hc
      have f3 : lastOf nb = .ok d := by simp [lastOf, hd]
      have f4 : lastOf ib = .ok e := by simp [lastOf, he]
      rw [f1, ok_bind, f2, ok_bind, f3, f4]
      have hfirst : ∀ s ty' nb' b', seg ≤ s → m.IBTYPE[s]? = some ty' → ty' % 10 = 4 → m.NBVV[s]? = some nb' →
          m.BAR.lookup s = some b' → s = seg → nb' = nb ∧ b' = b := by
        intro s ty' nb' b' _ _ _ h3 h5 rfl
        rw [hnb] at h3; rw [hb] at h5; cases h3; cases h5; exact ⟨rfl, rfl⟩
      by_cases c1 : min p0 p1 = min a c ∧ max p0 p1 = max a c
      · rw [if_pos c1]
        refine ⟨true, rfl, ?_, fun _ => rfl⟩
        intro _
        exact ⟨seg, ty, nb, b, le_rfl, hty, h4, hnb, hb, a, c, Or.inl ⟨ha, hc⟩, (minmax_pair _ _ _ _).mp c1⟩
      · rw [if_neg c1]
        simp only [ok_bind]
        by_cases c2 : min p0 p1 = min d e ∧ max p0 p1 = max d e
        · rw [if_pos c2]
          refine ⟨true, rfl, ?_, fun _ => rfl⟩
          intro _
          exact ⟨seg, ty, nb, b, le_rfl, hty, h4, hnb, hb, d, e, Or.inr ⟨hd, he⟩, (minmax_pair _ _ _ _).mp c2⟩
        · rw [if_neg c2]
          refine ⟨r, hr, ?_⟩
          rw [hiff]
          constructor
          · rintro ⟨s, ty', nb', b', hs, rest⟩
            exact ⟨s, ty', nb', b', by omega, rest⟩
          · rintro ⟨s, ty', nb', b', hs, h1, h2, h3, h5, x, y, hxy, hp⟩
            rcases Nat.lt_or_eq_of_le hs with hlt' | heq
            · exact ⟨s, ty', nb', b', hlt', h1, h2, h3, h5, x, y, hxy, hp⟩
            · exfalso
              obtain ⟨rfl, rfl⟩ := hfirst s ty' nb' b' hs h1 h2 h3 h5 heq.symm
              rw [← hibdef, ha, hc, hd, he] at hxy
              rw [← minmax_pair] at hp
              rcases hxy with ⟨h6, h7⟩ | ⟨h6, h7⟩
              · cases h6; cases h7; exact c1 hp
              · cases h6; cases h7; exact c2 hp
    · rw [if_neg h4]
      refine ⟨r, hr, ?_⟩
      rw [hiff]
      constructor
      · rintro ⟨s, ty', nb', b', hs, rest⟩
        exact ⟨s, ty', nb', b', by omega, rest⟩
      · rintro ⟨s, ty', nb', b', hs, h1, h2, rest⟩
        rcases Nat.lt_or_eq_of_le hs with hlt' | heq
        · exact ⟨s, ty', nb', b', hlt', h1, h2, rest⟩
        · subst heq; rw [hty] at h1; cases h1; exact absurd h2 h4

/-- **C14** (classification) For a well-formed mesh file: an edge of an open boundary is `tide` (1); otherwise the first
land boundary segment that contains it and has a classifiable code decides (land 0, flow 2, levee 129, function 3,
outflow 4); otherwise edges of generic boundaries and levee ends are land; otherwise an exception is thrown. -/
theorem getIbtype_spec {W R : Type} (m : Fort14 W R) (hm : WF m) (p0 p1 : ℕ) :
    ((∃ l ∈ m.NBDV, Edge p0 p1 l) → getIbtype m p0 p1 = .ok 1) ∧
    (¬ (∃ l ∈ m.NBDV, Edge p0 p1 l) → ∀ s t, SegHas m p0 p1 s t → (∀ s', s' < s → ∀ t', ¬ SegHas m p0 p1 s' t') →
      getIbtype m p0 p1 = .ok t) ∧
    (¬ (∃ l ∈ m.NBDV, Edge p0 p1 l) → (∀ s t, ¬ SegHas m p0 p1 s t) →
      ((∃ l ∈ m.NBGN, Edge p0 p1 l) ∨ LeveeEnd m p0 p1) → getIbtype m p0 p1 = .ok 0) ∧
    (¬ (∃ l ∈ m.NBDV, Edge p0 p1 l) → (∀ s t, ¬ SegHas m p0 p1 s t) →
      ¬ ((∃ l ∈ m.NBGN, Edge p0 p1 l) ∨ LeveeEnd m p0 p1) → getIbtype m p0 p1 = .error .exc) := by
  have hany : ∀ L : List (List ℕ), L.any (hasEdge p0 p1 none) = true ↔ ∃ l ∈ L, Edge p0 p1 l := by
    intro L; rw [List.any_eq_true]
    simp only [hasEdge_iff]
  have hdet : ∀ s t t', SegHas m p0 p1 s t → SegHas m p0 p1 s t' → t = t' := by
    rintro s t t' ⟨ty, nb, h1, h2, h3⟩ ⟨ty', nb', h1', h2', h3'⟩
    rw [h1] at h1'; cases h1'
    omega
  have hseg := segmentType_spec m hm p0 p1 m.NBOU 0 (by omega)
  obtain ⟨r, hr, hriff⟩ := leveeEnd_spec m hm p0 p1 m.NBOU 0 (by omega)
  have hle : r = true ↔ LeveeEnd m p0 p1 := by
    rw [hriff]; unfold LeveeEnd
    constructor
    · rintro ⟨s, ty, nb, b, -, rest⟩; exact ⟨s, ty, nb, b, rest⟩
    · rintro ⟨s, ty, nb, b, rest⟩; exact ⟨s, ty, nb, b, Nat.zero_le _, rest⟩
  refine ⟨?_, ?_, ?_, ?_⟩
  · intro h; unfold getIbtype; rw [if_pos ((hany _).mpr h)]; rfl
  · intro h s t hs hmin
    unfold getIbtype; rw [if_neg (fun h' => h ((hany _).mp h'))]
    rcases hseg with ⟨s1, t1, _, h2, h3, h4⟩ | ⟨h1, _⟩
    · have : s1 = s := by
        rcases Nat.lt_trichotomy s1 s with hlt | heq | hgt
        · exact absurd h2 (hmin s1 hlt t1)
        · exact heq
        · exact absurd hs (h3 s (Nat.zero_le _) hgt t)
      subst this
      rw [h4, hdet s1 t t1 hs h2]; rfl
    · exact absurd hs (h1 s t (Nat.zero_le _))
  · intro h hno hor
    unfold getIbtype; rw [if_neg (fun h' => h ((hany _).mp h'))]
    rcases hseg with ⟨s1, t1, _, h2, _, _⟩ | ⟨_, h2⟩
    · exact absurd h2 (hno s1 t1)
    · rw [h2, ok_bind]
      by_cases hg : ∃ l ∈ m.NBGN, Edge p0 p1 l
      · simp only [if_pos ((hany m.NBGN).mpr hg)]; rfl
      · simp only [if_neg (fun h' => hg ((hany m.NBGN).mp h'))]
        have hr1 : r = true := hle.mpr (hor.resolve_left hg)
        rw [hr, ok_bind, hr1]; rfl
  · intro h hno hor
    unfold getIbtype; rw [if_neg (fun h' => h ((hany _).mp h'))]
    rcases hseg with ⟨s1, t1, _, h2, _, _⟩ | ⟨_, h2⟩
    · exact absurd h2 (hno s1 t1)
    · rw [h2, ok_bind]
      have hg : ¬ ∃ l ∈ m.NBGN, Edge p0 p1 l := fun h => hor (Or.inl h)
      simp only [if_neg (fun h' => hg ((hany m.NBGN).mp h'))]
      have hr1 : r = false := by
        rw [← Bool.not_eq_true]; exact fun h => hor (Or.inr (hle.mp h))
      rw [hr, ok_bind, hr1]; rfl

/-- A small mesh file with an open boundary, a land boundary, an internal barrier and an island. -/
def sample : Fort14 String ℕ :=
  { name := "m", nodes := [], elements := [], NOPE := 1, NETA := 2, NBDV := [[1, 2]], NBOU := 3, NVEL := 9,
    IBTYPE := [0, 24, 11], NBVV := [[2, 3, 4], [5, 6, 7], [20, 21]],
    BAR := [(1, [⟨8, 1, 1, 1⟩, ⟨9, 1, 1, 1⟩, ⟨10, 1, 1, 1⟩])], gen := some (1, 2), NBGN := [[30, 31]] }

theorem sample_wf : WF sample := by
  refine ⟨rfl, rfl, ?_⟩
  intro seg ty nb h1 h2 h3
  match seg, h1, h3 with
  | 0, h1, h3 => simp [sample] at h1; omega
  | 1, h1, h3 =>
    simp [sample] at h3; subst h3
    exact ⟨_, rfl, rfl, by simp⟩
  | 2, h1, h3 => simp [sample] at h1; omega
  | n + 3, h1, h3 => simp [sample] at h1

example : getIbtype sample 2 1 = .ok 1 ∧ getIbtype sample 4 3 = .ok 0 ∧ getIbtype sample 9 8 = .ok 129 ∧
    getIbtype sample 10 7 = .ok 0 ∧ getIbtype sample 31 30 = .ok 0 ∧ getIbtype sample 1 5 = .error .exc := by decide

/-! ## C15 -/

theorem idx_get {l : List ℕ} {i : ℕ} (h : i < l.length) : idx l i = .ok l[i] := by simp [idx, h]

theorem innerPair_none (a b : List ℕ) (p0 p1 fuel node : ℕ) (hl : node + fuel < a.length)
    (hno : ∀ i (h : i < a.length), node ≤ i → i < node + fuel → a[i] ≠ p0) :
    innerPair a b p0 p1 fuel node = .ok none := by
  induction fuel generalizing node with
  | zero => rfl
  | succ fuel ih =>
    unfold innerPair
    rw [idx_get (show node < a.length by omega), ok_bind, if_neg (hno node (by omega) le_rfl (by omega))]
    exact ih (node + 1) (by omega) (fun i h h1 h2 => hno i h (by omega) (by omega))

theorem innerPair_at (a b : List ℕ) (p0 p1 fuel node i : ℕ) (hl : node + fuel < a.length) (hn : 1 ≤ node)
    (hnd : a.Nodup) (hi : node ≤ i) (hi2 : i < node + fuel) (hip : a[i]'(by omega) = p0) :
    innerPair a b p0 p1 fuel node =
      if a[i + 1]'(by omega) = p1 then (do return some (← idx b (i + 1), ← idx b i))
      else if a[i - 1]'(by omega) = p1 then (do return some (← idx b (i - 1), ← idx b i))
      else .ok none := by
  induction fuel generalizing node with
  | zero => omega
  | succ fuel ih =>
    unfold innerPair
    rw [idx_get (show node < a.length by omega), ok_bind]
    rcases Nat.lt_or_eq_of_le hi with hlt | rfl
    · rw [if_neg]
      · exact ih (node + 1) (by omega) (by omega) hlt (by omega) hip
      · intro he
        have := hnd.getElem_inj_iff.mp (he.trans hip.symm)
        omega
    · rw [if_pos hip, idx_get (show node + 1 < a.length by omega), ok_bind]
      split_ifs with h1 h2
      · rfl
      · rw [idx_get (show node - 1 < a.length by omega), ok_bind, if_pos h2]
      · rw [idx_get (show node - 1 < a.length by omega), ok_bind, if_neg h2]
        refine innerPair_none a b p0 p1 fuel (node + 1) (by omega) ?_
        intro j hj h3 h4 he
        have := hnd.getElem_inj_iff.mp (he.trans hip.symm)
        omega

theorem sidePair_absent (a b : List ℕ) (p0 p1 : ℕ) (hl : 1 ≤ a.length) (hlim : a.length < 2 ^ 32) (hp : p0 ∉ a) :
    sidePair a.length a b p0 p1 = .ok none := by
  have hne : ∀ i (h : i < a.length), a[i] ≠ p0 := fun i h he => hp (he ▸ List.getElem_mem h)
  have e1 : (a.length + 2 ^ 32 - 1) % 2 ^ 32 = a.length - 1 := by omega
  have hin : innerPair a b p0 p1 (a.length - 2) 1 = .ok none := by
    by_cases h2 : 2 ≤ a.length
    · exact innerPair_none a b p0 p1 _ 1 (by omega) (fun i h _ _ => hne i h)
    · have : a.length - 2 = 0 := by omega
      rw [this]; rfl
  unfold sidePair
  rw [idx_get (show 0 < a.length by omega), ok_bind, if_neg (hne 0 _), hin]
  simp only [ok_bind]
  rw [e1, idx_get (show a.length - 1 < a.length by omega), ok_bind, if_neg (hne _ _)]
  rfl

theorem sidePair_fwd (n : ℕ) (a b : List ℕ) (hn : n = a.length) (hab : b.length = a.length) (hlim : a.length < 2 ^ 32) (hnd : a.Nodup) (i : ℕ)
    (hi : i + 1 < a.length) :
    sidePair n a b (a[i]) (a[i + 1]) = .ok (some (b[i + 1], b[i])) := by
  subst hn
  unfold sidePair
  rw [idx_get (show 0 < a.length by omega), ok_bind]
  by_cases h0 : i = 0
  · subst h0
    rw [if_pos rfl, idx_get (show 1 < a.length by omega), ok_bind, if_pos rfl, idx_get (show 1 < b.length by omega),
      ok_bind, idx_get (show 0 < b.length by omega), ok_bind]
    rfl
  · rw [if_neg (fun he => h0 (hnd.getElem_inj_iff.mp he).symm)]
    rw [innerPair_at a b _ _ (a.length - 2) 1 i (by omega) le_rfl hnd (by omega) (by omega) rfl, if_pos rfl,
      idx_get (show i + 1 < b.length by omega), ok_bind, idx_get (show i < b.length by omega), ok_bind]
    rfl

theorem sidePair_bwd (n : ℕ) (a b : List ℕ) (hn : n = a.length) (hab : b.length = a.length) (hlim : a.length < 2 ^ 32) (hnd : a.Nodup) (i : ℕ)
    (hi : i + 1 < a.length) :
    sidePair n a b (a[i + 1]) (a[i]) = .ok (some (b[i], b[i + 1])) := by
  subst hn
  unfold sidePair
  rw [idx_get (show 0 < a.length by omega), ok_bind, if_neg (fun he => by have := hnd.getElem_inj_iff.mp he; omega)]
  by_cases hlast : i + 2 = a.length
  · rw [innerPair_none a b _ _ (a.length - 2) 1 (by omega) (fun j hj _ h2 he => by
      have := hnd.getElem_inj_iff.mp he; omega)]
    simp only [ok_bind]
    have e1 : (a.length + 2 ^ 32 - 1) % 2 ^ 32 = i + 1 := by omega
    have e2 : (a.length + 2 ^ 32 - 2) % 2 ^ 32 = i := by omega
    rw [e1, e2, idx_get (show i + 1 < a.length by omega), ok_bind, if_pos rfl, idx_get (show i < a.length by omega),
      ok_bind, if_pos rfl, idx_get (show i < b.length by omega), ok_bind, idx_get (show i + 1 < b.length by omega), ok_bind]
    rfl
  · rw [innerPair_at a b _ _ (a.length - 2) 1 (i + 1) (by omega) le_rfl hnd (by omega) (by omega) rfl,
      if_neg (fun he => by have := hnd.getElem_inj_iff.mp he; omega)]
    simp only [Nat.add_sub_cancel]
    rw [if_pos trivial, idx_get (show i < b.length by omega), ok_bind, idx_get (show i + 1 < b.length by omega), ok_bind]
    rfl

/-- Barriers with pairwise distinct nodes: the nodes of all fronts and backs together have no duplicates, and front and
back of each barrier have the same nonzero number of nodes. -/
structure BarriersOK (NBVV : List (List ℕ)) (bars : List (ℕ × List ℕ)) : Prop where
  front : ∀ s ∈ bars, ∃ nb, NBVV[s.1]? = some nb ∧ nb.length = s.2.length ∧ 1 ≤ nb.length ∧ nb.length < 2 ^ 32
  nodup : (bars.flatMap fun s => (NBVV[s.1]?).getD [] ++ s.2).Nodup

theorem internalPair_spec (NBVV : List (List ℕ)) (bars : List (ℕ × List ℕ)) (hok : BarriersOK NBVV bars)
    (seg : ℕ) (nb ib : List ℕ) (hmem : (seg, ib) ∈ bars) (hnb : NBVV[seg]? = some nb) (i : ℕ) (hi : i + 1 < nb.length)
    (hlen : nb.length = ib.length) :
    internalPair NBVV (nb[i]) (nb[i + 1]) bars = .ok (ib[i + 1], ib[i]) ∧
    internalPair NBVV (nb[i + 1]) (nb[i]) bars = .ok (ib[i], ib[i + 1]) ∧
    internalPair NBVV (ib[i]) (ib[i + 1]) bars = .ok (nb[i + 1], nb[i]) ∧
    internalPair NBVV (ib[i + 1]) (ib[i]) bars = .ok (nb[i], nb[i + 1]) := by
  induction bars with
  | nil => simp at hmem
  | cons s bars ih =>
    obtain ⟨seg', ib'⟩ := s
    obtain ⟨nb', hnb', hlen', h1', hlim'⟩ := hok.front (seg', ib') (by simp)
    simp only at hnb' hlen'
    have hnd := hok.nodup
    simp only [List.flatMap_cons, hnb', Option.getD_some] at hnd
    rw [List.nodup_append] at hnd
    obtain ⟨hnd1, hnd2, hdisj⟩ := hnd
    rw [List.nodup_append] at hnd1
    obtain ⟨hn1, hn2, hdisj1⟩ := hnd1
    by_cases hhere : (seg, ib) = (seg', ib')
    · cases hhere
      rw [hnb] at hnb'; cases hnb'
      have d1 : ∀ j (h : j < ib.length), ib[j] ∉ nb := fun j h hm => hdisj1 _ hm _ (List.getElem_mem h) rfl
      unfold internalPair
      simp only [idx_ok hnb, ok_bind]
      refine ⟨?_, ?_, ?_, ?_⟩
      · rw [sidePair_fwd _ nb ib rfl hlen.symm hlim' hn1 i hi]; rfl
      · rw [sidePair_bwd _ nb ib rfl hlen.symm hlim' hn1 i hi]; rfl
      · rw [sidePair_absent nb ib _ _ h1' hlim' (d1 i (by omega))]
        simp only [ok_bind]
        rw [sidePair_fwd nb.length ib nb hlen hlen (by omega) hn2 i (by omega)]; rfl
      · rw [sidePair_absent nb ib _ _ h1' hlim' (d1 (i + 1) (by omega))]
        simp only [ok_bind]
        rw [sidePair_bwd nb.length ib nb hlen hlen (by omega) hn2 i (by omega)]; rfl
    · have hmem' : (seg, ib) ∈ bars := by
        rcases List.mem_cons.mp hmem with h | h
        · exact absurd h hhere
        · exact h
      have hrest := ih ⟨fun s hs => hok.front s (by simp [hs]), hnd2⟩ hmem'
      have hin : ∀ x, x ∈ nb ∨ x ∈ ib → x ∉ nb' ∧ x ∉ ib' := by
        intro x hx
        have hx2 : x ∈ bars.flatMap fun s => (NBVV[s.1]?).getD [] ++ s.2 := by
          refine List.mem_flatMap.mpr ⟨(seg, ib), hmem', ?_⟩
          simp only [hnb, Option.getD_some, List.mem_append]; exact hx
        exact ⟨fun h => hdisj x (by simp [h]) x hx2 rfl, fun h => hdisj x (by simp [h]) x hx2 rfl⟩
      have skip : ∀ p0 p1, p0 ∈ nb ∨ p0 ∈ ib → internalPair NBVV p0 p1 ((seg', ib') :: bars) = internalPair NBVV p0 p1 bars := by
        intro p0 p1 hp
        obtain ⟨ha, hb⟩ := hin p0 hp
        conv_lhs => unfold internalPair
        rw [idx_ok hnb', ok_bind, sidePair_absent nb' ib' p0 p1 h1' hlim' ha]
        simp only [ok_bind]
        have := sidePair_absent ib' nb' p0 p1 (by omega) (by omega) hb
        rw [← hlen'] at this
        rw [this]; rfl
      rw [skip _ _ (Or.inl (List.getElem_mem _)), skip _ _ (Or.inl (List.getElem_mem _)),
        skip _ _ (Or.inr (List.getElem_mem _)), skip _ _ (Or.inr (List.getElem_mem _))]
      exact hrest

/-- **C15** For every mesh file whose barrier nodes are pairwise distinct, each edge on the front (given in either order)
has as opposite the edge of the connected back nodes with reversed orientation, and the opposite of the opposite is the
original edge; the same from the back. -/
theorem opposite_pair {W R : Type} (m : Fort14 W R)
    (hok : BarriersOK m.NBVV (m.BAR.map fun b => (b.1, b.2.map Bar.ibconn)))
    (seg : ℕ) (nb : List ℕ) (bar : List (Bar R)) (hmem : (seg, bar) ∈ m.BAR) (hnb : m.NBVV[seg]? = some nb)
    (i : ℕ) (hi : i + 1 < nb.length) (hb : i + 1 < bar.length) :
    getInternalNodePair m (nb[i]) (nb[i + 1]) = .ok ((bar[i + 1]).ibconn, (bar[i]).ibconn) ∧
    getInternalNodePair m (bar[i + 1]).ibconn (bar[i]).ibconn = .ok (nb[i], nb[i + 1]) ∧
    getInternalNodePair m (nb[i + 1]) (nb[i]) = .ok ((bar[i]).ibconn, (bar[i + 1]).ibconn) ∧
    getInternalNodePair m (bar[i]).ibconn (bar[i + 1]).ibconn = .ok (nb[i + 1], nb[i]) := by
  have hmem' : (seg, bar.map Bar.ibconn) ∈ m.BAR.map fun b => (b.1, b.2.map Bar.ibconn) :=
    List.mem_map.mpr ⟨(seg, bar), hmem, rfl⟩
  obtain ⟨nb', hnb', hlen, _, _⟩ := hok.front _ hmem'
  simp only at hnb' hlen
  rw [hnb] at hnb'; cases hnb'
  have := internalPair_spec m.NBVV _ hok seg nb _ hmem' hnb i hi hlen
  simp only [List.getElem_map] at this
  exact ⟨this.1, this.2.2.2, this.2.1, this.2.2.1⟩

theorem sample_barriers : BarriersOK sample.NBVV (sample.BAR.map fun b => (b.1, b.2.map Bar.ibconn)) := by
  refine ⟨?_, by decide⟩
  intro s hs
  simp [sample] at hs
  subst hs
  exact ⟨_, rfl, rfl, by decide, by decide⟩

example : getInternalNodePair sample 6 7 = .ok (10, 9) ∧ getInternalNodePair sample 10 9 = .ok (6, 7) := by decide

/-- A barrier with a single node makes the search read out of range (undefined behaviour) when the edge starts there. -/
example : getInternalNodePair { sample with NBVV := [[2, 3, 4], [5], [20, 21]], BAR := [(1, [⟨8, 1, 1, 1⟩])] } 5 6 = .error .ub := by
  decide

/-! ## C16 -/

/-- A mesh file the reader accepts, whose only land boundary is an island (code 1). -/
def islandFile : Stream String ℕ :=
  [[.word "m"], [.nat 1, .nat 3], [.nat 1, .real 0, .real 0, .real 1], [.nat 2, .real 1, .real 0, .real 1],
   [.nat 3, .real 0, .real 1, .real 1], [.nat 1, .nat 3, .nat 1, .nat 2, .nat 3], [.nat 0], [.nat 0], [.nat 1], [.nat 4],
   [.nat 4, .nat 1], [.nat 1], [.nat 2], [.nat 3], [.nat 1], []]

/-- **C16** is false: the reader accepts island boundaries (code 1), but none of their edges can be classified. -/
theorem island_not_classified :
    ∃ m, read islandFile = some m ∧ WF m ∧ m.NBVV[0]? = some [1, 2, 3, 1] ∧ Edge 1 2 [1, 2, 3, 1] ∧
      getIbtype m 1 2 = .error .exc ∧ getIbtype m 2 3 = .error .exc ∧ getIbtype m 3 1 = .error .exc := by
  refine ⟨_, rfl, ⟨rfl, rfl, ?_⟩, rfl, ⟨?_, by decide, by decide, by decide⟩⟩
  · intro seg ty nb h1 h2 h3
    match seg, h1, h3 with
    | 0, h1, h3 => simp at h1; omega
    | n + 1, h1, h3 => simp at h1
  · exact (hasEdge_iff 1 2 _).mp (by decide)

/-- **C16**, the part that holds: the edges of all open and generic boundaries, and of every land boundary segment whose
code is accepted and is not an island code (`≡ 1 mod 10`), are classified. -/
theorem edge_classified_partial {W R : Type} (m : Fort14 W R) (hm : WF m) (p0 p1 : ℕ)
    (h : (∃ l ∈ m.NBDV, Edge p0 p1 l) ∨ (∃ l ∈ m.NBGN, Edge p0 p1 l) ∨
      ∃ (seg ty : ℕ) (nb : List ℕ), m.IBTYPE[seg]? = some ty ∧ m.NBVV[seg]? = some nb ∧ accepted ty = true ∧ ty % 10 ≠ 1 ∧ Edge p0 p1 nb) :
    ∃ t, getIbtype m p0 p1 = .ok t ∧ t ∈ [0, 1, 2, 3, 4, 129] := by
  obtain ⟨h1, h2, h3, _⟩ := getIbtype_spec m hm p0 p1
  by_cases ho : ∃ l ∈ m.NBDV, Edge p0 p1 l
  · exact ⟨1, h1 ho, by decide⟩
  by_cases hs : ∃ s, ∃ t, SegHas m p0 p1 s t
  · classical
    obtain ⟨t, ht⟩ := Nat.find_spec hs
    refine ⟨t, h2 ho _ t ht (fun s' hs' t' ht' => Nat.find_min hs hs' ⟨t', ht'⟩), ?_⟩
    obtain ⟨ty, nb, _, _, h⟩ := ht
    rcases h with h | h | h | h | h <;> simp [h.2.2]
  · have hno : ∀ s t, ¬ SegHas m p0 p1 s t := fun s t hst => hs ⟨s, t, hst⟩
    rcases h with h | h | ⟨seg, ty, nb, e1, e2, e3, e4, e5⟩
    · exact absurd h ho
    · exact ⟨0, h3 ho hno (Or.inl h), by decide⟩
    · exfalso
      simp only [accepted, Bool.or_eq_true, beq_iff_eq] at e3
      rcases e3 with ((((e3 | e3) | e3) | e3) | e3) | e3
      · exact hno seg 0 ⟨ty, nb, e1, e2, Or.inl ⟨e3, e5, rfl⟩⟩
      · exact e4 e3
      · exact hno seg 2 ⟨ty, nb, e1, e2, Or.inr (Or.inl ⟨e3, e5, rfl⟩)⟩
      · exact hno seg 129 ⟨ty, nb, e1, e2, Or.inr (Or.inr (Or.inl ⟨e3, Or.inl e5, rfl⟩))⟩
      · exact hno seg 3 ⟨ty, nb, e1, e2, Or.inr (Or.inr (Or.inr (Or.inl ⟨e3, e5, rfl⟩)))⟩
      · exact hno seg 4 ⟨ty, nb, e1, e2, Or.inr (Or.inr (Or.inr (Or.inr ⟨e3, e5, rfl⟩)))⟩

example : ∃ t, getIbtype sample 6 5 = .ok t ∧ t ∈ [0, 1, 2, 3, 4, 129] :=
  edge_classified_partial sample sample_wf 6 5 (Or.inr (Or.inr ⟨1, 24, [5, 6, 7], rfl, rfl, rfl, by decide,
    (hasEdge_iff _ _ _).mp (by decide)⟩))

end Verif.Adcirc.Props
