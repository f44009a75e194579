import Verif.Model.GnParallel
import Mathlib.Tactic.Ring
import Mathlib.Data.List.Nodup
import Mathlib.Data.List.Perm.Basic

/-!
# Lemmas about the numbering on several ranks
-/

namespace Verif.Gn.Props
open Verif.Ihdg Verif.Ehdg

theorem foldl_setIdx (n : ℕ) : ∀ (l : List Face) (a : ℕ → ℕ → ℕ) (c : Face), (l.foldl (fun a c => setIdx a c n) a) c.e c.f = if c ∈ l then n else a c.e c.f
  | [], a, c => by simp
  | d :: l, a, c => by
    rw [List.foldl_cons, foldl_setIdx n l _ c]
    by_cases h : c ∈ l
    · simp [h]
    · rw [if_neg h]
      obtain ⟨e, f⟩ := c
      obtain ⟨e', f'⟩ := d
      simp only [setIdx, List.mem_cons, h, or_false, Face.mk.injEq]

theorem setFaces_at (a : ℕ → ℕ → ℕ) (x : PEdge) (n : ℕ) (c : Face) : setFaces a x n c.e c.f = if c ∈ x.faces then n else a c.e c.f := foldl_setIdx n _ a c

theorem own_mem (x : PEdge) : x.own ∈ x.faces := by cases x <;> simp [PEdge.own, PEdge.faces]

section
variable {home : ℕ → ℕ × ℕ} {wet : ℕ → Bool}

theorem take_off : ∀ (r : List PEdge) (s : ℕ × (ℕ → ℕ → ℕ)), (r.foldl (takeNumber home wet) s).1 = s.1 + r.countP (takes home wet)
  | [], s => by simp
  | x :: r, s => by
    rw [List.foldl_cons, take_off r, List.countP_cons]
    unfold takeNumber
    by_cases h : takes home wet x = true
    · simp only [if_pos h]; omega
    · simp only [if_neg h]; omega

theorem take_other : ∀ (r : List PEdge) (s : ℕ × (ℕ → ℕ → ℕ)) (c : Face), c ∉ r.flatMap PEdge.faces → (r.foldl (takeNumber home wet) s).2 c.e c.f = s.2 c.e c.f
  | [], s, c, _ => rfl
  | x :: r, s, c, h => by
    rw [List.flatMap_cons, List.mem_append, not_or] at h
    rw [List.foldl_cons, take_other r _ c h.2]
    unfold takeNumber
    by_cases hx : takes home wet x = true
    · simp only [if_pos hx]; rw [setFaces_at, if_neg h.1]
    · simp only [if_neg hx]

theorem take_at {r1 r2 : List PEdge} {x : PEdge} (hx : takes home wet x) (hn : ((r1 ++ x :: r2).flatMap PEdge.faces).Nodup) (s : ℕ × (ℕ → ℕ → ℕ)) {c : Face} (hc : c ∈ x.faces) :
    ((r1 ++ x :: r2).foldl (takeNumber home wet) s).2 c.e c.f = s.1 + r1.countP (takes home wet) := by
  have h2 : c ∉ r2.flatMap PEdge.faces := by
    rw [List.flatMap_append, List.flatMap_cons, List.nodup_append, List.nodup_append] at hn
    exact fun h => hn.2.1.2.2 c hc c h rfl
  rw [List.foldl_append, List.foldl_cons, take_other r2 _ c h2]
  unfold takeNumber
  rw [if_pos hx]
  simp only
  rw [setFaces_at, if_pos hc]
  exact take_off r1 s

theorem takes_counts : ∀ (rs : List (List PEdge)) (s : List ℕ × (ℕ → ℕ → ℕ)), (rs.foldl (takeNumbers home wet) s).1 = s.1 ++ rs.map (List.countP (takes home wet))
  | [], s => by simp
  | r :: rs, s => by
    rw [List.foldl_cons, takes_counts rs, List.map_cons]
    unfold takeNumbers
    simp only [take_off, Nat.zero_add, List.append_assoc, List.singleton_append]

theorem takes_other : ∀ (rs : List (List PEdge)) (s : List ℕ × (ℕ → ℕ → ℕ)) (c : Face), c ∉ rs.flatten.flatMap PEdge.faces →
    (rs.foldl (takeNumbers home wet) s).2 c.e c.f = s.2 c.e c.f
  | [], s, c, _ => rfl
  | r :: rs, s, c, h => by
    rw [List.flatten_cons, List.flatMap_append, List.mem_append, not_or] at h
    rw [List.foldl_cons, takes_other rs _ c h.2]
    exact take_other r _ c h.1

theorem takes_at {R1 R2 : List (List PEdge)} {r1 r2 : List PEdge} {x : PEdge} (hx : takes home wet x)
    (hn : ((R1 ++ (r1 ++ x :: r2) :: R2).flatten.flatMap PEdge.faces).Nodup) (s : List ℕ × (ℕ → ℕ → ℕ)) {c : Face} (hc : c ∈ x.faces) :
    ((R1 ++ (r1 ++ x :: r2) :: R2).foldl (takeNumbers home wet) s).2 c.e c.f = r1.countP (takes home wet) := by
  rw [List.flatten_append, List.flatten_cons, List.flatMap_append, List.nodup_append] at hn
  have h2 := hn.2.1
  rw [List.flatMap_append, List.nodup_append] at h2
  have hm : c ∈ (r1 ++ x :: r2).flatMap PEdge.faces := List.mem_flatMap.2 ⟨x, by simp, hc⟩
  rw [List.foldl_append, List.foldl_cons, takes_other R2 _ c fun h => h2.2.2 c hm c h rfl]
  unfold takeNumbers
  simp only
  rw [take_at hx h2.1 _ hc, Nat.zero_add]

/-! ### Offsets -/

theorem sums_get : ∀ (l : List ℕ) (a k : ℕ), k < l.length → (sums a l).getD k 0 = a + (l.take (k + 1)).sum
  | [], _, _, h => by simp at h
  | n :: l, a, 0, _ => by simp [sums]
  | n :: l, a, k + 1, h => by
    have := sums_get l (a + n) k (by simpa using h)
    simp only [sums, List.getD_cons_succ, this, List.take_succ_cons, List.sum_cons]
    omega

theorem sums_length : ∀ (l : List ℕ) (a : ℕ), (sums a l).length = l.length
  | [], _ => rfl
  | n :: l, a => by simp [sums, sums_length l]

theorem take_dropLast {k : ℕ} {l : List ℕ} (h : k < l.length) : l.dropLast.take k = l.take k := by
  rw [List.dropLast_eq_take, List.take_take]
  congr 1
  omega

/-- The offset of a rank is the number of edges numbered by the ranks before it. -/
theorem offsets_get {l : List ℕ} {k : ℕ} (h : k < l.length) : (offsets l).getD k 0 = (l.take k).sum := by
  unfold offsets
  rw [sums_get _ _ _ (by simp; omega), List.take_succ_cons, List.sum_cons, Nat.zero_add, Nat.zero_add, take_dropLast h]

theorem offsets_length {l : List ℕ} (h : l ≠ []) : (offsets l).length = l.length := by
  have := List.length_pos_iff.2 h
  unfold offsets
  rw [sums_length]
  simp
  omega

/-! ### Shifts -/

theorem shift_other (off : ℕ) : ∀ (r : List PEdge) (a : ℕ → ℕ → ℕ) (c : Face), c ∉ r.flatMap PEdge.faces → (r.foldl (shiftNumber home wet off) a) c.e c.f = a c.e c.f
  | [], a, c, _ => rfl
  | x :: r, a, c, h => by
    rw [List.flatMap_cons, List.mem_append, not_or] at h
    rw [List.foldl_cons, shift_other off r _ c h.2]
    unfold shiftNumber
    by_cases hx : takes home wet x = true
    · simp only [if_pos hx]; rw [setFaces_at, if_neg h.1]
    · simp only [if_neg hx]

theorem shift_at (off : ℕ) {r1 r2 : List PEdge} {x : PEdge} (hx : takes home wet x) (hn : ((r1 ++ x :: r2).flatMap PEdge.faces).Nodup) (a : ℕ → ℕ → ℕ) {c : Face} (hc : c ∈ x.faces) :
    ((r1 ++ x :: r2).foldl (shiftNumber home wet off) a) c.e c.f = a x.own.e x.own.f + off := by
  rw [List.flatMap_append, List.flatMap_cons, List.nodup_append, List.nodup_append] at hn
  have h2 : c ∉ r2.flatMap PEdge.faces := fun h => hn.2.1.2.2 c hc c h rfl
  have h1 : x.own ∉ r1.flatMap PEdge.faces := fun h => hn.2.2 _ h x.own (by simp [own_mem]) rfl
  rw [List.foldl_append, List.foldl_cons, shift_other off r2 _ c h2]
  unfold shiftNumber
  rw [if_pos hx, setFaces_at, if_pos hc]
  have := shift_other (home := home) (wet := wet) off r1 a x.own h1
  unfold shiftNumber at this
  rw [this]

theorem shifts_other : ∀ (L : List (List PEdge × ℕ)) (a : ℕ → ℕ → ℕ) (c : Face), c ∉ (L.map Prod.fst).flatten.flatMap PEdge.faces →
    (L.foldl (fun f r => r.1.foldl (shiftNumber home wet r.2) f) a) c.e c.f = a c.e c.f
  | [], a, c, _ => rfl
  | r :: L, a, c, h => by
    rw [List.map_cons, List.flatten_cons, List.flatMap_append, List.mem_append, not_or] at h
    rw [List.foldl_cons, shifts_other L _ c h.2]
    exact shift_other r.2 r.1 a c h.1

theorem shifts_at {L1 L2 : List (List PEdge × ℕ)} {r1 r2 : List PEdge} {x : PEdge} {off : ℕ} (hx : takes home wet x)
    (hn : (((L1 ++ (r1 ++ x :: r2, off) :: L2).map Prod.fst).flatten.flatMap PEdge.faces).Nodup) (a : ℕ → ℕ → ℕ) {c : Face} (hc : c ∈ x.faces) :
    ((L1 ++ (r1 ++ x :: r2, off) :: L2).foldl (fun f r => r.1.foldl (shiftNumber home wet r.2) f) a) c.e c.f = a x.own.e x.own.f + off := by
  rw [List.map_append, List.map_cons, List.flatten_append, List.flatten_cons, List.flatMap_append, List.nodup_append] at hn
  have h2 := hn.2.1
  rw [List.flatMap_append, List.nodup_append] at h2
  have hm : ∀ d ∈ x.faces, d ∈ (r1 ++ x :: r2).flatMap PEdge.faces := fun d hd => List.mem_flatMap.2 ⟨x, by simp, hd⟩
  rw [List.foldl_append, List.foldl_cons, shifts_other L2 _ c fun h => h2.2.2 c (hm c hc) c h rfl]
  simp only
  rw [shift_at off hx h2.1 _ hc, shifts_other L1 a x.own]
  exact fun h => hn.2.2 _ h x.own (by rw [List.flatMap_append, List.mem_append]; exact .inl (hm _ (own_mem x))) rfl

/-! ### Local numbers -/

theorem setIdx_at (a : ℕ → ℕ → ℕ) (d : Face) (n : ℕ) (c : Face) : setIdx a d n c.e c.f = if c = d then n else a c.e c.f := by
  obtain ⟨e, f⟩ := c
  obtain ⟨e', f'⟩ := d
  simp only [setIdx, Face.mk.injEq]

theorem receive_other (sent a : ℕ → ℕ → ℕ) {x : PEdge} {c : Face} (h : c ∉ x.faces) : receive home sent a x c.e c.f = a c.e c.f := by
  cases x with
  | int => rfl
  | bnd => rfl
  | dist d ex =>
    simp only [PEdge.faces, List.mem_singleton] at h
    unfold receive
    by_cases hb : before (home ex.e) (home d.e) = true
    · simp only [if_pos hb]; rw [setIdx_at, if_neg h]
    · simp only [if_neg hb]

theorem receive_congr (sent : ℕ → ℕ → ℕ) {a a' : ℕ → ℕ → ℕ} (x : PEdge) {c : Face} (h : a c.e c.f = a' c.e c.f) :
    receive home sent a x c.e c.f = receive home sent a' x c.e c.f := by
  cases x with
  | int => exact h
  | bnd => exact h
  | dist d ex =>
    unfold receive
    by_cases hb : before (home ex.e) (home d.e) = true
    · simp only [if_pos hb]; rw [setIdx_at, setIdx_at, h]
    · simp only [if_neg hb]; exact h

theorem local_other (sent : ℕ → ℕ → ℕ) : ∀ (r : List PEdge) (s : (ℕ → ℕ → ℕ) × (ℕ → ℕ → ℕ) × List ℕ) (c : Face), c ∉ r.flatMap PEdge.faces →
    (r.foldl (localNumber home wet sent) s).1 c.e c.f = s.1 c.e c.f ∧ (r.foldl (localNumber home wet sent) s).2.1 c.e c.f = s.2.1 c.e c.f
  | [], s, c, _ => ⟨rfl, rfl⟩
  | x :: r, s, c, h => by
    rw [List.flatMap_cons, List.mem_append, not_or] at h
    rw [List.foldl_cons]
    obtain ⟨h1, h2⟩ := local_other sent r (localNumber home wet sent s x) c h.2
    rw [h1, h2]
    unfold localNumber
    by_cases hx : wetEdge wet x.faces = true
    · simp only [if_pos hx]
      have hne : c ≠ x.own := fun he => h.1 (he ▸ own_mem x)
      exact ⟨receive_other sent _ h.1, by rw [setIdx_at, if_neg hne]⟩
    · rw [if_neg hx]; exact ⟨rfl, rfl⟩

theorem local_globals (sent : ℕ → ℕ → ℕ) : ∀ (r : List PEdge) (s : (ℕ → ℕ → ℕ) × (ℕ → ℕ → ℕ) × List ℕ), (r.flatMap PEdge.faces).Nodup →
    (r.foldl (localNumber home wet sent) s).2.2 = s.2.2 ++ (r.filter fun x => wetEdge wet x.faces).map fun x => receive home sent s.1 x x.own.e x.own.f
  | [], s, _ => by simp
  | x :: r, s, h => by
    rw [List.flatMap_cons, List.nodup_append] at h
    rw [List.foldl_cons, local_globals sent r _ h.2.1]
    have hr : ∀ y ∈ r, y.own ∉ x.faces := fun y hy hm => h.2.2 _ hm y.own (List.mem_flatMap.2 ⟨y, hy, own_mem y⟩) rfl
    by_cases hx : wetEdge wet x.faces = true
    · unfold localNumber
      rw [if_pos hx, List.filter_cons_of_pos (p := fun x : PEdge => wetEdge wet x.faces) hx]
      simp only [List.map_cons, List.append_assoc, List.singleton_append]
      congr 2
      refine List.map_congr_left fun y hy => receive_congr sent y ?_
      exact receive_other sent _ (hr y (List.mem_filter.1 hy).1)
    · unfold localNumber
      rw [if_neg hx, List.filter_cons_of_neg (p := fun x : PEdge => wetEdge wet x.faces) hx]

theorem local_at (sent : ℕ → ℕ → ℕ) {r1 r2 : List PEdge} {x : PEdge} (hx : wetEdge wet x.faces) (hn : ((r1 ++ x :: r2).flatMap PEdge.faces).Nodup)
    (s : (ℕ → ℕ → ℕ) × (ℕ → ℕ → ℕ) × List ℕ) :
    (∀ c ∈ x.faces, ((r1 ++ x :: r2).foldl (localNumber home wet sent) s).1 c.e c.f = receive home sent s.1 x c.e c.f) ∧
      ((r1 ++ x :: r2).foldl (localNumber home wet sent) s).2.1 x.own.e x.own.f = s.2.2.length + r1.countP fun x => wetEdge wet x.faces := by
  rw [List.flatMap_append, List.flatMap_cons, List.nodup_append, List.nodup_append] at hn
  have h2 : ∀ c ∈ x.faces, c ∉ r2.flatMap PEdge.faces := fun c hc h => hn.2.1.2.2 c hc c h rfl
  have h1 : ∀ c ∈ x.faces, c ∉ r1.flatMap PEdge.faces := fun c hc h => hn.2.2 _ h c (by simp [hc]) rfl
  rw [List.foldl_append, List.foldl_cons]
  constructor
  · intro c hc
    rw [(local_other sent r2 _ c (h2 c hc)).1]
    conv_lhs => unfold localNumber
    rw [if_pos hx]
    exact receive_congr sent x (local_other sent r1 s c (h1 c hc)).1
  · rw [(local_other sent r2 _ _ (h2 _ (own_mem x))).2]
    conv_lhs => unfold localNumber
    rw [if_pos hx]
    simp only
    rw [setIdx_at, if_pos rfl]
    have := local_globals (home := home) (wet := wet) sent r1 s hn.1
    unfold localNumber at this
    rw [this, List.length_append, List.length_map, ← List.countP_eq_length_filter]

theorem local_dry (sent : ℕ → ℕ → ℕ) {r1 r2 : List PEdge} {x : PEdge} (hx : wetEdge wet x.faces = false) (hn : ((r1 ++ x :: r2).flatMap PEdge.faces).Nodup)
    (s : (ℕ → ℕ → ℕ) × (ℕ → ℕ → ℕ) × List ℕ) {c : Face} (hc : c ∈ x.faces) :
    ((r1 ++ x :: r2).foldl (localNumber home wet sent) s).1 c.e c.f = s.1 c.e c.f := by
  rw [List.flatMap_append, List.flatMap_cons, List.nodup_append, List.nodup_append] at hn
  have h2 : c ∉ r2.flatMap PEdge.faces := fun h => hn.2.1.2.2 c hc c h rfl
  have h1 : c ∉ r1.flatMap PEdge.faces := fun h => hn.2.2 _ h c (by simp [hc]) rfl
  rw [List.foldl_append, List.foldl_cons, (local_other sent r2 _ c h2).1]
  conv_lhs => unfold localNumber
  rw [if_neg (by simp [hx])]
  exact (local_other sent r1 s c h1).1

theorem locals_other (sent : ℕ → ℕ → ℕ) : ∀ (rs : List (List PEdge)) (s : (ℕ → ℕ → ℕ) × (ℕ → ℕ → ℕ) × List (List ℕ)) (c : Face), c ∉ rs.flatten.flatMap PEdge.faces →
    (rs.foldl (localNumbers home wet sent) s).1 c.e c.f = s.1 c.e c.f ∧ (rs.foldl (localNumbers home wet sent) s).2.1 c.e c.f = s.2.1 c.e c.f
  | [], s, c, _ => ⟨rfl, rfl⟩
  | r :: rs, s, c, h => by
    rw [List.flatten_cons, List.flatMap_append, List.mem_append, not_or] at h
    rw [List.foldl_cons]
    obtain ⟨h1, h2⟩ := locals_other sent rs (localNumbers home wet sent s r) c h.2
    rw [h1, h2]
    exact local_other sent r _ c h.1

theorem locals_globals (sent : ℕ → ℕ → ℕ) : ∀ (rs : List (List PEdge)) (s : (ℕ → ℕ → ℕ) × (ℕ → ℕ → ℕ) × List (List ℕ)), (rs.flatten.flatMap PEdge.faces).Nodup →
    (rs.foldl (localNumbers home wet sent) s).2.2 = s.2.2 ++ rs.map fun r => (r.filter fun x => wetEdge wet x.faces).map fun x => receive home sent s.1 x x.own.e x.own.f
  | [], s, _ => by simp
  | r :: rs, s, h => by
    rw [List.flatten_cons, List.flatMap_append, List.nodup_append] at h
    rw [List.foldl_cons, locals_globals sent rs _ h.2.1]
    unfold localNumbers
    simp only [List.map_cons, List.append_assoc, List.singleton_append]
    rw [local_globals sent r _ h.1]
    simp only [List.nil_append]
    congr 2
    refine List.map_congr_left fun r' hr' => List.map_congr_left fun y hy => receive_congr sent y ?_
    refine (local_other sent r _ _ fun hm => ?_).1
    exact h.2.2 _ hm y.own (List.mem_flatMap.2 ⟨y, List.mem_flatten.2 ⟨r', hr', (List.mem_filter.1 hy).1⟩, own_mem y⟩) rfl

theorem locals_at (sent : ℕ → ℕ → ℕ) {R1 R2 : List (List PEdge)} {r1 r2 : List PEdge} {x : PEdge}
    (hn : ((R1 ++ (r1 ++ x :: r2) :: R2).flatten.flatMap PEdge.faces).Nodup) (s : (ℕ → ℕ → ℕ) × (ℕ → ℕ → ℕ) × List (List ℕ)) :
    (∀ c ∈ x.faces, ((R1 ++ (r1 ++ x :: r2) :: R2).foldl (localNumbers home wet sent) s).1 c.e c.f =
      if wetEdge wet x.faces then receive home sent s.1 x c.e c.f else s.1 c.e c.f) ∧
      (wetEdge wet x.faces → ((R1 ++ (r1 ++ x :: r2) :: R2).foldl (localNumbers home wet sent) s).2.1 x.own.e x.own.f = r1.countP fun x => wetEdge wet x.faces) := by
  rw [List.flatten_append, List.flatten_cons, List.flatMap_append, List.nodup_append] at hn
  have h2 := hn.2.1
  rw [List.flatMap_append, List.nodup_append] at h2
  have hm : ∀ d ∈ x.faces, d ∈ (r1 ++ x :: r2).flatMap PEdge.faces := fun d hd => List.mem_flatMap.2 ⟨x, by simp, hd⟩
  have hr2 : ∀ d ∈ x.faces, d ∉ R2.flatten.flatMap PEdge.faces := fun d hd h => h2.2.2 d (hm d hd) d h rfl
  have hr1 : ∀ d ∈ x.faces, d ∉ R1.flatten.flatMap PEdge.faces := fun d hd h =>
    hn.2.2 _ h d (by rw [List.flatMap_append, List.mem_append]; exact .inl (hm d hd)) rfl
  rw [List.foldl_append, List.foldl_cons]
  constructor
  · intro c hc
    rw [(locals_other sent R2 _ c (hr2 c hc)).1]
    have h1 := (locals_other (home := home) (wet := wet) sent R1 s c (hr1 c hc)).1
    by_cases hx : wetEdge wet x.faces = true
    · rw [if_pos hx]
      exact ((local_at sent hx h2.1 _).1 c hc).trans (receive_congr sent x h1)
    · rw [if_neg hx]
      exact (local_dry sent (by simpa using hx) h2.1 _ hc).trans h1
  · intro hx
    rw [(locals_other sent R2 _ _ (hr2 _ (own_mem x))).2]
    exact ((local_at sent hx h2.1 _).2).trans (by simp)

end

end Verif.Gn.Props
