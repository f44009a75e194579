import Verif.Model.CondenseP
import Verif.Lemmas.GnParallel

/-!
# Lemmas about the numbering of the unknowns of the implicit scheme on several ranks
-/

namespace Verif.Ihdg.Props
open Verif.Ihdg Verif.Ehdg
open Verif.Gn (PEdge before takes setFaces shiftNumber receive offsets setIdx sums)
open Verif.Gn.Props (setFaces_at own_mem setIdx_at receive_other receive_congr sums_length)

variable {P : PSkeleton}

/-- Unknowns which an edge numbers. -/
def weigh (P : PSkeleton) (x : PEdge) : ℕ := if takes P.home (fun _ => true) x then P.esz x else 0

def weighs (P : PSkeleton) (r : List PEdge) : ℕ := (r.map (weigh P)).sum

theorem idx_off : ∀ (r : List PEdge) (s : ℕ × (ℕ → ℕ → ℕ)), (r.foldl (takeIdx P) s).1 = s.1 + weighs P r
  | [], s => by simp [weighs]
  | x :: r, s => by
    rw [List.foldl_cons, idx_off r]
    unfold takeIdx weighs
    rw [List.map_cons, List.sum_cons]
    unfold weigh
    by_cases h : takes P.home (fun _ => true) x = true
    · simp only [if_pos h]; omega
    · simp only [if_neg h]; omega

theorem idx_other : ∀ (r : List PEdge) (s : ℕ × (ℕ → ℕ → ℕ)) (c : Face), c ∉ r.flatMap PEdge.faces → (r.foldl (takeIdx P) s).2 c.e c.f = s.2 c.e c.f
  | [], s, c, _ => rfl
  | x :: r, s, c, h => by
    rw [List.flatMap_cons, List.mem_append, not_or] at h
    rw [List.foldl_cons, idx_other r _ c h.2]
    unfold takeIdx
    by_cases hx : takes P.home (fun _ => true) x = true
    · simp only [if_pos hx]; rw [setFaces_at, if_neg h.1]
    · simp only [if_neg hx]

theorem idx_at {r1 r2 : List PEdge} {x : PEdge} (hx : takes P.home (fun _ => true) x) (hn : ((r1 ++ x :: r2).flatMap PEdge.faces).Nodup) (s : ℕ × (ℕ → ℕ → ℕ)) {c : Face}
    (hc : c ∈ x.faces) : ((r1 ++ x :: r2).foldl (takeIdx P) s).2 c.e c.f = s.1 + weighs P r1 := by
  have h2 : c ∉ r2.flatMap PEdge.faces := by
    rw [List.flatMap_append, List.flatMap_cons, List.nodup_append, List.nodup_append] at hn
    exact fun h => hn.2.1.2.2 c hc c h rfl
  rw [List.foldl_append, List.foldl_cons, idx_other r2 _ c h2]
  conv_lhs => unfold takeIdx
  rw [if_pos hx]
  simp only
  rw [setFaces_at, if_pos hc]
  exact idx_off r1 s

theorem sub_counts : ∀ (rs : List (List PEdge)) (s : List ℕ × (ℕ → ℕ → ℕ)), (rs.foldl (takeSub P) s).1 = s.1 ++ rs.map (weighs P)
  | [], s => by simp
  | r :: rs, s => by
    rw [List.foldl_cons, sub_counts rs, List.map_cons]
    unfold takeSub
    simp only [idx_off, Nat.zero_add, List.append_assoc, List.singleton_append]

theorem sub_other : ∀ (rs : List (List PEdge)) (s : List ℕ × (ℕ → ℕ → ℕ)) (c : Face), c ∉ rs.flatten.flatMap PEdge.faces →
    (rs.foldl (takeSub P) s).2 c.e c.f = s.2 c.e c.f
  | [], s, c, _ => rfl
  | r :: rs, s, c, h => by
    rw [List.flatten_cons, List.flatMap_append, List.mem_append, not_or] at h
    rw [List.foldl_cons, sub_other rs _ c h.2]
    exact idx_other r _ c h.1

theorem sub_at {R1 R2 : List (List PEdge)} {r1 r2 : List PEdge} {x : PEdge} (hx : takes P.home (fun _ => true) x)
    (hn : ((R1 ++ (r1 ++ x :: r2) :: R2).flatten.flatMap PEdge.faces).Nodup) (s : List ℕ × (ℕ → ℕ → ℕ)) {c : Face} (hc : c ∈ x.faces) :
    ((R1 ++ (r1 ++ x :: r2) :: R2).foldl (takeSub P) s).2 c.e c.f = weighs P r1 := by
  rw [List.flatten_append, List.flatten_cons, List.flatMap_append, List.nodup_append] at hn
  have h2 := hn.2.1
  rw [List.flatMap_append, List.nodup_append] at h2
  have hm : c ∈ (r1 ++ x :: r2).flatMap PEdge.faces := List.mem_flatMap.2 ⟨x, by simp, hc⟩
  rw [List.foldl_append, List.foldl_cons, sub_other R2 _ c fun h => h2.2.2 c hm c h rfl]
  conv_lhs => unfold takeSub
  simp only
  rw [idx_at hx h2.1 _ hc, Nat.zero_add]

/-- The numbers do not depend on the grouping of the submeshes. -/
theorem rank_flat : ∀ (rs : List (List (List PEdge))) (s : List (List ℕ) × (ℕ → ℕ → ℕ)) (l : List ℕ), (rs.foldl (takeRank P) s).2 = (rs.flatten.foldl (takeSub P) (l, s.2)).2
  | [], s, l => rfl
  | r :: rs, s, l => by
    rw [List.foldl_cons, List.flatten_cons, List.foldl_append, rank_flat rs _ (r.foldl (takeSub P) (l, s.2)).1]
    have : ∀ (r : List (List PEdge)) (l l' : List ℕ) (f : ℕ → ℕ → ℕ), (r.foldl (takeSub P) (l, f)).2 = (r.foldl (takeSub P) (l', f)).2 := by
      intro r
      induction r with
      | nil => intros; rfl
      | cons a r ih => intro l l' f; rw [List.foldl_cons, List.foldl_cons]; exact ih _ _ _
    unfold takeRank
    simp only
    rw [this r [] l s.2]

theorem rank_counts : ∀ (rs : List (List (List PEdge))) (s : List (List ℕ) × (ℕ → ℕ → ℕ)), (rs.foldl (takeRank P) s).1 = s.1 ++ rs.map (List.map (weighs P))
  | [], s => by simp
  | r :: rs, s => by
    rw [List.foldl_cons, rank_counts rs, List.map_cons]
    unfold takeRank
    simp only [sub_counts, List.nil_append, List.append_assoc, List.singleton_append]

/-! ### Offsets -/

/-- Exclusive partial sums. -/
def scan : ℕ → List ℕ → List ℕ
  | _, [] => []
  | a, n :: l => a :: scan (a + n) l

theorem scan_append : ∀ (l l' : List ℕ) (a : ℕ), scan a (l ++ l') = scan a l ++ scan (a + l.sum) l'
  | [], l', a => by simp [scan]
  | n :: l, l', a => by simp [scan, scan_append l l', Nat.add_assoc]

theorem scan_add : ∀ (l : List ℕ) (a b : ℕ), (scan b l).map (· + a) = scan (a + b) l
  | [], a, b => rfl
  | n :: l, a, b => by simp [scan, scan_add l a, Nat.add_comm b a, Nat.add_assoc]

theorem scan_length : ∀ (l : List ℕ) (a : ℕ), (scan a l).length = l.length
  | [], _ => rfl
  | n :: l, a => by simp [scan, scan_length l]

theorem offsets_scan : ∀ (l : List ℕ) (a n : ℕ), sums a (n :: l.dropLast) = if l = [] then [a + n] else scan (a + n) l
  | [], a, n => by simp [sums]
  | [m], a, n => by simp [sums, scan]
  | m :: k :: l, a, n => by
    have := offsets_scan (k :: l) (a + n) m
    rw [if_neg (by simp)] at this
    rw [if_neg (by simp), List.dropLast_cons_of_ne_nil (by simp), sums, this]
    rfl

theorem zip_offsets {α : Type} (l : List α) (w : α → ℕ) : l.zip (offsets (l.map w)) = l.zip (scan 0 (l.map w)) := by
  unfold offsets
  rw [offsets_scan]
  cases l with
  | nil => rfl
  | cons a l => rw [if_neg (by simp)]

theorem zip_two {α : Type} (w : α → ℕ) : ∀ (rs : List (List α)) (a : ℕ),
    (rs.zip (scan a (rs.map fun r => (r.map w).sum))).flatMap (fun r => r.1.zip ((scan 0 (r.1.map w)).map (· + r.2))) = rs.flatten.zip (scan a (rs.flatten.map w))
  | [], a => rfl
  | r :: rs, a => by
    rw [List.map_cons, scan, List.zip_cons_cons, List.flatMap_cons, zip_two w rs, List.flatten_cons, List.map_append, scan_append, List.zip_append (by simp [scan_length]), scan_add]
    simp

/-- The two sums, over the submeshes of a rank and over the ranks, give the offsets which one sum over all submeshes gives. -/
theorem offsets_flat {α : Type} (w : α → ℕ) (rs : List (List α)) :
    (rs.zip (finalOffsets (rs.map (List.map w)))).flatMap (fun r => r.1.zip r.2) = rs.flatten.zip (offsets (rs.flatten.map w)) := by
  rw [zip_offsets, ← zip_two w rs 0]
  unfold finalOffsets
  have h1 : (rs.map (List.map w)).zip (offsets ((rs.map (List.map w)).map List.sum)) = (rs.map (List.map w)).zip (scan 0 ((rs.map (List.map w)).map List.sum)) := zip_offsets _ _
  rw [h1, List.map_map]
  generalize hS : scan 0 (rs.map (List.sum ∘ List.map w)) = S
  have hS' : scan 0 (rs.map fun r => (r.map w).sum) = S := hS
  rw [hS']
  clear h1 hS hS'
  induction rs generalizing S with
  | nil => rfl
  | cons r rs ih =>
    cases S with
    | nil => rfl
    | cons o S =>
      simp only [List.map_cons, List.zip_cons_cons, List.flatMap_cons]
      rw [ih S]
      congr 1
      have : ∀ (l : List α) (a b : List ℕ) (f : ℕ → ℕ), l.zip a = l.zip b → l.zip (a.map f) = l.zip (b.map f) := by
        intro l a b f h
        rw [List.zip_map_right, List.zip_map_right, h]
      exact this _ _ _ _ (zip_offsets r w)

theorem foldl_pairs {α β S : Type} (f : S → β → S) (k : α → List β) : ∀ (l : List α) (s : S), l.foldl (fun s a => (k a).foldl f s) s = (l.flatMap k).foldl f s
  | [], s => rfl
  | a :: l, s => by rw [List.foldl_cons, List.flatMap_cons, List.foldl_append, foldl_pairs f k l]

/-! ### Places -/

theorem place_other (sent : ℕ → ℕ → ℕ) : ∀ (r : List PEdge) (s : (ℕ → ℕ → ℕ) × (ℕ → ℕ → ℕ) × List ℕ) (c : Face), c ∉ r.flatMap PEdge.faces →
    (r.foldl (placeIdx P sent) s).1 c.e c.f = s.1 c.e c.f ∧ (r.foldl (placeIdx P sent) s).2.1 c.e c.f = s.2.1 c.e c.f
  | [], s, c, _ => ⟨rfl, rfl⟩
  | x :: r, s, c, h => by
    rw [List.flatMap_cons, List.mem_append, not_or] at h
    rw [List.foldl_cons]
    obtain ⟨h1, h2⟩ := place_other sent r (placeIdx P sent s x) c h.2
    rw [h1, h2]
    unfold placeIdx
    have hne : c ≠ x.own := fun he => h.1 (he ▸ own_mem x)
    exact ⟨receive_other sent _ h.1, by simp only; rw [setIdx_at, if_neg hne]⟩

theorem place_globals (sent : ℕ → ℕ → ℕ) : ∀ (r : List PEdge) (s : (ℕ → ℕ → ℕ) × (ℕ → ℕ → ℕ) × List ℕ), (r.flatMap PEdge.faces).Nodup →
    (r.foldl (placeIdx P sent) s).2.2 = s.2.2 ++ r.flatMap fun x => fromTo (receive P.home sent s.1 x x.own.e x.own.f) (P.esz x)
  | [], s, _ => by simp
  | x :: r, s, h => by
    rw [List.flatMap_cons, List.nodup_append] at h
    rw [List.foldl_cons, place_globals sent r _ h.2.1]
    have hr : ∀ y ∈ r, y.own ∉ x.faces := fun y hy hm => h.2.2 _ hm y.own (List.mem_flatMap.2 ⟨y, hy, own_mem y⟩) rfl
    unfold placeIdx
    simp only [List.flatMap_cons, List.append_assoc]
    congr 2
    refine List.flatMap_congr fun y hy => ?_
    rw [receive_congr sent (a := receive P.home sent s.1 x) (a' := s.1) y (receive_other sent _ (hr y hy))]

theorem place_at (sent : ℕ → ℕ → ℕ) {r1 r2 : List PEdge} {x : PEdge} (hn : ((r1 ++ x :: r2).flatMap PEdge.faces).Nodup)
    (s : (ℕ → ℕ → ℕ) × (ℕ → ℕ → ℕ) × List ℕ) :
    (∀ c ∈ x.faces, ((r1 ++ x :: r2).foldl (placeIdx P sent) s).1 c.e c.f = receive P.home sent s.1 x c.e c.f) ∧
      ((r1 ++ x :: r2).foldl (placeIdx P sent) s).2.1 x.own.e x.own.f = s.2.2.length + (r1.map P.esz).sum := by
  rw [List.flatMap_append, List.flatMap_cons, List.nodup_append, List.nodup_append] at hn
  have h2 : ∀ c ∈ x.faces, c ∉ r2.flatMap PEdge.faces := fun c hc h => hn.2.1.2.2 c hc c h rfl
  have h1 : ∀ c ∈ x.faces, c ∉ r1.flatMap PEdge.faces := fun c hc h => hn.2.2 _ h c (by simp [hc]) rfl
  rw [List.foldl_append, List.foldl_cons]
  constructor
  · intro c hc
    rw [(place_other sent r2 _ c (h2 c hc)).1]
    conv_lhs => unfold placeIdx
    exact receive_congr sent x (place_other sent r1 s c (h1 c hc)).1
  · rw [(place_other sent r2 _ _ (h2 _ (own_mem x))).2]
    conv_lhs => unfold placeIdx
    simp only
    rw [setIdx_at, if_pos rfl]
    have := place_globals (P := P) sent r1 s hn.1
    unfold placeIdx at this
    simp only at this
    rw [this, List.length_append, List.length_flatMap]
    congr 2
    refine List.map_congr_left fun y _ => by simp [fromTo]

theorem places_other (sent : ℕ → ℕ → ℕ) : ∀ (rs : List (List (List PEdge))) (s : (ℕ → ℕ → ℕ) × (ℕ → ℕ → ℕ) × List (List ℕ)) (c : Face),
    c ∉ rs.flatten.flatten.flatMap PEdge.faces →
    (rs.foldl (placeRank P sent) s).1 c.e c.f = s.1 c.e c.f ∧ (rs.foldl (placeRank P sent) s).2.1 c.e c.f = s.2.1 c.e c.f
  | [], s, c, _ => ⟨rfl, rfl⟩
  | r :: rs, s, c, h => by
    rw [List.flatten_cons, List.flatten_append, List.flatMap_append, List.mem_append, not_or] at h
    rw [List.foldl_cons]
    obtain ⟨h1, h2⟩ := places_other sent rs (placeRank P sent s r) c h.2
    rw [h1, h2]
    exact place_other sent r.flatten _ c h.1

theorem places_globals (sent : ℕ → ℕ → ℕ) : ∀ (rs : List (List (List PEdge))) (s : (ℕ → ℕ → ℕ) × (ℕ → ℕ → ℕ) × List (List ℕ)),
    (rs.flatten.flatten.flatMap PEdge.faces).Nodup →
    (rs.foldl (placeRank P sent) s).2.2 = s.2.2 ++ rs.map fun r => r.flatten.flatMap fun x => fromTo (receive P.home sent s.1 x x.own.e x.own.f) (P.esz x)
  | [], s, _ => by simp
  | r :: rs, s, h => by
    rw [List.flatten_cons, List.flatten_append, List.flatMap_append, List.nodup_append] at h
    rw [List.foldl_cons, places_globals sent rs _ h.2.1]
    unfold placeRank
    simp only [List.map_cons, List.append_assoc, List.singleton_append]
    rw [place_globals sent r.flatten _ h.1]
    simp only [List.nil_append]
    congr 2
    refine List.map_congr_left fun r' hr' => List.flatMap_congr fun y hy => ?_
    have : (r.flatten.foldl (placeIdx P sent) (s.1, s.2.1, [])).1 y.own.e y.own.f = s.1 y.own.e y.own.f := by
      refine (place_other sent r.flatten _ _ fun hm => ?_).1
      refine h.2.2 _ hm y.own (List.mem_flatMap.2 ⟨y, ?_, own_mem y⟩) rfl
      obtain ⟨u, hu, hyu⟩ := List.mem_flatten.1 hy
      exact List.mem_flatten.2 ⟨u, List.mem_flatten.2 ⟨r', hr', hu⟩, hyu⟩
    rw [receive_congr sent y this]

theorem places_at (sent : ℕ → ℕ → ℕ) {R1 R2 : List (List (List PEdge))} {r : List (List PEdge)} {r1 r2 : List PEdge} {x : PEdge} (hr : r.flatten = r1 ++ x :: r2)
    (hn : ((R1 ++ r :: R2).flatten.flatten.flatMap PEdge.faces).Nodup) (s : (ℕ → ℕ → ℕ) × (ℕ → ℕ → ℕ) × List (List ℕ)) :
    (∀ c ∈ x.faces, ((R1 ++ r :: R2).foldl (placeRank P sent) s).1 c.e c.f = receive P.home sent s.1 x c.e c.f) ∧
      ((R1 ++ r :: R2).foldl (placeRank P sent) s).2.1 x.own.e x.own.f = (r1.map P.esz).sum := by
  rw [List.flatten_append, List.flatten_cons, List.flatten_append, List.flatten_append, hr, List.flatMap_append, List.nodup_append] at hn
  have h2 := hn.2.1
  rw [List.flatMap_append, List.nodup_append] at h2
  have hm : ∀ d ∈ x.faces, d ∈ (r1 ++ x :: r2).flatMap PEdge.faces := fun d hd => List.mem_flatMap.2 ⟨x, by simp, hd⟩
  have hr2 : ∀ d ∈ x.faces, d ∉ R2.flatten.flatten.flatMap PEdge.faces := fun d hd h => h2.2.2 d (hm d hd) d h rfl
  have hr1 : ∀ d ∈ x.faces, d ∉ R1.flatten.flatten.flatMap PEdge.faces := fun d hd h =>
    hn.2.2 _ h d (by rw [List.flatMap_append, List.mem_append]; exact .inl (hm d hd)) rfl
  rw [List.foldl_append, List.foldl_cons]
  have hunf : ∀ s : (ℕ → ℕ → ℕ) × (ℕ → ℕ → ℕ) × List (List ℕ), placeRank P sent s r =
      (((r1 ++ x :: r2).foldl (placeIdx P sent) (s.1, s.2.1, [])).1, ((r1 ++ x :: r2).foldl (placeIdx P sent) (s.1, s.2.1, [])).2.1,
        s.2.2 ++ [((r1 ++ x :: r2).foldl (placeIdx P sent) (s.1, s.2.1, [])).2.2]) := by
    intro s; unfold placeRank; rw [hr]
  constructor
  · intro c hc
    rw [(places_other sent R2 _ c (hr2 c hc)).1, hunf]
    exact ((place_at sent h2.1 _).1 c hc).trans (receive_congr sent x (places_other (P := P) sent R1 s c (hr1 c hc)).1)
  · rw [(places_other sent R2 _ _ (hr2 _ (own_mem x))).2, hunf]
    exact ((place_at sent h2.1 _).2).trans (by simp)

end Verif.Ihdg.Props
