import Verif.Lemmas.CondenseP
import Verif.Props.Condense
import Verif.Props.GnParallel

/-!
# C100: the global problem of the implicit discretization on several ranks

The ranks number every unknown of the whole mesh once, both sides of a cut edge with the same numbers (`numberP_numbered`, `numbers_all`), and what all ranks
together assemble, solve and substitute is a solution of the system of the whole mesh (`parallel_condensed`).
-/

namespace Verif.Ihdg.Props
open Verif.Ihdg Verif.Ehdg
open Verif.Gn (PEdge before takes setFaces shiftNumber receive offsets setIdx sums)
open Verif.Gn.Props (joined before_iff before_asymm before_total own_mem setIdx_at zip_split offsets_get offsets_length shifts_at)

/-- `P` is a partition of the mesh `s`: distributed boundaries come in pairs, on different submeshes, every face of an element belongs to an edge. -/
structure Shared (P : PSkeleton) (s : Skeleton) : Prop where
  elts : ∀ e, e ∈ P.elts ↔ e ∈ s.elts
  size : P.size = s.size
  esize : ∀ (k : ℕ) (hk : k < s.edges.length), ∀ c ∈ s.edges[k], P.esize c.e c.f = s.esize k
  nodup : (P.edges.flatMap PEdge.faces).Nodup
  pair : ∀ c ex, PEdge.dist c ex ∈ P.edges → PEdge.dist ex c ∈ P.edges
  homes : ∀ c ex, PEdge.dist c ex ∈ P.edges → P.home c.e ≠ P.home ex.e
  edges : s.edges.Perm (P.edges.filterMap (joined P.home))
  cover : ∀ e ∈ s.elts, ∀ f < 3, (⟨e, f⟩ : Face) ∈ s.edges.flatten

theorem edge_unique' {s : Skeleton} (hw : WellFormed s) {j k : ℕ} (hj : j < s.edges.length) (hk : k < s.edges.length) {c : Face} (h1 : c ∈ s.edges[j]) (h2 : c ∈ s.edges[k]) :
    j = k := by
  have h1' := face_eq s hw.nodup hj h1
  have h2' := face_eq s hw.nodup hk h2
  have h0 : (idxs s j).getD 0 0 = (idxs s k).getD 0 0 := by rw [← h1', ← h2']
  rw [idxs_getD s (hw.pos j hj), idxs_getD s (hw.pos k hk)] at h0
  exact (idx_unique s (hw.pos j hj) (hw.pos k hk) h0).1

section
variable {P : PSkeleton} {s : Skeleton} (hP : Shared P s)
include hP

theorem shared_edge {k : ℕ} (hk : k < s.edges.length) : ∃ x ∈ P.edges, joined P.home x = some s.edges[k] :=
  List.mem_filterMap.1 (hP.edges.mem_iff.1 (List.getElem_mem hk))

theorem edge_shared {x : PEdge} (hx : x ∈ P.edges) {l : List Face} (h : joined P.home x = some l) : ∃ k, ∃ hk : k < s.edges.length, s.edges[k] = l := by
  obtain ⟨k, hk, he⟩ := List.getElem_of_mem (hP.edges.mem_iff.2 (List.mem_filterMap.2 ⟨x, hx, h⟩))
  exact ⟨k, hk, he⟩

theorem dist_edge {c ex : Face} (hx : PEdge.dist c ex ∈ P.edges) : ∃ k, ∃ hk : k < s.edges.length, c ∈ s.edges[k] ∧ ex ∈ s.edges[k] := by
  rcases before_total (hP.homes c ex hx) with h | h
  · obtain ⟨k, hk, he⟩ := edge_shared hP hx (l := [c, ex]) (if_pos ((before_iff _ _).1 h))
    exact ⟨k, hk, by simp [he], by simp [he]⟩
  · obtain ⟨k, hk, he⟩ := edge_shared hP (hP.pair c ex hx) (l := [ex, c]) (if_pos ((before_iff _ _).1 h))
    exact ⟨k, hk, by simp [he], by simp [he]⟩

/-- The edge of the whole mesh at an edge of a submesh. -/
theorem edge_of {x : PEdge} (hx : x ∈ P.edges) : ∃ k, ∃ hk : k < s.edges.length, ∀ c ∈ x.faces, c ∈ s.edges[k] := by
  cases x with
  | int c c' => obtain ⟨k, hk, he⟩ := edge_shared hP hx rfl; exact ⟨k, hk, fun d hd => he ▸ hd⟩
  | bnd c => obtain ⟨k, hk, he⟩ := edge_shared hP hx rfl; exact ⟨k, hk, fun d hd => he ▸ hd⟩
  | dist c ex =>
    obtain ⟨k, hk, h1, _⟩ := dist_edge hP hx
    refine ⟨k, hk, fun d hd => ?_⟩
    simp only [PEdge.faces, List.mem_singleton] at hd
    exact hd ▸ h1

theorem face_mem {c : Face} : c ∈ P.edges.flatMap PEdge.faces ↔ c ∈ s.edges.flatten := by
  constructor
  · intro h
    obtain ⟨x, hx, hc⟩ := List.mem_flatMap.1 h
    obtain ⟨k, hk, hm⟩ := edge_of hP hx
    exact List.mem_flatten.2 ⟨_, List.getElem_mem hk, hm c hc⟩
  · intro h
    obtain ⟨l, hl, hc⟩ := List.mem_flatten.1 h
    obtain ⟨x, hx, hj⟩ := List.mem_filterMap.1 (hP.edges.mem_iff.1 hl)
    cases x with
    | int d d' => cases hj; exact List.mem_flatMap.2 ⟨_, hx, hc⟩
    | bnd d => cases hj; exact List.mem_flatMap.2 ⟨_, hx, hc⟩
    | dist d ex =>
      simp only [joined] at hj
      by_cases hb : (P.home d.e).1 < (P.home ex.e).1 ∨ ((P.home d.e).1 = (P.home ex.e).1 ∧ (P.home d.e).2 < (P.home ex.e).2)
      · rw [if_pos hb] at hj
        cases hj
        rcases List.mem_cons.1 hc with rfl | hc
        · exact List.mem_flatMap.2 ⟨_, hx, by simp [PEdge.faces]⟩
        · rw [List.mem_singleton] at hc
          subst hc
          exact List.mem_flatMap.2 ⟨_, hP.pair _ _ hx, by simp [PEdge.faces]⟩
      · rw [if_neg hb] at hj; cases hj

end

/-! ### Numbering -/

section
variable {P : PSkeleton}

/-- The numbers before the ranks exchange them. -/
def sentNumbers (P : PSkeleton) : ℕ → ℕ → ℕ :=
  (P.ranks.zip (finalOffsets (P.ranks.foldl (takeRank P) ([], fun _ _ => 0)).1)).foldl
    (fun f r => (r.1.zip r.2).foldl (fun f s => s.1.foldl (shiftNumber P.home (fun _ => true) s.2) f) f) (P.ranks.foldl (takeRank P) ([], fun _ _ => 0)).2

theorem split_subs {x : PEdge} (hx : x ∈ P.edges) : ∃ R1 r1 r2 R2, P.subs = R1 ++ (r1 ++ x :: r2) :: R2 := by
  obtain ⟨r, hr, hx⟩ := List.mem_flatten.1 hx
  obtain ⟨R1, R2, h⟩ := List.append_of_mem hr
  obtain ⟨r1, r2, rfl⟩ := List.append_of_mem hx
  exact ⟨R1, r1, r2, R2, h⟩

theorem weighs_append (P : PSkeleton) (a b : List PEdge) : weighs P (a ++ b) = weighs P a + weighs P b := by simp [weighs]

theorem weighs_flatten (P : PSkeleton) : ∀ l : List (List PEdge), weighs P l.flatten = (l.map (weighs P)).sum
  | [] => rfl
  | a :: l => by rw [List.flatten_cons, weighs_append, weighs_flatten P l, List.map_cons, List.sum_cons]

theorem sent_at (hn : (P.edges.flatMap PEdge.faces).Nodup) {x : PEdge} (hw : takes P.home (fun _ => true) x) {R1 r1 r2 R2} (hr : P.subs = R1 ++ (r1 ++ x :: r2) :: R2) {c : Face}
    (hc : c ∈ x.faces) : sentNumbers P c.e c.f = weighs P (R1.flatten ++ r1) := by
  unfold sentNumbers
  rw [rank_counts, List.nil_append, rank_flat P.ranks _ [], foldl_pairs _ (fun r : List (List PEdge) × List ℕ => r.1.zip r.2), offsets_flat]
  change ((P.subs.zip (offsets (P.subs.map (weighs P)))).foldl (fun f s => s.1.foldl (shiftNumber P.home (fun _ => true) s.2) f) (P.subs.foldl (takeSub P) ([], fun _ _ => 0)).2) c.e c.f = _
  have hl : (offsets (P.subs.map (weighs P))).length = P.subs.length := by rw [offsets_length (by rw [hr]; simp), List.length_map]
  have hz := zip_split R1 R2 (r1 ++ x :: r2) (offsets (P.subs.map (weighs P))) (by rw [hl, hr])
  rw [← hr] at hz
  have hn' : (((P.subs.zip (offsets (P.subs.map (weighs P)))).map Prod.fst).flatten.flatMap PEdge.faces).Nodup := by
    rw [List.map_fst_zip (by rw [hl])]; exact hn
  rw [hz] at hn' ⊢
  rw [shifts_at hw hn' _ hc]
  unfold PSkeleton.edges at hn
  rw [hr] at hn ⊢
  rw [sub_at hw hn _ (own_mem x), offsets_get (by simp)]
  simp only [List.map_append, List.map_cons]
  rw [List.take_left' (by simp), weighs_append, weighs_flatten]
  omega

theorem numberP_total (P : PSkeleton) : (numberP P).total = weighs P P.edges := by
  show ((P.ranks.foldl (takeRank P) ([], fun _ _ => 0)).1.map List.sum).sum = _
  rw [rank_counts, List.nil_append, PSkeleton.edges, weighs_flatten, PSkeleton.subs, List.map_flatten, List.sum_flatten]

theorem face_final (hn : (P.edges.flatMap PEdge.faces).Nodup) {x : PEdge} (hx : x ∈ P.edges) {c : Face} (hc : c ∈ x.faces) :
    (numberP P).face c.e c.f = receive P.home (sentNumbers P) (sentNumbers P) x c.e c.f := by
  obtain ⟨r', hr', hx⟩ := List.mem_flatten.1 hx
  obtain ⟨r, hr, hr'⟩ := List.mem_flatten.1 hr'
  obtain ⟨R1, R2, hR⟩ := List.append_of_mem hr
  obtain ⟨r1, r2, hrr⟩ := List.append_of_mem (List.mem_flatten.2 ⟨r', hr', hx⟩)
  have hn' : ((R1 ++ r :: R2).flatten.flatten.flatMap PEdge.faces).Nodup := by rw [← hR]; exact hn
  have := (places_at (P := P) (sentNumbers P) hrr hn' (sentNumbers P, fun _ _ => 0, [])).1 c hc
  rw [← hR] at this
  exact this

/-- The edges which a rank numbers. -/
theorem number_takes (hn : (P.edges.flatMap PEdge.faces).Nodup) {x : PEdge} {E1 E2 : List PEdge} (hE : P.edges = E1 ++ x :: E2) (hw : takes P.home (fun _ => true) x) :
    ∀ c ∈ x.faces, (numberP P).face c.e c.f = weighs P E1 := by
  have hx : x ∈ P.edges := by rw [hE]; simp
  obtain ⟨R1, r1, r2, R2, hr⟩ := split_subs hx
  have hE' : P.edges = (R1.flatten ++ r1) ++ x :: (r2 ++ R2.flatten) := by unfold PSkeleton.edges; rw [hr]; simp
  have hE1 : E1 = R1.flatten ++ r1 := by
    have hnx : ∀ (A B : List PEdge), P.edges = A ++ x :: B → x ∉ A := by
      intro A B h hm
      rw [h, List.flatMap_append, List.nodup_append] at hn
      exact hn.2.2 x.own (List.mem_flatMap.2 ⟨x, hm, own_mem x⟩) x.own (List.mem_flatMap.2 ⟨x, by simp, own_mem x⟩) rfl
    have a1 := hnx _ _ hE
    have a2 := hnx _ _ hE'
    have key : ∀ (A A' B B' : List PEdge), A ++ x :: B = A' ++ x :: B' → x ∉ A → x ∉ A' → A = A' := by
      intro A
      induction A with
      | nil =>
        intro A' B B' h _ h2
        cases A' with
        | nil => rfl
        | cons a A' => simp at h; exact absurd (by simp [h.1]) h2
      | cons a A ih =>
        intro A' B B' h h1 h2
        cases A' with
        | nil => simp at h; exact absurd (by simp [h.1]) h1
        | cons a' A' =>
          simp only [List.cons_append, List.cons.injEq] at h
          rw [h.1, ih A' B B' h.2 (fun hm => h1 (by simp [hm])) (fun hm => h2 (by simp [hm]))]
    exact key _ _ _ _ (hE.symm.trans hE') a1 a2
  intro c hc
  rw [face_final hn hx hc, hE1, ← sent_at hn hw hr hc]
  cases x with
  | int => simp [receive]
  | bnd => simp [receive]
  | dist d ex =>
    have hb : before (P.home ex.e) (P.home d.e) = false := by
      simp only [takes, Bool.and_eq_true] at hw
      exact before_asymm hw.2
    simp [receive, hb]

/-- The edges whose numbers a rank receives. -/
theorem number_dist (hn : (P.edges.flatMap PEdge.faces).Nodup) {c ex : Face} (hx : PEdge.dist c ex ∈ P.edges) (hx' : PEdge.dist ex c ∈ P.edges)
    (hb : before (P.home ex.e) (P.home c.e)) : (numberP P).face c.e c.f = (numberP P).face ex.e ex.f := by
  rw [face_final hn hx (c := c) (by simp [PEdge.faces]), face_final hn hx' (c := ex) (by simp [PEdge.faces])]
  have h1 : receive P.home (sentNumbers P) (sentNumbers P) (PEdge.dist c ex) c.e c.f = sentNumbers P ex.e ex.f := by
    unfold receive
    simp only [if_pos hb]
    rw [setIdx_at, if_pos rfl]
  have h2 : receive P.home (sentNumbers P) (sentNumbers P) (PEdge.dist ex c) ex.e ex.f = sentNumbers P ex.e ex.f := by
    unfold receive
    simp only [before_asymm hb]
    rfl
  rw [h1, h2]

/-- C100. The unknowns of the edges which the ranks number, one after another, are all numbers below the number of unknowns, each once. -/
theorem numbers_all (hn : (P.edges.flatMap PEdge.faces).Nodup) :
    (P.edges.filter (takes P.home fun _ => true)).flatMap (fun x => fromTo ((numberP P).face x.own.e x.own.f) (P.esz x)) = List.range (numberP P).total := by
  have : ∀ (E E' : List PEdge), P.edges = E ++ E' →
      (E.filter (takes P.home fun _ => true)).flatMap (fun x => fromTo ((numberP P).face x.own.e x.own.f) (P.esz x)) = List.range (weighs P E) := by
    intro E
    induction E using List.reverseRecOn with
    | nil => intro _ _; rfl
    | append_singleton E x ih =>
      intro E' hE
      have hE' : P.edges = E ++ x :: E' := by rw [hE]; simp
      rw [List.filter_append, List.flatMap_append, ih _ hE', weighs_append]
      by_cases hx : takes P.home (fun _ => true) x = true
      · rw [List.filter_cons_of_pos hx, List.filter_nil, List.flatMap_singleton, number_takes hn hE' hx _ (own_mem x), List.range_add]
        congr 1
        simp [weighs, weigh, hx, fromTo, Nat.add_comm]
      · rw [List.filter_cons_of_neg hx, List.filter_nil]
        simp [weighs, weigh, hx]
  rw [this P.edges [] (by simp), numberP_total]

end

/-- What the numbers of the ranks have to be: an edge has the same numbers at its faces, on both sides of a cut, no other edge has one of them, and the vector of
a rank holds the numbers of an edge where the edge looks for them. -/
structure PNumbered (P : PSkeleton) (t : PNumbering) : Prop where
  le : ∀ x ∈ P.edges, t.face x.own.e x.own.f + P.esz x ≤ t.total
  same : ∀ x ∈ P.edges, ∀ c ∈ x.faces, t.face c.e c.f = t.face x.own.e x.own.f
  pair : ∀ c ex, PEdge.dist c ex ∈ P.edges → t.face c.e c.f = t.face ex.e ex.f
  inj : ∀ x ∈ P.edges, ∀ y ∈ P.edges, ∀ a < P.esz x, ∀ b < P.esz y, t.face x.own.e x.own.f + a = t.face y.own.e y.own.f + b → x = y ∨ ∃ c ex, x = .dist c ex ∧ y = .dist ex c
  ranks : t.globals.length = P.ranks.length
  place : ∀ p ∈ P.ranks.zip t.globals, ∀ x ∈ p.1.flatten, t.sol x.own.e x.own.f + P.esz x ≤ p.2.length ∧
    ∀ j < P.esz x, p.2.getD (t.sol x.own.e x.own.f + j) 0 = t.face x.own.e x.own.f + j

section
variable {P : PSkeleton} {s : Skeleton}

/-- Every edge is numbered by its rank, or it is the second side of a cut and the other rank numbers it. -/
theorem takes_or (hP : Shared P s) {x : PEdge} (hx : x ∈ P.edges) :
    takes P.home (fun _ => true) x ∨ ∃ c ex, x = .dist c ex ∧ PEdge.dist ex c ∈ P.edges ∧ takes P.home (fun _ => true) (.dist ex c) ∧ before (P.home ex.e) (P.home c.e) := by
  cases x with
  | int c c' => left; simp [takes, Gn.wetEdge, PEdge.faces]
  | bnd c => left; simp [takes, Gn.wetEdge, PEdge.faces]
  | dist c ex =>
    rcases before_total (hP.homes c ex hx) with h | h
    · left; simp [takes, h]
    · right; exact ⟨c, ex, rfl, hP.pair c ex hx, by simp [takes, h], h⟩

theorem esz_of (hP : Shared P s) {x : PEdge} (hx : x ∈ P.edges) {k : ℕ} (hk : k < s.edges.length) (h : x.own ∈ s.edges[k]) : P.esz x = s.esize k := hP.esize k hk _ h

theorem esz_pair (hP : Shared P s) {c ex : Face} (hx : PEdge.dist c ex ∈ P.edges) : P.esz (.dist c ex) = P.esz (.dist ex c) := by
  obtain ⟨k, hk, h1, h2⟩ := dist_edge hP hx
  show P.esize c.e c.f = P.esize ex.e ex.f
  rw [hP.esize k hk c h1, hP.esize k hk ex h2]

theorem flatMap_getD {l1 l2 : List PEdge} {x : PEdge} (g : PEdge → ℕ) (m : PEdge → ℕ) {j : ℕ} (hj : j < m x) :
    ((l1 ++ x :: l2).flatMap fun y => fromTo (g y) (m y)).getD ((l1.map m).sum + j) 0 = g x + j := by
  have hl : (l1.flatMap fun y => fromTo (g y) (m y)).length = (l1.map m).sum := by
    rw [List.length_flatMap]; congr 1; exact List.map_congr_left fun y _ => by simp [fromTo]
  rw [List.flatMap_append, List.flatMap_cons, List.getD_eq_getElem?_getD, List.getElem?_append_right (by omega), hl, Nat.add_sub_cancel_left,
    List.getElem?_append_left (by simpa [fromTo] using hj)]
  simp [fromTo, hj]
  omega

/-- C100. The numbering. -/
theorem numberP_numbered (hP : Shared P s) : PNumbered P (numberP P) := by
  have hrep : ∀ x ∈ P.edges, ∃ y E1 E2, takes P.home (fun _ => true) y ∧ P.edges = E1 ++ y :: E2 ∧ (x = y ∨ ∃ c ex, x = .dist c ex ∧ y = .dist ex c) ∧ P.esz x = P.esz y ∧
      ∀ c ∈ x.faces, (numberP P).face c.e c.f = weighs P E1 := by
    intro x hx
    rcases takes_or hP hx with h | ⟨c, ex, rfl, h1, h2, h3⟩
    · obtain ⟨E1, E2, he⟩ := List.append_of_mem hx
      exact ⟨x, E1, E2, h, he, .inl rfl, rfl, number_takes hP.nodup he h⟩
    · obtain ⟨E1, E2, he⟩ := List.append_of_mem h1
      refine ⟨_, E1, E2, h2, he, .inr ⟨c, ex, rfl, rfl⟩, esz_pair hP hx, fun d hd => ?_⟩
      simp only [PEdge.faces, List.mem_singleton] at hd
      subst hd
      rw [number_dist hP.nodup hx h1 h3]
      exact number_takes hP.nodup he h2 ex (by simp [PEdge.faces])
  have hown := fun x : PEdge => own_mem x
  have hglob : (numberP P).globals = P.ranks.map fun r => r.flatten.flatMap fun x => fromTo (receive P.home (sentNumbers P) (sentNumbers P) x x.own.e x.own.f) (P.esz x) := by
    show (P.ranks.foldl (placeRank P (sentNumbers P)) (sentNumbers P, fun _ _ => 0, [])).2.2 = _
    rw [places_globals _ _ _ hP.nodup, List.nil_append]
  refine ⟨?_, ?_, ?_, ?_, by rw [hglob, List.length_map], ?_⟩
  · intro x hx
    obtain ⟨y, E1, E2, hy, he, _, hz, hc⟩ := hrep x hx
    rw [hc _ (hown x), numberP_total, he, weighs_append, hz]
    simp only [weighs, List.map_cons, List.sum_cons, weigh, if_pos hy]
    omega
  · intro x hx c hc
    obtain ⟨y, E1, E2, hy, he, _, _, h⟩ := hrep x hx
    rw [h c hc, h _ (hown x)]
  · intro c ex hx
    have hx' := hP.pair c ex hx
    rcases before_total (hP.homes c ex hx) with h | h
    · exact (number_dist hP.nodup hx' hx h).symm
    · exact number_dist hP.nodup hx hx' h
  · intro x hx y hy a ha b hb he
    obtain ⟨x', E1, E2, hx', hE, hxx, hzx, hcx⟩ := hrep x hx
    obtain ⟨y', F1, F2, hy', hF, hyy, hzy, hcy⟩ := hrep y hy
    rw [hcx _ (hown x), hcy _ (hown y)] at he
    have hlen : ∀ (A B A' B' : List PEdge) (u w : PEdge) (i j : ℕ), A ++ u :: B = A' ++ w :: B' → takes P.home (fun _ => true) u → i < P.esz u →
        weighs P A + i = weighs P A' + j → A'.length ≤ A.length := by
      intro A B A' B' u w i j h hu hi hij
      by_contra hlt
      push Not at hlt
      have ht := congrArg (List.take (A.length + 1)) h
      rw [List.take_append, List.take_of_length_le (by omega), show A.length + 1 - A.length = 1 by omega, List.take_append_of_le_length (by omega)] at ht
      have hA : A' = (A ++ [u]) ++ A'.drop (A.length + 1) := by
        have : A ++ [u] = A'.take (A.length + 1) := by simpa using ht
        rw [this, List.take_append_drop]
      rw [hA, weighs_append, weighs_append] at hij
      simp only [weighs, List.map_cons, List.map_nil, List.sum_cons, List.sum_nil, weigh, if_pos hu] at hij
      omega
    have he' : E1 ++ x' :: E2 = F1 ++ y' :: F2 := hE ▸ hF
    have l1 := hlen E1 E2 F1 F2 x' y' a b he' hx' (hzx ▸ ha) he
    have l2 := hlen F1 F2 E1 E2 y' x' b a he'.symm hy' (hzy ▸ hb) he.symm
    obtain ⟨_, h3⟩ := List.append_inj he' (by omega)
    have hxy : x' = y' := (List.cons.inj h3).1
    subst hxy
    rcases hxx with rfl | ⟨c, ex, rfl, rfl⟩
    · rcases hyy with rfl | ⟨d, dx, rfl, rfl⟩
      · exact .inl rfl
      · exact .inr ⟨dx, d, rfl, rfl⟩
    · rcases hyy with rfl | ⟨d, dx, rfl, h⟩
      · exact .inr ⟨c, ex, rfl, rfl⟩
      · cases h; exact .inl rfl
  · intro p hp x hx
    rw [hglob] at hp
    have hp2 : p.1 ∈ P.ranks ∧ p.2 = p.1.flatten.flatMap fun x => fromTo (receive P.home (sentNumbers P) (sentNumbers P) x x.own.e x.own.f) (P.esz x) := by
      obtain ⟨n, hn1, hn2⟩ := List.getElem_of_mem hp
      rw [List.getElem_zip] at hn2
      rw [← hn2]
      exact ⟨List.getElem_mem _, List.getElem_map _⟩
    obtain ⟨hr, h2⟩ := hp2
    obtain ⟨R1, R2, hR⟩ := List.append_of_mem hr
    obtain ⟨r1, r2, hr'⟩ := List.append_of_mem hx
    have hn : ((R1 ++ p.1 :: R2).flatten.flatten.flatMap PEdge.faces).Nodup := by rw [← hR]; exact hP.nodup
    have hloc : (numberP P).sol x.own.e x.own.f = (r1.map P.esz).sum := by
      show (P.ranks.foldl (placeRank P (sentNumbers P)) (sentNumbers P, fun _ _ => 0, [])).2.1 x.own.e x.own.f = _
      rw [hR]
      exact (places_at (P := P) (sentNumbers P) hr' hn (sentNumbers P, fun _ _ => 0, [])).2
    have hxe : x ∈ P.edges := by
      obtain ⟨u, hu, hxu⟩ := List.mem_flatten.1 hx
      exact List.mem_flatten.2 ⟨u, List.mem_flatten.2 ⟨p.1, hr, hu⟩, hxu⟩
    rw [hloc, h2, hr', face_final hP.nodup hxe (hown x)]
    constructor
    · rw [List.length_flatMap]
      have : ((r1 ++ x :: r2).map fun y => (fromTo (receive P.home (sentNumbers P) (sentNumbers P) y y.own.e y.own.f) (P.esz y)).length) = (r1 ++ x :: r2).map P.esz :=
        List.map_congr_left fun y _ => by simp [fromTo]
      rw [this]
      simp
    · intro j hj
      exact flatMap_getD (fun y => receive P.home (sentNumbers P) (sentNumbers P) y y.own.e y.own.f) P.esz hj

end


/-! ### The numbers of the edges of the whole mesh -/

/-- First number of an edge of the whole mesh: that of its first face. -/
def firstNum (t : PNumbering) (l : List Face) : ℕ := match l with
  | [] => 0
  | c :: _ => t.face c.e c.f

/-- The traces which a vector of all ranks holds, by edges of the whole mesh. -/
def wholeTrace {K : Type} (s : Skeleton) (t : PNumbering) (x : ℕ → K) (k j : ℕ) : K := x (firstNum t (s.edges.getD k []) + j)

section
variable {P : PSkeleton} {s : Skeleton}

theorem num_same (hP : Shared P s) {t : PNumbering} (ht : PNumbered P t) {k : ℕ} (hk : k < s.edges.length) {c d : Face} (hc : c ∈ s.edges[k]) (hd : d ∈ s.edges[k]) :
    t.face c.e c.f = t.face d.e d.f := by
  obtain ⟨x, hx, hj⟩ := shared_edge hP hk
  have hin : ∀ l, joined P.home x = some l → l = s.edges[k] := fun l h => Option.some.inj (h.symm.trans hj)
  cases x with
  | int a a' =>
    have hl := hin _ rfl
    rw [← hl] at hc hd
    rw [ht.same _ hx c hc, ht.same _ hx d hd]
  | bnd a =>
    have hl := hin _ rfl
    rw [← hl, List.mem_singleton] at hc hd
    rw [hc, hd]
  | dist a b =>
    simp only [joined] at hj
    by_cases hb : (P.home a.e).1 < (P.home b.e).1 ∨ ((P.home a.e).1 = (P.home b.e).1 ∧ (P.home a.e).2 < (P.home b.e).2)
    · rw [if_pos hb] at hj
      have hl := Option.some.inj hj
      rw [← hl] at hc hd
      simp only [List.mem_cons, List.not_mem_nil, or_false] at hc hd
      rcases hc with rfl | rfl <;> rcases hd with rfl | rfl
      · rfl
      · exact ht.pair _ _ hx
      · exact (ht.pair _ _ hx).symm
      · rfl
    · rw [if_neg hb] at hj; cases hj

theorem first_eq (hP : Shared P s) {t : PNumbering} (ht : PNumbered P t) {k : ℕ} (hk : k < s.edges.length) {c : Face} (hc : c ∈ s.edges[k]) :
    firstNum t (s.edges.getD k []) = t.face c.e c.f := by
  rw [getD_edge s hk]
  rcases he : s.edges[k] with _ | ⟨d, l⟩
  · rw [he] at hc; cases hc
  · exact num_same hP ht hk (c := d) (d := c) (by rw [he]; simp) hc

/-- The edges of a submesh at an edge of the whole mesh are those which have one of its numbers. -/
theorem num_iff (hP : Shared P s) (hw : WellFormed s) {t : PNumbering} (ht : PNumbered P t) {k : ℕ} (hk : k < s.edges.length) {i : ℕ} (hi : i < s.esize k) {y : PEdge} (hy : y ∈ P.edges) :
    (t.face y.own.e y.own.f ≤ firstNum t (s.edges.getD k []) + i ∧ firstNum t (s.edges.getD k []) + i < t.face y.own.e y.own.f + P.esz y) ↔ y.own ∈ s.edges[k] := by
  obtain ⟨j, hj, hm⟩ := edge_of hP hy
  constructor
  · rintro ⟨h1, h2⟩
    obtain ⟨x, hx, hjx⟩ := shared_edge hP hk
    have hxm : x.own ∈ s.edges[k] := by
      cases x with
      | int a a' => rw [← Option.some.inj hjx]; simp [PEdge.own]
      | bnd a => rw [← Option.some.inj hjx]; simp [PEdge.own]
      | dist a b =>
        simp only [joined] at hjx
        by_cases hb : (P.home a.e).1 < (P.home b.e).1 ∨ ((P.home a.e).1 = (P.home b.e).1 ∧ (P.home a.e).2 < (P.home b.e).2)
        · rw [if_pos hb] at hjx; rw [← Option.some.inj hjx]; simp [PEdge.own]
        · rw [if_neg hb] at hjx; cases hjx
    rw [first_eq hP ht hk hxm] at h1 h2
    have hex : P.esz x = s.esize k := esz_of hP hx hk hxm
    rcases ht.inj y hy x hx (t.face x.own.e x.own.f + i - t.face y.own.e y.own.f) (by omega) i (by omega) (by omega) with rfl | ⟨a, b, rfl, rfl⟩
    · exact hxm
    · obtain ⟨l, hl, h3, h4⟩ := dist_edge hP hy
      have := edge_unique' hw hl hk h4 hxm
      subst this
      exact h3
  · intro h
    rw [first_eq hP ht hk h, esz_of hP hy hk h]
    omega

theorem first_le (hP : Shared P s) (hw : WellFormed s) {t : PNumbering} (ht : PNumbered P t) {k : ℕ} (hk : k < s.edges.length) {i : ℕ} (hi : i < s.esize k) :
    firstNum t (s.edges.getD k []) + i < t.total := by
  obtain ⟨x, hx, hjx⟩ := shared_edge hP hk
  obtain ⟨j, hj, hm⟩ := edge_of hP hx
  have hne : s.edges[k] ≠ [] := by
    intro h
    rw [h] at hjx
    cases x with
    | int a a' => cases hjx
    | bnd a => cases hjx
    | dist a b =>
      simp only [joined] at hjx
      split at hjx <;> simp at hjx
  obtain ⟨c, l, hc⟩ := List.exists_cons_of_ne_nil hne
  have hc : c ∈ s.edges[k] := by rw [hc]; simp
  obtain ⟨y, hy, hcy⟩ := List.mem_flatMap.1 ((face_mem hP).2 (List.mem_flatten.2 ⟨_, List.getElem_mem hk, hc⟩))
  obtain ⟨j, hj, hm⟩ := edge_of hP hy
  have := edge_unique' hw hj hk (hm c hcy) hc
  subst this
  have hle := ht.le y hy
  rw [first_eq hP ht hk (hm _ (own_mem y))]
  rw [esz_of hP hy hk (hm _ (own_mem y))] at hle
  omega

end

/-! ### Rows -/

section
variable {K : Type} [Field K] {P : PSkeleton} {s : Skeleton}

theorem rowDot_fromTo (a n c m : ℕ) (M : ℕ → ℕ → K) (x : ℕ → K) (r : ℕ) :
    rowDot (triplets (fromTo a n) (fromTo c m) M) x r = if a ≤ r ∧ r < a + n then ∑ j ∈ Finset.range m, M (r - a) j * x (c + j) else 0 := by
  have hget : ∀ (a n i : ℕ), i < n → (fromTo a n).getD i 0 = a + i := by
    intro a n i hi
    simp [fromTo, List.getD_eq_getElem?_getD, List.getElem?_range hi]; omega
  have hlen : ∀ a n, (fromTo a n).length = n := by simp [fromTo]
  rw [rowDot_triplets, hlen, hlen]
  by_cases h : a ≤ r ∧ r < a + n
  · rw [if_pos h, Finset.sum_eq_single (r - a)]
    · rw [hget _ _ _ (by omega), if_pos (by omega)]
      exact Finset.sum_congr rfl fun j hj => by rw [hget _ _ _ (Finset.mem_range.1 hj)]
    · intro i hi hne
      rw [hget _ _ _ (Finset.mem_range.1 hi), if_neg (by omega)]
    · intro hn; exact absurd (Finset.mem_range.2 (by omega)) hn
  · rw [if_neg h]
    refine Finset.sum_eq_zero fun i hi => ?_
    have := Finset.mem_range.1 hi
    rw [hget _ _ _ this, if_neg (by omega)]

theorem face_le (hP : Shared P s) (hw : WellFormed s) {t : PNumbering} (ht : PNumbered P t) {y : PEdge} (hy : y ∈ P.edges) {c : Face} (hc : c ∈ y.faces) {f : ℕ}
    (hf : f < 3) : t.face c.e f + P.esize c.e f ≤ t.total := by
  have hce := (hw.elt c ((face_mem hP).1 (List.mem_flatMap.2 ⟨y, hy, hc⟩))).1
  obtain ⟨z, hz, hm⟩ := List.mem_flatMap.1 ((face_mem hP).2 (hP.cover c.e hce f hf))
  obtain ⟨k, hk, hkm⟩ := edge_of hP hz
  have h1 := ht.same z hz _ hm
  have h2 := hP.esize k hk _ (hkm _ hm)
  have h3 := hP.esize k hk _ (hkm _ (own_mem z))
  have h4 := ht.le z hz
  simp only at h1 h2
  rw [h1, h2, ← h3]
  exact h4

theorem tripletsP_cols (hP : Shared P s) (hw : WellFormed s) {t : PNumbering} (ht : PNumbered P t) (b : PBlocks K) (inv : ℕ → ℕ → ℕ → K) :
    ∀ y ∈ P.edges.flatMap (tripletsP P t b inv), y.2.1 < t.total := by
  have hT : ∀ (r c : List ℕ) (m : ℕ → ℕ → K), ∀ y ∈ triplets r c m, y.2.1 ∈ c := by
    intro r c m y hy
    unfold triplets at hy
    rw [List.mem_flatMap] at hy
    obtain ⟨a, _, hy⟩ := hy
    rw [List.mem_map] at hy
    obtain ⟨⟨z, j⟩, hz, rfl⟩ := hy
    exact List.fst_mem_of_mem_zipIdx hz
  have hE : ∀ a n, a + n ≤ t.total → ∀ r ∈ fromTo a n, r < t.total := by
    intro a n hn r hr
    unfold fromTo at hr
    rw [List.mem_map] at hr
    obtain ⟨j, hj, rfl⟩ := hr
    have := List.mem_range.1 hj
    omega
  intro y hy
  rw [List.mem_flatMap] at hy
  obtain ⟨z, hz, hy⟩ := hy
  unfold tripletsP at hy
  rw [List.mem_append] at hy
  rcases hy with hy | hy
  · exact hE _ _ (ht.le z hz) _ (hT _ _ _ y hy)
  · rw [List.mem_flatMap] at hy
    obtain ⟨c, hc, hy⟩ := hy
    rw [List.mem_flatMap] at hy
    obtain ⟨f, hf, hy⟩ := hy
    rw [List.mem_filter, List.mem_range] at hf
    exact hE _ _ (face_le hP hw ht hz hc hf.1) _ (hT _ _ _ y hy)

/-- What the traces at the faces of an element contribute to its equations. -/
def faceSum (P : PSkeleton) (t : PNumbering) (dh : ℕ → ℕ → ℕ → ℕ → K) (x : ℕ → K) (e i : ℕ) : K :=
  ∑ f ∈ Finset.range 3, ∑ j ∈ Finset.range (P.esize e f), dh e f i j * x (t.face e f + j)

theorem traceSum_faceSum (hP : Shared P s) (hw : WellFormed s) {t : PNumbering} (ht : PNumbered P t) (b : Blocks K) (x : ℕ → K) {e : ℕ} (he : e ∈ s.elts) (i : ℕ) :
    traceSum s b (wholeTrace s t x) e i = faceSum P t b.dh x e i := by
  unfold traceSum faceSum
  rw [list_sum_range s.edges 0 fun c k => ((c.filter fun c => c.e = e).map fun c => ∑ j ∈ Finset.range (s.esize k), b.dh e c.f i j * wholeTrace s t x k j).sum]
  have h1 : ∀ k ∈ Finset.range s.edges.length, (((s.edges.getD k []).filter fun c => c.e = e).map fun c =>
      ∑ j ∈ Finset.range (s.esize (0 + k)), b.dh e c.f i j * wholeTrace s t x (0 + k) j).sum =
      ∑ f ∈ Finset.range 3, if (⟨e, f⟩ : Face) ∈ s.edges.getD k [] then ∑ j ∈ Finset.range (s.esize k), b.dh e f i j * wholeTrace s t x k j else 0 := by
    intro k hk
    have hk := Finset.mem_range.1 hk
    rw [getD_edge s hk, zero_add]
    exact filter_sum (edge_faces hw hk).1 (fun c hc => ((edge_faces hw hk).2 c hc).2) e fun f => ∑ j ∈ Finset.range (s.esize k), b.dh e f i j * wholeTrace s t x k j
  rw [Finset.sum_congr rfl h1, Finset.sum_comm]
  refine Finset.sum_congr rfl fun f hf => ?_
  obtain ⟨l, hl, hm⟩ := List.mem_flatten.1 (hP.cover e he f (Finset.mem_range.1 hf))
  obtain ⟨k, hk, rfl⟩ := List.getElem_of_mem hl
  rw [Finset.sum_eq_single k]
  · rw [getD_edge s hk, if_pos hm]
    have h2 := hP.esize k hk _ hm
    have h3 := first_eq hP ht hk hm
    simp only at h2 h3
    unfold wholeTrace
    rw [h2, h3]
  · intro k' hk' hne
    have hk' := Finset.mem_range.1 hk'
    rw [getD_edge s hk', if_neg]
    intro hm'
    exact hne (edge_unique' hw hk' hk hm' hm)
  · intro h; exact absurd (Finset.mem_range.2 hk) h

/-- A row of the matrix which all ranks together assemble. -/
theorem row_P (hP : Shared P s) (hw : WellFormed s) {t : PNumbering} (ht : PNumbered P t) (b : PBlocks K) (inv : ℕ → ℕ → ℕ → K) (x : ℕ → K) {k : ℕ} (hk : k < s.edges.length) {i : ℕ}
    (hi : i < s.esize k) :
    ∑ c ∈ Finset.range t.total, (assembleP P t b inv).1 (firstNum t (s.edges.getD k []) + i) c * x c =
      ((P.edges.filter fun y => decide (y.own ∈ s.edges[k])).map fun y =>
        ∑ j ∈ Finset.range (s.esize k), b.hg y.own.e y.own.f i j * wholeTrace s t x k j - (y.faces.map fun c =>
          ∑ n ∈ Finset.range (s.size c.e), mul (s.size c.e) (b.dg c.e c.f) (inv c.e) i n * faceSum P t b.dh x c.e n).sum).sum := by
  unfold assembleP
  simp only
  rw [fromTriplets_dot _ _ (tripletsP_cols hP hw ht b inv), rowDot_flatMap]
  refine Gn.Props.sum_filter_if fun y hy => ?_
  unfold tripletsP
  simp only [rowDot_append, rowDot_flatMap, rowDot_fromTo]
  by_cases hn : y.own ∈ s.edges[k]
  · have hcond := (num_iff hP hw ht hk hi hy).2 hn
    simp only [if_pos hcond, decide_eq_true hn, if_true]
    have hfst := first_eq hP ht hk hn
    have hsub : firstNum t (s.edges.getD k []) + i - t.face y.own.e y.own.f = i := by rw [hfst]; omega
    have hz : P.esz y = s.esize k := esz_of hP hy hk hn
    rw [hsub, hz]
    have hown : ∑ j ∈ Finset.range (s.esize k), ownP P b inv y i j * x (t.face y.own.e y.own.f + j) =
        ∑ j ∈ Finset.range (s.esize k), b.hg y.own.e y.own.f i j * wholeTrace s t x k j - (y.faces.map fun c =>
          ∑ j ∈ Finset.range (s.esize k), mul (s.size c.e) (mul (s.size c.e) (b.dg c.e c.f) (inv c.e)) (b.dh c.e c.f) i j * x (t.face y.own.e y.own.f + j)).sum := by
      unfold ownP wholeTrace
      rw [hP.size, hfst]
      simp only [sub_mul, Finset.sum_sub_distrib]
      congr 1
      induction y.faces with
      | nil => simp
      | cons a l ih => simp only [List.map_cons, List.sum_cons, add_mul, Finset.sum_add_distrib, ih]
    rw [hown, sub_add, sub_right_inj, Gn.Props.list_sub]
    congr 1
    refine List.map_congr_left fun c hc => ?_
    have hcm := (face_mem hP).1 (List.mem_flatMap.2 ⟨y, hy, hc⟩)
    have hcf : c.f < 3 := (hw.elt c hcm).2
    have hface : t.face c.e c.f = t.face y.own.e y.own.f := ht.same y hy c hc
    have hce : P.esize c.e c.f = s.esize k := by
      obtain ⟨j, hj, hm⟩ := edge_of hP hy
      have := edge_unique' hw hj hk (hm _ (own_mem y)) hn
      subst this
      exact hP.esize j hj c (hm c hc)
    have hfil : ∀ g : ℕ → K, (((List.range 3).filter (· ≠ c.f)).map fun f => -g f).sum = g c.f - ∑ f ∈ Finset.range 3, g f := by
      intro g
      have : c.f = 0 ∨ c.f = 1 ∨ c.f = 2 := by omega
      rcases this with h | h | h <;> rw [h] <;> simp [List.range_succ, Finset.sum_range_succ] <;> ring
    have key : ∀ f, ∑ j ∈ Finset.range (P.esize c.e f), mul (s.size c.e) (mul (s.size c.e) (b.dg c.e c.f) (inv c.e)) (b.dh c.e f) i j * x (t.face c.e f + j) =
        ∑ n ∈ Finset.range (s.size c.e), mul (s.size c.e) (b.dg c.e c.f) (inv c.e) i n * ∑ j ∈ Finset.range (P.esize c.e f), b.dh c.e f n j * x (t.face c.e f + j) :=
      fun f => mul_dot _ _ _ _ (fun j => x (t.face c.e f + j)) _
    have hcon : ∀ f, ∑ j ∈ Finset.range (P.esize c.e f), conBlock P.sizes b.elt inv c f i j * x (t.face c.e f + j) =
        -∑ n ∈ Finset.range (s.size c.e), mul (s.size c.e) (b.dg c.e c.f) (inv c.e) i n * ∑ j ∈ Finset.range (P.esize c.e f), b.dh c.e f n j * x (t.face c.e f + j) := by
      intro f
      rw [← key f, ← Finset.sum_neg_distrib]
      refine Finset.sum_congr rfl fun j _ => ?_
      have hsz : P.sizes.size = s.size := hP.size
      unfold conBlock mul
      rw [hsz]
      simp only [neg_mul, Finset.sum_neg_distrib]
      rfl
    simp only [hcon]
    rw [hfil fun f => ∑ n ∈ Finset.range (s.size c.e), mul (s.size c.e) (b.dg c.e c.f) (inv c.e) i n * ∑ j ∈ Finset.range (P.esize c.e f), b.dh c.e f n j * x (t.face c.e f + j),
      ← key c.f, hce, hface, sub_sub_cancel, Finset.sum_comm]
    refine Finset.sum_congr rfl fun n _ => ?_
    unfold faceSum
    rw [Finset.mul_sum]
  · have hcond : ¬_ := fun h => hn ((num_iff hP hw ht hk hi hy).1 h)
    simp only [if_neg hcond, decide_eq_false hn]
    simp

theorem rhs_P (hP : Shared P s) (hw : WellFormed s) {t : PNumbering} (ht : PNumbered P t) (b : PBlocks K) (inv : ℕ → ℕ → ℕ → K) {k : ℕ} (hk : k < s.edges.length) {i : ℕ}
    (hi : i < s.esize k) :
    (assembleP P t b inv).2 (firstNum t (s.edges.getD k []) + i) = ((P.edges.filter fun y => decide (y.own ∈ s.edges[k])).map fun y =>
      b.hr y.own.e y.own.f i - (y.faces.map fun c => mulV (s.size c.e) (mul (s.size c.e) (b.dg c.e c.f) (inv c.e)) (b.rl c.e) i).sum).sum := by
  have hz : ∀ (a n r : ℕ) (g : ℕ → K), ((fromTo a n).zipIdx.map fun z => if z.1 = r then g z.2 else 0).sum = if a ≤ r ∧ r < a + n then g (r - a) else 0 := by
    intro a n r g
    have hget : ∀ i, i < n → (fromTo a n).getD i 0 = a + i := by
      intro i hi
      simp [fromTo, List.getD_eq_getElem?_getD, List.getElem?_range hi]; omega
    have hlen : (fromTo a n).length = n := by simp [fromTo]
    rw [zipIdx_sum (fromTo a n) 0 0 fun c i => if c = r then g i else 0, hlen]
    by_cases h : a ≤ r ∧ r < a + n
    · rw [if_pos h, Finset.sum_eq_single (r - a)]
      · rw [hget _ (by omega), if_pos (by omega), zero_add]
      · intro j hj hne
        rw [hget _ (Finset.mem_range.1 hj), if_neg (by omega)]
      · intro hn; exact absurd (Finset.mem_range.2 (by omega)) hn
    · rw [if_neg h]
      refine Finset.sum_eq_zero fun j hj => ?_
      have := Finset.mem_range.1 hj
      rw [hget _ this, if_neg (by omega)]
  have key : ∀ (es : List PEdge) (v : ℕ → K) (r : ℕ), es.foldl (addP P t b inv) v r = v r +
      (es.map fun y => if t.face y.own.e y.own.f ≤ r ∧ r < t.face y.own.e y.own.f + P.esz y then ownRhsP P b inv y (r - t.face y.own.e y.own.f) else 0).sum := by
    intro es
    induction es with
    | nil => intro v r; simp
    | cons y es ih =>
      intro v r
      rw [List.foldl_cons, ih, List.map_cons, List.sum_cons]
      unfold addP
      rw [hz]
      ring
  unfold assembleP
  simp only
  rw [key, zero_add]
  refine Gn.Props.sum_filter_if fun y hy => ?_
  by_cases hn : y.own ∈ s.edges[k]
  · rw [if_pos ((num_iff hP hw ht hk hi hy).2 hn), if_pos (decide_eq_true hn)]
    have hsub : firstNum t (s.edges.getD k []) + i - t.face y.own.e y.own.f = i := by rw [first_eq hP ht hk hn]; omega
    rw [hsub]
    unfold ownRhsP
    rw [hP.size]
  · rw [if_neg fun h => hn ((num_iff hP hw ht hk hi hy).1 h), if_neg (by simpa using hn)]

/-- The faces of the edges at an edge of the whole mesh, on all ranks, are its faces. -/
theorem faces_perm (hP : Shared P s) (hw : WellFormed s) {k : ℕ} (hk : k < s.edges.length) :
    ((P.edges.filter fun y => decide (y.own ∈ s.edges[k])).flatMap PEdge.faces).Perm s.edges[k] := by
  have hn1 : ((P.edges.filter fun y => decide (y.own ∈ s.edges[k])).flatMap PEdge.faces).Nodup := by
    refine hP.nodup.sublist ?_
    rw [List.flatMap_def, List.flatMap_def]
    exact (List.filter_sublist.map _).flatten
  refine (List.perm_ext_iff_of_nodup hn1 (edge_faces hw hk).1).2 fun c => ?_
  simp only [List.mem_flatMap, List.mem_filter, decide_eq_true_eq]
  constructor
  · rintro ⟨y, ⟨hy, hm⟩, hc⟩
    obtain ⟨j, hj, hjm⟩ := edge_of hP hy
    have := edge_unique' hw hj hk (hjm _ (own_mem y)) hm
    subst this
    exact hjm c hc
  · intro hc
    obtain ⟨y, hy, hcy⟩ := List.mem_flatMap.1 ((face_mem hP).2 (List.mem_flatten.2 ⟨_, List.getElem_mem hk, hc⟩))
    obtain ⟨j, hj, hjm⟩ := edge_of hP hy
    have := edge_unique' hw hj hk (hjm c hcy) hc
    subst this
    exact ⟨y, ⟨hy, hjm _ (own_mem y)⟩, hcy⟩

theorem faces_sum (hP : Shared P s) (hw : WellFormed s) {k : ℕ} (hk : k < s.edges.length) (g : Face → K) :
    ((P.edges.filter fun y => decide (y.own ∈ s.edges[k])).map fun y => (y.faces.map g).sum).sum = (s.edges[k].map g).sum := by
  rw [← ((faces_perm hP hw hk).map g).sum_eq, List.map_flatMap, List.flatMap_def, List.sum_flatten, List.map_map]
  rfl

end

/-! ### Back substitution -/

section
variable {K : Type} [Field K] {P : PSkeleton} {s : Skeleton}

theorem back_one {t : PNumbering} {b : PBlocks K} {x : ℕ → K} {gs : List ℕ} {v w : (ℕ → ℕ → K) × (ℕ → ℕ → ℕ → K)} {y : PEdge} (h : backP P t b gs x v y = some w)
    (hg : ∀ c ∈ y.faces, P.esize c.e c.f = P.esz y ∧ ∀ j < P.esz y, gs.getD (t.sol y.own.e y.own.f + j) 0 = t.face c.e c.f + j) (e i : ℕ) :
    w.1 e i = v.1 e i - ((y.faces.filter fun c => c.e = e).map fun c => ∑ j ∈ Finset.range (P.esize e c.f), b.dh e c.f i j * x (t.face e c.f + j)).sum := by
  unfold backP at h
  by_cases hin : t.sol y.own.e y.own.f + P.esz y ≤ gs.length
  · rw [if_pos hin] at h
    cases h
    have : ∀ (cs : List Face), (∀ c ∈ cs, c ∈ y.faces) → ∀ (v : ℕ → ℕ → K), (cs.foldl (fun (r : ℕ → ℕ → K) c => Function.update r c.e fun i =>
        r c.e i - mulV (P.esz y) (b.dh c.e c.f) (partP t gs x y) i) v) e i =
        v e i - ((cs.filter fun c => c.e = e).map fun c => ∑ j ∈ Finset.range (P.esize e c.f), b.dh e c.f i j * x (t.face e c.f + j)).sum := by
      intro cs
      induction cs with
      | nil => simp
      | cons d cs ih =>
        intro hcs v
        have ih := ih fun c hc => hcs c (by simp [hc])
        rw [List.foldl_cons]
        refine (ih _).trans ?_
        by_cases hde : d.e = e
        · rw [List.filter_cons_of_pos (by simpa using hde), List.map_cons, List.sum_cons]
          subst hde
          obtain ⟨h1, h2⟩ := hg d (hcs d (by simp))
          have : mulV (P.esz y) (b.dh d.e d.f) (partP t gs x y) i = ∑ j ∈ Finset.range (P.esize d.e d.f), b.dh d.e d.f i j * x (t.face d.e d.f + j) := by
            unfold mulV partP
            rw [h1]
            exact Finset.sum_congr rfl fun j hj => by rw [h2 j (Finset.mem_range.1 hj)]
          rw [Function.update_self, this]
          ring
        · rw [List.filter_cons_of_neg (by simpa using hde), Function.update_of_ne (Ne.symm hde)]
    exact this y.faces (fun _ h => h) v.1
  · rw [if_neg hin] at h; cases h

theorem back_hat {t : PNumbering} {b : PBlocks K} {x : ℕ → K} {gs : List ℕ} {v w : (ℕ → ℕ → K) × (ℕ → ℕ → ℕ → K)} {y : PEdge} (h : backP P t b gs x v y = some w) (e f : ℕ) :
    w.2 e f = if e = y.own.e ∧ f = y.own.f then partP t gs x y else v.2 e f := by
  unfold backP at h
  by_cases hin : t.sol y.own.e y.own.f + P.esz y ≤ gs.length
  · rw [if_pos hin] at h
    cases h
    rfl
  · rw [if_neg hin] at h; cases h

/-- One after another, with the vector of its rank beside every edge. -/
theorem back_all {t : PNumbering} {b : PBlocks K} {x : ℕ → K} : ∀ (l : List (PEdge × List ℕ)) (v w : (ℕ → ℕ → K) × (ℕ → ℕ → ℕ → K)),
    l.foldlM (fun w y => backP P t b y.2 x w y.1) v = some w →
    (∀ y ∈ l, ∀ c ∈ y.1.faces, P.esize c.e c.f = P.esz y.1 ∧ ∀ j < P.esz y.1, y.2.getD (t.sol y.1.own.e y.1.own.f + j) 0 = t.face c.e c.f + j) →
    (∀ e i, w.1 e i = v.1 e i - ((((l.map Prod.fst).flatMap PEdge.faces).filter fun c => c.e = e).map fun c =>
      ∑ j ∈ Finset.range (P.esize e c.f), b.dh e c.f i j * x (t.face e c.f + j)).sum) ∧
    ∀ e f, (∀ y ∈ l, y.1.own = ⟨e, f⟩ → ∀ j < P.esize e f, w.2 e f j = x (t.face e f + j)) ∧ ((∀ y ∈ l, y.1.own ≠ ⟨e, f⟩) → w.2 e f = v.2 e f) := by
  intro l
  induction l with
  | nil => intro v w h _; cases h; simp
  | cons y l ih =>
    intro v w h hg
    rw [List.foldlM_cons] at h
    simp only [Option.bind_eq_bind, Option.bind_eq_some_iff] at h
    obtain ⟨v', hv', h⟩ := h
    obtain ⟨h1, h2⟩ := ih v' w h fun z hz => hg z (by simp [hz])
    refine ⟨fun e i => ?_, fun e f => ⟨?_, ?_⟩⟩
    · rw [h1, back_one hv' (hg y (by simp)) e i, List.map_cons, List.flatMap_cons, List.filter_append, List.map_append, List.sum_append, sub_sub]
    · intro z hz hzo j hj
      by_cases hl : ∃ z' ∈ l, z'.1.own = ⟨e, f⟩
      · obtain ⟨z', hz', ho⟩ := hl
        exact (h2 e f).1 z' hz' ho j hj
      · push Not at hl
        rw [(h2 e f).2 hl, back_hat hv']
        have hzy : z = y := by
          rcases List.mem_cons.1 hz with h | h
          · exact h
          · exact absurd hzo (hl z h)
        subst hzy
        rw [if_pos (by rw [hzo]; exact ⟨rfl, rfl⟩)]
        unfold partP
        have hc := hg z (by simp) _ (own_mem z.1)
        have hes : P.esz z.1 = P.esize e f := by unfold PSkeleton.esz; rw [hzo]
        rw [hc.2 j (by rw [hes]; exact hj), hzo]
    · intro hne
      rw [(h2 e f).2 fun z hz => hne z (by simp [hz]), back_hat hv', if_neg]
      rintro ⟨rfl, rfl⟩
      exact hne y (by simp) rfl

theorem foldlM_pairs {α β γ ρ : Type} (g : ρ → List α) (f : β → γ → α → Option γ) : ∀ (l : List (ρ × β)) (v : γ),
    l.foldlM (fun w r => (g r.1).foldlM (f r.2) w) v = (l.flatMap fun r => (g r.1).map fun y => (y, r.2)).foldlM (fun w y => f y.2 w y.1) v := by
  intro l
  induction l with
  | nil => intro v; rfl
  | cons r l ih =>
    intro v
    rw [List.foldlM_cons, List.flatMap_cons, List.foldlM_append, List.foldlM_map]
    congr 1
    funext w
    exact ih w

/-- An edge and the vector of its rank. -/
def withVec (P : PSkeleton) (t : PNumbering) : List (PEdge × List ℕ) := (P.ranks.zip t.globals).flatMap fun r => r.1.flatten.map fun y => (y, r.2)

theorem withVec_fst {t : PNumbering} (h : t.globals.length = P.ranks.length) : (withVec P t).map Prod.fst = P.edges := by
  unfold withVec PSkeleton.edges PSkeleton.subs
  rw [List.map_flatMap]
  have : ∀ (a : List (List (List PEdge))) (g : List (List ℕ)), g.length = a.length →
      ((a.zip g).flatMap fun r => (r.1.flatten.map fun y => (y, r.2)).map Prod.fst) = a.flatten.flatten := by
    intro a
    induction a with
    | nil => intro g _; rfl
    | cons r a ih =>
      intro g hg
      cases g with
      | nil => cases hg
      | cons c g =>
        rw [List.zip_cons_cons, List.flatMap_cons, ih g (by simpa using hg), List.flatten_cons, List.flatten_append]
        congr 1
        rw [List.map_map]
        exact List.map_id _
  exact this _ _ h

theorem withVec_mem {t : PNumbering} {y : PEdge × List ℕ} (hy : y ∈ withVec P t) : ∃ p ∈ P.ranks.zip t.globals, y.1 ∈ p.1.flatten ∧ y.2 = p.2 := by
  obtain ⟨p, hp, hy⟩ := List.mem_flatMap.1 hy
  obtain ⟨z, hz, rfl⟩ := List.mem_map.1 hy
  exact ⟨p, hp, hz, rfl⟩

theorem withVec_edge {t : PNumbering} {y : PEdge × List ℕ} (hy : y ∈ withVec P t) : y.1 ∈ P.edges := by
  obtain ⟨p, hp, h, _⟩ := withVec_mem hy
  obtain ⟨u, hu, hxu⟩ := List.mem_flatten.1 h
  exact List.mem_flatten.2 ⟨u, List.mem_flatten.2 ⟨p.1, (List.of_mem_zip hp).1, hu⟩, hxu⟩

theorem withVec_place (hP : Shared P s) {t : PNumbering} (ht : PNumbered P t) {y : PEdge × List ℕ} (hy : y ∈ withVec P t) :
    t.sol y.1.own.e y.1.own.f + P.esz y.1 ≤ y.2.length ∧
    ∀ c ∈ y.1.faces, P.esize c.e c.f = P.esz y.1 ∧ ∀ j < P.esz y.1, y.2.getD (t.sol y.1.own.e y.1.own.f + j) 0 = t.face c.e c.f + j := by
  have hye := withVec_edge hy
  obtain ⟨p, hp, h, h2⟩ := withVec_mem hy
  obtain ⟨h3, h4⟩ := ht.place p hp y.1 h
  rw [h2]
  refine ⟨h3, fun c hc => ⟨?_, fun j hj => ?_⟩⟩
  · obtain ⟨k, hk, hm⟩ := edge_of hP hye
    rw [hP.esize k hk c (hm c hc)]
    exact (hP.esize k hk _ (hm _ (own_mem y.1))).symm
  · rw [h4 j hj, ht.same y.1 hye c hc]

/-- The part of the vector of its rank which an edge takes exists. -/
theorem back_succeeds {t : PNumbering} {b : PBlocks K} {x : ℕ → K} : ∀ (l : List (PEdge × List ℕ)) (v : (ℕ → ℕ → K) × (ℕ → ℕ → ℕ → K)),
    (∀ y ∈ l, t.sol y.1.own.e y.1.own.f + P.esz y.1 ≤ y.2.length) → ∃ w, l.foldlM (fun w y => backP P t b y.2 x w y.1) v = some w := by
  intro l
  induction l with
  | nil => intro v _; exact ⟨v, rfl⟩
  | cons y l ih =>
    intro v h
    have hy : ∃ v', backP P t b y.2 x v y.1 = some v' := by
      unfold backP
      rw [if_pos (h y (by simp))]
      exact ⟨_, rfl⟩
    obtain ⟨v', hv'⟩ := hy
    obtain ⟨w, hw⟩ := ih v' fun z hz => h z (by simp [hz])
    exact ⟨w, by rw [List.foldlM_cons, hv']; exact hw⟩

end

/-! ### The system of the whole mesh -/

section
variable {K : Type} [Field K] {P : PSkeleton} {s : Skeleton}

/-- The blocks of the whole mesh are those of the ranks: those of elements and faces the same, those of an edge the sum of what the ranks at its sides have. -/
structure Gathers (P : PSkeleton) (s : Skeleton) (p : PBlocks K) (b : Blocks K) : Prop where
  dl : ∀ e ∈ s.elts, ∀ i < s.size e, ∀ j < s.size e, b.dl e i j = p.dl e i j
  rl : ∀ e ∈ s.elts, ∀ i < s.size e, b.rl e i = p.rl e i
  dh : ∀ (k : ℕ) (hk : k < s.edges.length), ∀ c ∈ s.edges[k], ∀ i < s.size c.e, ∀ j < s.esize k, b.dh c.e c.f i j = p.dh c.e c.f i j
  dg : ∀ (k : ℕ) (hk : k < s.edges.length), ∀ c ∈ s.edges[k], ∀ i < s.esize k, ∀ j < s.size c.e, b.dg c.e c.f i j = p.dg c.e c.f i j
  dhg : ∀ (k : ℕ) (hk : k < s.edges.length), ∀ i < s.esize k, ∀ j < s.esize k,
    b.dhg k i j = ((P.edges.filter fun y => decide (y.own ∈ s.edges[k])).map fun y => p.hg y.own.e y.own.f i j).sum
  rg : ∀ (k : ℕ) (hk : k < s.edges.length), ∀ i < s.esize k, b.rg k i = ((P.edges.filter fun y => decide (y.own ∈ s.edges[k])).map fun y => p.hr y.own.e y.own.f i).sum

theorem gathered_eqs {p : PBlocks K} {b b' : Blocks K} (h : Gathers P s p b) (h' : Gathers P s p b') {dq y : ℕ → ℕ → K}
    (hE : ElementEq s b dq y) (hG : EdgeEq s b dq y) : ElementEq s b' dq y ∧ EdgeEq s b' dq y := by
  constructor
  · intro e he i hi
    rw [h'.rl e he i hi, ← h.rl e he i hi, ← hE e he i hi]
    congr 1
    · exact Finset.sum_congr rfl fun j hj => by rw [h'.dl e he i hi j (Finset.mem_range.1 hj), h.dl e he i hi j (Finset.mem_range.1 hj)]
    · congr 1
      refine List.map_congr_left fun z hz => ?_
      obtain ⟨hk, hze⟩ : ∃ hk : z.2 < s.edges.length, z.1 = s.edges[z.2] := by
        obtain ⟨h1, h2⟩ := List.mem_zipIdx' hz
        exact ⟨h1, h2⟩
      congr 1
      refine List.map_congr_left fun c hc => ?_
      rw [List.mem_filter] at hc
      have hce : c.e = e := by simpa using hc.2
      subst hce
      refine Finset.sum_congr rfl fun j hj => ?_
      rw [h'.dh z.2 hk c (hze ▸ hc.1) i hi j (Finset.mem_range.1 hj), h.dh z.2 hk c (hze ▸ hc.1) i hi j (Finset.mem_range.1 hj)]
  · intro k hk i hi
    rw [h'.rg k hk i hi, ← h.rg k hk i hi, ← hG k hk i hi]
    congr 1
    · congr 1
      refine List.map_congr_left fun c hc => Finset.sum_congr rfl fun j hj => ?_
      rw [h'.dg k hk c hc i hi j (Finset.mem_range.1 hj), h.dg k hk c hc i hi j (Finset.mem_range.1 hj)]
    · exact Finset.sum_congr rfl fun j hj => by rw [h'.dhg k hk i hi j (Finset.mem_range.1 hj), h.dhg k hk i hi j (Finset.mem_range.1 hj)]

/-- The blocks of the whole mesh. -/
def gather (P : PSkeleton) (s : Skeleton) (p : PBlocks K) : Blocks K where
  dl := p.dl
  rl := p.rl
  dh := p.dh
  dg := p.dg
  dhg k i j := ((P.edges.filter fun y => decide (y.own ∈ s.edges.getD k [])).map fun y => p.hg y.own.e y.own.f i j).sum
  rg k i := ((P.edges.filter fun y => decide (y.own ∈ s.edges.getD k [])).map fun y => p.hr y.own.e y.own.f i).sum

theorem gather_gathers (P : PSkeleton) (s : Skeleton) (p : PBlocks K) : Gathers P s p (gather P s p) := by
  refine ⟨fun _ _ _ _ _ _ => rfl, fun _ _ _ _ => rfl, fun _ _ _ _ _ _ _ _ => rfl, fun _ _ _ _ _ _ _ _ => rfl, fun k hk i _ j _ => ?_, fun k hk i _ => ?_⟩
  · simp only [gather, getD_edge s hk]
  · simp only [gather, getD_edge s hk]

variable [LinearOrder K]

/-- C100. What the ranks together compute, in every step of the iteration, is a solution of the system of the whole mesh; each side of a cut has the change of the
trace of the edge. -/
theorem parallel_condensed {I : Inverse K} (hI : ∀ n M N, I n M = some N → RightInv n M N) {slv : Solver K} (hS : Solves slv) (hP : Shared P s) (hw : WellFormed s)
    {p : PBlocks K} {b : Blocks K} (hb : Gathers P s p b) {dq : ℕ → ℕ → K} {dh : ℕ → ℕ → ℕ → K} {x : ℕ → K} (h : condenseP I slv P p = some (dq, dh, x)) :
    ElementEq s b dq (wholeTrace s (numberP P) x) ∧ EdgeEq s b dq (wholeTrace s (numberP P) x) ∧
      ∀ y ∈ P.edges, ∀ (k : ℕ) (hk : k < s.edges.length), y.own ∈ s.edges[k] → ∀ j < s.esize k, dh y.own.e y.own.f j = wholeTrace s (numberP P) x k j := by
  have ht := numberP_numbered hP
  unfold condenseP at h
  simp only [Option.bind_eq_bind, Option.bind_eq_some_iff] at h
  obtain ⟨inv, hinv, x', hx, w, hback, h⟩ := h
  cases h
  generalize numberP P = t at *
  rw [foldlM_pairs List.flatten fun gs w y => backP P t p gs x w y] at hback
  have hback : (withVec P t).foldlM (fun w y => backP P t p y.2 x w y.1) (p.rl, fun _ _ _ => 0) = some w := hback
  obtain ⟨hb1, hb2⟩ := back_all _ _ _ hback fun y hy => (withVec_place hP ht hy).2
  rw [withVec_fst ht.ranks] at hb1
  have hsz : P.sizes.size = s.size := hP.size
  have hrl : ∀ e ∈ s.elts, ∀ i, w.1 e i = p.rl e i - traceSum s (gather P s p) (wholeTrace s t x) e i := by
    intro e he i
    rw [hb1 e i, traceSum_faceSum hP hw ht _ x he i]
    have hfl : ∀ c ∈ P.edges.flatMap PEdge.faces, c.f < 3 := fun c hc => (hw.elt c ((face_mem hP).1 hc)).2
    rw [filter_sum hP.nodup hfl e fun f => ∑ j ∈ Finset.range (P.esize e f), p.dh e f i j * x (t.face e f + j)]
    congr 1
    refine Finset.sum_congr rfl fun f hf => ?_
    rw [if_pos ((face_mem hP).2 (hP.cover e he f (Finset.mem_range.1 hf)))]
    rfl
  have hright : ∀ e ∈ s.elts, RightInv (s.size e) (p.dl e) (inv e) := by
    intro e he
    have := inverses_right hI p.elt P.sizes P.elts inv hinv e ((hP.elts e).2 he)
    rw [hsz] at this
    exact this
  have hEG : ElementEq s (gather P s p) (fun e => mulV (P.size e) (inv e) (w.1 e)) (wholeTrace s t x) ∧
      EdgeEq s (gather P s p) (fun e => mulV (P.size e) (inv e) (w.1 e)) (wholeTrace s t x) := by
    rw [hP.size]
    constructor
    · intro e he i hi
      have h1 : ∑ j ∈ Finset.range (s.size e), (gather P s p).dl e i j * mulV (s.size e) (inv e) (w.1 e) j = w.1 e i := apply_inv (hright e he) _ hi
      rw [h1, hrl e he i]
      show p.rl e i - traceSum s (gather P s p) (wholeTrace s t x) e i + traceSum s (gather P s p) (wholeTrace s t x) e i = p.rl e i
      ring
    · intro k hk i hi
      have hrow := hS _ _ _ _ hx (firstNum t (s.edges.getD k []) + i) (first_le hP hw ht hk hi)
      have hrow := (row_P hP hw ht p inv x hk hi).symm.trans hrow
      rw [rhs_P hP hw ht p inv hk hi] at hrow
      have hcols : ∀ (es : List PEdge) (A : PEdge → ℕ → K) (B C D : PEdge → K) (y : ℕ → K),
          (es.map fun z => ∑ j ∈ Finset.range (s.esize k), A z j * y j - B z).sum = (es.map fun z => D z - C z).sum →
          ∑ j ∈ Finset.range (s.esize k), (es.map fun z => A z j).sum * y j - (es.map B).sum = (es.map D).sum - (es.map C).sum := by
        intro es A B C D y
        have h1 : (es.map fun z => ∑ j ∈ Finset.range (s.esize k), A z j * y j - B z).sum = ∑ j ∈ Finset.range (s.esize k), (es.map fun z => A z j).sum * y j - (es.map B).sum := by
          induction es with
          | nil => simp
          | cons a es ih => simp only [List.map_cons, List.sum_cons, add_mul, Finset.sum_add_distrib, ih]; ring
        have h2 : (es.map fun z => D z - C z).sum = (es.map D).sum - (es.map C).sum := by
          clear h1
          induction es with
          | nil => simp
          | cons a es ih => simp only [List.map_cons, List.sum_cons, ih]; ring
        rw [h1, h2]
        exact id
      have hrow := hcols _ _ _ _ _ _ hrow
      rw [faces_sum hP hw hk, faces_sum hP hw hk] at hrow
      have hd : ∀ j, (gather P s p).dhg k i j = ((P.edges.filter fun y => decide (y.own ∈ s.edges[k])).map fun y => p.hg y.own.e y.own.f i j).sum := by
        intro j; simp only [gather, getD_edge s hk]
      have hr : (gather P s p).rg k i = ((P.edges.filter fun y => decide (y.own ∈ s.edges[k])).map fun y => p.hr y.own.e y.own.f i).sum := by
        simp only [gather, getD_edge s hk]
      rw [hr]
      simp only [hd]
      have hel : ∀ l : List Face, (∀ c ∈ l, c.e ∈ s.elts) → (l.map fun c => ∑ j ∈ Finset.range (s.size c.e), p.dg c.e c.f i j * mulV (s.size c.e) (inv c.e) (w.1 c.e) j).sum =
          (l.map fun c => mulV (s.size c.e) (mul (s.size c.e) (p.dg c.e c.f) (inv c.e)) (p.rl c.e) i).sum -
            (l.map fun c => ∑ n ∈ Finset.range (s.size c.e), mul (s.size c.e) (p.dg c.e c.f) (inv c.e) i n * faceSum P t p.dh x c.e n).sum := by
        intro l
        induction l with
        | nil => simp
        | cons a l ih =>
          intro hl
          simp only [List.map_cons, List.sum_cons]
          rw [ih fun c hc => hl c (by simp [hc])]
          have : ∑ j ∈ Finset.range (s.size a.e), p.dg a.e a.f i j * mulV (s.size a.e) (inv a.e) (w.1 a.e) j =
              mulV (s.size a.e) (mul (s.size a.e) (p.dg a.e a.f) (inv a.e)) (p.rl a.e) i -
              ∑ n ∈ Finset.range (s.size a.e), mul (s.size a.e) (p.dg a.e a.f) (inv a.e) i n * faceSum P t p.dh x a.e n := by
            unfold mulV
            have e1 := mul_dot (s.size a.e) (p.dg a.e a.f) (inv a.e) (s.size a.e) (p.rl a.e) i
            have e2 := mul_dot (s.size a.e) (p.dg a.e a.f) (inv a.e) (s.size a.e) (fun n => faceSum P t p.dh x a.e n) i
            rw [e1, e2, ← Finset.sum_sub_distrib]
            refine Finset.sum_congr rfl fun j _ => ?_
            rw [← mul_sub, ← Finset.sum_sub_distrib]
            congr 1
            refine Finset.sum_congr rfl fun n _ => ?_
            rw [hrl a.e (hl a (by simp)) n, traceSum_faceSum hP hw ht _ x (hl a (by simp)) n]
            show inv a.e j n * (p.rl a.e n - faceSum P t p.dh x a.e n) = _
            ring
          rw [this]; ring
      have hel := hel s.edges[k] fun c hc => ((edge_faces hw hk).2 c hc).1
      show (s.edges[k].map fun c => ∑ j ∈ Finset.range (s.size c.e), p.dg c.e c.f i j * mulV (s.size c.e) (inv c.e) (w.1 c.e) j).sum + _ = _
      rw [hel]
      linear_combination hrow
  obtain ⟨hE, hG⟩ := gathered_eqs (gather_gathers P s p) hb hEG.1 hEG.2
  refine ⟨hE, hG, fun y hy k hk hm j hj => ?_⟩
  have hyv : ∃ z ∈ withVec P t, z.1 = y := by
    rw [← withVec_fst ht.ranks] at hy
    obtain ⟨z, hz, h⟩ := List.mem_map.1 hy
    exact ⟨z, hz, h⟩
  obtain ⟨z, hz, rfl⟩ := hyv
  have := (hb2 z.1.own.e z.1.own.f).1 z hz rfl j (by rw [hP.esize k hk _ hm]; exact hj)
  show w.2 _ _ j = _
  rw [this]
  unfold wholeTrace
  rw [first_eq hP ht hk hm]

/-- C100. The ranks fail only where an inverse or the solver fails. -/
theorem parallel_total (hP : Shared P s) {I : Inverse K} {slv : Solver K} {p : PBlocks K} {inv : ℕ → ℕ → ℕ → K} (hi : inverses I p.elt P.sizes P.elts = some inv) {x : ℕ → K}
    (hx : slv (numberP P).total (assembleP P (numberP P) p inv).1 (assembleP P (numberP P) p inv).2 = some x) : ∃ dq dh, condenseP I slv P p = some (dq, dh, x) := by
  have ht := numberP_numbered hP
  obtain ⟨w, hw⟩ := back_succeeds (P := P) (t := numberP P) (b := p) (x := x) (withVec P (numberP P)) (p.rl, fun _ _ _ => 0) fun y hy => (withVec_place hP ht hy).1
  refine ⟨fun e => mulV (P.size e) (inv e) (w.1 e), w.2, ?_⟩
  unfold condenseP
  simp only [hi, hx, Option.bind_eq_bind, Option.bind_some]
  have hw' : (P.ranks.zip (numberP P).globals).foldlM (fun w r => r.1.flatten.foldlM (backP P (numberP P) p r.2 x) w) (p.rl, fun _ _ _ => 0) = some w := by
    rw [← hw]
    exact foldlM_pairs List.flatten (fun gs w y => backP P (numberP P) p gs x w y) _ _
  rw [hw']
  rfl

end

/-- C100. If the system of the whole mesh has one solution at most, several ranks compute what one computes. -/
theorem parallel_serial {K : Type} [Field K] [LinearOrder K] {I I' : Inverse K} (hI : ∀ n M N, I n M = some N → RightInv n M N) (hI' : ∀ n M N, I' n M = some N → RightInv n M N)
    {slv slv' : Solver K} (hS : Solves slv) (hS' : Solves slv') {P : PSkeleton} {s : Skeleton} (hP : Shared P s) (hw : WellFormed s) {p : PBlocks K} {b : Blocks K} (hb : Gathers P s p b)
    (hu : ∀ dq y dq' y', ElementEq s b dq y → EdgeEq s b dq y → ElementEq s b dq' y' → EdgeEq s b dq' y' →
      (∀ e ∈ s.elts, ∀ i < s.size e, dq e i = dq' e i) ∧ ∀ k < s.edges.length, ∀ j < s.esize k, y k j = y' k j)
    {dq dq' : ℕ → ℕ → K} {dh : ℕ → ℕ → ℕ → K} {x x' : ℕ → K} (h : condenseP I slv P p = some (dq, dh, x)) (h' : condense I' slv' s b = some (dq', x')) :
    (∀ e ∈ s.elts, ∀ i < s.size e, dq e i = dq' e i) ∧
      (∀ y ∈ P.edges, ∀ (k : ℕ) (hk : k < s.edges.length), y.own ∈ s.edges[k] → ∀ j < s.esize k, dh y.own.e y.own.f j = edgePart (number s) x' k j) ∧
      ∀ k < s.edges.length, ∀ j < s.esize k, wholeTrace s (numberP P) x k j = edgePart (number s) x' k j := by
  obtain ⟨h1, h2, h3⟩ := parallel_condensed hI hS hP hw hb h
  obtain ⟨h4, h5⟩ := condensed hI' hS' hw h'
  obtain ⟨h6, h7⟩ := hu _ _ _ _ h1 h2 h4 h5
  exact ⟨h6, fun y hy k hk hm j hj => (h3 y hy k hk hm j hj).trans (h7 k hk j hj), h7⟩

/-! ### The length of the change -/

section
variable {K : Type} [Field K] {P : PSkeleton} {s : Skeleton}

/-- C100. Summed over all numbers of the ranks is summed over all edges of the whole mesh: the length of the vector does not depend on the ranks. -/
theorem sum_whole (hP : Shared P s) (g : K → K) (x : ℕ → K) :
    ∑ r ∈ Finset.range (numberP P).total, g (x r) = ∑ k ∈ Finset.range s.edges.length, ∑ j ∈ Finset.range (s.esize k), g (wholeTrace s (numberP P) x k j) := by
  have ht := numberP_numbered hP
  have hall := numbers_all hP.nodup
  have h1 : ∑ r ∈ Finset.range (numberP P).total, g (x r) = ((List.range (numberP P).total).map fun r => g (x r)).sum := by
    rw [Finset.sum_range, ← List.sum_ofFn]
    congr 1
    rw [List.ofFn_eq_map, ← List.map_coe_finRange_eq_range, List.map_map]
    rfl
  have hsum : ∀ (n a : ℕ), ((fromTo a n).map fun r => g (x r)).sum = ∑ j ∈ Finset.range n, g (x (a + j)) := by
    intro n a
    unfold fromTo
    rw [List.map_map]
    induction n with
    | zero => rfl
    | succ n ih => rw [List.range_succ, List.map_append, List.sum_append, ih, Finset.sum_range_succ]; simp [Nat.add_comm]
  let F : Face → K := fun c => ∑ j ∈ Finset.range (P.esize c.e c.f), g (x ((numberP P).face c.e c.f + j))
  let H : List Face → K := fun l => match l with
    | [] => 0
    | c :: _ => F c
  have h2 : ((List.range (numberP P).total).map fun r => g (x r)).sum = ((P.edges.filter (takes P.home fun _ => true)).map fun y => F y.own).sum := by
    rw [← hall, List.map_flatMap, List.flatMap_def, List.sum_flatten, List.map_map]
    congr 1
    refine List.map_congr_left fun y _ => ?_
    exact hsum _ _
  have h3 : ∀ es : List PEdge, ((es.filter (takes P.home fun _ => true)).map fun y => F y.own).sum = ((es.filterMap (joined P.home)).map H).sum := by
    intro es
    induction es with
    | nil => rfl
    | cons y es ih =>
      cases y with
      | int c c' =>
        rw [List.filter_cons_of_pos (by simp [takes, Gn.wetEdge, PEdge.faces]), List.filterMap_cons_some (f := joined P.home) (b := [c, c']) rfl, List.map_cons, List.map_cons, List.sum_cons, List.sum_cons, ih]
        rfl
      | bnd c =>
        rw [List.filter_cons_of_pos (by simp [takes, Gn.wetEdge, PEdge.faces]), List.filterMap_cons_some (f := joined P.home) (b := [c]) rfl, List.map_cons, List.map_cons, List.sum_cons, List.sum_cons, ih]
        rfl
      | dist c ex =>
        by_cases hb : before (P.home c.e) (P.home ex.e) = true
        · rw [List.filter_cons_of_pos (by simp [takes, hb]), List.filterMap_cons_some (f := joined P.home) (a := PEdge.dist c ex) (b := [c, ex]) (if_pos ((before_iff _ _).1 hb)), List.map_cons, List.map_cons, List.sum_cons,
            List.sum_cons, ih]
          rfl
        · rw [List.filter_cons_of_neg (by simp [takes, hb]), List.filterMap_cons_none (f := joined P.home) (a := PEdge.dist c ex) (if_neg fun h => hb ((before_iff _ _).2 h)), ih]
  rw [h1, h2, h3, ← (hP.edges.map H).sum_eq]
  have h4 : (s.edges.map H).sum = ∑ k ∈ Finset.range s.edges.length, H (s.edges.getD k []) := by
    have := list_sum_range s.edges 0 fun l _ => H l
    rw [← this]
    conv_lhs => rw [← List.zipIdx_map_fst 0 s.edges]
    rw [List.map_map]
    rfl
  rw [h4]
  refine Finset.sum_congr rfl fun k hk => ?_
  have hk := Finset.mem_range.1 hk
  obtain ⟨y, hy, hj⟩ := shared_edge hP hk
  have hne : s.edges[k] ≠ [] := by
    intro h
    rw [h] at hj
    cases y with
    | int a a' => cases hj
    | bnd a => cases hj
    | dist a b =>
      simp only [joined] at hj
      split at hj <;> simp at hj
  obtain ⟨c, l, hc⟩ := List.exists_cons_of_ne_nil hne
  have hcm : c ∈ s.edges[k] := by rw [hc]; simp
  have hf := first_eq hP ht hk hcm
  unfold wholeTrace
  rw [hf, ← hP.esize k hk c hcm, getD_edge s hk, hc]

theorem sum_serial (s : Skeleton) (hp : ∀ k < s.edges.length, 0 < s.esize k) (g : K → K) (x : ℕ → K) :
    ∑ r ∈ Finset.range (number s).off, g (x r) = ∑ k ∈ Finset.range s.edges.length, ∑ j ∈ Finset.range (s.esize k), g (edgePart (number s) x k j) := by
  have : ∀ n ≤ s.edges.length, ∑ r ∈ Finset.range (offs s n), g (x r) = ∑ k ∈ Finset.range n, ∑ j ∈ Finset.range (s.esize k), g (edgePart (number s) x k j) := by
    intro n
    induction n with
    | zero => intro _; simp [offs]
    | succ n ih =>
      intro hn
      rw [offs_succ, Finset.sum_range_add, ih (by omega), Finset.sum_range_succ]
      congr 1
      unfold edgePart
      rw [edge_eq s (by omega), idxs_head s n (hp n (by omega))]
  rw [off_eq, this _ le_rfl]

theorem total_eq (hP : Shared P s) (hp : ∀ k < s.edges.length, 0 < s.esize k) : (numberP P).total = (number s).off := by
  have h1 := sum_whole hP (fun _ => (1 : ℚ)) (fun _ => 0)
  have h2 := sum_serial s hp (fun _ => (1 : ℚ)) (fun _ => 0)
  have := h1.trans h2.symm
  simpa using this

end

/-! ### Non-vacuity: the two elements of `twoElts` on two ranks, the second with an empty submesh before the other -/

def twoEltsP : PSkeleton where
  elts := [0, 1]
  ranks := [[[.bnd ⟨0, 0⟩, .bnd ⟨0, 2⟩, .dist ⟨0, 1⟩ ⟨1, 2⟩]], [[], [.bnd ⟨1, 0⟩, .bnd ⟨1, 1⟩, .dist ⟨1, 2⟩ ⟨0, 1⟩]]]
  home e := (e, e)
  size e := e + 1
  esize e f := if (e, f) = (0, 1) ∨ (e, f) = (1, 2) then 2 else 1

theorem twoEltsP_shared : Shared twoEltsP twoElts where
  elts _ := Iff.rfl
  size := rfl
  esize := by decide
  nodup := by decide
  pair c ex h := by
    simp [PSkeleton.edges, PSkeleton.subs, twoEltsP] at h ⊢
    rcases h with ⟨rfl, rfl⟩ | ⟨rfl, rfl⟩ <;> simp
  homes c ex h := by
    simp [PSkeleton.edges, PSkeleton.subs, twoEltsP] at h
    rcases h with ⟨rfl, rfl⟩ | ⟨rfl, rfl⟩ <;> simp [twoEltsP]
  edges := by decide
  cover := by decide

/-- The blocks of `demoBlocks`: one third of those of the cut edge on the first rank, two thirds on the second. -/
def demoP : PBlocks ℚ where
  dl := demoBlocks.dl
  rl := demoBlocks.rl
  dh := demoBlocks.dh
  dg := demoBlocks.dg
  hg e f i j :=
    if (e, f) = (0, 1) then demoBlocks.dhg 0 i j / 3
    else if (e, f) = (1, 2) then demoBlocks.dhg 0 i j * 2 / 3
    else demoBlocks.dhg (if (e, f) = (0, 0) then 1 else if (e, f) = (0, 2) then 2 else if (e, f) = (1, 0) then 3 else 4) i j
  hr e f i :=
    if (e, f) = (0, 1) then demoBlocks.rg 0 i / 3
    else if (e, f) = (1, 2) then demoBlocks.rg 0 i * 2 / 3
    else demoBlocks.rg (if (e, f) = (0, 0) then 1 else if (e, f) = (0, 2) then 2 else if (e, f) = (1, 0) then 3 else 4) i

theorem demo_gathers : Gathers twoEltsP twoElts demoP demoBlocks := by
  refine ⟨fun _ _ _ _ _ _ => rfl, fun _ _ _ _ => rfl, fun _ _ _ _ _ _ _ _ => rfl, fun _ _ _ _ _ _ _ _ => rfl, ?_, ?_⟩
  · decide +kernel
  · decide +kernel

example : (numberP twoEltsP).face 0 0 = 0 ∧ (numberP twoEltsP).face 0 1 = 2 ∧ (numberP twoEltsP).face 1 2 = 2 ∧ (numberP twoEltsP).face 1 1 = 5 ∧ (numberP twoEltsP).total = 6 ∧
    (numberP twoEltsP).globals = [[0, 1, 2, 3], [4, 5, 2, 3]] ∧ (numberP twoEltsP).sol 1 2 = 2 := by decide

set_option maxRecDepth 100000 in
/-- Two ranks succeed and compute what one computes. -/
theorem demoP_solves : (condenseP halfInv gauss twoEltsP demoP).isSome = true ∧
    (∀ e < 2, ∀ i < e + 1, (condenseP halfInv gauss twoEltsP demoP).map (fun r => r.1 e i) = (condense halfInv gauss twoElts demoBlocks).map (fun r => r.1 e i)) ∧
    ∀ j < 2, (condenseP halfInv gauss twoEltsP demoP).map (fun r => r.2.1 1 2 j) = (condense halfInv gauss twoElts demoBlocks).map (fun r => r.2 j) := by
  refine ⟨by decide +kernel, by decide +kernel, by decide +kernel⟩

example {r} (h : condenseP halfInv gauss twoEltsP demoP = some r) : EdgeEq twoElts demoBlocks r.1 (wholeTrace twoElts (numberP twoEltsP) r.2.2) :=
  (parallel_condensed halfInv_right gauss_solves twoEltsP_shared twoElts_wf demo_gathers h).2.1

example : (numberP twoEltsP).total = (number twoElts).off := total_eq twoEltsP_shared twoElts_wf.pos

end Verif.Ihdg.Props
