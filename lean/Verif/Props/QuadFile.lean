import Verif.Props.QuadMesh
import Verif.Props.Fort14
import Verif.Props.MeshMeta
import Mathlib.Tactic.LinearCombination

/-!
# C60: generated meshes pass through the reader and the adjacency builder

The mesh generator writes a fort.14 file; the preprocessor reads it and builds the neighbour table. For every size, pattern and
choice of side types the chain succeeds, interior faces get their neighbour, and the faces on a side get the type of that side.
-/

namespace Verif.QuadMesh.Props
open Verif Verif.Adcirc Verif.Adcirc.Props Verif.MeshMeta Verif.MeshMeta.Props

/-! ### Grid edges -/

/-- Consecutive corners, as grid positions. -/
def GEdge (l : List (ℕ × ℕ)) (p q : ℕ × ℕ) : Prop :=
  ∃ g1 g2 g3, l = [g1, g2, g3] ∧ ((p, q) = (g1, g2) ∨ (p, q) = (g2, g3) ∨ (p, q) = (g3, g1))

theorem gedge_cases {b : Bool} {i j t : ℕ} {p q : ℕ × ℕ} (ht : t < 2) (h : GEdge (corners b i j t) p q) :
    (p = (i, j) ∧ q = (i + 1, j)) ∨ (p = (i + 1, j) ∧ q = (i + 1, j + 1)) ∨ (p = (i + 1, j + 1) ∧ q = (i, j + 1)) ∨
      (p = (i, j + 1) ∧ q = (i, j)) ∨ (p.1 ≠ q.1 ∧ p.2 ≠ q.2 ∧ GEdge (corners b i j (1 - t)) q p) := by
  obtain ⟨g1, g2, g3, hg, h⟩ := h
  have ht2 : t = 0 ∨ t = 1 := by omega
  rcases ht2 with rfl | rfl <;> cases b <;> simp only [corners, List.cons.injEq, and_true] at hg <;>
    obtain ⟨rfl, rfl, rfl⟩ := hg <;> simp only [Prod.mk.injEq] at h <;> rcases h with ⟨rfl, rfl⟩ | ⟨rfl, rfl⟩ | ⟨rfl, rfl⟩ <;>
    simp [GEdge, corners]

theorem gedge_bottom (b : Bool) (i j : ℕ) : ∃ t < 2, GEdge (corners b i j t) (i, j) (i + 1, j) := by
  cases b
  · exact ⟨1, by omega, by simp [GEdge, corners]⟩
  · exact ⟨0, by omega, by simp [GEdge, corners]⟩

theorem gedge_right (b : Bool) (i j : ℕ) : ∃ t < 2, GEdge (corners b i j t) (i + 1, j) (i + 1, j + 1) := by
  cases b
  · exact ⟨1, by omega, by simp [GEdge, corners]⟩
  · exact ⟨1, by omega, by simp [GEdge, corners]⟩

theorem gedge_top (b : Bool) (i j : ℕ) : ∃ t < 2, GEdge (corners b i j t) (i + 1, j + 1) (i, j + 1) := by
  cases b
  · exact ⟨0, by omega, by simp [GEdge, corners]⟩
  · exact ⟨1, by omega, by simp [GEdge, corners]⟩

theorem gedge_left (b : Bool) (i j : ℕ) : ∃ t < 2, GEdge (corners b i j t) (i, j + 1) (i, j) := by
  cases b
  · exact ⟨0, by omega, by simp [GEdge, corners]⟩
  · exact ⟨0, by omega, by simp [GEdge, corners]⟩

/-- Grid position on side `s` (bottom, right, top, left). -/
def On (m n : ℕ) : ℕ → ℕ × ℕ → Prop
  | 0, p => p.2 = 0
  | 1, p => p.1 = m
  | 2, p => p.2 = n
  | _, p => p.1 = 0

theorem gedge_reverse (back : ℕ → ℕ → Bool) {m n i j t : ℕ} (hi : i < m) (hj : j < n) (ht : t < 2) {p q : ℕ × ℕ}
    (h : GEdge (corners (back i j) i j t) p q) :
    (∃ s < 4, On m n s p ∧ On m n s q) ∨
      ∃ i' j' t', i' < m ∧ j' < n ∧ t' < 2 ∧ GEdge (corners (back i' j') i' j' t') q p := by
  rcases gedge_cases ht h with ⟨rfl, rfl⟩ | ⟨rfl, rfl⟩ | ⟨rfl, rfl⟩ | ⟨rfl, rfl⟩ | ⟨_, _, h⟩
  · rcases j with _ | j
    · exact Or.inl ⟨0, by omega, rfl, rfl⟩
    · obtain ⟨t', ht', he⟩ := gedge_top (back i j) i j
      exact Or.inr ⟨i, j, t', hi, by omega, ht', he⟩
  · by_cases hm : i + 1 = m
    · exact Or.inl ⟨1, by omega, hm, hm⟩
    · obtain ⟨t', ht', he⟩ := gedge_left (back (i + 1) j) (i + 1) j
      exact Or.inr ⟨i + 1, j, t', by omega, hj, ht', he⟩
  · by_cases hn : j + 1 = n
    · exact Or.inl ⟨2, by omega, hn, hn⟩
    · obtain ⟨t', ht', he⟩ := gedge_bottom (back i (j + 1)) i (j + 1)
      exact Or.inr ⟨i, j + 1, t', hi, by omega, ht', he⟩
  · rcases i with _ | i
    · exact Or.inl ⟨3, by omega, rfl, rfl⟩
    · obtain ⟨t', ht', he⟩ := gedge_right (back i j) i j
      exact Or.inr ⟨i, j, t', by omega, hj, ht', he⟩
  · exact Or.inr ⟨i, j, 1 - t, hi, hj, by omega, h⟩

theorem gedge_side {b : Bool} {m n i j t s : ℕ} (hi : i < m) (hj : j < n) (ht : t < 2) {p q : ℕ × ℕ}
    (h : GEdge (corners b i j t) p q) (hs : s < 4) (hp : On m n s p) (hq : On m n s q) :
    (s = 0 ∧ j = 0 ∧ p = (i, j) ∧ q = (i + 1, j)) ∨ (s = 1 ∧ i + 1 = m ∧ p = (i + 1, j) ∧ q = (i + 1, j + 1)) ∨
    (s = 2 ∧ j + 1 = n ∧ p = (i + 1, j + 1) ∧ q = (i, j + 1)) ∨ (s = 3 ∧ i = 0 ∧ p = (i, j + 1) ∧ q = (i, j)) := by
  have h4 : s = 0 ∨ s = 1 ∨ s = 2 ∨ s = 3 := by omega
  rcases h4 with rfl | rfl | rfl | rfl <;> simp only [On] at hp hq <;>
    rcases gedge_cases ht h with ⟨rfl, rfl⟩ | ⟨rfl, rfl⟩ | ⟨rfl, rfl⟩ | ⟨rfl, rfl⟩ | ⟨h1, h2, _⟩ <;> simp at hp hq ⊢ <;> omega

theorem gedge_alone {b b' : Bool} {m n i j t i' j' t' s : ℕ} (hi : i < m) (hj : j < n) (ht : t < 2) (hi' : i' < m) (hj' : j' < n)
    (ht' : t' < 2) {p q : ℕ × ℕ} (h : GEdge (corners b i j t) p q) (hs : s < 4) (hp : On m n s p) (hq : On m n s q)
    (h' : GEdge (corners b' i' j' t') q p) : False := by
  rcases gedge_side hi hj ht h hs hp hq with ⟨rfl, h1, rfl, rfl⟩ | ⟨rfl, h1, rfl, rfl⟩ | ⟨rfl, h1, rfl, rfl⟩ | ⟨rfl, h1, rfl, rfl⟩ <;>
    rcases gedge_side hi' hj' ht' h' hs hq hp with ⟨h2, h3, h4, h5⟩ | ⟨h2, h3, h4, h5⟩ | ⟨h2, h3, h4, h5⟩ | ⟨h2, h3, h4, h5⟩ <;>
    simp at h2 h4 h5 <;> omega

/-! ### Faces of elements -/

/-- Face `f` of an element (opposite to corner `f`) joins `a` and `b`, in this order. -/
def Face (e : Elt) (f a b : ℕ) : Prop :=
  ∃ x y z, e.nodes = [x, y, z] ∧ ((f = 0 ∧ a = y ∧ b = z) ∨ (f = 1 ∧ a = z ∧ b = x) ∨ (f = 2 ∧ a = x ∧ b = y))

theorem face_dir {e : Elt} {f a b : ℕ} (h : Face e f a b) : DirEdge e.nodes a b := by
  obtain ⟨x, y, z, h1, h2⟩ := h
  refine ⟨x, y, z, h1, ?_⟩
  simp only [Prod.mk.injEq]
  omega

theorem face_grid {pat : Pattern} {m n k f a b : ℕ} (hk : k < 2 * m * n) (h : Face (tri pat m k) f a b) :
    ∃ p q, a = num m p ∧ b = num m q ∧ p.1 ≤ m ∧ q.1 ≤ m ∧ p.2 ≤ n ∧ q.2 ≤ n ∧
      GEdge (corners (back pat (k / 2 % m) (k / 2 / m)) (k / 2 % m) (k / 2 / m) (k % 2)) p q := by
  obtain ⟨_, hi, hj⟩ := cell_of_slot hk
  obtain ⟨g1, g2, g3, hg⟩ := corners_three (back pat (k / 2 % m) (k / 2 / m)) (k / 2 % m) (k / 2 / m) (k % 2)
  have hb : ∀ g ∈ [g1, g2, g3], g.1 ≤ m ∧ g.2 ≤ n := by
    intro g h
    have := corners_bound (hg ▸ h)
    omega
  obtain ⟨x, y, z, h1, h2⟩ := h
  simp only [tri, hg, List.map_cons, List.map_nil, List.cons.injEq, and_true] at h1
  obtain ⟨rfl, rfl, rfl⟩ := h1
  have b1 := hb g1 (by simp)
  have b2 := hb g2 (by simp)
  have b3 := hb g3 (by simp)
  rcases h2 with ⟨_, rfl, rfl⟩ | ⟨_, rfl, rfl⟩ | ⟨_, rfl, rfl⟩
  · exact ⟨g2, g3, rfl, rfl, b2.1, b3.1, b2.2, b3.2, g1, g2, g3, hg, by simp⟩
  · exact ⟨g3, g1, rfl, rfl, b3.1, b1.1, b3.2, b1.2, g1, g2, g3, hg, by simp⟩
  · exact ⟨g1, g2, rfl, rfl, b1.1, b2.1, b1.2, b2.2, g1, g2, g3, hg, by simp⟩

theorem grid_face {pat : Pattern} {m n i j t : ℕ} (hi : i < m) (hj : j < n) (ht : t < 2) {p q : ℕ × ℕ}
    (h : GEdge (corners (back pat i j) i j t) p q) :
    ∃ k < 2 * m * n, ∃ f, Face (tri pat m k) f (num m p) (num m q) := by
  have hd := cell_decode (j := j) hi ht
  refine ⟨2 * i + 2 * m * j + t, ?_, ?_⟩
  · have hb : m * j + m ≤ m * n := by
      calc m * j + m = m * (j + 1) := by ring
        _ ≤ m * n := Nat.mul_le_mul_left _ hj
    have e1 : 2 * m * j = 2 * (m * j) := by ring
    have e2 : 2 * m * n = 2 * (m * n) := by ring
    omega
  · obtain ⟨g1, g2, g3, hg, h⟩ := h
    unfold Face tri
    rw [hd.1, hd.2.1, hd.2.2, hg]
    simp only [Prod.mk.injEq] at h
    rcases h with ⟨rfl, rfl⟩ | ⟨rfl, rfl⟩ | ⟨rfl, rfl⟩
    · exact ⟨2, _, _, _, rfl, by simp⟩
    · exact ⟨0, _, _, _, rfl, by simp⟩
    · exact ⟨1, _, _, _, rfl, by simp⟩

theorem face_idx {pat : Pattern} {m n k f f' a b : ℕ} (hk : k < 2 * m * n) (h : Face (tri pat m k) f a b)
    (h' : Face (tri pat m k) f' a b) : f = f' := by
  obtain ⟨_, hi, hj⟩ := cell_of_slot hk
  obtain ⟨g1, g2, g3, hg⟩ := corners_three (back pat (k / 2 % m) (k / 2 / m)) (k / 2 % m) (k / 2 / m) (k % 2)
  have hb : ∀ g ∈ [g1, g2, g3], g.1 ≤ m := by
    intro g h
    have := corners_bound (hg ▸ h)
    omega
  have hne : g1 ≠ g2 ∧ g2 ≠ g3 ∧ g1 ≠ g3 := by
    unfold corners at hg
    split at hg <;> simp only [List.cons.injEq, and_true] at hg <;> obtain ⟨rfl, rfl, rfl⟩ := hg <;> simp
  have n12 : num m g1 ≠ num m g2 := fun e => hne.1 (num_inj (hb _ (by simp)) (hb _ (by simp)) e)
  have n23 : num m g2 ≠ num m g3 := fun e => hne.2.1 (num_inj (hb _ (by simp)) (hb _ (by simp)) e)
  have n13 : num m g1 ≠ num m g3 := fun e => hne.2.2 (num_inj (hb _ (by simp)) (hb _ (by simp)) e)
  obtain ⟨x, y, z, h1, h2⟩ := h
  obtain ⟨x', y', z', h1', h2'⟩ := h'
  simp only [tri, hg, List.map_cons, List.map_nil, List.cons.injEq, and_true] at h1 h1'
  omega

theorem face_flip {pat : Pattern} {m n k f a b : ℕ} (hk : k < 2 * m * n) (h : Face (tri pat m k) f a b)
    (h' : Face (tri pat m k) f b a) : False := by
  obtain ⟨p, q, e1, e2, h1, h2, _, _, hg⟩ := face_grid hk h
  have hab : a = b := by
    obtain ⟨x, y, z, h1, h2⟩ := h
    obtain ⟨x', y', z', h1', h2'⟩ := h'
    rw [h1] at h1'
    simp only [List.cons.injEq, and_true] at h1'
    omega
  have hpq : p = q := num_inj h1 h2 (by omega)
  subst hpq
  rcases gedge_cases (by omega) hg with ⟨rfl, h⟩ | ⟨rfl, h⟩ | ⟨rfl, h⟩ | ⟨rfl, h⟩ | ⟨h, _⟩ <;> simp at h

/-! ### Sides -/

theorem pair_infix_map (f : ℕ → ℕ) (N a b : ℕ) (s : ℕ) :
    [a, b] <:+: (List.range' s (N + 1)).map f ↔ ∃ i, s ≤ i ∧ i < s + N ∧ a = f i ∧ b = f (i + 1) := by
  induction N generalizing s with
  | zero =>
    simp only [List.range'_succ, List.map_cons]
    rw [pair_infix_cons]
    simp
    omega
  | succ N ih =>
    rw [List.range'_succ, List.map_cons, pair_infix_cons, ih]
    simp only [List.range'_succ, List.map_cons, List.head?_cons, Option.some.injEq]
    constructor
    · rintro (⟨rfl, rfl⟩ | ⟨i, h1, h2, h3⟩)
      · exact ⟨s, le_rfl, by omega, rfl, rfl⟩
      · exact ⟨i, by omega, by omega, h3⟩
    · rintro ⟨i, h1, h2, rfl, rfl⟩
      rcases Nat.lt_or_eq_of_le h1 with h | rfl
      · exact Or.inr ⟨i, h, by omega, rfl, rfl⟩
      · exact Or.inl ⟨rfl, rfl⟩

theorem edge_map (f : ℕ → ℕ) (N a b : ℕ) :
    Edge a b ((List.range (N + 1)).map f) ↔ ∃ i < N, (a = f i ∧ b = f (i + 1)) ∨ (b = f i ∧ a = f (i + 1)) := by
  unfold Edge
  rw [List.range_eq_range', pair_infix_map, pair_infix_map]
  constructor
  · rintro (⟨i, _, h2, h3⟩ | ⟨i, _, h2, h3⟩)
    · exact ⟨i, by omega, Or.inl h3⟩
    · exact ⟨i, by omega, Or.inr h3⟩
  · rintro ⟨i, h2, h3 | h3⟩
    · exact Or.inl ⟨i, by omega, by omega, h3⟩
    · exact Or.inr ⟨i, by omega, by omega, h3⟩

/-- Position `i` on side `s`. -/
def sidePos (m n : ℕ) : ℕ → ℕ → ℕ × ℕ
  | 0, i => (i, 0)
  | 1, i => (m, i)
  | 2, i => (i, n)
  | _, i => (0, i)

def sideLen (m n : ℕ) : ℕ → ℕ
  | 0 => m
  | 1 => n
  | 2 => m
  | _ => n

theorem sides_get (m n s : ℕ) (hs : s < 4) :
    (sides m n)[s]? = some ((List.range (sideLen m n s + 1)).map fun i => num m (sidePos m n s i)) := by
  have h4 : s = 0 ∨ s = 1 ∨ s = 2 ∨ s = 3 := by omega
  rcases h4 with rfl | rfl | rfl | rfl <;> simp only [sides, sideLen, sidePos, num, List.getElem?_cons_zero, List.getElem?_cons_succ,
    Option.some.injEq] <;> apply List.map_congr_left <;> intro i _ <;> ring

theorem side_edge {m n s : ℕ} (hs : s < 4) {l : List ℕ} (hl : (sides m n)[s]? = some l) {p q : ℕ × ℕ} (hp : p.1 ≤ m) (hq : q.1 ≤ m)
    (h : Edge (num m p) (num m q) l) : On m n s p ∧ On m n s q := by
  rw [sides_get m n s hs, Option.some.injEq] at hl
  subst hl
  rw [edge_map] at h
  obtain ⟨i, hi, h⟩ := h
  have hb : ∀ i ≤ sideLen m n s, (sidePos m n s i).1 ≤ m ∧ On m n s (sidePos m n s i) := by
    intro i hi
    have h4 : s = 0 ∨ s = 1 ∨ s = 2 ∨ s = 3 := by omega
    rcases h4 with rfl | rfl | rfl | rfl <;>
      first | exact ⟨hi, rfl⟩ | exact ⟨le_rfl, rfl⟩ | exact ⟨Nat.zero_le _, rfl⟩
  have b1 := hb i (by omega)
  have b2 := hb (i + 1) (by omega)
  rcases h with ⟨h1, h2⟩ | ⟨h1, h2⟩
  · rw [num_inj hp b1.1 h1, num_inj hq b2.1 h2]; exact ⟨b1.2, b2.2⟩
  · rw [num_inj hq b1.1 h1, num_inj hp b2.1 h2]; exact ⟨b2.2, b1.2⟩

theorem gedge_on_side {b : Bool} {m n i j t s : ℕ} (hi : i < m) (hj : j < n) (ht : t < 2) {p q : ℕ × ℕ}
    (h : GEdge (corners b i j t) p q) (hs : s < 4) (hp : On m n s p) (hq : On m n s q) {l : List ℕ}
    (hl : (sides m n)[s]? = some l) : Edge (num m p) (num m q) l := by
  rw [sides_get m n s hs, Option.some.injEq] at hl
  subst hl
  rw [edge_map]
  rcases gedge_side hi hj ht h hs hp hq with ⟨rfl, rfl, rfl, rfl⟩ | ⟨rfl, rfl, rfl, rfl⟩ | ⟨rfl, rfl, rfl, rfl⟩ |
    ⟨rfl, rfl, rfl, rfl⟩ <;> simp only [sideLen, sidePos]
  · exact ⟨i, hi, Or.inl ⟨rfl, rfl⟩⟩
  · exact ⟨j, hj, Or.inl ⟨rfl, rfl⟩⟩
  · exact ⟨i, hi, Or.inr ⟨rfl, rfl⟩⟩
  · exact ⟨j, hj, Or.inr ⟨rfl, rfl⟩⟩

theorem on_unique {b : Bool} {m n i j t s s' : ℕ} (hi : i < m) (hj : j < n) (ht : t < 2) {p q : ℕ × ℕ}
    (h : GEdge (corners b i j t) p q) (hs : s < 4) (hp : On m n s p) (hq : On m n s q) (hs' : s' < 4) (hp' : On m n s' p)
    (hq' : On m n s' q) : s' = s := by
  rcases gedge_side hi hj ht h hs hp hq with ⟨rfl, h1, rfl, rfl⟩ | ⟨rfl, h1, rfl, rfl⟩ | ⟨rfl, h1, rfl, rfl⟩ | ⟨rfl, h1, rfl, rfl⟩ <;>
    rcases gedge_side hi hj ht h hs' hp' hq' with ⟨h2, h3, h4, h5⟩ | ⟨h2, h3, h4, h5⟩ | ⟨h2, h3, h4, h5⟩ | ⟨h2, h3, h4, h5⟩ <;>
    simp at h2 h4 h5 <;> omega

/-! ### Reading the file -/

/-- The object the reader is expected to produce. -/
def obj {W K : Type} (title : W) (M : Mesh K) (types : List ℕ) : Fort14 W K :=
  let tides := (types.zip M.sides).filter fun b => b.1 = tide
  let lands := (types.zip M.sides).filter fun b => b.1 ≠ tide
  { name := title
    nodes := M.nodes.map fun A => (A.id, A.x, A.y, A.z)
    elements := M.elements.map fun e => (e.id, e.type, e.nodes.getD 0 0, e.nodes.getD 1 0, e.nodes.getD 2 0)
    NOPE := tides.length
    NETA := (tides.map fun b => b.2.length).sum
    NBDV := tides.map Prod.snd
    NBOU := lands.length
    NVEL := (lands.map fun b => b.2.length).sum
    IBTYPE := lands.map fun b => fortCode b.1
    NBVV := lands.map Prod.snd
    BAR := []
    gen := some (0, 0)
    NBGN := [] }

theorem fortCode_cases (t : ℕ) : (t = 0 ∧ fortCode t = 0) ∨ (t = 2 ∧ fortCode t = 2) ∨ (t = 3 ∧ fortCode t = 77) ∨
    (t ≠ 0 ∧ t ≠ 2 ∧ t ≠ 3 ∧ fortCode t = 88) := by
  unfold fortCode land flow function
  split_ifs <;> simp_all

theorem barMap_none {R : Type} (segs : List (Seg R)) (k : ℕ) (h : ∀ sg ∈ segs, sg.bar = none) : barMap segs k = [] := by
  induction segs generalizing k with
  | nil => rfl
  | cons sg rest ih =>
    rw [barMap, h sg (by simp), ih _ (fun s hs => h s (by simp [hs]))]
    rfl

theorem read_file {W K : Type} (title : W) (m n : ℕ) (M : Mesh K) (types : List ℕ) (hn : M.nodes.length = (m + 1) * (n + 1))
    (he : M.elements.length = 2 * m * n) (hni : (M.nodes.map Node.id).Nodup) (hei : (M.elements.map Elt.id).Nodup) :
    read (file title m n M types) = some (obj title M types) := by
  have hseg : ∀ sg ∈ (((types.zip M.sides).filter fun b => b.1 ≠ tide).map fun b => (⟨fortCode b.1, b.2, none⟩ : Seg K)),
      SegOK sg := by
    intro sg hsg
    obtain ⟨b, _, rfl⟩ := List.mem_map.mp hsg
    rcases fortCode_cases b.1 with ⟨_, h⟩ | ⟨_, h⟩ | ⟨_, h⟩ | ⟨_, _, _, h⟩ <;> simp [SegOK, accepted, h]
  have hbar : barMap (((types.zip M.sides).filter fun b => b.1 ≠ tide).map fun b => (⟨fortCode b.1, b.2, none⟩ : Seg K)) 0 = [] := by
    apply barMap_none
    intro sg hsg
    obtain ⟨b, _, rfl⟩ := List.mem_map.mp hsg
    rfl
  have hv : Valid (obj title M types) := by
    refine ⟨?_, ?_, by simp [obj], ⟨_, hseg, by simp [obj], ?_, ?_, ?_⟩, ⟨(0, 0), rfl, rfl⟩⟩
    · simpa [obj, Function.comp_def] using hni
    · simpa [obj, Function.comp_def] using hei
    · simp [obj]
    · simp [obj]
    · rw [hbar]; rfl
  obtain ⟨s, hs, hr⟩ := write_read_partial _ hv
  have : write (obj title M types) = .ok (file title m n M types) := by
    have h1 := wrSegs_eq (W := W) _ hseg _ 0 (Nat.zero_add _)
    rw [hbar] at h1
    simp only [List.map_map, List.length_map, List.drop_zero, List.flatMap_map, Function.comp_def] at h1
    have h2 := wrNodeLists_eq (W := W) (R := K) (((types.zip M.sides).filter fun b => b.1 = tide).map Prod.snd) _ 0 (Nat.zero_add _)
    simp only [List.length_map, List.drop_zero, List.flatMap_map] at h2
    unfold write obj
    simp only
    rw [h2, MeshMeta.ok_bind, h1, MeshMeta.ok_bind]
    show Except.ok _ = Except.ok _
    unfold file
    simp only [List.length_map, hn, he, List.map_map, Function.comp_def, List.append_nil]
    rfl
  rw [hs] at this
  cases this
  exact hr

/-! ### Classification of the sides -/

theorem zip_get {types : List ℕ} {S : List (List ℕ)} {b : ℕ × List ℕ} (h : b ∈ types.zip S) :
    ∃ s : ℕ, types[s]? = some b.1 ∧ S[s]? = some b.2 := by
  obtain ⟨s, hs⟩ := List.mem_iff_getElem?.mp h
  rw [List.getElem?_zip_eq_some] at hs
  exact ⟨s, hs⟩

theorem classify {W K : Type} (title : W) (M : Mesh K) (types : List ℕ) (ht : ∀ t ∈ types, t ≤ 4)
    (hwf : WF (obj title M types)) (a b s t : ℕ) (l : List ℕ) (hs : types[s]? = some t) (hl : M.sides[s]? = some l) (he : Edge a b l)
    (hu : ∀ (s' : ℕ) (l' : List ℕ), M.sides[s']? = some l' → Edge a b l' → s' = s) :
    getIbtype (obj title M types) a b = .ok t := by
  obtain ⟨h1, h2, _, _⟩ := getIbtype_spec (obj title M types) hwf a b
  have hmem : (t, l) ∈ types.zip M.sides := by
    apply List.mem_iff_getElem?.mpr
    exact ⟨s, by rw [List.getElem?_zip_eq_some]; exact ⟨hs, hl⟩⟩
  have huni : ∀ b' ∈ types.zip M.sides, Edge a b b'.2 → b'.1 = t := by
    intro b' hb' he'
    obtain ⟨s', e1, e2⟩ := zip_get hb'
    have := hu s' b'.2 e2 he'
    subst this
    rw [hs, Option.some.injEq] at e1
    exact e1.symm
  have hopen : (∃ l ∈ (obj title M types).NBDV, Edge a b l) ↔ t = 1 := by
    constructor
    · rintro ⟨l', hl', he'⟩
      simp only [obj, List.mem_map, List.mem_filter, decide_eq_true_eq] at hl'
      obtain ⟨b', ⟨hb', ht'⟩, rfl⟩ := hl'
      rw [← huni b' hb' he', ht']
      rfl
    · rintro rfl
      refine ⟨l, ?_, he⟩
      simp only [obj, List.mem_map, List.mem_filter, decide_eq_true_eq]
      exact ⟨(1, l), ⟨hmem, rfl⟩, rfl⟩
  by_cases h : t = 1
  · rw [h]; exact h1 (hopen.mpr h)
  · have hno : ¬ ∃ l ∈ (obj title M types).NBDV, Edge a b l := fun hc => h (hopen.mp hc)
    have ht4 : t ≤ 4 := ht t (List.mem_of_getElem? hs)
    have hland : ∀ (k : ℕ) (b' : ℕ × List ℕ), ((types.zip M.sides).filter fun b => b.1 ≠ tide)[k]? = some b' → b' ∈ types.zip M.sides :=
      fun k b' hk => List.mem_of_mem_filter (List.mem_of_getElem? hk)
    have hhas : ∀ s' t', SegHas (obj title M types) a b s' t' → t' = t := by
      rintro s' t' ⟨ty, nb, e1, e2, e3⟩
      simp only [obj, List.getElem?_map, Option.map_eq_some_iff] at e1 e2
      obtain ⟨b', hb', rfl⟩ := e1
      obtain ⟨b'', hb'', rfl⟩ := e2
      rw [hb', Option.some.injEq] at hb''
      subst hb''
      have hb := hland _ _ hb'
      obtain ⟨s'', e4, _⟩ := zip_get hb
      have hle := ht _ (List.mem_of_getElem? e4)
      have hnt : b'.1 ≠ 1 := by
        have := List.of_mem_filter (List.mem_of_getElem? hb')
        exact of_decide_eq_true this
      have hlook : ∀ x : List (Bar K), (obj title M types).BAR.lookup s' ≠ some x := by
        intro x hx
        simp [obj] at hx
      rcases fortCode_cases b'.1 with ⟨e5, e6⟩ | ⟨e5, e6⟩ | ⟨e5, e6⟩ | ⟨e5, e7, e8, e6⟩ <;> rw [e6] at e3 <;> simp at e3 <;>
        (have := huni b' hb e3.1; omega)
    have hex : ∃ s', ∃ t', SegHas (obj title M types) a b s' t' := by
      have hm' : (t, l) ∈ (types.zip M.sides).filter fun b => b.1 ≠ tide := by
        rw [List.mem_filter]
        exact ⟨hmem, decide_eq_true h⟩
      obtain ⟨k, hk⟩ := List.mem_iff_getElem?.mp hm'
      have e1 : (obj title M types).IBTYPE[k]? = some (fortCode t) := by simp only [obj, List.getElem?_map, hk, Option.map_some]
      have e2 : (obj title M types).NBVV[k]? = some l := by simp only [obj, List.getElem?_map, hk, Option.map_some]
      refine ⟨k, t, fortCode t, l, e1, e2, ?_⟩
      rcases fortCode_cases t with ⟨e5, e6⟩ | ⟨e5, e6⟩ | ⟨e5, e6⟩ | ⟨e5, e7, e8, e6⟩ <;> rw [e6] <;> simp <;> refine ⟨he, ?_⟩ <;> omega
    classical
    obtain ⟨t', hmin⟩ := Nat.find_spec hex
    have := h2 hno (Nat.find hex) t' hmin (fun s' hs' t'' hc => Nat.find_min hex hs' ⟨t'', hc⟩)
    rw [this, hhas _ _ hmin]

/-! ### The whole chain -/

section chain
variable {K : Type} [Field K] [LinearOrder K] [IsStrictOrderedRing K]

omit [LinearOrder K] [IsStrictOrderedRing K] in
theorem obj_isFace {W : Type} (title : W) (bath : K → K → K) (pat : Pattern) (m n : ℕ) (x0 y0 x1 y1 : K) (types : List ℕ)
    (e f a b : ℕ) : IsFace (obj title (rmesh bath pat m n x0 y0 x1 y1) types) e f a b ↔
      e < 2 * m * n ∧ Face (tri pat m e) f a b := by
  unfold IsFace Face
  simp only [obj, rmesh, List.map_map, List.mem_map, List.mem_range, Function.comp_def, Prod.mk.injEq]
  have h3 : ∀ k, ∃ x y z, (tri pat m k).nodes = [x, y, z] := by
    intro k
    obtain ⟨g1, g2, g3, hg⟩ := corners_three (back pat (k / 2 % m) (k / 2 / m)) (k / 2 % m) (k / 2 / m) (k % 2)
    exact ⟨_, _, _, by simp only [tri, hg]; rfl⟩
  constructor
  · rintro ⟨ty, n0, n1, n2, ⟨k, hk, rfl, rfl, rfl, rfl, rfl⟩, h⟩
    obtain ⟨x, y, z, hx⟩ := h3 k
    refine ⟨hk, x, y, z, hx, ?_⟩
    rw [hx] at h
    exact h
  · rintro ⟨hk, x, y, z, hx, h⟩
    refine ⟨3, x, y, z, ⟨e, hk, rfl, rfl, ?_, ?_, ?_⟩, h⟩ <;> rw [hx] <;> rfl

omit [LinearOrder K] [IsStrictOrderedRing K] in
theorem obj_conforming {W : Type} (title : W) (bath : K → K → K) (pat : Pattern) (m n : ℕ) (x0 y0 x1 y1 : K) (types : List ℕ)
    (hN : (m + 1) * (n + 1) ≤ 2 ^ 32) (hE : 2 * m * n < 2 ^ 32) :
    Conforming (obj title (rmesh bath pat m n x0 y0 x1 y1) types) := by
  refine ⟨?_, ?_, ?_⟩
  · have : (obj title (rmesh bath pat m n x0 y0 x1 y1) types).elements.map Prod.fst = List.range (2 * m * n) := by
      simp only [obj, rmesh, List.map_map, Function.comp_def, tri]
      exact List.map_id _
    rw [this]
    exact List.nodup_range
  · intro x hx
    simp only [obj, rmesh, List.map_map, List.mem_map, List.mem_range, Function.comp_def] at hx
    obtain ⟨k, hk, rfl⟩ := hx
    obtain ⟨_, hi, hj⟩ := cell_of_slot hk
    obtain ⟨g1, g2, g3, hg⟩ := corners_three (back pat (k / 2 % m) (k / 2 / m)) (k / 2 % m) (k / 2 / m) (k % 2)
    have hb : ∀ g ∈ [g1, g2, g3], num m g < 2 ^ 32 := by
      intro g h
      have := corners_bound (hg ▸ h)
      have h2 : num m (g.1, g.2) < (m + 1) * (n + 1) := num_lt (by omega) (by omega)
      exact lt_of_lt_of_le h2 hN
    have h0 : (tri pat m k).nodes = [num m g1, num m g2, num m g3] := by simp only [tri, hg]; rfl
    rw [h0]
    refine ⟨?_, hb g1 (by simp), hb g2 (by simp), hb g3 (by simp)⟩
    show k < 2 ^ 32 - 1
    omega
  · intro e₁ k₁ a₁ b₁ e₂ k₂ a₂ b₂ e₃ k₃ a₃ b₃ h1 h2 h3 s12 s23
    rw [obj_isFace] at h1 h2 h3
    have same : ∀ e k e' k' a b, (e < 2 * m * n ∧ Face (tri pat m e) k a b) → (e' < 2 * m * n ∧ Face (tri pat m e') k' a b) →
        (e, k) = (e', k') := by
      intro e k e' k' a b h h'
      have := conforming pat m n e e' h.1 h'.1 a b (face_dir h.2) (face_dir h'.2)
      subst this
      rw [face_idx h.1 h.2 h'.2]
    rw [Sym2.eq_iff] at s12 s23
    rcases s12 with ⟨rfl, rfl⟩ | ⟨rfl, rfl⟩
    · exact Or.inl (same _ _ _ _ _ _ h1 h2)
    · rcases s23 with ⟨rfl, rfl⟩ | ⟨rfl, rfl⟩
      · exact Or.inr (Or.inl (same _ _ _ _ _ _ h2 h3))
      · exact Or.inr (Or.inr (same _ _ _ _ _ _ h1 h3))

/-- The point is on side `s` (bottom, right, top, left) of the rectangle. -/
def OnSide (x0 y0 x1 y1 : K) (s : ℕ) (A : Node K) : Prop :=
  (s = 0 ∧ A.y = y0) ∨ (s = 1 ∧ A.x = x1) ∨ (s = 2 ∧ A.y = y1) ∨ (s = 3 ∧ A.x = x0)

theorem onSide_iff (bath : K → K → K) (m n : ℕ) (hm : 0 < m) (hn : 0 < n) (x0 y0 x1 y1 : K) (hx : x0 < x1) (hy : y0 < y1)
    (s : ℕ) (hs : s < 4) (g : ℕ × ℕ) : OnSide x0 y0 x1 y1 s (gnode bath m n x0 y0 x1 y1 g) ↔ On m n s g := by
  have hmK : (0 : K) < m := by exact_mod_cast hm
  have hnK : (0 : K) < n := by exact_mod_cast hn
  have low : ∀ (a b : K) (i k : ℕ), a < b → (0 : K) < k → (a + (b - a) * i / k = a ↔ i = 0) := by
    intro a b i k hab hk
    have : b - a ≠ 0 := (sub_pos.mpr hab).ne'
    rw [add_eq_left, div_eq_zero_iff, mul_eq_zero]
    simp [this, hk.ne']
  have high : ∀ (a b : K) (i k : ℕ), a < b → (0 : K) < k → (a + (b - a) * i / k = b ↔ i = k) := by
    intro a b i k hab hk
    have h0 : b - a ≠ 0 := (sub_pos.mpr hab).ne'
    constructor
    · intro h
      have h1 : (b - a) * i / k = b - a := by linear_combination h
      rw [div_eq_iff hk.ne'] at h1
      exact_mod_cast mul_left_cancel₀ h0 h1
    · rintro rfl
      field_simp
      ring
  have h4 : s = 0 ∨ s = 1 ∨ s = 2 ∨ s = 3 := by omega
  rcases h4 with rfl | rfl | rfl | rfl <;> simp [OnSide, On, gnode, low _ _ _ _ hx hmK, low _ _ _ _ hy hnK, high _ _ _ _ hx hmK,
    high _ _ _ _ hy hnK]

/-- **C60** For every rectangle, every size that fits into 32 bits, every pattern and every choice of the four side types
(land 0, tide 1, flow 2, function 3, outflow 4) the generated file is read, and for every iteration order of the edge table the
neighbour table is built. A face with both ends on a side has the type of that side and no neighbour; every other face is internal
and its neighbour is an element with the reversed face. -/
theorem generated_mesh {W : Type} (title : W) (bath : K → K → K) (p m n : ℕ) (hp : p ≤ 2) (hm : 0 < m) (hn : 0 < n)
    (hN : (m + 1) * (n + 1) ≤ 2 ^ 32) (hE : 2 * m * n < 2 ^ 32) (x0 y0 x1 y1 : K) (hx : x0 < x1) (hy : y0 < y1)
    (types : List ℕ) (hlen : types.length = 4) (ht : ∀ t ∈ types, t ≤ 4) :
    ∃ M F, generate ⟨x0, y0, x1, y0, x1, y1, x0, y1⟩ bath p m n = .ok M ∧ read (file title m n M types) = some F ∧
      ∀ order : Dict, order.Perm (edgeDict F.elements) → ∃ E, build F order = .ok E ∧
        (E.map fun x => (x.1, x.2.nodes)) = M.elements.map (fun e => (e.id, e.nodes)) ∧
        ∀ e ∈ M.elements, ∀ f a b, Face e f a b → ∃ A B, M.nodes[a]? = some A ∧ M.nodes[b]? = some B ∧
          (∀ s < 4, OnSide x0 y0 x1 y1 s A → OnSide x0 y0 x1 y1 s B →
            ∃ t, types[s]? = some t ∧ slot E (e.id, f) = some (2 ^ 32 - 1, t)) ∧
          ((∀ s < 4, ¬ (OnSide x0 y0 x1 y1 s A ∧ OnSide x0 y0 x1 y1 s B)) →
            ∃ e' ∈ M.elements, ∃ f', Face e' f' b a ∧ slot E (e.id, f) = some (e'.id, 128)) := by
  obtain ⟨pat, hpat⟩ := parsePattern_ok p hp
  have hread : read (file title m n (rmesh bath pat m n x0 y0 x1 y1) types) =
      some (obj title (rmesh bath pat m n x0 y0 x1 y1) types) := by
    apply read_file
    · simp [rmesh]
    · simp [rmesh]
    · have : (rmesh bath pat m n x0 y0 x1 y1).nodes.map Node.id = List.range ((m + 1) * (n + 1)) := by
        simp only [rmesh, List.map_map, Function.comp_def, node]
        exact List.map_id _
      rw [this]
      exact List.nodup_range
    · have : (rmesh bath pat m n x0 y0 x1 y1).elements.map Elt.id = List.range (2 * m * n) := by
        simp only [rmesh, List.map_map, Function.comp_def, tri]
        exact List.map_id _
      rw [this]
      exact List.nodup_range
  have hwf : WF (obj title (rmesh bath pat m n x0 y0 x1 y1) types) := by
    refine read_wf _ _ hread ?_
    intro seg ty h1 h2
    simp only [obj, List.getElem?_map, Option.map_eq_some_iff] at h1
    obtain ⟨b', _, rfl⟩ := h1
    rcases fortCode_cases b'.1 with ⟨_, e6⟩ | ⟨_, e6⟩ | ⟨_, e6⟩ | ⟨_, _, _, e6⟩ <;> rw [e6] at h2 <;> omega
  have hC := obj_conforming title bath pat m n x0 y0 x1 y1 types hN hE
  -- a face alone on its edge lies on a side
  have hside : ∀ e f a b, e < 2 * m * n → Face (tri pat m e) f a b → ∃ p q, a = num m p ∧ b = num m q ∧ p.1 ≤ m ∧ q.1 ≤ m ∧
      p.2 ≤ n ∧ q.2 ≤ n ∧
      (∀ s < 4, On m n s p → On m n s q → ∃ t, types[s]? = some t ∧
        getIbtype (obj title (rmesh bath pat m n x0 y0 x1 y1) types) a b = .ok t ∧
        ∀ e' f', e' < 2 * m * n → Face (tri pat m e') f' b a → False) ∧
      ((∀ s < 4, ¬ (On m n s p ∧ On m n s q)) → ∃ e' < 2 * m * n, ∃ f', Face (tri pat m e') f' b a) := by
    intro e f a b he hf
    obtain ⟨p, q, rfl, rfl, b1, b2, b3, b4, hg⟩ := face_grid he hf
    obtain ⟨_, hi, hj⟩ := cell_of_slot he
    refine ⟨p, q, rfl, rfl, b1, b2, b3, b4, ?_, ?_⟩
    · intro s hs hps hqs
      obtain ⟨t, hts⟩ : ∃ t, types[s]? = some t := ⟨_, List.getElem?_eq_getElem (by omega)⟩
      have hl := sides_get m n s hs
      refine ⟨t, hts, ?_, ?_⟩
      · refine classify title _ types ht hwf _ _ s t _ hts hl (gedge_on_side hi hj (by omega) hg hs hps hqs hl) ?_
        intro s' l' hl' he'
        have hs' : s' < 4 := by
          have := (List.getElem?_eq_some_iff.mp hl').1
          simpa [rmesh, sides] using this
        obtain ⟨h1, h2⟩ := side_edge hs' hl' b1 b2 he'
        exact on_unique hi hj (by omega) hg hs hps hqs hs' h1 h2
      · intro e' f' he' hf'
        obtain ⟨q', p', e1, e2, c1, c2, _, _, hg'⟩ := face_grid he' hf'
        obtain ⟨_, hi', hj'⟩ := cell_of_slot he'
        have := num_inj b2 c1 e1
        have := num_inj b1 c2 e2
        subst q' p'
        exact gedge_alone hi hj (by omega) hi' hj' (by omega) hg hs hps hqs hg'
    · intro hno
      rcases gedge_reverse (back pat) hi hj (by omega) hg with ⟨s, hs, h⟩ | ⟨i', j', t', h1, h2, h3, h4⟩
      · exact absurd h (hno s hs)
      · exact grid_face h1 h2 h3 h4
  have halone : ∀ e f a b, e < 2 * m * n → Face (tri pat m e) f a b → (∀ e' f', e' < 2 * m * n → Face (tri pat m e') f' b a → False) →
      ∀ e' k' a' b', IsFace (obj title (rmesh bath pat m n x0 y0 x1 y1) types) e' k' a' b' → s(a', b') = s(a, b) → (e', k') = (e, f) := by
    intro e f a b he hf hno e' k' a' b' h' hs
    rw [obj_isFace] at h'
    rw [Sym2.eq_iff] at hs
    rcases hs with ⟨rfl, rfl⟩ | ⟨rfl, rfl⟩
    · have := conforming pat m n e e' he h'.1 a' b' (face_dir hf) (face_dir h'.2)
      subst this
      rw [face_idx he hf h'.2]
    · exact (hno e' k' h'.1 h'.2).elim
  refine ⟨rmesh bath pat m n x0 y0 x1 y1, _, ?_, hread, ?_⟩
  · rw [generate_eq, hpat]; rfl
  · intro order hperm
    obtain ⟨E, hE'⟩ := build_ok _ hC order hperm (by
      intro e k a b hf hal
      have hf' := (obj_isFace title bath pat m n x0 y0 x1 y1 types e k a b).mp hf
      obtain ⟨p, q, e1, e2, _, _, _, _, h1, h2⟩ := hside e k a b hf'.1 hf'.2
      by_cases hs : ∃ s < 4, On m n s p ∧ On m n s q
      · obtain ⟨s, hs, hps, hqs⟩ := hs
        obtain ⟨t, hts, hty, _⟩ := h1 s hs hps hqs
        refine ⟨t, hty, fun h => ?_⟩
        have := ht t (List.mem_of_getElem? hts)
        omega
      · push Not at hs
        obtain ⟨e', he', f', hr⟩ := h2 (fun s hs4 hc => hs s hs4 hc.1 hc.2)
        have hr' := (obj_isFace title bath pat m n x0 y0 x1 y1 types e' f' b a).mpr ⟨he', hr⟩
        have := hal e' f' b a hr' Sym2.eq_swap
        simp only [Prod.mk.injEq] at this
        obtain ⟨rfl, rfl⟩ := this
        exact (face_flip he' hf'.2 hr).elim)
    obtain ⟨hnodes, hadj⟩ := adjacency _ hC order hperm E hE'
    refine ⟨E, hE', ?_, ?_⟩
    · rw [hnodes]
      simp only [obj, rmesh, List.map_map, Function.comp_def]
      apply List.map_congr_left
      intro k _
      obtain ⟨g1, g2, g3, hg⟩ := corners_three (back pat (k / 2 % m) (k / 2 / m)) (k / 2 % m) (k / 2 / m) (k % 2)
      simp only [tri, hg]
      rfl
    · intro e he f a b hf
      simp only [rmesh, List.mem_map, List.mem_range] at he
      obtain ⟨k, hk, rfl⟩ := he
      obtain ⟨p, q, rfl, rfl, b1, b2, b3, b4, h1, h2⟩ := hside k f a b hk hf
      refine ⟨_, _, rmesh_node bath pat m n hm hn x0 y0 x1 y1 p.1 p.2 b1 b3, rmesh_node bath pat m n hm hn x0 y0 x1 y1 q.1 q.2 b2 b4, ?_, ?_⟩
      · intro s hs hps hqs
        rw [onSide_iff bath m n hm hn x0 y0 x1 y1 hx hy s hs] at hps hqs
        obtain ⟨t, hts, hty, hno⟩ := h1 s hs hps hqs
        obtain ⟨_, hb⟩ := hadj k f _ _ ((obj_isFace title bath pat m n x0 y0 x1 y1 types k f _ _).mpr ⟨hk, hf⟩)
        obtain ⟨nb, bt, e1, e2, e3, _⟩ := hb (halone k f _ _ hk hf hno)
        rw [hty, Except.ok.injEq] at e1
        subst e1
        have := ht t (List.mem_of_getElem? hts)
        refine ⟨t, hts, ?_⟩
        show slot E (k, f) = _
        rw [e2, e3 (by omega)]
      · intro hno
        obtain ⟨e', he', f', hr⟩ := h2 (fun s hs hc => hno s hs ⟨(onSide_iff bath m n hm hn x0 y0 x1 y1 hx hy s hs _).mpr hc.1,
          (onSide_iff bath m n hm hn x0 y0 x1 y1 hx hy s hs _).mpr hc.2⟩)
        refine ⟨tri pat m e', by simp only [rmesh, List.mem_map, List.mem_range]; exact ⟨e', he', rfl⟩, f', hr, ?_⟩
        obtain ⟨ha, _⟩ := hadj k f _ _ ((obj_isFace title bath pat m n x0 y0 x1 y1 types k f _ _).mpr ⟨hk, hf⟩)
        refine ha e' f' _ _ ((obj_isFace title bath pat m n x0 y0 x1 y1 types e' f' _ _).mpr ⟨he', hr⟩) ?_ Sym2.eq_swap
        intro heq
        simp only [Prod.mk.injEq] at heq
        obtain ⟨rfl, rfl⟩ := heq
        exact face_flip he' hf hr

end chain

/-- A 2 by 1 mesh with a tide side at the bottom and an outflow side at the right. -/
example : (do
    let M ← (generate (K := ℚ) ⟨0, 0, 1, 0, 1, 1, 0, 1⟩ (fun _ _ => 5) 0 2 1).toOption
    let F ← read (file () 2 1 M [1, 4, 0, 2])
    let E ← (build F (edgeDict F.elements)).toOption
    pure ((List.range 4).flatMap fun e => (List.range 3).map fun f => slot E (e, f))) =
    some [some (4294967295, 0), some (4294967295, 2), some (1, 128), some (2, 128), some (0, 128), some (4294967295, 1),
      some (4294967295, 0), some (1, 128), some (3, 128), some (4294967295, 4), some (2, 128), some (4294967295, 1)] := by
  decide +kernel

end Verif.QuadMesh.Props
