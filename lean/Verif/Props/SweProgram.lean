import Verif.Model.SweProgram
import Verif.Props.Assemble
import Verif.Props.SweInit
import Verif.Props.Bcis
import Verif.Props.Parallel
import Verif.Props.SweMass

/-!
# C107: from the mesh file to the hypotheses of the theorems on runs

The theorems on runs (C48, C57, C72, C73, C91 and others) assume a mesh whose faces are covered once, whose interfaces join the same edge in opposite
directions and whose bathymetry is continuous. Here the mesh that the program makes from a conforming mesh file is shown to be such a mesh, so that a lake
at rest in the input stays at rest until the end of the run.
-/

namespace Verif.Swe.Props
open Verif.Geometry Verif.Geometry.Props Verif.Element Verif.Gn.Props MvPolynomial
open Verif.Assemble (Raw assemble rawAll inner)
open Verif.Assemble.Props (IsFaceOf Regular face_unique)
open Verif.MeshMeta (Elts Dict)

/-! ### Metadata -/

/-- Metadata of a mesh without levees and cuts: types of boundaries, contacts that are mutual, single, and run through the edge in opposite directions. -/
structure Tidy (E : Elts) : Prop where
  wf : Assemble.Props.WF E
  types : ∀ r t nb, IsFaceOf E r t nb → t ∈ [0, 1, 2, 3, 128]
  regular : Regular E 128
  back : ∀ r nb, IsFaceOf E r 128 nb → ∃ r' : Raw, r'.elem = nb ∧ IsFaceOf E r' 128 r.elem ∧ r'.nodes = r.nodes.reverse

section file
open Verif.MeshMeta.Props Verif.Adcirc
variable {W R : Type}

/-- The face is the only one on its edge. -/
def Alone (m : Fort14 W R) (e k a b : ℕ) : Prop := ∀ e' k' a' b', IsFace m e' k' a' b' → s(a', b') = s(a, b) → (e', k') = (e, k)

/-- What is required of the file: distinct element numbers, numbers that fit into 32 bits, elements that run counterclockwise at the positions `pos` of their
nodes, no edge that two elements run through in the same direction, and a boundary of type 0 to 3 on every edge of one element only. -/
structure GoodFile (pos : ℕ → P2 ℝ) (m : Fort14 W R) : Prop where
  ids : (m.elements.map Prod.fst).Nodup
  small : ∀ x ∈ m.elements, x.1 < 2 ^ 32 - 1 ∧ x.2.2.1 < 2 ^ 32 ∧ x.2.2.2.1 < 2 ^ 32 ∧ x.2.2.2.2 < 2 ^ 32
  levee : Partition.Props.LeveeSmall m
  ccw : ∀ e ty a b c, (e, ty, a, b, c) ∈ m.elements → 0 < jdet ⟨pos a, pos b, pos c⟩
  oriented : ∀ e k e' k' a b, IsFace m e k a b → IsFace m e' k' a b → (e', k') = (e, k)
  types : ∀ e k a b, IsFace m e k a b → Alone m e k a b → ∃ t ≤ 3, getIbtype m a b = .ok t

variable {pos : ℕ → P2 ℝ} {m : Fort14 W R}

theorem element_unique (h : (m.elements.map Prod.fst).Nodup) {e : ℕ} {x y : ℕ × ℕ × ℕ × ℕ} (hx : (e, x) ∈ m.elements) (hy : (e, y) ∈ m.elements) : x = y := by
  have h1 := MeshMeta.lookup_of_mem h hx
  have h2 := MeshMeta.lookup_of_mem h hy
  rw [h1, Option.some.injEq] at h2
  exact h2

/-- No edge of such a file belongs to three faces. -/
theorem good_conforming (h : GoodFile pos m) : Conforming m := by
  refine ⟨h.ids, h.small, ?_⟩
  intro e₁ k₁ a₁ b₁ e₂ k₂ a₂ b₂ e₃ k₃ a₃ b₃ h1 h2 h3 s12 s23
  rcases Sym2.eq_iff.mp s12 with ⟨rfl, rfl⟩ | ⟨rfl, rfl⟩
  · exact Or.inl (h.oriented _ _ _ _ _ _ h2 h1)
  · rcases Sym2.eq_iff.mp s23 with ⟨rfl, rfl⟩ | ⟨rfl, rfl⟩
    · exact Or.inr (Or.inl (h.oriented _ _ _ _ _ _ h3 h2))
    · exact Or.inr (Or.inr (h.oriented _ _ _ _ _ _ h3 h1))

/-- No element of such a file meets itself, and two elements meet in at most one edge. -/
theorem good_proper (h : GoodFile pos m) : Partition.Props.Proper m := by
  constructor
  · rintro e k a b k' a' b' ⟨ty, n0, n1, n2, h1, h2⟩ ⟨ty', n0', n1', n2', h1', h2'⟩ hs
    cases element_unique h.ids h1 h1'
    have hc := h.ccw _ _ _ _ _ h1
    rw [cross_jdet] at hc
    rcases Sym2.eq_iff.mp hs with ⟨rfl, rfl⟩ | ⟨rfl, rfl⟩ <;>
      rcases h2 with ⟨rfl, rfl, rfl⟩ | ⟨rfl, rfl, rfl⟩ | ⟨rfl, rfl, rfl⟩ <;>
      rcases h2' with ⟨rfl, e1, e2⟩ | ⟨rfl, e1, e2⟩ | ⟨rfl, e1, e2⟩ <;> first | rfl | (exfalso; simp only [e1, e2] at hc; linarith) | (exfalso; simp only [← e1, ← e2] at hc; linarith)
  · rintro e e' j a b j' a' b' k c d k' c' d' hne f1 f2 s1 g1 g2 s2
    by_contra hjk
    rcases Sym2.eq_iff.mp s1 with ⟨rfl, rfl⟩ | ⟨rfl, rfl⟩
    · have := h.oriented _ _ _ _ _ _ f1 f2
      simp only [Prod.mk.injEq] at this
      exact hne this.1.symm
    rcases Sym2.eq_iff.mp s2 with ⟨rfl, rfl⟩ | ⟨rfl, rfl⟩
    · have := h.oriented _ _ _ _ _ _ g1 g2
      simp only [Prod.mk.injEq] at this
      exact hne this.1.symm
    obtain ⟨ty, n0, n1, n2, h1, h2⟩ := f1
    obtain ⟨ty', n0', n1', n2', h1', h2'⟩ := g1
    cases element_unique h.ids h1 h1'
    obtain ⟨uy, m0, m1, m2, u1, u2⟩ := f2
    obtain ⟨uy', m0', m1', m2', u1', u2'⟩ := g2
    cases element_unique h.ids u1 u1'
    have hc := h.ccw _ _ _ _ _ h1
    have hd := h.ccw _ _ _ _ _ u1
    rw [cross_jdet] at hc hd
    clear h1 h1' u1 u1' s1 s2 hne
    rcases h2 with ⟨rfl, rfl, rfl⟩ | ⟨rfl, rfl, rfl⟩ | ⟨rfl, rfl, rfl⟩ <;>
      rcases h2' with ⟨rfl, rfl, e1⟩ | ⟨rfl, rfl, e1⟩ | ⟨rfl, rfl, e1⟩ <;> first | exact hjk rfl | skip
    all_goals subst e1
    all_goals rcases u2 with ⟨-, rfl, rfl⟩ | ⟨-, rfl, rfl⟩ | ⟨-, rfl, rfl⟩ <;> rcases u2' with ⟨-, e1, e2⟩ | ⟨-, e1, e2⟩ | ⟨-, e1, e2⟩ <;> (try subst e1) <;> (try subst e2)
    all_goals linarith

/-- A face of the metadata is alone with the type of the file, or internal with a partner that runs through the edge in the opposite direction. -/
theorem face_case (h : GoodFile pos m) {order : Dict} (hperm : order.Perm (MeshMeta.edgeDict m.elements)) {E : Elts} (hE : MeshMeta.build m order = .ok E) {r : Raw}
    {t nb : ℕ} (hf : IsFaceOf E r t nb) :
    ∃ a b, r = ⟨r.elem, r.face, [a, b]⟩ ∧ IsFace m r.elem r.face a b ∧
      ((t ≤ 3 ∧ Alone m r.elem r.face a b ∧ getIbtype m a b = .ok t) ∨ (t = 128 ∧ ∃ k', IsFace m nb k' b a ∧ (nb, k') ≠ (r.elem, r.face))) := by
  obtain ⟨hw, hfs⟩ := Assemble.Props.built_faces m (good_conforming h) h.levee order hperm E hE
  have hadj := (adjacency m (good_conforming h) order hperm E hE).2
  obtain ⟨e, k, n⟩ := r
  obtain ⟨a, b, e'⟩ : ∃ a b, n = [a, b] := by
    obtain ⟨x, a, b, -, -, -, -, -, g⟩ := hf
    exact ⟨a, b, g⟩
  subst e'
  obtain ⟨hf1, hs⟩ := (hfs _ _ _ _ _ _).mp hf
  refine ⟨a, b, rfl, hf1, ?_⟩
  obtain ⟨g1, g2⟩ := hadj _ _ _ _ hf1
  by_cases halone : Alone m e k a b
  · obtain ⟨nb', bt, hbt, hs', -⟩ := g2 halone
    rw [hs] at hs'
    simp only [Option.some.injEq, Prod.mk.injEq] at hs'
    obtain ⟨-, rfl⟩ := hs'
    obtain ⟨t', ht', hty⟩ := h.types _ _ _ _ hf1 halone
    rw [hbt, Except.ok.injEq] at hty
    exact Or.inl ⟨hty ▸ ht', halone, hbt⟩
  · unfold Alone at halone
    push Not at halone
    obtain ⟨e2, k2, a2, b2, hf2, hs2, hne⟩ := halone
    have := g1 e2 k2 a2 b2 hf2 hne hs2
    rw [hs] at this
    simp only [Option.some.injEq, Prod.mk.injEq] at this
    obtain ⟨rfl, rfl⟩ := this
    rcases Sym2.eq_iff.mp hs2 with ⟨rfl, rfl⟩ | ⟨rfl, rfl⟩
    · exact absurd (h.oriented _ _ _ _ _ _ hf1 hf2) hne
    · exact Or.inr ⟨rfl, k2, hf2, hne⟩

/-- Metadata built from a good file are tidy. -/
theorem tidy_file (h : GoodFile pos m) {order : Dict} (hperm : order.Perm (MeshMeta.edgeDict m.elements)) {E : Elts} (hE : MeshMeta.build m order = .ok E) : Tidy E := by
  obtain ⟨hw, hfs⟩ := Assemble.Props.built_faces m (good_conforming h) h.levee order hperm E hE
  have hadj := (adjacency m (good_conforming h) order hperm E hE).2
  have hp := good_proper h
  have hshare : ∀ r nb, IsFaceOf E r 128 nb → ∃ a b, r = ⟨r.elem, r.face, [a, b]⟩ ∧ IsFace m r.elem r.face a b ∧
      ∃ k', IsFace m nb k' b a ∧ (nb, k') ≠ (r.elem, r.face) := by
    intro r nb hf
    obtain ⟨a, b, hr, h0, h1 | h1⟩ := face_case h hperm hE hf
    · omega
    · exact ⟨a, b, hr, h0, h1.2⟩
  have hself : ∀ r nb, IsFaceOf E r 128 nb → nb ≠ r.elem := by
    rintro r nb hf rfl
    obtain ⟨a, b, -, h1, k', h2, h3⟩ := hshare r _ hf
    exact h3 (by rw [hp.self _ _ _ _ _ _ _ h2 h1 Sym2.eq_swap])
  refine ⟨hw, ?_, ⟨?_, hself⟩, ?_⟩
  · intro r t nb hf
    obtain ⟨a, b, -, -, h1 | h1⟩ := face_case h hperm hE hf
    · simp only [List.mem_cons, List.not_mem_nil, or_false]
      omega
    · simp [h1.1]
  · intro r r' nb hf hf' he
    have hne := hself _ _ hf
    obtain ⟨a, b, -, h1, k', h2, -⟩ := hshare r _ hf
    obtain ⟨c, d, -, g1, j', g2, -⟩ := hshare r' _ hf'
    rw [← he] at g1
    have := hp.share _ _ _ _ _ _ _ _ _ _ _ _ _ _ hne.symm h1 h2 Sym2.eq_swap g1 g2 Sym2.eq_swap
    exact (face_unique hw hf hf' he this).1
  · intro r nb hf
    obtain ⟨a, b, hr, h1, k', h2, h3⟩ := hshare r nb hf
    have hs := (hadj _ _ _ _ h2).1 _ _ _ _ h1 (fun h => h3 h.symm) Sym2.eq_swap
    refine ⟨⟨nb, k', [b, a]⟩, rfl, (hfs _ _ _ _ _ _).mpr ⟨h2, hs⟩, ?_⟩
    have hn : r.nodes = [a, b] := congrArg Raw.nodes hr
    rw [hn]
    rfl

end file

/-! ### Faces of the assembled mesh -/

/-- Element and number of a face. -/
def faceOf (r : Raw) : ℕ × ℕ := (r.elem, r.face)

section assembled
variable {L T : Type} {E : Elts} {inp : Assemble.Input L T T} {M : Assemble.Mesh L T T}

/-- Faces of boundaries. -/
def bndKeys (M : Assemble.Mesh L T T) : List (ℕ × ℕ) :=
  M.land.map faceOf ++ M.tide.map (fun x => faceOf x.1) ++ M.flow.map (fun x => faceOf x.1) ++ M.function.map faceOf

/-- Faces of interfaces. -/
def intKeys (M : Assemble.Mesh L T T) : List (ℕ × ℕ) := M.internal.flatMap fun x => [faceOf x.1, faceOf x.2]

theorem face_exists (hw : Assemble.Props.WF E) {k : ℕ × ℕ} : (k.1 ∈ E.map Prod.fst ∧ k.2 < 3) ↔ ∃ r t nb, IsFaceOf E r t nb ∧ faceOf r = k := by
  constructor
  · rintro ⟨h1, h2⟩
    obtain ⟨⟨e, x⟩, hx, he⟩ := List.mem_map.mp h1
    obtain ⟨n3, b3, t3⟩ := hw.three _ hx
    simp only at he n3 b3 t3
    subst he
    have e1 : x.nodes[(k.2 + 1) % 3]? = some (x.nodes[(k.2 + 1) % 3]'(by omega)) := List.getElem?_eq_getElem _
    have e2 : x.nodes[(k.2 + 2) % 3]? = some (x.nodes[(k.2 + 2) % 3]'(by omega)) := List.getElem?_eq_getElem _
    have e3 : x.btype[k.2]? = some (x.btype[k.2]'(by omega)) := List.getElem?_eq_getElem _
    have e4 : x.nbr[k.2]? = some (x.nbr[k.2]'(by omega)) := List.getElem?_eq_getElem _
    exact ⟨⟨k.1, k.2, [_, _]⟩, _, _, ⟨x, _, _, hx, e3, e4, e1, e2, rfl⟩, rfl⟩
  · rintro ⟨r, t, nb, ⟨x, a, b, h1, h2, -⟩, rfl⟩
    refine ⟨List.mem_map.mpr ⟨_, h1, rfl⟩, ?_⟩
    have := (List.getElem?_eq_some_iff.mp h2).1
    rw [(hw.three _ h1).2.2] at this
    exact this

theorem inner_keys (hw : Assemble.Props.WF E) {all : List (ℕ × Assemble.Key × Raw)}
    (hspec : ∀ t k r, (t, k, r) ∈ all ↔ ∃ nb, IsFaceOf E r t nb ∧ k = if Util.isInternal t then (r.elem, nb) else (r.elem, r.face)) {t : ℕ}
    (ht : Util.isInternal t = false) :
    ((inner all t).map fun x => faceOf x.2).Nodup ∧ ∀ k, k ∈ (inner all t).map (fun x => faceOf x.2) ↔ ∃ r nb, IsFaceOf E r t nb ∧ faceOf r = k := by
  have hin := Assemble.Props.inner_mem hspec t (Assemble.Props.plain_inj hw ht)
  have hk : (inner all t).map (fun x => faceOf x.2) = (inner all t).map Prod.fst := by
    refine List.map_congr_left ?_
    rintro ⟨k, r⟩ hx
    obtain ⟨nb, -, rfl⟩ := (hin k r).mp hx
    simp [Assemble.Props.keyOf, ht, faceOf]
  constructor
  · rw [hk, List.nodup_iff_pairwise_ne, List.pairwise_map]
    refine (Assemble.Props.inner_sorted all t).imp ?_
    intro x y hxy he
    rw [he] at hxy
    exact Assemble.Props.keyLt_irrefl _ hxy
  · intro k
    rw [List.mem_map]
    constructor
    · rintro ⟨⟨k', r⟩, hx, rfl⟩
      obtain ⟨nb, hf, -⟩ := (hin k' r).mp hx
      exact ⟨r, nb, hf, rfl⟩
    · rintro ⟨r, nb, hf, rfl⟩
      exact ⟨(_, r), (hin _ r).mpr ⟨nb, hf, rfl⟩, rfl⟩

theorem nodup_four {a b c d : List (ℕ × ℕ)} (ha : a.Nodup) (hb : b.Nodup) (hc : c.Nodup) (hd : d.Nodup)
    (h : ∀ x, (x ∈ a → x ∈ b → False) ∧ (x ∈ a → x ∈ c → False) ∧ (x ∈ a → x ∈ d → False) ∧ (x ∈ b → x ∈ c → False) ∧ (x ∈ b → x ∈ d → False) ∧
      (x ∈ c → x ∈ d → False)) : (a ++ b ++ c ++ d).Nodup := by
  rw [List.nodup_append', List.nodup_append', List.nodup_append']
  refine ⟨⟨⟨ha, hb, fun x h1 h2 => (h x).1 h1 h2⟩, hc, fun x h1 h2 => ?_⟩, hd, fun x h1 h2 => ?_⟩
  · rcases List.mem_append.mp h1 with h1 | h1
    · exact (h x).2.1 h1 h2
    · exact (h x).2.2.2.1 h1 h2
  · rcases List.mem_append.mp h1 with h1 | h1
    · rcases List.mem_append.mp h1 with h1 | h1
      · exact (h x).2.2.1 h1 h2
      · exact (h x).2.2.2.2.1 h1 h2
    · exact (h x).2.2.2.2.2 h1 h2

/-- Every face of every element is in exactly one place of the mesh: one side of one interface, or one boundary. -/
theorem faces_once (hT : Tidy E) (h : assemble E inp [] = .ok M) :
    (intKeys M ++ bndKeys M).Nodup ∧ (∀ k, k ∈ intKeys M ++ bndKeys M ↔ k.1 ∈ E.map Prod.fst ∧ k.2 < 3) ∧ M.levee = [] := by
  have hw := hT.wf
  obtain ⟨all, hall, hspec⟩ := Assemble.Props.rawAll_ok E hw
  obtain ⟨all', d, h0, h1, h2, h3, h4, h5, h6, -, -, -⟩ := Assemble.Props.assemble_ok h
  rw [hall, Except.ok.injEq] at h0
  subst h0
  have hr9 : Regular E 129 := ⟨fun r r' nb hf => absurd (hT.types _ _ _ hf) (by decide), fun r nb hf => absurd (hT.types _ _ _ hf) (by decide)⟩
  obtain ⟨⟨i1, i2⟩, _, i3, _⟩ := Assemble.Props.interfaces_exact hw hT.regular hr9 h
  obtain ⟨t1, -⟩ := Assemble.Props.boundsWithData_ok h4
  obtain ⟨f1, -⟩ := Assemble.Props.boundsWithData_ok h5
  -- boundaries
  have k0 := inner_keys hw hspec (t := 0) rfl
  have k1 := inner_keys hw hspec (t := 1) rfl
  have k2 := inner_keys hw hspec (t := 2) rfl
  have k3 := inner_keys hw hspec (t := 3) rfl
  have e0 : M.land.map faceOf = (inner all 0).map fun x => faceOf x.2 := by rw [h3, List.map_map]; rfl
  have e3 : M.function.map faceOf = (inner all 3).map fun x => faceOf x.2 := by rw [h6, List.map_map]; rfl
  have e1 : M.tide.map (fun x => faceOf x.1) = (inner all 1).map fun x => faceOf x.2 := by
    have := congrArg (List.map faceOf) t1
    rwa [List.map_map, List.map_map] at this
  have e2 : M.flow.map (fun x => faceOf x.1) = (inner all 2).map fun x => faceOf x.2 := by
    have := congrArg (List.map faceOf) f1
    rwa [List.map_map, List.map_map] at this
  have huniq : ∀ {r r' : Raw} {t t' nb nb' : ℕ}, IsFaceOf E r t nb → IsFaceOf E r' t' nb' → faceOf r = faceOf r' → r = r' ∧ t = t' ∧ nb = nb' := by
    intro r r' t t' nb nb' hf hf' he
    simp only [faceOf, Prod.mk.injEq] at he
    exact face_unique hw hf hf' he.1 he.2
  have hmemB : ∀ k, k ∈ bndKeys M ↔ ∃ r t nb, t < 4 ∧ IsFaceOf E r t nb ∧ faceOf r = k := by
    intro k
    unfold bndKeys
    rw [List.mem_append, List.mem_append, List.mem_append, e0, e1, e2, e3, k0.2, k1.2, k2.2, k3.2]
    constructor
    · rintro (((⟨r, nb, hf, hk⟩ | ⟨r, nb, hf, hk⟩) | ⟨r, nb, hf, hk⟩) | ⟨r, nb, hf, hk⟩)
      · exact ⟨r, 0, nb, by omega, hf, hk⟩
      · exact ⟨r, 1, nb, by omega, hf, hk⟩
      · exact ⟨r, 2, nb, by omega, hf, hk⟩
      · exact ⟨r, 3, nb, by omega, hf, hk⟩
    · rintro ⟨r, t, nb, ht, hf, hk⟩
      have : t = 0 ∨ t = 1 ∨ t = 2 ∨ t = 3 := by omega
      rcases this with rfl | rfl | rfl | rfl
      · exact Or.inl (Or.inl (Or.inl ⟨r, nb, hf, hk⟩))
      · exact Or.inl (Or.inl (Or.inr ⟨r, nb, hf, hk⟩))
      · exact Or.inl (Or.inr ⟨r, nb, hf, hk⟩)
      · exact Or.inr ⟨r, nb, hf, hk⟩
  have hndB : (bndKeys M).Nodup := by
    unfold bndKeys
    rw [e0, e1, e2, e3]
    refine nodup_four k0.1 k1.1 k2.1 k3.1 fun x => ?_
    rw [k0.2, k1.2, k2.2, k3.2]
    have key : ∀ t t' : ℕ, t ≠ t' → (∃ r nb, IsFaceOf E r t nb ∧ faceOf r = x) → (∃ r nb, IsFaceOf E r t' nb ∧ faceOf r = x) → False := by
      rintro t t' hne ⟨r, nb, hf, hk⟩ ⟨r', nb', hf', hk'⟩
      exact hne (huniq hf hf' (hk.trans hk'.symm)).2.1
    exact ⟨key 0 1 (by decide), key 0 2 (by decide), key 0 3 (by decide), key 1 2 (by decide), key 1 3 (by decide), key 2 3 (by decide)⟩
  -- interfaces
  have hmemI : ∀ k, k ∈ intKeys M ↔ ∃ r nb, IsFaceOf E r 128 nb ∧ faceOf r = k := by
    intro k
    unfold intKeys
    rw [List.mem_flatMap]
    constructor
    · rintro ⟨⟨r1, r2⟩, hp, hk⟩
      obtain ⟨g1, g2, -⟩ := (i2 r1 r2).mp hp
      simp only [List.mem_cons, List.not_mem_nil, or_false] at hk
      rcases hk with rfl | rfl
      · exact ⟨r1, _, g1, rfl⟩
      · exact ⟨r2, _, g2, rfl⟩
    · rintro ⟨r, nb, hf, rfl⟩
      obtain ⟨r', rfl, hf', -⟩ := hT.back r nb hf
      obtain ⟨p, hp, hpr, -⟩ := Assemble.Props.face_in_one_interface hw hT.regular hr9 h r r' hf hf'
      refine ⟨p, hp, ?_⟩
      rcases hpr with rfl | rfl <;> simp
  have hndI : (intKeys M).Nodup := by
    unfold intKeys
    rw [List.nodup_flatMap]
    constructor
    · rintro ⟨r1, r2⟩ hp
      obtain ⟨-, -, g3⟩ := (i2 r1 r2).mp hp
      simp only [List.nodup_cons, List.mem_singleton, List.not_mem_nil, not_false_eq_true, List.nodup_nil, and_true]
      intro he
      simp only [faceOf, Prod.mk.injEq] at he
      omega
    · refine (List.nodup_iff_pairwise_ne.mp i1).imp_of_mem ?_
      rintro ⟨r1, r2⟩ ⟨s1, s2⟩ hp hq hne k hk hk'
      obtain ⟨g1, g2, -⟩ := (i2 r1 r2).mp hp
      obtain ⟨q1, q2, -⟩ := (i2 s1 s2).mp hq
      simp only [List.mem_cons, List.not_mem_nil, or_false] at hk hk'
      have main : ∀ r s : Raw, (r = r1 ∨ r = r2) → (s = s1 ∨ s = s2) → faceOf r = faceOf s → False := by
        intro r s hr hs he
        have hrs : r = s := by
          rcases hr with rfl | rfl <;> rcases hs with rfl | rfl
          · exact (huniq g1 q1 he).1
          · exact (huniq g1 q2 he).1
          · exact (huniq g2 q1 he).1
          · exact (huniq g2 q2 he).1
        subst hrs
        obtain ⟨nb, hf⟩ : ∃ nb, IsFaceOf E r 128 nb := by
          rcases hr with rfl | rfl
          · exact ⟨_, g1⟩
          · exact ⟨_, g2⟩
        obtain ⟨r', rfl, hf', -⟩ := hT.back r nb hf
        obtain ⟨p, -, -, hu⟩ := Assemble.Props.face_in_one_interface hw hT.regular hr9 h r r' hf hf'
        exact hne ((hu (r1, r2) hp hr).trans (hu (s1, s2) hq hs).symm)
      rcases hk with hk | hk <;> rcases hk' with hk' | hk'
      · exact main r1 s1 (Or.inl rfl) (Or.inl rfl) (hk.symm.trans hk')
      · exact main r1 s2 (Or.inl rfl) (Or.inr rfl) (hk.symm.trans hk')
      · exact main r2 s1 (Or.inr rfl) (Or.inl rfl) (hk.symm.trans hk')
      · exact main r2 s2 (Or.inr rfl) (Or.inr rfl) (hk.symm.trans hk')
  refine ⟨?_, ?_, ?_⟩
  · rw [List.nodup_append']
    refine ⟨hndI, hndB, fun k hk hk' => ?_⟩
    obtain ⟨r, nb, hf, hr⟩ := (hmemI k).mp hk
    obtain ⟨r', t, nb', ht, hf', hr'⟩ := (hmemB k).mp hk'
    have := (huniq hf hf' (hr.trans hr'.symm)).2.1
    omega
  · intro k
    rw [face_exists hw, List.mem_append, hmemI, hmemB]
    constructor
    · rintro (⟨r, nb, hf, hk⟩ | ⟨r, t, nb, -, hf, hk⟩)
      · exact ⟨r, 128, nb, hf, hk⟩
      · exact ⟨r, t, nb, hf, hk⟩
    · rintro ⟨r, t, nb, hf, hk⟩
      have := hT.types r t nb hf
      simp only [List.mem_cons, List.not_mem_nil, or_false] at this
      by_cases ht : t = 128
      · subst ht; exact Or.inl ⟨r, nb, hf, hk⟩
      · exact Or.inr ⟨r, t, nb, by omega, hf, hk⟩
  · rw [List.eq_nil_iff_forall_not_mem]
    rintro ⟨r1, r2, l⟩ hx
    exact absurd (hT.types _ _ _ ((i3 r1 r2).mp ⟨l, hx⟩).1) (by decide)

/-- The two sides of an interface have the same nodes in opposite order. -/
theorem interface_nodes (hT : Tidy E) (h : assemble E inp [] = .ok M) {r1 r2 : Raw} (hp : (r1, r2) ∈ M.internal) :
    IsFaceOf E r1 128 r2.elem ∧ IsFaceOf E r2 128 r1.elem ∧ r2.nodes = r1.nodes.reverse := by
  have hr9 : Regular E 129 := ⟨fun r r' nb hf => absurd (hT.types _ _ _ hf) (by decide), fun r nb hf => absurd (hT.types _ _ _ hf) (by decide)⟩
  obtain ⟨g1, g2, -⟩ := ((Assemble.Props.interfaces_exact hT.wf hT.regular hr9 h).1.2 r1 r2).mp hp
  obtain ⟨r', he, hf, hn⟩ := hT.back r1 _ g1
  have := hT.regular.1 r' r2 _ hf g2 he
  subst this
  exact ⟨g1, g2, hn⟩

end assembled

/-! ### The mesh with its boundary conditions -/

/-- All faces that occur in the mesh. -/
def meshKeys (m : Mesh ℝ) : List (ℕ × ℕ) := m.ints.flatMap (fun i => [(i.ein, i.fin), (i.eex, i.fex)]) ++ m.bnds.map fun b => (b.e, b.f)

theorem facesOf_keys (m : Mesh ℝ) (e : ℕ) : facesOf m e = ((meshKeys m).filter fun k => k.1 = e).map Prod.snd := by
  unfold facesOf meshKeys
  rw [List.filter_append, List.map_append, List.filter_flatMap, List.map_flatMap]
  congr 1
  · refine congrArg (fun f => List.flatMap f m.ints) (funext fun i => ?_)
    by_cases h1 : i.ein = e <;> by_cases h2 : i.eex = e <;> simp [h1, h2]
  · induction m.bnds with
    | nil => rfl
    | cons b l ih =>
      rw [List.flatMap_cons, List.map_cons, ih]
      by_cases h : b.e = e <;> simp [h]

theorem cover_of_keys {m : Mesh ℝ} (hn : (meshKeys m).Nodup) (hk : ∀ k, k ∈ meshKeys m ↔ k.1 ∈ m.elts ∧ k.2 < 3) {e : ℕ} (he : e ∈ m.elts) :
    (facesOf m e).Perm [0, 1, 2] := by
  rw [facesOf_keys, List.perm_ext_iff_of_nodup]
  · intro f
    simp only [List.mem_map, List.mem_filter, decide_eq_true_eq]
    constructor
    · rintro ⟨k, ⟨h1, rfl⟩, rfl⟩
      have := ((hk k).mp h1).2
      simp only [List.mem_cons, List.not_mem_nil, or_false]
      omega
    · intro hf
      refine ⟨(e, f), ⟨(hk _).mpr ⟨he, ?_⟩, rfl⟩, rfl⟩
      simp only [List.mem_cons, List.not_mem_nil, or_false] at hf
      omega
  · refine List.Nodup.map_on ?_ (hn.filter _)
    rintro ⟨a, b⟩ h1 ⟨c, d⟩ h2 h3
    simp only [List.mem_filter, decide_eq_true_eq] at h1 h2 h3
    rw [h1.2, h2.2, h3]
  · decide

theorem mapM_keys {α β γ : Type} {f : α → Res β} {g : β → γ} {h : α → γ} (H : ∀ x y, f x = .ok y → g y = h x) :
    ∀ {l : List α} {l' : List β}, l.mapM f = .ok l' → l'.map g = l.map h ∧ ∀ y ∈ l', ∃ x ∈ l, f x = .ok y := by
  intro l
  induction l with
  | nil =>
    intro l' hl
    rw [List.mapM_nil] at hl
    cases hl
    simp
  | cons x xs ih =>
    intro l' hl
    rw [List.mapM_cons] at hl
    obtain ⟨y, hy, hl⟩ := bindOk hl
    obtain ⟨ys, hys, hl⟩ := bindOk hl
    cases hl
    obtain ⟨i1, i2⟩ := ih hys
    refine ⟨by rw [List.map_cons, List.map_cons, i1, H x y hy], ?_⟩
    intro z hz
    rcases List.mem_cons.mp hz with rfl | hz
    · exact ⟨x, by simp, hy⟩
    · obtain ⟨w, hw, hw'⟩ := i2 z hz
      exact ⟨w, by simp [hw], hw'⟩

theorem tideOf_ok {r : List (ℝ × ℝ)} {x : Raw × List (Bcis.NodeData ℝ)} {y : Bnd ℝ} (h : tideOf r x = .ok y) :
    (y.e, y.f) = faceOf x.1 ∧ ∃ c, forcingAt r x.2 = .ok c ∧ y.kind = .tide c := by
  delta tideOf at h
  obtain ⟨c, hc, h⟩ := bindOk h
  cases h
  exact ⟨rfl, c, hc, rfl⟩

theorem flowOf_ok {r : List (ℝ × ℝ)} {x : Raw × List (Bcis.NodeData ℝ)} {y : Bnd ℝ} (h : flowOf r x = .ok y) :
    (y.e, y.f) = faceOf x.1 ∧ ∃ c, forcingAt r x.2 = .ok c ∧ y.kind = .flow c := by
  delta flowOf at h
  obtain ⟨c, hc, h⟩ := bindOk h
  cases h
  exact ⟨rfl, c, hc, rfl⟩

/-- The mesh of the run has the faces of the assembled mesh, and its boundaries have the conditions of their lists. -/
theorem meshOf_ok {N : Numerics ℝ} {p : ℕ} {ids : List ℕ} {M : Assemble.Mesh (Bcis.LeveeData ℝ) (Bcis.NodeData ℝ) (Bcis.NodeData ℝ)} {mesh : Mesh ℝ}
    (h : meshOf N p ids M = .ok mesh) (hl : M.levee = []) :
    mesh.elts = ids ∧ meshKeys mesh = intKeys M ++ bndKeys M ∧ mesh.dist = [] ∧ mesh.ints = M.internal.map (fun x => ⟨x.1.elem, x.1.face, x.2.elem, x.2.face, .internal⟩) ∧
    ∀ b ∈ mesh.bnds, (b.kind = .land ∧ ∃ r ∈ M.land, faceOf r = (b.e, b.f)) ∨
      (∃ x ∈ M.tide, faceOf x.1 = (b.e, b.f) ∧ ∃ c, forcingAt (faceRule N p) x.2 = .ok c ∧ b.kind = .tide c) ∨
      (∃ x ∈ M.flow, faceOf x.1 = (b.e, b.f) ∧ ∃ c, forcingAt (faceRule N p) x.2 = .ok c ∧ b.kind = .flow c) ∨
      (b.kind = .function ∧ ∃ r ∈ M.function, faceOf r = (b.e, b.f)) := by
  delta meshOf at h
  rw [hl] at h
  obtain ⟨lv, h0, h⟩ := bindOk h
  rw [List.mapM_nil] at h0
  cases h0
  obtain ⟨td, h1, h⟩ := bindOk h
  obtain ⟨fl, h2, h⟩ := bindOk h
  cases h
  obtain ⟨t1, t2⟩ := mapM_keys (g := fun b : Bnd ℝ => (b.e, b.f)) (h := fun x => faceOf x.1) (fun x y hx => (tideOf_ok hx).1) h1
  obtain ⟨f1, f2⟩ := mapM_keys (g := fun b : Bnd ℝ => (b.e, b.f)) (h := fun x => faceOf x.1) (fun x y hx => (flowOf_ok hx).1) h2
  refine ⟨rfl, ?_, rfl, by simp, ?_⟩
  · simp only [meshKeys, intKeys, bndKeys, List.append_nil, List.map_append, t1, f1, List.map_map, List.flatMap_map]
    rfl
  · intro b hb
    simp only [List.mem_append, List.mem_map] at hb
    rcases hb with ((⟨r, hr, rfl⟩ | hb) | hb) | ⟨r, hr, rfl⟩
    · exact Or.inl ⟨rfl, r, hr, rfl⟩
    · obtain ⟨x, hx, hx'⟩ := t2 b hb
      obtain ⟨g1, g2⟩ := tideOf_ok hx'
      exact Or.inr (Or.inl ⟨x, hx, g1.symm, g2⟩)
    · obtain ⟨x, hx, hx'⟩ := f2 b hb
      obtain ⟨g1, g2⟩ := flowOf_ok hx'
      exact Or.inr (Or.inr (Or.inl ⟨x, hx, g1.symm, g2⟩))
    · exact Or.inr (Or.inr (Or.inr ⟨rfl, r, hr, rfl⟩))

/-! ### Corners of faces -/

/-- Corner of a triangle by its number. -/
def cornerAt (c : ℕ × ℕ × ℕ) (k : ℕ) : ℕ := if k = 0 then c.1 else if k = 1 then c.2.1 else c.2.2

theorem face_corners {E : Elts} (hw : Assemble.Props.WF E) {r : Raw} {t nb : ℕ} (h : IsFaceOf E r t nb) :
    r.face < 3 ∧ r.nodes = [cornerAt (cornersOf E r.elem) ((r.face + 1) % 3), cornerAt (cornersOf E r.elem) ((r.face + 2) % 3)] := by
  have hf := ((face_exists hw (k := faceOf r)).mpr ⟨r, t, nb, h, rfl⟩).2
  obtain ⟨x, a, b, h1, -, -, ha, hb, hn⟩ := h
  have hl : E.lookup r.elem = some x := MeshMeta.lookup_of_mem hw.ids h1
  refine ⟨hf, ?_⟩
  obtain ⟨n3, -, -⟩ := hw.three _ h1
  simp only at n3
  rw [hn]
  unfold cornersOf
  rw [hl]
  obtain ⟨nodes, nbr, bt⟩ := x
  simp only at n3 ha hb ⊢
  obtain ⟨n0, n1, n2, rfl⟩ := List.length_eq_three.mp n3
  simp only [faceOf] at hf
  generalize r.face = f at *
  interval_cases f <;> simp [cornerAt] at ha hb ⊢ <;> exact ⟨ha.symm, hb.symm⟩

/-- The nodes of the element run counterclockwise. -/
def Counter (S : Setup ℝ) (e : ℕ) : Prop :=
  0 < jdet ⟨(finalNode S (S.corners e).1).flat, (finalNode S (S.corners e).2.1).flat, (finalNode S (S.corners e).2.2).flat⟩

theorem face_ends {S : Setup ℝ} {e : ℕ} (h : Counter S e) {f : ℕ} (hf : f < 3) :
    start3 (S.shape e) f = finalNode S (cornerAt (S.corners e) ((f + 1) % 3)) ∧ end3 (S.shape e) f = finalNode S (cornerAt (S.corners e) ((f + 2) % 3)) := by
  have hs : S.shape e = ⟨finalNode S (S.corners e).1, finalNode S (S.corners e).2.1, finalNode S (S.corners e).2.2⟩ := shape_id h
  rw [hs]
  interval_cases f <;> exact ⟨rfl, rfl⟩

/-! ### The run -/

/-- What the theorems on runs need of a mesh and its elements. -/
structure Sound (S : Setup ℝ) (m : Mesh ℝ) : Prop where
  nodup : m.elts.Nodup
  dist : m.dist = []
  cover : ∀ e ∈ m.elts, (facesOf m e).Perm [0, 1, 2]
  ends : ∀ i ∈ m.ints, i.ein ∈ m.elts ∧ i.eex ∈ m.elts
  internal : ∀ i ∈ m.ints, i.kind = .internal
  shared : ∀ i ∈ m.ints, Shared S i
  owner : ∀ b ∈ m.bnds, b.e ∈ m.elts

theorem start_ok {W : Type} {g : Program ℝ} {m : Adcirc.Fort14 W ℝ} {order : Dict} {S : Setup ℝ} {mesh : Mesh ℝ} (h : g.start m order = .ok (S, mesh)) :
    ∃ E A, MeshMeta.build m order = .ok E ∧ assemble E g.data [] = .ok A ∧ meshOf g.env.N g.p (E.map Prod.fst) A = .ok mesh ∧ S = g.setup m.nodes E := by
  delta Program.start at h
  obtain ⟨E, hE, h⟩ := bindOk h
  obtain ⟨u, -, h⟩ := bindOk h
  obtain ⟨A, hA, h⟩ := bindOk h
  obtain ⟨M, hM, h⟩ := bindOk h
  cases h
  exact ⟨E, A, hE, hA, hM, rfl⟩

/-- Position of a node when the elements are made. -/
noncomputable def finalPos {W : Type} (g : Program ℝ) (m : Adcirc.Fort14 W ℝ) (n : ℕ) : P2 ℝ :=
  (preprocessNodes g.env.cos g.env.pi g.inp.sys g.inp.sph (nodeAt m.nodes) n).flat

/-- **C107** Elements and nodes are those of the file. -/
theorem start_file {W : Type} {g : Program ℝ} {m : Adcirc.Fort14 W ℝ} {pos : ℕ → P2 ℝ} (hm : GoodFile pos m) {order : Dict}
    (hperm : order.Perm (MeshMeta.edgeDict m.elements)) {S : Setup ℝ} {mesh : Mesh ℝ} (h : g.start m order = .ok (S, mesh)) :
    mesh.elts = m.elements.map Prod.fst ∧ (∀ e ty a b c, (e, ty, a, b, c) ∈ m.elements → S.corners e = (a, b, c)) ∧
      ((m.nodes.map Prod.fst).Nodup → ∀ n x y z, (n, x, y, z) ∈ m.nodes → S.nodes n = ⟨x, y, z⟩) ∧
      (∀ n, (finalNode S n).flat = finalPos g m n) ∧ S.env = g.env ∧ S.inp = g.inp ∧ S.p = g.p := by
  obtain ⟨E, A, hE, hA, hM, rfl⟩ := start_ok h
  have hskel := (MeshMeta.Props.adjacency m (good_conforming hm) order hperm E hE).1
  obtain ⟨-, -, hl⟩ := faces_once (tidy_file hm hperm hE) hA
  have hids : E.map Prod.fst = m.elements.map Prod.fst := by
    have := congrArg (List.map Prod.fst) hskel
    rw [List.map_map, List.map_map] at this
    exact this
  refine ⟨(meshOf_ok hM hl).1.trans hids, ?_, ?_, fun _ => rfl, rfl, rfl, rfl⟩
  · intro e ty a b c he
    have h1 : (e, [a, b, c]) ∈ E.map fun p => (p.1, p.2.nodes) := by
      rw [hskel]
      exact List.mem_map.mpr ⟨_, he, rfl⟩
    obtain ⟨⟨e', x⟩, hx, heq⟩ := List.mem_map.mp h1
    simp only [Prod.mk.injEq] at heq
    obtain ⟨rfl, hn⟩ := heq
    show cornersOf E e' = _
    unfold cornersOf
    rw [MeshMeta.lookup_of_mem (by rw [hids]; exact hm.ids) hx]
    simp only [hn]
    rfl
  · intro hnd n x y z hn
    show nodeAt m.nodes n = _
    unfold nodeAt
    rw [MeshMeta.lookup_of_mem hnd hn]

/-- **C107** The mesh that the program makes from a good file whose elements run counterclockwise in the final coordinates is one that the theorems on runs
speak of: every face of every element is in exactly one place, and the two sides of an interface are the same edge with the same nodes. -/
theorem start_sound {W : Type} {g : Program ℝ} {m : Adcirc.Fort14 W ℝ} (hm : GoodFile (finalPos g m) m) {order : Dict}
    (hperm : order.Perm (MeshMeta.edgeDict m.elements)) {S : Setup ℝ} {mesh : Mesh ℝ} (h : g.start m order = .ok (S, mesh)) :
    Sound S mesh ∧ ∀ e ∈ mesh.elts, Counter S e := by
  have hccw : ∀ e ∈ mesh.elts, Counter S e := by
    obtain ⟨h1, h2, -, h4, -⟩ := start_file hm hperm h
    intro e he
    rw [h1] at he
    obtain ⟨⟨e', ty, a, b, c⟩, hx, rfl⟩ := List.mem_map.mp he
    unfold Counter
    rw [h2 _ _ _ _ _ hx, h4, h4, h4]
    exact hm.ccw _ _ _ _ _ hx
  refine ⟨?_, hccw⟩
  obtain ⟨E, A, hE, hA, hM, rfl⟩ := start_ok h
  have hT := tidy_file hm hperm hE
  obtain ⟨hn, hk, hl⟩ := faces_once hT hA
  obtain ⟨m1, m2, m3, m4, -⟩ := meshOf_ok hM hl
  have hk' : ∀ k, k ∈ meshKeys mesh ↔ k.1 ∈ mesh.elts ∧ k.2 < 3 := by rw [m2, m1]; exact hk
  have hi : ∀ i ∈ mesh.ints, (i.ein, i.fin) ∈ meshKeys mesh ∧ (i.eex, i.fex) ∈ meshKeys mesh := by
    intro i hi
    unfold meshKeys
    constructor <;> refine List.mem_append_left _ (List.mem_flatMap.mpr ⟨i, hi, by simp⟩)
  refine ⟨m1 ▸ hT.wf.ids, m3, fun e he => cover_of_keys (m2 ▸ hn) hk' he, fun i h => ⟨((hk' _).mp (hi i h).1).1, ((hk' _).mp (hi i h).2).1⟩, ?_, ?_, ?_⟩
  · intro i h
    rw [m4] at h
    obtain ⟨x, -, rfl⟩ := List.mem_map.mp h
    rfl
  · intro i h
    have e1 := ((hk' _).mp (hi i h).1).1
    have e2 := ((hk' _).mp (hi i h).2).1
    rw [m4] at h
    obtain ⟨⟨r1, r2⟩, hx, rfl⟩ := List.mem_map.mp h
    obtain ⟨g1, g2, g3⟩ := interface_nodes hT hA hx
    obtain ⟨f1, n1⟩ := face_corners hT.wf g1
    obtain ⟨f2, n2⟩ := face_corners hT.wf g2
    rw [n1, n2] at g3
    simp only [List.reverse_cons, List.reverse_nil, List.nil_append, List.cons_append, List.cons.injEq, and_true] at g3
    obtain ⟨a1, a2⟩ := face_ends (hccw _ e1) f1
    obtain ⟨b1, b2⟩ := face_ends (hccw _ e2) f2
    exact ⟨f1, f2, by rw [b1, a2]; exact congrArg _ g3.1, by rw [b2, a1]; exact congrArg _ g3.2⟩
  · intro b hb
    exact ((hk' (b.e, b.f)).mp (List.mem_append_right _ (List.mem_map.mpr ⟨b, hb, rfl⟩))).1

/-! ### Boundary conditions -/

/-- All nodes have data for the same number of constituents. -/
def FitData (s : List (ℕ × Bcis.NodeData ℝ)) : Prop :=
  ∃ n, ∀ x ∈ s, x.2.frequency.length = n ∧ x.2.forcing.length = n ∧ x.2.equilibrium.length = n ∧ x.2.amplitude.length = n ∧ x.2.phase.length = n

theorem idx_getD {l : List ℝ} {c : ℕ} (h : c < l.length) : idx l c = .ok (l.getD c 0) := by
  simp [idx, h]

/-- Data of two nodes at the Gauss points: each constituent has frequency, nodal factor and equilibrium argument of the first node and amplitude and phase
between those of the two nodes. -/
theorem forcingAt_ok (r : List (ℝ × ℝ)) {n : ℕ} {a b : Bcis.NodeData ℝ}
    (ha : a.frequency.length = n ∧ a.forcing.length = n ∧ a.equilibrium.length = n ∧ a.amplitude.length = n ∧ a.phase.length = n)
    (hb : b.amplitude.length = n ∧ b.phase.length = n) :
    ∃ cs, forcingAt r [a, b] = .ok cs ∧ ∀ gp, cs gp = if gp < r.length then (List.range n).map fun c =>
      ⟨a.frequency.getD c 0, a.forcing.getD c 0, a.equilibrium.getD c 0,
        a.amplitude.getD c 0 * boundaryPsi 0 (r.getD gp (0, 0)).2 + b.amplitude.getD c 0 * boundaryPsi 1 (r.getD gp (0, 0)).2,
        a.phase.getD c 0 * boundaryPsi 0 (r.getD gp (0, 0)).2 + b.phase.getD c 0 * boundaryPsi 1 (r.getD gp (0, 0)).2⟩ else [] := by
  obtain ⟨a1, a2, a3, a4, a5⟩ := ha
  obtain ⟨b4, b5⟩ := hb
  have hmk : Bcis.mkForcing [a, b] = .ok ⟨a.frequency, a.forcing, a.equilibrium, (List.range n).map fun c => [a.amplitude.getD c 0, b.amplitude.getD c 0],
      (List.range n).map fun c => [a.phase.getD c 0, b.phase.getD c 0]⟩ := by
    rw [Bcis.mkForcing]
    have h0 : idx [a, b] 0 = .ok a := rfl
    rw [h0, okBind]
    simp only [a1]
    rw [Bcis.Props.mapM_ok (g := fun c => [a.amplitude.getD c 0, b.amplitude.getD c 0]), okBind,
      Bcis.Props.mapM_ok (g := fun c => [a.phase.getD c 0, b.phase.getD c 0]), okBind]
    · rfl
    · intro c hc
      have hc := List.mem_range.mp hc
      rw [List.mapM_cons, List.mapM_cons, List.mapM_nil, idx_getD (by omega), idx_getD (by omega)]
      rfl
    · intro c hc
      have hc := List.mem_range.mp hc
      rw [List.mapM_cons, List.mapM_cons, List.mapM_nil, idx_getD (by omega), idx_getD (by omega)]
      rfl
  have hat : ∀ z : ℝ, (⟨a.frequency, a.forcing, a.equilibrium, (List.range n).map fun c => [a.amplitude.getD c 0, b.amplitude.getD c 0],
      (List.range n).map fun c => [a.phase.getD c 0, b.phase.getD c 0]⟩ : Bcis.Forcing ℝ).atGp z = .ok ((List.range n).map fun c =>
      ⟨a.frequency.getD c 0, a.forcing.getD c 0, a.equilibrium.getD c 0, a.amplitude.getD c 0 * boundaryPsi 0 z + b.amplitude.getD c 0 * boundaryPsi 1 z,
        a.phase.getD c 0 * boundaryPsi 0 z + b.phase.getD c 0 * boundaryPsi 1 z⟩) := by
    intro z
    rw [Bcis.Forcing.atGp]
    simp only [a1]
    refine Bcis.Props.mapM_ok fun c hc => ?_
    have hc := List.mem_range.mp hc
    have e1 : idx ((List.range n).map fun c => [a.amplitude.getD c 0, b.amplitude.getD c 0]) c = .ok [a.amplitude.getD c 0, b.amplitude.getD c 0] := by
      rw [Bcis.Props.idx_map _ _ _ (by simpa using hc), List.getElem_range]
    have e2 : idx ((List.range n).map fun c => [a.phase.getD c 0, b.phase.getD c 0]) c = .ok [a.phase.getD c 0, b.phase.getD c 0] := by
      rw [Bcis.Props.idx_map _ _ _ (by simpa using hc), List.getElem_range]
    rw [e1, okBind]
    simp only [Bcis.nodalAt]
    rw [okBind, e2, okBind]
    simp only
    rw [okBind, idx_getD (by omega), okBind, idx_getD (by omega), okBind, idx_getD (by omega), okBind]
    rfl
  refine ⟨fun gp => (r.map fun wx => (List.range n).map fun c =>
      ⟨a.frequency.getD c 0, a.forcing.getD c 0, a.equilibrium.getD c 0, a.amplitude.getD c 0 * boundaryPsi 0 wx.2 + b.amplitude.getD c 0 * boundaryPsi 1 wx.2,
        a.phase.getD c 0 * boundaryPsi 0 wx.2 + b.phase.getD c 0 * boundaryPsi 1 wx.2⟩).getD gp [], ?_, ?_⟩
  · rw [forcingAt, hmk, okBind, Bcis.Props.mapM_ok (fun wx _ => hat wx.2), okBind]
    rfl
  · intro gp
    simp only
    split_ifs with h
    · rw [List.getD_eq_getElem?_getD, List.getElem?_eq_getElem (by simpa using h), Option.getD_some, List.getElem_map, List.getD_eq_getElem?_getD,
        List.getElem?_eq_getElem h, Option.getD_some]
    · rw [List.getD_eq_getElem?_getD, List.getElem?_eq_none (by simpa using h)]
      rfl

theorem forcing_zero (cos : ℝ → ℝ) (pi ramp t : ℝ) {cs : List (Constituent ℝ)} (h : ∀ c ∈ cs, c.amp = 0) : forcing cos pi ramp t cs = 0 := by
  unfold forcing
  have : ∀ s : ℝ, cs.foldl (fun s c => s + ramp * c.ff * c.amp * cos (c.freq * t + (c.eq - c.phase) * pi / 180)) s = s := by
    induction cs with
    | nil => intro s; rfl
    | cons c l ih =>
      intro s
      rw [List.foldl_cons, ih (fun x hx => h x (by simp [hx])), h c (by simp)]
      ring
  exact this 0

theorem data_nodes {bounds : List (List (ℕ × Bcis.NodeData ℝ))} {ks : List (Assemble.Key × Raw)} {l : List (Raw × List (Bcis.NodeData ℝ))}
    (hl : Assemble.boundsWithData bounds ks = .ok l) {x : Raw × List (Bcis.NodeData ℝ)} (hx : x ∈ l) :
    x.1 ∈ ks.map Prod.snd ∧ ∀ n n', x.1.nodes = [n, n'] → ∃ s ∈ bounds, ∃ d d', s.lookup n = some d ∧ s.lookup n' = some d' ∧ x.2 = [d, d'] := by
  obtain ⟨t1, t2⟩ := Assemble.Props.boundsWithData_ok hl
  refine ⟨t1 ▸ List.mem_map.mpr ⟨x, hx, rfl⟩, fun n n' hn => ?_⟩
  obtain ⟨s, hs, hlen, hget⟩ := t2 x hx
  rw [hn] at hlen hget
  obtain ⟨d0, g0, l0⟩ := hget 0 n rfl
  obtain ⟨d1, g1, l1⟩ := hget 1 n' rfl
  refine ⟨s, hs, d0, d1, l0, l1, ?_⟩
  obtain ⟨x1, x2⟩ := x
  simp only [List.length_cons, List.length_nil, Nat.zero_add, Nat.reduceAdd] at hlen g0 g1
  obtain ⟨y0, y1, rfl⟩ := List.length_eq_two.mp hlen
  simp only [List.getElem?_cons_zero, List.getElem?_cons_succ, Option.some.injEq] at g0 g1
  rw [g0, g1]

/-- **C107** Every boundary of the mesh is a face of the file alone on its edge, and has the condition of the type the file gives this edge; the data of an
open boundary are those of its two end nodes in one boundary of the input. -/
theorem start_bounds {W : Type} {g : Program ℝ} {m : Adcirc.Fort14 W ℝ} {pos : ℕ → P2 ℝ} (hm : GoodFile pos m) {order : Dict}
    (hperm : order.Perm (MeshMeta.edgeDict m.elements)) {S : Setup ℝ} {mesh : Mesh ℝ} (h : g.start m order = .ok (S, mesh)) :
    ∀ b ∈ mesh.bnds, ∃ n n' t, MeshMeta.Props.IsFace m b.e b.f n n' ∧ Alone m b.e b.f n n' ∧ Adcirc.getIbtype m n n' = .ok t ∧
      ((t = 0 ∧ b.kind = .land) ∨
        (t = 1 ∧ ∃ s ∈ g.data.tide, ∃ d d' cs, s.lookup n = some d ∧ s.lookup n' = some d' ∧ forcingAt (faceRule g.env.N g.p) [d, d'] = .ok cs ∧ b.kind = .tide cs) ∨
        (t = 2 ∧ ∃ s ∈ g.data.flow, ∃ d d' cs, s.lookup n = some d ∧ s.lookup n' = some d' ∧ forcingAt (faceRule g.env.N g.p) [d, d'] = .ok cs ∧ b.kind = .flow cs) ∨
        (t = 3 ∧ b.kind = .function)) := by
  obtain ⟨E, A, hE, hA, hM, rfl⟩ := start_ok h
  have hT := tidy_file hm hperm hE
  have hw := hT.wf
  obtain ⟨-, -, hl⟩ := faces_once hT hA
  obtain ⟨all, hall, hspec⟩ := Assemble.Props.rawAll_ok E hw
  obtain ⟨all', d, h0, h1, h2, h3, h4, h5, h6, -, -, -⟩ := Assemble.Props.assemble_ok hA
  rw [hall, Except.ok.injEq] at h0
  subst h0
  have hin : ∀ t, Util.isInternal t = false → ∀ r ∈ (inner all t).map Prod.snd, ∃ nb, IsFaceOf E r t nb := by
    intro t ht r hr
    obtain ⟨⟨k, r'⟩, hx, rfl⟩ := List.mem_map.mp hr
    obtain ⟨nb, hf, -⟩ := (Assemble.Props.inner_mem hspec t (Assemble.Props.plain_inj hw ht) k r').mp hx
    exact ⟨nb, hf⟩
  have hface : ∀ {t : ℕ} {r : Raw} {k : ℕ × ℕ}, t ≤ 3 → (∃ nb, IsFaceOf E r t nb) → faceOf r = k →
      ∃ n n', r.nodes = [n, n'] ∧ MeshMeta.Props.IsFace m k.1 k.2 n n' ∧ Alone m k.1 k.2 n n' ∧ Adcirc.getIbtype m n n' = .ok t := by
    rintro t r k ht ⟨nb, hf⟩ rfl
    obtain ⟨n, n', hr, hf', hc | hc⟩ := face_case hm hperm hE hf
    · exact ⟨n, n', congrArg Raw.nodes hr, hf', hc.2.1, hc.2.2⟩
    · omega
  intro b hb
  rcases (meshOf_ok hM hl).2.2.2.2 b hb with ⟨hk, r, hr, hf⟩ | ⟨x, hx, hf, c, hc, hk⟩ | ⟨x, hx, hf, c, hc, hk⟩ | ⟨hk, r, hr, hf⟩
  · rw [h3] at hr
    obtain ⟨n, n', -, g1, g2, g3⟩ := hface (t := 0) (by omega) (hin 0 rfl r hr) hf
    exact ⟨n, n', 0, g1, g2, g3, Or.inl ⟨rfl, hk⟩⟩
  · obtain ⟨y1, y2⟩ := data_nodes h4 hx
    obtain ⟨n, n', hn, g1, g2, g3⟩ := hface (t := 1) (by omega) (hin 1 rfl _ y1) hf
    obtain ⟨s, hs, d, d', e1, e2, e3⟩ := y2 n n' hn
    exact ⟨n, n', 1, g1, g2, g3, Or.inr (Or.inl ⟨rfl, s, hs, d, d', c, e1, e2, e3 ▸ hc, hk⟩)⟩
  · obtain ⟨y1, y2⟩ := data_nodes h5 hx
    obtain ⟨n, n', hn, g1, g2, g3⟩ := hface (t := 2) (by omega) (hin 2 rfl _ y1) hf
    obtain ⟨s, hs, d, d', e1, e2, e3⟩ := y2 n n' hn
    exact ⟨n, n', 2, g1, g2, g3, Or.inr (Or.inr (Or.inl ⟨rfl, s, hs, d, d', c, e1, e2, e3 ▸ hc, hk⟩))⟩
  · rw [h6] at hr
    obtain ⟨n, n', -, g1, g2, g3⟩ := hface (t := 3) (by omega) (hin 3 rfl r hr) hf
    exact ⟨n, n', 3, g1, g2, g3, Or.inr (Or.inr (Or.inr ⟨rfl, hk⟩))⟩

/-! ### The program starts -/

/-- A point of a face of the file between its two nodes. -/
theorem face_between {W : Type} {g : Program ℝ} {m : Adcirc.Fort14 W ℝ} (hm : GoodFile (finalPos g m) m) {order : Dict}
    (hperm : order.Perm (MeshMeta.edgeDict m.elements)) {S : Setup ℝ} {mesh : Mesh ℝ} (h : g.start m order = .ok (S, mesh)) {e k n n' : ℕ}
    (hf : MeshMeta.Props.IsFace m e k n n') (s : ℝ) : k < 3 ∧ localToGlobal (S.dat e).elt.tri (boundaryToMaster k s) =
      ⟨(1 - s) / 2 * (finalPos g m n).x + (1 + s) / 2 * (finalPos g m n').x, (1 - s) / 2 * (finalPos g m n).y + (1 + s) / 2 * (finalPos g m n').y⟩ := by
  obtain ⟨h1, h2, -, h4, -⟩ := start_file hm hperm h
  obtain ⟨-, hc⟩ := start_sound hm hperm h
  obtain ⟨ty, a, b, c, hx, hk⟩ := hf
  have he : e ∈ mesh.elts := by rw [h1]; exact List.mem_map.mpr ⟨_, hx, rfl⟩
  have hs : S.shape e = ⟨finalNode S a, finalNode S b, finalNode S c⟩ := by
    have hi : S.shape e = ⟨finalNode S (S.corners e).1, finalNode S (S.corners e).2.1, finalNode S (S.corners e).2.2⟩ := shape_id (hc e he)
    rw [hi, h2 _ _ _ _ _ hx]
  have ht : (S.dat e).elt.tri = ⟨finalPos g m a, finalPos g m b, finalPos g m c⟩ := by
    show (S.shape e).tri = _
    rw [hs]
    simp only [Shape.tri, h4]
  have hlt : k < 3 := by omega
  refine ⟨hlt, ?_⟩
  rw [edgePoint_eq _ hlt, ht]
  rcases hk with ⟨rfl, rfl, rfl⟩ | ⟨rfl, rfl, rfl⟩ | ⟨rfl, rfl, rfl⟩ <;> rfl

/-- **C107** The data of a tide or flow boundary at a Gauss point are those of the two end nodes of its edge, weighted by the position of this point between
the two nodes. -/
theorem forced_bounds {W : Type} {g : Program ℝ} {m : Adcirc.Fort14 W ℝ} (hm : GoodFile (finalPos g m) m) (hfit : ∀ s ∈ g.data.tide ++ g.data.flow, FitData s) {order : Dict}
    (hperm : order.Perm (MeshMeta.edgeDict m.elements)) {S : Setup ℝ} {mesh : Mesh ℝ} (h : g.start m order = .ok (S, mesh)) :
    ∀ b ∈ mesh.bnds, ∀ cs, b.kind = .tide cs ∨ b.kind = .flow cs → ∃ n n' d d', ∃ s ∈ g.data.tide ++ g.data.flow, s.lookup n = some d ∧ s.lookup n' = some d' ∧
      (b.kind = .tide cs → s ∈ g.data.tide) ∧ (b.kind = .flow cs → s ∈ g.data.flow) ∧
      ∀ gp < (faceRule g.env.N g.p).length, ∃ σ, localToGlobal (S.dat b.e).elt.tri (facePt (faceRule g.env.N g.p) b.f gp) =
          ⟨(1 - σ) * (finalPos g m n).x + σ * (finalPos g m n').x, (1 - σ) * (finalPos g m n).y + σ * (finalPos g m n').y⟩ ∧
        cs gp = (List.range d.frequency.length).map fun c => ⟨d.frequency.getD c 0, d.forcing.getD c 0, d.equilibrium.getD c 0,
          (1 - σ) * d.amplitude.getD c 0 + σ * d'.amplitude.getD c 0, (1 - σ) * d.phase.getD c 0 + σ * d'.phase.getD c 0⟩ := by
  intro b hb cs hk
  obtain ⟨n, n', t, h1, -, -, h4⟩ := start_bounds hm hperm h b hb
  have main : ∀ s ∈ g.data.tide ++ g.data.flow, ∀ d d', s.lookup n = some d → s.lookup n' = some d' → forcingAt (faceRule g.env.N g.p) [d, d'] = .ok cs →
      ∀ gp < (faceRule g.env.N g.p).length, ∃ σ, localToGlobal (S.dat b.e).elt.tri (facePt (faceRule g.env.N g.p) b.f gp) =
          ⟨(1 - σ) * (finalPos g m n).x + σ * (finalPos g m n').x, (1 - σ) * (finalPos g m n).y + σ * (finalPos g m n').y⟩ ∧
        cs gp = (List.range d.frequency.length).map fun c => ⟨d.frequency.getD c 0, d.forcing.getD c 0, d.equilibrium.getD c 0,
          (1 - σ) * d.amplitude.getD c 0 + σ * d'.amplitude.getD c 0, (1 - σ) * d.phase.getD c 0 + σ * d'.phase.getD c 0⟩ := by
    intro s hs d d' l1 l2 hcs gp hgp
    obtain ⟨N, hall⟩ := hfit s hs
    have q1 := hall _ (MeshMeta.mem_of_lookup l1)
    have q2 := hall _ (MeshMeta.mem_of_lookup l2)
    obtain ⟨cs', e1, e2⟩ := forcingAt_ok (faceRule g.env.N g.p) q1 q2.2.2.2
    rw [hcs, Except.ok.injEq] at e1
    subst e1
    refine ⟨(1 + ((faceRule g.env.N g.p).getD gp (0, 0)).2) / 2, ?_, ?_⟩
    · unfold facePt
      rw [(face_between hm hperm h h1 _).2]
      simp only [P2.mk.injEq]
      constructor <;> ring
    · rw [e2, if_pos hgp, q1.1]
      refine List.map_congr_left fun c _ => ?_
      simp only [boundaryPsi, Constituent.mk.injEq, true_and, if_true, one_ne_zero, if_false]
      constructor <;> ring
  rcases h4 with ⟨-, hk'⟩ | ⟨-, s, hs, d, d', cs', l1, l2, hcs, hk'⟩ | ⟨-, s, hs, d, d', cs', l1, l2, hcs, hk'⟩ | ⟨-, hk'⟩
  · rw [hk'] at hk; rcases hk with hk | hk <;> cases hk
  · rw [hk'] at hk
    obtain rfl : cs' = cs := by rcases hk with hk | hk <;> cases hk; rfl
    refine ⟨n, n', d, d', s, List.mem_append_left _ hs, l1, l2, fun _ => hs, fun hx => (by rw [hk'] at hx; cases hx), ?_⟩
    exact main s (List.mem_append_left _ hs) d d' l1 l2 hcs
  · rw [hk'] at hk
    obtain rfl : cs' = cs := by rcases hk with hk | hk <;> cases hk; rfl
    refine ⟨n, n', d, d', s, List.mem_append_right _ hs, l1, l2, fun hx => (by rw [hk'] at hx; cases hx), fun _ => hs, ?_⟩
    exact main s (List.mem_append_right _ hs) d d' l1 l2 hcs
  · rw [hk'] at hk; rcases hk with hk | hk <;> cases hk

/-- The input has what the file asks for: all nodes of elements, and data for the nodes of open boundaries. -/
structure Fed {W : Type} (g : Program ℝ) (m : Adcirc.Fort14 W ℝ) : Prop where
  nodes : ∀ e ty a b c, (e, ty, a, b, c) ∈ m.elements → ∀ n ∈ [a, b, c], (m.nodes.lookup n).isSome = true
  tide : ∀ e k a b, MeshMeta.Props.IsFace m e k a b → Alone m e k a b → Adcirc.getIbtype m a b = .ok 1 →
    ∃ s ∈ g.data.tide, (s.lookup a).isSome = true ∧ (s.lookup b).isSome = true
  flow : ∀ e k a b, MeshMeta.Props.IsFace m e k a b → Alone m e k a b → Adcirc.getIbtype m a b = .ok 2 →
    ∃ s ∈ g.data.flow, (s.lookup a).isSome = true ∧ (s.lookup b).isSome = true
  fit : ∀ s ∈ g.data.tide ++ g.data.flow, FitData s

/-- **C107** The program gets to its first step from every good file with sufficient data. -/
theorem program_starts {W : Type} {g : Program ℝ} {m : Adcirc.Fort14 W ℝ} {pos : ℕ → P2 ℝ} (hm : GoodFile pos m) (hg : Fed g m) {order : Dict}
    (hperm : order.Perm (MeshMeta.edgeDict m.elements)) : ∃ S mesh, g.start m order = .ok (S, mesh) := by
  obtain ⟨E, hE⟩ := MeshMeta.Props.build_ok m (good_conforming hm) order hperm fun e k a b hf hal => by
    obtain ⟨t, ht, hty⟩ := hm.types e k a b hf hal
    exact ⟨t, hty, fun h => by omega⟩
  have hT := tidy_file hm hperm hE
  have hskel := (MeshMeta.Props.adjacency m (good_conforming hm) order hperm E hE).1
  have hnodes : E.mapM (fun x => nodesFound m.nodes x.2.nodes) = .ok (E.map fun _ => ()) := by
    refine Bcis.Props.mapM_ok fun x hx => ?_
    have h1 : (x.1, x.2.nodes) ∈ m.elements.map fun (i, _, a, b, c) => (i, [a, b, c]) := by
      rw [← hskel]
      exact List.mem_map.mpr ⟨x, hx, rfl⟩
    obtain ⟨⟨e, ty, a, b, c⟩, he, heq⟩ := List.mem_map.mp h1
    simp only [Prod.mk.injEq] at heq
    unfold nodesFound
    rw [if_pos]
    rw [← heq.2, List.all_eq_true]
    exact hg.nodes _ _ _ _ _ he
  have hfed : ∀ {t : ℕ} {bounds : List (List (ℕ × Bcis.NodeData ℝ))}, t ≤ 3 →
      (∀ e k a b, MeshMeta.Props.IsFace m e k a b → Alone m e k a b → Adcirc.getIbtype m a b = .ok t →
        ∃ s ∈ bounds, (s.lookup a).isSome = true ∧ (s.lookup b).isSome = true) →
      ∀ r nb, IsFaceOf E r t nb → ∃ s ∈ bounds, ∀ n ∈ r.nodes, (s.lookup n).isSome = true := by
    intro t bounds ht h r nb hf
    obtain ⟨a, b, hr, hf', hc | hc⟩ := face_case hm hperm hE hf
    · obtain ⟨s, hs, h1, h2⟩ := h _ _ _ _ hf' hc.2.1 hc.2.2
      refine ⟨s, hs, fun n hn => ?_⟩
      rw [show r.nodes = [a, b] from congrArg Raw.nodes hr] at hn
      simp only [List.mem_cons, List.not_mem_nil, or_false] at hn
      rcases hn with rfl | rfl <;> assumption
    · omega
  obtain ⟨A, hA⟩ := Assemble.Props.codes_accepted_partial hT.wf g.data hT.types (hfed (t := 1) (by omega) hg.tide) (hfed (t := 2) (by omega) hg.flow)
  obtain ⟨-, -, hl⟩ := faces_once hT hA
  obtain ⟨all, hall, hspec⟩ := Assemble.Props.rawAll_ok E hT.wf
  obtain ⟨all', d, h0, h1, h2, h3, h4, h5, h6, -, -, -⟩ := Assemble.Props.assemble_ok hA
  rw [hall, Except.ok.injEq] at h0
  subst h0
  have hforce : ∀ {t : ℕ} {bounds : List (List (ℕ × Bcis.NodeData ℝ))} {l : List (Raw × List (Bcis.NodeData ℝ))}, Util.isInternal t = false →
      Assemble.boundsWithData bounds (inner all t) = .ok l → (∀ s ∈ bounds, FitData s) → ∀ x ∈ l, ∃ cs, forcingAt (faceRule g.env.N g.p) x.2 = .ok cs := by
    intro t bounds l ht hl hfit x hx
    obtain ⟨y1, y2⟩ := data_nodes hl hx
    obtain ⟨⟨k, r⟩, hx', hr⟩ := List.mem_map.mp y1
    obtain ⟨nb, hf, -⟩ := (Assemble.Props.inner_mem hspec t (Assemble.Props.plain_inj hT.wf ht) k r).mp hx'
    obtain ⟨a, b, hn⟩ : ∃ a b, r.nodes = [a, b] := by
      obtain ⟨x, a, b, -, -, -, -, -, hh⟩ := hf
      exact ⟨a, b, hh⟩
    obtain ⟨s, hs, d, d', e1, e2, e3⟩ := y2 a b (by rw [← hr]; exact hn)
    obtain ⟨n, hall⟩ := hfit s hs
    have q1 := hall _ (MeshMeta.mem_of_lookup e1)
    have q2 := hall _ (MeshMeta.mem_of_lookup e2)
    obtain ⟨cs, hcs, -⟩ := forcingAt_ok (faceRule g.env.N g.p) q1 q2.2.2.2
    exact ⟨cs, e3 ▸ hcs⟩
  obtain ⟨tides, ht, -⟩ := Assemble.Props.mapM_mem (tideOf (faceRule g.env.N g.p)) A.tide fun x hx => by
    obtain ⟨cs, hcs⟩ := hforce (t := 1) rfl h4 (fun s hs => hg.fit s (List.mem_append_left _ hs)) x hx
    exact ⟨_, by rw [tideOf, hcs, okBind]; rfl⟩
  obtain ⟨flows, hfl, -⟩ := Assemble.Props.mapM_mem (flowOf (faceRule g.env.N g.p)) A.flow fun x hx => by
    obtain ⟨cs, hcs⟩ := hforce (t := 2) rfl h5 (fun s hs => hg.fit s (List.mem_append_right _ hs)) x hx
    exact ⟨_, by rw [flowOf, hcs, okBind]; rfl⟩
  obtain ⟨mesh, hM⟩ : ∃ mesh, meshOf g.env.N g.p (E.map Prod.fst) A = .ok mesh :=
    ⟨_, by rw [meshOf, hl, List.mapM_nil, show (pure [] : Res (List (Iface ℝ))) = .ok [] from rfl, okBind, ht, okBind, hfl, okBind]; rfl⟩
  exact ⟨_, mesh, by rw [Program.start, hE, okBind, hnodes, okBind, hA, okBind, hM, okBind]; rfl⟩

/-! ### Consequences -/

section consequences
variable {S : Setup ℝ} {mesh : Mesh ℝ} {F : ℕ → MvPolynomial (Fin 2) ℝ} {P : ℕ}

/-- The mesh of the theorems on derivatives (C91). -/
theorem sound_grad (hP : S.p ≤ P) (h : Sound S mesh) (hc : ∀ e ∈ mesh.elts, Counter S e) : GradMesh S.dat mesh P where
  ccw e he := elt_ccw (hc e he).ne'
  degree _ _ := hP
  cover := h.cover
  ends := h.ends
  edges i hi := shared_edges (h.shared i hi)
  owner := h.owner

/-- The interfaces of the theorems on partitioned runs (C44, C70). -/
theorem sound_fits (hR : Rules S.env.N F P 0) (hO : Orthogonal S.env.N F P) (hS : SymRules S.env.N P) (hP : S.p ≤ P) (h1 : 1 ≤ S.p) (h : Sound S mesh)
    (hc : ∀ e ∈ mesh.elts, Counter S e) : ∀ i ∈ mesh.ints, Swe.Props.Fits S.v S.dat i := fun i hi =>
  { degree := rfl
    ccwIn := elt_ccw (hc _ (h.ends i hi).1).ne'
    ccwEx := elt_ccw (hc _ (h.ends i hi).2).ne'
    edges := edge_shared (h.shared i hi)
    bath := fun _ _ hgp => bath_continuous hR hO hS hP h1 (hc _ (h.ends i hi).1).ne' (hc _ (h.ends i hi).2).ne' (h.shared i hi) hgp }

/-- The mesh of the theorems on uniform flow (C73), for nodes of one depth. -/
theorem sound_stream (hR : Rules S.env.N F P 0) (hO : Orthogonal S.env.N F P) (hP : S.p ≤ P) (h : Sound S mesh) (hc : ∀ e ∈ mesh.elts, Counter S e)
    (hq : IsSqrt S.env.sq) (hflat : S.inp.sph.enabled = false) {U : Q ℝ} {b t ramp : ℝ} (hsrc : S.env.src.functionSource = true → ∀ x, S.env.fs t x = ⟨0, 0, 0⟩)
    (hfr : S.env.src.bottomFriction = false) (hb : ∀ e ∈ mesh.elts, ∀ n ∈ nodesOf S e, (S.nodes n).z = b) (hw : 0 < U.ze + b)
    (hfol : ∀ x ∈ mesh.bnds, Follows S.v U t ramp (normal S.v.sq (S.dat x.e).elt.tri x.f) x.kind) : StreamMesh S.v S.dat mesh P U b t ramp where
  sqrt := hq
  sp x := by
    show spOf S.env.cos S.env.pi S.inp.sph x = 1
    simp [spOf, hflat]
  source := hsrc
  friction := hfr
  nodup := h.nodup
  ccw e he := elt_ccw (hc e he).ne'
  degree _ _ := hP
  cover := h.cover
  ends := h.ends
  edges i hi := edge_shared (h.shared i hi)
  internal := h.internal
  bed e he d hd := by
    have hz : ∀ x < 3, (S.shape e).zs x = b := by
      rw [zs_nodes (S := S) e fun z => z = b]
      intro n hn
      rw [final_z]
      exact hb e he n hn
    have hz' : (S.shape e).zs = fun _ => b := by
      funext x
      rcases Nat.lt_or_ge x 3 with hx | hx
      · exact hz x hx
      · rw [← hz 2 (by omega)]
        unfold Shape.zs
        rw [if_neg (by omega), if_neg (by omega)]
        rfl
    show bathOf S.env.N S.p (S.shape e) d = _
    unfold bathOf
    rw [hz']
    exact node_const hR hO (e := ⟨S.p, (S.shape e).tri⟩) hP (elt_ccw (S := S) (hc e he).ne').ne' b hd
  wet := hw
  owner := h.owner
  follows := hfol

end consequences

/-- The file has a boundary of type `t`. -/
def Has {W : Type} (m : Adcirc.Fort14 W ℝ) (t : ℕ) : Prop :=
  ∃ e k a b, MeshMeta.Props.IsFace m e k a b ∧ Alone m e k a b ∧ Adcirc.getIbtype m a b = .ok t

/-- All amplitudes of the input are zero. -/
def Silent (g : Program ℝ) : Prop := ∀ s ∈ g.data.tide ++ g.data.flow, ∀ x ∈ s, ∀ a ∈ x.2.amplitude, a = 0

theorem silent_forcing (cos : ℝ → ℝ) (pi ramp t : ℝ) {r : List (ℝ × ℝ)} {s : List (ℕ × Bcis.NodeData ℝ)} (hs : FitData s) (hz : ∀ x ∈ s, ∀ a ∈ x.2.amplitude, a = 0)
    {n n' : ℕ} {d d' : Bcis.NodeData ℝ} (h1 : s.lookup n = some d) (h2 : s.lookup n' = some d') {cs : ℕ → List (Constituent ℝ)} (hcs : forcingAt r [d, d'] = .ok cs) (gp : ℕ) :
    forcing cos pi ramp t (cs gp) = 0 := by
  obtain ⟨k, hall⟩ := hs
  have m1 := MeshMeta.mem_of_lookup h1
  have m2 := MeshMeta.mem_of_lookup h2
  have q1 := hall _ m1
  have q2 := hall _ m2
  obtain ⟨cs', hcs', hv⟩ := forcingAt_ok r q1 q2.2.2.2
  rw [hcs, Except.ok.injEq] at hcs'
  subst hcs'
  have hz' : ∀ {x : ℕ × Bcis.NodeData ℝ}, x ∈ s → ∀ c, x.2.amplitude.getD c 0 = 0 := by
    intro x hx c
    rw [List.getD_eq_getElem?_getD]
    cases hg : x.2.amplitude[c]? with
    | none => rfl
    | some a => exact hz x hx a (List.mem_of_getElem? hg)
  refine forcing_zero _ _ _ _ fun c hc => ?_
  rw [hv] at hc
  split_ifs at hc with h
  · obtain ⟨j, -, rfl⟩ := List.mem_map.mp hc
    have a1 := hz' m1 j
    have a2 := hz' m2 j
    simp only at a1 a2 ⊢
    rw [a1, a2]
    ring
  · simp at hc

/-- **C107** With zero amplitudes all boundaries are quiet: tide boundaries for the level zero, boundaries of prescribed functions if these are the lake. -/
theorem quiet_start {W : Type} {g : Program ℝ} {m : Adcirc.Fort14 W ℝ} {pos : ℕ → P2 ℝ} (hm : GoodFile pos m) (hg : Fed g m) (hz : Silent g) {order : Dict}
    (hperm : order.Perm (MeshMeta.edgeDict m.elements)) {S : Setup ℝ} {mesh : Mesh ℝ} (h : g.start m order = .ok (S, mesh)) {L t : ℝ} (ramp : ℝ)
    (hL : Has m 1 → L = 0) (hf : Has m 3 → ∀ x, g.env.bcq t x = ⟨L, 0, 0⟩) : ∀ b ∈ mesh.bnds, Quiet S.env L t ramp b.kind := by
  obtain ⟨-, -, -, -, he, -, -⟩ := start_file hm hperm h
  intro b hb
  obtain ⟨n, n', ty, h1, h2, h3, h4⟩ := start_bounds hm hperm h b hb
  rw [he]
  rcases h4 with ⟨-, hk⟩ | ⟨rfl, s, hs, d, d', cs, l1, l2, hcs, hk⟩ | ⟨rfl, s, hs, d, d', cs, l1, l2, hcs, hk⟩ | ⟨rfl, hk⟩
  · rw [hk]; trivial
  · rw [hk]
    intro gp
    rw [hL ⟨_, _, _, _, h1, h2, h3⟩]
    exact silent_forcing _ _ _ _ (hg.fit s (List.mem_append_left _ hs)) (hz s (List.mem_append_left _ hs)) l1 l2 hcs gp
  · rw [hk]
    intro gp
    exact silent_forcing _ _ _ _ (hg.fit s (List.mem_append_right _ hs)) (hz s (List.mem_append_right _ hs)) l1 l2 hcs gp
  · rw [hk]
    exact hf ⟨_, _, _, _, h1, h2, h3⟩

/-- **C107** A file with land boundaries only gives a closed basin, in which the water is conserved (C57). -/
theorem program_basin {W : Type} {g : Program ℝ} {m : Adcirc.Fort14 W ℝ} (hm : GoodFile (finalPos g m) m) {order : Dict}
    (hperm : order.Perm (MeshMeta.edgeDict m.elements)) {S : Setup ℝ} {mesh : Mesh ℝ} (h : g.start m order = .ok (S, mesh)) (hq : IsSqrt g.env.sq)
    (hflat : g.inp.sph.enabled = false) (hsrc : g.env.src.functionSource = true → ∀ t x, (g.env.fs t x).ze = 0) (hno : ¬ Has m 1 ∧ ¬ Has m 2 ∧ ¬ Has m 3) :
    ClosedBasin S.v S.dat mesh := by
  obtain ⟨-, -, -, -, f5, f6, -⟩ := start_file hm hperm h
  obtain ⟨hs, hc⟩ := start_sound hm hperm h
  refine ⟨(show IsSqrt S.env.sq from f5 ▸ hq), fun x => ?_, fun hf => ?_, hs.nodup, fun e he => elt_ccw (hc e he).ne', fun i hi => ⟨(hs.ends i hi).1, (hs.ends i hi).2, (hs.shared i hi).fin, hs.internal i hi⟩,
    fun b hb => ?_⟩
  · show spOf S.env.cos S.env.pi S.inp.sph x = 1
    simp [spOf, f6, hflat]
  · have : S.env.src.functionSource = true := hf
    show ∀ t x, (S.env.fs t x).ze = 0
    rw [f5] at this ⊢
    exact hsrc this
  · obtain ⟨n, n', ty, h1, h2, h3, h4⟩ := start_bounds hm hperm h b hb
    refine ⟨hs.owner b hb, ?_, ?_⟩
    · obtain ⟨_, _, _, _, -, h⟩ := h1
      omega
    · rcases h4 with ⟨-, hk⟩ | ⟨rfl, -⟩ | ⟨rfl, -⟩ | ⟨rfl, -⟩
      · exact hk
      · exact absurd ⟨_, _, _, _, h1, h2, h3⟩ hno.1
      · exact absurd ⟨_, _, _, _, h1, h2, h3⟩ hno.2.1
      · exact absurd ⟨_, _, _, _, h1, h2, h3⟩ hno.2.2

/-- **C107** From the mesh file to the end of the run. For every good file with sufficient data the program gets to its first step, and a lake with a uniform
level over the bathymetry of the file stays at rest for any number of stages of any scheme, whatever the iteration order of the hash map of edges. -/
theorem program_lake {W : Type} {g : Program ℝ} {m : Adcirc.Fort14 W ℝ} {F : ℕ → MvPolynomial (Fin 2) ℝ} {P : ℕ} (hR : Rules g.env.N F P 0) (hO : Orthogonal g.env.N F P)
    (hS : SymRules g.env.N P) (hP : g.p ≤ P) (h1 : 1 ≤ g.p) (hq : IsSqrt g.env.sq) (hm : GoodFile (finalPos g m) m) (hg : Fed g m) (hz : Silent g)
    (hflat : g.inp.sph.enabled = false) {L : ℝ} (hU : g.inp.ic = .constant ⟨L, 0, 0⟩ ∨ g.inp.ic = .default ⟨L, 0, 0⟩)
    (hd : ∀ ho, g.inp.wd = some ho → 0 < ho ∧ ∀ x ∈ m.nodes, ho + threshold ho < L + x.2.2.2) (hL : Has m 1 → L = 0) {order : Dict}
    (hperm : order.Perm (MeshMeta.edgeDict m.elements)) {tab : Stepper.Tableau} {ns o : ℕ} (htab : Stepper.tableau ns o = some tab)
    (hrow : (ns, o) ∈ [(1, 1), (2, 2), (3, 3), (4, 3), (6, 3), (7, 4), (8, 4)]) (dt : ℝ) (sl : Option (SlParams ℝ)) (temp : ℕ → ℕ → ℝ) (junk : State ℝ)
    (time ramp : ℕ → ℝ) (hsrc : g.env.src.functionSource = true → ∀ k x, g.env.fs (time k) x = ⟨0, 0, 0⟩)
    (hf : Has m 3 → ∀ k x, g.env.bcq (time k) x = ⟨L, 0, 0⟩) :
    ∃ S mesh, g.start m order = .ok (S, mesh) ∧ mesh.elts = m.elements.map Prod.fst ∧
      ∀ (slots : List (Stepper.Slot (State ℝ))) (rhs : State ℝ), ns + 1 ≤ slots.length → slots[0]? = some ⟨S.q0, rhs⟩ → ∀ n,
        ∃ s sl', runSerial S.v S.dat mesh tab ns dt ⟨S.wdParams temp, sl⟩ junk time ramp n ⟨slots, 0, S.wet0, false⟩ = .ok s ∧ s.emptied = false ∧
          s.slots[s.stage]? = some sl' ∧ AtRest S.dat mesh.elts L sl'.q ∧ ∀ e ∈ mesh.elts, s.wet e = true := by
  obtain ⟨S, mesh, h⟩ := program_starts hm hg hperm
  obtain ⟨f1, f2, -, -, f5, f6, f7⟩ := start_file hm hperm h
  obtain ⟨hs, hc⟩ := start_sound hm hperm h
  have hn : S.nodes = nodeAt m.nodes := by
    obtain ⟨E, A, -, -, -, rfl⟩ := start_ok h
    rfl
  refine ⟨S, mesh, h, f1, fun slots rhs hlen h0 n => ?_⟩
  refine lake_from_input (S := S) (F := F) (P := P) (f5 ▸ hR) (f5 ▸ hO) (f5 ▸ hS) (f7 ▸ hP) (f7 ▸ h1) (by unfold Starts; rw [f6]; exact hU) ?_ htab hrow dt sl temp junk
    time ramp (fun k => ?_) slots hlen rhs h0 n
  · intro ho hwd
    rw [f6] at hwd
    obtain ⟨d1, d2⟩ := hd ho hwd
    refine ⟨d1, fun e he k hk => ?_⟩
    rw [f1] at he
    obtain ⟨⟨e', ty, a, b, c⟩, hx, rfl⟩ := List.mem_map.mp he
    unfold nodesOf at hk
    rw [f2 _ _ _ _ _ hx] at hk
    have hsome := hg.nodes _ _ _ _ _ hx k hk
    obtain ⟨v, hv⟩ := Option.isSome_iff_exists.mp hsome
    have := d2 _ (MeshMeta.mem_of_lookup hv)
    rw [final_z, hn, nodeAt, hv]
    exact this
  · exact ⟨f5 ▸ hq, f6 ▸ hflat, fun hfs x => by rw [f5] at hfs ⊢; exact hsrc hfs k x, hs.nodup, fun e he => (hc e he).ne', hs.cover, hs.ends, hs.shared, hs.owner,
      quiet_start hm hg hz hperm h (ramp k) hL fun h3 => hf h3 k⟩

end Verif.Swe.Props
