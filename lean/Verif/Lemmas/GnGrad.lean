import Verif.Model.GnGrad
import Verif.Props.GnDeriv
import Verif.Props.Basis

/-!
Helper lemmas: the arrays of neighbours, sums over faces and nodes.
-/

namespace Verif.Gn
open Verif.Geometry Verif.Element Verif.Swe Verif.Swe.Props Verif.Gn.Props

section
variable {K α β : Type}

theorem setFace_at (r : ℕ → ℕ → α) (e f : ℕ) (x : α) (e' f' : ℕ) : setFace r e f x e' f' = if e' = e ∧ f' = f then x else r e' f' := by
  unfold setFace
  by_cases he : e' = e
  · subst he
    rw [Function.update_self]
    by_cases hf : f' = f
    · subst hf; simp
    · simp [hf]
  · rw [Function.update_of_ne he]; simp [he]

theorem nbInt_fold (c : ℕ → α) (l : List (Iface K)) (r : ℕ → ℕ → α) (e f : ℕ) :
    (l.foldl (nbInt c) r e f = r e f ∧ ∀ i ∈ l, ¬(i.ein = e ∧ i.fin = f) ∧ ¬(i.eex = e ∧ i.fex = f)) ∨
      ∃ i ∈ l, (i.ein = e ∧ i.fin = f ∧ l.foldl (nbInt c) r e f = c i.eex) ∨ (i.eex = e ∧ i.fex = f ∧ l.foldl (nbInt c) r e f = c i.ein) := by
  induction l generalizing r with
  | nil => exact Or.inl ⟨rfl, by simp⟩
  | cons i l ih =>
    rw [List.foldl_cons]
    rcases ih (nbInt c r i) with ⟨h, hn⟩ | ⟨j, hj, h⟩
    · have hv : nbInt c r i e f = if e = i.eex ∧ f = i.fex then c i.ein else if e = i.ein ∧ f = i.fin then c i.eex else r e f := by
        unfold nbInt; rw [setFace_at, setFace_at]
      by_cases h1 : e = i.eex ∧ f = i.fex
      · rw [if_pos h1] at hv
        exact Or.inr ⟨i, by simp, Or.inr ⟨h1.1.symm, h1.2.symm, h.trans hv⟩⟩
      · rw [if_neg h1] at hv
        by_cases h2 : e = i.ein ∧ f = i.fin
        · rw [if_pos h2] at hv
          exact Or.inr ⟨i, by simp, Or.inl ⟨h2.1.symm, h2.2.symm, h.trans hv⟩⟩
        · rw [if_neg h2] at hv
          refine Or.inl ⟨h.trans hv, fun j hj => ?_⟩
          rcases List.mem_cons.1 hj with rfl | hj
          · exact ⟨fun h => h2 ⟨h.1.symm, h.2.symm⟩, fun h => h1 ⟨h.1.symm, h.2.symm⟩⟩
          · exact hn j hj
    · exact Or.inr ⟨j, List.mem_cons_of_mem _ hj, h⟩

theorem nbBnd_fold (w : ℕ → ℕ → α) (l : List (Bnd K)) (r : ℕ → ℕ → α) (e f : ℕ) :
    (l.foldl (nbBnd w) r e f = r e f ∧ ∀ b ∈ l, ¬(b.e = e ∧ b.f = f)) ∨ ∃ b ∈ l, b.e = e ∧ b.f = f ∧ l.foldl (nbBnd w) r e f = w e f := by
  induction l generalizing r with
  | nil => exact Or.inl ⟨rfl, by simp⟩
  | cons b l ih =>
    rw [List.foldl_cons]
    rcases ih (nbBnd w r b) with ⟨h, hn⟩ | ⟨j, hj, h⟩
    · have hv : nbBnd w r b e f = if e = b.e ∧ f = b.f then w b.e b.f else r e f := by unfold nbBnd; rw [setFace_at]
      by_cases h1 : e = b.e ∧ f = b.f
      · rw [if_pos h1] at hv
        exact Or.inr ⟨b, by simp, h1.1.symm, h1.2.symm, by rw [h, hv, h1.1, h1.2]⟩
      · rw [if_neg h1] at hv
        refine Or.inl ⟨h.trans hv, fun j hj => ?_⟩
        rcases List.mem_cons.1 hj with rfl | hj
        · exact fun h => h1 ⟨h.1.symm, h.2.symm⟩
        · exact hn j hj
    · exact Or.inr ⟨j, List.mem_cons_of_mem _ hj, h⟩

/-- Functions of the values of neighbours. -/
theorem nbs_map (φ : α → β) (m : Mesh K) (c : ℕ → α) (w init : ℕ → ℕ → α) (e f : ℕ) :
    nbs m (fun e => φ (c e)) (fun e f => φ (w e f)) (fun e f => φ (init e f)) e f = φ (nbs m c w init e f) := by
  have hs : ∀ (r : ℕ → ℕ → α) (a k : ℕ) (x : α), (fun e f => φ (setFace r a k x e f)) = setFace (fun e f => φ (r e f)) a k (φ x) := by
    intro r a k x
    funext e f
    rw [setFace_at, setFace_at]; split <;> rfl
  have hb : ∀ (l : List (Bnd K)) (r : ℕ → ℕ → α), l.foldl (nbBnd fun e f => φ (w e f)) (fun e f => φ (r e f)) = fun e f => φ (l.foldl (nbBnd w) r e f) := by
    intro l
    induction l with
    | nil => intro r; rfl
    | cons b l ih =>
      intro r
      rw [List.foldl_cons, List.foldl_cons, ← ih]
      congr 1
      exact (hs r b.e b.f (w b.e b.f)).symm
  have hi : ∀ (l : List (Iface K)) (r : ℕ → ℕ → α), l.foldl (nbInt fun e => φ (c e)) (fun e f => φ (r e f)) = fun e f => φ (l.foldl (nbInt c) r e f) := by
    intro l
    induction l with
    | nil => intro r; rfl
    | cons i l ih =>
      intro r
      rw [List.foldl_cons, List.foldl_cons, ← ih]
      congr 1
      unfold nbInt
      rw [hs, hs]
  unfold nbs
  rw [hi, hb]

end

section
variable {α : Type} {dat : ℕ → EltData ℝ} {m : Mesh ℝ} {P : ℕ}

/-- Which value an entry has: that of the element on the other side of the face, or, at a boundary, the one given for it. -/
theorem nbs_spec (hm : GradMesh dat m P) (c : ℕ → α) (w init : ℕ → ℕ → α) {e f : ℕ} (he : e ∈ m.elts) (hf : f < 3) :
    (∃ i ∈ m.ints, (i.ein = e ∧ i.fin = f ∧ nbs m c w init e f = c i.eex) ∨ (i.eex = e ∧ i.fex = f ∧ nbs m c w init e f = c i.ein)) ∨
      ∃ b ∈ m.bnds, b.e = e ∧ b.f = f ∧ nbs m c w init e f = w e f := by
  unfold nbs
  rcases nbBnd_fold w m.bnds (m.ints.foldl (nbInt c) init) e f with ⟨h, hb⟩ | ⟨b, hb, h1, h2, h3⟩
  · rcases nbInt_fold c m.ints init e f with ⟨_, hi⟩ | ⟨i, hi, h'⟩
    · exfalso
      have hmem : f ∈ facesOf m e := (hm.cover e he).mem_iff.2 (by interval_cases f <;> simp)
      rcases List.mem_append.1 hmem with h' | h'
      · obtain ⟨i, hi', hx⟩ := List.mem_flatMap.1 h'
        obtain ⟨n1, n2⟩ := hi i hi'
        rcases List.mem_append.1 hx with hx | hx <;> split at hx <;> simp at hx
        · next he' => exact n1 ⟨he', hx.symm⟩
        · next he' => exact n2 ⟨he', hx.symm⟩
      · obtain ⟨b, hb', hx⟩ := List.mem_flatMap.1 h'
        split at hx <;> simp at hx
        next he' => exact hb b hb' ⟨he', hx.symm⟩
    · refine Or.inl ⟨i, hi, ?_⟩
      rw [h]; exact h'
  · exact Or.inr ⟨b, hb, h1, h2, h3⟩

/-- Entries depend only on values in elements of the mesh. -/
theorem nbs_congr (hm : GradMesh dat m P) {c c' : ℕ → α} {w w' init init' : ℕ → ℕ → α} (hc : ∀ e ∈ m.elts, c e = c' e) (hw : ∀ e ∈ m.elts, ∀ f < 3, w e f = w' e f) {e f : ℕ}
    (he : e ∈ m.elts) (hf : f < 3) : nbs m c w init e f = nbs m c' w' init' e f := by
  have hi : ∀ (l : List (Iface ℝ)) (r r' : ℕ → ℕ → α), (∀ i ∈ l, i ∈ m.ints) → ∀ e f, (r e f = r' e f ∨ ∃ i ∈ l, (i.ein = e ∧ i.fin = f) ∨ (i.eex = e ∧ i.fex = f)) →
      l.foldl (nbInt c) r e f = l.foldl (nbInt c') r' e f := by
    intro l
    induction l with
    | nil => intro r r' _ e f h; rcases h with h | ⟨i, hi, _⟩; exacts [h, by cases hi]
    | cons i l ih =>
      intro r r' hl e f h
      rw [List.foldl_cons, List.foldl_cons]
      refine ih _ _ (fun j hj => hl j (List.mem_cons_of_mem _ hj)) e f ?_
      obtain ⟨e1, e2⟩ := hm.ends i (hl i (by simp))
      have hv : ∀ (c : ℕ → α) r, nbInt c r i e f = if e = i.eex ∧ f = i.fex then c i.ein else if e = i.ein ∧ f = i.fin then c i.eex else r e f := by
        intro c r; unfold nbInt; rw [setFace_at, setFace_at]
      rw [hv, hv, hc _ e1, hc _ e2]
      by_cases h1 : e = i.eex ∧ f = i.fex
      · left; rw [if_pos h1, if_pos h1]
      · by_cases h2 : e = i.ein ∧ f = i.fin
        · left; rw [if_neg h1, if_neg h1, if_pos h2, if_pos h2]
        · rcases h with h | ⟨j, hj, h⟩
          · left; rw [if_neg h1, if_neg h1, if_neg h2, if_neg h2, h]
          · rcases List.mem_cons.1 hj with rfl | hj
            · rcases h with h | h
              · exact absurd ⟨h.1.symm, h.2.symm⟩ h2
              · exact absurd ⟨h.1.symm, h.2.symm⟩ h1
            · exact Or.inr ⟨j, hj, h⟩
  have hb : ∀ (l : List (Bnd ℝ)) (r r' : ℕ → ℕ → α), (∀ b ∈ l, b ∈ m.bnds) → (r e f = r' e f ∨ ∃ b ∈ l, b.e = e ∧ b.f = f) →
      l.foldl (nbBnd w) r e f = l.foldl (nbBnd w') r' e f := by
    intro l
    induction l with
    | nil => intro r r' _ h; rcases h with h | ⟨i, hi, _⟩; exacts [h, by cases hi]
    | cons b l ih =>
      intro r r' hl h
      rw [List.foldl_cons, List.foldl_cons]
      refine ih _ _ (fun j hj => hl j (List.mem_cons_of_mem _ hj)) ?_
      have hv : ∀ (w : ℕ → ℕ → α) r, nbBnd w r b e f = if e = b.e ∧ f = b.f then w e f else r e f := by
        intro w r; unfold nbBnd; rw [setFace_at]; split
        · next h => rw [h.1, h.2]
        · rfl
      rw [hv, hv, hw e he f hf]
      by_cases h1 : e = b.e ∧ f = b.f
      · left; rw [if_pos h1, if_pos h1]
      · rcases h with h | ⟨j, hj, h⟩
        · left; rw [if_neg h1, if_neg h1, h]
        · rcases List.mem_cons.1 hj with rfl | hj
          · exact absurd ⟨h.1.symm, h.2.symm⟩ h1
          · exact Or.inr ⟨j, hj, h⟩
  unfold nbs
  refine hb m.bnds _ _ (fun _ h => h) ?_
  rcases nbs_spec hm c w init he hf with ⟨i, hi', h⟩ | ⟨b, hb', h1, h2, _⟩
  · left
    refine hi m.ints _ _ (fun _ h => h) e f (Or.inr ⟨i, hi', ?_⟩)
    rcases h with h | h
    · exact Or.inl ⟨h.1, h.2.1⟩
    · exact Or.inr ⟨h.1, h.2.1⟩
  · exact Or.inr ⟨b, hb', h1, h2⟩

end

/-! ### Sums over nodes -/

section
variable {K : Type} [Field K] [LinearOrder K]

omit [LinearOrder K] in
theorem addCell_at (r : ℕ → K) (n : ℕ) (x : K) (k : ℕ) : addCell r n x k = r k + if n = k then x else 0 := by
  unfold addCell
  by_cases h : n = k
  · subst h; simp
  · rw [Function.update_of_ne (Ne.symm h), if_neg h, add_zero]

omit [LinearOrder K] in
/-- The sums are over the corners with that node. -/
theorem nodeSums_eq (node : ℕ → ℕ → ℕ) (m : Mesh K) (c : ℕ → K) (k : ℕ) :
    nodeSums node m c k = (m.elts.map fun e => ((List.range 3).map fun v => if node e v = k then c e else 0).sum).sum := by
  have hin : ∀ (l : List ℕ) (r : ℕ → K) (e : ℕ), l.foldl (fun r v => addCell r (node e v) (c e)) r k = r k + (l.map fun v => if node e v = k then c e else 0).sum := by
    intro l
    induction l with
    | nil => intro r e; simp
    | cons v l ih => intro r e; rw [List.foldl_cons, ih, addCell_at, List.map_cons, List.sum_cons]; ring
  have hout : ∀ (l : List ℕ) (r : ℕ → K), l.foldl (fun r e => (List.range 3).foldl (fun r v => addCell r (node e v) (c e)) r) r k =
      r k + (l.map fun e => ((List.range 3).map fun v => if node e v = k then c e else 0).sum).sum := by
    intro l
    induction l with
    | nil => intro r; simp
    | cons e l ih => intro r; rw [List.foldl_cons, ih, hin, List.map_cons, List.sum_cons]; ring
  unfold nodeSums
  rw [hout, zero_add]

theorem nodeMult_eq (node : ℕ → ℕ → ℕ) (m : Mesh K) (k : ℕ) :
    nodeMult node m k = (m.elts.map fun e => ((List.range 3).map fun v => if node e v = k then 1 else 0).sum).sum := by
  have hin : ∀ (l : List ℕ) (r : ℕ → ℕ) (e : ℕ), l.foldl (fun r v => Function.update r (node e v) (r (node e v) + 1)) r k = r k + (l.map fun v => if node e v = k then 1 else 0).sum := by
    intro l
    induction l with
    | nil => intro r e; simp
    | cons v l ih =>
      intro r e
      rw [List.foldl_cons, ih, List.map_cons, List.sum_cons]
      by_cases h : node e v = k
      · subst h; simp; omega
      · rw [Function.update_of_ne (Ne.symm h), if_neg h]; omega
  have hout : ∀ (l : List ℕ) (r : ℕ → ℕ), l.foldl (fun r e => (List.range 3).foldl (fun r v => Function.update r (node e v) (r (node e v) + 1)) r) r k =
      r k + (l.map fun e => ((List.range 3).map fun v => if node e v = k then 1 else 0).sum).sum := by
    intro l
    induction l with
    | nil => intro r; simp
    | cons e l ih => intro r; rw [List.foldl_cons, ih, hin, List.map_cons, List.sum_cons]; ring
  unfold nodeMult
  rw [hout, zero_add]

end

/-! ### Green-Gauss as a sum over faces -/

section
variable {K : Type} [Field K] [LinearOrder K]

/-- What the faces of an element add. -/
def ggTerms (v : Env K) (dat : ℕ → EltData K) (m : Mesh K) (fi fe : Iface K → ℕ → K) (F : Row K) (dir e : ℕ) : List (ℕ × K) :=
  m.ints.flatMap (fun i => (if i.ein = e then [(i.fin, faceSum (i.rule v dat) (i.J v dat) fun gp => fi i gp * nd (normal v.sq (dat i.ein).elt.tri i.fin) dir)] else []) ++
    (if i.eex = e then [(i.fex, faceSum (i.rule v dat) (i.J v dat) fun gp =>
      fe i gp * nd ⟨-(normal v.sq (dat i.ein).elt.tri i.fin).x, -(normal v.sq (dat i.ein).elt.tri i.fin).y⟩ dir)] else [])) ++
    m.bnds.flatMap fun b => if b.e = e then [(b.f, faceSum (faceRule v.N (dat b.e).elt.p) (surfaceJ v.sq (dat b.e).elt.tri b.f) fun gp =>
      F b.e (facePt (faceRule v.N (dat b.e).elt.p) b.f gp) * nd (normal v.sq (dat b.e).elt.tri b.f) dir)] else []

theorem ggWith_at (v : Env K) (dat : ℕ → EltData K) (m : Mesh K) (fi fe : Iface K → ℕ → K) (F : Row K) (dir e : ℕ) :
    ggWith v dat m fi fe F dir e = 1 / area (dat e).elt.tri * ((ggTerms v dat m fi fe F dir e).map Prod.snd).sum := by
  have h0 : ∀ (l : List ℕ), (l.foldl (fun (r : ℕ → K) e => Function.update r e 0) fun _ => 0) = fun _ => 0 := by
    intro l
    induction l with
    | nil => rfl
    | cons a l ih =>
      rw [List.foldl_cons]
      rw [show Function.update (fun _ : ℕ => (0 : K)) a 0 = fun _ => 0 from Function.update_eq_self_iff.2 rfl]
      exact ih
  have hi : ∀ (l : List (Iface K)) (r : ℕ → K), (l.foldl (ggInt v dat fi fe dir) r) e = r e + 1 / area (dat e).elt.tri *
      ((l.flatMap fun i => (if i.ein = e then [(i.fin, faceSum (i.rule v dat) (i.J v dat) fun gp => fi i gp * nd (normal v.sq (dat i.ein).elt.tri i.fin) dir)] else []) ++
    (if i.eex = e then [(i.fex, faceSum (i.rule v dat) (i.J v dat) fun gp =>
      fe i gp * nd ⟨-(normal v.sq (dat i.ein).elt.tri i.fin).x, -(normal v.sq (dat i.ein).elt.tri i.fin).y⟩ dir)] else [])).map Prod.snd).sum := by
    intro l
    induction l with
    | nil => intro r; simp
    | cons i l ih =>
      intro r
      rw [List.foldl_cons, ih, List.flatMap_cons, List.map_append, List.sum_append, mul_add, ← add_assoc]
      congr 1
      unfold ggInt
      simp only [addCell_at]
      rw [add_assoc]
      congr 1
      by_cases h1 : i.ein = e <;> by_cases h2 : i.eex = e <;> simp [h1, h2, mul_add]
  have hb : ∀ (l : List (Bnd K)) (r : ℕ → K), (l.foldl (ggBnd v dat F dir) r) e = r e + 1 / area (dat e).elt.tri *
      ((l.flatMap fun b => if b.e = e then [(b.f, faceSum (faceRule v.N (dat b.e).elt.p) (surfaceJ v.sq (dat b.e).elt.tri b.f) fun gp =>
      F b.e (facePt (faceRule v.N (dat b.e).elt.p) b.f gp) * nd (normal v.sq (dat b.e).elt.tri b.f) dir)] else []).map Prod.snd).sum := by
    intro l
    induction l with
    | nil => intro r; simp
    | cons b l ih =>
      intro r
      rw [List.foldl_cons, ih, List.flatMap_cons, List.map_append, List.sum_append, mul_add, ← add_assoc]
      congr 1
      unfold ggBnd
      simp only [addCell_at]
      congr 1
      by_cases h1 : b.e = e <;> simp [h1]
  unfold ggWith ggTerms
  rw [hb, hi, h0, zero_add, List.map_append, List.sum_append, mul_add]

end

theorem ggTerms_faces (v : Env ℝ) (dat : ℕ → EltData ℝ) (m : Mesh ℝ) (fi fe : Iface ℝ → ℕ → ℝ) (F : Row ℝ) (dir e : ℕ) :
    (ggTerms v dat m fi fe F dir e).map Prod.fst = facesOf m e := by
  unfold ggTerms facesOf
  rw [List.map_append, List.map_flatMap, List.map_flatMap]
  congr 1
  · apply List.flatMap_congr
    intro i _
    split <;> split <;> simp
  · apply List.flatMap_congr
    intro b _
    split <;> simp

end Verif.Gn
