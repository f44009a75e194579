import Verif.Props.SweProgram

/-!
# C107: the levees of the mesh

The theorems on whole runs exclude levees. Here it is shown which levees the mesh of the run has and which data they get.
-/

namespace Verif.Swe.Props
open Verif.Geometry Verif.Geometry.Props Verif.Element

variable {K : Type} [Field K]

theorem leveeAtGp_ok {d : List (Bcis.LeveeData K)} {z : K} {g : LeveeGp K} (h : Bcis.leveeAtGp d z = .ok g) :
    ∃ a b, d = [a, b] ∧ g = ⟨a.barrier * ((1 - z) / 2) + b.barrier * ((1 + z) / 2), a.sub * ((1 - z) / 2) + b.sub * ((1 + z) / 2),
      a.super * ((1 - z) / 2) + b.super * ((1 + z) / 2)⟩ := by
  rcases d with _ | ⟨a, _ | ⟨b, _ | ⟨c, d⟩⟩⟩
  · cases h
  · cases h
  · refine ⟨a, b, rfl, ?_⟩
    have : Bcis.leveeAtGp [a, b] z = .ok ⟨a.barrier * boundaryPsi 0 z + b.barrier * boundaryPsi 1 z, a.sub * boundaryPsi 0 z + b.sub * boundaryPsi 1 z,
      a.super * boundaryPsi 0 z + b.super * boundaryPsi 1 z⟩ := rfl
    rw [this] at h
    cases h
    simp [boundaryPsi]
  · cases h

/-- A list of results has the results in the order of the arguments. -/
theorem mapM_forall₂ {α β : Type} {f : α → Res β} : ∀ {l : List α} {l' : List β}, l.mapM f = .ok l' → List.Forall₂ (fun x y => f x = .ok y) l l' := by
  intro l
  induction l with
  | nil =>
    intro l' hl
    rw [List.mapM_nil] at hl
    cases hl
    exact .nil
  | cons x xs ih =>
    intro l' hl
    rw [List.mapM_cons] at hl
    obtain ⟨y, hy, hl⟩ := bindOk hl
    obtain ⟨ys, hys, hl⟩ := bindOk hl
    cases hl
    exact .cons hy (ih hys)

/-- **C107** The interfaces of the mesh are the internal ones followed by the levees, in the order in which they were assembled. A levee joins the two faces of its
pair, and at each Gauss point of the face its height and its two coefficients lie between the data of the two nodes in the ratio in which the point divides the
face. -/
theorem levee_mesh {N : Numerics K} {p : ℕ} {ids : List ℕ} {M : Assemble.Mesh (Bcis.LeveeData K) (Bcis.NodeData K) (Bcis.NodeData K)} {mesh : Mesh K}
    (h : meshOf N p ids M = .ok mesh) :
    ∃ lv, mesh.ints = M.internal.map (fun x => ⟨x.1.elem, x.1.face, x.2.elem, x.2.face, .internal⟩) ++ lv ∧
      List.Forall₂ (fun x (i : Iface K) => i.ein = x.1.elem ∧ i.fin = x.1.face ∧ i.eex = x.2.1.elem ∧ i.fex = x.2.1.face ∧
        ∃ d : ℕ → LeveeGp K, i.kind = .levee d ∧ ∀ gp w z, (faceRule N p)[gp]? = some (w, z) → ∃ a b, x.2.2 = [a, b] ∧
          (d gp).H = a.barrier * ((1 - z) / 2) + b.barrier * ((1 + z) / 2) ∧ (d gp).Csub = a.sub * ((1 - z) / 2) + b.sub * ((1 + z) / 2) ∧
          (d gp).Csuper = a.super * ((1 - z) / 2) + b.super * ((1 + z) / 2)) M.levee lv := by
  delta meshOf at h
  obtain ⟨lv, h0, h⟩ := bindOk h
  obtain ⟨td, h1, h⟩ := bindOk h
  obtain ⟨fl, h2, h⟩ := bindOk h
  cases h
  refine ⟨lv, rfl, (mapM_forall₂ h0).imp fun x i hi => ?_⟩
  replace hi : leveeOf (faceRule N p) x = .ok i := hi
  delta leveeOf at hi
  obtain ⟨d, hd, hi⟩ := bindOk hi
  cases hi
  refine ⟨rfl, rfl, rfl, rfl, d, rfl, fun gp w z hz => ?_⟩
  delta leveeAt at hd
  obtain ⟨l, hl, hd⟩ := bindOk hd
  cases hd
  have h2 := mapM_forall₂ hl
  have hlt : gp < (faceRule N p).length := (List.getElem?_eq_some_iff.mp hz).1
  have hlt' : gp < l.length := h2.length_eq ▸ hlt
  have h3 := h2.get hlt hlt'
  have e : (faceRule N p).get ⟨gp, hlt⟩ = (w, z) := (List.getElem?_eq_some_iff.mp hz).2
  simp only [e] at h3
  obtain ⟨a, b, hab, hg⟩ := leveeAtGp_ok h3
  refine ⟨a, b, hab, ?_⟩
  have : l.getD gp ⟨0, 0, 0⟩ = l.get ⟨gp, hlt'⟩ := by simp [List.getD, hlt']
  simp only [this, hg]
  exact ⟨trivial, trivial, trivial⟩

/-- Two triangles on the two sides of a levee that is 3 high at one end and 5 at the other. -/
def leveeBank : Assemble.Mesh (Bcis.LeveeData ℚ) (Bcis.NodeData ℚ) (Bcis.NodeData ℚ) :=
  ⟨[], [(⟨0, 1, [1, 2]⟩, ⟨7, 2, [4, 3]⟩, [⟨3, 1, 2⟩, ⟨5, 1, 4⟩])], [], [], [], [], []⟩

/-- Heights, coefficients and faces of the levees. -/
def leveeView (m : Mesh ℚ) : List ((ℕ × ℕ × ℕ × ℕ) × List (ℚ × ℚ × ℚ)) :=
  m.ints.map fun i => ((i.ein, i.fin, i.eex, i.fex), match i.kind with
    | .levee d => (List.range 3).map fun gp => ((d gp).H, (d gp).Csub, (d gp).Csuper)
    | .internal => [])

example : (match meshOf simpleN 1 [0, 7] leveeBank with
    | .ok m => decide (leveeView m = [((0, 1, 7, 2), [(3, 1, 2), (4, 1, 3), (5, 1, 4)])])
    | .error _ => false) = true := by decide +kernel

example : ∃ mesh, meshOf simpleN 1 [0, 7] leveeBank = .ok mesh := ⟨_, rfl⟩

end Verif.Swe.Props
