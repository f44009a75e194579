import Verif.Props.GnGrad
import Verif.Props.GnPoly
import Verif.Props.GnFlatCase

/-!
Cases for C103: four triangles, one of them without boundary.

On several ranks the second derivatives of the bathymetry by Green-Gauss are not those of the serial program if the first ones are reconstructed by least squares
(`ddbath_ranks_differ`): the serial program averages them at interfaces, at the edges between ranks each side integrates its own values.
-/

namespace Verif.Gn.Props
open Verif.Geometry Verif.Geometry.Props Verif.Element Verif.Swe Verif.Swe.Props Verif.Tri MvPolynomial Verif.Basis

/-- The Dubiner basis as in the code. -/
theorem dubiner_linear {rd : ℝ → ℝ} (hr : Basis.Props.Rounding rd) {N : Numerics ℝ} (hN : N.basis = dubiner (dofPair rd)) : LinearBasis N := by
  obtain ⟨_, e1, e2⟩ := Basis.Props.first_dofs hr
  have hy : ∀ z : P2 ℝ, Reg z → z.y ≠ 1 ∨ z = ⟨-1, 1⟩ := fun z hz => hz
  constructor
  · intro z hz
    rw [hN]
    show Basis.phi (dofPair rd 1).1 (dofPair rd 1).2 z = _
    rw [e1]
    rcases hy z hz with h | rfl
    · simp [Basis.phi, n1, h, jacobi, linear, u32, usub]
    · norm_num [Basis.phi, n1]
  · intro z hz
    rw [hN]
    show Basis.phi (dofPair rd 2).1 (dofPair rd 2).2 z = _
    rw [e2]
    rcases hy z hz with h | rfl
    · have : 1 - z.y ≠ 0 := fun h' => h (by linarith)
      simp [Basis.phi, n1, h, jacobi, linear, u32, usub]; field_simp; ring
    · norm_num [Basis.phi, n1]

/-- A triangle with neighbours on all sides. -/
def fourTris {K : Type} [Field K] (p : ℕ) (b : ℕ → ℕ → K) (e : ℕ) : EltData K :=
  ⟨⟨p, if e = 0 then ⟨⟨0, 0⟩, ⟨4, 0⟩, ⟨0, 3⟩⟩ else if e = 1 then ⟨⟨4, 3⟩, ⟨0, 3⟩, ⟨4, 0⟩⟩ else if e = 2 then ⟨⟨-4, 3⟩, ⟨0, 0⟩, ⟨0, 3⟩⟩ else ⟨⟨4, -3⟩, ⟨4, 0⟩, ⟨0, 0⟩⟩⟩,
    b e, ⟨false, 0, 0, ⟨0, 0⟩, ⟨0, 0⟩, ⟨0, 0⟩⟩⟩

/-- Their mesh, with land around. -/
def fourMesh {K : Type} : Mesh K := ⟨[0, 1, 2, 3], [⟨0, 0, 1, 0, .internal⟩, ⟨0, 1, 2, 0, .internal⟩, ⟨0, 2, 3, 0, .internal⟩],
  [⟨1, 1, .land⟩, ⟨1, 2, .land⟩, ⟨2, 1, .land⟩, ⟨2, 2, .land⟩, ⟨3, 1, .land⟩, ⟨3, 2, .land⟩], []⟩

theorem four_grad {p P : ℕ} (hp : p ≤ P) (b : ℕ → ℕ → ℝ) : GradMesh (fourTris p b) fourMesh P := by
  refine ⟨?_, fun _ _ => hp, ?_, ?_, ?_, ?_⟩
  · intro e he
    rcases (by simpa [fourMesh] using he : e = 0 ∨ e = 1 ∨ e = 2 ∨ e = 3) with rfl | rfl | rfl | rfl <;> norm_num [fourTris, jdet, Geometry.det, jac]
  · intro e he
    rcases (by simpa [fourMesh] using he : e = 0 ∨ e = 1 ∨ e = 2 ∨ e = 3) with rfl | rfl | rfl | rfl <;> decide
  · intro i hi
    rcases (by simpa [fourMesh] using hi : i = _ ∨ i = _ ∨ i = _) with rfl | rfl | rfl <;> simp [fourMesh]
  · intro j hj
    rcases (by simpa [fourMesh] using hj : j = _ ∨ j = _ ∨ j = _) with rfl | rfl | rfl <;> simp [fourTris, startOf, endOf]
  · intro b hb
    rcases (by simpa [fourMesh] using hb : b = _ ∨ b = _ ∨ b = _ ∨ b = _ ∨ b = _ ∨ b = _) with rfl | rfl | rfl | rfl | rfl | rfl <;> simp [fourMesh]

/-- Coefficients are found or set to zero if the points are in general position. -/
theorem interp_exists {t : Tri ℝ} {nb : ℕ → P2 ℝ} {f : ℕ}
    (h : ∀ o, o = (f + 1) % 3 ∨ o = (f + 2) % 3 → ((nb f).x - (barycentre t).x) * ((nb o).y - (barycentre t).y) - ((nb o).x - (barycentre t).x) * ((nb f).y - (barycentre t).y) ≠ 0) :
    ∃ A, interp t nb f = some A := by
  have hs : ∀ o, o = (f + 1) % 3 ∨ o = (f + 2) % 3 → ∃ a, solveAlpha (midpoint t f) (barycentre t) (nb f) (nb o) = some a := fun o ho =>
    ⟨_, if_neg (by simpa only [Geometry.det] using h o ho)⟩
  obtain ⟨a, ha⟩ := hs _ (.inl rfl)
  obtain ⟨b, hb⟩ := hs _ (.inr rfl)
  simp only [interp, findInterp, Nat.add_zero, show f + 1 + 1 = f + 2 from rfl, ha, hb]
  split
  · exact ⟨_, rfl⟩
  · split <;> exact ⟨_, rfl⟩

theorem ready_exists {dat : ℕ → EltData ℝ} {m : Mesh ℝ} (node : ℕ → ℕ → ℕ) (h : ∀ e ∈ m.elts, ∀ f < 3, ∀ o, o = (f + 1) % 3 ∨ o = (f + 2) % 3 →
      (dCol dat m e f).x * (dCol dat m e o).y - (dCol dat m e o).x * (dCol dat m e f).y ≠ 0) : ∃ g, Gn.Ready dat m g ∧ g.node = node := by
  have h1 : ∀ e, ∃ P : ℕ → P2 ℝ, e ∈ m.elts → pCols (dCol dat m e) = some P := by
    intro e
    by_cases he : e ∈ m.elts
    · obtain ⟨P, hP⟩ := (pCols_iff (dCol dat m e)).2 ⟨0, by omega, 1, by omega, h e he 0 (by omega) 1 (.inl rfl)⟩
      exact ⟨P, fun _ => hP⟩
    · exact ⟨fun _ => ⟨0, 0⟩, fun h => absurd h he⟩
  have h2 : ∀ e f, ∃ A : Interp ℝ, e ∈ m.elts → f < 3 → interp (dat e).elt.tri (nbCoord dat m e) f = some A := by
    intro e f
    by_cases he : e ∈ m.elts ∧ f < 3
    · obtain ⟨A, hA⟩ := interp_exists (t := (dat e).elt.tri) (nb := nbCoord dat m e) (f := f) fun o ho => h e he.1 f he.2 o ho
      exact ⟨A, fun _ _ => hA⟩
    · exact ⟨⟨0, 0, 0, 0⟩, fun a b => absurd ⟨a, b⟩ he⟩
  choose P hP using h1
  choose A hA using h2
  exact ⟨⟨P, A, node⟩, ⟨hP, fun e he f hf => hA e f he hf⟩, rfl⟩

/-- The numbers of the nodes of the four triangles. -/
def fourNode (e k : ℕ) : ℕ := ([[0, 1, 2], [3, 2, 1], [4, 0, 2], [5, 1, 0]].getD e []).getD k 0

theorem four_ready (p : ℕ) (b : ℕ → ℕ → ℝ) : ∃ g, Gn.Ready (fourTris p b) fourMesh g ∧ g.node = fourNode := by
  refine ready_exists _ fun e he f hf o ho => ?_
  rcases (by simpa [fourMesh] using he : e = 0 ∨ e = 1 ∨ e = 2 ∨ e = 3) with rfl | rfl | rfl | rfl <;> interval_cases f <;> rcases ho with rfl | rfl <;>
    norm_num [dCol, nbCoord, nbs, fourMesh, nbInt, nbBnd, setFace, Function.update, fourTris, barycentre, Geometry.midpoint, vertex]

theorem cubic_linear : LinearBasis cubicN := dubiner_linear Basis.Props.rounding_id rfl

/-- Every quadratic level on these triangles: the exact derivative in the inner one. -/
example (Q : MvPolynomial (Fin 2) ℝ) (hQ : Q.totalDegree ≤ 2) (i : Fin 2) (b : ℕ → ℕ → ℝ) (k : ℕ) (hk : k < 3) :
    let v := plainEnv cubicN Real.sqrt
    let dat := fourTris 2 b
    ∃ g, Gn.Ready dat fourMesh g ∧
      dzeGg v dat fourMesh g .ls (fun e r d => if r = 0 then coefs cubicN (dubF id) dat Q e d else 0) i 0 k = eval ![(vertex (dat 0).elt.tri k).x, (vertex (dat 0).elt.tri k).y] (pderiv i Q) := by
  intro v dat
  obtain ⟨g, hg, _⟩ := four_ready 2 b
  have hm : GradMesh dat fourMesh 3 := four_grad (by omega) b
  refine ⟨g, hg, dze_quadratic (v := v) cubic_rules real_isSqrt hm (fun _ _ => by show 1 ≤ 2; omega) hg (coefs_agree (v := v) cubic_rules cubic_orthogonal hm.degree fun _ _ => hQ) hQ i (by simp [fourMesh]) ?_ hk⟩
  intro b hb
  rcases (by simpa [fourMesh] using hb : b = _ ∨ b = _ ∨ b = _ ∨ b = _ ∨ b = _ ∨ b = _) with rfl | rfl | rfl | rfl | rfl | rfl <;> simp

/-- A level that is affine: both methods, all reconstructions. -/
example (a b c : ℝ) (bed : ℕ → ℕ → ℝ) (k : Recon) :
    let v := plainEnv cubicN Real.sqrt
    let dat := fourTris 2 bed
    let q : State ℝ := fun e r d => if r = 0 then coefs cubicN (dubF id) dat (affPoly a b c) e d else 0
    ∃ g, Gn.Ready dat fourMesh g ∧ AllAre fourMesh (dzeGg v dat fourMesh g k q 0) b ∧ AllAre fourMesh (dzeLs dat fourMesh g k q 1) c := by
  intro v dat q
  obtain ⟨g, hg, _⟩ := four_ready 2 bed
  have hm : GradMesh dat fourMesh 3 := four_grad (by omega) bed
  have hag : Agrees dat fourMesh (rowOf v dat fun e => q e 0) (affPoly a b c) :=
    coefs_agree (v := v) cubic_rules cubic_orthogonal hm.degree fun _ _ => (linear_degree a b c).trans (by show 1 ≤ 2; omega)
  have hz : IsAffine dat fourMesh (rowOf v dat fun e => q e 0) a b c := fun e he z hz => by rw [hag e he z hz, affPoly_eval]
  exact ⟨g, hg, (gg_exact_affine (v := v) cubic_rules cubic_linear cubic_symmetric real_isSqrt hm (fun _ _ => by show 1 ≤ 2; omega) hg k).1 a b c hz 0 (by omega),
    (ls_exact_affine (v := v) cubic_rules cubic_orthogonal cubic_linear hm (fun _ _ => by show 1 ≤ 2; omega) hg k).1 a b c hz 1 (by omega)⟩

/-- Any bathymetry and any cut: with averages at nodes the ranks compute what the serial program computes. -/
example (b : ℕ → ℕ → ℝ) (cut : Iface ℝ → Bool) (r : ℕ) :
    let v := plainEnv cubicN Real.sqrt
    ∃ g, Gn.Ready (fourTris 2 b) fourMesh g ∧ ddbathGgP v (fourTris 2 b) fourMesh g .avg cut r = ddbathGg v (fourTris 2 b) fourMesh g .avg r := by
  intro v
  obtain ⟨g, hg, hn⟩ := four_ready 2 b
  refine ⟨g, hg, ddbath_ranks_avg (v := v) cubic_rules cubic_linear cubic_symmetric (four_grad (by omega) b) (fun _ _ => by show 1 ≤ 2; omega) ?_ cut r⟩
  intro i hi
  rw [hn]
  rcases (by simpa [fourMesh] using hi : i = _ ∨ i = _ ∨ i = _) with rfl | rfl | rfl <;> decide

/-! ### Green-Gauss and least squares on several ranks -/

/-- A bed with a fold: slope 1/2 in the one triangle, level in the other. -/
def foldDat : ℕ → EltData ℚ := twoTris 1 fun e d => if d = 0 then 1 else if e = 0 ∧ d = 1 then 1 / 2 else 0

/-- The data that the preprocessor computes. -/
def foldG : GradData ℚ :=
  ⟨fun e => (pCols (dCol foldDat twoMesh e)).getD fun _ => ⟨0, 0⟩, fun e f => (interp (foldDat e).elt.tri (nbCoord foldDat twoMesh e) f).getD ⟨0, 0, 0, 0⟩, fun _ _ => 0⟩

/-- Slopes in the elements and their reconstruction by least squares. -/
def foldCells (e : ℕ) : ℚ := if e = 0 then 1 / 2 else 0
def foldLin (e k : ℕ) : ℚ := ([[17 / 18, 5 / 18, 5 / 18], [-4 / 9, 2 / 9, 2 / 9]].getD e []).getD k 0

/-- Green-Gauss gives the slopes, least squares the reconstruction; it has different values on both sides of the interface. The second derivative that the serial program computes
is not the one of a program with one rank for each of the triangles. -/
theorem ddbath_ranks_differ :
    let v := plainEnv simpleN simpleSq
    (∀ e < 2, (pCols (dCol foldDat twoMesh e)).isSome ∧ gg v foldDat twoMesh (bathRow v foldDat) 1 e = foldCells e ∧ ∀ k < 3, recon foldDat twoMesh foldG .ls foldCells e k = foldLin e k) ∧
    ggHat v foldDat twoMesh (linRow v foldDat foldLin) 1 0 ≠ ggCut v foldDat twoMesh (fun _ => true) (linRow v foldDat foldLin) 1 0 := by
  decide +kernel

end Verif.Gn.Props
