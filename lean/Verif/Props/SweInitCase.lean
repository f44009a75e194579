import Verif.Props.SweInit
import Verif.Props.GnPoly

/-!
# C105, continued: cases

A rectangle of two triangles over an uneven bed; the inputs at which weights of the partitioner and elements of degree zero go wrong.
-/

namespace Verif.Swe.Props
open Verif.Geometry Verif.Geometry.Props Verif.Element Verif.Tri Verif.Gn.Props Verif.Basis MvPolynomial

/-- Nodes of a rectangle with depths `z`. -/
def rectNodes (z : ℕ → ℝ) (n : ℕ) : P3 ℝ := ⟨if n = 1 ∨ n = 3 then 4 else 0, if n = 2 ∨ n = 3 then 3 else 0, z n⟩

/-- Two triangles, with wetting and drying below `1/10`. -/
noncomputable def rectSetup (N : Numerics ℝ) (p : ℕ) (ic : Initial ℝ) (z : ℕ → ℝ) : Setup ℝ where
  env := plainEnv N Real.sqrt
  sin := fun x => x
  inp := ⟨false, ⟨false, 1, 0, 0⟩, ic, none, false, some (1 / 10)⟩
  p := p
  nodes := rectNodes z
  corners e := if e = 0 then (0, 1, 2) else (3, 2, 1)

/-- Depths from 5 to 9. -/
def uneven (n : ℕ) : ℝ := if n = 0 then 5 else if n = 1 then 6 else if n = 2 then 7 else 9

theorem rect_final (N : Numerics ℝ) (p : ℕ) (ic : Initial ℝ) (z : ℕ → ℝ) (n : ℕ) : finalNode (rectSetup N p ic z) n = rectNodes z n := by
  simp [finalNode, preprocessNodes, rectSetup]

theorem rect_proper (N : Numerics ℝ) (p : ℕ) (ic : Initial ℝ) (z : ℕ → ℝ) (e : ℕ) : Proper (rectSetup N p ic z) e := by
  unfold Proper
  simp only [rect_final]
  by_cases h : e = 0
  · subst h; norm_num [rectSetup, rectNodes, P3.flat, jdet, Geometry.det, jac]
  · norm_num [rectSetup, h, rectNodes, P3.flat, jdet, Geometry.det, jac]

theorem rect_shape (N : Numerics ℝ) (p : ℕ) (ic : Initial ℝ) (z : ℕ → ℝ) (e : ℕ) :
    (rectSetup N p ic z).shape e = if e = 0 then ⟨rectNodes z 0, rectNodes z 1, rectNodes z 2⟩ else ⟨rectNodes z 3, rectNodes z 2, rectNodes z 1⟩ := by
  have hs : (rectSetup N p ic z).shape e = shapeOf (finalNode (rectSetup N p ic z) ((rectSetup N p ic z).corners e).1)
    (finalNode (rectSetup N p ic z) ((rectSetup N p ic z).corners e).2.1) (finalNode (rectSetup N p ic z) ((rectSetup N p ic z).corners e).2.2) := rfl
  rw [hs]
  simp only [rect_final]
  by_cases h : e = 0
  · subst h
    rw [if_pos rfl]
    exact shape_id (by norm_num [rectNodes, rectSetup, P3.flat, jdet, Geometry.det, jac])
  · rw [if_neg h]
    have : (rectSetup N p ic z).corners e = (3, 2, 1) := by simp [rectSetup, h]
    rw [this]
    exact shape_id (by norm_num [rectNodes, P3.flat, jdet, Geometry.det, jac])

theorem rect_lake (N : Numerics ℝ) (p : ℕ) (L : ℝ) (z : ℕ → ℝ) (t ramp : ℝ) : LakeInput (rectSetup N p (.constant ⟨L, 0, 0⟩) z) twoMesh L t ramp := by
  refine ⟨real_isSqrt, rfl, (fun h => by cases h), (by decide), fun e _ => rect_proper _ _ _ _ e, ?_, ?_, ?_, ?_, ?_⟩
  · intro e he
    rcases (by simpa [twoMesh] using he : e = 0 ∨ e = 1) with rfl | rfl <;> decide
  · intro i hi
    obtain rfl : i = _ := by simpa [twoMesh] using hi
    simp [twoMesh]
  · intro i hi
    obtain rfl : i = _ := by simpa [twoMesh] using hi
    refine ⟨(by decide), (by decide), ?_, ?_⟩ <;> simp [rect_shape, start3, end3]
  · intro b hb
    rcases (by simpa [twoMesh] using hb : b = _ ∨ b = _ ∨ b = _ ∨ b = _) with rfl | rfl | rfl | rfl <;> simp [twoMesh]
  · intro b hb
    rcases (by simpa [twoMesh] using hb : b = _ ∨ b = _ ∨ b = _ ∨ b = _) with rfl | rfl | rfl | rfl <;> trivial

theorem rect_deep (N : Numerics ℝ) (p : ℕ) (ic : Initial ℝ) (elts : List ℕ) : Deep (rectSetup N p ic uneven) elts ⟨0, 0, 0⟩ := by
  intro ho hs
  obtain rfl : (1 / 10 : ℝ) = ho := by simpa [rectSetup] using hs
  refine ⟨by norm_num, fun e _ n hn => ?_⟩
  have hz : 5 ≤ (finalNode (rectSetup N p ic uneven) n).z := by
    rw [rect_final]
    simp only [rectNodes, uneven]
    split_ifs <;> norm_num
  have ht := (threshold_range (K := ℝ) (ho := 1 / 10) (by norm_num)).2
  simp only
  linarith

/-- The hypotheses of `lake_from_input` can be satisfied: elements of degree 2 over an uneven bed, wetting and drying on, a scheme of order 3. -/
example (dt : ℝ) (sl : Option (SlParams ℝ)) (temp : ℕ → ℕ → ℝ) (junk : State ℝ) (time ramp : ℕ → ℝ) (tab : Stepper.Tableau) (htab : Stepper.tableau 3 3 = some tab) (n : ℕ) :
    let S := rectSetup cubicN 2 (.constant ⟨0, 0, 0⟩) uneven
    ∃ s sl', runSerial S.v S.dat twoMesh tab 3 dt ⟨S.wdParams temp, sl⟩ junk time ramp n ⟨List.replicate 4 ⟨S.q0, junk⟩, 0, S.wet0, false⟩ = .ok s ∧ s.emptied = false ∧
      s.slots[s.stage]? = some sl' ∧ AtRest S.dat (twoMesh : Mesh ℝ).elts 0 sl'.q ∧ ∀ e ∈ (twoMesh : Mesh ℝ).elts, s.wet e = true :=
  lake_from_input (S := rectSetup cubicN 2 (.constant ⟨0, 0, 0⟩) uneven) cubic_rules cubic_orthogonal cubic_symmetric (show 2 ≤ 3 by omega) (show 1 ≤ 2 by omega) (Or.inl rfl)
    (rect_deep _ _ _ _) htab (by decide) dt sl temp junk time ramp (fun _ => rect_lake _ _ _ _ _ _) _ (by simp) junk (by simp) n

/-- The bed of the example at a node. -/
example : ∃ z, Reg z ∧ pointOf ((rectSetup cubicN 2 (.constant ⟨0, 0, 0⟩) uneven).dat 1).elt.tri z = ⟨4, 3⟩ ∧
    ((rectSetup cubicN 2 (.constant ⟨0, 0, 0⟩) uneven).dat 1).elt.value cubicN ((rectSetup cubicN 2 (.constant ⟨0, 0, 0⟩) uneven).dat 1).bath z = 9 := by
  have := bath_at_nodes (S := rectSetup cubicN 2 (.constant ⟨0, 0, 0⟩) uneven) cubic_rules cubic_orthogonal (show 2 ≤ 3 by omega) (show 1 ≤ 2 by omega)
    (rect_proper _ _ _ _ 1) (n := 3) (by simp [nodesOf, rectSetup])
  rw [rect_final] at this
  have h1 : (rectNodes uneven 3).flat = ⟨4, 3⟩ := by simp [rectNodes, P3.flat]
  have h2 : (rectNodes uneven 3).z = 9 := by simp [rectNodes, uneven]
  rw [h1, h2] at this
  exact this

/-- A parabola is represented exactly by elements of degree 2. -/
example (z : P2 ℝ) (hz : Reg z) (e : ℕ) : ((rectSetup cubicN 2 .function uneven).elt e).value cubicN
    (((rectSetup cubicN 2 .function uneven).elt e).projectF cubicN fun x => x.x ^ 2 + 3 * (x.x * x.y)) z =
      (pointOf ((rectSetup cubicN 2 .function uneven).elt e).tri z).x ^ 2 +
        3 * ((pointOf ((rectSetup cubicN 2 .function uneven).elt e).tri z).x * (pointOf ((rectSetup cubicN 2 .function uneven).elt e).tri z).y) :=
  projectF_exact (e := (rectSetup cubicN 2 .function uneven).elt e) (f := fun x => x.x ^ 2 + 3 * (x.x * x.y)) (Q := X 0 ^ 2 + C 3 * (X 0 * X 1)) cubic_rules cubic_orthogonal
    (show 2 ≤ 3 by omega) (elt_ccw (rect_proper cubicN 2 .function uneven e)).ne'
    ((totalDegree_add _ _).trans (max_le (by rw [totalDegree_X_pow]; rfl) ((totalDegree_mul _ _).trans (by
      rw [totalDegree_C, zero_add]
      exact (totalDegree_mul _ _).trans (by rw [totalDegree_X, totalDegree_X]; rfl)))))
    (fun x => by simp) hz

/-- **C105** Default initial condition (level zero): an element which is land five metres above the water starts dry, but the partitioner counts it as wet. -/
theorem weight_default_wrong : ∃ S : Setup ℝ, ∃ e ho, S.inp.wd = some ho ∧ 0 < ho ∧ Proper S e ∧ S.inp.ic = .default ⟨0, 0, 0⟩ ∧ S.wet0 e = false ∧
    partWet S.env.bcq S.inp.ic ho (rawNodes S e) = true := by
  refine ⟨rectSetup cubicN 1 (.default ⟨0, 0, 0⟩) (fun _ => -5), 0, 1 / 10, rfl, by norm_num, rect_proper _ _ _ _ _, rfl, ?_, weight_default _ _ (by norm_num) _⟩
  have hw := (init_wet (S := rectSetup cubicN 1 (.default ⟨0, 0, 0⟩) (fun _ => -5)) cubic_rules cubic_orthogonal (show 1 ≤ 3 by omega) le_rfl (Or.inr rfl)
    (rect_proper _ _ _ _ 0)).2 (1 / 10) rfl (by norm_num)
  rw [← Bool.not_eq_true, hw]
  intro h
  have := h 0 (by simp [nodesOf, rectSetup])
  rw [rect_final] at this
  have ht := (threshold_range (K := ℝ) (ho := 1 / 10) (by norm_num)).1
  simp only [rectNodes] at this
  linarith

/-- **C105** With a function as initial condition and spherical coordinates, the partitioner evaluates the function at degrees, the program at metres: the water that
the partitioner looks for is elsewhere. -/
theorem weight_function_wrong : ∃ (S : Setup ℝ) (ho : ℝ) (e : ℕ), S.inp.ic = .function ∧ S.inp.sys = true ∧ 0 < ho ∧
    (∀ n ∈ nodesOf S e, ho < (S.env.bcq 0 (finalNode S n).flat).ze + (finalNode S n).z) ∧ partWet S.env.bcq S.inp.ic ho (rawNodes S e) = false := by
  refine ⟨{ rectSetup cubicN 1 .function (fun _ => -5) with
      env := { plainEnv cubicN Real.sqrt with bcq := fun _ x => ⟨if 100 ≤ x.x then 10 else 0, 0, 0⟩ }
      inp := ⟨true, ⟨true, 18000, -4, 0⟩, .function, none, false, some (1 / 10)⟩ }, 1 / 10, 0, rfl, rfl, by norm_num, ?_, ?_⟩
  · intro n hn
    have : n = 0 ∨ n = 1 ∨ n = 2 := by simpa [nodesOf, rectSetup] using hn
    rcases this with rfl | rfl | rfl <;> norm_num [finalNode, preprocessNodes, projectSphere, rectSetup, rectNodes, P3.flat, plainEnv]
  · rw [← Bool.not_eq_true, weight_function]
    intro h
    have := h (rectNodes (fun _ => -5) 0) (by simp [rawNodes, nodesOf, rectSetup])
    norm_num [rectNodes, P3.flat] at this

/-- **C105** Degree zero: the bathymetry is the mean over the element, so it is discontinuous, whatever the values at the common nodes. -/
theorem degree_zero_bath : ∃ S : Setup ℝ, S.p = 0 ∧ (∀ e, Proper S e) ∧ (∀ i ∈ (twoMesh : Mesh ℝ).ints, Shared S i) ∧ Rules S.env.N (dubF id) 1 0 ∧
    ∀ z z', (S.dat 0).elt.value S.env.N (S.dat 0).bath z ≠ (S.dat 1).elt.value S.env.N (S.dat 1).bath z' := by
  refine ⟨rectSetup exactN 0 (.constant ⟨0, 0, 0⟩) (fun n => if n = 0 then 4 else 1), rfl, fun e => rect_proper _ _ _ _ e, (rect_lake _ _ 0 _ 0 0).shared, exact_rules, fun z z' => ?_⟩
  have hv : ∀ e z, ((rectSetup exactN 0 (.constant ⟨0, 0, 0⟩) (fun n => if n = 0 then 4 else 1)).dat e).elt.value exactN
      ((rectSetup exactN 0 (.constant ⟨0, 0, 0⟩) (fun n => if n = 0 then 4 else 1)).dat e).bath z =
        ((rectSetup exactN 0 (.constant ⟨0, 0, 0⟩) (fun n => if n = 0 then 4 else 1)).dat e).bath 0 := by
    intro e z
    have : ndof 0 = 1 := by decide
    simp [Elt.value, show ((rectSetup exactN 0 (.constant ⟨0, 0, 0⟩) (fun n => if n = 0 then 4 else 1)).dat e).elt.p = 0 from rfl, this, exact_rules.phi0]
  show ((rectSetup exactN 0 (.constant ⟨0, 0, 0⟩) (fun n => if n = 0 then 4 else 1)).dat 0).elt.value exactN _ z ≠
    ((rectSetup exactN 0 (.constant ⟨0, 0, 0⟩) (fun n => if n = 0 then 4 else 1)).dat 1).elt.value exactN _ z'
  rw [hv, hv]
  have hm : exactN.basis.minv 0 ≠ 0 := by
    have := (code_orthogonal Basis.Props.rounding_id 0 (ndof_pos 10)).1
    exact this
  have hj : ∀ e, jdet ((rectSetup exactN 0 (.constant ⟨0, 0, 0⟩) (fun n => if n = 0 then 4 else 1)).shape e).tri = 3 := by
    intro e
    rw [rect_shape]
    split_ifs <;> norm_num [rectNodes, Shape.tri, P3.flat, jdet, Geometry.det, jac]
  have hb : ∀ e, ((rectSetup exactN 0 (.constant ⟨0, 0, 0⟩) (fun n => if n = 0 then 4 else 1)).dat e).bath 0 =
      (if e = 0 then 4 else 2) * exactN.basis.minv 0 := by
    intro e
    show Elt.intPhi exactN ⟨0, _⟩ _ 0 * (exactN.basis.minv 0 / |jdet ((rectSetup exactN 0 (.constant ⟨0, 0, 0⟩) (fun n => if n = 0 then 4 else 1)).shape e).tri|) = _
    rw [hj]
    simp only [Elt.intPhi, Elt.gps, exact_rules.phi0, hj]
    rw [rect_shape]
    by_cases h : e = 0
    · rw [if_pos h, if_pos h]
      norm_num [exactN, psi, Shape.zs, rectNodes]
      ring
    · rw [if_neg h, if_neg h]
      norm_num [exactN, psi, Shape.zs, rectNodes]
      ring
  rw [hb, hb]
  intro h
  apply hm
  norm_num at h
  linarith

end Verif.Swe.Props
