import Verif.Props.Sphere
import Verif.Props.LakeRun
import Verif.Props.SweProgramCase

/-!
# C108, C109: what goes wrong on the sphere

One element of degree one between 60 degrees south and north on a sphere of radius 1, with reference latitude zero: at the integration points the projection
factor is 1 or 2.
-/

namespace Verif.Swe.Props
open Verif.Geometry Verif.Geometry.Props Verif.Element Verif.Stepper MvPolynomial

/-- Around the equator; longitudes from -1 to 1 in radians. -/
noncomputable def bigTri : Tri ℝ := ⟨⟨-1, -(Real.pi / 3)⟩, ⟨1, -(Real.pi / 3)⟩, ⟨-1, Real.pi / 3⟩⟩

noncomputable def bigDat (b : ℝ) (_ : ℕ) : EltData ℝ := ⟨⟨1, bigTri⟩, fun d => if d = 0 then b else 0, ⟨false, 0, 0, ⟨0, 0⟩, ⟨0, 0⟩, ⟨0, 0⟩⟩⟩

/-- Unit sphere. -/
noncomputable def unitSphere : Spherical ℝ := ⟨true, 1, 0, 0⟩

noncomputable def sphereEnv (c : ℝ) : Env ℝ :=
  { plainEnv exactN Real.sqrt with cos := Real.cos, pi := Real.pi, sp := spOf Real.cos Real.pi unitSphere, bcq := fun _ _ => ⟨0, 0, c⟩ }

/-- One element with the same condition on all sides. -/
def oneMesh (k : BndKind ℝ) : Mesh ℝ := ⟨[0], [], [⟨0, 0, k⟩, ⟨0, 1, k⟩, ⟨0, 2, k⟩], []⟩

/-- A uniform state. -/
noncomputable def still (L c : ℝ) : State ℝ := fun _ var d => if d = 0 then ![L, 0, c] var else 0

theorem big_ccw : 0 < jdet bigTri := by
  have := Real.pi_pos
  simp only [jdet, Geometry.det, jac, bigTri]
  nlinarith

theorem big_factor (y : ℝ) : spOf Real.cos Real.pi unitSphere ⟨y, 0⟩ = 1 ∧ ∀ x, spOf Real.cos Real.pi unitSphere ⟨x, Real.pi / 3⟩ = 2 ∧
    spOf Real.cos Real.pi unitSphere ⟨x, -(Real.pi / 3)⟩ = 2 := by
  have h := Real.cos_pi_div_three
  simp only [spOf, unitSphere, if_true, zero_mul, zero_div, Real.cos_zero, div_one, h, Real.cos_neg]
  norm_num

theorem linear_zero (x : ℝ) : Basis.linear 0 0 x = x := by
  have h1 : Basis.usub 0 0 = 0 := by decide
  have h2 : Basis.u32 (0 + 0 + 2) = 2 := by decide
  unfold Basis.linear
  rw [h1, h2]
  push_cast
  ring

theorem phi_two {z : P2 ℝ} (hz : z.y ≠ 1 ∨ z = ⟨-1, 1⟩) : exactN.basis.phi 2 z = (1 + 2 * z.x + z.y) / 2 := by
  have h := (Basis.Props.first_dofs Basis.Props.rounding_id).2.2
  simp only [exactN, dubiner, h, Basis.phi, Basis.n1]
  rcases hz with hz | rfl
  · have hz' : 1 - z.y ≠ 0 := fun h => hz (by linarith)
    simp only [hz, if_false, Basis.jacobi, linear_zero, one_ne_zero, if_true, pow_one]
    field_simp
    ring
  · simp; norm_num

theorem dphi_two {z : P2 ℝ} (hz : z.y ≠ 1) : exactN.basis.dphi1 2 z = 1 ∧ exactN.basis.dphi2 2 z = 1 / 2 := by
  have h := (Basis.Props.first_dofs Basis.Props.rounding_id).2.2
  have hz' : 1 - z.y ≠ 0 := fun h => hz (by linarith)
  have h2 : Basis.u32 (0 + 0 + 1 + 1) = 2 := by decide
  simp only [exactN, dubiner, h, Basis.dphi1, Basis.dphi2, Basis.n1, hz, if_false, Basis.jacobi, Basis.jacobiDeriv, linear_zero, h2, one_ne_zero, if_true, pow_one]
  constructor
  · push_cast
    field_simp
  · push_cast
    simp only [zpow_zero]
    field_simp
    ring

theorem still_rest (L b : ℝ) : AtRest (bigDat b) [0] L (still L 0) := by
  intro e _ d _
  simp only [still]
  refine ⟨?_, ?_, ?_⟩ <;> split_ifs <;> rfl

theorem still_value (L b : ℝ) (z : P2 ℝ) : qAt exactN (bigDat b 0).elt (still L 0 0) z = ⟨L, 0, 0⟩ :=
  rest_value (v := sphereEnv 0) (dat := bigDat b) (m := oneMesh .land) exact_rules (still_rest L b) (by simp [oneMesh]) z

theorem big_bath (b : ℝ) (z : P2 ℝ) : (bigDat b 0).elt.value exactN (bigDat b 0).bath z = b :=
  const_value (v := sphereEnv 0) exact_rules (fun _ _ => rfl) z

theorem big_slope (b : ℝ) (dir : ℕ) {z : P2 ℝ} (hz : z.y ≠ 1 ∨ z = ⟨-1, 1⟩) : (bigDat b 0).elt.deriv exactN dir (bigDat b 0).bath z = 0 :=
  const_deriv (v := sphereEnv 0) (c := b) exact_rules (fun _ _ => rfl) dir hz

/-- The flux at the boundary has the mean of the scaled and the unscaled pressure. -/
theorem still_flux (L t ramp : ℝ) (gp : ℕ) (a : Aux ℝ) (n g : P2 ℝ) : bndFlux (sphereEnv 0) t ramp .land gp ⟨L, 0, 0⟩ a n g =
    ⟨0, (a.sp + 1) / 2 * (10 * (L ^ 2 / 2 + L * a.bath)) * n.x, 10 * (L ^ 2 / 2 + L * a.bath) * n.y⟩ := by
  simp only [bndFlux, landFlux, rest_land]
  ext <;> simp [llf, fnIn, fnEx, pe, Q.smul, add_ze, add_qx, add_qy, sub_ze, sub_qx, sub_qy, sphereEnv, plainEnv] <;> ring

/-- What a side subtracts from the second mode of the discharge in x. -/
theorem still_side (L b : ℝ) {f : ℕ} (hf : f < 3) : (⟨0, f, .land⟩ : Bnd ℝ).term (sphereEnv 0) (bigDat b) 0 1 (still L 0) 1 2 =
    10 * (L ^ 2 / 2 + L * b) * ((edge bigTri f).y / 2) *
      (([(1 / 3, -1), (4 / 3, 0), (1 / 3, 1)] : List (ℝ × ℝ)).map fun wx =>
        wx.1 * ((spOf Real.cos Real.pi unitSphere (localToGlobal bigTri (boundaryToMaster f wx.2)) + 1) / 2) * exactN.basis.phi 2 (boundaryToMaster f wx.2)).sum := by
  have hs := (snormal_eq (v := sphereEnv 0) real_isSqrt big_ccw hf).1
  have hx : surfaceJ Real.sqrt bigTri f * (normal Real.sqrt bigTri f).x = (edge bigTri f).y / 2 := congrArg P2.x hs
  rw [← hx]
  have hN : (sphereEnv 0).N = exactN := rfl
  have hv : ∀ z, qAt exactN (bigDat b 0).elt (still L 0 0) z = ⟨L, 0, 0⟩ := still_value L b
  have ht : (bigDat b 0).elt.tri = bigTri := rfl
  have hq : (sphereEnv 0).sq = Real.sqrt := rfl
  have hsp : (sphereEnv 0).sp = spOf Real.cos Real.pi unitSphere := rfl
  have hl : faceRule exactN (bigDat b 0).elt.p = [(1 / 3, -1), (4 / 3, 0), (1 / 3, 1)] := rfl
  simp only [Bnd.term, Elt.intFace, hN, hv, still_flux, Swe.comp, Swe.auxAt, big_bath, ht, hq, hsp, hl]
  simp only [List.length_cons, List.length_nil, List.range_succ, List.range_zero, List.nil_append, List.cons_append, List.map_cons, List.map_nil, List.sum_cons,
    List.sum_nil, facePt, weight, List.getD_cons_zero, List.getD_cons_succ, Matrix.cons_val_one, Matrix.cons_val_zero]
  ring

theorem big_point (z : P2 ℝ) : localToGlobal bigTri z = ⟨z.x, Real.pi / 3 * z.y⟩ := by
  simp only [localToGlobal, bigTri, psi, P2.mk.injEq]
  constructor <;> simp <;> ring

theorem big_edges : (edge bigTri 0).y = 2 * (Real.pi / 3) ∧ (edge bigTri 1).y = -2 * (Real.pi / 3) ∧ (edge bigTri 2).y = 0 := by
  simp only [edge, vertex, bigTri]
  refine ⟨?_, ?_, ?_⟩ <;> simp <;> ring

theorem factor_mid : spOf Real.cos Real.pi unitSphere ⟨-1, 0⟩ = 1 ∧ spOf Real.cos Real.pi unitSphere ⟨0, 0⟩ = 1 := ⟨(big_factor _).1, (big_factor _).1⟩

theorem factor_ends (x : ℝ) : spOf Real.cos Real.pi unitSphere ⟨x, Real.pi / 3⟩ = 2 ∧ spOf Real.cos Real.pi unitSphere ⟨x, -(Real.pi / 3)⟩ = 2 := (big_factor 0).2 x

theorem land_sides (L b : ℝ) :
    (⟨0, 0, .land⟩ : Bnd ℝ).term (sphereEnv 0) (bigDat b) 0 1 (still L 0) 1 2 = 10 * (L ^ 2 / 2 + L * b) * (Real.pi / 3) * (7 / 6) ∧
    (⟨0, 1, .land⟩ : Bnd ℝ).term (sphereEnv 0) (bigDat b) 0 1 (still L 0) 1 2 = 10 * (L ^ 2 / 2 + L * b) * (Real.pi / 3) * (7 / 6) ∧
    (⟨0, 2, .land⟩ : Bnd ℝ).term (sphereEnv 0) (bigDat b) 0 1 (still L 0) 1 2 = 0 := by
  rw [still_side L b (by decide), still_side L b (by decide), still_side L b (by decide)]
  have p1 : localToGlobal bigTri ⟨1, -1⟩ = ⟨1, -(Real.pi / 3)⟩ := by rw [big_point]; simp
  have p2 : localToGlobal bigTri ⟨0, 0⟩ = ⟨0, 0⟩ := by rw [big_point]; simp
  have p3 : localToGlobal bigTri ⟨-1, 1⟩ = ⟨-1, Real.pi / 3⟩ := by rw [big_point]; simp
  have p4 : localToGlobal bigTri ⟨-1, 0⟩ = ⟨-1, 0⟩ := by rw [big_point]; simp
  have p5 : localToGlobal bigTri ⟨-1, -1⟩ = ⟨-1, -(Real.pi / 3)⟩ := by rw [big_point]; simp
  have b0 : ∀ x : ℝ, boundaryToMaster 0 x = ⟨-x, x⟩ := fun x => by simp [boundaryToMaster]
  have b1 : ∀ x : ℝ, boundaryToMaster 1 x = ⟨-1, -x⟩ := fun x => by simp [boundaryToMaster]
  have f1 : exactN.basis.phi 2 ⟨1, -1⟩ = 1 := by rw [phi_two (Or.inl (by norm_num))]; norm_num
  have f2 : exactN.basis.phi 2 ⟨0, 0⟩ = 1 / 2 := by rw [phi_two (Or.inl (by norm_num))]; norm_num
  have f3 : exactN.basis.phi 2 ⟨-1, 1⟩ = 0 := by rw [phi_two (Or.inr rfl)]; norm_num
  have f4 : exactN.basis.phi 2 ⟨-1, 0⟩ = -1 / 2 := by rw [phi_two (Or.inl (by norm_num))]; norm_num
  have f5 : exactN.basis.phi 2 ⟨-1, -1⟩ = -1 := by rw [phi_two (Or.inl (by norm_num))]; norm_num
  refine ⟨?_, ?_, ?_⟩
  · simp only [List.map_cons, List.map_nil, List.sum_cons, List.sum_nil, b0, neg_neg, neg_zero, p1, p2, p3, f1, f2, f3, factor_mid, factor_ends, big_edges]
    ring
  · simp only [List.map_cons, List.map_nil, List.sum_cons, List.sum_nil, b1, neg_neg, neg_zero, p3, p4, p5, f3, f4, f5, factor_mid, factor_ends, big_edges]
    ring
  · simp [big_edges]

/-- What the element adds. -/
theorem still_volume (L b : ℝ) : volumeTerm (sphereEnv 0) (bigDat b 0) (still L 0 0) 1 2 = 10 * (L ^ 2 / 2 + L * b) * (Real.pi / 3) * (8 / 3) := by
  have hN : (sphereEnv 0).N = exactN := rfl
  have hv : ∀ z, qAt exactN (bigDat b 0).elt (still L 0 0) z = ⟨L, 0, 0⟩ := still_value L b
  have ht : (bigDat b 0).elt.tri = bigTri := rfl
  have hsp : (sphereEnv 0).sp = spOf Real.cos Real.pi unitSphere := rfl
  have hg : (sphereEnv 0).src.g = 10 := rfl
  have hl : (bigDat b 0).elt.gps exactN = [(2 / 3, ⟨-1, 0⟩), (2 / 3, ⟨0, -1⟩), (2 / 3, ⟨0, 0⟩)] := rfl
  have p1 : localToGlobal bigTri ⟨0, -1⟩ = ⟨0, -(Real.pi / 3)⟩ := by rw [big_point]; simp
  have p2 : localToGlobal bigTri ⟨0, 0⟩ = ⟨0, 0⟩ := by rw [big_point]; simp
  have p4 : localToGlobal bigTri ⟨-1, 0⟩ = ⟨-1, 0⟩ := by rw [big_point]; simp
  have d1 := dphi_two (z := ⟨0, -1⟩) (by norm_num)
  have d2 := dphi_two (z := ⟨0, 0⟩) (by norm_num)
  have d3 := dphi_two (z := ⟨-1, 0⟩) (by norm_num)
  have hj : |jdet bigTri| = jdet bigTri := abs_of_pos big_ccw
  have e0 : entry (jinv bigTri) 0 0 * jdet bigTri = Real.pi / 3 := by
    have h := big_ccw.ne'
    simp only [Element.entry, jinv, Geometry.inv, if_true, jdet] at h ⊢
    rw [div_mul_cancel₀ _ h]
    simp only [jac, bigTri]
    ring
  have e1 : entry (jinv bigTri) 1 0 * jdet bigTri = 0 := by
    simp [Element.entry, jinv, Geometry.inv, jac, bigTri]
  simp only [volumeTerm, Elt.intDPhi, hN, hv, Swe.comp, Swe.auxAt, big_bath, ht, hsp, hl, hg, fluxX, fluxY, pe, List.map_cons, List.map_nil, List.sum_cons, List.sum_nil,
    Matrix.cons_val_one, Matrix.cons_val_zero, p1, p2, p4, factor_mid, factor_ends, d1, d2, d3, hj]
  linear_combination (10 * (L ^ 2 / 2 + L * b) * (8 / 3)) * e0 + (10 * (L ^ 2 / 2 + L * b) * (4 / 3)) * e1

theorem still_source (L b t : ℝ) : sourceTerm (sphereEnv 0) (bigDat b 0) t (still L 0 0) 1 2 = 0 := by
  have hN : (sphereEnv 0).N = exactN := rfl
  have hl : (bigDat b 0).elt.gps exactN = [(2 / 3, ⟨-1, 0⟩), (2 / 3, ⟨0, -1⟩), (2 / 3, ⟨0, 0⟩)] := rfl
  have h1 := fun dir => big_slope b dir (z := ⟨-1, 0⟩) (Or.inl (by norm_num))
  have h2 := fun dir => big_slope b dir (z := ⟨0, -1⟩) (Or.inl (by norm_num))
  have h3 := fun dir => big_slope b dir (z := ⟨0, 0⟩) (Or.inl (by norm_num))
  simp only [sourceTerm, Elt.intPhi, hN, hl, List.map_cons, List.map_nil, List.sum_cons, List.sum_nil, h1, h2, h3]
  simp [getSource, sphereEnv, plainEnv, Swe.comp]

/-- **C109**, violated (counterexample): flat bed, land all around, water at rest at a level other than zero: the water begins to move. -/
theorem level_wrong (junk : State ℝ) : localRhs (sphereEnv 0) (bigDat 9) (oneMesh .land) (fun _ => true) 0 1 (still 1 0) junk 0 1 2 = 95 * Real.pi / 9 ∧
    95 * Real.pi / 9 ≠ 0 := by
  refine ⟨?_, by have := Real.pi_pos; positivity⟩
  rw [localRhs_at _ _ _ (by simp [oneMesh])]
  obtain ⟨h0, h1, h2⟩ := land_sides 1 9
  simp only [oneMesh, faceTerms, bndTerms, List.flatMap_nil, List.flatMap_cons, if_true, List.nil_append, List.cons_append, List.append_nil, List.map_cons, List.map_nil,
    List.sum_cons, List.sum_nil, Pi.sub_apply, Pi.add_apply, List.mem_singleton, h0, h1, h2, still_volume, still_source, Pi.zero_apply]
  ring

/-! ### The uniform northward stream -/

theorem north_mesh (c b t ramp : ℝ) (hb : 0 < b) : StreamMesh (flatEnv (sphereEnv c)) (bigDat b) (oneMesh .function) 1 ⟨0, 0, c⟩ b t ramp where
  sqrt := real_isSqrt
  sp _ := rfl
  source h := by simp [flatEnv, sphereEnv, plainEnv] at h
  friction := rfl
  nodup := by simp [oneMesh]
  ccw _ _ := big_ccw
  degree _ _ := le_rfl
  cover e he := by
    obtain rfl : e = 0 := by simpa [oneMesh] using he
    decide
  ends i hi := by simp [oneMesh] at hi
  edges i hi := by simp [oneMesh] at hi
  internal i hi := by simp [oneMesh] at hi
  bed _ _ _ _ := rfl
  wet := by simpa using hb
  owner x hx := by
    simp only [oneMesh, List.mem_cons, List.not_mem_nil, or_false] at hx
    rcases hx with rfl | rfl | rfl <;> simp [oneMesh]
  follows x hx := by
    simp only [oneMesh, List.mem_cons, List.not_mem_nil, or_false] at hx
    rcases hx with rfl | rfl | rfl <;> exact fun _ => rfl

/-- **C108**, violated (counterexample): the program holds steady a stream that converges everywhere north of the equator, so that on the sphere the level would
have to rise there. -/
theorem north_wrong {c b : ℝ} (hc : 0 < c) (hb : 0 < b) (t ramp : ℝ) (junk : State ℝ) :
    (∀ var, ∀ dof < 3, localRhs (sphereEnv c) (bigDat b) (oneMesh .function) (fun _ => true) t ramp (still 0 c) junk 0 var dof = 0) ∧
    ∀ l p, 0 < p → p < Real.pi / 2 → sphereDiv 1 (fun _ _ => 0) (fun _ _ => c) l p < 0 := by
  constructor
  · intro var dof hd
    refine north_steady (v := sphereEnv c) (c := c) exact_rules (north_mesh c b t ramp hb) (fun e _ d _ var => ?_) (fun _ _ => rfl) junk (by simp [oneMesh]) (show dof < ndof 1 from hd) var
    fin_cases var <;> simp [still, Swe.comp]
  · intro l p h0 h1
    rw [north_converges one_ne_zero (Real.cos_pos_of_mem_Ioo ⟨by linarith, h1⟩).ne', div_one, neg_lt_zero]
    exact mul_pos hc (Real.tan_pos_of_pos_of_lt_pi_div_two h0 h1)

/-! ### Examples -/

/-- On the sphere a lake at level zero stays at rest although the factor varies. -/
example (junk : State ℝ) (dof : ℕ) (hd : dof < 3) : localRhs (sphereEnv 0) (bigDat 9) (oneMesh .function) (fun _ => true) 0 1 (still 0 0) junk 0 1 dof = 0 ∧
    (sphereEnv 0).sp ⟨0, 0⟩ ≠ (sphereEnv 0).sp ⟨0, Real.pi / 3⟩ := by
  refine ⟨(north_steady (v := sphereEnv 0) (c := 0) exact_rules (north_mesh 0 9 0 1 (by norm_num)) (fun e _ d _ var => by fin_cases var <;> simp [still, Swe.comp])
    (fun _ _ => rfl) junk (by simp [oneMesh]) (show dof < ndof 1 from hd) 1), ?_⟩
  rw [show (sphereEnv 0).sp = spOf Real.cos Real.pi unitSphere from rfl, factor_mid.2, (factor_ends 0).1]
  norm_num

open Verif.QuadMesh (generate file) in
open Verif.Gn.Props in
/-- The hypotheses of `program_sphere_partial` and `sphere_good` can be satisfied: 60 by 40 rectangles of a degree each, written by the generator and read as longitudes and
latitudes, over a parabolic bed. -/
example (tab : Stepper.Tableau) (htab : Stepper.tableau 3 3 = some tab) (dt : ℝ) (junk : State ℝ) :
    let g : Program ℝ := ⟨{ plainEnv cubicN Real.sqrt with cos := Real.cos, pi := Real.pi }, fun x => x,
      ⟨true, ⟨true, 6378206, 30, 20⟩, .constant ⟨0, 0, 0⟩, none, false, some (1 / 10)⟩, 2, ⟨[], [], []⟩⟩
    ∃ M T, generate ⟨0, 0, 60, 0, 60, 40, 0, 40⟩ (fun x _ => 5 + x ^ 2) 1 60 40 = .ok M ∧ Adcirc.read (file 7 60 40 M [0, 0, 0, 0]) = some T ∧
      ∃ S mesh, g.start T (MeshMeta.edgeDict T.elements) = .ok (S, mesh) ∧
        ∃ s sl', runSerial S.v S.dat mesh tab 3 dt ⟨S.wdParams (fun _ _ => 0), none⟩ junk (fun k => k * dt) (fun _ => 1) 100
            ⟨List.replicate 4 ⟨S.q0, junk⟩, 0, S.wet0, false⟩ = .ok s ∧ s.slots[s.stage]? = some sl' ∧ AtRest S.dat mesh.elts 0 sl'.q := by
  intro g
  obtain ⟨M, T, hM, hT, hgood, hnd, hz, hnodes, htypes⟩ := generated_good 7 (fun x _ => 5 + x ^ 2) 1 60 40 0 0 60 40 [0, 0, 0, 0] (by omega) (by omega) (by omega) (by norm_num)
    (by norm_num) (by norm_num) (by norm_num) rfl (by simp)
  have hzero : ∀ t, t ≠ 0 → ∀ e k a b, MeshMeta.Props.IsFace T e k a b → Alone T e k a b → Adcirc.getIbtype T a b = .ok t → False := by
    intro t h0 e k a b h1 h2 h3
    have := htypes e k a b t h1 h2 h3
    simp at this
    exact h0 this
  have hfed : Fed g T := by
    refine ⟨hnodes, ?_, ?_, ?_⟩
    · intro e k a b h1 h2 h3
      exact (hzero 1 (by omega) e k a b h1 h2 h3).elim
    · intro e k a b h1 h2 h3
      exact (hzero 2 (by omega) e k a b h1 h2 h3).elim
    · simp [g]
  have hsg : GoodFile (finalPos g T) T := by
    refine sphere_good rfl rfl rfl (show (0 : ℝ) < 6378206 by norm_num) (show |(20 : ℝ)| < 90 by norm_num [abs_of_pos]) (hgood _ fun k x y z h => ?_)
    simp only [nodeAt, MeshMeta.lookup_of_mem hnd h]
    rfl
  obtain ⟨S, mesh, h4, -, h5⟩ := program_sphere_partial (g := g) cubic_rules cubic_orthogonal cubic_symmetric (show 2 ≤ 3 by omega) (show 1 ≤ 2 by omega) real_isSqrt hsg hfed
    (by simp [Silent, g]) (Or.inl rfl)
    (fun ho hh => by
      obtain rfl : (1 / 10 : ℝ) = ho := by simpa [g] using hh
      refine ⟨by norm_num, ?_⟩
      rintro ⟨k, x, y, z⟩ h
      rw [show (k, x, y, z).2.2.2 = z from rfl, hz k x y z h]
      have ht := (threshold_range (K := ℝ) (ho := 1 / 10) (by norm_num)).2
      have := sq_nonneg x
      linarith) (List.Perm.refl _) htab (by decide) dt none (fun _ _ => 0) junk (fun k => k * dt) (fun _ => 1) (fun hs => by simp [g, plainEnv] at hs)
    (by
      rintro ⟨e, k, a, b, h1, h2, h3⟩
      exact (hzero 3 (by omega) e k a b h1 h2 h3).elim)
  obtain ⟨s, sl', h6, -, h7, h8, -⟩ := h5 (List.replicate 4 ⟨S.q0, junk⟩) junk (by simp) (by simp) 100
  exact ⟨M, T, hM, hT, S, mesh, h4, s, sl', h6, h7, h8⟩

end Verif.Swe.Props
