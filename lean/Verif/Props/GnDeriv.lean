import Verif.Lemmas.GnDeriv

/-!
# C91: the derivatives in the dispersive correction

The dispersive correction needs first derivatives of the water level, first and second derivatives of the velocity and up to third derivatives of the
bathymetry. For a continuous field that is a polynomial in each element, the computed derivative is the derivative, up to the error of the integration
rules (`grad_near`), and exactly with exact rules (`grad_exact`). For a field that is one polynomial on all of the mesh this can be repeated, so the first,
second and third derivatives are exact (`bath_exact`, `velocity_exact`).
-/

namespace Verif.Gn.Props
open Verif.Geometry Verif.Geometry.Props Verif.Element Verif.Swe Verif.Swe.Props Verif.Tri MvPolynomial

/-- Points at which the basis is defined by its formula. -/
def Reg (z : P2 ℝ) : Prop := z.y ≠ 1 ∨ z = ⟨-1, 1⟩

/-- A mesh of counterclockwise triangles of degree at most `P`; each face of each element belongs to one interface or boundary; the two sides of an interface
are the same edge, run through in opposite directions. -/
structure GradMesh (dat : ℕ → EltData ℝ) (m : Mesh ℝ) (P : ℕ) : Prop where
  ccw : ∀ e ∈ m.elts, 0 < jdet (dat e).elt.tri
  degree : ∀ e ∈ m.elts, (dat e).elt.p ≤ P
  cover : ∀ e ∈ m.elts, (facesOf m e).Perm [0, 1, 2]
  ends : ∀ i ∈ m.ints, i.ein ∈ m.elts ∧ i.eex ∈ m.elts
  edges : ∀ i ∈ m.ints, startOf (dat i.eex).elt.tri i.fex = endOf (dat i.ein).elt.tri i.fin ∧ endOf (dat i.eex).elt.tri i.fex = startOf (dat i.ein).elt.tri i.fin
  owner : ∀ b ∈ m.bnds, b.e ∈ m.elts

/-- The row is the polynomial `G e` in the element, and continuous at the Gauss points of interfaces. -/
structure Piecewise (v : Env ℝ) (dat : ℕ → EltData ℝ) (m : Mesh ℝ) (R : Row ℝ) (G : ℕ → MvPolynomial (Fin 2) ℝ) : Prop where
  poly : ∀ e ∈ m.elts, ∀ z, Reg z → R e z = eval ![z.x, z.y] (G e)
  degree : ∀ e ∈ m.elts, (G e).totalDegree ≤ (dat e).elt.p
  cont : ∀ i ∈ m.ints, ∀ gp < (i.rule v dat).length,
    R i.ein (facePt (i.rule v dat) i.fin gp) = R i.eex (facePt (i.rule v dat) i.fex ((i.rule v dat).length - gp - 1))

/-- Derivative in direction `dir` in space of a polynomial in the coordinates of the master triangle. -/
noncomputable def dPoly (t : Tri ℝ) (dir : ℕ) (G : MvPolynomial (Fin 2) ℝ) : MvPolynomial (Fin 2) ℝ :=
  C (entry (jinv t) 0 dir) * pderiv 0 G + C (entry (jinv t) 1 dir) * pderiv 1 G

/-- Factor of `ε` in the error of a right-hand side. -/
noncomputable def gradBound (v : Env ℝ) (F : ℕ → MvPolynomial (Fin 2) ℝ) (G : MvPolynomial (Fin 2) ℝ) (t : Tri ℝ) (dof : ℕ) : ℝ :=
  let J := surfaceJ v.sq t
  J 1 * absCoeffs (G * pderiv 0 (F dof)) + J 2 * absCoeffs (G * pderiv 1 (F dof)) + (J 0 + J 1 + J 2) * absCoeffs (G * F dof)

section
variable {v : Env ℝ} {dat : ℕ → EltData ℝ} {m : Mesh ℝ} {F G : ℕ → MvPolynomial (Fin 2) ℝ} {P : ℕ} {ε : ℝ} {R : Row ℝ}

theorem face_lt (hm : GradMesh dat m P) {e f : ℕ} (he : e ∈ m.elts) (h : f ∈ facesOf m e) : f < 3 := by
  have := (hm.cover e he).mem_iff.mp h
  simp at this; omega

theorem int_faces (hm : GradMesh dat m P) {i : Iface ℝ} (hi : i ∈ m.ints) : i.fin < 3 ∧ i.fex < 3 := by
  obtain ⟨h1, h2⟩ := hm.ends i hi
  constructor
  · exact face_lt hm h1 (List.mem_append_left _ (List.mem_flatMap.mpr ⟨i, hi, by simp⟩))
  · exact face_lt hm h2 (List.mem_append_left _ (List.mem_flatMap.mpr ⟨i, hi, by simp⟩))

theorem edge_opp (hm : GradMesh dat m P) {i : Iface ℝ} (hi : i ∈ m.ints) :
    Swe.Props.edge (dat i.eex).elt.tri i.fex = ⟨-(Swe.Props.edge (dat i.ein).elt.tri i.fin).x, -(Swe.Props.edge (dat i.ein).elt.tri i.fin).y⟩ := by
  obtain ⟨f1, f2⟩ := int_faces hm hi
  obtain ⟨e1, e2⟩ := hm.edges i hi
  unfold Swe.Props.edge
  rw [(start_vertex _ f1).1, (start_vertex _ f1).2, (start_vertex _ f2).1, (start_vertex _ f2).2, e1, e2]
  simp

/-- A face with values of the polynomial `G` times a component of the normal. -/
theorem face_poly (hR : Rules v.N F P ε) {p dof : ℕ} (hp : p ≤ P) (hdof : dof < ndof p) {f : ℕ} (r : List (ℝ × ℝ)) (G : MvPolynomial (Fin 2) ℝ) (c J : ℝ) (X : ℕ → ℝ)
    (hX : ∀ gp < r.length, X gp = eval ![(facePt r f gp).x, (facePt r f gp).y] G * c) :
    Elt.intFace v.N r f J X dof = J * c * faceL r f (G * F dof) := by
  unfold Elt.intFace
  have h1 : ((List.range r.length).map fun gp => X gp * (v.N.basis.phi dof (facePt r f gp) * (weight r gp * J))) =
      (List.range r.length).map fun gp => (fun wx : ℝ × ℝ => J * c * (wx.1 * eval ![(boundaryToMaster f wx.2).x, (boundaryToMaster f wx.2).y]
        (G * F dof))) (r.getD gp (0, 0)) := by
    refine List.map_congr_left fun gp hgp => ?_
    rw [hX gp (List.mem_range.mp hgp)]
    simp only [facePt, weight]
    rw [(hR.basis dof (lt_of_lt_of_le hdof (ndof_mono hp)) _ (face_regular f _)).1]
    simp only [map_mul]
    ring
  rw [h1, range_getD r fun wx : ℝ × ℝ => J * c * (wx.1 * eval ![(boundaryToMaster f wx.2).x, (boundaryToMaster f wx.2).y] (G * F dof))]
  simp only [faceL, LinearMap.coe_mk, AddHom.coe_mk]
  rw [← List.sum_map_mul_left]

theorem nd_mul (J : ℝ) (n : P2 ℝ) (dir : ℕ) : J * nd n dir = nd ⟨J * n.x, J * n.y⟩ dir := by
  unfold nd; split <;> rfl

/-- The form of a face term. -/
theorem gTerms_canon (hR : Rules v.N F P ε) (hm : GradMesh dat m P) (hG : Piecewise v dat m R G) (dir : ℕ) {e : ℕ} (he : e ∈ m.elts) {dof : ℕ}
    (hdof : dof < ndof (dat e).elt.p) {x : ℕ × (ℕ → ℝ)} (hx : x ∈ gTerms v dat m R dir e) :
    ∃ p' ≤ P, (dat e).elt.p ≤ p' ∧ x.1 < 3 ∧ x.2 dof = nd (snormal v (dat e).elt.tri x.1) dir * faceL (v.N.line (2 * p' + 1)) x.1 (G e * F dof) := by
  have hlt : x.1 < 3 := face_lt hm he (by rw [← gTerms_faces v dat m R dir]; exact List.mem_map_of_mem hx)
  unfold gTerms at hx
  rcases List.mem_append.mp hx with hx' | hx' <;> clear hx
  · obtain ⟨i, hi, hx⟩ := List.mem_flatMap.mp hx'
    clear hx'
    obtain ⟨h1, h2⟩ := hm.ends i hi
    refine ⟨max (dat i.ein).elt.p (dat i.eex).elt.p, max_le (hm.degree _ h1) (hm.degree _ h2), ?_⟩
    rcases List.mem_append.mp hx with hx | hx
    · clear * - hx hlt hR hm hG he hdof hi h1 h2
      split at hx
      · next h =>
        subst h; obtain rfl := List.mem_singleton.mp hx
        refine ⟨le_max_left _ _, hlt, ?_⟩
        simp only [gIn]
        rw [face_poly hR (hm.degree _ h1) hdof (i.rule v dat) (G i.ein) (nd (normal v.sq (dat i.ein).elt.tri i.fin) dir)]
        · rw [Iface.J, nd_mul]; rfl
        · intro gp hgp
          unfold hatIn
          rw [← hG.cont i hi gp hgp, hG.poly _ h1 (facePt _ _ gp) (face_regular _ _)]
          ring
      · cases hx
    · clear * - hx hlt hR hm hG he hdof hi h1 h2
      split at hx
      · next h =>
        subst h; obtain rfl := List.mem_singleton.mp hx
        refine ⟨le_max_right _ _, hlt, ?_⟩
        simp only [gEx]
        obtain ⟨o1, o2⟩ := opposite (v := v) (hm.ccw _ h1) (hm.ccw _ h2) (edge_opp hm hi)
        rw [← o1]
        rw [face_poly hR (hm.degree _ h2) hdof (i.rule v dat) (G i.eex) (nd (normal v.sq (dat i.eex).elt.tri i.fex) dir)]
        · rw [Iface.J, ← o2, nd_mul]; rfl
        · intro gp hgp
          unfold hatEx hatIn
          rw [hG.cont i hi _ (by omega), show (i.rule v dat).length - ((i.rule v dat).length - gp - 1) - 1 = gp by omega,
            hG.poly _ h2 (facePt _ _ gp) (face_regular _ _)]
          ring
      · cases hx
  · obtain ⟨b, hb, hx⟩ := List.mem_flatMap.mp hx'
    clear hx'
    split at hx
    · next h =>
      subst h; obtain rfl := List.mem_singleton.mp hx
      refine ⟨(dat b.e).elt.p, hm.degree _ he, le_rfl, hlt, ?_⟩
      simp only [gBd]
      rw [face_poly hR (hm.degree _ he) hdof _ (G b.e) (nd (normal v.sq (dat b.e).elt.tri b.f) dir)]
      · rw [nd_mul]; rfl
      · intro gp _
        rw [hG.poly _ he (facePt _ _ gp) (face_regular _ _)]
    · cases hx

theorem interior_poly (hR : Rules v.N F P ε) (hs : IsSqrt v.sq) (hm : GradMesh dat m P) (hG : Piecewise v dat m R G) {dir : ℕ} (hdir : dir < 2) {e : ℕ} (he : e ∈ m.elts) {dof : ℕ}
    (hdof : dof < ndof (dat e).elt.p) :
    -(dat e).elt.intDPhi v.N dir (R e) dof =
      nd (snormal v (dat e).elt.tri 1) dir * triL (v.N.tri (2 * (dat e).elt.p)) (G e * pderiv 0 (F dof)) +
      nd (snormal v (dat e).elt.tri 2) dir * triL (v.N.tri (2 * (dat e).elt.p)) (G e * pderiv 1 (F dof)) := by
  have hd := hm.degree e he
  obtain ⟨j1, j2, j3, j4, _, _⟩ := jinv_normal hs (hm.ccw e he)
  have key : (dat e).elt.intDPhi v.N dir (R e) dof =
      |jdet (dat e).elt.tri| * entry (jinv (dat e).elt.tri) 0 dir * triL (v.N.tri (2 * (dat e).elt.p)) (G e * pderiv 0 (F dof)) +
      |jdet (dat e).elt.tri| * entry (jinv (dat e).elt.tri) 1 dir * triL (v.N.tri (2 * (dat e).elt.p)) (G e * pderiv 1 (F dof)) := by
    simp only [Elt.intDPhi, Elt.gps, triL, LinearMap.coe_mk, AddHom.coe_mk]
    rw [← List.sum_map_mul_left, ← List.sum_map_mul_left, ← List.sum_map_add]
    congr 1
    refine List.map_congr_left fun wz hwz => ?_
    have hz : wz.2.y ≠ 1 ∨ wz.2 = ⟨-1, 1⟩ := Or.inl (hR.pts _ hd wz hwz)
    obtain ⟨_, b1, b2⟩ := hR.basis dof (lt_of_lt_of_le hdof (ndof_mono hd)) wz.2 hz
    rw [hG.poly e he _ hz, b1, b2]
    simp only [map_mul]
    ring
  rw [key]
  rcases (by omega : dir = 0 ∨ dir = 1) with rfl | rfl
  · rw [j1, j2]; simp only [nd, if_true]; ring
  · rw [j3, j4]; simp only [nd, one_ne_zero, if_false]; ring

/-- The right-hand side is the integral of the derivative times the basis function. -/
theorem rhs_near (hR : Rules v.N F P ε) (hs : IsSqrt v.sq) (hm : GradMesh dat m P) (hG : Piecewise v dat m R G) {dir : ℕ} (hdir : dir < 2) {e : ℕ} (he : e ∈ m.elts) {dof : ℕ}
    (hdof : dof < ndof (dat e).elt.p) :
    |gradRhs v dat m R dir e dof - |jdet (dat e).elt.tri| * I2L (dPoly (dat e).elt.tri dir (G e) * F dof)| ≤ ε * gradBound v F (G e) (dat e).elt.tri dof := by
  have hd := hm.degree e he
  have hc := hm.ccw e he
  have hφ := hR.degree _ hd dof hdof
  have hGd := hG.degree e he
  set Q := G e * F dof with hQ
  have hdeg : Q.totalDegree ≤ 2 * (dat e).elt.p := (totalDegree_mul _ _).trans (by omega)
  set s : ℕ → ℝ := fun f => nd (snormal v (dat e).elt.tri f) dir with hsdef
  have hnb : ∀ f < 3, |s f| ≤ surfaceJ v.sq (dat e).elt.tri f := by
    intro f hf
    obtain ⟨h1, h2, h3⟩ := snormal_eq hs hc hf
    simp only [hsdef, h1, nd]
    split
    · exact h2
    · exact h3
  have hJ : ∀ f < 3, 0 ≤ surfaceJ v.sq (dat e).elt.tri f := fun f hf => le_trans (abs_nonneg _) (hnb f hf)
  obtain ⟨j1, j2, j3, j4, n0x, n0y⟩ := jinv_normal hs hc
  have h0 : s 0 = -s 1 - s 2 := by
    simp only [hsdef, nd]; split
    · exact n0x
    · exact n0y
  obtain ⟨g1, g2⟩ := green Q
  have ht1 := tri_approx (r := v.N.tri (2 * (dat e).elt.p)) (hR.tri _ hd) (G e * pderiv 0 (F dof)) ((totalDegree_mul _ _).trans (by have := pderiv_degree 0 (F dof); omega))
  have ht2 := tri_approx (r := v.N.tri (2 * (dat e).elt.p)) (hR.tri _ hd) (G e * pderiv 1 (F dof)) ((totalDegree_mul _ _).trans (by have := pderiv_degree 1 (F dof); omega))
  rw [gradRhs_at v dat m R dir he, interior_poly hR hs hm hG hdir he hdof]
  -- faces
  set T := (gTerms v dat m R dir e).map fun x => (x.1, x.2 dof) with hTdef
  have hnear : ∀ x ∈ T, |x.2 - s x.1 * faceI x.1 Q| ≤ surfaceJ v.sq (dat e).elt.tri x.1 * (ε * absCoeffs Q) := by
    intro x hx
    obtain ⟨y, hy, rfl⟩ := List.mem_map.mp hx
    obtain ⟨p', hp', hpp, hlt, hval⟩ := gTerms_canon hR hm hG dir he hdof hy
    simp only
    rw [hval, ← mul_sub, abs_mul]
    exact mul_le_mul (hnb _ hlt) (face_approx hlt (hR.line p' hp') Q (by omega)) (abs_nonneg _) (hJ _ hlt)
  have hn := sum_near T (fun f => s f * faceI f Q) (fun f => surfaceJ v.sq (dat e).elt.tri f * (ε * absCoeffs Q)) hnear
  have hperm : (T.map Prod.fst).Perm [0, 1, 2] := by
    rw [hTdef, List.map_map]
    rw [show (Prod.fst ∘ fun x : ℕ × (ℕ → ℝ) => (x.1, x.2 dof)) = Prod.fst from rfl, gTerms_faces]
    exact hm.cover e he
  have hs1 : ∀ g : ℕ → ℝ, (T.map fun x => g x.1).sum = g 0 + g 1 + g 2 := by
    intro g
    have := (hperm.map g).sum_eq
    rw [List.map_map] at this
    rw [show (fun x : ℕ × ℝ => g x.1) = g ∘ Prod.fst from rfl, this]
    simp; ring
  rw [hs1 fun f => s f * faceI f Q, hs1 fun f => surfaceJ v.sq (dat e).elt.tri f * (ε * absCoeffs Q)] at hn
  have hTs : ((gTerms v dat m R dir e).map fun x => x.2 dof).sum = (T.map Prod.snd).sum := by rw [hTdef, List.map_map]; rfl
  have htrue : |jdet (dat e).elt.tri| * I2L (dPoly (dat e).elt.tri dir (G e) * F dof) =
      -s 1 * I2L (pderiv 0 (G e) * F dof) - s 2 * I2L (pderiv 1 (G e) * F dof) := by
    have h1 : dPoly (dat e).elt.tri dir (G e) * F dof = entry (jinv (dat e).elt.tri) 0 dir • (pderiv 0 (G e) * F dof) +
        entry (jinv (dat e).elt.tri) 1 dir • (pderiv 1 (G e) * F dof) := by
      rw [dPoly, add_mul, mul_assoc, mul_assoc, C_mul', C_mul']
    rw [h1, map_add, map_smul, map_smul, smul_eq_mul, smul_eq_mul, mul_add, ← mul_assoc, ← mul_assoc]
    rcases (by omega : dir = 0 ∨ dir = 1) with rfl | rfl
    · rw [j1, j2]; simp only [hsdef, nd, if_true]; ring
    · rw [j3, j4]; simp only [hsdef, nd, one_ne_zero, if_false]; ring
  have hq1 : I2L (pderiv 0 Q) = I2L (pderiv 0 (G e) * F dof) + I2L (G e * pderiv 0 (F dof)) := by rw [hQ, pderiv_mul, map_add]
  have hq2 : I2L (pderiv 1 Q) = I2L (pderiv 1 (G e) * F dof) + I2L (G e * pderiv 1 (F dof)) := by rw [hQ, pderiv_mul, map_add]
  rw [hTs, htrue]
  have e1 : s 1 * triL (v.N.tri (2 * (dat e).elt.p)) (G e * pderiv 0 (F dof)) + s 2 * triL (v.N.tri (2 * (dat e).elt.p)) (G e * pderiv 1 (F dof)) +
      (T.map Prod.snd).sum - (-s 1 * I2L (pderiv 0 (G e) * F dof) - s 2 * I2L (pderiv 1 (G e) * F dof)) =
      s 1 * (triL (v.N.tri (2 * (dat e).elt.p)) (G e * pderiv 0 (F dof)) - I2L (G e * pderiv 0 (F dof))) +
      s 2 * (triL (v.N.tri (2 * (dat e).elt.p)) (G e * pderiv 1 (F dof)) - I2L (G e * pderiv 1 (F dof))) +
      ((T.map Prod.snd).sum - (s 0 * faceI 0 Q + s 1 * faceI 1 Q + s 2 * faceI 2 Q)) := by
    have k1 : I2L (pderiv 0 (G e) * F dof) = faceI 0 Q - faceI 1 Q - I2L (G e * pderiv 0 (F dof)) := by rw [← g1, hq1]; ring
    have k2 : I2L (pderiv 1 (G e) * F dof) = faceI 0 Q - faceI 2 Q - I2L (G e * pderiv 1 (F dof)) := by rw [← g2, hq2]; ring
    rw [k1, k2, h0]; ring
  rw [e1]
  have b1 : |s 1 * (triL (v.N.tri (2 * (dat e).elt.p)) (G e * pderiv 0 (F dof)) - I2L (G e * pderiv 0 (F dof)))| ≤
      surfaceJ v.sq (dat e).elt.tri 1 * (ε * absCoeffs (G e * pderiv 0 (F dof))) := by
    rw [abs_mul]
    exact mul_le_mul (hnb 1 (by omega)) ht1 (abs_nonneg _) (hJ 1 (by omega))
  have b2 : |s 2 * (triL (v.N.tri (2 * (dat e).elt.p)) (G e * pderiv 1 (F dof)) - I2L (G e * pderiv 1 (F dof)))| ≤
      surfaceJ v.sq (dat e).elt.tri 2 * (ε * absCoeffs (G e * pderiv 1 (F dof))) := by
    rw [abs_mul]
    exact mul_le_mul (hnb 2 (by omega)) ht2 (abs_nonneg _) (hJ 2 (by omega))
  refine (abs_add_le _ _).trans ((add_le_add ((abs_add_le _ _).trans (add_le_add b1 b2)) hn).trans (le_of_eq ?_))
  simp only [gradBound, ← hQ]
  ring

/-- **C91** The coefficients of a derivative are those of the derivative of the field, up to the error of the integration rules. -/
theorem grad_near (hR : Rules v.N F P ε) (hO : Orthogonal v.N F P) (hs : IsSqrt v.sq) (hm : GradMesh dat m P) (hG : Piecewise v dat m R G) {dir : ℕ} (hdir : dir < 2)
    {e : ℕ} (he : e ∈ m.elts) :
    ∃ c : ℕ → ℝ, (∀ z, Reg z → (dat e).elt.value v.N c z = eval ![z.x, z.y] (dPoly (dat e).elt.tri dir (G e))) ∧
      ∀ dof < ndof (dat e).elt.p, |grad v dat m R dir e dof - c dof| ≤
        ε * gradBound v F (G e) (dat e).elt.tri dof * (|v.N.basis.minv dof| / |jdet (dat e).elt.tri|) := by
  have hd := hm.degree e he
  have hc := hm.ccw e he
  have hdeg : (dPoly (dat e).elt.tri dir (G e)).totalDegree ≤ (dat e).elt.p := by
    have hGd := hG.degree e he
    unfold dPoly
    refine (totalDegree_add _ _).trans (max_le ?_ ?_)
    · exact (totalDegree_mul _ _).trans (by have := pderiv_degree 0 (G e); rw [totalDegree_C]; omega)
    · exact (totalDegree_mul _ _).trans (by have := pderiv_degree 1 (G e); rw [totalDegree_C]; omega)
  refine ⟨fun d => v.N.basis.minv d * I2L (dPoly (dat e).elt.tri dir (G e) * F d), fun z hz => ?_, fun dof hdof => ?_⟩
  · conv_rhs => rw [expansion hO hR.degree hd hdeg]
    exact bath_value hR (d := ⟨(dat e).elt, fun d => v.N.basis.minv d * I2L (dPoly (dat e).elt.tri dir (G e) * F d), (dat e).src⟩) hd hz
  · have h := rhs_near hR hs hm hG hdir he hdof
    have hj : |jdet (dat e).elt.tri| ≠ 0 := (abs_pos.2 hc.ne').ne'
    have e1 : grad v dat m R dir e dof - v.N.basis.minv dof * I2L (dPoly (dat e).elt.tri dir (G e) * F dof) =
        (gradRhs v dat m R dir e dof - |jdet (dat e).elt.tri| * I2L (dPoly (dat e).elt.tri dir (G e) * F dof)) *
          (v.N.basis.minv dof / |jdet (dat e).elt.tri|) := by
      simp only [grad, Elt.applyMinv]
      field_simp
    rw [e1, abs_mul, abs_div, abs_abs]
    exact mul_le_mul_of_nonneg_right h (by positivity)

/-- **C91** With exact rules the derivative is exact. -/
theorem grad_exact (hR : Rules v.N F P 0) (hO : Orthogonal v.N F P) (hs : IsSqrt v.sq) (hm : GradMesh dat m P) (hG : Piecewise v dat m R G) {dir : ℕ} (hdir : dir < 2)
    {e : ℕ} (he : e ∈ m.elts) {z : P2 ℝ} (hz : Reg z) :
    rowOf v dat (grad v dat m R dir) e z = eval ![z.x, z.y] (dPoly (dat e).elt.tri dir (G e)) := by
  obtain ⟨c, h1, h2⟩ := grad_near hR hO hs hm hG hdir he
  rw [← h1 z hz]
  unfold rowOf Elt.value
  rw [sum_range_list, sum_range_list]
  refine Finset.sum_congr rfl fun d hd => ?_
  have := h2 d (Finset.mem_range.mp hd)
  rw [zero_mul, zero_mul] at this
  rw [sub_eq_zero.mp (abs_nonpos_iff.mp this)]

end

/-! ### One polynomial on all of the mesh -/

/-- A polynomial in space in the coordinates of the master triangle. -/
noncomputable def pull (t : Tri ℝ) : MvPolynomial (Fin 2) ℝ →ₐ[ℝ] MvPolynomial (Fin 2) ℝ :=
  aeval ![C (t.a.x + (t.b.x - t.a.x) / 2 + (t.c.x - t.a.x) / 2) + C ((t.b.x - t.a.x) / 2) * X 0 + C ((t.c.x - t.a.x) / 2) * X 1,
    C (t.a.y + (t.b.y - t.a.y) / 2 + (t.c.y - t.a.y) / 2) + C ((t.b.y - t.a.y) / 2) * X 0 + C ((t.c.y - t.a.y) / 2) * X 1]

theorem pull_eval (t : Tri ℝ) (Q : MvPolynomial (Fin 2) ℝ) (z : P2 ℝ) : eval ![z.x, z.y] (pull t Q) = eval ![(pointOf t z).x, (pointOf t z).y] Q := by
  induction Q using MvPolynomial.induction_on with
  | C a => simp [pull]
  | add p q hp hq => rw [map_add, map_add, map_add, hp, hq]
  | mul_X p i hp =>
    rw [map_mul, map_mul, map_mul, hp]
    congr 1
    rcases (by fin_cases i <;> simp : i = 0 ∨ i = 1) with rfl | rfl <;> simp [pull, pointOf] <;> ring

theorem linear_degree (a b c : ℝ) : (C a + C b * X 0 + C c * X 1 : MvPolynomial (Fin 2) ℝ).totalDegree ≤ 1 := by
  refine (totalDegree_add _ _).trans (max_le ((totalDegree_add _ _).trans (max_le ?_ ?_)) ?_)
  · rw [totalDegree_C]; omega
  · exact (totalDegree_mul _ _).trans (by rw [totalDegree_C, totalDegree_X])
  · exact (totalDegree_mul _ _).trans (by rw [totalDegree_C, totalDegree_X])

theorem pull_degree (t : Tri ℝ) (Q : MvPolynomial (Fin 2) ℝ) : (pull t Q).totalDegree ≤ Q.totalDegree := by
  conv_lhs => rw [Q.as_sum]
  rw [map_sum]
  refine totalDegree_finsetSum_le fun s hs => ?_
  refine le_trans ?_ (le_totalDegree hs)
  rw [Finsupp.sum_fintype _ _ (fun _ => rfl), Fin.sum_univ_two, monomial_eq, map_mul, Finsupp.prod_fintype _ _ (fun _ => by simp), Fin.prod_univ_two, map_mul, map_pow, map_pow]
  have h0 : (pull t (X 0)).totalDegree ≤ 1 := by simp only [pull, aeval_X, Matrix.cons_val_zero]; exact linear_degree _ _ _
  have h1 : (pull t (X 1)).totalDegree ≤ 1 := by simp only [pull, aeval_X, Matrix.cons_val_one, Matrix.cons_val_fin_one]; exact linear_degree _ _ _
  refine (totalDegree_mul _ _).trans ?_
  have hC : (pull t (C (coeff s Q))).totalDegree = 0 := by
    simp only [pull, algHom_C]; exact totalDegree_C _
  rw [hC, zero_add]
  refine (totalDegree_mul _ _).trans (add_le_add ?_ ?_)
  · exact (totalDegree_pow _ _).trans (by nlinarith)
  · exact (totalDegree_pow _ _).trans (by nlinarith)

theorem pull_deriv (t : Tri ℝ) (ht : jdet t ≠ 0) (i : Fin 2) (Q : MvPolynomial (Fin 2) ℝ) : dPoly t i (pull t Q) = pull t (pderiv i Q) := by
  induction Q using MvPolynomial.induction_on with
  | C a => simp [pull, dPoly, algHom_C]
  | add p q hp hq =>
    rw [map_add, map_add, map_add, ← hp, ← hq]
    simp only [dPoly, map_add]; ring
  | mul_X p k hp =>
    have hd : ∀ A B : MvPolynomial (Fin 2) ℝ, dPoly t i (A * B) = dPoly t i A * B + A * dPoly t i B := by
      intro A B
      simp only [dPoly, pderiv_mul]; ring
    rw [map_mul, hd, hp, pderiv_mul, map_add, map_mul, map_mul]
    congr 2
    have hd' : Geometry.det (jac t) ≠ 0 := ht
    have h2 := hd'
    simp only [Geometry.det, jac] at h2
    have lin : ∀ (l : Fin 2) (a b c : ℝ), pderiv l (C a + C b * X 0 + C c * X 1 : MvPolynomial (Fin 2) ℝ) = C (if l = 0 then b else c) := by
      intro l a b c
      rcases (by fin_cases l <;> simp : l = 0 ∨ l = 1) with rfl | rfl <;>
        simp [pderiv_X_of_ne (show (0 : Fin 2) ≠ 1 by decide), pderiv_X_of_ne (show (1 : Fin 2) ≠ 0 by decide)]
    rcases (by fin_cases i <;> simp : i = 0 ∨ i = 1) with rfl | rfl <;> rcases (by fin_cases k <;> simp : k = 0 ∨ k = 1) with rfl | rfl <;>
      simp only [dPoly, pull, aeval_X, Matrix.cons_val_zero, Matrix.cons_val_one, Matrix.cons_val_fin_one, lin, ← C_mul, ← C_add, pderiv_X_self,
        pderiv_X_of_ne (show (0 : Fin 2) ≠ 1 by decide), pderiv_X_of_ne (show (1 : Fin 2) ≠ 0 by decide), map_one, map_zero,
        Element.entry, jinv, Geometry.inv, Geometry.det, jac, Fin.val_zero, Fin.val_one, if_true, one_ne_zero, if_false]
    · rw [← C_1]; congr 1; generalize hD : (t.b.x - t.a.x) / 2 * ((t.c.y - t.a.y) / 2) - (t.c.x - t.a.x) / 2 * ((t.b.y - t.a.y) / 2) = D at *; field_simp; linarith
    · rw [← C_0]; congr 1; field_simp; ring
    · rw [← C_0]; congr 1; field_simp; ring
    · rw [← C_1]; congr 1; generalize hD : (t.b.x - t.a.x) / 2 * ((t.c.y - t.a.y) / 2) - (t.c.x - t.a.x) / 2 * ((t.b.y - t.a.y) / 2) = D at *; field_simp; linarith

/-- The row has the values of a polynomial in space. -/
def Agrees (dat : ℕ → EltData ℝ) (m : Mesh ℝ) (R : Row ℝ) (Q : MvPolynomial (Fin 2) ℝ) : Prop :=
  ∀ e ∈ m.elts, ∀ z, Reg z → R e z = eval ![(pointOf (dat e).elt.tri z).x, (pointOf (dat e).elt.tri z).y] Q

section
variable {v : Env ℝ} {dat : ℕ → EltData ℝ} {m : Mesh ℝ} {F : ℕ → MvPolynomial (Fin 2) ℝ} {P : ℕ} {R : Row ℝ} {Q : MvPolynomial (Fin 2) ℝ}

theorem agrees_cont (hS : SymRules v.N P) (hm : GradMesh dat m P) (hQ : Agrees dat m R Q) {i : Iface ℝ} (hi : i ∈ m.ints) {gp : ℕ} (hgp : gp < (i.rule v dat).length) :
    R i.ein (facePt (i.rule v dat) i.fin gp) = R i.eex (facePt (i.rule v dat) i.fex ((i.rule v dat).length - gp - 1)) := by
  obtain ⟨h1, h2⟩ := hm.ends i hi
  obtain ⟨f1, f2⟩ := int_faces hm hi
  obtain ⟨e1, e2⟩ := hm.edges i hi
  have hp : max (dat i.ein).elt.p (dat i.eex).elt.p ≤ P := max_le (hm.degree _ h1) (hm.degree _ h2)
  rw [hQ _ h1 (facePt _ _ gp) (face_regular _ _), hQ _ h2 (facePt _ _ _) (face_regular _ _)]
  simp only [facePt]
  rw [← pointOf_eq, ← pointOf_eq, edgePoint_eq _ f1, edgePoint_eq _ f2]
  have hs := hS _ hp gp hgp
  have : ((i.rule v dat).getD ((i.rule v dat).length - gp - 1) (0, 0)).2 = -((i.rule v dat).getD gp (0, 0)).2 := hs
  rw [this, (edge_reversed e1 e2 _).1, neg_neg]

theorem agrees_piecewise (hS : SymRules v.N P) (hm : GradMesh dat m P) (hQ : Agrees dat m R Q) (hdeg : ∀ e ∈ m.elts, Q.totalDegree ≤ (dat e).elt.p) :
    Piecewise v dat m R fun e => pull (dat e).elt.tri Q :=
  ⟨fun e he z hz => by rw [pull_eval, hQ e he z hz], fun e he => (pull_degree _ _).trans (hdeg e he), fun _ hi _ hgp => agrees_cont hS hm hQ hi hgp⟩

/-- **C91** The derivative of a polynomial in space. -/
theorem grad_agrees (hR : Rules v.N F P 0) (hO : Orthogonal v.N F P) (hS : SymRules v.N P) (hs : IsSqrt v.sq) (hm : GradMesh dat m P) (hQ : Agrees dat m R Q)
    (hdeg : ∀ e ∈ m.elts, Q.totalDegree ≤ (dat e).elt.p) (i : Fin 2) : Agrees dat m (rowOf v dat (grad v dat m R i)) (pderiv i Q) := by
  intro e he z hz
  rw [grad_exact hR hO hs hm (agrees_piecewise hS hm hQ hdeg) i.2 he hz, pull_deriv _ (hm.ccw e he).ne', pull_eval]

theorem pderiv_le {p : ℕ} (i : Fin 2) (h : Q.totalDegree ≤ p) : (pderiv i Q).totalDegree ≤ p := (pderiv_degree i Q).trans h

/-- **C91** Bathymetry: first, second and third derivatives. Row `i`, `2 i + j`, `4 i + 2 j + k`. -/
theorem bath_exact (hR : Rules v.N F P 0) (hO : Orthogonal v.N F P) (hS : SymRules v.N P) (hs : IsSqrt v.sq) (hm : GradMesh dat m P) (hQ : Agrees dat m (bathRow v dat) Q)
    (hdeg : ∀ e ∈ m.elts, Q.totalDegree ≤ (dat e).elt.p) (i j k : Fin 2) :
    Agrees dat m (rowOf v dat (dbath v dat m i)) (pderiv i Q) ∧ Agrees dat m (rowOf v dat (ddbath v dat m (2 * i + j))) (pderiv j (pderiv i Q)) ∧
      Agrees dat m (rowOf v dat (dddbath v dat m (2 * (2 * i + j) + k))) (pderiv k (pderiv j (pderiv i Q))) := by
  have a1 : Agrees dat m (rowOf v dat (dbath v dat m i)) (pderiv i Q) := grad_agrees hR hO hS hs hm hQ hdeg i
  have a2 : Agrees dat m (rowOf v dat (ddbath v dat m (2 * i + j))) (pderiv j (pderiv i Q)) := by
    unfold ddbath
    rw [show (2 * (i : ℕ) + j) / 2 = i by omega, show (2 * (i : ℕ) + j) % 2 = j by omega]
    exact grad_agrees hR hO hS hs hm a1 (fun e he => pderiv_le i (hdeg e he)) j
  refine ⟨a1, a2, ?_⟩
  unfold dddbath
  rw [show (2 * (2 * (i : ℕ) + j) + k) / 2 = 2 * i + j by omega, show (2 * (2 * (i : ℕ) + j) + k) % 2 = k by omega]
  exact grad_agrees hR hO hS hs hm a2 (fun e he => pderiv_le j (pderiv_le i (hdeg e he))) k

/-- **C91** Velocity: first and second derivatives. -/
theorem velocity_exact (hR : Rules v.N F P 0) (hO : Orthogonal v.N F P) (hS : SymRules v.N P) (hs : IsSqrt v.sq) (hm : GradMesh dat m P) {q : State ℝ} (i j k : Fin 2)
    (hQ : Agrees dat m (uRow v dat q i) Q) (hdeg : ∀ e ∈ m.elts, Q.totalDegree ≤ (dat e).elt.p) :
    Agrees dat m (rowOf v dat (du v dat m q (2 * i + j))) (pderiv j Q) ∧ Agrees dat m (rowOf v dat (ddu v dat m q (2 * (2 * i + j) + k))) (pderiv k (pderiv j Q)) := by
  have a1 : Agrees dat m (rowOf v dat (du v dat m q (2 * i + j))) (pderiv j Q) := by
    unfold du
    rw [show (2 * (i : ℕ) + j) / 2 = i by omega, show (2 * (i : ℕ) + j) % 2 = j by omega]
    exact grad_agrees hR hO hS hs hm hQ hdeg j
  refine ⟨a1, ?_⟩
  unfold ddu
  rw [show (2 * (2 * (i : ℕ) + j) + k) / 2 = 2 * i + j by omega, show (2 * (2 * (i : ℕ) + j) + k) % 2 = k by omega]
  exact grad_agrees hR hO hS hs hm a1 (fun e he => pderiv_le j (hdeg e he)) k

/-- **C91** Water level. -/
theorem level_exact (hR : Rules v.N F P 0) (hO : Orthogonal v.N F P) (hS : SymRules v.N P) (hs : IsSqrt v.sq) (hm : GradMesh dat m P) {q : State ℝ} (i : Fin 2)
    (hQ : Agrees dat m (rowOf v dat fun e => q e 0) Q) (hdeg : ∀ e ∈ m.elts, Q.totalDegree ≤ (dat e).elt.p) :
    Agrees dat m (rowOf v dat (dze v dat m q i)) (pderiv i Q) := grad_agrees hR hO hS hs hm hQ hdeg i

end

end Verif.Gn.Props
