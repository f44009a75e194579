import Verif.Lemmas.GnGrad
import Verif.Lemmas.PolySpan
import Mathlib.Algebra.MvPolynomial.Funext

/-!
# C103: derivatives by Green-Gauss and least squares

The dispersive correction can be compiled with other derivatives than those of C91. Green-Gauss gives the mean of the derivative over the element, for any field
that is a polynomial in each element, whatever the field is in the neighbours (`gg_mean`); so for a quadratic field the derivative at the barycentre (`gg_quadratic`).
Least squares gives the derivative of an affine field (`lsq_affine`), and its matrix exists whenever two neighbours are not in one direction (`pCols_iff`).

The reconstructions in elements keep constants (`recon_const`); the reconstruction by averages at nodes gives the mean over the elements with that node and so is
continuous (`avg_mean`, `avg_cont`); the ones by interpolation and by least squares keep affine functions in elements without boundary (`ls_affine`, `int_affine`), the
former up to the coefficients that the code sets to zero (`int_near`).

For fields that are affine on the mesh both methods with each of the reconstructions give the constant first derivatives and zero for the second and third ones
(`gg_exact_affine`, `ls_exact_affine`). For a quadratic level Green-Gauss gives the exact linear derivative in inner elements (`dze_quadratic`).
-/

namespace Verif.Gn.Props
open Verif.Geometry Verif.Geometry.Props Verif.Element Verif.Swe Verif.Swe.Props Verif.Tri MvPolynomial
open Verif.Basis (linearToBasis basisToLinear basisLinear linearBasis)

/-! ### Green-Gauss -/

section
variable {v : Env ℝ} {dat : ℕ → EltData ℝ} {m : Mesh ℝ} {F G : ℕ → MvPolynomial (Fin 2) ℝ} {P : ℕ} {R : Row ℝ}

/-- The integral of a polynomial over a face. -/
theorem faceSum_poly (r : List (ℝ × ℝ)) (J c : ℝ) (f : ℕ) (G : MvPolynomial (Fin 2) ℝ) (X : ℕ → ℝ)
    (hX : ∀ gp < r.length, X gp = eval ![(facePt r f gp).x, (facePt r f gp).y] G * c) : faceSum r J X = J * c * faceL r f G := by
  unfold faceSum
  have h1 : ((List.range r.length).map fun gp => X gp * (weight r gp * J)) =
      (List.range r.length).map fun gp => (fun wx : ℝ × ℝ => J * c * (wx.1 * eval ![(boundaryToMaster f wx.2).x, (boundaryToMaster f wx.2).y] G)) (r.getD gp (0, 0)) := by
    refine List.map_congr_left fun gp hgp => ?_
    rw [hX gp (List.mem_range.mp hgp)]
    simp only [facePt, weight]
    ring
  rw [h1, range_getD r fun wx : ℝ × ℝ => J * c * (wx.1 * eval ![(boundaryToMaster f wx.2).x, (boundaryToMaster f wx.2).y] G)]
  simp only [faceL, LinearMap.coe_mk, AddHom.coe_mk]
  rw [← List.sum_map_mul_left]

/-- Every face adds its integral with the own polynomial, for any values at the Gauss points that are those of the polynomial. -/
theorem ggTerms_canon (hm : GradMesh dat m P) {fi fe : Iface ℝ → ℕ → ℝ} {e : ℕ} (he : e ∈ m.elts)
    (hi : ∀ i ∈ m.ints, i.ein = e → ∀ gp < (i.rule v dat).length, fi i gp = eval ![(facePt (i.rule v dat) i.fin gp).x, (facePt (i.rule v dat) i.fin gp).y] (G e))
    (hx : ∀ i ∈ m.ints, i.eex = e → ∀ gp < (i.rule v dat).length, fe i gp = eval ![(facePt (i.rule v dat) i.fex gp).x, (facePt (i.rule v dat) i.fex gp).y] (G e))
    (hG : ∀ z, Reg z → R e z = eval ![z.x, z.y] (G e)) (dir : ℕ) {x : ℕ × ℝ} (hxm : x ∈ ggTerms v dat m fi fe R dir e) :
    ∃ p' ≤ P, (dat e).elt.p ≤ p' ∧ x.1 < 3 ∧ x.2 = nd (snormal v (dat e).elt.tri x.1) dir * faceL (v.N.line (2 * p' + 1)) x.1 (G e) := by
  have hlt : x.1 < 3 := face_lt hm he (by rw [← ggTerms_faces v dat m fi fe R dir]; exact List.mem_map_of_mem hxm)
  unfold ggTerms at hxm
  rcases List.mem_append.mp hxm with hx' | hx' <;> clear hxm
  · obtain ⟨i, hi', hy⟩ := List.mem_flatMap.mp hx'
    clear hx'
    obtain ⟨h1, h2⟩ := hm.ends i hi'
    refine ⟨max (dat i.ein).elt.p (dat i.eex).elt.p, max_le (hm.degree _ h1) (hm.degree _ h2), ?_⟩
    rcases List.mem_append.mp hy with hz | hz <;> clear hy
    · split at hz
      · next h =>
        subst h; obtain rfl := List.mem_singleton.mp hz
        refine ⟨le_max_left _ _, hlt, ?_⟩
        simp only
        rw [faceSum_poly (i.rule v dat) _ (nd (normal v.sq (dat i.ein).elt.tri i.fin) dir) i.fin (G i.ein)]
        · rw [Iface.J, nd_mul]; rfl
        · intro gp hgp
          rw [hi i hi' rfl gp hgp]
      · cases hz
    · split at hz
      · next h =>
        subst h; obtain rfl := List.mem_singleton.mp hz
        refine ⟨le_max_right _ _, hlt, ?_⟩
        simp only
        obtain ⟨o1, o2⟩ := opposite (v := v) (hm.ccw _ h1) (hm.ccw _ h2) (edge_opp hm hi')
        rw [← o1]
        rw [faceSum_poly (i.rule v dat) _ (nd (normal v.sq (dat i.eex).elt.tri i.fex) dir) i.fex (G i.eex)]
        · rw [Iface.J, ← o2, nd_mul]; rfl
        · intro gp hgp
          rw [hx i hi' rfl gp hgp]
      · cases hz
  · obtain ⟨b, hb, hy⟩ := List.mem_flatMap.mp hx'
    clear hx'
    split at hy
    · next h =>
      subst h; obtain rfl := List.mem_singleton.mp hy
      refine ⟨(dat b.e).elt.p, hm.degree _ he, le_rfl, hlt, ?_⟩
      simp only
      rw [faceSum_poly _ _ (nd (normal v.sq (dat b.e).elt.tri b.f) dir) b.f (G b.e)]
      · rw [nd_mul]; rfl
      · intro gp _
        rw [hG (facePt _ _ gp) (face_regular _ _)]
    · cases hy

theorem area_jdet (t : Tri ℝ) : area t = 2 * jdet t := by
  rw [cross_jdet]; unfold area; ring

/-- Values at faces that are those of the own polynomial give the mean of its derivative. -/
theorem ggWith_mean (hR : Rules v.N F P 0) (hs : IsSqrt v.sq) (hm : GradMesh dat m P) {fi fe : Iface ℝ → ℕ → ℝ} {e : ℕ} (he : e ∈ m.elts)
    (hi : ∀ i ∈ m.ints, i.ein = e → ∀ gp < (i.rule v dat).length, fi i gp = eval ![(facePt (i.rule v dat) i.fin gp).x, (facePt (i.rule v dat) i.fin gp).y] (G e))
    (hx : ∀ i ∈ m.ints, i.eex = e → ∀ gp < (i.rule v dat).length, fe i gp = eval ![(facePt (i.rule v dat) i.fex gp).x, (facePt (i.rule v dat) i.fex gp).y] (G e))
    (hG : ∀ z, Reg z → R e z = eval ![z.x, z.y] (G e)) (hd : (G e).totalDegree ≤ 2 * (dat e).elt.p + 1) {dir : ℕ} (hdir : dir < 2) :
    ggWith v dat m fi fe R dir e = I2L (dPoly (dat e).elt.tri dir (G e)) / 2 := by
  have hc := hm.ccw e he
  set s : ℕ → ℝ := fun f => nd (snormal v (dat e).elt.tri f) dir with hsdef
  obtain ⟨j1, j2, j3, j4, n0x, n0y⟩ := jinv_normal hs hc
  have h0 : s 0 = -s 1 - s 2 := by
    simp only [hsdef, nd]; split
    · exact n0x
    · exact n0y
  obtain ⟨g1, g2⟩ := green (G e)
  have hval : ∀ x ∈ ggTerms v dat m fi fe R dir e, x.2 = s x.1 * faceI x.1 (G e) := by
    intro x hxm
    obtain ⟨p', hp', hpp, hlt, hv⟩ := ggTerms_canon hm he hi hx hG dir hxm
    rw [hv]
    congr 1
    have := face_approx hlt (hR.line p' hp') (G e) (by omega)
    rw [zero_mul] at this
    exact sub_eq_zero.mp (abs_nonpos_iff.mp this)
  have hperm := hm.cover e he
  rw [← ggTerms_faces v dat m fi fe R dir] at hperm
  have hsum : ((ggTerms v dat m fi fe R dir e).map Prod.snd).sum = s 0 * faceI 0 (G e) + s 1 * faceI 1 (G e) + s 2 * faceI 2 (G e) := by
    rw [List.map_congr_left hval]
    have := (hperm.map fun f => s f * faceI f (G e)).sum_eq
    rw [List.map_map] at this
    rw [show (fun x : ℕ × ℝ => s x.1 * faceI x.1 (G e)) = (fun f => s f * faceI f (G e)) ∘ Prod.fst from rfl, this]
    simp; ring
  have htrue : |jdet (dat e).elt.tri| * I2L (dPoly (dat e).elt.tri dir (G e)) = -s 1 * I2L (pderiv 0 (G e)) - s 2 * I2L (pderiv 1 (G e)) := by
    rw [dPoly, C_mul', C_mul', map_add, map_smul, map_smul, smul_eq_mul, smul_eq_mul, mul_add, ← mul_assoc, ← mul_assoc]
    rcases (by omega : dir = 0 ∨ dir = 1) with rfl | rfl
    · rw [j1, j2]; simp only [hsdef, nd, if_true]; ring
    · rw [j3, j4]; simp only [hsdef, nd, one_ne_zero, if_false]; ring
  rw [ggWith_at, hsum, area_jdet]
  have : s 0 * faceI 0 (G e) + s 1 * faceI 1 (G e) + s 2 * faceI 2 (G e) = jdet (dat e).elt.tri * I2L (dPoly (dat e).elt.tri dir (G e)) := by
    rw [abs_of_pos hc] at htrue
    rw [htrue, g1, g2, h0]; ring
  rw [this]
  have := hc.ne'
  field_simp

/-- **C103** Green-Gauss from own values at the faces: the mean of the derivative over the element (the master triangle has area 2). -/
theorem gg_mean (hR : Rules v.N F P 0) (hs : IsSqrt v.sq) (hm : GradMesh dat m P) {e : ℕ} (he : e ∈ m.elts) (hG : ∀ e ∈ m.elts, ∀ z, Reg z → R e z = eval ![z.x, z.y] (G e))
    (hd : (G e).totalDegree ≤ 2 * (dat e).elt.p + 1) {dir : ℕ} (hdir : dir < 2) :
    gg v dat m R dir e = I2L (dPoly (dat e).elt.tri dir (G e)) / 2 := by
  refine ggWith_mean hR hs hm he ?_ ?_ (hG e he) hd hdir
  · rintro i _ rfl gp _
    unfold ownIn
    exact hG _ he (facePt _ _ gp) (face_regular _ _)
  · rintro i _ rfl gp _
    unfold ownEx
    exact hG _ he (facePt _ _ gp) (face_regular _ _)

theorem ggWith_congr {fi fe fi' fe' : Iface ℝ → ℕ → ℝ} (h1 : ∀ i ∈ m.ints, ∀ gp < (i.rule v dat).length, fi i gp = fi' i gp)
    (h2 : ∀ i ∈ m.ints, ∀ gp < (i.rule v dat).length, fe i gp = fe' i gp) (dir e : ℕ) : ggWith v dat m fi fe R dir e = ggWith v dat m fi' fe' R dir e := by
  rw [ggWith_at, ggWith_at]
  congr 3
  unfold ggTerms
  congr 1
  apply List.flatMap_congr
  intro i hi
  have hsum : ∀ (X Y : ℕ → ℝ), (∀ gp < (i.rule v dat).length, X gp = Y gp) → faceSum (i.rule v dat) (i.J v dat) X = faceSum (i.rule v dat) (i.J v dat) Y := by
    intro X Y h
    unfold faceSum
    congr 1
    exact List.map_congr_left fun gp hgp => by rw [h gp (List.mem_range.1 hgp)]
  congr 1
  · split
    · rw [hsum]
      intro gp hgp
      rw [h1 i hi gp hgp]
    · rfl
  · split
    · rw [hsum]
      intro gp hgp
      rw [h2 i hi gp hgp]
    · rfl

/-- Continuous at the Gauss points of interfaces. -/
def ContAt (v : Env ℝ) (dat : ℕ → EltData ℝ) (m : Mesh ℝ) (R : Row ℝ) : Prop := ∀ i ∈ m.ints, ∀ gp < (i.rule v dat).length,
  R i.ein (facePt (i.rule v dat) i.fin gp) = R i.eex (facePt (i.rule v dat) i.fex ((i.rule v dat).length - gp - 1))

theorem hat_own (hC : ContAt v dat m R) {i : Iface ℝ} (hi : i ∈ m.ints) {gp : ℕ} (hgp : gp < (i.rule v dat).length) :
    hatIn v dat R i gp = ownIn v dat R i gp ∧ hatEx v dat R i gp = ownEx v dat R i gp := by
  constructor
  · unfold hatIn ownIn
    rw [← hC i hi gp hgp]; ring
  · unfold hatEx hatIn ownEx
    rw [hC i hi _ (by omega), show (i.rule v dat).length - ((i.rule v dat).length - gp - 1) - 1 = gp by omega]; ring

/-- **C103** Averages of both sides at the faces make no difference if the field is continuous there. -/
theorem ggHat_cont (hC : ContAt v dat m R) (dir e : ℕ) : ggHat v dat m R dir e = gg v dat m R dir e :=
  ggWith_congr (fun _ hi _ hgp => (hat_own hC hi hgp).1) (fun _ hi _ hgp => (hat_own hC hi hgp).2) dir e

/-- **C103** Then it makes no difference either which edges are cut. -/
theorem ggCut_cont (hC : ContAt v dat m R) (cut : Iface ℝ → Bool) (dir e : ℕ) : ggCut v dat m cut R dir e = ggHat v dat m R dir e := by
  refine ggWith_congr (fun i hi gp hgp => ?_) (fun i hi gp hgp => ?_) dir e
  · beta_reduce; split
    · exact (hat_own hC hi hgp).1.symm
    · rfl
  · beta_reduce; split
    · exact (hat_own hC hi hgp).2.symm
    · rfl

/-- The integral of an affine function. -/
theorem I2L_linear {G : MvPolynomial (Fin 2) ℝ} (h : G.totalDegree ≤ 1) : I2L G = 2 * eval ![-1 / 3, -1 / 3] G := by
  let E : MvPolynomial (Fin 2) ℝ →ₗ[ℝ] ℝ := ⟨⟨fun G => 2 * eval ![-1 / 3, -1 / 3] G, fun G H => by rw [map_add]; ring⟩,
    fun c G => by simp only [smul_eval, RingHom.id_apply, smul_eq_mul]; ring⟩
  have hs : |(I2L - E) G| ≤ 0 * absCoeffs G := by
    refine small_on (I2L - E) (n := 1) (fun s hs => ?_) G h
    rw [abs_nonpos_iff, LinearMap.sub_apply, sub_eq_zero]
    simp only [I2L, E, LinearMap.coe_mk, AddHom.coe_mk, eval_mono, I2]
    obtain ⟨a, ha⟩ : ∃ a, s 0 = a := ⟨_, rfl⟩
    obtain ⟨b, hb⟩ : ∃ b, s 1 = b := ⟨_, rfl⟩
    rw [ha, hb] at hs ⊢
    rcases (by omega : (a = 0 ∧ b = 0) ∨ (a = 1 ∧ b = 0) ∨ (a = 0 ∧ b = 1)) with ⟨rfl, rfl⟩ | ⟨rfl, rfl⟩ | ⟨rfl, rfl⟩
    · simp only [pow_zero, mul_one, intervalIntegral.integral_const, smul_eq_mul, sub_neg_eq_add]
      rw [intervalIntegral.integral_add (Continuous.intervalIntegrable (by fun_prop) _ _) (Continuous.intervalIntegrable (by fun_prop) _ _), intervalIntegral.integral_neg]
      simp; norm_num
    · simp; norm_num
    · simp only [pow_zero, one_mul, intervalIntegral.integral_const, smul_eq_mul, sub_neg_eq_add, pow_one]
      have h2 : (fun y : ℝ => (-y + 1) * y) = fun y => y - y ^ 2 := by funext y; ring
      rw [h2, intervalIntegral.integral_sub (Continuous.intervalIntegrable (by fun_prop) _ _) (Continuous.intervalIntegrable (by fun_prop) _ _)]
      simp; norm_num
  rw [zero_mul, abs_nonpos_iff, LinearMap.sub_apply, sub_eq_zero] at hs
  exact hs

theorem pderiv_lower {n : ℕ} (i : Fin 2) {Q : MvPolynomial (Fin 2) ℝ} (h : Q.totalDegree ≤ n + 1) : (pderiv i Q).totalDegree ≤ n := by
  conv_lhs => rw [Q.as_sum]
  rw [map_sum]
  refine totalDegree_finsetSum_le fun s hs => ?_
  rw [pderiv_monomial]
  have h1 := (le_totalDegree hs).trans h
  by_cases h0 : s i = 0
  · rw [h0]; simp
  · refine (totalDegree_monomial_le _ _).trans ?_
    rw [Finsupp.sum_fintype _ _ (fun _ => rfl), Fin.sum_univ_two] at h1 ⊢
    rcases (by fin_cases i <;> simp : i = 0 ∨ i = 1) with rfl | rfl <;> simp <;> omega

theorem bary_point (t : Tri ℝ) : pointOf t ⟨-1 / 3, -1 / 3⟩ = barycentre t := by
  simp only [pointOf, barycentre, P2.mk.injEq]
  constructor <;> ring

/-- **C103** A field that is one polynomial of degree at most two on the mesh: Green-Gauss gives the derivative at the barycentre. -/
theorem gg_quadratic (hR : Rules v.N F P 0) (hs : IsSqrt v.sq) (hm : GradMesh dat m P) {Q : MvPolynomial (Fin 2) ℝ} (hQ : Agrees dat m R Q) (hd : Q.totalDegree ≤ 2)
    {e : ℕ} (he : e ∈ m.elts) (hp : 1 ≤ (dat e).elt.p) (i : Fin 2) :
    gg v dat m R i e = eval ![(barycentre (dat e).elt.tri).x, (barycentre (dat e).elt.tri).y] (pderiv i Q) := by
  have hdeg : (pderiv i Q).totalDegree ≤ 1 := pderiv_lower i hd
  rw [gg_mean (G := fun e => pull (dat e).elt.tri Q) hR hs hm he (fun e he z hz => by rw [pull_eval, hQ e he z hz]) ((pull_degree _ _).trans (by omega)) i.2,
    pull_deriv _ (hm.ccw e he).ne', I2L_linear ((pull_degree _ _).trans hdeg), ← bary_point, ← pull_eval]
  ring

end

/-! ### Least squares -/

theorem normal_det (D : ℕ → P2 ℝ) : Geometry.det (normalM D) =
    ((D 0).x * (D 1).y - (D 1).x * (D 0).y) ^ 2 + ((D 0).x * (D 2).y - (D 2).x * (D 0).y) ^ 2 + ((D 1).x * (D 2).y - (D 2).x * (D 1).y) ^ 2 := by
  simp [Geometry.det, normalM, List.range_succ]
  ring

/-- **C103** The matrix `P` exists exactly if two of the three vectors are not in one direction. -/
theorem pCols_iff (D : ℕ → P2 ℝ) : (∃ P, pCols D = some P) ↔ ∃ i < 3, ∃ j < 3, (D i).x * (D j).y - (D j).x * (D i).y ≠ 0 := by
  constructor
  · rintro ⟨P, h⟩
    unfold pCols at h
    split at h
    · cases h
    · next hd =>
      rw [normal_det] at hd
      by_contra hn
      push Not at hn
      apply hd
      rw [hn 0 (by omega) 1 (by omega), hn 0 (by omega) 2 (by omega), hn 1 (by omega) 2 (by omega)]
      ring
  · rintro ⟨i, hi, j, hj, h⟩
    unfold pCols
    rw [if_neg]
    · exact ⟨_, rfl⟩
    · rw [normal_det]
      intro h0
      have h1 : (D 0).x * (D 1).y - (D 1).x * (D 0).y = 0 := by nlinarith [sq_nonneg ((D 0).x * (D 1).y - (D 1).x * (D 0).y), sq_nonneg ((D 0).x * (D 2).y - (D 2).x * (D 0).y), sq_nonneg ((D 1).x * (D 2).y - (D 2).x * (D 1).y)]
      have h2 : (D 0).x * (D 2).y - (D 2).x * (D 0).y = 0 := by nlinarith [sq_nonneg ((D 0).x * (D 1).y - (D 1).x * (D 0).y), sq_nonneg ((D 0).x * (D 2).y - (D 2).x * (D 0).y), sq_nonneg ((D 1).x * (D 2).y - (D 2).x * (D 1).y)]
      have h3 : (D 1).x * (D 2).y - (D 2).x * (D 1).y = 0 := by nlinarith [sq_nonneg ((D 0).x * (D 1).y - (D 1).x * (D 0).y), sq_nonneg ((D 0).x * (D 2).y - (D 2).x * (D 0).y), sq_nonneg ((D 1).x * (D 2).y - (D 2).x * (D 1).y)]
      apply h
      interval_cases i <;> interval_cases j <;> linarith

/-- The least squares solution for the differences of an affine function is its gradient. -/
theorem pCols_spec {D P : ℕ → P2 ℝ} (h : pCols D = some P) (g : P2 ℝ) :
    ((List.range 3).map fun f => (P f).x * ((D f).x * g.x + (D f).y * g.y)).sum = g.x ∧
      ((List.range 3).map fun f => (P f).y * ((D f).x * g.x + (D f).y * g.y)).sum = g.y := by
  unfold pCols at h
  split at h
  · cases h
  · next hd =>
    cases h
    have hd' : Geometry.det (normalM D) ≠ 0 := hd
    simp only [Geometry.inv, List.range_succ, List.range_zero, List.nil_append, List.cons_append, List.map_cons, List.map_nil, List.sum_cons, List.sum_nil, add_zero]
    constructor
    · field_simp
      simp [normalM, Geometry.det, List.range_succ]
      ring
    · field_simp
      simp [normalM, Geometry.det, List.range_succ]
      ring

/-- Value of an affine function. -/
def affine (a b c : ℝ) (x : P2 ℝ) : ℝ := a + b * x.x + c * x.y

/-- Its derivatives. -/
def slopeOf (b c : ℝ) (dir : ℕ) : ℝ := if dir = 0 then b else c

section
variable {dat : ℕ → EltData ℝ} {m : Mesh ℝ} {P : ℕ} {g : GradData ℝ}

theorem affine_neigh (hm : GradMesh dat m P) (a b c : ℝ) {cell : ℕ → ℝ} {w : ℕ → ℕ → ℝ} (hc : ∀ e ∈ m.elts, cell e = affine a b c (barycentre (dat e).elt.tri))
    (hw : ∀ e ∈ m.elts, ∀ f < 3, w e f = affine a b c (midpoint (dat e).elt.tri f)) {e f : ℕ} (he : e ∈ m.elts) (hf : f < 3) (init : ℕ → ℕ → ℝ) :
    nbs m cell w init e f = affine a b c (nbCoord dat m e f) := by
  unfold nbCoord
  rw [← nbs_map (affine a b c)]
  exact nbs_congr hm hc hw he hf

/-- **C103** Least squares with the values of an affine function at barycentres and, on the boundary, midpoints: its gradient. -/
theorem lsq_affine (hm : GradMesh dat m P) (hg : Ready dat m g) (a b c : ℝ) {cell : ℕ → ℝ} {w : ℕ → ℕ → ℝ} (hc : ∀ e ∈ m.elts, cell e = affine a b c (barycentre (dat e).elt.tri))
    (hw : ∀ e ∈ m.elts, ∀ f < 3, w e f = affine a b c (midpoint (dat e).elt.tri f)) {e : ℕ} (he : e ∈ m.elts) {dir : ℕ} (hdir : dir < 2) :
    lsq m g.P cell w dir e = slopeOf b c dir := by
  have hs := pCols_spec (hg.P e he) ⟨b, c⟩
  have hdiff : ∀ f ∈ List.range 3, nbs m cell w (fun _ _ => 0) e f - cell e = (dCol dat m e f).x * b + (dCol dat m e f).y * c := by
    intro f hf
    rw [affine_neigh hm a b c hc hw he (List.mem_range.1 hf), hc e he]
    simp only [affine, dCol]; ring
  unfold lsq
  rw [List.map_congr_left (fun f hf => by rw [hdiff f hf])]
  rcases (by omega : dir = 0 ∨ dir = 1) with rfl | rfl
  · exact hs.1
  · exact hs.2

/-! ### Reconstruction -/

/-- Values at vertices from averages at midpoints. -/
theorem fromMids_vertices (mid w : ℕ → ℝ) (h : ∀ f < 3, mid f = (w ((f + 1) % 3) + w ((f + 2) % 3)) / 2) {k : ℕ} (hk : k < 3) : fromMids mid k = w k := by
  have h0 := h 0 (by omega); have h1 := h 1 (by omega); have h2 := h 2 (by omega)
  interval_cases k <;> simp [fromMids, List.range_succ, h0, h1, h2] <;> ring

theorem fromMids_const (x : ℝ) {k : ℕ} (hk : k < 3) : fromMids (fun _ => x) k = x := fromMids_vertices _ (fun _ => x) (fun _ _ => by ring) hk

/-- The elements with a corner at node `n`, once for each such corner. -/
def corners (node : ℕ → ℕ → ℕ) (m : Mesh ℝ) (n : ℕ) : List ℕ := m.elts.flatMap fun e => ((List.range 3).filter fun k => node e k = n).map fun _ => e

theorem corners_sum (node : ℕ → ℕ → ℕ) (m : Mesh ℝ) (c : ℕ → ℝ) (n : ℕ) : nodeSums node m c n = ((corners node m n).map c).sum := by
  rw [nodeSums_eq]
  unfold corners
  rw [List.map_flatMap]
  induction m.elts with
  | nil => simp
  | cons e l ih =>
    rw [List.map_cons, List.sum_cons, List.flatMap_cons, List.sum_append, ih]
    congr 1
    rw [List.map_map]
    induction List.range 3 with
    | nil => simp
    | cons k r ihk =>
      rw [List.map_cons, List.sum_cons, ihk, List.filter_cons]
      by_cases h : node e k = n <;> simp [h]

theorem corners_length (node : ℕ → ℕ → ℕ) (m : Mesh ℝ) (n : ℕ) : nodeMult node m n = (corners node m n).length := by
  rw [nodeMult_eq]
  unfold corners
  induction m.elts with
  | nil => simp
  | cons e l ih =>
    rw [List.map_cons, List.sum_cons, List.flatMap_cons, List.length_append, ih]
    congr 1
    rw [List.length_map]
    induction List.range 3 with
    | nil => simp
    | cons k r ihk =>
      rw [List.map_cons, List.sum_cons, ihk, List.filter_cons]
      by_cases h : node e k = n <;> simp [h]; omega

/-- **C103** Reconstruction by averages: the value at a vertex is the mean over the corners of elements at that node. -/
theorem avg_mean (node : ℕ → ℕ → ℕ) (m : Mesh ℝ) (c : ℕ → ℝ) (e k : ℕ) :
    reconAvg node m c e k = ((corners node m (node e k)).map c).sum / (corners node m (node e k)).length := by
  unfold reconAvg
  rw [corners_sum, corners_length]

theorem corners_mem {node : ℕ → ℕ → ℕ} {m : Mesh ℝ} {n e : ℕ} : e ∈ corners node m n ↔ e ∈ m.elts ∧ ∃ k < 3, node e k = n := by
  unfold corners
  simp only [List.mem_flatMap, List.mem_map, List.mem_filter, List.mem_range, decide_eq_true_eq]
  constructor
  · rintro ⟨a, ha, k, ⟨hk, hn⟩, rfl⟩; exact ⟨ha, k, hk, hn⟩
  · rintro ⟨he, k, hk, hn⟩; exact ⟨e, he, k, ⟨hk, hn⟩, rfl⟩

theorem avg_const (node : ℕ → ℕ → ℕ) {c : ℕ → ℝ} {x : ℝ} (hc : ∀ e ∈ m.elts, c e = x) {e k : ℕ} (he : e ∈ m.elts) (hk : k < 3) : reconAvg node m c e k = x := by
  rw [avg_mean]
  have hmem : e ∈ corners node m (node e k) := corners_mem.2 ⟨he, k, hk, rfl⟩
  have hpos : 0 < (corners node m (node e k)).length := List.length_pos_of_mem hmem
  rw [List.map_congr_left (g := fun _ => x) fun e' he' => hc e' (corners_mem.1 he').1]
  simp
  field_simp

theorem interp_lt {t : Tri ℝ} {nb : ℕ → P2 ℝ} {f : ℕ} (hf : f < 3) {A : Interp ℝ} (h : interp t nb f = some A) : A.e0 < 3 ∧ A.e1 < 3 := by
  unfold interp at h
  have key : ∀ perms, findInterp t nb f perms = some A → A.e0 < 3 ∧ A.e1 < 3 := by
    intro perms
    induction perms with
    | nil => intro h; simp only [findInterp] at h; cases h; exact ⟨by decide, by decide⟩
    | cons a l ih =>
      intro h
      rw [findInterp] at h
      split at h
      · cases h
      · split at h
        · cases h; exact ⟨hf, Nat.mod_lt _ (by omega)⟩
        · exact ih h
  exact key _ h

/-- **C103** All reconstructions keep constants. -/
theorem recon_const (hm : GradMesh dat m P) (hg : Ready dat m g) (k : Recon) {c : ℕ → ℝ} {x : ℝ} (hc : ∀ e ∈ m.elts, c e = x) {e w : ℕ} (he : e ∈ m.elts) (hw : w < 3) :
    recon dat m g k c e w = x := by
  have hn : ∀ f < 3, nbs m c (fun e _ => c e) (fun _ _ => 0) e f = x := by
    intro f hf
    rw [nbs_congr hm (c' := fun _ => x) (w' := fun _ _ => x) (init' := fun _ _ => x) hc (fun e he f _ => hc e he) he hf]
    exact nbs_map (fun _ : Unit => x) m (fun _ => ()) (fun _ _ => ()) (fun _ _ => ()) e f
  cases k with
  | avg => exact avg_const g.node hc he hw
  | int =>
    show reconInt m g.a c e w = x
    unfold reconInt
    rw [fromMids_vertices _ (fun _ => x) _ hw]
    intro f hf
    obtain ⟨h0, h1⟩ := interp_lt hf (hg.a e he f hf)
    rw [hn _ h0, hn _ h1, hc e he]; ring
  | ls =>
    show reconLs dat m g.P c e w = x
    unfold reconLs
    rw [fromMids_vertices _ (fun _ => x) _ hw]
    intro f hf
    rw [List.map_congr_left (g := fun _ => (0 : ℝ)) (fun k hk => by rw [hn k (List.mem_range.1 hk), hc e he]; ring), hc e he]
    simp

/-- At an element without boundary the neighbours of an affine function are where the method thinks. -/
theorem inner_neigh (hm : GradMesh dat m P) {a b c : ℝ} {cell : ℕ → ℝ} (hc : ∀ e ∈ m.elts, cell e = affine a b c (barycentre (dat e).elt.tri)) {e : ℕ} (he : e ∈ m.elts)
    (hin : ∀ b ∈ m.bnds, b.e ≠ e) {f : ℕ} (hf : f < 3) : nbs m cell (fun e _ => cell e) (fun _ _ => 0) e f = affine a b c (nbCoord dat m e f) := by
  have h1 := nbs_map (Prod.fst : ℝ × P2 ℝ → ℝ) m (fun e => (cell e, barycentre (dat e).elt.tri)) (fun e f => (cell e, midpoint (dat e).elt.tri f)) (fun _ _ => (0, ⟨0, 0⟩)) e f
  have h2 := nbs_map (Prod.snd : ℝ × P2 ℝ → P2 ℝ) m (fun e => (cell e, barycentre (dat e).elt.tri)) (fun e f => (cell e, midpoint (dat e).elt.tri f)) (fun _ _ => (0, ⟨0, 0⟩)) e f
  simp only at h1 h2
  unfold nbCoord
  rw [h1, h2]
  rcases nbs_spec hm (fun e => (cell e, barycentre (dat e).elt.tri)) (fun e f => (cell e, midpoint (dat e).elt.tri f)) (fun _ _ => ((0 : ℝ), (⟨0, 0⟩ : P2 ℝ))) he hf with
    ⟨i, hi, h | h⟩ | ⟨b', hb, h, _⟩
  · rw [h.2.2]; exact hc _ (hm.ends i hi).2
  · rw [h.2.2]; exact hc _ (hm.ends i hi).1
  · exact absurd h (hin b' hb)

theorem mid_affine (a b c : ℝ) (t : Tri ℝ) (f : ℕ) : affine a b c (midpoint t f) = (affine a b c (vertex t ((f + 1) % 3)) + affine a b c (vertex t ((f + 2) % 3))) / 2 := by
  simp only [affine, Geometry.midpoint]; ring

/-- **C103** Reconstruction by least squares keeps affine functions in elements without boundary. -/
theorem ls_affine (hm : GradMesh dat m P) (hg : Ready dat m g) {a b c : ℝ} {cell : ℕ → ℝ} (hc : ∀ e ∈ m.elts, cell e = affine a b c (barycentre (dat e).elt.tri)) {e : ℕ} (he : e ∈ m.elts)
    (hin : ∀ b ∈ m.bnds, b.e ≠ e) {k : ℕ} (hk : k < 3) : recon dat m g .ls cell e k = affine a b c (vertex (dat e).elt.tri k) := by
  show reconLs dat m g.P cell e k = _
  unfold reconLs
  refine fromMids_vertices _ (fun k => affine a b c (vertex (dat e).elt.tri k)) (fun f hf => ?_) hk
  rw [← mid_affine, hc e he]
  obtain ⟨s1, s2⟩ := pCols_spec (hg.P e he) ⟨b, c⟩
  have hn : ∀ k < 3, nbs m cell (fun e _ => cell e) (fun _ _ => 0) e k - affine a b c (barycentre (dat e).elt.tri) = (dCol dat m e k).x * b + (dCol dat m e k).y * c := by
    intro k hk
    rw [inner_neigh hm hc he hin hk]
    simp only [affine, dCol]; ring
  simp only [List.range_succ, List.range_zero, List.nil_append, List.cons_append, List.map_cons, List.map_nil, List.sum_cons, List.sum_nil, add_zero] at s1 s2 ⊢
  rw [hn 0 (by omega), hn 1 (by omega), hn 2 (by omega)]
  have e1 : affine a b c (midpoint (dat e).elt.tri f) = b * (dxCol (dat e).elt.tri f).x + c * (dxCol (dat e).elt.tri f).y + affine a b c (barycentre (dat e).elt.tri) := by
    simp only [affine, dxCol]; ring
  rw [e1]
  linear_combination (dxCol (dat e).elt.tri f).x * s1 + (dxCol (dat e).elt.tri f).y * s2

/-! ### Interpolation coefficients -/

theorem snap_near (x : ℝ) : |snap x - x| ≤ 100 / 2 ^ 52 := by
  unfold snap
  split
  · next h =>
    unfold Stepper.almostEqual Stepper.epsDouble at h
    rw [abs_zero, max_eq_left (abs_nonneg x)] at h
    split at h
    · next h' =>
      rw [zero_sub, abs_neg]
      refine h'.le.trans (by norm_num)
    · next h' =>
      have h2 := of_decide_eq_true h
      rw [sub_zero] at h2
      exfalso
      have : 0 ≤ |x| := abs_nonneg x
      nlinarith
  · rw [sub_self, abs_zero]; positivity

theorem alpha_solves {mid bary n1 n2 : P2 ℝ} (h : ¬Geometry.det (⟨n1.x - bary.x, n2.x - bary.x, n1.y - bary.y, n2.y - bary.y⟩ : M2 ℝ) = 0) :
    mid.x - bary.x = (slAlpha mid bary n1 n2).1 * (n1.x - bary.x) + (slAlpha mid bary n1 n2).2 * (n2.x - bary.x) ∧
      mid.y - bary.y = (slAlpha mid bary n1 n2).1 * (n1.y - bary.y) + (slAlpha mid bary n1 n2).2 * (n2.y - bary.y) := by
  simp only [slAlpha, Geometry.inv]
  simp only [Geometry.det] at h ⊢
  generalize hD : (n1.x - bary.x) * (n2.y - bary.y) - (n2.x - bary.x) * (n1.y - bary.y) = D at *
  constructor
  · field_simp; rw [← hD]; ring
  · field_simp; rw [← hD]; ring

/-- What `interp` finds: nothing, or nonnegative coefficients of the neighbour across the side and of another one, which are, up to coefficients below 100 machine epsilon set to zero, those of the
midpoint. -/
theorem interp_spec {t : Tri ℝ} {nb : ℕ → P2 ℝ} {f : ℕ} (hf : f < 3) {A : Interp ℝ} (h : interp t nb f = some A) :
    (A = ⟨0, 0, 0, 0⟩) ∨ (A.e0 = f ∧ A.e1 < 3 ∧ A.e1 ≠ f ∧ 0 ≤ A.a0 ∧ 0 ≤ A.a1 ∧ ∃ x y : ℝ, |A.a0 - x| ≤ 100 / 2 ^ 52 ∧ |A.a1 - y| ≤ 100 / 2 ^ 52 ∧
      (midpoint t f).x - (barycentre t).x = x * ((nb f).x - (barycentre t).x) + y * ((nb A.e1).x - (barycentre t).x) ∧
      (midpoint t f).y - (barycentre t).y = x * ((nb f).y - (barycentre t).y) + y * ((nb A.e1).y - (barycentre t).y)) := by
  unfold interp at h
  have key : ∀ perms, (∀ a ∈ perms, a = 0 ∨ a = 1) → findInterp t nb f perms = some A → (A = ⟨0, 0, 0, 0⟩) ∨ (A.e0 = f ∧ A.e1 < 3 ∧ A.e1 ≠ f ∧ 0 ≤ A.a0 ∧ 0 ≤ A.a1 ∧ ∃ x y : ℝ,
      |A.a0 - x| ≤ 100 / 2 ^ 52 ∧ |A.a1 - y| ≤ 100 / 2 ^ 52 ∧
      (midpoint t f).x - (barycentre t).x = x * ((nb f).x - (barycentre t).x) + y * ((nb A.e1).x - (barycentre t).x) ∧
      (midpoint t f).y - (barycentre t).y = x * ((nb f).y - (barycentre t).y) + y * ((nb A.e1).y - (barycentre t).y)) := by
    intro perms
    induction perms with
    | nil => intro _ h; simp only [findInterp] at h; cases h; exact Or.inl rfl
    | cons a l ih =>
      intro hp h
      rw [findInterp] at h
      split at h
      · cases h
      · next al hs =>
        split at h
        · next hpos =>
          cases h
          right
          refine ⟨rfl, Nat.mod_lt _ (by omega), ?_, hpos.1, hpos.2, al.1, al.2, snap_near _, snap_near _, ?_⟩
          · rcases hp a (by simp) with rfl | rfl <;> simp only <;> omega
          · unfold solveAlpha at hs
            split at hs
            · cases hs
            · next hd =>
              cases hs
              exact alpha_solves hd
        · exact ih (fun b hb => hp b (List.mem_cons_of_mem _ hb)) h
  exact key _ (by simp) h

/-- **C103** Reconstruction by interpolation, up to coefficients set to zero, keeps affine functions in elements without boundary, if coefficients were found for all sides: the error at a vertex is
at most 100 machine epsilon times the differences to the neighbours used. -/
theorem int_near (hm : GradMesh dat m P) (hg : Ready dat m g) {a b c : ℝ} {cell : ℕ → ℝ} (hc : ∀ e ∈ m.elts, cell e = affine a b c (barycentre (dat e).elt.tri)) {e : ℕ} (he : e ∈ m.elts)
    (hin : ∀ b ∈ m.bnds, b.e ≠ e) (hfound : ∀ f < 3, (g.a e f).e0 ≠ (g.a e f).e1) {k : ℕ} (hk : k < 3) {d : ℝ} (hd : ∀ f < 3, |affine a b c (nbCoord dat m e f) - cell e| ≤ d) :
    |recon dat m g .int cell e k - affine a b c (vertex (dat e).elt.tri k)| ≤ 6 * (100 / 2 ^ 52) * d := by
  show |reconInt m g.a cell e k - _| ≤ _
  unfold reconInt
  have hmid : ∀ f < 3, |(cell e + (nbs m cell (fun e _ => cell e) (fun _ _ => 0) e (g.a e f).e0 - cell e) * (g.a e f).a0 +
      (nbs m cell (fun e _ => cell e) (fun _ _ => 0) e (g.a e f).e1 - cell e) * (g.a e f).a1) - affine a b c (midpoint (dat e).elt.tri f)| ≤ 2 * (100 / 2 ^ 52) * d := by
    intro f hf
    rcases interp_spec hf (hg.a e he f hf) with h | ⟨h0, h1, h2, _, _, x, y, hx, hy, ex, ey⟩
    · exfalso; apply hfound f hf; rw [h]
    · rw [h0, inner_neigh hm hc he hin hf, inner_neigh hm hc he hin h1]
      have e1 : affine a b c (midpoint (dat e).elt.tri f) = cell e + (affine a b c (nbCoord dat m e f) - cell e) * x + (affine a b c (nbCoord dat m e (g.a e f).e1) - cell e) * y := by
        rw [hc e he]
        simp only [affine]
        linear_combination b * ex + c * ey
      have e2 : cell e + (affine a b c (nbCoord dat m e f) - cell e) * (g.a e f).a0 + (affine a b c (nbCoord dat m e (g.a e f).e1) - cell e) * (g.a e f).a1 -
          affine a b c (midpoint (dat e).elt.tri f) =
          (affine a b c (nbCoord dat m e f) - cell e) * ((g.a e f).a0 - x) + (affine a b c (nbCoord dat m e (g.a e f).e1) - cell e) * ((g.a e f).a1 - y) := by
        rw [e1]; ring
      rw [e2]
      refine (abs_add_le _ _).trans ?_
      rw [abs_mul, abs_mul]
      have b1 := mul_le_mul (hd f hf) hx (abs_nonneg _) ((abs_nonneg _).trans (hd f hf))
      have b2 := mul_le_mul (hd _ h1) hy (abs_nonneg _) ((abs_nonneg _).trans (hd f hf))
      linarith
  have hlin : ∀ M w : ℕ → ℝ, (∀ f < 3, |M f - (w ((f + 1) % 3) + w ((f + 2) % 3)) / 2| ≤ 2 * (100 / 2 ^ 52) * d) → |fromMids M k - w k| ≤ 6 * (100 / 2 ^ 52) * d := by
    intro M w h
    have h0 := abs_le.1 (h 0 (by omega)); have h1 := abs_le.1 (h 1 (by omega)); have h2 := abs_le.1 (h 2 (by omega))
    rw [abs_le]
    interval_cases k <;> simp [fromMids, List.range_succ] at * <;> constructor <;> linarith [h0.1, h0.2, h1.1, h1.2, h2.1, h2.2]
  exact hlin _ (fun k => affine a b c (vertex (dat e).elt.tri k)) fun f hf => by
    rw [← mid_affine]; exact hmid f hf

/-- **C103** Without coefficients set to zero the reconstruction by interpolation is exact. -/
theorem int_affine (hm : GradMesh dat m P) (hg : Ready dat m g) {a b c : ℝ} {cell : ℕ → ℝ} (hc : ∀ e ∈ m.elts, cell e = affine a b c (barycentre (dat e).elt.tri)) {e : ℕ} (he : e ∈ m.elts)
    (hin : ∀ b ∈ m.bnds, b.e ≠ e) (hex : ∀ f < 3, ∃ o < 3, o ≠ f ∧ (g.a e f).e0 = f ∧ (g.a e f).e1 = o ∧
      solveAlpha (midpoint (dat e).elt.tri f) (barycentre (dat e).elt.tri) (nbCoord dat m e f) (nbCoord dat m e o) = some ((g.a e f).a0, (g.a e f).a1)) {k : ℕ} (hk : k < 3) :
    recon dat m g .int cell e k = affine a b c (vertex (dat e).elt.tri k) := by
  show reconInt m g.a cell e k = _
  unfold reconInt
  refine fromMids_vertices _ (fun k => affine a b c (vertex (dat e).elt.tri k)) (fun f hf => ?_) hk
  rw [← mid_affine]
  obtain ⟨o, ho, _, h0, h1, hs⟩ := hex f hf
  rw [h0, h1, inner_neigh hm hc he hin hf, inner_neigh hm hc he hin ho, hc e he]
  unfold solveAlpha at hs
  split at hs
  · cases hs
  · next hd =>
    have hs := Option.some.inj hs
    obtain ⟨s1, s2⟩ := alpha_solves (mid := Geometry.midpoint (dat e).elt.tri f) hd
    rw [hs] at s1 s2
    simp only at s1 s2
    simp only [affine]
    linear_combination -b * s1 - c * s2

end

/-! ### Values at vertices -/

/-- The first three functions of the basis are those of the matrices between vertices and coefficients: linear, with the values of `basisLinear` at the vertices. -/
structure LinearBasis (N : Numerics ℝ) : Prop where
  one : ∀ z, Reg z → N.basis.phi 1 z = (1 + 3 * z.y) / 2
  two : ∀ z, Reg z → N.basis.phi 2 z = (1 + 2 * z.x + z.y) / 2

section
variable {v : Env ℝ} {dat : ℕ → EltData ℝ} {m : Mesh ℝ} {F : ℕ → MvPolynomial (Fin 2) ℝ} {P : ℕ} {ε : ℝ}

theorem three_dofs {p : ℕ} (hp : 1 ≤ p) : 3 ≤ ndof p := le_trans (by decide : 3 ≤ ndof 1) (ndof_mono hp)

/-- Values at vertices are interpolated linearly. -/
theorem linRow_value (hR : Rules v.N F P ε) (hL : LinearBasis v.N) (lin : ℕ → ℕ → ℝ) {e : ℕ} (hp : 1 ≤ (dat e).elt.p) {z : P2 ℝ} (hz : Reg z) :
    linRow v dat lin e z = lin e 0 * (-(z.x + z.y) / 2) + lin e 1 * ((1 + z.x) / 2) + lin e 2 * ((1 + z.y) / 2) := by
  unfold linRow rowOf Elt.value
  rw [sum_range_list]
  have h3 := three_dofs hp
  rw [← Finset.sum_subset (Finset.range_subset_range.2 h3)]
  · rw [Finset.sum_range_succ, Finset.sum_range_succ, Finset.sum_range_one, hR.phi0, hL.one z hz, hL.two z hz]
    simp [linearToBasis, linearBasis, List.range_succ]
    ring
  · intro d _ hd
    have hd' : 3 ≤ d := by simpa using hd
    have h0 : linearToBasis (lin e) d = 0 := by
      have n0 : d ≠ 0 := by omega
      have n1 : d ≠ 1 := by omega
      have n2 : d ≠ 2 := by omega
      simp [linearToBasis, linearBasis, List.range_succ, n0, n1, n2]
    show linearToBasis (lin e) d * _ = 0
    rw [h0, zero_mul]

/-- A polynomial is determined by its values at regular points. -/
theorem reg_funext {G H : MvPolynomial (Fin 2) ℝ} (h : ∀ z, Reg z → eval ![z.x, z.y] G = eval ![z.x, z.y] H) : G = H := by
  have hne : (X 1 - C 1 : MvPolynomial (Fin 2) ℝ) ≠ 0 := by
    intro h0
    have := congrArg (eval ![0, 0]) h0
    simp at this
  refine mul_right_cancel₀ hne (MvPolynomial.funext fun x => ?_)
  have hx : x = ![x 0, x 1] := by funext i; rcases (by fin_cases i <;> simp : i = 0 ∨ i = 1) with rfl | rfl <;> rfl
  rw [hx, map_mul, map_mul]
  by_cases h1 : x 1 = 1
  · simp [h1]
  · rw [h ⟨x 0, x 1⟩ (Or.inl h1)]

theorem corner_reg (k : ℕ) : Reg (Basis.Props.corner k) := by
  unfold Basis.Props.corner Reg
  split_ifs <;> norm_num

/-- Values at the vertices of an affine function given by coefficients. -/
theorem lin_of_poly (hR : Rules v.N F P ε) (hO : Orthogonal v.N F P) (hL : LinearBasis v.N) {d : EltData ℝ} (hP : d.elt.p ≤ P) (hp : 1 ≤ d.elt.p) {c : ℕ → ℝ}
    {G : MvPolynomial (Fin 2) ℝ} (hG : G.totalDegree ≤ 1) (h : ∀ z, Reg z → d.elt.value v.N c z = eval ![z.x, z.y] G) {k : ℕ} (hk : k < 3) :
    basisToLinear (ndof d.elt.p) c k = eval ![(Basis.Props.corner k).x, (Basis.Props.corner k).y] G := by
  have h3 := three_dofs hp
  have hsum : ∑ j ∈ Finset.range (ndof d.elt.p), C (c j) * F j = G := by
    refine reg_funext fun z hz => ?_
    rw [← h z hz]
    exact (bath_value hR (d := ⟨d.elt, c, d.src⟩) hP hz).symm
  have hc : ∀ j < ndof d.elt.p, v.N.basis.minv j * I2L (G * F j) = c j := by
    intro j hj
    have hj' := lt_of_lt_of_le hj (ndof_mono hP)
    rw [← hsum, I2L_sum, Finset.sum_eq_single j]
    · rw [I2L_eq hO hj' hj', if_pos rfl, mul_comm, mul_assoc, inv_mul_cancel₀ (hO j hj').1, mul_one]
    · intro b hb hne
      rw [I2L_eq hO (lt_of_lt_of_le (Finset.mem_range.mp hb) (ndof_mono hP)) hj', if_neg hne, mul_zero]
    · intro h; exact absurd (Finset.mem_range.2 hj) h
  have hex := expansion hO hR.degree (le_trans hp hP) hG
  rw [show ndof 1 = 3 from rfl] at hex
  have hval : eval ![(Basis.Props.corner k).x, (Basis.Props.corner k).y] G = ∑ j ∈ Finset.range 3, c j * v.N.basis.phi j (Basis.Props.corner k) := by
    conv_lhs => rw [hex]
    rw [map_sum]
    refine Finset.sum_congr rfl fun j hj => ?_
    have hj3 := Finset.mem_range.1 hj
    rw [map_mul, eval_C, hc j (by omega), (hR.basis j (lt_of_lt_of_le (by omega) (ndof_mono hP)) _ (corner_reg k)).1]
  rw [hval]
  unfold basisToLinear
  rw [sum_range_list, ← Finset.sum_subset (Finset.range_subset_range.2 h3)]
  · refine Finset.sum_congr rfl fun j hj => ?_
    have hj3 := Finset.mem_range.1 hj
    congr 1
    interval_cases j
    · rw [hR.phi0]; rfl
    · rw [hL.one _ (corner_reg k)]
      interval_cases k <;> norm_num [basisLinear, Basis.Props.corner]
    · rw [hL.two _ (corner_reg k)]
      interval_cases k <;> norm_num [basisLinear, Basis.Props.corner]
  · intro j _ hj
    have : 3 ≤ j := by simpa using hj
    have n0 : j ≠ 0 := by omega
    have n1 : j ≠ 1 := by omega
    have n2 : j ≠ 2 := by omega
    simp [basisLinear, n0, n1, n2]

/-- The polynomial of an affine function. -/
noncomputable def affPoly (a b c : ℝ) : MvPolynomial (Fin 2) ℝ := C a + C b * X 0 + C c * X 1

theorem affPoly_eval (a b c : ℝ) (x : P2 ℝ) : eval ![x.x, x.y] (affPoly a b c) = affine a b c x := by simp [affPoly, affine]

theorem corner_point (t : Tri ℝ) {k : ℕ} (hk : k < 3) : pointOf t (Basis.Props.corner k) = vertex t k := by
  interval_cases k <;> simp [pointOf, Basis.Props.corner, vertex]

theorem vertex_values (hR : Rules v.N F P ε) (hO : Orthogonal v.N F P) (hL : LinearBasis v.N) {d : EltData ℝ} (hP : d.elt.p ≤ P) (hp : 1 ≤ d.elt.p) {w : ℕ → ℝ} {a b c : ℝ}
    (h : ∀ z, Reg z → d.elt.value v.N w z = affine a b c (pointOf d.elt.tri z)) {k : ℕ} (hk : k < 3) :
    basisToLinear (ndof d.elt.p) w k = affine a b c (vertex d.elt.tri k) := by
  rw [lin_of_poly hR hO hL hP hp (G := pull d.elt.tri (affPoly a b c)) ((pull_degree _ _).trans (linear_degree a b c)) (fun z hz => by rw [h z hz, pull_eval, affPoly_eval]) hk, pull_eval,
    affPoly_eval, corner_point _ hk]

theorem atBary_affine (a b c : ℝ) (t : Tri ℝ) {lin : ℕ → ℝ} (h : ∀ k < 3, lin k = affine a b c (vertex t k)) : atBary lin = affine a b c (barycentre t) := by
  unfold atBary
  rw [h 0 (by omega), h 1 (by omega), h 2 (by omega)]
  simp [affine, vertex, barycentre, chiBary]; ring

theorem atMid_affine (a b c : ℝ) (t : Tri ℝ) {lin : ℕ → ℝ} (h : ∀ k < 3, lin k = affine a b c (vertex t k)) {f : ℕ} (hf : f < 3) : atMid lin f = affine a b c (Geometry.midpoint t f) := by
  unfold atMid
  rw [h 0 (by omega), h 1 (by omega), h 2 (by omega)]
  interval_cases f <;> simp [affine, vertex, Geometry.midpoint, chiMid] <;> ring

end

/-! ### Affine fields -/

/-- The field is affine on the mesh. -/
def IsAffine (dat : ℕ → EltData ℝ) (m : Mesh ℝ) (R : Row ℝ) (a b c : ℝ) : Prop := ∀ e ∈ m.elts, ∀ z, Reg z → R e z = affine a b c (pointOf (dat e).elt.tri z)

/-- All elements of the mesh have the same value at all vertices. -/
def AllAre (m : Mesh ℝ) (lin : ℕ → ℕ → ℝ) (x : ℝ) : Prop := ∀ e ∈ m.elts, ∀ k < 3, lin e k = x

section
variable {v : Env ℝ} {dat : ℕ → EltData ℝ} {m : Mesh ℝ} {F : ℕ → MvPolynomial (Fin 2) ℝ} {P : ℕ} {g : GradData ℝ} {R : Row ℝ} {a b c ε : ℝ}

theorem isAffine_agrees (h : IsAffine dat m R a b c) : Agrees dat m R (affPoly a b c) := fun e he z hz => by rw [h e he z hz, affPoly_eval]

theorem linRow_const (hR : Rules v.N F P 0) (hL : LinearBasis v.N) (hp : ∀ e ∈ m.elts, 1 ≤ (dat e).elt.p) {lin : ℕ → ℕ → ℝ} {x : ℝ} (h : AllAre m lin x) :
    IsAffine dat m (linRow v dat lin) x 0 0 := by
  intro e he z hz
  rw [linRow_value hR hL lin (hp e he) hz, h e he 0 (by omega), h e he 1 (by omega), h e he 2 (by omega)]
  simp only [affine]; ring

theorem gg_affine (hR : Rules v.N F P 0) (hs : IsSqrt v.sq) (hm : GradMesh dat m P) (hp : ∀ e ∈ m.elts, 1 ≤ (dat e).elt.p) (h : IsAffine dat m R a b c) {e : ℕ} (he : e ∈ m.elts) {dir : ℕ}
    (hdir : dir < 2) : gg v dat m R dir e = slopeOf b c dir := by
  have := gg_quadratic hR hs hm (isAffine_agrees h) ((linear_degree a b c).trans (by omega)) he (hp e he) ⟨dir, hdir⟩
  simp only at this
  rw [this]
  rcases (by omega : dir = 0 ∨ dir = 1) with rfl | rfl <;>
    simp [affPoly, slopeOf, pderiv_X_of_ne (show (0 : Fin 2) ≠ 1 by decide), pderiv_X_of_ne (show (1 : Fin 2) ≠ 0 by decide), pderiv_X_self]

theorem ggLin_affine (hR : Rules v.N F P 0) (hs : IsSqrt v.sq) (hm : GradMesh dat m P) (hp : ∀ e ∈ m.elts, 1 ≤ (dat e).elt.p) (hg : Ready dat m g) (k : Recon) (h : IsAffine dat m R a b c)
    {dir : ℕ} (hdir : dir < 2) : AllAre m (ggLin v dat m g k R dir) (slopeOf b c dir) := fun e he w hw =>
  recon_const hm hg k (fun e he => gg_affine hR hs hm hp h he hdir) he hw

theorem slope_zero (dir : ℕ) : slopeOf 0 0 dir = 0 := by unfold slopeOf; split <;> rfl

/-- **C103** Green-Gauss, any reconstruction, fields that are affine on the mesh: the derivatives of the level, the velocity and the bathymetry are the slopes, the second and third derivatives zero. -/
theorem gg_exact_affine (hR : Rules v.N F P 0) (hL : LinearBasis v.N) (hS : SymRules v.N P) (hs : IsSqrt v.sq) (hm : GradMesh dat m P) (hp : ∀ e ∈ m.elts, 1 ≤ (dat e).elt.p)
    (hg : Ready dat m g) (k : Recon) {q : State ℝ} :
    (∀ a b c, IsAffine dat m (rowOf v dat fun e => q e 0) a b c → ∀ dir < 2, AllAre m (dzeGg v dat m g k q dir) (slopeOf b c dir)) ∧
    (∀ r < 2, ∀ a b c, IsAffine dat m (uRow v dat q r) a b c → ∀ i < 2, AllAre m (duGg v dat m g k q (2 * r + i)) (slopeOf b c i) ∧
      ∀ j < 2, AllAre m (dduGg v dat m g k q (2 * (2 * r + i) + j)) 0) ∧
    (∀ a b c, IsAffine dat m (bathRow v dat) a b c → ∀ i < 2, AllAre m (dbathGg v dat m g k i) (slopeOf b c i) ∧
      ∀ j < 2, AllAre m (ddbathGg v dat m g k (2 * i + j)) 0 ∧ ∀ l < 2, AllAre m (dddbathGg v dat m g k (2 * (2 * i + j) + l)) 0) := by
  have h2 : ∀ r i : ℕ, i < 2 → (2 * r + i) / 2 = r ∧ (2 * r + i) % 2 = i := fun r i hi => ⟨by omega, by omega⟩
  refine ⟨fun a b c h dir hdir => ggLin_affine hR hs hm hp hg k h hdir, fun r hr a b c h i hi => ?_, fun a b c h i hi => ?_⟩
  · have h1 : AllAre m (duGg v dat m g k q (2 * r + i)) (slopeOf b c i) := by
      unfold duGg
      rw [(h2 r i hi).1, (h2 r i hi).2]
      exact ggLin_affine hR hs hm hp hg k h hi
    refine ⟨h1, fun j hj => ?_⟩
    unfold dduGg
    rw [(h2 _ j hj).1, (h2 _ j hj).2, ← slope_zero j]
    exact ggLin_affine hR hs hm hp hg k (linRow_const hR hL hp h1) hj
  · have h1 : AllAre m (dbathGg v dat m g k i) (slopeOf b c i) := ggLin_affine hR hs hm hp hg k h hi
    refine ⟨h1, fun j hj => ?_⟩
    have hd : AllAre m (ddbathGg v dat m g k (2 * i + j)) 0 := by
      unfold ddbathGg
      rw [(h2 _ j hj).1, (h2 _ j hj).2]
      intro e he w hw
      have hA := linRow_const (v := v) hR hL hp h1
      refine recon_const hm hg k (fun e he => ?_) he hw
      rw [ggHat_cont (fun i hi gp hgp => agrees_cont hS hm (isAffine_agrees hA) hi hgp), gg_affine hR hs hm hp hA he hj, slope_zero]
    refine ⟨hd, fun l hl => ?_⟩
    unfold dddbathGg
    rw [(h2 _ l hl).1, (h2 _ l hl).2, ← slope_zero l]
    exact ggLin_affine hR hs hm hp hg k (linRow_const hR hL hp hd) hl

theorem lsLin_affine (hm : GradMesh dat m P) (hg : Ready dat m g) (k : Recon) {lin : ℕ → ℕ → ℝ} (h : ∀ e ∈ m.elts, ∀ w < 3, lin e w = affine a b c (vertex (dat e).elt.tri w)) {dir : ℕ}
    (hdir : dir < 2) : AllAre m (lsLin dat m g k lin dir) (slopeOf b c dir) := fun e he w hw =>
  recon_const hm hg k (fun e he => lsq_affine hm hg a b c (fun e he => atBary_affine a b c _ (h e he)) (fun e he f hf => atMid_affine a b c _ (h e he) hf) he hdir) he hw

theorem lsLin_const (hm : GradMesh dat m P) (hg : Ready dat m g) (k : Recon) {lin : ℕ → ℕ → ℝ} {x : ℝ} (h : AllAre m lin x) {dir : ℕ} (hdir : dir < 2) : AllAre m (lsLin dat m g k lin dir) 0 := by
  rw [← slope_zero dir]
  exact lsLin_affine (a := x) hm hg k (fun e he w hw => by rw [h e he w hw]; simp [affine]) hdir

/-- The projection of an affine field onto the basis. -/
theorem project_affine (hR : Rules v.N F P 0) (hO : Orthogonal v.N F P) (hm : GradMesh dat m P) (hp : ∀ e ∈ m.elts, 1 ≤ (dat e).elt.p) (h : IsAffine dat m R a b c) {e : ℕ} (he : e ∈ m.elts)
    {z : P2 ℝ} (hz : Reg z) : (dat e).elt.value v.N ((dat e).elt.applyMinv v.N ((dat e).elt.intPhi v.N (R e))) z = affine a b c (pointOf (dat e).elt.tri z) := by
  have hd := hm.degree e he
  set G := pull (dat e).elt.tri (affPoly a b c) with hGdef
  have hG : G.totalDegree ≤ 1 := (pull_degree _ _).trans (linear_degree a b c)
  have hval : ∀ z, Reg z → R e z = eval ![z.x, z.y] G := fun z hz => by rw [h e he z hz, pull_eval, affPoly_eval]
  have hc : ∀ j < ndof (dat e).elt.p, (dat e).elt.applyMinv v.N ((dat e).elt.intPhi v.N (R e)) j = v.N.basis.minv j * I2L (G * F j) := by
    intro j hj
    have hdeg : (G * F j).totalDegree ≤ 2 * (dat e).elt.p := (totalDegree_mul _ _).trans (by have := hR.degree _ hd j hj; have := hp e he; omega)
    have ht := tri_approx (r := v.N.tri (2 * (dat e).elt.p)) (hR.tri _ hd) (G * F j) hdeg
    rw [zero_mul, abs_nonpos_iff, sub_eq_zero] at ht
    rw [← ht]
    have hj0 : |jdet (dat e).elt.tri| ≠ 0 := (abs_pos.2 (hm.ccw e he).ne').ne'
    have hint : (dat e).elt.intPhi v.N (R e) j = |jdet (dat e).elt.tri| * triL (v.N.tri (2 * (dat e).elt.p)) (G * F j) := by
      simp only [Elt.intPhi, Elt.gps, triL, LinearMap.coe_mk, AddHom.coe_mk]
      rw [← List.sum_map_mul_left]
      congr 1
      refine List.map_congr_left fun wz hwz => ?_
      have hz : wz.2.y ≠ 1 ∨ wz.2 = ⟨-1, 1⟩ := Or.inl (hR.pts _ hd wz hwz)
      rw [hval _ hz, (hR.basis j (lt_of_lt_of_le hj (ndof_mono hd)) wz.2 hz).1]
      simp only [map_mul]
      ring
    simp only [Elt.applyMinv]
    rw [hint]
    field_simp
  rw [← affPoly_eval, ← pull_eval]
  conv_rhs => rw [← hGdef, expansion hO hR.degree hd (hG.trans (hp e he))]
  rw [← bath_value hR (d := ⟨(dat e).elt, fun d => v.N.basis.minv d * I2L (G * F d), (dat e).src⟩) hd hz]
  unfold Elt.value
  rw [sum_range_list, sum_range_list]
  exact Finset.sum_congr rfl fun j hj => by rw [hc j (Finset.mem_range.1 hj)]

/-- **C103** Least squares, any reconstruction, fields that are affine on the mesh. -/
theorem ls_exact_affine (hR : Rules v.N F P 0) (hO : Orthogonal v.N F P) (hL : LinearBasis v.N) (hm : GradMesh dat m P) (hp : ∀ e ∈ m.elts, 1 ≤ (dat e).elt.p)
    (hg : Ready dat m g) (k : Recon) {q : State ℝ} :
    (∀ a b c, IsAffine dat m (rowOf v dat fun e => q e 0) a b c → ∀ dir < 2, AllAre m (dzeLs dat m g k q dir) (slopeOf b c dir)) ∧
    (∀ r < 2, ∀ a b c, IsAffine dat m (uRow v dat q r) a b c → ∀ i < 2, AllAre m (duLs v dat m g k q (2 * r + i)) (slopeOf b c i) ∧
      ∀ j < 2, AllAre m (dduLs v dat m g k q (2 * (2 * r + i) + j)) 0) ∧
    (∀ a b c, IsAffine dat m (bathRow v dat) a b c → ∀ i < 2, AllAre m (dbathLs dat m g k i) (slopeOf b c i) ∧
      ∀ j < 2, AllAre m (ddbathLs dat m g k (2 * i + j)) 0 ∧ ∀ l < 2, AllAre m (dddbathLs dat m g k (2 * (2 * i + j) + l)) 0) := by
  have h2 : ∀ r i : ℕ, i < 2 → (2 * r + i) / 2 = r ∧ (2 * r + i) % 2 = i := fun r i hi => ⟨by omega, by omega⟩
  refine ⟨fun a b c h dir hdir => ?_, fun r hr a b c h i hi => ?_, fun a b c h i hi => ?_⟩
  · exact lsLin_affine hm hg k (fun e he w hw => vertex_values hR hO hL (hm.degree e he) (hp e he) (h e he) hw) hdir
  · have h1 : AllAre m (duLs v dat m g k q (2 * r + i)) (slopeOf b c i) := by
      unfold duLs
      rw [(h2 r i hi).1, (h2 r i hi).2]
      exact lsLin_affine hm hg k (fun e he w hw => vertex_values hR hO hL (hm.degree e he) (hp e he) (fun z hz => project_affine hR hO hm hp h he hz) hw) hi
    refine ⟨h1, fun j hj => ?_⟩
    unfold dduLs
    rw [(h2 _ j hj).1, (h2 _ j hj).2]
    exact lsLin_const hm hg k h1 hj
  · have h1 : AllAre m (dbathLs dat m g k i) (slopeOf b c i) :=
      lsLin_affine hm hg k (fun e he w hw => vertex_values hR hO hL (hm.degree e he) (hp e he) (h e he) hw) hi
    refine ⟨h1, fun j hj => ?_⟩
    have hd : AllAre m (ddbathLs dat m g k (2 * i + j)) 0 := by
      unfold ddbathLs
      rw [(h2 _ j hj).1, (h2 _ j hj).2]
      exact lsLin_const hm hg k h1 hj
    refine ⟨hd, fun l hl => ?_⟩
    unfold dddbathLs
    rw [(h2 _ l hl).1, (h2 _ l hl).2]
    exact lsLin_const hm hg k hd hl

/-! ### Quadratic fields, continuity -/

/-- **C103** A level that is quadratic on the mesh: Green-Gauss with reconstruction by least squares is exact in elements without boundary. -/
theorem dze_quadratic (hR : Rules v.N F P 0) (hs : IsSqrt v.sq) (hm : GradMesh dat m P) (hp : ∀ e ∈ m.elts, 1 ≤ (dat e).elt.p) (hg : Ready dat m g) {q : State ℝ} {Q : MvPolynomial (Fin 2) ℝ}
    (hQ : Agrees dat m (rowOf v dat fun e => q e 0) Q) (hd : Q.totalDegree ≤ 2) (i : Fin 2) {e : ℕ} (he : e ∈ m.elts) (hin : ∀ b ∈ m.bnds, b.e ≠ e) {k : ℕ} (hk : k < 3) :
    dzeGg v dat m g .ls q i e k = eval ![(vertex (dat e).elt.tri k).x, (vertex (dat e).elt.tri k).y] (pderiv i Q) := by
  have hdeg := pderiv_lower i hd
  obtain ⟨a, b, c, hl⟩ : ∃ a b c : ℝ, ∀ x : P2 ℝ, eval ![x.x, x.y] (pderiv i Q) = affine a b c x := by
    refine ⟨(pderiv i Q).coeff 0, (pderiv i Q).coeff (Finsupp.single 0 1), (pderiv i Q).coeff (Finsupp.single 1 1), fun x => ?_⟩
    let E : MvPolynomial (Fin 2) ℝ →ₗ[ℝ] ℝ := ⟨⟨fun G => eval ![x.x, x.y] G - affine (G.coeff 0) (G.coeff (Finsupp.single 0 1)) (G.coeff (Finsupp.single 1 1)) x,
      fun G H => by simp only [map_add, coeff_add, affine]; ring⟩, fun c G => by simp only [smul_eval, coeff_smul, RingHom.id_apply, smul_eq_mul, affine]; ring⟩
    have hE : |E (pderiv i Q)| ≤ 0 * absCoeffs (pderiv i Q) := by
      refine small_on E (n := 1) (fun s hs => ?_) _ hdeg
      rw [abs_nonpos_iff]
      simp only [E, LinearMap.coe_mk, AddHom.coe_mk, eval_mono, coeff_monomial, affine]
      rcases (by omega : (s 0 = 0 ∧ s 1 = 0) ∨ (s 0 = 1 ∧ s 1 = 0) ∨ (s 0 = 0 ∧ s 1 = 1)) with ⟨h0, h1⟩ | ⟨h0, h1⟩ | ⟨h0, h1⟩
      · have hs0 : s = 0 := by ext j; rcases (by fin_cases j <;> simp : j = 0 ∨ j = 1) with rfl | rfl <;> simp [h0, h1]
        have z0 : (0 : Fin 2 →₀ ℕ) ≠ Finsupp.single 0 1 := (Finsupp.single_ne_zero.2 one_ne_zero).symm
        have z1 : (0 : Fin 2 →₀ ℕ) ≠ Finsupp.single 1 1 := (Finsupp.single_ne_zero.2 one_ne_zero).symm
        subst hs0; simp [z0, z1]
      · have hs0 : s = Finsupp.single 0 1 := by ext j; rcases (by fin_cases j <;> simp : j = 0 ∨ j = 1) with rfl | rfl <;> simp [h0, h1]
        subst hs0; simp [Finsupp.single_left_inj]
      · have hs0 : s = Finsupp.single 1 1 := by ext j; rcases (by fin_cases j <;> simp : j = 0 ∨ j = 1) with rfl | rfl <;> simp [h0, h1]
        subst hs0; simp [Finsupp.single_left_inj]
    rw [zero_mul, abs_nonpos_iff] at hE
    simpa only [E, LinearMap.coe_mk, AddHom.coe_mk, sub_eq_zero] using hE
  rw [hl]
  refine ls_affine hm hg (fun e he => ?_) he hin hk
  rw [gg_quadratic hR hs hm hQ hd he (hp e he) i, hl]

/-- **C103** Reconstruction by averages gives a continuous field, if both sides of an interface have the same numbers of nodes: averages and own values at faces are then the same. -/
theorem avg_cont (hR : Rules v.N F P ε) (hL : LinearBasis v.N) (hS : SymRules v.N P) (hm : GradMesh dat m P) (hp : ∀ e ∈ m.elts, 1 ≤ (dat e).elt.p)
    (hn : ∀ i ∈ m.ints, g.node i.eex ((i.fex + 1) % 3) = g.node i.ein ((i.fin + 2) % 3) ∧ g.node i.eex ((i.fex + 2) % 3) = g.node i.ein ((i.fin + 1) % 3)) (c : ℕ → ℝ) {i : Iface ℝ}
    (hi : i ∈ m.ints) {gp : ℕ} (hgp : gp < (i.rule v dat).length) :
    linRow v dat (recon dat m g .avg c) i.ein (facePt (i.rule v dat) i.fin gp) =
      linRow v dat (recon dat m g .avg c) i.eex (facePt (i.rule v dat) i.fex ((i.rule v dat).length - gp - 1)) := by
  obtain ⟨h1, h2⟩ := hm.ends i hi
  obtain ⟨f1, f2⟩ := int_faces hm hi
  have hP : max (dat i.ein).elt.p (dat i.eex).elt.p ≤ P := max_le (hm.degree _ h1) (hm.degree _ h2)
  obtain ⟨n1, n2⟩ := hn i hi
  have hface : ∀ (e f : ℕ) (s : ℝ), e ∈ m.elts → f < 3 → linRow v dat (recon dat m g .avg c) e (boundaryToMaster f s) =
      reconAvg g.node m c e ((f + 1) % 3) * ((1 - s) / 2) + reconAvg g.node m c e ((f + 2) % 3) * ((1 + s) / 2) := by
    intro e f s he hf
    rw [linRow_value hR hL _ (hp e he) (face_regular f s)]
    interval_cases f <;> simp only [boundaryToMaster, recon, if_true, one_ne_zero, OfNat.ofNat_ne_zero, OfNat.ofNat_ne_one, if_false, Nat.reduceAdd, Nat.reduceMod, zero_add] <;> ring
  have hsym : ((i.rule v dat).getD ((i.rule v dat).length - gp - 1) (0, 0)).2 = -((i.rule v dat).getD gp (0, 0)).2 := hS _ hP gp hgp
  simp only [facePt]
  rw [hface _ _ _ h1 f1, hface _ _ _ h2 f2, hsym]
  unfold reconAvg
  rw [n1, n2]
  ring

/-- **C103** With this reconstruction the second derivatives of the bathymetry on several ranks are the ones of the serial program, whatever edges are cut. -/
theorem ddbath_ranks_avg (hR : Rules v.N F P ε) (hL : LinearBasis v.N) (hS : SymRules v.N P) (hm : GradMesh dat m P) (hp : ∀ e ∈ m.elts, 1 ≤ (dat e).elt.p)
    (hn : ∀ i ∈ m.ints, g.node i.eex ((i.fex + 1) % 3) = g.node i.ein ((i.fin + 2) % 3) ∧ g.node i.eex ((i.fex + 2) % 3) = g.node i.ein ((i.fin + 1) % 3)) (cut : Iface ℝ → Bool) (r : ℕ) :
    ddbathGgP v dat m g .avg cut r = ddbathGg v dat m g .avg r := by
  unfold ddbathGgP ddbathGg
  congr 1
  funext e
  unfold dbathGg ggLin
  exact ggCut_cont (fun i hi gp hgp => avg_cont hR hL hS hm hp hn _ hi hgp) cut _ e

end

end Verif.Gn.Props
