import Verif.Lemmas.Approx
import Verif.Lemmas.RhsAt
import Verif.Lemmas.Stage
import Verif.Props.Water

/-!
# C48: a lake at rest stays at rest

Water level constant, no discharge, any bathymetry. The integration rules of the program are exact only up to the rounding of their tables (C41);
`Rules N F P ε` states their error on monomials, and `rest_residual` bounds the right-hand side by it. With exact rules (ε = 0) it is zero,
`rest_rhs`, and any number of stages leaves the state unchanged, `lake_at_rest`.

Divisions by the depth have numerator zero here. The code computes square roots of the depth as well, so positive depths are understood; they are
demanded by the wetting and drying treatment anyway.
-/

namespace Verif.Swe.Props
open Verif.Geometry Verif.Geometry.Props Verif.Element Verif.Stepper Verif.Tri MvPolynomial

/-- The basis functions are the polynomials `F d`; the rules for elements up to degree `P` integrate monomials up to an error `ε`. -/
structure Rules (N : Numerics ℝ) (F : ℕ → MvPolynomial (Fin 2) ℝ) (P : ℕ) (ε : ℝ) : Prop where
  phi0 : ∀ z, N.basis.phi 0 z = 1
  degree : ∀ p ≤ P, ∀ d < ndof p, (F d).totalDegree ≤ p
  basis : ∀ d < ndof P, ∀ z : P2 ℝ, (z.y ≠ 1 ∨ z = ⟨-1, 1⟩) → N.basis.phi d z = eval ![z.x, z.y] (F d) ∧
    N.basis.dphi1 d z = eval ![z.x, z.y] (pderiv 0 (F d)) ∧ N.basis.dphi2 d z = eval ![z.x, z.y] (pderiv 1 (F d))
  pts : ∀ p ≤ P, ∀ wz ∈ N.tri (2 * p), wz.2.y ≠ 1
  tri : ∀ p ≤ P, ∀ i j, i + j ≤ 2 * p → |((N.tri (2 * p)).map fun wz => wz.1 * (wz.2.x ^ i * wz.2.y ^ j)).sum -
    ∫ y in (-1 : ℝ)..1, ∫ x in (-1 : ℝ)..(-y), x ^ i * y ^ j| ≤ ε
  line : ∀ p ≤ P, ∀ k ≤ 2 * p + 1, |((N.line (2 * p + 1)).map fun wx => wx.1 * wx.2 ^ k).sum - ∫ x in (-1 : ℝ)..1, x ^ k| ≤ ε

/-- Boundaries which do not disturb a lake of level `L`. -/
def Quiet (v : Env ℝ) (L t ramp : ℝ) : BndKind ℝ → Prop
  | .land => True
  | .tide cs => ∀ gp, forcing v.cos v.pi ramp t (cs gp) = L
  | .flow cs => ∀ gp, forcing v.cos v.pi ramp t (cs gp) = 0
  | .function => ∀ g, v.bcq t g = ⟨L, 0, 0⟩

/-- The faces of element `e` that occur in the mesh. -/
def facesOf (m : Mesh ℝ) (e : ℕ) : List ℕ :=
  m.ints.flatMap (fun i => (if i.ein = e then [i.fin] else []) ++ (if i.eex = e then [i.fex] else [])) ++
    m.bnds.flatMap fun b => if b.e = e then [b.f] else []

/-- Vector along a face. -/
def edge (t : Tri ℝ) (f : ℕ) : P2 ℝ :=
  ⟨(vertex t ((f + 2) % 3)).x - (vertex t ((f + 1) % 3)).x, (vertex t ((f + 2) % 3)).y - (vertex t ((f + 1) % 3)).y⟩

/-- A mesh of counterclockwise triangles of degree at most `P`, each face of each element covered once, bathymetry continuous at the Gauss
points of ordinary interfaces (not of levees), boundaries quiet. -/
structure RestMesh (v : Env ℝ) (dat : ℕ → EltData ℝ) (m : Mesh ℝ) (P : ℕ) (L t ramp : ℝ) : Prop where
  sqrt : IsSqrt v.sq
  sp : ∀ x, v.sp x = 1
  source : v.src.functionSource = true → ∀ x, v.fs t x = ⟨0, 0, 0⟩
  nodup : m.elts.Nodup
  ccw : ∀ e ∈ m.elts, 0 < jdet (dat e).elt.tri
  degree : ∀ e ∈ m.elts, (dat e).elt.p ≤ P
  cover : ∀ e ∈ m.elts, (facesOf m e).Perm [0, 1, 2]
  ends : ∀ i ∈ m.ints, i.ein ∈ m.elts ∧ i.eex ∈ m.elts
  edges : ∀ i ∈ m.ints, edge (dat i.eex).elt.tri i.fex = ⟨-(edge (dat i.ein).elt.tri i.fin).x, -(edge (dat i.ein).elt.tri i.fin).y⟩
  bath : ∀ i ∈ m.ints, i.kind = .internal → ∀ gp < (i.rule v dat).length,
    (dat i.ein).elt.value v.N (dat i.ein).bath (facePt (i.rule v dat) i.fin gp) =
      (dat i.eex).elt.value v.N (dat i.eex).bath (facePt (i.rule v dat) i.fex ((i.rule v dat).length - gp - 1))
  owner : ∀ b ∈ m.bnds, b.e ∈ m.elts
  quiet : ∀ b ∈ m.bnds, Quiet v L t ramp b.kind

/-- Level `L`, no discharge, on all elements. -/
def AtRest (dat : ℕ → EltData ℝ) (elts : List ℕ) (L : ℝ) (q : State ℝ) : Prop :=
  ∀ e ∈ elts, ∀ d < ndof (dat e).elt.p, q e 0 d = (if d = 0 then L else 0) ∧ q e 1 d = 0 ∧ q e 2 d = 0

/-- g (L²/2 + L b) φ_d as a polynomial. -/
noncomputable def restPoly (F : ℕ → MvPolynomial (Fin 2) ℝ) (g L : ℝ) (d : EltData ℝ) (dof : ℕ) : MvPolynomial (Fin 2) ℝ :=
  (C (g * (L ^ 2 / 2)) + C (g * L) * ∑ k ∈ Finset.range (ndof d.elt.p), C (d.bath k) * F k) * F dof

/-! ### Faces -/

theorem ndof_pos (p : ℕ) : 0 < ndof p := Nat.div_pos (by nlinarith) (by omega)

theorem ndof_mono {p P : ℕ} (h : p ≤ P) : ndof p ≤ ndof P := Nat.div_le_div_right (by nlinarith)

/-- Components of the scaled outward normal. -/
noncomputable def snormal (v : Env ℝ) (t : Tri ℝ) (f : ℕ) : P2 ℝ := ⟨surfaceJ v.sq t f * (normal v.sq t f).x, surfaceJ v.sq t f * (normal v.sq t f).y⟩

theorem vertices_ne {t : Tri ℝ} (h : 0 < jdet t) {f : ℕ} (hf : f < 3) : 0 < (edge t f).x * (edge t f).x + (edge t f).y * (edge t f).y := by
  by_contra hc
  push Not at hc
  have hx : (edge t f).x = 0 := by nlinarith [mul_self_nonneg (edge t f).x, mul_self_nonneg (edge t f).y]
  have hy : (edge t f).y = 0 := by nlinarith [mul_self_nonneg (edge t f).x, mul_self_nonneg (edge t f).y]
  have h3 : f = 0 ∨ f = 1 ∨ f = 2 := by omega
  rcases h3 with rfl | rfl | rfl <;> simp [edge, vertex] at hx hy <;> simp [jdet, det, jac] at h
  · have e1 : t.c.x = t.b.x := by linarith
    have e2 : t.c.y = t.b.y := by linarith
    rw [e1, e2] at h; ring_nf at h; exact lt_irrefl _ h
  · have e1 : t.a.x = t.c.x := by linarith
    have e2 : t.a.y = t.c.y := by linarith
    rw [e1, e2] at h; ring_nf at h; exact lt_irrefl _ h
  · have e1 : t.b.x = t.a.x := by linarith
    have e2 : t.b.y = t.a.y := by linarith
    rw [e1, e2] at h; ring_nf at h; exact lt_irrefl _ h

theorem snormal_eq {v : Env ℝ} (hs : IsSqrt v.sq) {t : Tri ℝ} (h : 0 < jdet t) {f : ℕ} (hf : f < 3) :
    snormal v t f = ⟨(edge t f).y / 2, -(edge t f).x / 2⟩ ∧ |(edge t f).y / 2| ≤ surfaceJ v.sq t f ∧ |-(edge t f).x / 2| ≤ surfaceJ v.sq t f := by
  have hp := vertices_ne h hf
  have hj : surfaceJ v.sq t f = v.sq ((edge t f).x * (edge t f).x + (edge t f).y * (edge t f).y) / 2 := by
    unfold surfaceJ edge; simp only [sq]
  have hcw : jdet t / |jdet t| = 1 := by rw [abs_of_pos h]; exact div_self h.ne'
  have hn : normal v.sq t f = ⟨(edge t f).y / v.sq ((edge t f).x * (edge t f).x + (edge t f).y * (edge t f).y),
      -(edge t f).x / v.sq ((edge t f).x * (edge t f).x + (edge t f).y * (edge t f).y)⟩ := by
    unfold normal
    rw [hcw]
    simp only [one_mul, neg_mul, Geometry.hypot, edge]
  have hsq := hs _ hp.le
  set l := v.sq ((edge t f).x * (edge t f).x + (edge t f).y * (edge t f).y)
  have hl0 : 0 ≤ l := hsq.1
  have hl2 : l * l = (edge t f).x * (edge t f).x + (edge t f).y * (edge t f).y := by have := hsq.2; nlinarith [this]
  have hl : l ≠ 0 := by rintro e; rw [e] at hl2; linarith
  refine ⟨?_, ?_, ?_⟩
  · unfold snormal
    rw [hj, hn]
    simp only [P2.mk.injEq]
    constructor <;> field_simp
  · rw [hj, abs_le]
    constructor <;> nlinarith [mul_self_nonneg (edge t f).x]
  · rw [hj, abs_le]
    constructor <;> nlinarith [mul_self_nonneg (edge t f).y]

/-- Both sides of a face, with opposite edges. -/
theorem opposite {v : Env ℝ} {t t' : Tri ℝ} (h : 0 < jdet t) (h' : 0 < jdet t') {f f' : ℕ} (he : edge t' f' = ⟨-(edge t f).x, -(edge t f).y⟩) :
    normal v.sq t' f' = ⟨-(normal v.sq t f).x, -(normal v.sq t f).y⟩ ∧ surfaceJ v.sq t' f' = surfaceJ v.sq t f := by
  have hx := congrArg P2.x he
  have hy := congrArg P2.y he
  simp only [edge] at hx hy
  have hcw : jdet t / |jdet t| = 1 := by rw [abs_of_pos h]; exact div_self h.ne'
  have hcw' : jdet t' / |jdet t'| = 1 := by rw [abs_of_pos h']; exact div_self h'.ne'
  constructor
  · unfold normal
    rw [hcw, hcw']
    simp only [one_mul, neg_mul, Geometry.hypot, hx, hy, neg_mul_neg, P2.mk.injEq]
    constructor <;> ring
  · unfold surfaceJ
    rw [hx, hy, neg_sq, neg_sq]

/-- Jacobian and normals. -/
theorem jinv_normal {v : Env ℝ} (hs : IsSqrt v.sq) {t : Tri ℝ} (h : 0 < jdet t) :
    |jdet t| * entry (jinv t) 0 0 = -(snormal v t 1).x ∧ |jdet t| * entry (jinv t) 1 0 = -(snormal v t 2).x ∧
    |jdet t| * entry (jinv t) 0 1 = -(snormal v t 1).y ∧ |jdet t| * entry (jinv t) 1 1 = -(snormal v t 2).y ∧
    (snormal v t 0).x = -(snormal v t 1).x - (snormal v t 2).x ∧ (snormal v t 0).y = -(snormal v t 1).y - (snormal v t 2).y := by
  rw [(snormal_eq hs h (f := 0) (by omega)).1, (snormal_eq hs h (f := 1) (by omega)).1, (snormal_eq hs h (f := 2) (by omega)).1]
  rw [abs_of_pos h]
  have hd : Geometry.det (jac t) ≠ 0 := h.ne'
  simp only [Element.entry, jinv, Geometry.inv, edge, vertex, jdet]
  refine ⟨?_, ?_, ?_, ?_, ?_, ?_⟩
  · simp; rw [mul_div_cancel₀ _ hd]; simp [jac]; ring
  · simp; rw [mul_div_cancel₀ _ hd]; simp [jac]
  · simp; rw [mul_div_cancel₀ _ hd]; simp [jac]
  · simp; rw [mul_div_cancel₀ _ hd]; simp [jac]; ring
  · simp; ring
  · simp; ring

/-! ### Values at rest -/

section
variable {v : Env ℝ} {dat : ℕ → EltData ℝ} {m : Mesh ℝ} {F : ℕ → MvPolynomial (Fin 2) ℝ} {P : ℕ} {ε L t ramp : ℝ} {q : State ℝ}

theorem rest_value (hR : Rules v.N F P ε) (hq : AtRest dat m.elts L q) {e : ℕ} (he : e ∈ m.elts) (z : P2 ℝ) :
    qAt v.N (dat e).elt (q e) z = ⟨L, 0, 0⟩ := by
  unfold qAt Elt.value
  simp only [sum_range_list]
  have h0 := ndof_pos (dat e).elt.p
  rw [Finset.sum_eq_single 0, Finset.sum_eq_zero, Finset.sum_eq_zero]
  · rw [(hq e he 0 h0).1, hR.phi0]; simp
  · intro d hd; rw [(hq e he d (Finset.mem_range.mp hd)).2.2, zero_mul]
  · intro d hd; rw [(hq e he d (Finset.mem_range.mp hd)).2.1, zero_mul]
  · intro d hd h; rw [(hq e he d (Finset.mem_range.mp hd)).1, if_neg h, zero_mul]
  · intro h; exact absurd (Finset.mem_range.mpr h0) h

theorem rest_llf (sq : ℝ → ℝ) (g L : ℝ) (a : Aux ℝ) (ha : a.sp = 1) (n : P2 ℝ) :
    llf sq g ⟨L, 0, 0⟩ ⟨L, 0, 0⟩ a n = ⟨0, g * (L ^ 2 / 2 + L * a.bath) * n.x, g * (L ^ 2 / 2 + L * a.bath) * n.y⟩ := by
  ext <;> simp only [llf, fnIn, fnEx, pe, Q.smul, add_ze, add_qx, add_qy, sub_ze, sub_qx, sub_qy, sub_self, mul_zero, add_zero, zero_div, zero_mul, ha] <;>
    ring

theorem rest_land (n : P2 ℝ) (L : ℝ) : landEx n ⟨L, 0, 0⟩ = ⟨L, 0, 0⟩ := by simp [landEx]

theorem rest_flux_in (hR : Rules v.N F P ε) (hm : RestMesh v dat m P L t ramp) (hq : AtRest dat m.elts L q) {wet : ℕ → Bool}
    {i : Iface ℝ} (hi : i ∈ m.ints) (gp : ℕ) :
    (i.flux v dat wet q gp).1 = ⟨0,
      v.src.g * (L ^ 2 / 2 + L * (dat i.ein).elt.value v.N (dat i.ein).bath (facePt (i.rule v dat) i.fin gp)) * (normal v.sq (dat i.ein).elt.tri i.fin).x,
      v.src.g * (L ^ 2 / 2 + L * (dat i.ein).elt.value v.N (dat i.ein).bath (facePt (i.rule v dat) i.fin gp)) * (normal v.sq (dat i.ein).elt.tri i.fin).y⟩ := by
  obtain ⟨h1, h2⟩ := hm.ends i hi
  unfold Iface.flux Iface.inside Iface.outside
  simp only [rest_value hR hq h1, rest_value hR hq h2]
  cases hk : i.kind with
  | internal =>
    simp only [internal]
    rw [rest_llf _ _ _ _ (hm.sp _)]
    have ht : (0 : ℝ) < fluxTol := fluxTol_pos
    rw [if_neg (by simpa using ht.le), if_neg (by simpa using ht.le)]
    rfl
  | levee l =>
    simp only [levee, leveeEx]
    have ht : (0 : ℝ) ≤ hTol := by unfold hTol; norm_num
    rw [if_pos (Or.inr (by simpa using ht))]
    simp only [rest_land]
    rw [rest_llf _ _ _ _ (hm.sp _)]
    rfl

theorem rest_flux_ex (hR : Rules v.N F P ε) (hm : RestMesh v dat m P L t ramp) (hq : AtRest dat m.elts L q) {wet : ℕ → Bool}
    {i : Iface ℝ} (hi : i ∈ m.ints) {gp : ℕ} (hgp : gp < (i.rule v dat).length) :
    (i.flux v dat wet q ((i.rule v dat).length - gp - 1)).2 = ⟨0,
      v.src.g * (L ^ 2 / 2 + L * (dat i.eex).elt.value v.N (dat i.eex).bath (facePt (i.rule v dat) i.fex gp)) * (normal v.sq (dat i.eex).elt.tri i.fex).x,
      v.src.g * (L ^ 2 / 2 + L * (dat i.eex).elt.value v.N (dat i.eex).bath (facePt (i.rule v dat) i.fex gp)) * (normal v.sq (dat i.eex).elt.tri i.fex).y⟩ := by
  obtain ⟨h1, h2⟩ := hm.ends i hi
  have hn := (opposite (v := v) (hm.ccw _ h1) (hm.ccw _ h2) (hm.edges i hi)).1
  have hgp2 : (i.rule v dat).length - ((i.rule v dat).length - gp - 1) - 1 = gp := by omega
  unfold Iface.flux Iface.inside Iface.outside
  simp only [rest_value hR hq h1, rest_value hR hq h2, hgp2]
  rw [hn]
  cases hk : i.kind with
  | internal =>
    have hb := hm.bath i hi hk ((i.rule v dat).length - gp - 1) (by omega)
    rw [hgp2] at hb
    simp only [internal]
    rw [rest_llf _ _ _ _ (hm.sp _)]
    have ht : (0 : ℝ) < fluxTol := fluxTol_pos
    rw [if_neg (by simpa using ht.le), if_neg (by simpa using ht.le)]
    simp only [Swe.auxAt, hb]
    ext <;> simp
  | levee l =>
    simp only [levee, leveeEx]
    have ht : (0 : ℝ) ≤ hTol := by unfold hTol; norm_num
    rw [if_pos (Or.inr (by simpa using ht))]
    simp only [rest_land]
    rw [rest_llf _ _ _ _ (hm.sp _)]
    rfl

theorem rest_flux_bnd (hm : RestMesh v dat m P L t ramp) {b : Bnd ℝ} (hb : b ∈ m.bnds) (gp : ℕ) (a : Aux ℝ) (ha : a.sp = 1) (n g : P2 ℝ) :
    bndFlux v t ramp b.kind gp ⟨L, 0, 0⟩ a n g = ⟨0, v.src.g * (L ^ 2 / 2 + L * a.bath) * n.x, v.src.g * (L ^ 2 / 2 + L * a.bath) * n.y⟩ := by
  have hqu := hm.quiet b hb
  unfold bndFlux
  cases hk : b.kind with
  | land => simp only [landFlux, rest_land]; exact rest_llf _ _ _ _ ha _
  | tide cs =>
    rw [hk] at hqu
    simp only [tideEx, hqu gp]; exact rest_llf _ _ _ _ ha _
  | flow cs =>
    rw [hk] at hqu
    simp only [flowEx, hqu gp, zero_mul]; exact rest_llf _ _ _ _ ha _
  | function =>
    rw [hk] at hqu
    simp only [hqu g]; exact rest_llf _ _ _ _ ha _

/-! ### Integrals -/

/-- Values of polynomials. -/
theorem bath_value (hR : Rules v.N F P ε) {d : EltData ℝ} (hd : d.elt.p ≤ P) {z : P2 ℝ} (hz : z.y ≠ 1 ∨ z = ⟨-1, 1⟩) :
    d.elt.value v.N d.bath z = eval ![z.x, z.y] (∑ k ∈ Finset.range (ndof d.elt.p), C (d.bath k) * F k) := by
  unfold Elt.value
  rw [sum_range_list, map_sum]
  refine Finset.sum_congr rfl fun k hk => ?_
  rw [(hR.basis k (lt_of_lt_of_le (Finset.mem_range.mp hk) (ndof_mono hd)) z hz).1, map_mul, eval_C]

theorem bath_deriv (hR : Rules v.N F P ε) {d : EltData ℝ} (hd : d.elt.p ≤ P) {z : P2 ℝ} (hz : z.y ≠ 1 ∨ z = ⟨-1, 1⟩) (dir : ℕ) :
    d.elt.deriv v.N dir d.bath z = eval ![z.x, z.y] (pderiv 0 (∑ k ∈ Finset.range (ndof d.elt.p), C (d.bath k) * F k)) * entry (jinv d.elt.tri) 0 dir +
      eval ![z.x, z.y] (pderiv 1 (∑ k ∈ Finset.range (ndof d.elt.p), C (d.bath k) * F k)) * entry (jinv d.elt.tri) 1 dir := by
  unfold Elt.deriv Elt.dphi
  rw [sum_range_list]
  simp only [map_sum, pderiv_C_mul, map_mul, eval_C, Finset.sum_mul, ← Finset.sum_add_distrib]
  refine Finset.sum_congr rfl fun k hk => ?_
  obtain ⟨_, h1, h2⟩ := hR.basis k (lt_of_lt_of_le (Finset.mem_range.mp hk) (ndof_mono hd)) z hz
  rw [h1, h2]; ring

theorem restPoly_degree (hR : Rules v.N F P ε) (g : ℝ) {d : EltData ℝ} (hd : d.elt.p ≤ P) {dof : ℕ} (hdof : dof < ndof d.elt.p) :
    (restPoly F g L d dof).totalDegree ≤ 2 * d.elt.p := by
  have hF : ∀ k < ndof d.elt.p, (F k).totalDegree ≤ d.elt.p := fun k hk => hR.degree _ hd k hk
  unfold restPoly
  refine (totalDegree_mul _ _).trans ?_
  have h1 : (∑ k ∈ Finset.range (ndof d.elt.p), C (d.bath k) * F k : MvPolynomial (Fin 2) ℝ).totalDegree ≤ d.elt.p := by
    refine totalDegree_finsetSum_le fun k hk => ?_
    refine (totalDegree_mul _ _).trans ?_
    rw [totalDegree_C, zero_add]
    exact hF k (Finset.mem_range.mp hk)
  have h2 : (C (g * (L ^ 2 / 2)) + C (g * L) * ∑ k ∈ Finset.range (ndof d.elt.p), C (d.bath k) * F k : MvPolynomial (Fin 2) ℝ).totalDegree ≤ d.elt.p := by
    refine (totalDegree_add _ _).trans (max_le ?_ ?_)
    · rw [totalDegree_C]; omega
    · refine (totalDegree_mul _ _).trans ?_
      rw [totalDegree_C, zero_add]; exact h1
  have := hF dof hdof
  omega

theorem pderiv_degree (i : Fin 2) (G : MvPolynomial (Fin 2) ℝ) : (pderiv i G).totalDegree ≤ G.totalDegree := by
  conv_lhs => rw [G.as_sum]
  rw [map_sum]
  refine totalDegree_finsetSum_le fun s hs => ?_
  rw [pderiv_monomial]
  refine (totalDegree_monomial_le _ _).trans (le_trans ?_ (le_totalDegree hs))
  rw [Finsupp.sum_fintype _ _ (fun _ => rfl), Finsupp.sum_fintype _ _ (fun _ => rfl)]
  exact Finset.sum_le_sum fun j _ => by simp

/-- Volume and source terms together. -/
theorem rest_interior (hR : Rules v.N F P ε) (hm : RestMesh v dat m P L t ramp) (hq : AtRest dat m.elts L q) {e : ℕ} (he : e ∈ m.elts) {dof : ℕ}
    (hdof : dof < ndof (dat e).elt.p) :
    (volumeTerm v (dat e) (q e) + sourceTerm v (dat e) t (q e)) 0 dof = 0 ∧
    (volumeTerm v (dat e) (q e) + sourceTerm v (dat e) t (q e)) 1 dof =
      -(snormal v (dat e).elt.tri 1).x * triL (v.N.tri (2 * (dat e).elt.p)) (pderiv 0 (restPoly F v.src.g L (dat e) dof)) -
      (snormal v (dat e).elt.tri 2).x * triL (v.N.tri (2 * (dat e).elt.p)) (pderiv 1 (restPoly F v.src.g L (dat e) dof)) ∧
    (volumeTerm v (dat e) (q e) + sourceTerm v (dat e) t (q e)) 2 dof =
      -(snormal v (dat e).elt.tri 1).y * triL (v.N.tri (2 * (dat e).elt.p)) (pderiv 0 (restPoly F v.src.g L (dat e) dof)) -
      (snormal v (dat e).elt.tri 2).y * triL (v.N.tri (2 * (dat e).elt.p)) (pderiv 1 (restPoly F v.src.g L (dat e) dof)) := by
  have hd := hm.degree e he
  obtain ⟨j1, j2, j3, j4, _, _⟩ := jinv_normal hm.sqrt (hm.ccw e he)
  have hsrc : ∀ x a db, getSource v.sq v.cb v.src (dat e).src (v.fs t x) ⟨L, 0, 0⟩ a db = ⟨0, v.src.g * (db.x * L), v.src.g * (db.y * L)⟩ := by
    intro x a db
    unfold getSource
    by_cases hf : v.src.functionSource = true
    · have h1 := hm.source hf x
      by_cases hbf : v.src.bottomFriction = true <;> ext <;> simp [hf, hbf, add_ze, add_qx, add_qy, h1]
    · by_cases hbf : v.src.bottomFriction = true <;> simp [hf, hbf]
  simp only [Pi.add_apply, volumeTerm, sourceTerm, rest_value hR hq he, hsrc, comp, fluxX, fluxY, pe, Swe.auxAt, hm.sp, one_mul, zero_mul, zero_div, mul_zero,
    zero_add, Matrix.cons_val_zero, Matrix.cons_val_one, Matrix.cons_val_two, Matrix.cons_val, Matrix.tail_cons, Matrix.head_cons]
  have hzero : ∀ dir, (dat e).elt.intDPhi v.N dir (fun _ => 0) dof = 0 := by intro dir; simp [Elt.intDPhi]
  have hzero' : (dat e).elt.intPhi v.N (fun _ => 0) dof = 0 := by simp [Elt.intPhi]
  rw [hzero, hzero, hzero']
  set B := ∑ k ∈ Finset.range (ndof (dat e).elt.p), C ((dat e).bath k) * F k with hB
  have key : ∀ dir, (dat e).elt.intDPhi v.N dir (fun z => v.src.g * (L ^ 2 / 2 + L * (dat e).elt.value v.N (dat e).bath z)) dof +
      (dat e).elt.intPhi v.N (fun z => v.src.g * ((dat e).elt.deriv v.N dir (dat e).bath z * L)) dof =
      |jdet (dat e).elt.tri| * entry (jinv (dat e).elt.tri) 0 dir * triL (v.N.tri (2 * (dat e).elt.p)) (pderiv 0 (restPoly F v.src.g L (dat e) dof)) +
      |jdet (dat e).elt.tri| * entry (jinv (dat e).elt.tri) 1 dir * triL (v.N.tri (2 * (dat e).elt.p)) (pderiv 1 (restPoly F v.src.g L (dat e) dof)) := by
    intro dir
    simp only [Elt.intDPhi, Elt.intPhi, Elt.gps, triL, LinearMap.coe_mk, AddHom.coe_mk]
    rw [← List.sum_map_mul_left, ← List.sum_map_mul_left, ← List.sum_map_add, ← List.sum_map_add]
    congr 1
    refine List.map_congr_left fun wz hwz => ?_
    have hz : wz.2.y ≠ 1 ∨ wz.2 = ⟨-1, 1⟩ := Or.inl (hR.pts _ hd wz hwz)
    obtain ⟨b0, b1, b2⟩ := hR.basis dof (lt_of_lt_of_le hdof (ndof_mono hd)) wz.2 hz
    rw [bath_value hR hd hz, bath_deriv hR hd hz, b0, b1, b2, ← hB]
    simp only [restPoly, ← hB, pderiv_mul, map_add, pderiv_C, zero_mul, zero_add]
    simp only [map_add, map_mul, eval_C, map_zero, zero_mul, zero_add]
    ring
  refine ⟨by ring, ?_, ?_⟩
  · have := key 0
    rw [j1, j2] at this
    rw [add_zero, this]; ring
  · have := key 1
    rw [j3, j4] at this
    rw [zero_add, this]; ring

theorem range_getD (r : List (ℝ × ℝ)) (g : ℝ × ℝ → ℝ) : ((List.range r.length).map fun gp => g (r.getD gp (0, 0))).sum = (r.map g).sum := by
  congr 1
  apply List.ext_getElem
  · simp
  · intro n h1 h2
    simp at h1 h2
    simp [List.getD, h1]

/-- What a face with rule `r` subtracts. -/
theorem rest_face (hR : Rules v.N F P ε) (hd : ∀ e ∈ m.elts, (dat e).elt.p ≤ P) {e f : ℕ} (he : e ∈ m.elts) (hf : f < 3) (r : List (ℝ × ℝ))
    {dof : ℕ} (hdof : dof < ndof (dat e).elt.p) (nd : ℝ) (X : ℕ → ℝ)
    (hX : ∀ gp < r.length, X gp = v.src.g * (L ^ 2 / 2 + L * (dat e).elt.value v.N (dat e).bath (facePt r f gp)) * nd) (J : ℝ) :
    Elt.intFace v.N r f J X dof = J * nd * faceL r f (restPoly F v.src.g L (dat e) dof) := by
  unfold Elt.intFace
  have hz : ∀ x, (boundaryToMaster f x).y ≠ 1 ∨ boundaryToMaster f x = (⟨-1, 1⟩ : P2 ℝ) := by
    intro x
    have h3 : f = 0 ∨ f = 1 ∨ f = 2 := by omega
    rcases h3 with rfl | rfl | rfl
    · by_cases h : x = 1
      · right; subst h; simp [boundaryToMaster]
      · left; simpa [boundaryToMaster] using h
    · by_cases h : x = -1
      · right; subst h; simp [boundaryToMaster]
      · left; simp [boundaryToMaster]; intro h'; exact h (by linarith)
    · left; simp [boundaryToMaster]; norm_num
  have h1 : ((List.range r.length).map fun gp => X gp * (v.N.basis.phi dof (facePt r f gp) * (weight r gp * J))) =
      (List.range r.length).map fun gp => (fun wx : ℝ × ℝ => J * nd * (wx.1 * eval ![(boundaryToMaster f wx.2).x, (boundaryToMaster f wx.2).y]
        (restPoly F v.src.g L (dat e) dof))) (r.getD gp (0, 0)) := by
    refine List.map_congr_left fun gp hgp => ?_
    rw [hX gp (List.mem_range.mp hgp)]
    simp only [facePt, weight]
    rw [bath_value hR (hd e he) (hz _), (hR.basis dof (lt_of_lt_of_le hdof (ndof_mono (hd e he))) _ (hz _)).1]
    simp only [restPoly, map_add, map_mul, eval_C]
    ring
  rw [h1, range_getD r fun wx : ℝ × ℝ => J * nd * (wx.1 * eval ![(boundaryToMaster f wx.2).x, (boundaryToMaster f wx.2).y]
        (restPoly F v.src.g L (dat e) dof))]
  simp only [faceL, LinearMap.coe_mk, AddHom.coe_mk]
  rw [← List.sum_map_mul_left]

/-- The form of a face term. -/
def Canon (v : Env ℝ) (F : ℕ → MvPolynomial (Fin 2) ℝ) (P : ℕ) (L : ℝ) (d : EltData ℝ) (x : ℕ × (Fin 3 → ℕ → ℝ)) : Prop :=
  x.1 < 3 ∧ ∃ p' ≤ P, d.elt.p ≤ p' ∧ ∀ dof < ndof d.elt.p, x.2 0 dof = 0 ∧
    x.2 1 dof = (snormal v d.elt.tri x.1).x * faceL (v.N.line (2 * p' + 1)) x.1 (restPoly F v.src.g L d dof) ∧
    x.2 2 dof = (snormal v d.elt.tri x.1).y * faceL (v.N.line (2 * p' + 1)) x.1 (restPoly F v.src.g L d dof)

theorem zero_face (N : Numerics ℝ) (r : List (ℝ × ℝ)) (f : ℕ) (J : ℝ) (X : ℕ → ℝ) (hX : ∀ gp < r.length, X gp = 0) (d : ℕ) : Elt.intFace N r f J X d = 0 := by
  unfold Elt.intFace
  rw [List.map_congr_left (g := fun _ => 0)]
  · simp
  · intro gp hgp; rw [hX gp (List.mem_range.mp hgp), zero_mul]

theorem face_lt (hm : RestMesh v dat m P L t ramp) {e f : ℕ} (he : e ∈ m.elts) (h : f ∈ facesOf m e) : f < 3 := by
  have := (hm.cover e he).mem_iff.mp h
  simp at this
  omega

theorem rest_in (hR : Rules v.N F P ε) (hm : RestMesh v dat m P L t ramp) (hq : AtRest dat m.elts L q) {wet : ℕ → Bool}
    (hw : ∀ e ∈ m.elts, wet e = true) {i : Iface ℝ} (hi : i ∈ m.ints) (hf : i.fin < 3) : Canon v F P L (dat i.ein) (i.fin, i.inTerm v dat wet q) := by
  obtain ⟨h1, h2⟩ := hm.ends i hi
  refine ⟨hf, max (dat i.ein).elt.p (dat i.eex).elt.p, max_le (hm.degree _ h1) (hm.degree _ h2), le_max_left _ _, fun dof hdof => ⟨?_, ?_, ?_⟩⟩
  · exact zero_face _ _ _ _ _ (fun gp _ => by rw [rest_flux_in hR hm hq hi]; simp [comp]) _
  · exact rest_face hR hm.degree h1 hf _ hdof _ _ (fun gp _ => by rw [rest_flux_in hR hm hq hi]; simp [comp]) _
  · exact rest_face hR hm.degree h1 hf _ hdof _ _ (fun gp _ => by rw [rest_flux_in hR hm hq hi]; simp [comp]) _

theorem rest_ex (hR : Rules v.N F P ε) (hm : RestMesh v dat m P L t ramp) (hq : AtRest dat m.elts L q) {wet : ℕ → Bool}
    (hw : ∀ e ∈ m.elts, wet e = true) {i : Iface ℝ} (hi : i ∈ m.ints) (hf : i.fex < 3) : Canon v F P L (dat i.eex) (i.fex, i.exTerm v dat wet q) := by
  obtain ⟨h1, h2⟩ := hm.ends i hi
  have hJ : i.J v dat = surfaceJ v.sq (dat i.eex).elt.tri i.fex := (opposite (v := v) (hm.ccw _ h1) (hm.ccw _ h2) (hm.edges i hi)).2.symm
  refine ⟨hf, max (dat i.ein).elt.p (dat i.eex).elt.p, max_le (hm.degree _ h1) (hm.degree _ h2), le_max_right _ _, fun dof hdof => ⟨?_, ?_, ?_⟩⟩
  · exact zero_face _ _ _ _ _ (fun gp hgp => by rw [rest_flux_ex hR hm hq hi hgp]; simp [comp]) _
  · simp only [Iface.exTerm, hJ]
    exact rest_face hR hm.degree h2 hf _ hdof _ _ (fun gp hgp => by rw [rest_flux_ex hR hm hq hi hgp]; simp [comp]) _
  · simp only [Iface.exTerm, hJ]
    exact rest_face hR hm.degree h2 hf _ hdof _ _ (fun gp hgp => by rw [rest_flux_ex hR hm hq hi hgp]; simp [comp]) _

theorem rest_bnd (hR : Rules v.N F P ε) (hm : RestMesh v dat m P L t ramp) (hq : AtRest dat m.elts L q) {b : Bnd ℝ} (hb : b ∈ m.bnds)
    (hf : b.f < 3) : Canon v F P L (dat b.e) (b.f, b.term v dat t ramp q) := by
  have h1 := hm.owner b hb
  refine ⟨hf, (dat b.e).elt.p, hm.degree _ h1, le_rfl, fun dof hdof => ⟨?_, ?_, ?_⟩⟩
  · exact zero_face _ _ _ _ _ (fun gp _ => by simp only [rest_value hR hq h1]; rw [rest_flux_bnd hm hb _ _ (hm.sp _)]; simp [comp]) _
  · exact rest_face hR hm.degree h1 hf _ hdof _ _ (fun gp _ => by simp only [rest_value hR hq h1]; rw [rest_flux_bnd hm hb _ _ (hm.sp _)]; simp [comp, Swe.auxAt, faceRule]) _
  · exact rest_face hR hm.degree h1 hf _ hdof _ _ (fun gp _ => by simp only [rest_value hR hq h1]; rw [rest_flux_bnd hm hb _ _ (hm.sp _)]; simp [comp, Swe.auxAt, faceRule]) _

theorem faceTerms_faces (hm : RestMesh v dat m P L t ramp) {wet : ℕ → Bool} (hw : ∀ e ∈ m.elts, wet e = true) (e : ℕ) :
    (faceTerms v dat m wet t ramp q e).map Prod.fst = facesOf m e := by
  unfold faceTerms facesOf
  rw [List.map_append, List.map_flatMap, List.map_flatMap]
  congr 1
  · apply List.flatMap_congr
    intro i hi
    simp only [intTerms, hw _ (hm.ends i hi).1, Bool.true_or, if_true]
    split <;> split <;> simp
  · apply List.flatMap_congr
    intro b hb
    simp only [bndTerms, hw _ (hm.owner b hb), if_true]
    split <;> simp

theorem faceTerms_canon (hR : Rules v.N F P ε) (hm : RestMesh v dat m P L t ramp) (hq : AtRest dat m.elts L q) {wet : ℕ → Bool}
    (hw : ∀ e ∈ m.elts, wet e = true) {e : ℕ} (he : e ∈ m.elts) {x : ℕ × (Fin 3 → ℕ → ℝ)} (hx : x ∈ faceTerms v dat m wet t ramp q e) :
    Canon v F P L (dat e) x := by
  have hlt : x.1 < 3 := face_lt hm he (by rw [← faceTerms_faces hm hw (q := q)]; exact List.mem_map_of_mem hx)
  unfold faceTerms at hx
  rcases List.mem_append.mp hx with hx' | hx' <;> clear hx
  · obtain ⟨i, hi, hx⟩ := List.mem_flatMap.mp hx'
    clear hx'
    simp only [intTerms, hw _ (hm.ends i hi).1, Bool.true_or, if_true, List.mem_append] at hx
    rcases hx with hx | hx
    · split at hx
      · next h => subst h; obtain rfl := List.mem_singleton.mp hx; exact rest_in hR hm hq hw hi hlt
      · cases hx
    · split at hx
      · next h => subst h; obtain rfl := List.mem_singleton.mp hx; exact rest_ex hR hm hq hw hi hlt
      · cases hx
  · obtain ⟨b, hb, hx⟩ := List.mem_flatMap.mp hx'
    clear hx'
    simp only [bndTerms, hw _ (hm.owner b hb), if_true] at hx
    split at hx
    · next h => subst h; obtain rfl := List.mem_singleton.mp hx; exact rest_bnd hR hm hq hb hlt
    · cases hx

/-- Sums over faces, each term near its integral. -/
theorem sum_near (T : List (ℕ × ℝ)) (I δ : ℕ → ℝ) (h : ∀ x ∈ T, |x.2 - I x.1| ≤ δ x.1) :
    |(T.map Prod.snd).sum - (T.map fun x => I x.1).sum| ≤ (T.map fun x => δ x.1).sum := by
  induction T with
  | nil => simp
  | cons a T ih =>
    simp only [List.map_cons, List.sum_cons]
    have h1 := h a List.mem_cons_self
    have h2 := ih fun x hx => h x (List.mem_cons_of_mem _ hx)
    rw [show a.2 + (T.map Prod.snd).sum - (I a.1 + (T.map fun x => I x.1).sum) = (a.2 - I a.1) + ((T.map Prod.snd).sum - (T.map fun x => I x.1).sum) by ring]
    exact (abs_add_le _ _).trans (add_le_add h1 h2)

/-- Factor of `ε` in the bound of the right-hand side. -/
noncomputable def restBound (v : Env ℝ) (F : ℕ → MvPolynomial (Fin 2) ℝ) (L : ℝ) (d : EltData ℝ) (dof : ℕ) : ℝ :=
  let G := restPoly F v.src.g L d dof
  let J := surfaceJ v.sq d.elt.tri
  J 1 * absCoeffs (pderiv 0 G) + J 2 * absCoeffs (pderiv 1 G) + (J 0 + J 1 + J 2) * absCoeffs G

/-- C48: the right-hand side of a lake at rest is bounded by the error of the integration rules. -/
theorem rest_residual (hR : Rules v.N F P ε) (hm : RestMesh v dat m P L t ramp) (hq : AtRest dat m.elts L q) {wet : ℕ → Bool}
    (hw : ∀ e ∈ m.elts, wet e = true) (junk : State ℝ) {e : ℕ} (he : e ∈ m.elts) {dof : ℕ} (hdof : dof < ndof (dat e).elt.p) (var : Fin 3) :
    |localRhs v dat m wet t ramp q junk e var dof| ≤ ε * restBound v F L (dat e) dof := by
  have hd := hm.degree e he
  have hc := hm.ccw e he
  set G := restPoly F v.src.g L (dat e) dof with hG
  have hε : 0 ≤ ε := le_trans (abs_nonneg _) (hR.line 0 (by omega) 0 (by omega))
  have hdeg := restPoly_degree (L := L) hR v.src.g hd hdof
  rw [← hG] at hdeg
  obtain ⟨r0, r1, r2⟩ := rest_interior hR hm hq he hdof
  obtain ⟨_, _, _, _, n0x, n0y⟩ := jinv_normal hm.sqrt hc
  obtain ⟨g1, g2⟩ := green G
  have ht1 := tri_approx (r := v.N.tri (2 * (dat e).elt.p)) (hR.tri _ hd) (pderiv 0 G) ((pderiv_degree 0 G).trans hdeg)
  have ht2 := tri_approx (r := v.N.tri (2 * (dat e).elt.p)) (hR.tri _ hd) (pderiv 1 G) ((pderiv_degree 1 G).trans hdeg)
  have hnb : ∀ f < 3, |(snormal v (dat e).elt.tri f).x| ≤ surfaceJ v.sq (dat e).elt.tri f ∧ |(snormal v (dat e).elt.tri f).y| ≤ surfaceJ v.sq (dat e).elt.tri f := by
    intro f hf
    obtain ⟨h1, h2, h3⟩ := snormal_eq hm.sqrt hc hf
    rw [h1]; exact ⟨h2, h3⟩
  have hJ : ∀ f < 3, 0 ≤ surfaceJ v.sq (dat e).elt.tri f := fun f hf => le_trans (abs_nonneg _) (hnb f hf).1
  have hcG := absCoeffs_nonneg G
  have hc1 := absCoeffs_nonneg (pderiv 0 G)
  have hc2 := absCoeffs_nonneg (pderiv 1 G)
  have hB0 : 0 ≤ restBound v F L (dat e) dof := by
    unfold restBound
    simp only [← hG]
    have := hJ 0 (by omega); have := hJ 1 (by omega); have := hJ 2 (by omega)
    positivity
  rw [localRhs_at v dat m hm.nodup, if_pos he, if_pos (hw e he)]
  have hsum : ∀ (l : List (ℕ × (Fin 3 → ℕ → ℝ))), ((l.map Prod.snd).sum : Fin 3 → ℕ → ℝ) var dof = ((l.map fun x => (x.1, x.2 var dof)).map Prod.snd).sum := by
    intro l
    induction l with
    | nil => simp
    | cons a l ih => simp only [List.map_cons, List.sum_cons, Pi.add_apply] at ih ⊢; rw [ih]
  rw [Pi.sub_apply, Pi.sub_apply, hsum]
  -- one direction
  have main : ∀ (s : ℕ → ℝ) (V : ℝ), s 0 = -s 1 - s 2 → (∀ f < 3, |s f| ≤ surfaceJ v.sq (dat e).elt.tri f) →
      V = -s 1 * triL (v.N.tri (2 * (dat e).elt.p)) (pderiv 0 G) - s 2 * triL (v.N.tri (2 * (dat e).elt.p)) (pderiv 1 G) →
      (∀ x ∈ faceTerms v dat m wet t ramp q e, ∃ p' ≤ P, (dat e).elt.p ≤ p' ∧ x.1 < 3 ∧ x.2 var dof = s x.1 * faceL (v.N.line (2 * p' + 1)) x.1 G) →
      |V - (((faceTerms v dat m wet t ramp q e).map fun x => (x.1, x.2 var dof)).map Prod.snd).sum| ≤ ε * restBound v F L (dat e) dof := by
    intro s V h0 hs hV hT
    set T := (faceTerms v dat m wet t ramp q e).map fun x => (x.1, x.2 var dof) with hTdef
    have hnear : ∀ x ∈ T, |x.2 - s x.1 * faceI x.1 G| ≤ surfaceJ v.sq (dat e).elt.tri x.1 * (ε * absCoeffs G) := by
      intro x hx
      obtain ⟨y, hy, rfl⟩ := List.mem_map.mp hx
      obtain ⟨p', hp', hpp, hlt, hval⟩ := hT y hy
      simp only
      rw [hval, ← mul_sub, abs_mul]
      refine mul_le_mul (hs _ hlt) (face_approx hlt (hR.line p' hp') G (by omega)) (abs_nonneg _) (hJ _ hlt)
    have hn := sum_near T (fun f => s f * faceI f G) (fun f => surfaceJ v.sq (dat e).elt.tri f * (ε * absCoeffs G)) hnear
    have hperm : (T.map Prod.fst).Perm [0, 1, 2] := by
      rw [hTdef, List.map_map]
      have := faceTerms_faces hm hw (q := q) e
      rw [show (Prod.fst ∘ fun x : ℕ × (Fin 3 → ℕ → ℝ) => (x.1, x.2 var dof)) = Prod.fst from rfl, this]
      exact hm.cover e he
    have hs1 : ∀ g : ℕ → ℝ, (T.map fun x => g x.1).sum = g 0 + g 1 + g 2 := by
      intro g
      have := (hperm.map g).sum_eq
      rw [List.map_map] at this
      rw [show (fun x : ℕ × ℝ => g x.1) = g ∘ Prod.fst from rfl, this]
      simp; ring
    rw [hs1 fun f => s f * faceI f G, hs1 fun f => surfaceJ v.sq (dat e).elt.tri f * (ε * absCoeffs G)] at hn
    have e1 : V - (T.map Prod.snd).sum = -s 1 * (triL (v.N.tri (2 * (dat e).elt.p)) (pderiv 0 G) - I2L (pderiv 0 G)) -
        s 2 * (triL (v.N.tri (2 * (dat e).elt.p)) (pderiv 1 G) - I2L (pderiv 1 G)) -
        ((T.map Prod.snd).sum - (s 0 * faceI 0 G + s 1 * faceI 1 G + s 2 * faceI 2 G)) := by
      rw [hV, g1, g2, h0]; ring
    rw [e1]
    have b1 : |-s 1 * (triL (v.N.tri (2 * (dat e).elt.p)) (pderiv 0 G) - I2L (pderiv 0 G))| ≤ surfaceJ v.sq (dat e).elt.tri 1 * (ε * absCoeffs (pderiv 0 G)) := by
      rw [abs_mul, abs_neg]
      exact mul_le_mul (hs 1 (by omega)) ht1 (abs_nonneg _) (hJ 1 (by omega))
    have b2 : |s 2 * (triL (v.N.tri (2 * (dat e).elt.p)) (pderiv 1 G) - I2L (pderiv 1 G))| ≤ surfaceJ v.sq (dat e).elt.tri 2 * (ε * absCoeffs (pderiv 1 G)) := by
      rw [abs_mul]
      exact mul_le_mul (hs 2 (by omega)) ht2 (abs_nonneg _) (hJ 2 (by omega))
    refine (abs_sub _ _).trans ((add_le_add ((abs_sub _ _).trans (add_le_add b1 b2)) hn).trans (le_of_eq ?_))
    simp only [restBound, ← hG]
    ring
  have hT := fun x hx => faceTerms_canon hR hm hq hw he (x := x) hx
  fin_cases var
  · have hz : ∀ x ∈ (faceTerms v dat m wet t ramp q e).map (fun x => (x.1, x.2 0 dof)), x.2 = 0 := by
      intro x hx
      obtain ⟨y, hy, rfl⟩ := List.mem_map.mp hx
      obtain ⟨_, p', _, _, h⟩ := hT y hy
      exact (h dof hdof).1
    have : (((faceTerms v dat m wet t ramp q e).map fun x => (x.1, x.2 0 dof)).map Prod.snd).sum = 0 := by
      apply List.sum_eq_zero
      intro y hy
      obtain ⟨x, hx, rfl⟩ := List.mem_map.mp hy
      exact hz x hx
    simp only [Fin.zero_eta, Fin.isValue, this, r0]
    simpa using mul_nonneg hε hB0
  · refine main (fun f => (snormal v (dat e).elt.tri f).x) _ n0x (fun f hf => (hnb f hf).1) r1 fun x hx => ?_
    obtain ⟨h3, p', hp', hpp, h⟩ := hT x hx
    exact ⟨p', hp', hpp, h3, (h dof hdof).2.1⟩
  · refine main (fun f => (snormal v (dat e).elt.tri f).y) _ n0y (fun f hf => (hnb f hf).2) r2 fun x hx => ?_
    obtain ⟨h3, p', hp', hpp, h⟩ := hT x hx
    exact ⟨p', hp', hpp, h3, (h dof hdof).2.2⟩

/-- C48: with exact rules it is zero. -/
theorem rest_rhs (hR : Rules v.N F P 0) (hm : RestMesh v dat m P L t ramp) (hq : AtRest dat m.elts L q) {wet : ℕ → Bool}
    (hw : ∀ e ∈ m.elts, wet e = true) (junk : State ℝ) {e : ℕ} (he : e ∈ m.elts) {dof : ℕ} (hdof : dof < ndof (dat e).elt.p) (var : Fin 3) :
    localRhs v dat m wet t ramp q junk e var dof = 0 := by
  have := rest_residual hR hm hq hw junk he hdof var
  rw [zero_mul] at this
  exact abs_nonpos_iff.mp this

end

end Verif.Swe.Props
