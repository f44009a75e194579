import Verif.Props.WeakForm
import Verif.Props.GnDeriv
import Verif.Props.Balance

/-!
# C118: the computed rate of change is that of the equations

For a continuous flow which is piecewise polynomial in space and has fluxes of degree at most p + 1, the right-hand side of the program tested with a basis
function is the integral of (source - divergence of the flux) times this function. If this rate lies in the space of the elements then the program
computes exactly this rate. In particular, a steady flow of this kind does not change.
-/

namespace Verif.Swe.Props
open Verif.Geometry Verif.Geometry.Props Verif.Element Verif.Stepper Verif.Tri MvPolynomial
open Verif.Gn.Props (pull pull_eval pull_degree pull_deriv dPoly)

/-! ### Flows -/

/-- Level, velocity and bathymetry, polynomials in space. -/
structure PolyFlow where
  Z : MvPolynomial (Fin 2) ℝ
  U : MvPolynomial (Fin 2) ℝ
  V : MvPolynomial (Fin 2) ℝ
  B : MvPolynomial (Fin 2) ℝ

/-- Value at a point. -/
noncomputable def at' (p : MvPolynomial (Fin 2) ℝ) (X : P2 ℝ) : ℝ := eval ![X.x, X.y] p

/-- Depth. -/
noncomputable def PolyFlow.H (f : PolyFlow) : MvPolynomial (Fin 2) ℝ := f.Z + f.B

/-- Level and discharge at a point. -/
noncomputable def PolyFlow.state (f : PolyFlow) (X : P2 ℝ) : Fin 3 → ℝ := ![at' f.Z X, at' f.H X * at' f.U X, at' f.H X * at' f.V X]

/-- Flux of mass and momentum in direction x. -/
noncomputable def PolyFlow.fx (g : ℝ) (f : PolyFlow) : Fin 3 → MvPolynomial (Fin 2) ℝ :=
  ![f.H * f.U, f.H * f.U * f.U + C g * (C (1 / 2) * (f.Z * f.Z) + f.Z * f.B), f.H * f.U * f.V]

/-- Flux in direction y. -/
noncomputable def PolyFlow.fy (g : ℝ) (f : PolyFlow) : Fin 3 → MvPolynomial (Fin 2) ℝ :=
  ![f.H * f.V, f.H * f.U * f.V, f.H * f.V * f.V + C g * (C (1 / 2) * (f.Z * f.Z) + f.Z * f.B)]

/-- The rate of change according to the equations. -/
noncomputable def PolyFlow.rate (f : PolyFlow) (s : SourceTerms ℝ) (e : EltSource ℝ) (fs : Q ℝ) (X : P2 ℝ) (i : Fin 3) : ℝ :=
  physSource s e fs (f.state X) (at' f.B X) (at' (pderiv 0 f.B) X) (at' (pderiv 1 f.B) X) i - (at' (pderiv 0 (f.fx s.g i)) X + at' (pderiv 1 (f.fy s.g i)) X)

/-- The state and the bathymetry of the program are those of the flow `f e` in element `e`. The flow is continuous, the depth positive, each face of each
element is in the mesh once, the fluxes have at most one degree more than the element, and the states outside of the boundaries are those of the flow. -/
structure FlowIs (v : Env ℝ) (dat : ℕ → EltData ℝ) (Φ : GlobalBasis) (m : Mesh ℝ) (t ramp : ℝ) (f : ℕ → PolyFlow) (q : State ℝ) : Prop where
  state : ∀ e ∈ m.elts, ∀ X, stateOn dat Φ q e X = (f e).state X
  bath : ∀ e ∈ m.elts, ∀ X, bathOn dat Φ e X = at' (f e).B X
  depth : ∀ e ∈ m.elts, ∀ z : P2 ℝ, -1 ≤ z.x → -1 ≤ z.y → z.x + z.y ≤ 0 → 0 < at' (f e).H (pointOf (dat e).elt.tri z)
  degree : ∀ e ∈ m.elts, ∀ i, ((f e).fx v.src.g i).totalDegree ≤ (dat e).elt.p + 1 ∧ ((f e).fy v.src.g i).totalDegree ≤ (dat e).elt.p + 1
  cover : ∀ e ∈ m.elts, (facesOf m e).Perm [0, 1, 2]
  cont : ∀ j ∈ m.ints, ∀ s, (f j.ein).state (edgePoint (dat j.ein).elt.tri j.fin s) = (f j.eex).state (edgePoint (dat j.ein).elt.tri j.fin s)
  bnd : ∀ b ∈ m.bnds, ∀ gp < (v.N.line (2 * (dat b.e).elt.p + 1)).length,
    let X := edgePoint (dat b.e).elt.tri b.f ((v.N.line (2 * (dat b.e).elt.p + 1)).getD gp (0, 0)).2
    outState v t ramp b.kind gp X (outward (dat b.e).elt.tri b.f) ((f b.e).state X) = (f b.e).state X

/-! ### Polynomials -/

theorem sum_flat {α : Type} (l : List α) (g : α → List ℝ) : (l.flatMap g).sum = (l.map fun a => (g a).sum).sum := by
  induction l with
  | nil => rfl
  | cons a l ih => rw [List.flatMap_cons, List.sum_append, ih, List.map_cons, List.sum_cons]


theorem pderiv_lower (i : Fin 2) {n : ℕ} (G : MvPolynomial (Fin 2) ℝ) (hG : G.totalDegree ≤ n + 1) : (pderiv i G).totalDegree ≤ n := by
  conv_lhs => rw [G.as_sum]
  rw [map_sum]
  refine totalDegree_finsetSum_le fun s hs => ?_
  have hle := (le_totalDegree hs).trans hG
  rw [Finsupp.sum_fintype _ _ (fun _ => rfl), Fin.sum_univ_two] at hle
  rw [pderiv_monomial]
  by_cases h0 : s i = 0
  · simp [h0]
  · refine (totalDegree_monomial_le _ _).trans ?_
    rw [Finsupp.sum_fintype _ _ (fun _ => rfl), Fin.sum_univ_two]
    rcases (by fin_cases i <;> simp : i = 0 ∨ i = 1) with rfl | rfl <;> simp <;> omega

theorem dPoly_eval (t : Tri ℝ) (dir : ℕ) (G : MvPolynomial (Fin 2) ℝ) (x : Fin 2 → ℝ) :
    eval x (dPoly t dir G) = entry (jinv t) 0 dir * eval x (pderiv 0 G) + entry (jinv t) 1 dir * eval x (pderiv 1 G) := by
  simp [dPoly]

theorem dPoly_mul (t : Tri ℝ) (dir : ℕ) (A B : MvPolynomial (Fin 2) ℝ) : dPoly t dir (A * B) = dPoly t dir A * B + A * dPoly t dir B := by
  simp only [dPoly, pderiv_mul]; ring

theorem dPoly_lower (t : Tri ℝ) (dir : ℕ) {n : ℕ} (G : MvPolynomial (Fin 2) ℝ) (hG : G.totalDegree ≤ n + 1) : (dPoly t dir G).totalDegree ≤ n := by
  unfold dPoly
  refine (totalDegree_add _ _).trans (max_le ?_ ?_)
  · exact (totalDegree_mul _ _).trans (by have := pderiv_lower 0 G hG; rw [totalDegree_C]; omega)
  · exact (totalDegree_mul _ _).trans (by have := pderiv_lower 1 G hG; rw [totalDegree_C]; omega)

section
variable {v : Env ℝ} {dat : ℕ → EltData ℝ} {m : Mesh ℝ} {F : ℕ → MvPolynomial (Fin 2) ℝ} {P : ℕ} {t ramp : ℝ} {q : State ℝ} {Φ : GlobalBasis} {f : ℕ → PolyFlow}

/-- Divergence theorem for the rules of the program. -/
theorem rule_green (hR : Rules v.N F P 0) (hs : IsSqrt v.sq) {d : Elt ℝ} (hp : d.p ≤ P) (hc : 0 < jdet d.tri) (A B : MvPolynomial (Fin 2) ℝ)
    (hA : A.totalDegree ≤ 2 * d.p + 1) (hB : B.totalDegree ≤ 2 * d.p + 1) :
    |jdet d.tri| * triL (v.N.tri (2 * d.p)) (dPoly d.tri 0 A + dPoly d.tri 1 B) =
      ([0, 1, 2].map fun k => (snormal v d.tri k).x * faceI k A + (snormal v d.tri k).y * faceI k B).sum := by
  obtain ⟨j1, j2, j3, j4, n0x, n0y⟩ := jinv_normal hs hc
  have ht : ∀ G : MvPolynomial (Fin 2) ℝ, G.totalDegree ≤ 2 * d.p → triL (v.N.tri (2 * d.p)) G = I2L G := by
    intro G hG
    have := tri_approx (r := v.N.tri (2 * d.p)) (hR.tri _ hp) G hG
    rw [zero_mul] at this
    exact sub_eq_zero.1 (abs_nonpos_iff.1 this)
  rw [map_add, ht _ (dPoly_lower _ _ _ hA), ht _ (dPoly_lower _ _ _ hB)]
  have hd : ∀ dir G, I2L (dPoly d.tri dir G) = entry (jinv d.tri) 0 dir * I2L (pderiv 0 G) + entry (jinv d.tri) 1 dir * I2L (pderiv 1 G) := by
    intro dir G
    simp only [dPoly, map_add, ← smul_eq_C_mul, map_smul, smul_eq_mul]
  rw [hd, hd, (green A).1, (green A).2, (green B).1, (green B).2]
  simp only [List.map_cons, List.map_nil, List.sum_cons, List.sum_nil]
  rw [n0x, n0y]
  linear_combination (faceI 0 A - faceI 1 A) * j1 + (faceI 0 A - faceI 2 A) * j2 + (faceI 0 B - faceI 1 B) * j3 + (faceI 0 B - faceI 2 B) * j4

/-! ### Fluxes -/

theorem phys_flow (g : ℝ) (f : PolyFlow) (X : P2 ℝ) (i : Fin 3) :
    physX g (f.state X) (at' f.B X) i = at' (f.fx g i) X ∧ physY g (f.state X) (at' f.B X) i = at' (f.fy g i) X := by
  have h : at' f.H X = at' f.Z X + at' f.B X := by simp [at', PolyFlow.H]
  have hdiv : ∀ a b : ℝ, at' f.H X * a * (at' f.H X * b) / at' f.H X = at' f.H X * a * b := by
    intro a b
    by_cases h0 : at' f.H X = 0
    · simp [h0]
    · field_simp
  constructor <;> fin_cases i <;> simp [physX, physY, PolyFlow.state, PolyFlow.fx, PolyFlow.fy, ← h, pow_two, hdiv] <;> simp [at'] <;> (try left) <;> ring

theorem numFlux_same (g : ℝ) (u : Fin 3 → ℝ) (b : ℝ) (n : P2 ℝ) (i : Fin 3) : numFlux g u u b n i = physX g u b i * n.x + physY g u b i * n.y := by
  unfold numFlux; ring

/-- An edge of the element, when the state on the other side is the same. -/
theorem edge_flow (hR : Rules v.N F P 0) (hv : RealEnv v) (hm : WeakMesh dat Φ m P) (hΦ : Transported dat Φ F m.elts) (hf : FlowIs v dat Φ m t ramp f q)
    {e k : ℕ} (he : e ∈ m.elts) (hk : k < 3) {p' : ℕ} (hp' : p' ≤ P) (hpp : (dat e).elt.p ≤ p') {w : ℕ → P2 ℝ → P2 ℝ → (Fin 3 → ℝ) → Fin 3 → ℝ}
    (hw : ∀ gp < (v.N.line (2 * p' + 1)).length, w gp (edgePoint (dat e).elt.tri k ((v.N.line (2 * p' + 1)).getD gp (0, 0)).2) (outward (dat e).elt.tri k)
      ((f e).state (edgePoint (dat e).elt.tri k ((v.N.line (2 * p' + 1)).getD gp (0, 0)).2)) =
        (f e).state (edgePoint (dat e).elt.tri k ((v.N.line (2 * p' + 1)).getD gp (0, 0)).2))
    (i : Fin 3) {dof : ℕ} (hdof : dof < ndof (dat e).elt.p) :
    edgeIntegral v dat Φ q (v.N.line (2 * p' + 1)) e k w i dof =
      (snormal v (dat e).elt.tri k).x * faceI k (pull (dat e).elt.tri ((f e).fx v.src.g i) * F dof) +
        (snormal v (dat e).elt.tri k).y * faceI k (pull (dat e).elt.tri ((f e).fy v.src.g i) * F dof) := by
  set r := v.N.line (2 * p' + 1) with hr
  set T := (dat e).elt.tri with hT
  have hex : ∀ G : MvPolynomial (Fin 2) ℝ, G.totalDegree ≤ 2 * p' + 1 → faceI k G = faceL r k G := by
    intro G hG
    have := face_approx (f := k) hk (hR.line p' hp') G hG
    rw [zero_mul] at this
    exact (sub_eq_zero.1 (abs_nonpos_iff.1 this)).symm
  have hφ := hR.degree _ (hm.degree e he) dof hdof
  have hdeg : ∀ G : MvPolynomial (Fin 2) ℝ, G.totalDegree ≤ (dat e).elt.p + 1 → (pull T G * F dof).totalDegree ≤ 2 * p' + 1 := by
    intro G hG
    refine (totalDegree_mul _ _).trans ?_
    have := pull_degree T G
    omega
  rw [hex _ (hdeg _ (hf.degree e he i).1), hex _ (hdeg _ (hf.degree e he i).2)]
  simp only [faceL, LinearMap.coe_mk, AddHom.coe_mk]
  rw [← range_getD r, ← range_getD r, ← List.sum_map_mul_left, ← List.sum_map_mul_left, ← List.sum_map_add, sum_range_list]
  unfold edgeIntegral
  refine Finset.sum_congr rfl fun gp hgp => ?_
  have hgp' := Finset.mem_range.1 hgp
  simp only
  rw [hf.state e he, hw gp hgp', hf.bath e he, numFlux_same, (phys_flow _ _ _ i).1, (phys_flow _ _ _ i).2]
  have hX : edgePoint T k (r.getD gp (0, 0)).2 = pointOf T (boundaryToMaster k (r.getD gp (0, 0)).2) := by rw [← pointOf_eq, edgePoint_eq T hk]
  rw [hX, hΦ e he, map_mul, map_mul, pull_eval, pull_eval]
  simp only [snormal, hv.sqrt, normal_eq T (ccw_jdet hm he) hk, surfaceJ_eq T hk, at']
  ring

/-- All edges of the element. -/
theorem edges_flow (hR : Rules v.N F P 0) (hv : RealEnv v) (hm : WeakMesh dat Φ m P) (hΦ : Transported dat Φ F m.elts) (hf : FlowIs v dat Φ m t ramp f q)
    {e : ℕ} (he : e ∈ m.elts) (i : Fin 3) {dof : ℕ} (hdof : dof < ndof (dat e).elt.p) :
    (m.ints.map fun j =>
      let r := v.N.line (2 * max (dat j.ein).elt.p (dat j.eex).elt.p + 1)
      (if j.ein = e then edgeIntegral v dat Φ q r e j.fin (fun _ X _ _ => stateOn dat Φ q j.eex X) i dof else 0) +
      (if j.eex = e then edgeIntegral v dat Φ q r e j.fex (fun _ X _ _ => stateOn dat Φ q j.ein X) i dof else 0)).sum +
    (m.bnds.map fun b => if b.e = e then edgeIntegral v dat Φ q (v.N.line (2 * (dat e).elt.p + 1)) e b.f (outState v t ramp b.kind) i dof else 0).sum =
    ([0, 1, 2].map fun k => (snormal v (dat e).elt.tri k).x * faceI k (pull (dat e).elt.tri ((f e).fx v.src.g i) * F dof) +
        (snormal v (dat e).elt.tri k).y * faceI k (pull (dat e).elt.tri ((f e).fy v.src.g i) * F dof)).sum := by
  set G : ℕ → ℝ := fun k => (snormal v (dat e).elt.tri k).x * faceI k (pull (dat e).elt.tri ((f e).fx v.src.g i) * F dof) +
        (snormal v (dat e).elt.tri k).y * faceI k (pull (dat e).elt.tri ((f e).fy v.src.g i) * F dof) with hG
  rw [← ((hf.cover e he).map G).sum_eq, facesOf, List.map_append, List.sum_append]
  congr 1
  · have hin : ∀ j ∈ m.ints, ((if j.ein = e then edgeIntegral v dat Φ q (v.N.line (2 * max (dat j.ein).elt.p (dat j.eex).elt.p + 1)) e j.fin (fun _ X _ _ => stateOn dat Φ q j.eex X) i dof else 0) +
        (if j.eex = e then edgeIntegral v dat Φ q (v.N.line (2 * max (dat j.ein).elt.p (dat j.eex).elt.p + 1)) e j.fex (fun _ X _ _ => stateOn dat Φ q j.ein X) i dof else 0)) =
        ((((if j.ein = e then [j.fin] else []) ++ (if j.eex = e then [j.fex] else [])).map G).sum) := by
      intro j hj
      obtain ⟨h1, h2, f1, f2⟩ := hm.ends j hj
      have hP : max (dat j.ein).elt.p (dat j.eex).elt.p ≤ P := max_le (hm.degree _ h1) (hm.degree _ h2)
      have a1 : j.ein = e → edgeIntegral v dat Φ q (v.N.line (2 * max (dat j.ein).elt.p (dat j.eex).elt.p + 1)) e j.fin (fun _ X _ _ => stateOn dat Φ q j.eex X) i dof = G j.fin := by
        intro h
        subst h
        refine edge_flow hR hv hm hΦ hf he f1 hP (le_max_left _ _) (fun gp _ => ?_) i hdof
        rw [hf.state _ h2, hf.cont j hj]
      have a2 : j.eex = e → edgeIntegral v dat Φ q (v.N.line (2 * max (dat j.ein).elt.p (dat j.eex).elt.p + 1)) e j.fex (fun _ X _ _ => stateOn dat Φ q j.ein X) i dof = G j.fex := by
        intro h
        subst h
        refine edge_flow hR hv hm hΦ hf he f2 hP (le_max_right _ _) (fun gp _ => ?_) i hdof
        rw [hf.state _ h1]
        obtain ⟨r1, r2⟩ := hm.edges j hj
        rw [(edge_reversed r1 r2 _).1]
        exact hf.cont j hj _
      by_cases c1 : j.ein = e <;> by_cases c2 : j.eex = e
      · rw [if_pos c1, if_pos c2, if_pos c1, if_pos c2, a1 c1, a2 c2]; simp
      · rw [if_pos c1, if_neg c2, if_pos c1, if_neg c2, a1 c1]; simp
      · rw [if_neg c1, if_pos c2, if_neg c1, if_pos c2, a2 c2]; simp
      · rw [if_neg c1, if_neg c2, if_neg c1, if_neg c2]; simp
    rw [List.map_flatMap, sum_flat]
    exact congrArg _ (List.map_congr_left hin)
  · have hb : ∀ b ∈ m.bnds, (if b.e = e then edgeIntegral v dat Φ q (v.N.line (2 * (dat e).elt.p + 1)) e b.f (outState v t ramp b.kind) i dof else 0) =
        (((if b.e = e then [b.f] else []).map G).sum) := by
      intro b hb
      by_cases c : b.e = e
      · rw [if_pos c, if_pos c]
        subst c
        rw [edge_flow hR hv hm hΦ hf he (hm.owner b hb).2 (hm.degree _ he) le_rfl (fun gp hgp => hf.bnd b hb gp hgp) i hdof]
        simp [hG]
      · rw [if_neg c, if_neg c]; simp
    rw [List.map_flatMap, sum_flat]
    exact congrArg _ (List.map_congr_left hb)

/-! ### The rate -/

/-- **C118** The right-hand side for a flow: tested with any basis function of any element, it is the integral (by the rule of the element) of what the equations
give as the rate of change. -/
theorem consistent_weak (hR : Rules v.N F P 0) (hS : SymRules v.N P) (hv : RealEnv v) (hm : WeakMesh dat Φ m P) (hΦ : Transported dat Φ F m.elts)
    (hf : FlowIs v dat Φ m t ramp f q) {wet : ℕ → Bool} (hw : ∀ e ∈ m.elts, wet e = true) (junk : State ℝ) {e : ℕ} (he : e ∈ m.elts) (i : Fin 3) {dof : ℕ}
    (hdof : dof < ndof (dat e).elt.p) :
    localRhs v dat m wet t ramp q junk e i dof = ((v.N.tri (2 * (dat e).elt.p)).map fun wz => wz.1 * areaRatio (dat e).elt.tri *
      ((f e).rate v.src (dat e).src (v.fs t (pointOf (dat e).elt.tri wz.2)) (pointOf (dat e).elt.tri wz.2) i *
        Φ e dof (pointOf (dat e).elt.tri wz.2).x (pointOf (dat e).elt.tri wz.2).y)).sum := by
  have hj := ccw_jdet hm he
  have hp := hm.degree e he
  have hs : IsSqrt v.sq := by rw [hv.sqrt]; exact real_isSqrt
  rw [weak_form hR hS hv hm hΦ hw junk he i hdof, weakForm, sub_sub, edges_flow hR hv hm hΦ hf he i hdof]
  set T := (dat e).elt.tri with hT
  have hφ := hR.degree _ hp dof hdof
  have hdeg : ∀ G : MvPolynomial (Fin 2) ℝ, G.totalDegree ≤ (dat e).elt.p + 1 → (pull T G * F dof).totalDegree ≤ 2 * (dat e).elt.p + 1 := by
    intro G hG
    refine (totalDegree_mul _ _).trans ?_
    have := pull_degree T G
    omega
  rw [← rule_green hR hs (d := (dat e).elt) hp hj _ _ (hdeg _ (hf.degree e he i).1) (hdeg _ (hf.degree e he i).2)]
  simp only [interior, triL, LinearMap.coe_mk, AddHom.coe_mk]
  rw [← hT, ← List.sum_map_mul_left, sub_eq_iff_eq_add, ← List.sum_map_add]
  refine congrArg _ (List.map_congr_left fun wz hwz => ?_)
  have hz : wz.2.y ≠ 1 ∨ wz.2 = ⟨-1, 1⟩ := Or.inl (hR.pts _ hp wz hwz)
  obtain ⟨d1, d2⟩ := dphi_global hR hm hΦ he hdof hz
  obtain ⟨b0, b1, b2⟩ := hR.basis dof (lt_of_lt_of_le hdof (ndof_mono hp)) wz.2 hz
  have hB : ∀ x y, bathOn dat Φ e ⟨x, y⟩ = eval ![x, y] (f e).B := fun x y => hf.bath e he ⟨x, y⟩
  have db1 : deriv (fun s => bathOn dat Φ e ⟨s, (pointOf T wz.2).y⟩) (pointOf T wz.2).x = at' (pderiv 0 (f e).B) (pointOf T wz.2) := by
    simp only [hB]
    have := (poly_deriv (f e).B (hasDerivAt_id (pointOf T wz.2).x) (hasDerivAt_const _ (pointOf T wz.2).y)).deriv
    simpa [at'] using this
  have db2 : deriv (fun s => bathOn dat Φ e ⟨(pointOf T wz.2).x, s⟩) (pointOf T wz.2).y = at' (pderiv 1 (f e).B) (pointOf T wz.2) := by
    simp only [hB]
    have := (poly_deriv (f e).B (hasDerivAt_const (pointOf T wz.2).y (pointOf T wz.2).x) (hasDerivAt_id (pointOf T wz.2).y)).deriv
    simpa [at'] using this
  rw [d1.deriv, d2.deriv, db1, db2, hf.state e he, hf.bath e he, (phys_flow _ _ _ i).1, (phys_flow _ _ _ i).2, areaRatio_eq]
  have hd0 : dPoly T 0 (pull T ((f e).fx v.src.g i)) = pull T (pderiv 0 ((f e).fx v.src.g i)) := pull_deriv T hj.ne' 0 _
  have hd1 : dPoly T 1 (pull T ((f e).fy v.src.g i)) = pull T (pderiv 1 ((f e).fy v.src.g i)) := pull_deriv T hj.ne' 1 _
  rw [dPoly_mul, dPoly_mul, hd0, hd1]
  simp only [map_add, map_mul, pull_eval, dPoly_eval]
  have hφe : Φ e dof (pointOf T wz.2).x (pointOf T wz.2).y = eval ![wz.2.x, wz.2.y] (F dof) := hΦ e he dof wz.2
  rw [hφe]
  simp only [PolyFlow.rate, Elt.dphi, b1, b2, ← hT, at']
  ring

/-- **C118** If the rate of change is a function of the element, with coefficients `ρ`, then the program computes these coefficients. -/
theorem consistent_rate (hR : Rules v.N F P 0) (hO : Orthogonal v.N F P) (hS : SymRules v.N P) (hv : RealEnv v) (hm : WeakMesh dat Φ m P)
    (hΦ : Transported dat Φ F m.elts) (hf : FlowIs v dat Φ m t ramp f q) {wet : ℕ → Bool} (hw : ∀ e ∈ m.elts, wet e = true) (junk : State ℝ)
    {e : ℕ} (he : e ∈ m.elts) (i : Fin 3) (ρ : ℕ → ℝ)
    (hρ : ∀ wz ∈ v.N.tri (2 * (dat e).elt.p), (f e).rate v.src (dat e).src (v.fs t (pointOf (dat e).elt.tri wz.2)) (pointOf (dat e).elt.tri wz.2) i =
      fieldOn dat Φ e ρ (pointOf (dat e).elt.tri wz.2).x (pointOf (dat e).elt.tri wz.2).y) {dof : ℕ} (hdof : dof < ndof (dat e).elt.p) :
    solve v dat (localRhs v dat m wet t ramp q junk) e i dof = ρ dof := by
  have hp := hm.degree e he
  have hP := ndof_mono hp
  have hφ := hR.degree _ hp
  have hrule : ((v.N.tri (2 * (dat e).elt.p)).map fun wz => wz.1 * areaRatio (dat e).elt.tri *
      ((f e).rate v.src (dat e).src (v.fs t (pointOf (dat e).elt.tri wz.2)) (pointOf (dat e).elt.tri wz.2) i *
        Φ e dof (pointOf (dat e).elt.tri wz.2).x (pointOf (dat e).elt.tri wz.2).y)).sum =
      areaRatio (dat e).elt.tri * triL (v.N.tri (2 * (dat e).elt.p)) (∑ d ∈ Finset.range (ndof (dat e).elt.p), ρ d • (F d * F dof)) := by
    simp only [triL, LinearMap.coe_mk, AddHom.coe_mk]
    rw [← List.sum_map_mul_left]
    refine congrArg _ (List.map_congr_left fun wz hwz => ?_)
    rw [hρ wz hwz, hΦ e he]
    unfold fieldOn
    simp only [map_sum, smul_eval, map_mul, hΦ e he]
    rw [Finset.sum_mul, Finset.mul_sum, Finset.mul_sum, Finset.mul_sum]
    exact Finset.sum_congr rfl fun d _ => by ring
  have hsum : triL (v.N.tri (2 * (dat e).elt.p)) (∑ d ∈ Finset.range (ndof (dat e).elt.p), ρ d • (F d * F dof)) = ρ dof * (v.N.basis.minv dof)⁻¹ := by
    rw [map_sum, Finset.sum_eq_single dof]
    · rw [map_smul, smul_eq_mul]
      have hdeg : (F dof * F dof).totalDegree ≤ 2 * (dat e).elt.p := (totalDegree_mul _ _).trans (by have := hφ dof hdof; omega)
      have := tri_approx (r := v.N.tri (2 * (dat e).elt.p)) (hR.tri _ hp) _ hdeg
      rw [zero_mul] at this
      rw [sub_eq_zero.1 (abs_nonpos_iff.1 this)]
      have ho := (hO dof (lt_of_lt_of_le hdof hP)).2 dof (lt_of_lt_of_le hdof hP)
      rw [if_pos rfl] at ho
      simp only [I2L, LinearMap.coe_mk, AddHom.coe_mk, map_mul, ho]
    · intro d hd hne
      have hd' := Finset.mem_range.1 hd
      rw [map_smul, smul_eq_mul]
      have hdeg : (F d * F dof).totalDegree ≤ 2 * (dat e).elt.p := (totalDegree_mul _ _).trans (by have := hφ dof hdof; have := hφ d hd'; omega)
      have := tri_approx (r := v.N.tri (2 * (dat e).elt.p)) (hR.tri _ hp) _ hdeg
      rw [zero_mul] at this
      rw [sub_eq_zero.1 (abs_nonpos_iff.1 this)]
      have ho := (hO d (lt_of_lt_of_le hd' hP)).2 dof (lt_of_lt_of_le hdof hP)
      rw [if_neg hne] at ho
      simp only [I2L, LinearMap.coe_mk, AddHom.coe_mk, map_mul, ho, mul_zero]
    · intro h; exact absurd (Finset.mem_range.2 hdof) h
  have ha : areaRatio (dat e).elt.tri ≠ 0 := by rw [← areaRatio_eq]; exact (abs_pos.2 (ccw_jdet hm he).ne').ne'
  have hne := (hO dof (lt_of_lt_of_le hdof hP)).1
  simp only [solve, Elt.applyMinv]
  rw [consistent_weak hR hS hv hm hΦ hf hw junk he i hdof, hrule, hsum, areaRatio_eq]
  field_simp

/-! ### Steady flows -/

/-- The coefficients that belong to the elements are those of `q0`. -/
def Same (dat : ℕ → EltData ℝ) (elts : List ℕ) (q0 q : State ℝ) : Prop := ∀ e ∈ elts, ∀ d < ndof (dat e).elt.p, ∀ i, q e i d = q0 e i d

theorem same_comb {q0 : State ℝ} {tab : Tableau} {ns o : ℕ} (htab : tableau ns o = some tab)
    (hrow : (ns, o) ∈ [(1, 1), (2, 2), (3, 3), (4, 3), (6, 3), (7, 4), (8, 4)]) (dt : ℝ) {elts : List ℕ} {k : ℕ} (hk : k < ns) (u x : ℕ → State ℝ)
    (h : ∀ s, s ≤ k → Same dat elts q0 (u s) ∧ ∀ e ∈ elts, ∀ d < ndof (dat e).elt.p, ∀ var, x s e var d = 0) :
    Same dat elts q0 (∑ s ∈ Finset.range (k + 1), ((tabA tab k s : ℝ) • u s + (dt * (tabB tab k s : ℝ)) • x s)) := by
  have hsum := row_sum (K := ℝ) htab (Stepper.Props.exact_rows o ns tab htab hrow) hk
  intro e he d hd var
  rw [Finset.sum_apply, Finset.sum_apply, Finset.sum_apply]
  rw [Finset.sum_congr rfl (g := fun s => (tabA tab k s : ℝ) * q0 e var d)]
  · rw [← Finset.sum_mul, hsum, one_mul]
  · intro s hs
    have hs' : s ≤ k := by simp at hs; omega
    simp only [Pi.add_apply, Pi.smul_apply, smul_eq_mul]
    rw [(h s hs').1 e he d hd var, (h s hs').2 e he d hd var]; ring

/-- Wetting and drying leave deep water alone. -/
theorem same_wd {q0 : State ℝ} {wp : Option (WdParams ℝ)}
    (hp : ∀ w, wp = some w → 0 < w.thr ∧ w.thr ≤ w.ho ∧ ∀ e ∈ m.elts, ∀ x < 3, w.ho + w.thr < Basis.basisToLinear (ndof (dat e).elt.p) (q0 e 0) x + w.bath e x)
    (hdeg : ∀ e ∈ m.elts, 1 ≤ (dat e).elt.p) (hq : Same dat m.elts q0 q) {wet : ℕ → Bool} (hw : ∀ e ∈ m.elts, wet e = true) (em : Bool) :
    ∃ w', wdAll dat m wp ⟨q, wet, em⟩ = .ok ⟨q, w', em⟩ ∧ ∀ e ∈ m.elts, w' e = true := by
  unfold wdAll
  cases wp with
  | none => exact ⟨wet, rfl, hw⟩
  | some w =>
    obtain ⟨h1, h2, h3⟩ := hp w rfl
    simp only
    suffices h : ∀ l : List ℕ, (∀ e ∈ l, e ∈ m.elts) → ∀ wet : ℕ → Bool, (∀ e ∈ m.elts, wet e = true) →
        ∃ w', l.foldlM (wdStep dat w) ⟨q, wet, em⟩ = .ok ⟨q, w', em⟩ ∧ ∀ e ∈ m.elts, w' e = true from h m.elts (fun _ h => h) wet hw
    intro l
    induction l with
    | nil => intro _ wet hw; exact ⟨wet, rfl, hw⟩
    | cons a l ih =>
      intro hl wet hw
      have ha := hl a List.mem_cons_self
      have hn3 := ndof_three (hdeg a ha)
      obtain ⟨o, ho, htr⟩ := wet_dry h1 h2 hn3 (w.bath a) (w.bathMin a) (w.temp a) (wet a) (rowsOf (q a))
      have hv : ∀ x < 3, Basis.basisToLinear (ndof (dat a).elt.p) (rowsOf (q a)).ze x = Basis.basisToLinear (ndof (dat a).elt.p) (q0 a 0) x := by
        intro x _
        unfold Basis.basisToLinear
        refine congrArg _ (List.map_congr_left fun d hd => ?_)
        rw [show (rowsOf (q a)).ze d = q a 0 d from rfl, hq a ha d (List.mem_range.1 hd) 0]
      obtain ⟨hu1, hu2⟩ := htr.untouched (hw a ha) fun x hx => by rw [depthAt, hv x hx]; exact h3 a ha x hx
      have hem : o.emptied = false := by
        by_contra hc
        have := htr.flag.mp (by simpa using hc)
        rw [meanDepth, depthAt, depthAt, depthAt, hv 0 (by omega), hv 1 (by omega), hv 2 (by omega)] at this
        have b0 := h3 a ha 0 (by omega); have b1 := h3 a ha 1 (by omega); have b2 := h3 a ha 2 (by omega)
        linarith
      have hs : wdStep dat w ⟨q, wet, em⟩ a = .ok ⟨q, Function.update wet a true, em⟩ := by
        unfold wdStep
        simp only [ho]
        rw [show (Except.ok o >>= fun o => (pure ⟨Function.update q a (ofRows o.q), Function.update wet a o.wet, em || o.emptied⟩ : Res (Flow ℝ))) =
          .ok ⟨Function.update q a (ofRows o.q), Function.update wet a o.wet, em || o.emptied⟩ from rfl]
        rw [hu1, hu2, hem, ofRows_rowsOf, Function.update_eq_self, Bool.or_false]
      obtain ⟨w', hf, hw'⟩ := ih (fun e he => hl e (List.mem_cons_of_mem _ he)) (Function.update wet a true) fun e he => by
        by_cases h : e = a
        · subst h; simp
        · rw [Function.update_of_ne h]; exact hw e he
      exact ⟨w', by rw [List.foldlM_cons, hs]; exact hf, hw'⟩

theorem flow_same {q0 : State ℝ} (hf : FlowIs v dat Φ m t ramp f q0) (hq : Same dat m.elts q0 q) : FlowIs v dat Φ m t ramp f q := by
  refine ⟨fun e he X => ?_, hf.bath, hf.depth, hf.degree, hf.cover, hf.cont, hf.bnd⟩
  rw [← hf.state e he X]
  funext i
  unfold stateOn fieldOn
  exact Finset.sum_congr rfl fun d hd => by rw [hq e he d (Finset.mem_range.1 hd) i]

/-- **C118** A steady flow of the equations is a steady flow of the program: any number of stages of any scheme, with or without wetting and drying in water
deep enough, leaves all coefficients as they are. -/
theorem steady_flow (hR : Rules v.N F P 0) (hO : Orthogonal v.N F P) (hS : SymRules v.N P) (hv : RealEnv v) (hm : WeakMesh dat Φ m P)
    (hΦ : Transported dat Φ F m.elts) {tab : Tableau} {ns o : ℕ} (htab : tableau ns o = some tab)
    (hrow : (ns, o) ∈ [(1, 1), (2, 2), (3, 3), (4, 3), (6, 3), (7, 4), (8, 4)]) (dt : ℝ) (wd : Option (WdParams ℝ)) {q0 : State ℝ}
    (hp : ∀ w, wd = some w → 0 < w.thr ∧ w.thr ≤ w.ho ∧ ∀ e ∈ m.elts, ∀ x < 3, w.ho + w.thr < Basis.basisToLinear (ndof (dat e).elt.p) (q0 e 0) x + w.bath e x)
    (hdeg : ∀ e ∈ m.elts, 1 ≤ (dat e).elt.p) (junk : State ℝ) (time ramp : ℕ → ℝ) (hf : ∀ n, FlowIs v dat Φ m (time n) (ramp n) f q0)
    (hsteady : ∀ n, ∀ e ∈ m.elts, ∀ i, ∀ wz ∈ v.N.tri (2 * (dat e).elt.p),
      (f e).rate v.src (dat e).src (v.fs (time n) (pointOf (dat e).elt.tri wz.2)) (pointOf (dat e).elt.tri wz.2) i = 0)
    (slots : List (Slot (State ℝ))) (hlen : ns + 1 ≤ slots.length) (sl : Slot (State ℝ)) (h0 : slots[0]? = some sl) (hq : Same dat m.elts q0 sl.q)
    (wet : ℕ → Bool) (hw : ∀ e ∈ m.elts, wet e = true) (n : ℕ) :
    ∃ s sl', runSerial v dat m tab ns dt ⟨wd, none⟩ junk time ramp n ⟨slots, 0, wet, false⟩ = .ok s ∧ s.emptied = false ∧
      s.slots[s.stage]? = some sl' ∧ Same dat m.elts q0 sl'.q ∧ ∀ e ∈ m.elts, s.wet e = true := by
  have hns := (Stepper.shapeOK_of_tableau htab).2.1
  set A : State ℝ → Prop := Same dat m.elts q0 with hA
  set S : State ℝ → Prop := fun x => ∀ e ∈ m.elts, ∀ d < ndof (dat e).elt.p, ∀ var, x e var d = 0 with hSS
  set G : (ℕ → Bool) → Prop := fun w => ∀ e ∈ m.elts, w e = true with hG
  suffices h : ∃ s, runSerial v dat m tab ns dt ⟨wd, none⟩ junk time ramp n ⟨slots, 0, wet, false⟩ = .ok s ∧ RunInv A S G ns s ∧ s.emptied = false by
    obtain ⟨s, h1, h2, h3⟩ := h
    obtain ⟨sl', h4, h5⟩ := h2.good s.stage le_rfl
    exact ⟨s, sl', h1, h3, h4, h5, h2.wet⟩
  induction n with
  | zero =>
    refine ⟨_, rfl, ⟨hns, hlen, fun i hi => ?_, fun i hi => ?_, hw⟩, rfl⟩
    · obtain rfl : i = 0 := by simpa using hi
      exact ⟨sl, h0, hq⟩
    · simp at hi
  | succ n ih =>
    obtain ⟨s, h1, h2, h3⟩ := ih
    have hrhs : ∀ q wet, A q → G wet → S (solve v dat (localRhs v dat m wet (time n) (ramp n) q junk)) := by
      intro q wet hq hw e he d hd var
      refine consistent_rate hR hO hS hv hm hΦ (flow_same (hf n) hq) hw junk he var (fun _ => 0) (fun wz hwz => ?_) hd
      rw [hsteady n e he var wz hwz]
      simp [fieldOn]
    obtain ⟨slots', q, y, hAq, hl, hy, hold, e⟩ := stage_forward (v := v) (dat := dat) (m := m) (dt := dt) (junk := junk) (t := time n) (ramp := ramp n) ⟨wd, none⟩ htab
      (fun k hk u x hux => same_comb htab hrow dt hk u x hux) hrhs h2
    obtain ⟨w', hfw, hw'⟩ := same_wd hp hdeg hAq h2.wet s.emptied
    simp only at e
    rw [hfw] at e
    refine ⟨⟨slots'.set ((s.stage + 1) % ns) ⟨q, y⟩, (s.stage + 1) % ns, w', s.emptied⟩, by rw [runSerial_succ, h1]; exact e, ?_, h3⟩
    refine ⟨Nat.mod_lt _ hns, by simpa using hl, fun i hi => ?_, fun i hi => ?_, hw'⟩
    · simp only at hi ⊢
      by_cases hii : i = (s.stage + 1) % ns
      · subst hii
        have := Nat.mod_lt (s.stage + 1) hns
        exact ⟨_, List.getElem?_set_self (by omega), hAq⟩
      · obtain ⟨sl', h4, h5, _⟩ := hold i (by omega)
        exact ⟨sl', by rw [List.getElem?_set_ne (Ne.symm hii)]; exact h4, h5⟩
    · simp only at hi ⊢
      obtain ⟨sl', h4, _, h5⟩ := hold i hi
      exact ⟨sl', by rw [List.getElem?_set_ne (by omega)]; exact h4, h5⟩

end

/-! ### Case: water running down a slope at constant depth, gravity in balance with friction -/

/-- Depth and velocity one, slope 1/981. -/
noncomputable def normalFlow : PolyFlow := ⟨C (-(1 / 981)) * X 0, C 1, C 0, C 1 + C (1 / 981) * X 0⟩

/-- Gravity 9.81, friction coefficient 1/100; the boundaries are given by the flow. -/
noncomputable def slopeEnv : Env ℝ :=
  ⟨exactN, Real.sqrt, fun h => h ^ (1 / 3 : ℝ), Real.cos, Real.pi, ⟨9.81, 1000, false, true, false, false, false, 1 / 100⟩, fun _ => 1, fun _ _ => ⟨0, 0, 0⟩,
    fun _ x => ⟨-(1 / 981) * x.x, 1, 0⟩⟩

/-- The coordinate x in the basis. -/
noncomputable def xCoef (e d : ℕ) : ℝ :=
  if e = 0 then (if d = 0 then 4 / 3 else if d = 1 then -2 / 3 else 2) else (if d = 0 then 8 / 3 else if d = 1 then 2 / 3 else -2)

noncomputable def slopeBed (e d : ℕ) : ℝ := (if d = 0 then 1 else 0) + 1 / 981 * xCoef e d

noncomputable def slopeDat : ℕ → EltData ℝ := twoTris 1 slopeBed

noncomputable def slopeState : State ℝ := fun e i d => if i = 0 then -(1 / 981) * xCoef e d else if i = 1 then (if d = 0 then 1 else 0) else 0

def slopeMesh : Mesh ℝ := openMesh fun _ => .function

theorem slope_tri {e : ℕ} (he : e ∈ slopeMesh.elts) : e = 0 ∨ e = 1 := by simpa [slopeMesh, openMesh] using he

theorem slope_det : ∀ e ∈ slopeMesh.elts, jdet (slopeDat e).elt.tri ≠ 0 := by
  intro e he
  rcases slope_tri he with rfl | rfl <;> norm_num [slopeDat, twoTris, jdet, Geometry.det, jac]

theorem dub_first (x y : ℝ) : eval ![x, y] (dubF id 0) = 1 ∧ eval ![x, y] (dubF id 1) = (1 + 3 * y) / 2 ∧ eval ![x, y] (dubF id 2) = (1 + 2 * x + y) / 2 := by
  obtain ⟨h0, h1, h2⟩ := Basis.Props.first_dofs Basis.Props.rounding_id
  unfold dubF
  rw [h0, h1, h2, Basis.Props.dubPoly_eval, Basis.Props.dubPoly_eval, Basis.Props.dubPoly_eval]
  refine ⟨?_, ?_, ?_⟩ <;> simp [Basis.Props.dub, Basis.Lemmas.jc, Basis.Lemmas.jp, Finset.sum_range_succ] <;> ring

theorem slope_field {e : ℕ} (he : e ∈ slopeMesh.elts) (a b : ℝ) (Y : P2 ℝ) :
    fieldOn slopeDat (transport slopeDat (dubF id)) e (fun d => a * (if d = 0 then 1 else 0) + b * xCoef e d) Y.x Y.y = a + b * Y.x := by
  have hn : ndof 1 = 3 := by decide
  have hp : (slopeDat e).elt.p = 1 := rfl
  have hY := (maps_inverse _ (slope_det e he)).1 Y
  rw [pointOf_eq] at hY
  unfold fieldOn transport
  rw [show (⟨Y.x, Y.y⟩ : P2 ℝ) = Y from rfl, hp, hn]
  set z := globalToLocal (slopeDat e).elt.tri Y with hz
  obtain ⟨h0, h1, h2⟩ := dub_first z.x z.y
  simp only [Finset.sum_range_succ, Finset.sum_range_zero, h0, h1, h2]
  rw [← hY]
  rcases slope_tri he with rfl | rfl <;> simp [pointOf, slopeDat, twoTris, xCoef] <;> ring

theorem slope_bath {e : ℕ} (he : e ∈ slopeMesh.elts) (Y : P2 ℝ) : bathOn slopeDat (transport slopeDat (dubF id)) e Y = 1 + 1 / 981 * Y.x := by
  rw [← slope_field he 1 (1 / 981) Y]
  unfold bathOn
  congr 1
  funext d
  simp [slopeDat, twoTris, slopeBed]

theorem slope_state {e : ℕ} (he : e ∈ slopeMesh.elts) (Y : P2 ℝ) : stateOn slopeDat (transport slopeDat (dubF id)) slopeState e Y = ![-(1 / 981) * Y.x, 1, 0] := by
  funext i
  unfold stateOn
  fin_cases i
  · have := slope_field he 0 (-(1 / 981)) Y
    simp only [zero_mul, zero_add] at this
    exact this
  · have := slope_field he 1 0 Y
    simp only [zero_mul, add_zero, one_mul] at this
    exact this
  · have := slope_field he 0 0 Y
    simp only [zero_mul, add_zero] at this
    exact this

theorem normal_state (Y : P2 ℝ) : normalFlow.state Y = ![-(1 / 981) * Y.x, 1, 0] := by
  funext i
  fin_cases i <;> simp [PolyFlow.state, PolyFlow.H, normalFlow, at']

theorem normal_degree (g : ℝ) (i : Fin 3) : (normalFlow.fx g i).totalDegree ≤ 2 ∧ (normalFlow.fy g i).totalDegree ≤ 2 := by
  have hadd : ∀ {n : ℕ} {p q : MvPolynomial (Fin 2) ℝ}, p.totalDegree ≤ n → q.totalDegree ≤ n → (p + q).totalDegree ≤ n :=
    fun h1 h2 => (totalDegree_add _ _).trans (max_le h1 h2)
  have hmul : ∀ {a b n : ℕ} {p q : MvPolynomial (Fin 2) ℝ}, p.totalDegree ≤ a → q.totalDegree ≤ b → a + b ≤ n → (p * q).totalDegree ≤ n :=
    fun h1 h2 h => (totalDegree_mul _ _).trans ((add_le_add h1 h2).trans h)
  have hC : ∀ c : ℝ, (C c : MvPolynomial (Fin 2) ℝ).totalDegree ≤ 0 := fun c => by simp
  have hX : (X 0 : MvPolynomial (Fin 2) ℝ).totalDegree ≤ 1 := by simp
  have hZ : normalFlow.Z.totalDegree ≤ 1 := hmul (hC _) hX (by omega)
  have hB : normalFlow.B.totalDegree ≤ 1 := hadd ((hC _).trans (by omega)) (hmul (hC _) hX (by omega))
  have hH : normalFlow.H.totalDegree ≤ 1 := hadd hZ hB
  have hU : normalFlow.U.totalDegree ≤ 0 := hC 1
  have hV : normalFlow.V.totalDegree ≤ 0 := hC 0
  have hP : (C g * (C (1 / 2) * (normalFlow.Z * normalFlow.Z) + normalFlow.Z * normalFlow.B)).totalDegree ≤ 2 :=
    hmul (hC _) (hadd (hmul (hC _) (hmul hZ hZ le_rfl) (by omega)) (hmul hZ hB le_rfl)) (by omega)
  have h2 : ∀ {p q : MvPolynomial (Fin 2) ℝ}, p.totalDegree ≤ 0 → q.totalDegree ≤ 0 → (normalFlow.H * p * q).totalDegree ≤ 2 :=
    fun h1 h2 => hmul (hmul hH h1 le_rfl) h2 (by omega)
  constructor
  · fin_cases i
    · exact hmul hH hU (by omega)
    · exact hadd (h2 hU hU) hP
    · exact h2 hU hV
  · fin_cases i
    · exact hmul hH hV (by omega)
    · exact h2 hU hV
    · exact hadd (h2 hV hV) hP

theorem slope_flow (t ramp : ℝ) : FlowIs slopeEnv slopeDat (transport slopeDat (dubF id)) slopeMesh t ramp (fun _ => normalFlow) slopeState := by
  refine ⟨fun e he Y => ?_, fun e he Y => ?_, fun e he z _ _ _ => ?_, fun e he i => normal_degree _ i, ?_, fun _ _ _ => rfl, ?_⟩
  · rw [slope_state he, normal_state]
  · rw [slope_bath he]; simp [normalFlow, at']
  · simp [PolyFlow.H, normalFlow, at']
  · intro e he
    rcases slope_tri he with rfl | rfl <;> decide
  · intro b hb gp hgp
    simp only
    have hk : b.kind = .function := by
      rcases (by simpa [slopeMesh, openMesh] using hb : b = _ ∨ b = _ ∨ b = _ ∨ b = _) with rfl | rfl | rfl | rfl <;> rfl
    rw [hk, normal_state]
    simp [outState, slopeEnv]

theorem slope_steady (t : ℝ) (e : ℕ) (Y : P2 ℝ) (i : Fin 3) : normalFlow.rate slopeEnv.src (slopeDat e).src (slopeEnv.fs t Y) Y i = 0 := by
  unfold PolyFlow.rate
  rw [normal_state]
  fin_cases i <;>
    simp [physSource, slopeEnv, slopeDat, twoTris, cfAt, PolyFlow.fx, PolyFlow.fy, PolyFlow.H, normalFlow, at', pderiv_X]
  all_goals norm_num
  all_goals ring

theorem slope_weak : WeakMesh slopeDat (transport slopeDat (dubF id)) slopeMesh 1 := by
  refine ⟨(by decide), ?_, fun _ _ => le_rfl, ?_, ?_, ?_, ?_, ?_⟩
  · intro e he
    rcases slope_tri he with rfl | rfl <;> norm_num [slopeDat, twoTris]
  · intro j hj
    obtain rfl : j = _ := by simpa [slopeMesh, openMesh] using hj
    simp [slopeMesh, openMesh]
  · intro j hj
    obtain rfl : j = _ := by simpa [slopeMesh, openMesh] using hj
    simp [slopeDat, twoTris, startOf, endOf]
  · intro j hj
    obtain rfl : j = _ := by simpa [slopeMesh, openMesh] using hj
    rfl
  · intro j hj s
    obtain rfl : j = _ := by simpa [slopeMesh, openMesh] using hj
    rw [slope_bath (by simp [slopeMesh, openMesh]), slope_bath (by simp [slopeMesh, openMesh])]
  · intro b hb
    rcases (by simpa [slopeMesh, openMesh] using hb : b = _ ∨ b = _ ∨ b = _ ∨ b = _) with rfl | rfl | rfl | rfl <;> simp [slopeMesh, openMesh]

theorem exact_orthogonal : Orthogonal exactN (dubF id) 1 := by
  intro d hd
  have h : ∀ d, d < ndof 1 → d < ndof 10 := fun d hd => hd.trans (by decide)
  exact ⟨(code_orthogonal Basis.Props.rounding_id d (h d hd)).1, fun d' hd' => (code_orthogonal Basis.Props.rounding_id d (h d hd)).2 d' (h d' hd')⟩

theorem exact_symmetric : SymRules exactN 1 := by
  intro p _ gp hgp
  have hlen : gp < 3 := by simpa [exactN] using hgp
  have h3 : gp = 0 ∨ gp = 1 ∨ gp = 2 := by omega
  rcases h3 with rfl | rfl | rfl <;> norm_num [exactN]

/-- The run exists and the flow stays, moving at velocity one over the sloping bed. -/
example (n : ℕ) (tab : Tableau) (ht : tableau 3 3 = some tab) :
    ∃ s sl, runSerial slopeEnv slopeDat slopeMesh tab 3 (1 / 10) ⟨none, none⟩ 0 (fun _ => 0) (fun _ => 0) n
      ⟨[⟨slopeState, 0⟩, ⟨0, 0⟩, ⟨0, 0⟩, ⟨0, 0⟩], 0, fun _ => true, false⟩ = .ok s ∧ s.slots[s.stage]? = some sl ∧ sl.q 0 1 0 = 1 ∧ sl.q 1 0 0 = -8 / 2943 := by
  obtain ⟨s, sl, h1, _, h2, h3, _⟩ := steady_flow (v := slopeEnv) exact_rules exact_orthogonal exact_symmetric ⟨rfl, fun _ => rfl, rfl, rfl, fun _ => rfl⟩ slope_weak
    (transported _ _ _ slope_det) ht (by simp) (1 / 10) none (q0 := slopeState) (fun _ h => by cases h) (fun _ _ => le_rfl) 0 (fun _ => 0) (fun _ => 0)
    (fun _ => slope_flow 0 0) (fun _ e _ i _ _ => slope_steady _ e _ i) [⟨slopeState, 0⟩, ⟨0, 0⟩, ⟨0, 0⟩, ⟨0, 0⟩] (by simp) _ rfl (fun _ _ _ _ _ => rfl)
    (fun _ => true) (fun _ _ => rfl) n
  refine ⟨s, sl, h1, h2, ?_, ?_⟩
  · rw [h3 0 (by simp [slopeMesh, openMesh]) 0 (ndof_pos _) 1]
    simp [slopeState]
  · rw [h3 1 (by simp [slopeMesh, openMesh]) 0 (ndof_pos _) 0]
    simp [slopeState, xCoef]; norm_num

end Verif.Swe.Props
