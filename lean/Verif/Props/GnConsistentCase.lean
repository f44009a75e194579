import Verif.Props.GnConsistent
import Verif.Props.GnPoly
import Verif.Props.IhdgOpen

/-!
Cases for C92: flows in the space of the elements exist, a flow over a sloping bed between four walls.
-/

namespace Verif.Gn.Props
open Verif.Quadrature.Props Verif.Swe Verif.Swe.Props Verif.Geometry Verif.Geometry.Props Verif.Element Verif.Edge Verif.Edge.Props Verif.Ehdg Verif.Ihdg Verif.Ihdg.Props Verif.Tri MvPolynomial Verif.Basis

/-- Values at as many distinct points as functions can be interpolated. -/
theorem interpolate {n : ℕ} {x : ℕ → ℝ} (hn : n ≤ 800) (hx : ∀ i < n, ∀ j < n, x i = x j → i = j) (u : ℕ → ℝ) :
    ∃ c : ℕ → ℝ, ∀ gp < n, ∑ i ∈ Finset.range n, c i * legendre i (x gp) = u gp := by
  let M : Matrix (Fin n) (Fin n) ℝ := fun gp i => legendre i.val (x gp.val)
  have inj : Function.Injective M.mulVec := by
    intro a b hab
    funext i
    have h0 := independent hn hx (fun k => if hk : k < n then a ⟨k, hk⟩ - b ⟨k, hk⟩ else 0) (fun gp hgp => ?_) i.val i.isLt
    · simp only [i.isLt, dif_pos] at h0
      exact sub_eq_zero.1 h0
    · have h1 := congrFun hab ⟨gp, hgp⟩
      simp only [Matrix.mulVec, dotProduct, M] at h1
      rw [Finset.sum_range]
      simp only [Fin.isLt, dif_pos, sub_mul, Finset.sum_sub_distrib]
      rw [sub_eq_zero]
      simp only [Fin.eta, mul_comm (legendre _ _)] at h1 ⊢
      exact h1
  obtain ⟨c, hc⟩ := Matrix.mulVec_surjective_iff_isUnit.2 (Matrix.mulVec_injective_iff_isUnit.1 inj) fun g => u g.val
  refine ⟨fun k => if hk : k < n then c ⟨k, hk⟩ else 0, fun gp hgp => ?_⟩
  have := congrFun hc ⟨gp, hgp⟩
  simp only [Matrix.mulVec, dotProduct, M] at this
  rw [← this, Finset.sum_range]
  exact Finset.sum_congr rfl fun i _ => by simp [mul_comm]

section
variable {D : Dc ℝ} {F : ℕ → MvPolynomial (Fin 2) ℝ} {P : ℕ} {q : State ℝ} {Φ : FlowFields}

/-- Coefficients and traces of a flow. -/
theorem smooth_exists (hR : Rules D.v.N F P 0) (hO : Orthogonal D.v.N F P) (hS : SymRules D.v.N P) (hm : GradMesh D.dat D.m P)
    (hx : ∀ ed ∈ edgesOf D.m, (rule D.geo ed).length ≤ 800 ∧ ∀ i < (rule D.geo ed).length, ∀ j < (rule D.geo ed).length, ((rule D.geo ed).getD i (0, 0)).2 = ((rule D.geo ed).getD j (0, 0)).2 → i = j)
    (hB : Agrees D.dat D.m (bathRow D.v D.dat) Φ.B) (hq : Agrees D.dat D.m (depth D.v D.dat q) Φ.H)
    (hn : ∀ e ∈ D.m.elts, ∀ z, Gauss D e z → depth D.v D.dat q e z ≠ 0)
    (hdeg : ∀ e ∈ D.m.elts, ∀ Q ∈ [Φ.B, Φ.V 0, Φ.V 1, Φ.H * Φ.V 0, Φ.H * Φ.V 1, Φ.H ^ 3 * Φ.div, Φ.H * Φ.bw], Q.totalDegree ≤ (D.dat e).elt.p)
    (hl : ∀ b ∈ D.m.bnds, b.kind = .land → ∀ z, z ∈ (List.range (rule D.geo (.bnd b)).length).map (facePt (rule D.geo (.bnd b)) b.f) →
      nd (nrm D.geo (.bnd b)) 0 * at' D (Φ.H * Φ.V 0) b.e z + nd (nrm D.geo (.bnd b)) 1 * at' D (Φ.H * Φ.V 1) b.e z = 0)
    (ho : ∀ b ∈ D.m.bnds, b.kind ≠ .land → ∀ z, z ∈ (List.range (rule D.geo (.bnd b)).length).map (facePt (rule D.geo (.bnd b)) b.f) → at' D (Φ.H ^ 3 * Φ.div) b.e z = 0) :
    ∃ w1 w2 y, SmoothFlow D q Φ w1 w2 y := by
  let w1 : ℕ → ℕ → ℝ := fun e r => if r % 2 = 0 then coefs D.v.N F D.dat (Φ.H * Φ.V 0) e (r / 2) else coefs D.v.N F D.dat (Φ.H * Φ.V 1) e (r / 2)
  have c1 : ∀ a : Fin 2, Agrees D.dat D.m (fun e => vec D w1 e a) (Φ.H * Φ.V a) := by
    intro a
    rcases (by fin_cases a <;> simp : a = 0 ∨ a = 1) with rfl | rfl
    · have : (fun e => vec D w1 e (0 : Fin 2)) = rowOf D.v D.dat (coefs D.v.N F D.dat (Φ.H * Φ.V 0)) := by
        funext e z
        simp [vec, rowOf, w1]
      rw [this]
      exact coefs_agree hR hO hm.degree fun e he => hdeg e he _ (by simp)
    · have : (fun e => vec D w1 e (1 : Fin 2)) = rowOf D.v D.dat (coefs D.v.N F D.dat (Φ.H * Φ.V 1)) := by
        funext e z
        simp only [vec, rowOf, w1, Fin.val_one]
        refine congrArg (fun c => (D.dat e).elt.value D.v.N c z) (funext fun d => ?_)
        rw [show (2 * d + 1) % 2 = 1 by omega, show (2 * d + 1) / 2 = d by omega]; rfl
      rw [this]
      exact coefs_agree hR hO hm.degree fun e he => hdeg e he _ (by simp)
  have c2 : Agrees D.dat D.m (scl D (coefs D.v.N F D.dat (Φ.H ^ 3 * Φ.div))) (Φ.H ^ 3 * Φ.div) :=
    coefs_agree hR hO hm.degree fun e he => hdeg e he _ (by simp)
  have ht : ∀ k : ℕ, ∀ a : Fin 2, ∃ c : ℕ → ℝ, ∀ ed, (edgesOf D.m)[k]? = some ed → ∀ gp < (rule D.geo ed).length, ugp (tab D.geo ed) c gp = at1 D w1 ed ed.own gp a := by
    intro k a
    by_cases hk : k < (edgesOf D.m).length
    · obtain ⟨h1, h2⟩ := hx _ (List.getElem_mem hk)
      obtain ⟨c, hc⟩ := interpolate h1 h2 fun gp => at1 D w1 (edgesOf D.m)[k] (edgesOf D.m)[k].own gp a
      refine ⟨c, fun ed hed gp hgp => ?_⟩
      obtain ⟨_, rfl⟩ := List.getElem?_eq_some_iff.1 hed
      exact hc gp hgp
    · refine ⟨fun _ => 0, fun ed hed => ?_⟩
      rw [List.getElem?_eq_none (by omega)] at hed
      cases hed
  choose c hc using ht
  let y : ℕ → ℕ → ℝ := fun k r => if r % 2 = 0 then c k 0 (r / 2) else c k 1 (r / 2)
  have hy : ∀ k (ed : Edg ℝ) (a : Fin 2) gp, trc D y ed k a gp = ugp (tab D.geo ed) (c k a) gp := by
    intro k ed a gp
    rcases (by fin_cases a <;> simp : a = 0 ∨ a = 1) with rfl | rfl
    · simp [trc, y]
    · simp only [trc, y, Fin.val_one]
      refine congrArg (fun c => ugp (tab D.geo ed) c gp) (funext fun d => ?_)
      rw [show (2 * d + 1) % 2 = 1 by omega, show (2 * d + 1) / 2 = d by omega]; rfl
  have hface : ∀ (b : Bnd ℝ) gp, gp < (rule D.geo (.bnd b)).length → facePt (rule D.geo (.bnd b)) b.f gp ∈ (List.range (rule D.geo (.bnd b)).length).map (facePt (rule D.geo (.bnd b)) b.f) :=
    fun b gp h => List.mem_map_of_mem (List.mem_range.2 h)
  refine ⟨w1, coefs D.v.N F D.dat (Φ.H ^ 3 * Φ.div), y, hB, hq, c1, c2, fun k ed hk s hs gp hgp a ha => ?_, hn, fun e he => hdeg e he _ (by simp), fun e he a => ?_,
    fun e he => hdeg e he _ (by simp), fun e he => hdeg e he _ (by simp), fun b hb hk gp hgp => ?_, fun b hb hk gp hgp => ?_⟩
  · obtain ⟨a, rfl⟩ : ∃ a' : Fin 2, a = a' := ⟨⟨a, ha⟩, rfl⟩
    rw [hy]
    rcases mem_edge hk with ⟨i, hi, rfl⟩ | ⟨b, hb, rfl⟩ <;> simp only [Edg.sides, List.mem_cons, List.not_mem_nil, or_false] at hs
    · rcases hs with rfl | rfl
      · exact hc k a _ hk gp hgp
      · rw [opp_ex, hc k a _ hk _ (by omega)]
        have hgp' : (rule D.geo (.int i)).length - gp - 1 < (i.rule D.v D.dat).length := by
          show (rule D.geo (.int i)).length - gp - 1 < (rule D.geo (.int i)).length
          omega
        have := agrees_cont hS hm (c1 a) hi hgp'
        refine this.trans ?_
        show vec D w1 i.eex a (facePt (rule D.geo (.int i)) i.fex ((rule D.geo (.int i)).length - ((rule D.geo (.int i)).length - gp - 1) - 1)) = _
        rw [show (rule D.geo (.int i)).length - ((rule D.geo (.int i)).length - gp - 1) - 1 = gp by omega]
        rfl
    · rw [hs]; exact hc k a _ hk gp hgp
  · rcases (by fin_cases a <;> simp : a = 0 ∨ a = 1) with rfl | rfl <;> exact hdeg e he _ (by simp)
  · have he := hm.owner b hb
    rw [← hl b hb hk _ (hface b gp hgp)]
    exact congrArg₂ (· + ·) (congrArg _ (c1 0 _ he _ (face_regular _ _))) (congrArg _ (c1 1 _ he _ (face_regular _ _)))
  · rw [← ho b hb hk _ (hface b gp hgp)]
    exact c2 _ (hm.owner b hb) _ (face_regular _ _)

end

/-- Two cubic elements over the rectangle of sides 4 and 3, with a bed sloping in the first direction. -/
noncomputable def slopingDc : Dc ℝ :=
  ⟨plainEnv cubicN Real.sqrt, twoTris 3 (coefs cubicN (dubF id) (twoTris 3 fun _ _ => 0) (C 1 + X 0)), twoMesh, 1, -20, fun _ _ => none, fun _ _ _ => none, false, 4,
    fun _ _ _ _ => 0, fun _ _ _ _ _ => 0, fun _ _ _ _ => 0⟩

/-- Depth one, velocity `x (4 - x)`. -/
noncomputable def swing : FlowFields := ⟨C 1 + X 0, C 1, ![X 0 * (C 4 - X 0), 0]⟩

theorem swing_div : swing.div = C 4 - C 2 * X 0 := by
  simp only [FlowFields.div, swing, Matrix.cons_val_zero, Matrix.cons_val_one, Matrix.cons_val_fin_one, map_zero, add_zero, pderiv_mul, map_sub, pderiv_C, pderiv_X_self]
  rw [show (C 2 : MvPolynomial (Fin 2) ℝ) = 2 from map_ofNat C 2]; ring

theorem swing_b : swing.b 0 = -1 ∧ swing.b 1 = 0 := by
  constructor <;> simp [FlowFields.b, swing, pderiv_X, Pi.single_apply]

theorem swing_bw : swing.bw = -(X 0 * (C 4 - X 0)) := by
  rw [FlowFields.bw, swing_b.1, swing_b.2]
  simp [swing]

theorem swing_op : swing.op 1 0 = C 2 * (X 0 * (C 4 - X 0)) + C (2 / 3) ∧ swing.op 1 1 = 0 := by
  have h2 : (C 2 : MvPolynomial (Fin 2) ℝ) = 2 := map_ofNat C 2
  have h3 : (C (2 / 3) : MvPolynomial (Fin 2) ℝ) = C (1 / 3) * C 2 := by rw [← C_mul]; norm_num
  constructor
  · rw [FlowFields.op, swing_bw, swing_div, swing_b.1, h3]
    simp only [swing, Matrix.cons_val_zero, map_one, one_mul, one_pow, mul_one, pderiv_mul, map_sub, map_neg, pderiv_C, pderiv_X_self]
    rw [h2]; ring
  · rw [FlowFields.op, swing_bw, swing_div, swing_b.2]
    simp only [swing, Matrix.cons_val_one, Matrix.cons_val_fin_one, map_one, one_mul, one_pow, pderiv_mul, map_sub, map_neg, pderiv_C,
      pderiv_X_of_ne (show (0 : Fin 2) ≠ 1 by decide)]
    ring

theorem parabola_degree (c d : ℝ) : (C c * (X 0 * (C d - X 0)) : MvPolynomial (Fin 2) ℝ).totalDegree ≤ 3 := by
  refine (totalDegree_mul _ _).trans ?_
  have h1 := totalDegree_mul (X 0 : MvPolynomial (Fin 2) ℝ) (C d - X 0)
  have h2 := totalDegree_sub (C d : MvPolynomial (Fin 2) ℝ) (X 0)
  rw [totalDegree_C, totalDegree_X] at h2
  rw [totalDegree_X] at h1
  rw [totalDegree_C]
  have : max 0 1 = 1 := rfl
  omega

theorem slope_degree (c d : ℝ) : (C c + C d * X 0 : MvPolynomial (Fin 2) ℝ).totalDegree ≤ 3 := by
  have := linear_degree c d 0
  rw [map_zero, zero_mul, add_zero] at this
  omega

/-- The discrete system with the right-hand side `2 x (4 - x) + 2 / 3`, `0` has the flow as its solution. -/
example : ∃ (q : State ℝ) (w1 w2 y : ℕ → ℕ → ℝ), (∀ e ∈ [0, 1], ∀ z, Reg z → depth slopingDc.v slopingDc.dat q e z = 1) ∧
    (∀ e ∈ [0, 1], ∀ z, Reg z → vec slopingDc w1 e 0 z = (pointOf (slopingDc.dat e).elt.tri z).x * (4 - (pointOf (slopingDc.dat e).elt.tri z).x)) ∧
    Weak slopingDc (fun _ => true) q (fun e a z => if a = 0 then 2 * ((pointOf (slopingDc.dat e).elt.tri z).x * (4 - (pointOf (slopingDc.dat e).elt.tri z).x)) + 2 / 3 else 0) w1 w2 y := by
  have hm : GradMesh slopingDc.dat slopingDc.m 3 := two_grad le_rfl _
  have hR : Rules slopingDc.v.N (dubF id) 3 0 := cubic_rules
  have hO : Orthogonal slopingDc.v.N (dubF id) 3 := cubic_orthogonal
  have hS : SymRules slopingDc.v.N 3 := cubic_symmetric
  have hd1 := slope_degree 1 1
  rw [map_one, one_mul] at hd1
  have hB : Agrees slopingDc.dat slopingDc.m (bathRow slopingDc.v slopingDc.dat) swing.B :=
    coefs_agree (v := slopingDc.v) (dat := slopingDc.dat) (m := twoMesh) hR hO (fun _ _ => le_rfl) (fun _ _ => by show (C 1 + X 0 : MvPolynomial (Fin 2) ℝ).totalDegree ≤ 3; simpa using hd1)
  let q : State ℝ := fun e _ => coefs cubicN (dubF id) (twoTris 3 fun _ _ => 0) (C 0 + C (-1) * X 0) e
  have hq : Agrees slopingDc.dat slopingDc.m (depth slopingDc.v slopingDc.dat q) swing.H := by
    intro e he z hz
    have h1 := hB e he z hz
    have h2 := coefs_agree (v := slopingDc.v) (dat := slopingDc.dat) (m := twoMesh) hR hO (fun _ _ => le_rfl) (fun _ _ => slope_degree 0 (-1)) e he z hz
    refine (congrArg₂ (· + ·) h2 h1).trans ?_
    simp [swing]
  have h1 : ∀ e ∈ [0, 1], ∀ z, Reg z → depth slopingDc.v slopingDc.dat q e z = 1 := fun e he z hz => by
    rw [hq e he z hz]; simp [swing]
  have hgp : ∀ e ∈ slopingDc.m.elts, ∀ z, Gauss slopingDc e z → Reg z := by
    rintro e he z (⟨wz, hwz, rfl⟩ | ⟨ed, _, s, _, _, gp, rfl⟩)
    · exact Or.inl (hR.pts 3 le_rfl wz hwz)
    · exact face_regular _ _
  have hV : swing.H * swing.V 0 = C 1 * (X 0 * (C 4 - X 0)) ∧ swing.H * swing.V 1 = 0 := by simp [swing]
  have h : ∃ w1 w2 y, SmoothFlow slopingDc q swing w1 w2 y := by
    refine smooth_exists (D := slopingDc) (q := q) (Φ := swing) hR hO hS hm (fun ed _ => ?_) hB hq (fun e he z hz => by rw [h1 e he z (hgp e he z hz)]; norm_num)
      (fun e _ Q hQ => ?_) (fun b hb _ z hz => ?_) (fun b hb hk => ?_)
    · have hl : rule slopingDc.geo ed = [((41 / 420), (-1)), ((18 / 35), (-2 / 3)), ((9 / 140), (-1 / 3)), ((68 / 105), 0), ((9 / 140), (1 / 3)), ((18 / 35), (2 / 3)), ((41 / 420), 1)] := rfl
      rw [hl]
      refine ⟨by simp, fun i hi j hj hij => ?_⟩
      simp only [List.length_cons, List.length_nil, Nat.zero_add, Nat.reduceAdd] at hi hj
      interval_cases i <;> interval_cases j <;> first | rfl | (norm_num at hij)
    · show Q.totalDegree ≤ 3
      simp only [List.mem_cons, List.not_mem_nil, or_false] at hQ
      rcases hQ with rfl | rfl | rfl | rfl | rfl | rfl | rfl
      · simpa [swing] using hd1
      · have := parabola_degree 1 4; simpa [swing] using this
      · simp [swing]
      · rw [hV.1]; exact parabola_degree 1 4
      · rw [hV.2]; simp
      · rw [swing_div]
        have := slope_degree 4 (-2)
        rw [show (C (-2) : MvPolynomial (Fin 2) ℝ) = - C 2 from map_neg C 2, neg_mul, ← sub_eq_add_neg] at this
        simpa [swing] using this
      · rw [swing_bw]
        have := parabola_degree (-1) 4
        rw [show (C (-1) : MvPolynomial (Fin 2) ℝ) = - 1 by rw [map_neg, map_one], neg_mul, one_mul] at this
        simpa [swing] using this
    · rw [hV.1, hV.2]
      obtain ⟨gp, hgp, rfl⟩ := List.mem_map.1 hz
      rcases (by simpa [slopingDc, twoMesh] using hb : b = _ ∨ b = _ ∨ b = _ ∨ b = _) with rfl | rfl | rfl | rfl
      all_goals simp [at', slopingDc, Dc.geo, nrm, Edg.own, normal, vertex, twoTris, nd, facePt, boundaryToMaster, pointOf, jdet, Geometry.det, jac, plainEnv]
    · rcases (by simpa [slopingDc, twoMesh] using hb : b = _ ∨ b = _ ∨ b = _ ∨ b = _) with rfl | rfl | rfl | rfl <;> exact absurd rfl hk
  obtain ⟨w1, w2, y, h⟩ := h
  refine ⟨q, w1, w2, y, h1, fun e he z hz => ?_, ?_⟩
  · have := h.discharge 0 e he z hz
    rw [hV.1] at this
    simpa using this
  · have := consistent hR hO hS real_isSqrt hm h (wet := fun _ => true) (fun _ _ => rfl)
    rw [show slopingDc.al = 1 from rfl, swing_op.1, swing_op.2] at this
    simpa [at'] using this

/-- Two elements of degree `p` with the rules of the program. -/
noncomputable def codeDc (p : ℕ) (b : ℕ → ℕ → ℝ) (m : Mesh ℝ) : Dc ℝ :=
  ⟨plainEnv (codeNumerics id) Real.sqrt, twoTris p b, m, 1, -20, fun _ _ => none, fun _ _ _ => none, false, p + 1, fun _ _ _ _ => 0, fun _ _ _ _ _ => 0, fun _ _ _ _ => 0⟩

theorem two_surf (p : ℕ) (b : ℕ → ℕ → ℝ) (ed : Edg ℝ) (h : ed ∈ edgesOf (twoMesh (K := ℝ))) : 0 < surf (codeDc p b twoMesh).geo ed := by
  rcases (by simpa [edgesOf, twoMesh] using h : ed = _ ∨ ed = _ ∨ ed = _ ∨ ed = _ ∨ ed = _) with rfl | rfl | rfl | rfl | rfl <;>
    simp only [surf, surfaceJ, Dc.geo, codeDc, plainEnv, Edg.own, twoTris, vertex, hypot] <;> exact div_pos (Real.sqrt_pos.2 (by norm_num)) two_pos

theorem two_fits {p : ℕ} (hp : p ≤ 32) (b : ℕ → ℕ → ℝ) (ed : Edg ℝ) (h : ed ∈ edgesOf (twoMesh (K := ℝ))) : Fits (tab (codeDc p b twoMesh).geo ed) := by
  refine tab_fits (rd := id) rfl ?_ (two_surf p b ed h)
  cases ed with
  | int i => exact max_le hp hp
  | bnd b => exact hp

theorem two_edgeOk {p : ℕ} (hp : p ≤ 32) (b : ℕ → ℕ → ℝ) : EdgeOk (codeDc p b twoMesh) := by
  refine ⟨by simp [dcSkel, edgesOf, codeDc, twoMesh, Edg.sides], fun _ _ gp hgp => (code_mass Basis.Props.rounding_id).sym _ gp hgp, fun ed h => ?_⟩
  have hp' : ed.p (codeDc p b twoMesh).dat = p := by
    cases ed with
    | int i => exact max_self p
    | bnd b => rfl
  show (faceRule (codeNumerics id) (ed.p (codeDc p b twoMesh).dat)).length = p + 1
  rw [hp', code_rule]
  obtain ⟨r, hr, -, -⟩ := (line_rules (2 * p + 1)).2 (by omega)
  simp only [codeRule, hr, Option.getD_some, List.length_map]
  exact ndof_rows hr

/-- The hypotheses hold for the program's rules of any supported degree. -/
example {p : ℕ} (hp : p ≤ 32) (b : ℕ → ℕ → ℝ) (q : State ℝ) (w1 w2 y : ℕ → ℕ → ℝ) :
    let D := codeDc p b twoMesh
    (W1Eq (dcSkel D) (fun _ => true) (dcBlocks D (fun _ => true) q) w1 w2 y ∧ W2Eq (dcSkel D) (fun _ => true) (dcBlocks D (fun _ => true) q) w1 w2 y ∧
      HatEq (dcSkel D) (fun _ => true) (dcBlocks D (fun _ => true) q) w1 w2 y) ↔
      Weak D (fun _ => true) q (fun e a z => dcSource D.v.src.g D.al (ptAt D q e z) a) w1 w2 y :=
  weak_iff (two_edgeOk hp b) (two_fits hp b) (by simp [codeDc, twoMesh])

end Verif.Gn.Props
