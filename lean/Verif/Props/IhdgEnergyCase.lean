import Verif.Props.IhdgEnergy
import Verif.Props.IhdgExists
import Verif.Props.GnFlatCase

/-!
# C102: exact rules, lakes at rest

Rules which are exact for products of basis functions give integration by parts and positive squares (`parts_exact`, `definite_exact`). A lake at rest over a flat bed
is a state of `Still` (`lake_still`); so its Newton iteration succeeds, whatever the degree (`lake_newton`), and keeps it (`lake_steps`).
-/

namespace Verif.Ihdg.Props
open Verif.Swe Verif.Swe.Props Verif.Geometry Verif.Geometry.Props Verif.Element Verif.Edge Verif.Edge.Props Verif.Ehdg Verif.Ehdg.Props Verif.Tri MvPolynomial
open Verif.Gn (nd)
open Verif.Gn.Props (sideSum_congr gaussN gauss_rules gauss_orthogonal gauss_minv gauss_fits exact_complete)

variable {S : Scheme ℝ} {F : ℕ → MvPolynomial (Fin 2) ℝ} {P : ℕ} {it : Iter ℝ}

/-! ### Exact rules -/

/-- Sums over the faces of an element. -/
theorem sides_faces (m : Mesh ℝ) (e : ℕ) (h : ℕ → ℝ) : sideSum (edgesOf m).zipIdx e (fun _ _ s => h s.f) = ((facesOf m e).map h).sum := by
  unfold sideSum
  have h1 : ((edgesOf m).zipIdx.map fun x => ((x.1.sides.filter fun s => s.e = e).map fun s => h s.f).sum) =
      (edgesOf m).map fun ed => ((ed.sides.filter fun s => s.e = e).map fun s => h s.f).sum := by
    rw [show (fun x : Edg ℝ × ℕ => ((x.1.sides.filter fun s => s.e = e).map fun s => h s.f).sum) =
      (fun ed => ((ed.sides.filter fun s => s.e = e).map fun s => h s.f).sum) ∘ Prod.fst from rfl, ← List.map_map, List.zipIdx_map_fst]
  rw [h1, edgesOf, List.map_append, List.sum_append, List.map_map, List.map_map, facesOf, List.map_append, List.sum_append]
  congr 1
  · generalize m.ints = l
    induction l with
    | nil => rfl
    | cons i l ih =>
      rw [List.flatMap_cons, List.map_append, List.sum_append, ← ih, List.map_cons, List.sum_cons]
      congr 1
      simp only [Function.comp_apply, Edg.sides, List.filter_cons, List.filter_nil, decide_eq_true_eq]
      split_ifs <;> simp
  · generalize m.bnds = l
    induction l with
    | nil => rfl
    | cons i l ih =>
      rw [List.flatMap_cons, List.map_append, List.sum_append, ← ih, List.map_cons, List.sum_cons]
      congr 1
      simp only [Function.comp_apply, Edg.sides, List.filter_cons, List.filter_nil, decide_eq_true_eq]
      split_ifs <;> simp

/-- Degree of an edge, length and normal seen from one of its sides. -/
theorem side_geometry (hm : FlowMesh S P) {ed : Edg ℝ} (hed : ed ∈ edgesOf S.m) {s : Sd} (hs : s ∈ ed.sides) :
    s.e ∈ S.m.elts ∧ (S.dat s.e).elt.p ≤ ed.p S.dat ∧ ed.p S.dat ≤ P ∧ ∀ dir, nd (outward S ed s) dir * surf S ed = nd (snormal S.v (S.dat s.e).elt.tri s.f) dir := by
  have key : ∀ (n : P2 ℝ) (J : ℝ) (dir : ℕ), nd n dir * J = nd ⟨J * n.x, J * n.y⟩ dir := by
    intro n J dir
    unfold nd
    split_ifs <;> ring
  cases ed with
  | int i =>
    have hi : i ∈ S.m.ints := by simpa [edgesOf] using hed
    obtain ⟨h1, h2⟩ := hm.ends i hi
    simp only [Edg.sides, List.mem_cons, List.not_mem_nil, or_false] at hs
    rcases hs with rfl | rfl
    · refine ⟨h1, le_max_left _ _, max_le (hm.degree _ h1) (hm.degree _ h2), fun dir => ?_⟩
      rw [key]
      rfl
    · refine ⟨h2, le_max_right _ _, max_le (hm.degree _ h1) (hm.degree _ h2), fun dir => ?_⟩
      obtain ⟨o1, o2⟩ := opposite (v := S.v) (hm.ccw _ h1) (hm.ccw _ h2) (hm.edges i hi)
      rw [key, snormal, o1, o2]
      rfl
  | bnd b =>
    have hb : b ∈ S.m.bnds := by simpa [edgesOf] using hed
    simp only [Edg.sides, List.mem_cons, List.not_mem_nil, or_false] at hs
    subst hs
    refine ⟨hm.owner b hb, le_rfl, hm.degree _ (hm.owner b hb), fun dir => ?_⟩
    rw [key]
    rfl

theorem parts_exact (hR : Rules S.v.N F P 0) (hm : FlowMesh S P) : Parts S := by
  intro e he dir hdir u w
  have hd := hm.degree e he
  have hc := hm.ccw e he
  set U : MvPolynomial (Fin 2) ℝ := ∑ k ∈ Finset.range (ndof (S.dat e).elt.p), C (u k) * F k with hU
  set W : MvPolynomial (Fin 2) ℝ := ∑ k ∈ Finset.range (ndof (S.dat e).elt.p), C (w k) * F k with hW
  have hdeg : ∀ c : ℕ → ℝ, (∑ k ∈ Finset.range (ndof (S.dat e).elt.p), C (c k) * F k).totalDegree ≤ (S.dat e).elt.p := fun c =>
    totalDegree_finsetSum_le fun k hk => (totalDegree_mul _ _).trans (by rw [totalDegree_C, zero_add]; exact hR.degree _ hd k (Finset.mem_range.1 hk))
  have dU : U.totalDegree ≤ (S.dat e).elt.p := hdeg u
  have dW : W.totalDegree ≤ (S.dat e).elt.p := hdeg w
  have vU : ∀ z, (z.y ≠ 1 ∨ z = ⟨-1, 1⟩) → (S.dat e).elt.value S.v.N u z = eval ![z.x, z.y] U := fun z hz => bath_value hR (d := ⟨(S.dat e).elt, u, (S.dat e).src⟩) hd hz
  have vW : ∀ z, (z.y ≠ 1 ∨ z = ⟨-1, 1⟩) → (S.dat e).elt.value S.v.N w z = eval ![z.x, z.y] W := fun z hz => bath_value hR (d := ⟨(S.dat e).elt, w, (S.dat e).src⟩) hd hz
  have tU : ∀ z, (z.y ≠ 1 ∨ z = ⟨-1, 1⟩) → (S.dat e).elt.deriv S.v.N dir u z = eval ![z.x, z.y] (pderiv 0 U) * entry (jinv (S.dat e).elt.tri) 0 dir +
      eval ![z.x, z.y] (pderiv 1 U) * entry (jinv (S.dat e).elt.tri) 1 dir := fun z hz => bath_deriv hR (d := ⟨(S.dat e).elt, u, (S.dat e).src⟩) hd hz dir
  have tW : ∀ z, (z.y ≠ 1 ∨ z = ⟨-1, 1⟩) → (S.dat e).elt.deriv S.v.N dir w z = eval ![z.x, z.y] (pderiv 0 W) * entry (jinv (S.dat e).elt.tri) 0 dir +
      eval ![z.x, z.y] (pderiv 1 W) * entry (jinv (S.dat e).elt.tri) 1 dir := fun z hz => bath_deriv hR (d := ⟨(S.dat e).elt, w, (S.dat e).src⟩) hd hz dir
  -- area
  have hA : ∀ i : Fin 2, triL (S.v.N.tri (2 * (S.dat e).elt.p)) (pderiv i (U * W)) = I2L (pderiv i (U * W)) := by
    intro i
    have ht := tri_approx (r := S.v.N.tri (2 * (S.dat e).elt.p)) (hR.tri _ hd) (pderiv i (U * W)) ((pderiv_degree _ _).trans ((totalDegree_mul _ _).trans (by omega)))
    rw [zero_mul] at ht
    exact sub_eq_zero.1 (abs_nonpos_iff.1 ht)
  have hV : (inElt S e fun z => (S.dat e).elt.deriv S.v.N dir u z * (S.dat e).elt.value S.v.N w z + (S.dat e).elt.deriv S.v.N dir w z * (S.dat e).elt.value S.v.N u z) =
      |jdet (S.dat e).elt.tri| * entry (jinv (S.dat e).elt.tri) 0 dir * I2L (pderiv 0 (U * W)) +
        |jdet (S.dat e).elt.tri| * entry (jinv (S.dat e).elt.tri) 1 dir * I2L (pderiv 1 (U * W)) := by
    rw [← hA, ← hA]
    simp only [inElt, triL, LinearMap.coe_mk, AddHom.coe_mk, Elt.gps]
    rw [map_mul', map_mul', map_add']
    refine congrArg _ (List.map_congr_left fun wz hwz => ?_)
    have hz : wz.2.y ≠ 1 ∨ wz.2 = ⟨-1, 1⟩ := Or.inl (hR.pts _ hd wz hwz)
    rw [vU _ hz, vW _ hz, tU _ hz, tW _ hz]
    simp only [pderiv_mul, map_add, map_mul]
    ring
  -- faces
  have hside : (sideSum (edgesOf S.m).zipIdx e fun ed _ s => onEdge S ed fun gp => nd (outward S ed s) dir *
        ((S.dat s.e).elt.value S.v.N u (facePt (rule S ed) s.f gp) * (S.dat s.e).elt.value S.v.N w (facePt (rule S ed) s.f gp))) =
      sideSum (edgesOf S.m).zipIdx e fun _ _ s => nd (snormal S.v (S.dat e).elt.tri s.f) dir * faceI s.f (U * W) := by
    refine sideSum_congr fun x hx s hs hse => ?_
    obtain ⟨hk, hed⟩ := edge_get (S := S) hx
    have hxm : x.1 ∈ edgesOf S.m := by rw [← hed]; exact List.getElem_mem hk
    obtain ⟨-, g2, g3, g4⟩ := side_geometry hm hxm hs
    have hf3 : s.f < 3 := by
      have : s.f ∈ facesOf S.m e := by
        subst hse
        cases hx1 : x.1 with
        | int i =>
          rw [hx1] at hxm hs
          have hi : i ∈ S.m.ints := by simpa [edgesOf] using hxm
          simp only [Edg.sides, List.mem_cons, List.not_mem_nil, or_false] at hs
          refine List.mem_append_left _ (List.mem_flatMap.2 ⟨i, hi, ?_⟩)
          rcases hs with rfl | rfl <;> simp
        | bnd b =>
          rw [hx1] at hxm hs
          have hb : b ∈ S.m.bnds := by simpa [edgesOf] using hxm
          simp only [Edg.sides, List.mem_cons, List.not_mem_nil, or_false] at hs
          subst hs
          exact List.mem_append_right _ (List.mem_flatMap.2 ⟨b, hb, by simp⟩)
      have := (hm.cover e he).mem_iff.1 this
      simp at this
      omega
    have hfa := face_approx hf3 (hR.line _ g3) (U * W) ((totalDegree_mul _ _).trans (by rw [hse] at g2; omega))
    rw [zero_mul] at hfa
    rw [← sub_eq_zero.1 (abs_nonpos_iff.1 hfa)]
    rw [hse] at g4
    rw [← g4, show faceL (S.v.N.line (2 * x.1.p S.dat + 1)) s.f (U * W) = ((rule S x.1).map fun wx => wx.1 * eval ![(boundaryToMaster s.f wx.2).x, (boundaryToMaster s.f wx.2).y] (U * W)).sum from rfl,
      ← range_getD (rule S x.1) fun wx => wx.1 * eval ![(boundaryToMaster s.f wx.2).x, (boundaryToMaster s.f wx.2).y] (U * W), sum_range_list, Finset.mul_sum]
    unfold onEdge
    refine Finset.sum_congr rfl fun gp _ => ?_
    simp only [weight, facePt]
    rw [hse, vU _ (face_regular _ _), vW _ (face_regular _ _), map_mul]
    ring
  rw [hV, hside, sides_faces S.m e fun f => nd (snormal S.v (S.dat e).elt.tri f) dir * faceI f (U * W), ((hm.cover e he).map _).sum_eq]
  obtain ⟨g1, g2⟩ := green (U * W)
  obtain ⟨j1, j2, j3, j4, n0x, n0y⟩ := jinv_normal hm.sqrt hc
  rw [g1, g2]
  simp only [List.map_cons, List.map_nil, List.sum_cons, List.sum_nil]
  rcases (by omega : dir = 0 ∨ dir = 1) with rfl | rfl
  · rw [j1, j2]; simp only [nd, if_true, n0x]; ring
  · rw [j3, j4]; simp only [nd, one_ne_zero, if_false, n0y]; ring

theorem definite_exact (hR : Rules S.v.N F P 0) (hO : Orthogonal S.v.N F P) (hp : ∀ d < ndof P, 0 < S.v.N.basis.minv d) (hm : FlowMesh S P) : Definite S := by
  intro e he u
  have hd := hm.degree e he
  set G : MvPolynomial (Fin 2) ℝ := ∑ k ∈ Finset.range (ndof (S.dat e).elt.p), C (u k) * F k with hG
  have hdeg : G.totalDegree ≤ (S.dat e).elt.p := totalDegree_finsetSum_le fun k hk => (totalDegree_mul _ _).trans (by
    rw [totalDegree_C, zero_add]; exact hR.degree _ hd k (Finset.mem_range.1 hk))
  have hval : (inElt S e fun z => (S.dat e).elt.value S.v.N u z ^ 2) = |jdet (S.dat e).elt.tri| * I2L (G * G) := by
    have ht := tri_approx (r := S.v.N.tri (2 * (S.dat e).elt.p)) (hR.tri _ hd) (G * G) ((totalDegree_mul _ _).trans (by omega))
    rw [zero_mul, abs_nonpos_iff, sub_eq_zero] at ht
    rw [← ht]
    simp only [inElt, triL, LinearMap.coe_mk, AddHom.coe_mk, Elt.gps]
    rw [map_mul']
    refine congrArg _ (List.map_congr_left fun wz hwz => ?_)
    have := bath_value hR (d := ⟨(S.dat e).elt, u, (S.dat e).src⟩) hd (z := wz.2) (Or.inl (hR.pts _ hd wz hwz))
    simp only at this
    rw [this, ← hG, map_mul]
    ring
  have hsq : I2L (G * G) = ∑ d ∈ Finset.range (ndof (S.dat e).elt.p), u d ^ 2 * (S.v.N.basis.minv d)⁻¹ := by
    conv_lhs => rw [hG]
    rw [I2L_sum]
    refine Finset.sum_congr rfl fun d hdr => ?_
    rw [mul_comm (F d), I2L_sum, Finset.sum_eq_single d]
    · rw [I2L_eq hO (lt_of_lt_of_le (Finset.mem_range.1 hdr) (ndof_mono hd)) (lt_of_lt_of_le (Finset.mem_range.1 hdr) (ndof_mono hd)), if_pos rfl]
      ring
    · intro d' hd' hne
      rw [I2L_eq hO (lt_of_lt_of_le (Finset.mem_range.1 hd') (ndof_mono hd)) (lt_of_lt_of_le (Finset.mem_range.1 hdr) (ndof_mono hd)), if_neg hne, mul_zero]
    · intro hn; exact absurd hdr hn
  have hpos : ∀ d ∈ Finset.range (ndof (S.dat e).elt.p), 0 < (S.v.N.basis.minv d)⁻¹ := fun d hdr =>
    inv_pos.2 (hp d (lt_of_lt_of_le (Finset.mem_range.1 hdr) (ndof_mono hd)))
  have hj : 0 < |jdet (S.dat e).elt.tri| := abs_pos.2 (hm.ccw e he).ne'
  rw [hval, hsq]
  have hnn : ∀ d ∈ Finset.range (ndof (S.dat e).elt.p), 0 ≤ u d ^ 2 * (S.v.N.basis.minv d)⁻¹ := fun d hdr => mul_nonneg (sq_nonneg _) (hpos d hdr).le
  refine ⟨mul_nonneg hj.le (Finset.sum_nonneg hnn), fun h0 d hdr => ?_⟩
  have hz := (Finset.sum_eq_zero_iff_of_nonneg hnn).1 ((mul_eq_zero.1 h0).resolve_left hj.ne') d (Finset.mem_range.2 hdr)
  exact pow_eq_zero_iff (two_ne_zero) |>.1 ((mul_eq_zero.1 hz).resolve_right (hpos d (Finset.mem_range.2 hdr)).ne')

/-! ### Lakes at rest -/

theorem lake_still {L b : ℝ} (hR : Rules S.v.N F P 0) (hm : FlowMesh S P) (hf : FlatBed S ⟨L, 0, 0⟩ b) (hg : 0 < S.v.src.g) (h : Everywhere S ⟨L, 0, 0⟩ it) :
    Still S (L + b) it := by
  have hbed : ∀ e ∈ S.m.elts, ∀ z, (S.dat e).elt.value S.v.N (S.dat e).bath z = b := fun e he z => const_value hR (hf.bed e he) z
  refine ⟨hg, hf.wet, fun e he wz _ => ?_, fun k ed hk gp hgp => ?_, fun k ed hk s hs gp hgp => ?_⟩
  · have hq := stream_value (v := S.v) (m := S.m) hR h.q he wz.2
    simp only [inner, hq, Swe.auxAt, hbed e he]
    exact ⟨trivial, trivial, trivial⟩
  · obtain ⟨hk', hed⟩ := get_lt hk
    have hh := h.hat k hk'
    rw [hed] at hh
    have hb : bathAt S ed gp = b := by
      have hmem : ed ∈ edgesOf S.m := List.mem_of_getElem? hk
      cases ed with
      | int i =>
        obtain ⟨h1, h2⟩ := hm.ends i (by simpa [edgesOf] using hmem)
        simp only [bathAt, bathHat, sideBath, hbed _ h1, hbed _ h2]
        ring
      | bnd b' =>
        simp only [bathAt, sideBath, hbed _ (hm.owner b' (by simpa [edgesOf] using hmem))]
    simp only [hatAux, hh gp hgp, hb]
    exact ⟨trivial, trivial, trivial⟩
  · obtain ⟨hk', hed⟩ := get_lt hk
    have hh := h.hat k hk'
    rw [hed] at hh
    rw [hh _ (opp_lt' s hgp)]
    exact side_value hR h (side_geometry hm (List.mem_of_getElem? hk) hs).1 gp

/-- **C102** At a lake at rest over a flat bed the Newton iteration succeeds, and its equations have no other solution. -/
theorem lake_newton {L b : ℝ} (hR : Rules S.v.N F P 0) (hO : Orthogonal S.v.N F P) (hp : ∀ d < ndof P, 0 < S.v.N.basis.minv d) (hm : FlowMesh S P) (hb : Closed S)
    (hf : FlatBed S ⟨L, 0, 0⟩ b) (hg : 0 < S.v.src.g) (hdt : 0 < S.dt) (hth : S.theta ≤ 1) (hc : Gn.Props.Complete S.I S.slv) (h : Everywhere S ⟨L, 0, 0⟩ it) (q0 : State ℝ)
    (prev : ℕ → ℕ → ℝ) : Sole (skel S) (blocks S q0 prev it) ∧ ∃ it' x, newton S q0 prev it = some (it', x) :=
  ⟨rest_sole hb (lake_still hR hm hf hg h) (parts_exact hR hm) (definite_exact hR hO hp hm) hf.friction hdt hth q0 prev,
    rest_newton hb (lake_still hR hm hf hg h) (parts_exact hR hm) (definite_exact hR hO hp hm) hf.friction hdt hth hc q0 prev⟩

/-- **C102** A stage from a lake at rest succeeds and leaves it at rest. -/
theorem lake_stage {L b : ℝ} (hR : Rules S.v.N F P 0) (hO : Orthogonal S.v.N F P) (hp : ∀ d < ndof P, 0 < S.v.N.basis.minv d) (hm : FlowMesh S P) (hb : Closed S)
    (hf : FlatBed S ⟨L, 0, 0⟩ b) (hg : 0 < S.v.src.g) (hdt : 0 < S.dt) (hth : S.theta ≤ 1) (hc : Gn.Props.Complete S.I S.slv) (hz : ZeroOnZero S.slv)
    (h : Everywhere S ⟨L, 0, 0⟩ it) : ∃ it', stage S it = some it' ∧ Everywhere S ⟨L, 0, 0⟩ it' := by
  have hland : ∀ b ∈ S.m.bnds, Admits S ⟨L, 0, 0⟩ b := fun b' hb' => by
    simp only [Admits, (hb.basin.bnds b' hb').2.2]
    ring
  have hst := rest_step hR hm hland h
  obtain ⟨it', x, hn⟩ := (lake_newton hR hO hp hm hb hf hg hdt hth hc h it.q (rhsPrev S it)).2
  obtain ⟨h1, h2⟩ := solution_fixed hz hb.wf (sqrt_zero hm.sqrt) hst hn
  refine ⟨it', ?_, everywhere_same h h1⟩
  rw [stage, iterate, hn, Option.bind_some, if_pos h2]

/-- **C102** So do any number of steps. -/
theorem lake_steps {L b : ℝ} (hR : Rules S.v.N F P 0) (hO : Orthogonal S.v.N F P) (hp : ∀ d < ndof P, 0 < S.v.N.basis.minv d) (hm : FlowMesh S P) (hb : Closed S)
    (hf : FlatBed S ⟨L, 0, 0⟩ b) (hg : 0 < S.v.src.g) (hdt : 0 < S.dt) (hth : S.theta ≤ 1) (hc : Gn.Props.Complete S.I S.slv) (hz : ZeroOnZero S.slv) (time ramp : ℕ → ℝ)
    (h : Everywhere S ⟨L, 0, 0⟩ it) (n : ℕ) : ∃ it', steps S time ramp n it = some it' ∧ Everywhere S ⟨L, 0, 0⟩ it' := by
  induction n with
  | zero => exact ⟨it, rfl, h⟩
  | succ n ih =>
    obtain ⟨it1, h1, h2⟩ := ih
    obtain ⟨it2, h3, h4⟩ := lake_stage (S := atStep S time ramp n) hR hO hp (flow_time hm time ramp n) ⟨hb.basin, hb.mass, hb.wf, hb.fits, hb.dt, hb.deg, hb.inv, hb.slv⟩
      ⟨hf.friction, hf.bed, hf.wet⟩ hg hdt hth hc hz (everywhere_time h2 time ramp n)
    exact ⟨it2, by rw [steps, h1, Option.bind_some]; exact h3, everywhere_back h4⟩

/-! ### The basin of two triangles, degree one -/

noncomputable def lakeOn (m : Mesh ℝ) : Scheme ℝ :=
  ⟨plainEnv gaussN Real.sqrt, twoTris 1 flat3, m, 1, 0, false, 0, 1, 1, exactInv, exactSlv, fun _ _ _ => 0, fun _ _ => 0, fun _ _ => ⟨0, 0, 0⟩⟩

theorem lake_mass : MassNumerics gaussN := by
  have hm := code_mass Basis.Props.rounding_id
  refine ⟨hm.phi0, hm.dphi10, hm.dphi20, hm.minv0, fun p gp hgp => ?_⟩
  have hgp : gp < 2 := hgp
  interval_cases gp <;> rfl

theorem lake_wf : WellFormed (skel (lakeOn twoMesh)) := by
  refine ⟨?_, ?_, fun k hk => ?_⟩
  · simp [skel, edgesOf, lakeOn, twoMesh, Edg.sides]
  · intro c hc
    simp only [skel, edgesOf, lakeOn, twoMesh, Edg.sides, List.map_cons, List.map_nil, List.cons_append, List.nil_append, List.flatten_cons, List.flatten_nil,
      List.mem_cons, List.not_mem_nil, or_false, List.append_nil] at hc ⊢
    rcases hc with rfl | rfl | rfl | rfl | rfl | rfl <;> simp
  · have hk' : k < (edgesOf (lakeOn twoMesh).m).length := by simpa [skel] using hk
    rw [esize_eq hk']
    show 0 < 3 * (faceRule gaussN ((edgesOf (lakeOn twoMesh).m)[k].p (lakeOn twoMesh).dat)).length
    simp [faceRule, gaussN]

theorem lake_closed : Closed (lakeOn twoMesh) := by
  have hc := two_closed id 1 flat3
  refine ⟨⟨hc.sqrt, hc.sp, hc.source, hc.nodup, hc.ccw, hc.ints, hc.bnds⟩, lake_mass, lake_wf, fun ed hed => ?_, one_ne_zero, fun e _ => by simp [lakeOn, twoTris, ndof],
    exactInv_right, exactSlv_solves⟩
  refine gauss_fits twoMesh false exactSlv ?_
  rcases (by simpa [edgesOf, lakeOn, twoMesh] using hed : ed = _ ∨ ed = _ ∨ ed = _ ∨ ed = _ ∨ ed = _) with rfl | rfl | rfl | rfl | rfl <;> simp [Edg.own]

theorem lake_bed (m : Mesh ℝ) (e : ℕ) (z : P2 ℝ) : ((lakeOn m).dat e).elt.value (lakeOn m).v.N ((lakeOn m).dat e).bath z = 3 :=
  value_first gauss_rules.phi0 _ (fun _ _ => rfl) z

theorem lake_mesh : FlowMesh (lakeOn twoMesh) 1 := by
  have h := basin_mesh
  exact ⟨h.sqrt, h.sp, h.source, h.nodup, (two_closed id 1 flat3).ccw, fun _ _ => le_rfl, h.cover, h.ends, h.edges, h.internal, (fun i hi gp hgp => by rw [lake_bed, lake_bed]), h.owner⟩

theorem lake_same (m : Mesh ℝ) (U : Q ℝ) : Everywhere (lakeOn m) U (sameIter U) := everywhere_const (fun _ _ _ _ _ => rfl) fun _ _ => rfl

/-- Any number of steps from a level above the bed. -/
example {L : ℝ} (hL : -3 < L) (time ramp : ℕ → ℝ) (n : ℕ) :
    ∃ it', steps (lakeOn twoMesh) time ramp n (sameIter ⟨L, 0, 0⟩) = some it' ∧ Everywhere (lakeOn twoMesh) ⟨L, 0, 0⟩ it' :=
  lake_steps (S := lakeOn twoMesh) (b := 3) gauss_rules gauss_orthogonal (fun d _ => gauss_minv d) lake_mesh lake_closed ⟨rfl, fun _ _ _ _ => rfl, by linarith⟩
    (by norm_num [lakeOn, plainEnv]) one_pos zero_le_one exact_complete exactSlv_zero time ramp (lake_same _ _) n

/-- The equations of a Newton step at rest, whatever the old state. -/
theorem lake_sole {L : ℝ} (hL : -3 < L) (q0 : State ℝ) (prev : ℕ → ℕ → ℝ) :
    Sole (skel (lakeOn twoMesh)) (blocks (lakeOn twoMesh) q0 prev (sameIter ⟨L, 0, 0⟩)) :=
  (lake_newton (S := lakeOn twoMesh) (b := 3) gauss_rules gauss_orthogonal (fun d _ => gauss_minv d) lake_mesh lake_closed ⟨rfl, fun _ _ _ _ => rfl, by linarith⟩
    (by norm_num [lakeOn, plainEnv]) one_pos zero_le_one exact_complete (lake_same _ _) q0 prev).1

end Verif.Ihdg.Props
