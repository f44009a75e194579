import Verif.Props.GnWeak
import Mathlib.Algebra.MvPolynomial.Funext

/-!
# C92: solutions of the differential equation solve the discrete system
-/

namespace Verif.Gn.Props
open Verif.Swe Verif.Swe.Props Verif.Geometry Verif.Geometry.Props Verif.Element Verif.Edge Verif.Edge.Props Verif.Ehdg Verif.Ihdg Verif.Ihdg.Props Verif.Tri MvPolynomial

variable {D : Dc ℝ} {F G : ℕ → MvPolynomial (Fin 2) ℝ} {P : ℕ} {R : Row ℝ}

theorem sideSum_split (e : ℕ) (g : Edg ℝ → Sd → ℝ) :
    sideSum (edgesOf D.m).zipIdx e (fun ed _ s => g ed s) =
      (D.m.ints.map fun i => (if i.ein = e then g (.int i) ⟨i.ein, i.fin, false⟩ else 0) + (if i.eex = e then g (.int i) ⟨i.eex, i.fex, true⟩ else 0)).sum +
        (D.m.bnds.map fun b => if b.e = e then g (.bnd b) ⟨b.e, b.f, false⟩ else 0).sum := by
  unfold sideSum
  have h1 : ((edgesOf D.m).zipIdx.map fun x => ((x.1.sides.filter fun s => s.e = e).map (g x.1)).sum) =
      (edgesOf D.m).map fun ed => ((ed.sides.filter fun s => s.e = e).map (g ed)).sum := by
    rw [show (fun x : Edg ℝ × ℕ => ((x.1.sides.filter fun s => s.e = e).map (g x.1)).sum) =
      (fun ed => ((ed.sides.filter fun s => s.e = e).map (g ed)).sum) ∘ Prod.fst from rfl, ← List.map_map, List.zipIdx_map_fst]
  rw [h1, edgesOf, List.map_append, List.sum_append, List.map_map, List.map_map]
  congr 1
  · refine congrArg _ (List.map_congr_left fun i _ => ?_)
    simp only [Function.comp_apply, Edg.sides, List.filter_cons, List.filter_nil, decide_eq_true_eq]
    split_ifs <;> simp
  · refine congrArg _ (List.map_congr_left fun b _ => ?_)
    simp only [Function.comp_apply, Edg.sides, List.filter_cons, List.filter_nil, decide_eq_true_eq]
    split_ifs <;> simp

theorem gTerms_sum (R : Row ℝ) (dir e d : ℕ) : ((gTerms D.v D.dat D.m R dir e).map fun x => x.2 d).sum =
    (D.m.ints.map fun i => (if i.ein = e then gIn D.v D.dat R dir i d else 0) + (if i.eex = e then gEx D.v D.dat R dir i d else 0)).sum +
      (D.m.bnds.map fun b => if b.e = e then gBd D.v D.dat R dir b d else 0).sum := by
  unfold gTerms
  rw [List.map_append, List.sum_append]
  congr 1
  · generalize D.m.ints = l
    induction l with
    | nil => rfl
    | cons i l ih =>
      rw [List.flatMap_cons, List.map_append, List.sum_append, ih, List.map_cons, List.sum_cons]
      congr 1
      split_ifs <;> simp
  · generalize D.m.bnds = l
    induction l with
    | nil => rfl
    | cons i l ih =>
      rw [List.flatMap_cons, List.map_append, List.sum_append, ih, List.map_cons, List.sum_cons]
      congr 1
      split_ifs <;> simp

/-- Integration by parts in an element. -/
theorem parts (hR : Rules D.v.N F P 0) (hs : IsSqrt D.v.sq) (hm : GradMesh D.dat D.m P) (hG : Piecewise D.v D.dat D.m R G) {a : ℕ} (ha : a < 2) {e : ℕ} (he : e ∈ D.m.elts) {d : ℕ}
    (hd : d < ndof (D.dat e).elt.p) :
    (sideSum (edgesOf D.m).zipIdx e fun ed _ s => along D ed fun gp => D.v.N.basis.phi d (facePt (rule D.geo ed) s.f gp) *
        (R s.e (facePt (rule D.geo ed) s.f gp) * nd (nrmOf D ed s) a)) - (area D e fun z => (D.dat e).elt.dphi D.v.N a d z * R e z) =
      area D e fun z => D.v.N.basis.phi d z * eval ![z.x, z.y] (dPoly (D.dat e).elt.tri a (G e)) := by
  have hp := hm.degree e he
  have h1 := rhs_near hR hs hm hG ha he hd
  rw [zero_mul] at h1
  have h1 := sub_eq_zero.1 (abs_nonpos_iff.1 h1)
  rw [gradRhs_at D.v D.dat D.m R a he, gTerms_sum] at h1
  rw [sideSum_split]
  have h2 : (D.dat e).elt.intDPhi D.v.N a (R e) d = area D e fun z => (D.dat e).elt.dphi D.v.N a d z * R e z := by
    unfold Elt.intDPhi area
    exact congrArg _ (List.map_congr_left fun wz _ => by simp only [Elt.dphi]; ring)
  have h3 : (area D e fun z => D.v.N.basis.phi d z * eval ![z.x, z.y] (dPoly (D.dat e).elt.tri a (G e))) =
      |jdet (D.dat e).elt.tri| * I2L (dPoly (D.dat e).elt.tri a (G e) * F d) := by
    have hdeg : (dPoly (D.dat e).elt.tri a (G e) * F d).totalDegree ≤ 2 * (D.dat e).elt.p := by
      have hGd := hG.degree e he
      have hφ := hR.degree _ hp d hd
      refine (totalDegree_mul _ _).trans ?_
      have : (dPoly (D.dat e).elt.tri a (G e)).totalDegree ≤ (D.dat e).elt.p := by
        unfold dPoly
        refine (totalDegree_add _ _).trans (max_le ?_ ?_)
        · exact (totalDegree_mul _ _).trans (by have := pderiv_degree 0 (G e); rw [totalDegree_C]; omega)
        · exact (totalDegree_mul _ _).trans (by have := pderiv_degree 1 (G e); rw [totalDegree_C]; omega)
      omega
    have ht := tri_approx (r := D.v.N.tri (2 * (D.dat e).elt.p)) (hR.tri _ hp) _ hdeg
    rw [zero_mul] at ht
    rw [← sub_eq_zero.1 (abs_nonpos_iff.1 ht)]
    simp only [area, triL, LinearMap.coe_mk, AddHom.coe_mk, Elt.gps]
    rw [← List.sum_map_mul_left]
    refine congrArg _ (List.map_congr_left fun wz hwz => ?_)
    rw [(hR.basis d (lt_of_lt_of_le hd (ndof_mono hp)) wz.2 (Or.inl (hR.pts _ hp wz hwz))).1, map_mul]
    ring
  have hin : ∀ i ∈ D.m.ints, (along D (.int i) fun gp => D.v.N.basis.phi d (facePt (rule D.geo (.int i)) i.fin gp) *
      (R i.ein (facePt (rule D.geo (.int i)) i.fin gp) * nd (nrmOf D (.int i) ⟨i.ein, i.fin, false⟩) a)) = gIn D.v D.dat R a i d := by
    intro i hi
    unfold along gIn Elt.intFace
    rw [sum_range_list]
    refine Finset.sum_congr rfl fun gp hgp => ?_
    have := hG.cont i hi gp (Finset.mem_range.1 hgp)
    simp only [hatIn, ← this, nrm_in]
    rw [show rule D.geo (.int i) = i.rule D.v D.dat from rfl, show surf D.geo (.int i) = i.J D.v D.dat from rfl,
      show nrm D.geo (.int i) = normal D.v.sq (D.dat i.ein).elt.tri i.fin from rfl]
    ring
  have hex : ∀ i ∈ D.m.ints, (along D (.int i) fun gp => D.v.N.basis.phi d (facePt (rule D.geo (.int i)) i.fex gp) *
      (R i.eex (facePt (rule D.geo (.int i)) i.fex gp) * nd (nrmOf D (.int i) ⟨i.eex, i.fex, true⟩) a)) = gEx D.v D.dat R a i d := by
    intro i hi
    unfold along gEx Elt.intFace
    rw [sum_range_list]
    refine Finset.sum_congr rfl fun gp hgp => ?_
    have hlt : gp < (i.rule D.v D.dat).length := Finset.mem_range.1 hgp
    have := hG.cont i hi ((i.rule D.v D.dat).length - gp - 1) (by omega)
    rw [show (i.rule D.v D.dat).length - ((i.rule D.v D.dat).length - gp - 1) - 1 = gp by omega] at this
    simp only [hatEx, hatIn]
    rw [show (i.rule D.v D.dat).length - ((i.rule D.v D.dat).length - gp - 1) - 1 = gp by omega, this]
    simp only [nrm_ex]
    rw [show rule D.geo (.int i) = i.rule D.v D.dat from rfl, show surf D.geo (.int i) = i.J D.v D.dat from rfl,
      show nrm D.geo (.int i) = normal D.v.sq (D.dat i.ein).elt.tri i.fin from rfl]
    ring
  have hbd : ∀ b ∈ D.m.bnds, (along D (.bnd b) fun gp => D.v.N.basis.phi d (facePt (rule D.geo (.bnd b)) b.f gp) *
      (R b.e (facePt (rule D.geo (.bnd b)) b.f gp) * nd (nrmOf D (.bnd b) ⟨b.e, b.f, false⟩) a)) = gBd D.v D.dat R a b d := by
    intro b _
    unfold along gBd Elt.intFace
    rw [sum_range_list]
    refine Finset.sum_congr rfl fun gp _ => ?_
    simp only [nrm_in]
    rw [show rule D.geo (.bnd b) = faceRule D.v.N (D.dat b.e).elt.p from rfl, show surf D.geo (.bnd b) = surfaceJ D.v.sq (D.dat b.e).elt.tri b.f from rfl,
      show nrm D.geo (.bnd b) = normal D.v.sq (D.dat b.e).elt.tri b.f from rfl]
    ring
  rw [h3, ← h1, h2]
  rw [List.map_congr_left fun i hi => by rw [hin i hi, hex i hi], List.map_congr_left (l := D.m.bnds) fun b hb => by rw [hbd b hb]]
  ring

/-! ### Polynomial flows -/

/-- FlowFields in space: bathymetry, depth of the water, velocity. -/
structure FlowFields where
  B : MvPolynomial (Fin 2) ℝ
  H : MvPolynomial (Fin 2) ℝ
  V : Fin 2 → MvPolynomial (Fin 2) ℝ

/-- Gradient of the bottom. -/
noncomputable def FlowFields.b (Φ : FlowFields) (a : Fin 2) : MvPolynomial (Fin 2) ℝ := -pderiv a Φ.B

noncomputable def FlowFields.div (Φ : FlowFields) : MvPolynomial (Fin 2) ℝ := pderiv 0 (Φ.V 0) + pderiv 1 (Φ.V 1)

/-- Velocity of the bottom's level along the flow, times the depth. -/
noncomputable def FlowFields.bw (Φ : FlowFields) : MvPolynomial (Fin 2) ℝ := Φ.b 0 * (Φ.H * Φ.V 0) + Φ.b 1 * (Φ.H * Φ.V 1)

/-- `(1 + α T)(h v)`. -/
noncomputable def FlowFields.op (Φ : FlowFields) (α : ℝ) (a : Fin 2) : MvPolynomial (Fin 2) ℝ :=
  Φ.H * Φ.V a + C α * (-C (1 / 3) * pderiv a (Φ.H ^ 3 * Φ.div) + C (1 / 2) * (pderiv a (Φ.H * Φ.bw) - Φ.H ^ 2 * Φ.b a * Φ.div) + Φ.b a * Φ.bw)

/-- The value of a polynomial in space at a point of an element. -/
noncomputable def at' (D : Dc ℝ) (Q : MvPolynomial (Fin 2) ℝ) (e : ℕ) (z : P2 ℝ) : ℝ := eval ![(pointOf (D.dat e).elt.tri z).x, (pointOf (D.dat e).elt.tri z).y] Q

/-- A Gauss point of the element or of one of its faces. -/
def Gauss (D : Dc ℝ) (e : ℕ) (z : P2 ℝ) : Prop := (∃ wz ∈ (D.dat e).elt.gps D.v.N, wz.2 = z) ∨ ∃ ed ∈ edgesOf D.m, ∃ s ∈ ed.sides, s.e = e ∧ ∃ gp, facePt (rule D.geo ed) s.f gp = z

/-- The unknowns are those of the fields, which fit into the spaces of the elements and satisfy the boundary conditions. -/
structure SmoothFlow (D : Dc ℝ) (q : State ℝ) (Φ : FlowFields) (w1 w2 y : ℕ → ℕ → ℝ) : Prop where
  bath : Agrees D.dat D.m (bathRow D.v D.dat) Φ.B
  depth : Agrees D.dat D.m (depth D.v D.dat q) Φ.H
  discharge : ∀ a : Fin 2, Agrees D.dat D.m (fun e => vec D w1 e a) (Φ.H * Φ.V a)
  rate : Agrees D.dat D.m (scl D w2) (Φ.H ^ 3 * Φ.div)
  trace : ∀ (k : ℕ) (ed : Edg ℝ), (edgesOf D.m)[k]? = some ed → ∀ s ∈ ed.sides, ∀ gp < (rule D.geo ed).length, ∀ a < 2, trc D y ed k a (Ihdg.opp D.geo ed s gp) = at1 D w1 ed s gp a
  nonzero : ∀ e ∈ D.m.elts, ∀ z, Gauss D e z → Verif.Gn.depth D.v D.dat q e z ≠ 0
  degB : ∀ e ∈ D.m.elts, Φ.B.totalDegree ≤ (D.dat e).elt.p
  degV : ∀ e ∈ D.m.elts, ∀ a, (Φ.V a).totalDegree ≤ (D.dat e).elt.p
  deg2 : ∀ e ∈ D.m.elts, (Φ.H ^ 3 * Φ.div).totalDegree ≤ (D.dat e).elt.p
  degb : ∀ e ∈ D.m.elts, (Φ.H * Φ.bw).totalDegree ≤ (D.dat e).elt.p
  land : ∀ b ∈ D.m.bnds, b.kind = .land → ∀ gp < (rule D.geo (.bnd b)).length,
    nd (nrm D.geo (.bnd b)) 0 * at1 D w1 (.bnd b) ⟨b.e, b.f, false⟩ gp 0 + nd (nrm D.geo (.bnd b)) 1 * at1 D w1 (.bnd b) ⟨b.e, b.f, false⟩ gp 1 = 0
  sea : ∀ b ∈ D.m.bnds, b.kind ≠ .land → ∀ gp < (rule D.geo (.bnd b)).length, at2 D w2 (.bnd b) ⟨b.e, b.f, false⟩ gp = 0

theorem at_agrees (Q : MvPolynomial (Fin 2) ℝ) : Agrees D.dat D.m (at' D Q) Q := fun _ _ _ _ => rfl

theorem mem_edge {k : ℕ} {ed : Edg ℝ} (h : (edgesOf D.m)[k]? = some ed) : (∃ i ∈ D.m.ints, ed = .int i) ∨ ∃ b ∈ D.m.bnds, ed = .bnd b := by
  have := List.mem_of_getElem? h
  simp only [edgesOf, List.mem_append, List.mem_map] at this
  rcases this with ⟨j, hj, h⟩ | ⟨j, hj, h⟩
  · exact Or.inl ⟨j, hj, h.symm⟩
  · exact Or.inr ⟨j, hj, h.symm⟩

theorem zip_get {x : Edg ℝ × ℕ} (h : x ∈ (edgesOf D.m).zipIdx) : (edgesOf D.m)[x.2]? = some x.1 := by
  rw [List.getElem?_eq_some_iff]
  exact ⟨_, (List.mem_zipIdx' h).2.symm⟩

theorem side_elt (hm : GradMesh D.dat D.m P) {k : ℕ} {ed : Edg ℝ} (h : (edgesOf D.m)[k]? = some ed) {s : Sd} (hs : s ∈ ed.sides) : s.e ∈ D.m.elts := by
  rcases mem_edge h with ⟨i, hi, rfl⟩ | ⟨b, hb, rfl⟩
  · simp only [Edg.sides, List.mem_cons, List.not_mem_nil, or_false] at hs
    rcases hs with rfl | rfl
    · exact (hm.ends i hi).1
    · exact (hm.ends i hi).2
  · simp only [Edg.sides, List.mem_cons, List.not_mem_nil, or_false] at hs
    rw [hs]; exact hm.owner b hb

/-- The average of a continuous row at a Gauss point of a side is its value. -/
theorem hat_side (hS : SymRules D.v.N P) (hm : GradMesh D.dat D.m P) {Q : MvPolynomial (Fin 2) ℝ} (hQ : Agrees D.dat D.m R Q) {i : Iface ℝ} (hi : i ∈ D.m.ints) {gp : ℕ}
    (hgp : gp < (i.rule D.v D.dat).length) :
    hatIn D.v D.dat R i gp = R i.ein (facePt (i.rule D.v D.dat) i.fin gp) ∧ hatEx D.v D.dat R i gp = R i.eex (facePt (i.rule D.v D.dat) i.fex gp) := by
  constructor
  · have := agrees_cont hS hm hQ hi hgp
    simp only [hatIn, ← this]; ring
  · have := agrees_cont hS hm hQ hi (gp := (i.rule D.v D.dat).length - gp - 1) (by omega)
    rw [show (i.rule D.v D.dat).length - ((i.rule D.v D.dat).length - gp - 1) - 1 = gp by omega] at this
    simp only [hatEx, hatIn]
    rw [show (i.rule D.v D.dat).length - ((i.rule D.v D.dat).length - gp - 1) - 1 = gp by omega, this]; ring

theorem hHat_side (hS : SymRules D.v.N P) (hm : GradMesh D.dat D.m P) {q : State ℝ} {Q : MvPolynomial (Fin 2) ℝ} (hQ : Agrees D.dat D.m (depth D.v D.dat q) Q) {k : ℕ} {ed : Edg ℝ}
    (h : (edgesOf D.m)[k]? = some ed) {s : Sd} (hs : s ∈ ed.sides) {gp : ℕ} (hgp : gp < (rule D.geo ed).length) :
    hHat D q ed (Ihdg.opp D.geo ed s gp) = depth D.v D.dat q s.e (facePt (rule D.geo ed) s.f gp) := by
  rcases mem_edge h with ⟨i, hi, rfl⟩ | ⟨b, hb, rfl⟩ <;> simp only [Edg.sides, List.mem_cons, List.not_mem_nil, or_false] at hs
  · rcases hs with rfl | rfl
    · exact (hat_side hS hm hQ hi hgp).1
    · exact (hat_side hS hm hQ hi hgp).2
  · rw [hs]; rfl

theorem bedHat_side (hS : SymRules D.v.N P) (hm : GradMesh D.dat D.m P) {c : ℕ} {Q : MvPolynomial (Fin 2) ℝ} (hQ : Agrees D.dat D.m (rowOf D.v D.dat (dbath D.v D.dat D.m c)) Q)
    {k : ℕ} {ed : Edg ℝ} (h : (edgesOf D.m)[k]? = some ed) {s : Sd} (hs : s ∈ ed.sides) {gp : ℕ} (hgp : gp < (rule D.geo ed).length) :
    bedHat D ed s gp c = bed D s.e (facePt (rule D.geo ed) s.f gp) c := by
  rcases mem_edge h with ⟨i, hi, rfl⟩ | ⟨b, hb, rfl⟩ <;> simp only [Edg.sides, List.mem_cons, List.not_mem_nil, or_false] at hs
  · rcases hs with rfl | rfl
    · exact congrArg Neg.neg (hat_side hS hm hQ hi hgp).1
    · exact congrArg Neg.neg (hat_side hS hm hQ hi hgp).2
  · rw [hs]; rfl

/-- Coefficients whose values are those of a polynomial have the values of its derivatives. -/
theorem deriv_agrees (hR : Rules D.v.N F P 0) (hm : GradMesh D.dat D.m P) {w : ℕ → ℕ → ℝ} {Q : MvPolynomial (Fin 2) ℝ} (hQ : Agrees D.dat D.m (scl D w) Q) (a : Fin 2) :
    Agrees D.dat D.m (fun e => dscl D w e a) (pderiv a Q) := by
  intro e he z hz
  have hp := hm.degree e he
  have h1 : ∀ z, Reg z → scl D w e z = eval ![z.x, z.y] (∑ k ∈ Finset.range (ndof (D.dat e).elt.p), C (w e k) * F k) := fun z hz =>
    bath_value hR (d := ⟨(D.dat e).elt, w e, (D.dat e).src⟩) hp hz
  have h2 : (∑ k ∈ Finset.range (ndof (D.dat e).elt.p), C (w e k) * F k) = pull (D.dat e).elt.tri Q := by
    refine funext_set (fun i => if i = 0 then Set.univ else Set.Iio 1) (fun i => ?_) fun x hx => ?_
    · split
      · exact Set.infinite_univ
      · exact Set.Iio_infinite 1
    · have hx1 : x 1 < 1 := by simpa using hx 1 (Set.mem_univ _)
      have hz : Reg ⟨x 0, x 1⟩ := Or.inl hx1.ne
      have hxx : x = ![x 0, x 1] := by funext i; rcases (by fin_cases i <;> simp : i = 0 ∨ i = 1) with rfl | rfl <;> rfl
      have := h1 ⟨x 0, x 1⟩ hz
      rw [hQ e he _ hz, ← pull_eval] at this
      simp only at this
      rw [hxx, ← this]
  have h3 := bath_deriv hR (d := ⟨(D.dat e).elt, w e, (D.dat e).src⟩) hp hz a
  rw [h2] at h3
  rw [← pull_eval, ← pull_deriv _ (hm.ccw e he).ne']
  refine h3.trans ?_
  simp only [dPoly, map_add, map_mul, eval_C]; ring

/-- Integration by parts with a polynomial in space. -/
theorem parts_at (hR : Rules D.v.N F P 0) (hs : IsSqrt D.v.sq) (hS : SymRules D.v.N P) (hm : GradMesh D.dat D.m P) {Q : MvPolynomial (Fin 2) ℝ}
    (hdeg : ∀ e ∈ D.m.elts, Q.totalDegree ≤ (D.dat e).elt.p) (a : Fin 2) {e : ℕ} (he : e ∈ D.m.elts) {d : ℕ} (hd : d < ndof (D.dat e).elt.p) :
    (sideSum (edgesOf D.m).zipIdx e fun ed _ s => along D ed fun gp => D.v.N.basis.phi d (facePt (rule D.geo ed) s.f gp) *
        (at' D Q s.e (facePt (rule D.geo ed) s.f gp) * nd (nrmOf D ed s) a)) - (area D e fun z => (D.dat e).elt.dphi D.v.N a d z * at' D Q e z) =
      area D e fun z => D.v.N.basis.phi d z * at' D (pderiv a Q) e z := by
  rw [parts hR hs hm (agrees_piecewise hS hm (at_agrees Q) hdeg) a.2 he hd]
  refine area_congr fun wz _ => ?_
  rw [pull_deriv _ (hm.ccw e he).ne', pull_eval]; rfl

section
variable {q : State ℝ} {Φ : FlowFields} {w1 w2 y : ℕ → ℕ → ℝ}

theorem at_add (A B : MvPolynomial (Fin 2) ℝ) (e : ℕ) (z : P2 ℝ) : at' D (A + B) e z = at' D A e z + at' D B e z := by simp [at']
theorem at_sub (A B : MvPolynomial (Fin 2) ℝ) (e : ℕ) (z : P2 ℝ) : at' D (A - B) e z = at' D A e z - at' D B e z := by simp [at']
theorem at_mul (A B : MvPolynomial (Fin 2) ℝ) (e : ℕ) (z : P2 ℝ) : at' D (A * B) e z = at' D A e z * at' D B e z := by simp [at']
theorem at_neg (A : MvPolynomial (Fin 2) ℝ) (e : ℕ) (z : P2 ℝ) : at' D (-A) e z = -at' D A e z := by simp [at']
theorem at_pow (A : MvPolynomial (Fin 2) ℝ) (n e : ℕ) (z : P2 ℝ) : at' D (A ^ n) e z = at' D A e z ^ n := by simp [at']
theorem at_C (c : ℝ) (e : ℕ) (z : P2 ℝ) : at' D (C c) e z = c := by simp [at']

theorem bed_agrees (hR : Rules D.v.N F P 0) (hO : Orthogonal D.v.N F P) (hS : SymRules D.v.N P) (hs : IsSqrt D.v.sq) (hm : GradMesh D.dat D.m P) (h : SmoothFlow D q Φ w1 w2 y) (a : Fin 2) {e : ℕ}
    (he : e ∈ D.m.elts) {z : P2 ℝ} (hz : Reg z) : bed D e z a = at' D (Φ.b a) e z := by
  have := (bath_exact hR hO hS hs hm h.bath h.degB a a a).1 e he z hz
  rw [bed, this, FlowFields.b, at_neg]; rfl

/-- **C92** A flow with polynomials in space which fit into the spaces of the elements, satisfying the boundary conditions: with the right-hand side
`(1 + α T)(h v)` its discharge solves the discrete equations, with exact rules. -/
theorem consistent (hR : Rules D.v.N F P 0) (hO : Orthogonal D.v.N F P) (hS : SymRules D.v.N P) (hs : IsSqrt D.v.sq) (hm : GradMesh D.dat D.m P) (h : SmoothFlow D q Φ w1 w2 y)
    {wet : ℕ → Bool} (hw : ∀ e ∈ D.m.elts, wet e) :
    Weak D wet q (fun e a z => if a = 0 then at' D (Φ.op D.al 0) e z else at' D (Φ.op D.al 1) e z) w1 w2 y := by
  have hreg : ∀ e ∈ D.m.elts, ∀ wz ∈ (D.dat e).elt.gps D.v.N, Reg wz.2 := fun e he wz hwz => Or.inl (hR.pts _ (hm.degree e he) wz hwz)
  have hW : ∀ e ∈ D.m.elts, ∀ z, Reg z → ∀ a : Fin 2, vec D w1 e a z = at' D Φ.H e z * at' D (Φ.V a) e z := fun e he z hz a => by
    rw [← at_mul]; exact h.discharge a e he z hz
  have hH : ∀ e ∈ D.m.elts, ∀ z, Reg z → depth D.v D.dat q e z = at' D Φ.H e z := fun e he z hz => h.depth e he z hz
  have hb : ∀ e ∈ D.m.elts, ∀ z, Reg z → ∀ a : Fin 2, bed D e z a = at' D (Φ.b a) e z := fun e he z hz a => bed_agrees hR hO hS hs hm h a he hz
  have hnz : ∀ e ∈ D.m.elts, ∀ wz ∈ (D.dat e).elt.gps D.v.N, at' D Φ.H e wz.2 ≠ 0 := fun e he wz hwz => by
    rw [← hH e he _ (hreg e he wz hwz)]; exact h.nonzero e he _ (Or.inl ⟨wz, hwz, rfl⟩)
  -- what a side sees
  have hside : ∀ x ∈ (edgesOf D.m).zipIdx, ∀ s ∈ x.1.sides, ∀ gp < (rule D.geo x.1).length,
      s.e ∈ D.m.elts ∧ at' D Φ.H s.e (facePt (rule D.geo x.1) s.f gp) ≠ 0 ∧
      hHat D q x.1 (Ihdg.opp D.geo x.1 s gp) = at' D Φ.H s.e (facePt (rule D.geo x.1) s.f gp) ∧
      (∀ a : Fin 2, bedHat D x.1 s gp a = at' D (Φ.b a) s.e (facePt (rule D.geo x.1) s.f gp)) ∧
      (∀ a : Fin 2, trc D y x.1 x.2 a (Ihdg.opp D.geo x.1 s gp) = at' D Φ.H s.e (facePt (rule D.geo x.1) s.f gp) * at' D (Φ.V a) s.e (facePt (rule D.geo x.1) s.f gp)) ∧
      ∀ a : Fin 2, vec D w1 s.e a (facePt (rule D.geo x.1) s.f gp) = at' D Φ.H s.e (facePt (rule D.geo x.1) s.f gp) * at' D (Φ.V a) s.e (facePt (rule D.geo x.1) s.f gp) := by
    intro x hx s hsd gp hgp
    have hx' := zip_get hx
    have he := side_elt hm hx' hsd
    have hz : Reg (facePt (rule D.geo x.1) s.f gp) := face_regular _ _
    refine ⟨he, ?_, ?_, fun a => ?_, fun a => ?_, fun a => hW _ he _ hz a⟩
    · rw [← hH _ he _ hz]
      exact h.nonzero _ he _ (Or.inr ⟨x.1, List.mem_of_getElem? hx', s, hsd, rfl, gp, rfl⟩)
    · rw [hHat_side hS hm h.depth hx' hsd hgp, hH _ he _ hz]
    · rw [bedHat_side hS hm (bath_exact hR hO hS hs hm h.bath h.degB a a a).1 hx' hsd hgp, hb _ he _ hz]
    · rw [h.trace _ _ hx' s hsd gp hgp a a.2]
      exact hW _ he _ hz a
  refine ⟨fun e he _ i hi a ha => ?_, fun e he _ i hi => ?_, fun k i hk h1 h2 gp hgp a ha => ?_, fun k i hk s hsd s' hsd' h1 h2 => ?_, fun k b hk hl _ gp hgp a ha => ?_,
    fun k b hk hl _ gp hgp a ha => ?_⟩
  · obtain ⟨a, rfl⟩ : ∃ a' : Fin 2, a = a' := ⟨⟨a, ha⟩, rfl⟩
    have hop : ∀ z, (if (a : ℕ) = 0 then at' D (Φ.op D.al 0) e z else at' D (Φ.op D.al 1) e z) = at' D (Φ.op D.al a) e z := by
      intro z
      rcases (by fin_cases a <;> simp : a = 0 ∨ a = 1) with rfl | rfl <;> rfl
    simp only [hop]
    have hp := parts_at hR hs hS hm h.degb a he hi
    have e1 : (sideSum (edgesOf D.m).zipIdx e fun ed k s => along D ed fun gp => D.v.N.basis.phi i (facePt (rule D.geo ed) s.f gp) * flux1 D q w1 y ed k s gp a) =
        D.al / 2 * sideSum (edgesOf D.m).zipIdx e fun ed _ s => along D ed fun gp => D.v.N.basis.phi i (facePt (rule D.geo ed) s.f gp) *
          (at' D (Φ.H * Φ.bw) s.e (facePt (rule D.geo ed) s.f gp) * nd (nrmOf D ed s) a) := by
      rw [sideSum_mul]
      refine sideSum_congr fun x hx s hsd _ => ?_
      rw [along_mul]
      refine along_congr fun gp hgp => ?_
      obtain ⟨-, -, s1, s2, s3, s4⟩ := hside x hx s hsd gp hgp
      have t0 := s2 0; have t1 := s2 1; have u0 := s3 0; have u1 := s3 1
      simp only [Fin.val_zero, Fin.val_one] at t0 t1 u0 u1
      simp only [flux1, s1, t0, t1, u0, u1, s3 a, s4 a, FlowFields.bw, at_mul, at_add]
      ring
    have e2 : (area D e fun z => (D.dat e).elt.dphi D.v.N a i z *
        (D.al / 2 * depth D.v D.dat q e z * (bed D e z 0 * vec D w1 e 0 z + bed D e z 1 * vec D w1 e 1 z))) =
        D.al / 2 * area D e fun z => (D.dat e).elt.dphi D.v.N a i z * at' D (Φ.H * Φ.bw) e z := by
      rw [area_mul]
      refine area_congr fun wz hwz => ?_
      have hz := hreg e he wz hwz
      have t0 := hb e he _ hz 0; have t1 := hb e he _ hz 1; have u0 := hW e he _ hz 0; have u1 := hW e he _ hz 1
      simp only [Fin.val_zero, Fin.val_one] at t0 t1 u0 u1
      rw [hH e he _ hz, t0, t1, u0, u1]
      simp only [FlowFields.bw, at_mul, at_add]; ring
    rw [e1, e2]
    have e3 : (area D e fun z => D.v.N.basis.phi i z * at' D (Φ.op D.al a) e z) =
        (area D e fun z => D.v.N.basis.phi i z * (vec D w1 e a z + D.al * bed D e z a * (bed D e z 0 * vec D w1 e 0 z + bed D e z 1 * vec D w1 e 1 z) -
          D.al / 3 * dscl D w2 e a z - D.al / 2 * (bed D e z a / depth D.v D.dat q e z) * scl D w2 e z)) +
        D.al / 2 * area D e fun z => D.v.N.basis.phi i z * at' D (pderiv a (Φ.H * Φ.bw)) e z := by
      rw [area_mul, area_add]
      refine area_congr fun wz hwz => ?_
      have hz := hreg e he wz hwz
      have hn := hnz e he wz hwz
      have t0 := hb e he _ hz 0; have t1 := hb e he _ hz 1; have u0 := hW e he _ hz 0; have u1 := hW e he _ hz 1
      have hd : dscl D w2 e a wz.2 = at' D (pderiv a (Φ.H ^ 3 * Φ.div)) e wz.2 := deriv_agrees hR hm h.rate a e he _ hz
      have hv : scl D w2 e wz.2 = at' D (Φ.H ^ 3 * Φ.div) e wz.2 := h.rate e he _ hz
      simp only [Fin.val_zero, Fin.val_one] at t0 t1 u0 u1
      rw [hH e he _ hz, t0, t1, u0, u1, hb e he _ hz a, hW e he _ hz a, hd, hv]
      simp only [FlowFields.op, FlowFields.bw, at_mul, at_add, at_sub, at_neg, at_pow, at_C]
      field_simp; ring
    rw [e3]
    linear_combination D.al / 2 * hp
  · have hp0 := parts_at hR hs hS hm (fun e he => h.degV e he 0) 0 he hi
    have hp1 := parts_at hR hs hS hm (fun e he => h.degV e he 1) 1 he hi
    simp only [Fin.val_zero, Fin.val_one] at hp0 hp1
    have e1 : (sideSum (edgesOf D.m).zipIdx e fun ed k s => along D ed fun gp => D.v.N.basis.phi i (facePt (rule D.geo ed) s.f gp) *
        ((nd (nrmOf D ed s) 0 * trc D y ed k 0 (Ihdg.opp D.geo ed s gp) + nd (nrmOf D ed s) 1 * trc D y ed k 1 (Ihdg.opp D.geo ed s gp)) / hHat D q ed (Ihdg.opp D.geo ed s gp))) =
        (sideSum (edgesOf D.m).zipIdx e fun ed _ s => along D ed fun gp => D.v.N.basis.phi i (facePt (rule D.geo ed) s.f gp) *
          (at' D (Φ.V 0) s.e (facePt (rule D.geo ed) s.f gp) * nd (nrmOf D ed s) 0)) +
        sideSum (edgesOf D.m).zipIdx e fun ed _ s => along D ed fun gp => D.v.N.basis.phi i (facePt (rule D.geo ed) s.f gp) *
          (at' D (Φ.V 1) s.e (facePt (rule D.geo ed) s.f gp) * nd (nrmOf D ed s) 1) := by
      rw [sideSum_add]
      refine sideSum_congr fun x hx s hsd _ => ?_
      rw [along_add]
      refine along_congr fun gp hgp => ?_
      obtain ⟨-, hn, s1, -, s3, -⟩ := hside x hx s hsd gp hgp
      have u0 := s3 0; have u1 := s3 1
      simp only [Fin.val_zero, Fin.val_one] at u0 u1
      rw [s1, u0, u1]
      field_simp
    have e2 : (area D e fun z => (D.dat e).elt.dphi D.v.N 0 i z * (vec D w1 e 0 z / depth D.v D.dat q e z) + (D.dat e).elt.dphi D.v.N 1 i z * (vec D w1 e 1 z / depth D.v D.dat q e z)) =
        (area D e fun z => (D.dat e).elt.dphi D.v.N 0 i z * at' D (Φ.V 0) e z) + area D e fun z => (D.dat e).elt.dphi D.v.N 1 i z * at' D (Φ.V 1) e z := by
      rw [area_add]
      refine area_congr fun wz hwz => ?_
      have hz := hreg e he wz hwz
      have hn := hnz e he wz hwz
      have u0 := hW e he _ hz 0; have u1 := hW e he _ hz 1
      simp only [Fin.val_zero, Fin.val_one] at u0 u1
      rw [hH e he _ hz, u0, u1]
      field_simp
    have e3 : (area D e fun z => D.v.N.basis.phi i z * (scl D w2 e z / depth D.v D.dat q e z ^ 3)) =
        (area D e fun z => D.v.N.basis.phi i z * at' D (pderiv 0 (Φ.V 0)) e z) + area D e fun z => D.v.N.basis.phi i z * at' D (pderiv 1 (Φ.V 1)) e z := by
      rw [area_add]
      refine area_congr fun wz hwz => ?_
      have hz := hreg e he wz hwz
      have hn := hnz e he wz hwz
      have hv : scl D w2 e wz.2 = at' D (Φ.H ^ 3 * Φ.div) e wz.2 := h.rate e he _ hz
      rw [hH e he _ hz, hv]
      simp only [FlowFields.div, at_mul, at_add, at_pow]
      field_simp
    rw [e1, e2, e3]
    linear_combination -hp0 - hp1
  · have t1 := h.trace k _ hk ⟨i.ein, i.fin, false⟩ (by simp [Edg.sides]) gp hgp a ha
    have t2 := h.trace k _ hk ⟨i.eex, i.fex, true⟩ (by simp [Edg.sides]) ((rule D.geo (.int i)).length - gp - 1) (by omega) a ha
    rw [opp_in] at t1
    rw [opp_ex, show (rule D.geo (.int i)).length - ((rule D.geo (.int i)).length - gp - 1) - 1 = gp by omega] at t2
    rcases mem_edge hk with ⟨i', hi, he⟩ | ⟨b, _, he⟩
    · obtain rfl : i = i' := by cases he; rfl
      have c := agrees_cont hS hm h.rate hi hgp
      have c' : at2 D w2 (.int i) ⟨i.ein, i.fin, false⟩ gp = at2 D w2 (.int i) ⟨i.eex, i.fex, true⟩ ((rule D.geo (.int i)).length - gp - 1) := c
      rw [c', ← t1, ← t2]; ring
    · cases he
  · have := hw _ (side_elt hm hk hsd')
    rw [h2] at this; cases this
  · rcases mem_edge hk with ⟨i', hi, he⟩ | ⟨b', hb', he⟩
    · cases he
    · obtain rfl : b = b' := by cases he; rfl
      have t1 := h.trace k _ hk ⟨b.e, b.f, false⟩ (by simp [Edg.sides]) gp hgp a ha
      rw [opp_in] at t1
      rw [t1, h.land b hb' hl gp hgp]; ring
  · rcases mem_edge hk with ⟨i', hi, he⟩ | ⟨b', hb', he⟩
    · cases he
    · obtain rfl : b = b' := by cases he; rfl
      have t1 := h.trace k _ hk ⟨b.e, b.f, false⟩ (by simp [Edg.sides]) gp hgp a ha
      rw [opp_in] at t1
      rw [t1, h.sea b hb' hl gp hgp]; ring

end

end Verif.Gn.Props
