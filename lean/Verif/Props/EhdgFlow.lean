import Verif.Props.Consistency
import Verif.Props.EhdgRun
import Verif.Props.EhdgTrace

/-!
# C121: the rate of change computed by the explicit hybridized discretization

For the flows of C118 the hybridized discretization computes the same right-hand side as the other one, although its fluxes are different functions of the two
states of a face: the traces of a continuous flow are its values. So it computes the rate of change of the equations, and steady flows stay.
-/

namespace Verif.Ehdg.Props
open Verif.Geometry Verif.Geometry.Props Verif.Element Verif.Stepper Verif.Tri Verif.Swe Verif.Swe.Props MvPolynomial
open Verif.Edge.Props (Fits)

/-- A vector as a state. -/
def asQ (u : Fin 3 → ℝ) : Q ℝ := ⟨u 0, u 1, u 2⟩

/-- Points of a face are points of the master triangle. -/
theorem face_inside {f : ℕ} (hf : f < 3) {s : ℝ} (h1 : -1 ≤ s) (h2 : s ≤ 1) :
    -1 ≤ (boundaryToMaster f s).x ∧ -1 ≤ (boundaryToMaster f s).y ∧ (boundaryToMaster f s).x + (boundaryToMaster f s).y ≤ 0 := by
  interval_cases f <;> simp [boundaryToMaster] <;> (try constructor) <;> linarith

section
variable {v : Env ℝ} {dat : ℕ → EltData ℝ} {m : Mesh ℝ} {F : ℕ → MvPolynomial (Fin 2) ℝ} {P : ℕ} {t ramp : ℝ} {q : State ℝ} {Φ : GlobalBasis} {f : ℕ → PolyFlow}

/-- The fluxes of the open boundaries are the physical ones of the flow. -/
def Carries (v : Env ℝ) (dat : ℕ → EltData ℝ) (m : Mesh ℝ) (x : Faces ℝ) (f : ℕ → PolyFlow) : Prop :=
  ∀ b ∈ m.bnds, b.kind ≠ .land → ∀ gp < (v.N.line (2 * (dat b.e).elt.p + 1)).length,
    let X := edgePoint (dat b.e).elt.tri b.f ((v.N.line (2 * (dat b.e).elt.p + 1)).getD gp (0, 0)).2
    let n := outward (dat b.e).elt.tri b.f
    ∀ i, comp (x.openF b gp) i = at' ((f b.e).fx v.src.g i) X * n.x + at' ((f b.e).fy v.src.g i) X * n.y

/-- Equal states: the flux does not depend on the stabilization. -/
theorem hybrid_phys (sq : ℝ → ℝ) (g : ℝ) (u : Fin 3 → ℝ) (b : ℝ) (n : P2 ℝ) (i : Fin 3) :
    comp (hybrid sq g b n (asQ u) (asQ u)) i = physX g u b i * n.x + physY g u b i * n.y := by
  have hm : mean (asQ u) (asQ u) = asQ u := by ext <;> simp [mean]
  rw [hybrid, hm]
  fin_cases i <;> simp [comp, fluxN, physX, physY, pe, asQ] <;> ring

theorem flow_faces (hR : Rules v.N F P 0) (hS : SymRules v.N P) (hv : RealEnv v) (hm : WeakMesh dat Φ m P) (hΦ : Transported dat Φ F m.elts)
    (hf : FlowIs v dat Φ m t ramp f q) {wet : ℕ → Bool} (hw : ∀ e ∈ m.elts, wet e = true) {j : Iface ℝ} (hj : j ∈ m.ints) (x : Faces ℝ) {gp : ℕ}
    (hgp : gp < (j.rule v dat).length) (i : Fin 3) :
    comp ((faceFlux v dat wet q x j).1 gp) i = comp (j.flux v dat wet q gp).1 i ∧
    comp ((faceFlux v dat wet q x j).2 ((j.rule v dat).length - gp - 1)) i = comp (j.flux v dat wet q gp).2 i := by
  obtain ⟨h1, h2, f1, f2⟩ := hm.ends j hj
  obtain ⟨e1, e2⟩ := hm.edges j hj
  have hP : max (dat j.ein).elt.p (dat j.eex).elt.p ≤ P := max_le (hm.degree _ h1) (hm.degree _ h2)
  have hpt : edgePoint (dat j.eex).elt.tri j.fex ((j.rule v dat).getD ((j.rule v dat).length - gp - 1) (0, 0)).2 =
      edgePoint (dat j.ein).elt.tri j.fin ((j.rule v dat).getD gp (0, 0)).2 := by
    rw [(edge_reversed e1 e2 _).1]
    congr 1
    have : ((j.rule v dat).getD ((j.rule v dat).length - gp - 1) (0, 0)).2 = -((j.rule v dat).getD gp (0, 0)).2 := hS _ hP gp hgp
    rw [this, neg_neg]
  obtain ⟨k1, k2⟩ := iface_flux hR hS hv hm hΦ hw hj hgp (q := q) i
  rw [k2, comp_neg, k1, hf.state _ h1, hf.state _ h2, ← hf.cont j hj, numFlux_same]
  have hw1 := hw _ h1
  have hw2 := hw _ h2
  have hpair := face_pair (v := v) (dat := dat) q x (hm.internal j hj) (show (wet j.ein || wet j.eex) = true by rw [hw1]; rfl) hgp
  have hp : ∀ b n n' q r, pairFlux v.sq v.src.g b n n' true true q r = (hybrid v.sq v.src.g b n q r, -hybrid v.sq v.src.g b n q r) := by
    intro b n n' q r
    simp [pairFlux]
  rw [hw1, hw2, hp] at hpair
  simp only [Iface.inside, Iface.outside, Swe.auxAt, facePt, bathHat] at hpair
  rw [comp_qAt hR hm hΦ h1 q (face_regular _ _), comp_qAt hR hm hΦ h2 q (face_regular _ _), value_global hR hm hΦ h1 _ (face_regular _ _),
    value_global hR hm hΦ h2 _ (face_regular _ _)] at hpair
  rw [← pointOf_eq, ← pointOf_eq, edgePoint_eq _ f1, edgePoint_eq _ f2, hpt, hf.state _ h1, hf.state _ h2, ← hf.cont j hj] at hpair
  have hb := hm.bath j hj ((j.rule v dat).getD gp (0, 0)).2
  unfold bathOn at hb
  rw [← hb, add_self_div_two] at hpair
  obtain ⟨p1, p2⟩ := Prod.mk.inj hpair
  have hn : normal v.sq (dat j.ein).elt.tri j.fin = outward (dat j.ein).elt.tri j.fin := by rw [hv.sqrt, normal_eq _ (ccw_jdet hm h1) f1]
  rw [hn] at p1 p2
  have key := hybrid_phys v.sq v.src.g ((f j.ein).state (edgePoint (dat j.ein).elt.tri j.fin ((j.rule v dat).getD gp (0, 0)).2))
    (fieldOn dat Φ j.ein (dat j.ein).bath (edgePoint (dat j.ein).elt.tri j.fin ((j.rule v dat).getD gp (0, 0)).2).x
      (edgePoint (dat j.ein).elt.tri j.fin ((j.rule v dat).getD gp (0, 0)).2).y) (outward (dat j.ein).elt.tri j.fin) i
  unfold asQ at key
  constructor
  · rw [p1, key]; rfl
  · rw [p2, comp_neg, key]; rfl

/-- The flux of a boundary at a Gauss point. -/
theorem bnd_point (hR : Rules v.N F P 0) (hv : RealEnv v) (hm : WeakMesh dat Φ m P) (hΦ : Transported dat Φ F m.elts) {b : Bnd ℝ} (hb : b ∈ m.bnds) (gp : ℕ)
    (i : Fin 3) :
    let X := edgePoint (dat b.e).elt.tri b.f ((faceRule v.N (dat b.e).elt.p).getD gp (0, 0)).2
    let z := facePt (faceRule v.N (dat b.e).elt.p) b.f gp
    let u := stateOn dat Φ q b.e X
    comp (Swe.bndFlux v t ramp b.kind gp (qAt v.N (dat b.e).elt (q b.e) z) (Swe.auxAt v (dat b.e) (qAt v.N (dat b.e).elt (q b.e) z) z (localToGlobal (dat b.e).elt.tri z))
      (normal v.sq (dat b.e).elt.tri b.f) (localToGlobal (dat b.e).elt.tri z)) i =
    numFlux v.src.g u (outState v t ramp b.kind gp X (outward (dat b.e).elt.tri b.f) u) (bathOn dat Φ b.e X) (outward (dat b.e).elt.tri b.f) i := by
  obtain ⟨h1, hf⟩ := hm.owner b hb
  have hn := outward_unit _ (ccw_jdet hm h1) hf
  simp only [facePt, Swe.auxAt, hv.sp]
  rw [comp_qAt hR hm hΦ h1 q (face_regular _ _), hv.sqrt, normal_eq _ (ccw_jdet hm h1) hf]
  rw [value_global hR hm hΦ h1 _ (face_regular _ _), edgePoint_eq _ hf, ← pointOf_eq, edgePoint_eq _ hf]
  set X := edgePoint (dat b.e).elt.tri b.f ((faceRule v.N (dat b.e).elt.p).getD gp (0, 0)).2
  set u := stateOn dat Φ q b.e X
  set n := outward (dat b.e).elt.tri b.f
  have hfor : ∀ cs, forcing v.cos v.pi ramp t cs = tidal ramp t cs := by
    intro cs
    unfold forcing tidal
    rw [hv.cos, hv.pi]
    have : ∀ (l : List (Constituent ℝ)) (a : ℝ), l.foldl (fun s c => s + ramp * c.ff * c.amp * Real.cos (c.freq * t + (c.eq - c.phase) * Real.pi / 180)) a =
        a + (l.map fun c => ramp * c.ff * c.amp * Real.cos (c.freq * t + (c.eq - c.phase) * Real.pi / 180)).sum := by
      intro l
      induction l with
      | nil => simp
      | cons c l ih => intro a; rw [List.foldl_cons, ih, List.map_cons, List.sum_cons, add_assoc]
    rw [this, zero_add]
  unfold Swe.bndFlux outState
  cases b.kind with
  | land =>
    simp only [Swe.landFlux]
    have : landEx n ⟨u 0, u 1, u 2⟩ = ⟨u 0, u 1 - 2 * (u 1 * n.x + u 2 * n.y) * n.x, u 2 - 2 * (u 1 * n.x + u 2 * n.y) * n.y⟩ := by
      unfold landEx
      simp only [Q.mk.injEq, true_and]
      constructor
      · linear_combination u 1 * hn
      · linear_combination u 2 * hn
    rw [this, hv.sqrt]
    exact llf_phys _ u ![_, _, _] _ _ _ hn i
  | tide cs =>
    simp only [tideEx, hfor, hv.sqrt]
    exact llf_phys _ u ![_, _, _] _ _ _ hn i
  | flow cs =>
    simp only [flowEx, hfor, hv.sqrt]
    exact llf_phys _ u ![_, _, _] _ _ _ hn i
  | function =>
    simp only [hv.sqrt]
    exact llf_phys _ u ![_, _, _] _ _ _ hn i

/-- **C121** The right-hand sides of both discretizations agree on the flow. -/
theorem flow_rhs (hR : Rules v.N F P 0) (hS : SymRules v.N P) (hv : RealEnv v) (hm : WeakMesh dat Φ m P) (hΦ : Transported dat Φ F m.elts)
    (hf : FlowIs v dat Φ m t ramp f q) {x : Faces ℝ} (hx : Carries v dat m x f) {wet : ℕ → Bool} (hw : ∀ e ∈ m.elts, wet e = true) (junk : State ℝ) :
    Ehdg.localRhs v dat m wet t x q junk = Swe.localRhs v dat m wet t ramp q junk := by
  refine rhs_same (fun e _ => volume_same hv.sp _ _) (fun j hj => ⟨?_, ?_⟩) fun b hb => ?_
  · funext i dof
    exact face_congr _ _ _ _ (fun gp hgp => (flow_faces hR hS hv hm hΦ hf hw hj x hgp i).1) dof
  · funext i dof
    refine face_congr _ _ _ _ (fun gp hgp => ?_) dof
    have := (flow_faces hR hS hv hm hΦ hf hw hj x (gp := (j.rule v dat).length - gp - 1) (by omega) i).2
    rwa [show (j.rule v dat).length - ((j.rule v dat).length - gp - 1) - 1 = gp by omega] at this
  · funext i dof
    obtain ⟨h1, hbf⟩ := hm.owner b hb
    refine face_congr _ _ _ _ (fun gp hgp => ?_) dof
    have hp := bnd_point (q := q) (t := t) (ramp := ramp) hR hv hm hΦ hb gp i
    simp only at hp
    have hout : outState v t ramp b.kind gp (edgePoint (dat b.e).elt.tri b.f ((faceRule v.N (dat b.e).elt.p).getD gp (0, 0)).2) (outward (dat b.e).elt.tri b.f)
      ((f b.e).state (edgePoint (dat b.e).elt.tri b.f ((faceRule v.N (dat b.e).elt.p).getD gp (0, 0)).2)) =
        (f b.e).state (edgePoint (dat b.e).elt.tri b.f ((faceRule v.N (dat b.e).elt.p).getD gp (0, 0)).2) := hf.bnd b hb gp hgp
    rw [hf.state _ h1, hout, numFlux_same] at hp
    rw [hp]
    have hopen : b.kind ≠ .land → comp (x.openF b gp) i = _ := fun h => hx b hb h gp hgp i
    rw [hf.bath _ h1, (phys_flow _ _ _ i).1, (phys_flow _ _ _ i).2]
    unfold Ehdg.bndFlux
    simp only
    cases hkd : b.kind with
    | land =>
      rw [hkd] at hout
      set X := edgePoint (dat b.e).elt.tri b.f ((faceRule v.N (dat b.e).elt.p).getD gp (0, 0)).2 with hX
      set u := (f b.e).state X with hu
      set n := outward (dat b.e).elt.tri b.f with hnn
      have hn1 : n.x ^ 2 + n.y ^ 2 = 1 := outward_unit _ (ccw_jdet hm h1) hbf
      have o1 := congrFun hout 1
      have o2 := congrFun hout 2
      simp only [outState, Matrix.cons_val_one, Matrix.cons_val_zero, Matrix.cons_val] at o1 o2
      have hq0 : u 1 * n.x + u 2 * n.y = 0 := by
        have a1 : (u 1 * n.x + u 2 * n.y) * n.x = 0 := by linarith
        have a2 : (u 1 * n.x + u 2 * n.y) * n.y = 0 := by linarith
        linear_combination n.x * a1 + n.y * a2 - (u 1 * n.x + u 2 * n.y) * hn1
      simp only [facePt]
      rw [comp_qAt hR hm hΦ h1 q (face_regular _ _), value_global hR hm hΦ h1 _ (face_regular _ _), ← pointOf_eq, edgePoint_eq _ hbf, hf.state _ h1,
        hv.sqrt, normal_eq _ (ccw_jdet hm h1) hbf]
      have hl : landHat n (asQ u) = asQ u := by
        simp only [landHat, asQ, hq0, zero_mul, sub_zero]
      have hB : fieldOn dat Φ b.e (dat b.e).bath X.x X.y = at' (f b.e).B X := hf.bath _ h1 X
      change comp (landBoundary Real.sqrt v.src.g n (asQ u) (fieldOn dat Φ b.e (dat b.e).bath X.x X.y)) i = _
      rw [hB, ← (phys_flow v.src.g (f b.e) X i).1, ← (phys_flow v.src.g (f b.e) X i).2, ← hybrid_phys Real.sqrt]
      simp only [landBoundary, hl]
      rw [mulQ_tau _ _ _ _ _ rfl]
      have hmn : mean (asQ u) (asQ u) = asQ u := by ext <;> simp [mean]
      rw [hybrid, hmn]
    | tide cs => exact hopen (by simp [hkd])
    | flow cs => exact hopen (by simp [hkd])
    | function => exact hopen (by simp [hkd])

/-- **C121** Tested with a basis function the right-hand side is the integral (by the rule of the element) of the rate of change of the equations. -/
theorem ehdg_weak (hR : Rules v.N F P 0) (hS : SymRules v.N P) (hv : RealEnv v) (hm : WeakMesh dat Φ m P) (hΦ : Transported dat Φ F m.elts)
    (hf : FlowIs v dat Φ m t ramp f q) {x : Faces ℝ} (hx : Carries v dat m x f) {wet : ℕ → Bool} (hw : ∀ e ∈ m.elts, wet e = true) (junk : State ℝ)
    {e : ℕ} (he : e ∈ m.elts) (i : Fin 3) {dof : ℕ} (hdof : dof < ndof (dat e).elt.p) :
    Ehdg.localRhs v dat m wet t x q junk e i dof = ((v.N.tri (2 * (dat e).elt.p)).map fun wz => wz.1 * areaRatio (dat e).elt.tri *
      ((f e).rate v.src (dat e).src (v.fs t (pointOf (dat e).elt.tri wz.2)) (pointOf (dat e).elt.tri wz.2) i *
        Φ e dof (pointOf (dat e).elt.tri wz.2).x (pointOf (dat e).elt.tri wz.2).y)).sum := by
  rw [flow_rhs hR hS hv hm hΦ hf hx hw]
  exact consistent_weak hR hS hv hm hΦ hf hw junk he i hdof

/-- **C121** If the rate of change is a function of the element then its coefficients are computed. -/
theorem ehdg_rate (hR : Rules v.N F P 0) (hO : Orthogonal v.N F P) (hS : SymRules v.N P) (hv : RealEnv v) (hm : WeakMesh dat Φ m P)
    (hΦ : Transported dat Φ F m.elts) (hf : FlowIs v dat Φ m t ramp f q) {x : Faces ℝ} (hx : Carries v dat m x f) {wet : ℕ → Bool}
    (hw : ∀ e ∈ m.elts, wet e = true) (junk : State ℝ) {e : ℕ} (he : e ∈ m.elts) (i : Fin 3) (ρ : ℕ → ℝ)
    (hρ : ∀ wz ∈ v.N.tri (2 * (dat e).elt.p), (f e).rate v.src (dat e).src (v.fs t (pointOf (dat e).elt.tri wz.2)) (pointOf (dat e).elt.tri wz.2) i =
      fieldOn dat Φ e ρ (pointOf (dat e).elt.tri wz.2).x (pointOf (dat e).elt.tri wz.2).y) {dof : ℕ} (hdof : dof < ndof (dat e).elt.p) :
    solve v dat (Ehdg.localRhs v dat m wet t x q junk) e i dof = ρ dof := by
  rw [flow_rhs hR hS hv hm hΦ hf hx hw]
  exact consistent_rate hR hO hS hv hm hΦ hf hw junk he i ρ hρ hdof

/-- **C121** Steady flows of the equations do not change in any number of stages of any scheme, with or without wetting and drying in water deep enough. -/
theorem ehdg_steady (hR : Rules v.N F P 0) (hO : Orthogonal v.N F P) (hS : SymRules v.N P) (hv : RealEnv v) (hm : WeakMesh dat Φ m P)
    (hΦ : Transported dat Φ F m.elts) {tab : Tableau} {ns o : ℕ} (htab : tableau ns o = some tab)
    (hrow : (ns, o) ∈ [(1, 1), (2, 2), (3, 3), (4, 3), (6, 3), (7, 4), (8, 4)]) (dt : ℝ) (wd : Option (WdParams ℝ)) {q0 : State ℝ}
    (hp : ∀ w, wd = some w → 0 < w.thr ∧ w.thr ≤ w.ho ∧ ∀ e ∈ m.elts, ∀ x < 3, w.ho + w.thr < Basis.basisToLinear (ndof (dat e).elt.p) (q0 e 0) x + w.bath e x)
    (hdeg : ∀ e ∈ m.elts, 1 ≤ (dat e).elt.p) (junk : State ℝ) (time ramp : ℕ → ℝ) (hf : ∀ n, FlowIs v dat Φ m (time n) (ramp n) f q0)
    (x : ℕ → Faces ℝ) (hx : ∀ n, Carries v dat m (x n) f)
    (hsteady : ∀ n, ∀ e ∈ m.elts, ∀ i, ∀ wz ∈ v.N.tri (2 * (dat e).elt.p),
      (f e).rate v.src (dat e).src (v.fs (time n) (pointOf (dat e).elt.tri wz.2)) (pointOf (dat e).elt.tri wz.2) i = 0)
    (slots : List (Slot (State ℝ))) (hlen : ns + 1 ≤ slots.length) (sl : Slot (State ℝ)) (h0 : slots[0]? = some sl) (hq : Same dat m.elts q0 sl.q)
    (wet : ℕ → Bool) (hw : ∀ e ∈ m.elts, wet e = true) (n : ℕ) :
    ∃ s sl', Ehdg.run v dat m tab ns dt ⟨wd, none⟩ junk time x n ⟨slots, 0, wet, false⟩ = .ok s ∧ s.emptied = false ∧
      s.slots[s.stage]? = some sl' ∧ Same dat m.elts q0 sl'.q ∧ ∀ e ∈ m.elts, s.wet e = true := by
  have hns := (Stepper.shapeOK_of_tableau htab).2.1
  obtain ⟨s, h1, h2, h3⟩ := withRun_keeps (A := Same dat m.elts q0)
    (S := fun x => ∀ e ∈ m.elts, ∀ d < ndof (dat e).elt.p, ∀ var, x e var d = 0) (G := fun w => ∀ e ∈ m.elts, w e = true)
    (v := v) (dat := dat) (m := m) (dt := dt) (pp := ⟨wd, none⟩) (R := fun k wet q => Ehdg.localRhs v dat m wet (time k) (x k) q junk) htab
    (fun k hk u x hux => same_comb htab hrow dt hk u x hux)
    (fun k q wet hq hw e he d hd var => ehdg_rate hR hO hS hv hm hΦ (flow_same (hf k) hq) (hx k) hw junk he var (fun _ => 0) (fun wz hwz => by
      rw [hsteady k e he var wz hwz]
      simp [fieldOn]) hd)
    (fun q wet em hq hw => by
      obtain ⟨w', hfw, hw'⟩ := same_wd hp hdeg hq hw em
      exact ⟨_, hfw, rfl, hq, hw'⟩)
    (s := ⟨slots, 0, wet, false⟩) ⟨hns, hlen, (fun i hi => by
      obtain rfl : i = 0 := by simpa using hi
      exact ⟨sl, h0, hq⟩), (fun i hi => by simp at hi), hw⟩ n
  obtain ⟨sl', h4, h5⟩ := h2.good s.stage le_rfl
  exact ⟨s, sl', h1, h3, h4, h5, h2.wet⟩

/-- **C121** Where no wave stands still, the iteration for the trace of an open boundary works: if the flow is prescribed and the trace is that of the flow then
the iteration ends, the trace is kept and the fluxes are those of the flow. -/
theorem flow_open (hR : Rules v.N F P 0) (hv : RealEnv v) (hm : WeakMesh dat Φ m P) (hΦ : Transported dat Φ F m.elts)
    (hf : FlowIs v dat Φ m t ramp f q) (hg : 0 < v.src.g) {slv : Solver ℝ} (hs : IsSolver slv) {b : Bnd ℝ} (hb : b ∈ m.bnds) (c : Coef ℝ) (qinf : ℕ → Q ℝ)
    (hinf : ∀ gp < (v.N.line (2 * (dat b.e).elt.p + 1)).length,
      qinf gp = asQ ((f b.e).state (edgePoint (dat b.e).elt.tri b.f ((v.N.line (2 * (dat b.e).elt.p + 1)).getD gp (0, 0)).2)))
    (hin : ∀ gp < (v.N.line (2 * (dat b.e).elt.p + 1)).length,
      -1 ≤ ((v.N.line (2 * (dat b.e).elt.p + 1)).getD gp (0, 0)).2 ∧ ((v.N.line (2 * (dat b.e).elt.p + 1)).getD gp (0, 0)).2 ≤ 1)
    (hfit : Fits (openEdge v dat q qinf b).E)
    (h3 : ∀ gp < (v.N.line (2 * (dat b.e).elt.p + 1)).length, ∀ i,
      speeds Real.sqrt v.src.g (qinf gp) (at' (f b.e).B (edgePoint (dat b.e).elt.tri b.f ((v.N.line (2 * (dat b.e).elt.p + 1)).getD gp (0, 0)).2))
        (outward (dat b.e).elt.tri b.f) i ≠ 0)
    (hc : ∀ gp < (v.N.line (2 * (dat b.e).elt.p + 1)).length, traceAt (openEdge v dat q qinf b) c gp = qinf gp) :
    ∃ c' G, openBoundary v.sq v.src.g slv (openEdge v dat q qinf b) c = some (c', G) ∧ ∀ gp < (v.N.line (2 * (dat b.e).elt.p + 1)).length,
      traceAt (openEdge v dat q qinf b) c' gp = qinf gp ∧ ∀ i, comp (G gp) i =
        at' ((f b.e).fx v.src.g i) (edgePoint (dat b.e).elt.tri b.f ((v.N.line (2 * (dat b.e).elt.p + 1)).getD gp (0, 0)).2) * (outward (dat b.e).elt.tri b.f).x +
        at' ((f b.e).fy v.src.g i) (edgePoint (dat b.e).elt.tri b.f ((v.N.line (2 * (dat b.e).elt.p + 1)).getD gp (0, 0)).2) * (outward (dat b.e).elt.tri b.f).y := by
  obtain ⟨h1, hbf⟩ := hm.owner b hb
  have hngp : (openEdge v dat q qinf b).E.ngp = (v.N.line (2 * (dat b.e).elt.p + 1)).length := rfl
  set X : ℕ → P2 ℝ := fun gp => edgePoint (dat b.e).elt.tri b.f ((v.N.line (2 * (dat b.e).elt.p + 1)).getD gp (0, 0)).2 with hX
  have hbath : ∀ gp, (openEdge v dat q qinf b).bath gp = at' (f b.e).B (X gp) := by
    intro gp
    simp only [openEdge, facePt, faceRule]
    rw [value_global hR hm hΦ h1 _ (face_regular _ _), ← pointOf_eq, edgePoint_eq _ hbf]
    exact hf.bath _ h1 _
  have hn : (openEdge v dat q qinf b).n = outward (dat b.e).elt.tri b.f := by
    simp only [openEdge]
    rw [hv.sqrt, normal_eq _ (ccw_jdet hm h1) hbf]
  have hu : Swe.Props.Unit (openEdge v dat q qinf b).n := by rw [hn]; exact outward_unit _ (ccw_jdet hm h1) hbf
  have hqv : ∀ gp < (v.N.line (2 * (dat b.e).elt.p + 1)).length, (openEdge v dat q qinf b).q gp = qinf gp := by
    intro gp hgp
    simp only [openEdge, facePt, faceRule]
    rw [comp_qAt hR hm hΦ h1 q (face_regular _ _), ← pointOf_eq, edgePoint_eq _ hbf, hf.state _ h1, hinf gp hgp]
    rfl
  have hwet : ∀ gp < (v.N.line (2 * (dat b.e).elt.p + 1)).length, 0 < (qinf gp).ze + at' (f b.e).B (X gp) := by
    intro gp hgp
    obtain ⟨l1, l2⟩ := hin gp hgp
    have hz := face_inside (f := b.f) hbf l1 l2
    have := hf.depth b.e h1 _ hz.1 hz.2.1 hz.2.2
    rw [← pointOf_eq, edgePoint_eq _ hbf] at this
    rw [hinf gp hgp]
    simpa [asQ, PolyFlow.state, PolyFlow.H, at', hX] using this
  obtain ⟨c', G, e, -, h⟩ := stream_kept hg hs hfit hu (c := c) (fun gp hgp => by rw [hc gp hgp, hbath]; exact hwet gp hgp)
    (fun gp hgp i => by rw [hc gp hgp, hbath, hn]; exact h3 gp hgp i) (fun gp hgp => ⟨by rw [hc gp hgp, hqv gp hgp], by rw [hc gp hgp]; rfl⟩)
  refine ⟨c', G, by rw [hv.sqrt]; exact e, fun gp hgp => ?_⟩
  have h := h gp hgp
  rw [hc gp hgp, hqv gp hgp, hbath, hn] at h
  refine ⟨h.1, fun i => ?_⟩
  rw [h.2, ← (phys_flow v.src.g (f b.e) (X gp) i).1, ← (phys_flow v.src.g (f b.e) (X gp) i).2, ← hybrid_phys Real.sqrt,
    ← hinf gp hgp, hybrid_consistent _ _ _ _ _ (hwet gp hgp)]

end

/-! ### Case: the flow down the slope of C118 -/

/-- Fluxes of the flow at the open boundaries. -/
noncomputable def carrying (v : Env ℝ) (dat : ℕ → EltData ℝ) (f : ℕ → PolyFlow) : Faces ℝ :=
  ⟨fun _ _ => 0, fun _ _ => 0, fun b gp =>
    let X := edgePoint (dat b.e).elt.tri b.f ((v.N.line (2 * (dat b.e).elt.p + 1)).getD gp (0, 0)).2
    let n := outward (dat b.e).elt.tri b.f
    asQ fun i => at' ((f b.e).fx v.src.g i) X * n.x + at' ((f b.e).fy v.src.g i) X * n.y⟩

theorem carrying_carries (v : Env ℝ) (dat : ℕ → EltData ℝ) (m : Mesh ℝ) (f : ℕ → PolyFlow) : Carries v dat m (carrying v dat f) f := by
  intro b _ _ gp _
  simp only
  intro i
  fin_cases i <;> rfl

example (n : ℕ) (tab : Tableau) (ht : tableau 3 3 = some tab) :
    ∃ s sl, Ehdg.run slopeEnv slopeDat slopeMesh tab 3 (1 / 10) ⟨none, none⟩ 0 (fun _ => 0) (fun _ => carrying slopeEnv slopeDat fun _ => normalFlow) n
      ⟨[⟨slopeState, 0⟩, ⟨0, 0⟩, ⟨0, 0⟩, ⟨0, 0⟩], 0, fun _ => true, false⟩ = .ok s ∧ s.slots[s.stage]? = some sl ∧ sl.q 0 1 0 = 1 ∧ sl.q 1 0 0 = -8 / 2943 := by
  obtain ⟨s, sl, h1, _, h2, h3, _⟩ := ehdg_steady (v := slopeEnv) exact_rules exact_orthogonal exact_symmetric ⟨rfl, fun _ => rfl, rfl, rfl, fun _ => rfl⟩ slope_weak
    (transported _ _ _ slope_det) ht (by simp) (1 / 10) none (q0 := slopeState) (fun _ h => by cases h) (fun _ _ => le_rfl) 0 (fun _ => 0) (fun _ => 0)
    (fun _ => slope_flow 0 0) (fun _ => carrying slopeEnv slopeDat fun _ => normalFlow) (fun _ => carrying_carries _ _ _ _)
    (fun _ e _ i _ _ => slope_steady _ e _ i) [⟨slopeState, 0⟩, ⟨0, 0⟩, ⟨0, 0⟩, ⟨0, 0⟩] (by simp) _ rfl (fun _ _ _ _ _ => rfl)
    (fun _ => true) (fun _ _ => rfl) n
  refine ⟨s, sl, h1, h2, ?_, ?_⟩
  · rw [h3 0 (by simp [slopeMesh, openMesh]) 0 (ndof_pos _) 1]
    simp [slopeState]
  · rw [h3 1 (by simp [slopeMesh, openMesh]) 0 (ndof_pos _) 0]
    simp [slopeState, xCoef]; norm_num

/-- The rules of degree three on the line have two points. -/
noncomputable def gaussN : Numerics ℝ := { exactN with line := fun _ => [(1, -√(1 / 3)), (1, √(1 / 3))] }

noncomputable def gaussEnv : Env ℝ := { slopeEnv with N := gaussN }

theorem gauss_rules : Rules gaussN (dubF id) 1 0 := by
  refine ⟨exact_rules.phi0, exact_rules.degree, exact_rules.basis, exact_rules.pts, exact_rules.tri, fun p _ k hk => ?_⟩
  rw [Quadrature.Props.m1_integral, abs_nonpos_iff]
  have h2 : √(1 / 3) ^ 2 = (1 / 3 : ℝ) := Real.sq_sqrt (by norm_num)
  have : k = 0 ∨ k = 1 ∨ k = 2 ∨ k = 3 := by omega
  rcases this with rfl | rfl | rfl | rfl
  · norm_num [gaussN, Quadrature.Props.m1]
  · norm_num [gaussN, Quadrature.Props.m1]
  · simp only [gaussN, List.map_cons, List.map_nil, List.sum_cons, List.sum_nil, neg_sq, h2]; norm_num [Quadrature.Props.m1]
  · simp only [gaussN, List.map_cons, List.map_nil, List.sum_cons, List.sum_nil]; norm_num [Quadrature.Props.m1]; ring

theorem gauss_flow : FlowIs gaussEnv slopeDat (transport slopeDat (dubF id)) slopeMesh 0 0 (fun _ => normalFlow) slopeState := by
  have h := slope_flow 0 0
  refine ⟨h.state, h.bath, h.depth, h.degree, h.cover, h.cont, ?_⟩
  intro b hb gp _
  simp only
  have hk : b.kind = .function := by
    rcases (by simpa [slopeMesh, openMesh] using hb : b = _ ∨ b = _ ∨ b = _ ∨ b = _) with rfl | rfl | rfl | rfl <;> rfl
  rw [hk, normal_state]
  simp [outState, gaussEnv, slopeEnv]

theorem gauss_fits {p : ℕ} (hp : p = 1) {J : ℝ} (hJ : 0 < J) : Fits (Edge.tables p [((1 : ℝ), -√(1 / 3)), (1, √(1 / 3))] J true) := by
  subst hp
  have h0 : 0 < √(1 / 3 : ℝ) := Real.sqrt_pos.2 (by norm_num)
  have l0 : ∀ x : ℝ, Basis.legendre 0 x = 1 := fun x => by simp [Basis.legendre, Basis.jacobi]
  have l1 : ∀ x : ℝ, Basis.legendre 1 x = x := fun x => by
    have e1 : Basis.usub 0 0 = 0 := by decide
    have e2 : Basis.u32 2 = 2 := by decide
    simp [Basis.legendre, Basis.jacobi, Basis.linear, e1, e2]
  refine ⟨rfl, le_rfl, fun gp hgp => ?_, fun c h => ?_, fun y h => ?_⟩
  · have : gp = 0 ∨ gp = 1 := by simp [Edge.tables] at hgp; omega
    rcases this with rfl | rfl <;> simpa [Edge.tables] using hJ
  · have a := h 0 (by simp [Edge.tables])
    have b := h 1 (by simp [Edge.tables])
    simp [Edge.tables, Finset.sum_range_succ, l0, l1] at a b
    have hs : (√3)⁻¹ ≠ (0 : ℝ) := by simp
    have c1 : c 1 = 0 := (mul_eq_zero.1 (show c 1 * (√3)⁻¹ = 0 by linarith)).resolve_right hs
    intro i hi
    have : i = 0 ∨ i = 1 := by simp [Edge.tables] at hi; omega
    rcases this with rfl | rfl
    · rw [c1] at a; simpa using a
    · exact c1
  · have a := h 0 (by simp [Edge.tables])
    have b := h 1 (by simp [Edge.tables])
    simp [Edge.tables, Finset.sum_range_succ, l0, l1] at a b
    have hs : (√3)⁻¹ ≠ (0 : ℝ) := by simp
    have e : y 1 = y 0 := (mul_left_inj' hs).1 (by linarith)
    intro gp hgp
    have : gp = 0 ∨ gp = 1 := by simp [Edge.tables] at hgp; omega
    rcases this with rfl | rfl <;> linarith

/-- Where the flow enters, at x = 0, the iteration ends with the flux of the flow: one unit of water per second and unit length comes in. -/
example : ∃ slv, IsSolver slv ∧ ∃ c' G, openBoundary Real.sqrt 9.81 slv (openEdge gaussEnv slopeDat slopeState (fun _ => ⟨0, 1, 0⟩) ⟨0, 1, .function⟩)
    (constCoef ⟨0, 1, 0⟩) = some (c', G) ∧ (G 0).ze = -1 := by
  obtain ⟨slv, hs⟩ := solver_exists
  have hX : ∀ s, edgePoint (slopeDat 0).elt.tri 1 s = ⟨0, (1 - s) / 2 * 3⟩ := by
    intro s
    simp [edgePoint, startOf, endOf, slopeDat, twoTris]
  have hn : outward (slopeDat 0).elt.tri 1 = ⟨-1, 0⟩ := by
    have : √((3 : ℝ) ^ 2) = 3 := Real.sqrt_sq (by norm_num)
    simp [outward, edgeLength, startOf, endOf, slopeDat, twoTris]
  have hJ : 0 < surfaceJ gaussEnv.sq (slopeDat 0).elt.tri 1 := by
    show 0 < surfaceJ Real.sqrt (slopeDat 0).elt.tri 1
    rw [surfaceJ_eq _ (by norm_num)]
    simp [edgeLength, startOf, endOf, slopeDat, twoTris]
  have hg : (√9.81 : ℝ) ≠ 1 := by
    intro h
    have := Real.sq_sqrt (show (0 : ℝ) ≤ 9.81 by norm_num)
    rw [h] at this; norm_num at this
  have hg' : (0 : ℝ) < √9.81 := Real.sqrt_pos.2 (by norm_num)
  obtain ⟨c', G, h1, h2⟩ := flow_open (v := gaussEnv) (dat := slopeDat) (m := slopeMesh) (t := 0) (ramp := 0) gauss_rules
    ⟨rfl, fun _ => rfl, rfl, rfl, fun _ => rfl⟩ slope_weak (transported _ _ _ slope_det) gauss_flow (by norm_num [gaussEnv, slopeEnv]) hs
    (b := ⟨0, 1, .function⟩) (by simp [slopeMesh, openMesh]) (constCoef ⟨0, 1, 0⟩) (fun _ => ⟨0, 1, 0⟩)
    (fun gp _ => by rw [normal_state, hX]; simp [asQ]) (fun gp hgp => by
      have : gp = 0 ∨ gp = 1 := by simp [gaussEnv, gaussN] at hgp; omega
      have h1 : √(1 / 3 : ℝ) ≤ 1 := Real.sqrt_le_one.2 (by norm_num)
      have h0 : 0 ≤ √(1 / 3 : ℝ) := Real.sqrt_nonneg _
      rcases this with rfl | rfl <;> simp only [gaussEnv, gaussN, List.getD_cons_zero, List.getD_cons_succ] <;> constructor <;> linarith)
    (gauss_fits rfl hJ)
    (fun gp _ i => by
      have hB : at' normalFlow.B (edgePoint (slopeDat 0).elt.tri 1 ((gaussEnv.N.line (2 * (slopeDat 0).elt.p + 1)).getD gp (0, 0)).2) = 1 := by
        rw [hX]; simp [at', normalFlow]
      have hgg : gaussEnv.src.g = 9.81 := rfl
      simp only [hB, hn, hgg]
      fin_cases i <;> simp [speeds]
      · intro h; linarith
      · intro h; exact hg (by linarith))
    (fun gp _ => by
      apply comp_inj
      rw [traceAt, comp_ofComp]
      funext v
      have hnd : (openEdge gaussEnv slopeDat slopeState (fun _ => ⟨0, 1, 0⟩) ⟨0, 1, .function⟩).E.ndof = 2 := rfl
      simp only [Edge.ugp, hnd, constCoef]
      simp [Finset.sum_range_succ, openEdge, Edge.tables, Basis.legendre, Basis.jacobi])
  refine ⟨slv, hs, c', G, h1, ?_⟩
  have := (h2 0 (by simp [gaussEnv, gaussN])).2 0
  rw [hn, hX] at this
  simpa [comp, PolyFlow.fx, PolyFlow.H, normalFlow, at'] using this

end Verif.Ehdg.Props
