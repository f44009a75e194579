import Verif.Props.Rotate
import Verif.Props.EhdgRun

/-!
# Turning and shifting the mesh turns the result of the explicit hybridized scheme (C126)
-/

namespace Verif.Ehdg.Props
open Verif.Swe Verif.Swe.Props Verif.Geometry Verif.Geometry.Props Verif.Element Verif.Stepper

variable {K : Type} [Field K] [LinearOrder K] [IsStrictOrderedRing K] (M : Motion K)

/-! ### Fluxes -/

omit [LinearOrder K] [IsStrictOrderedRing K] in
theorem flow_sub (q r : Q K) : M.flow q - M.flow r = M.flow (q - r) := by
  ext
  · rfl
  · show M.c * q.qx - M.s * q.qy - (M.c * r.qx - M.s * r.qy) = M.c * (q.qx - r.qx) - M.s * (q.qy - r.qy)
    ring
  · show M.s * q.qx + M.c * q.qy - (M.s * r.qx + M.c * r.qy) = M.s * (q.qx - r.qx) + M.c * (q.qy - r.qy)
    ring

omit [LinearOrder K] [IsStrictOrderedRing K] in
theorem flow_add (q r : Q K) : M.flow q + M.flow r = M.flow (q + r) := by
  ext
  · rfl
  · show M.c * q.qx - M.s * q.qy + (M.c * r.qx - M.s * r.qy) = M.c * (q.qx + r.qx) - M.s * (q.qy + r.qy)
    ring
  · show M.s * q.qx + M.c * q.qy + (M.s * r.qx + M.c * r.qy) = M.s * (q.qx + r.qx) + M.c * (q.qy + r.qy)
    ring

omit [LinearOrder K] [IsStrictOrderedRing K] in
theorem flow_smul (a : K) (q : Q K) : Q.smul a (M.flow q) = M.flow (Q.smul a q) := by
  ext
  · rfl
  · show a * (M.c * q.qx - M.s * q.qy) = M.c * (a * q.qx) - M.s * (a * q.qy)
    ring
  · show a * (M.s * q.qx + M.c * q.qy) = M.s * (a * q.qx) + M.c * (a * q.qy)
    ring

omit [LinearOrder K] [IsStrictOrderedRing K] in
theorem fluxN_moved (g : K) (q : Q K) (a : Aux K) (n : P2 K) : fluxN g (M.flow q) a (M.vec n) = M.flow (fluxN g q a n) := by
  have h := M.unit
  simp only [fluxN, pe, Motion.flow, Motion.vec, div_eq_mul_inv, Q.mk.injEq]
  generalize a.h⁻¹ = i
  generalize (2 : K)⁻¹ = j
  refine ⟨?_, ?_, ?_⟩ <;> grind

theorem tau_moved (sq : K → K) (g : K) (q : Q K) (a : Aux K) (n : P2 K) : tauLF sq g (M.flow q) a (M.vec n) = tauLF sq g q a n := by
  have h := M.unit
  simp only [tauLF, vn, Motion.flow, Motion.vec, div_eq_mul_inv]
  congr 3
  generalize a.h⁻¹ = i
  grind

omit [LinearOrder K] [IsStrictOrderedRing K] in
theorem hat_moved (n : P2 K) (q : Q K) : landHat (M.vec n) (M.flow q) = M.flow (landHat n q) := by
  have h := M.unit
  simp only [landHat, Motion.flow, Motion.vec, Q.mk.injEq]
  refine ⟨trivial, ?_, ?_⟩ <;> grind

omit [IsStrictOrderedRing K] in
theorem mul_moved (sq : K → K) (g : K) (q d : Q K) (a : Aux K) (n : P2 K) : mulQ (tauLF sq g q a n) (M.flow d) = M.flow (mulQ (tauLF sq g q a n) d) := by
  simp only [tauLF, mulQ_smul, flow_smul]

theorem land_boundary_moved (sq : K → K) (g : K) (n : P2 K) (q : Q K) (b : K) :
    landBoundary sq g (M.vec n) (M.flow q) b = M.flow (landBoundary sq g n q b) := by
  simp only [landBoundary, hat_moved, flow_sub]
  have h : (M.flow (landHat n q)).ze = (landHat n q).ze := rfl
  rw [h, tau_moved, fluxN_moved, mul_moved, flow_add]

theorem wall_moved (sq : K → K) (g b z : K) (n : P2 K) (q : Q K) : wall sq g b z (M.vec n) (M.flow q) = M.flow (wall sq g b z n q) := by
  simp only [wall, Ehdg.landFlux, hat_moved, flow_sub, tau_moved, fluxN_moved, mul_moved, flow_add]

theorem wave_moved (sq : K → K) (g b : K) (q : Q K) (n : P2 K) : wave sq g b (M.flow q) (M.vec n) = wave sq g b q n := by
  have h := M.unit
  simp only [wave, Motion.flow, Motion.vec, div_eq_mul_inv]
  congr 2
  generalize (q.ze + b)⁻¹ = i
  grind

omit [LinearOrder K] [IsStrictOrderedRing K] in
theorem mean_moved (q r : Q K) : mean (M.flow q) (M.flow r) = M.flow (mean q r) := by
  simp only [mean, Motion.flow, Q.mk.injEq]
  refine ⟨trivial, ?_, ?_⟩ <;> ring

theorem hybrid_moved (sq : K → K) (g b : K) (n : P2 K) (q r : Q K) : hybrid sq g b (M.vec n) (M.flow q) (M.flow r) = M.flow (hybrid sq g b n q r) := by
  simp only [hybrid, mean_moved, wave_moved, flow_sub, flow_smul]
  have h : (M.flow (mean q r)).ze = (mean q r).ze := rfl
  rw [h, fluxN_moved, flow_add]

theorem pair_moved (sq : K → K) (g b : K) (n n' : P2 K) (win wex : Bool) (q r : Q K) :
    pairFlux sq g b (M.vec n) (M.vec n') win wex (M.flow q) (M.flow r) = Prod.map M.flow M.flow (pairFlux sq g b n n' win wex q r) := by
  have h1 : (M.flow (hybrid sq g b n q r)).ze = (hybrid sq g b n q r).ze := rfl
  have h2 : (M.flow (mean q r)).ze = (mean q r).ze := rfl
  simp only [pairFlux, hybrid_moved, mean_moved, h1, h2, wall_moved, fluxN_moved, wave_moved, flow_sub, flow_smul, flow_add, flow_neg]
  split_ifs <;> simp only [Prod.map_apply, flow_zero] <;> rfl

/-! ### The right-hand side -/

theorem volume_moved (v : Env K) (d : EltData K) (u : Fin 3 → ℕ → K) : Ehdg.volumeTerm (M.env v) (M.data d) (M.rows u) = M.rows (Ehdg.volumeTerm v d u) := by
  have hu := M.unit
  have hq := qAt_moved M v.N d u
  have hj0 := jinv_moved M d.elt.tri 0
  have hj1 := jinv_moved M d.elt.tri 1
  have hd : |jdet (M.tri d.elt.tri)| = |jdet d.elt.tri| := congrArg _ (det_moved M _)
  have hg : (M.data d).elt.gps v.N = d.elt.gps v.N := rfl
  have hb : ∀ z, (M.data d).elt.value v.N (M.data d).bath z = d.elt.value v.N d.bath z := fun _ => rfl
  have ht : (M.data d).elt.tri = M.tri d.elt.tri := rfl
  have e1 : (M.env v).N = v.N := rfl
  have e2 : (M.env v).src = v.src := rfl
  have e3 : (M.env v).sp = v.sp := rfl
  refine rows_of M _ _ (fun dof => ?_) (fun dof => ?_) (fun dof => ?_) <;> simp only [Ehdg.volumeTerm, Elt.intDPhi, Swe.auxAt, e1, e2, e3, hg, hb, hq, ht, hd, hj0.1, hj0.2, hj1.1, hj1.2]
  · refine sum_same2 _ _ _ _ _ fun x => ?_
    simp only [Swe.comp, fluxX, fluxY, Motion.flow, Matrix.cons_val_zero]
    grind
  · refine sum_turn2 _ _ _ _ _ _ _ _ _ fun x => ?_
    simp only [Swe.comp, fluxX, fluxY, pe, Motion.flow, Matrix.cons_val_zero, Matrix.cons_val_one, div_eq_mul_inv, Matrix.cons_val]
    generalize (qAt v.N d.elt u x.2) = q
    generalize (d.elt.value v.N d.bath x.2) = b
    generalize (q.ze + b)⁻¹ = i
    generalize (2 : K)⁻¹ = j
    grind
  · refine sum_turn2 _ _ _ _ _ _ _ _ _ fun x => ?_
    simp only [Swe.comp, fluxX, fluxY, pe, Motion.flow, Matrix.cons_val_zero, Matrix.cons_val_one, div_eq_mul_inv, Matrix.cons_val]
    generalize (qAt v.N d.elt u x.2) = q
    generalize (d.elt.value v.N d.bath x.2) = b
    generalize (q.ze + b)⁻¹ = i
    generalize (2 : K)⁻¹ = j
    grind

/-- Contents of matrices and given fluxes turned. -/
def turnFaces (x : Faces K) : Faces K := ⟨fun i gp => M.flow (x.junkIn i gp), fun i gp => M.flow (x.junkEx i gp), fun b gp => M.flow (x.openF b gp)⟩

omit [IsStrictOrderedRing K] in
theorem inside_turned (v : Env K) (dat : ℕ → EltData K) (wet : ℕ → Bool) (q : State K) (i : Iface K) (gp : ℕ) :
    (i.inside (M.env v) (fun e => M.data (dat e)) wet (M.state q) gp).q = M.flow (i.inside v dat wet q gp).q ∧
    (i.inside (M.env v) (fun e => M.data (dat e)) wet (M.state q) gp).aux.bath = (i.inside v dat wet q gp).aux.bath :=
  ⟨qAt_moved M _ _ _ _, rfl⟩

omit [IsStrictOrderedRing K] in
theorem outside_turned (v : Env K) (dat : ℕ → EltData K) (wet : ℕ → Bool) (q : State K) (i : Iface K) (gp : ℕ) :
    (i.outside (M.env v) (fun e => M.data (dat e)) wet (M.state q) gp).q = M.flow (i.outside v dat wet q gp).q ∧
    (i.outside (M.env v) (fun e => M.data (dat e)) wet (M.state q) gp).aux.bath = (i.outside v dat wet q gp).aux.bath :=
  ⟨qAt_moved M _ _ _ _, rfl⟩

omit [LinearOrder K] [IsStrictOrderedRing K] in
theorem opp_moved (n : P2 K) : opp (M.vec n) = M.vec (opp n) := by
  simp only [opp, Motion.vec, P2.mk.injEq]
  constructor <;> ring

/-- At the Gauss points of an interface with a wet side both fluxes are turned. -/
theorem face_moved (v : Env K) (dat : ℕ → EltData K) (wet : ℕ → Bool) (q : State K) (x : Faces K) (i : Iface K) (hw : (wet i.ein || wet i.eex) = true) (gp : ℕ)
    (hgp : gp < (i.rule v dat).length) :
    (faceFlux (M.env v) (fun e => M.data (dat e)) wet (M.state q) (turnFaces M x) i).1 gp = M.flow ((faceFlux v dat wet q x i).1 gp) ∧
    (faceFlux (M.env v) (fun e => M.data (dat e)) wet (M.state q) (turnFaces M x) i).2 gp = M.flow ((faceFlux v dat wet q x i).2 gp) := by
  cases hk : i.kind with
  | levee l =>
    simp only [faceFlux, hk, Ehdg.levee, turnFaces]
    exact ⟨trivial, trivial⟩
  | internal =>
    have hr : (i.rule (M.env v) (fun e => M.data (dat e))).length = (i.rule v dat).length := rfl
    have key : ∀ gp < (i.rule v dat).length,
        ((faceFlux (M.env v) (fun e => M.data (dat e)) wet (M.state q) (turnFaces M x) i).1 gp,
          (faceFlux (M.env v) (fun e => M.data (dat e)) wet (M.state q) (turnFaces M x) i).2 ((i.rule v dat).length - gp - 1)) =
        Prod.map M.flow M.flow ((faceFlux v dat wet q x i).1 gp, (faceFlux v dat wet q x i).2 ((i.rule v dat).length - gp - 1)) := by
      intro gp hgp
      have h := face_pair (v := M.env v) (dat := fun e => M.data (dat e)) (M.state q) (turnFaces M x) hk hw (gp := gp) hgp
      rw [hr] at h
      rw [h, face_pair q x hk hw hgp, ← pair_moved]
      have hn : normal (M.env v).sq (M.data (dat i.ein)).elt.tri i.fin = M.vec (normal v.sq (dat i.ein).elt.tri i.fin) := normal_moved M _ _ _
      rw [hn, (inside_turned M v dat wet q i gp).1, (outside_turned M v dat wet q i _).1, opp_moved]
      rfl
    refine ⟨congrArg Prod.fst (key gp hgp), ?_⟩
    have h2 := congrArg Prod.snd (key ((i.rule v dat).length - gp - 1) (by omega))
    have e : (i.rule v dat).length - ((i.rule v dat).length - gp - 1) - 1 = gp := by omega
    simpa only [e, Prod.map_apply] using h2

theorem intFace_turned (N : Numerics K) (r : List (K × K)) (f : ℕ) (J : K) (F F' : ℕ → Q K) (h : ∀ z < r.length, F' z = M.flow (F z)) :
    (fun var dof => Elt.intFace N r f J (fun gp => Swe.comp (F' gp) var) dof) = M.rows fun var dof => Elt.intFace N r f J (fun gp => Swe.comp (F gp) var) dof := by
  rw [← intFace_moved M N r f J F (fun z => M.flow (F z)) fun _ => rfl]
  funext var dof
  unfold Elt.intFace
  congr 1
  exact List.map_congr_left fun gp hg => by simp only [h gp (List.mem_range.1 hg)]

theorem rhs_moved (v : Env K) (dat : ℕ → EltData K) (m : Mesh K) (wet : ℕ → Bool) (t : K) (x : Faces K) (q r : State K) :
    Ehdg.localRhs (M.env v) (fun e => M.data (dat e)) m wet t (turnFaces M x) (M.state q) (M.state r) = M.state (Ehdg.localRhs v dat m wet t x q r) := by
  simp only [Ehdg.localRhs]
  have h1 : ∀ r, m.elts.foldl (Ehdg.volumeKernel (M.env v) (fun e => M.data (dat e)) wet (M.state q)) (M.state r) = M.state (m.elts.foldl (Ehdg.volumeKernel v dat wet q) r) := by
    intro r
    refine (List.foldl_hom M.state fun r e => ?_)
    simp only [Ehdg.volumeKernel]
    rw [state_update]
    congr 1
    rw [apply_ite M.rows, rows_zero]
    congr 1
    exact volume_moved M v _ _
  have h2 : ∀ r, m.elts.foldl (sourceKernel (M.env v) (fun e => M.data (dat e)) wet t (M.state q)) (M.state r) = M.state (m.elts.foldl (sourceKernel v dat wet t q) r) := by
    intro r
    refine (List.foldl_hom M.state fun r e => ?_)
    simp only [sourceKernel]
    rw [apply_ite M.state, state_update, rows_add]
    congr 3
    exact sourceTerm_moved M v _ _ _
  have h3 : ∀ r, m.ints.foldl (Ehdg.interfaceKernel (M.env v) (fun e => M.data (dat e)) wet (M.state q) (turnFaces M x)) (M.state r) =
      M.state (m.ints.foldl (Ehdg.interfaceKernel v dat wet q x) r) := by
    intro r
    refine (List.foldl_hom M.state fun r i => ?_)
    have hJ : i.J (M.env v) (fun e => M.data (dat e)) = i.J v dat := J_moved M _ _ _
    have hr : i.rule (M.env v) (fun e => M.data (dat e)) = i.rule v dat := rfl
    simp only [Ehdg.interfaceKernel]
    by_cases hw : (wet i.ein || wet i.eex) = true
    · have hi : Ehdg.inTerm (M.env v) (fun e => M.data (dat e)) wet (M.state q) (turnFaces M x) i = M.rows (Ehdg.inTerm v dat wet q x i) := by
        unfold Ehdg.inTerm
        rw [hJ, hr]
        exact intFace_turned M v.N _ _ _ (fun gp => (faceFlux v dat wet q x i).1 gp) _ fun gp hg => (face_moved M v dat wet q x i hw gp hg).1
      have he : Ehdg.exTerm (M.env v) (fun e => M.data (dat e)) wet (M.state q) (turnFaces M x) i = M.rows (Ehdg.exTerm v dat wet q x i) := by
        unfold Ehdg.exTerm
        rw [hJ, hr]
        exact intFace_turned M v.N _ _ _ (fun gp => (faceFlux v dat wet q x i).2 gp) _ fun gp hg => (face_moved M v dat wet q x i hw gp hg).2
      rw [if_pos hw, if_pos hw, hi, he, subAt_moved, subAt_moved]
    · rw [if_neg hw, if_neg hw]
  have h4 : ∀ r, m.bnds.foldl (Ehdg.boundaryKernel (M.env v) (fun e => M.data (dat e)) wet (M.state q) (turnFaces M x)) (M.state r) =
      M.state (m.bnds.foldl (Ehdg.boundaryKernel v dat wet q x) r) := by
    intro r
    refine (List.foldl_hom M.state fun r b => ?_)
    have hb : Ehdg.bndTerm (M.env v) (fun e => M.data (dat e)) (M.state q) (turnFaces M x) b = M.rows (Ehdg.bndTerm v dat q x b) := by
      have hJ : surfaceJ (M.env v).sq (M.data (dat b.e)).elt.tri b.f = surfaceJ v.sq (dat b.e).elt.tri b.f := J_moved M _ _ _
      unfold Ehdg.bndTerm
      rw [hJ]
      refine intFace_moved M v.N _ _ _ (fun gp => Ehdg.bndFlux v dat q x b gp) _ fun gp => ?_
      have hn : normal (M.env v).sq (M.data (dat b.e)).elt.tri b.f = M.vec (normal v.sq (dat b.e).elt.tri b.f) := normal_moved M _ _ _
      have hq : ∀ z, qAt (M.env v).N (M.data (dat b.e)).elt (M.state q b.e) z = M.flow (qAt v.N (dat b.e).elt (q b.e) z) := qAt_moved M _ _ _
      simp only [Ehdg.bndFlux]
      rw [hn, hq]
      cases b.kind <;> first | exact land_boundary_moved M _ _ _ _ _ | rfl
    simp only [Ehdg.boundaryKernel]
    rw [apply_ite M.state, hb, subAt_moved]
  rw [h1, h2, h3, h4]

/-! ### Stages -/

/-- A stage with right-hand sides turned into each other. -/
theorem stageWith_moved (v : Env K) (dat : ℕ → EltData K) (m : Mesh K) (tab : Stepper.Tableau) (ns : ℕ) (dt : K) (w : Option (WdParams K))
    (rhs rhs' : (ℕ → Bool) → State K → State K) (hrhs : ∀ wet q, rhs' wet (M.state q) = M.state (rhs wet q)) (s : Run K) :
    stageWith (M.env v) (fun e => M.data (dat e)) m tab ns dt ⟨w, none⟩ rhs' (M.run s) = (stageWith v dat m tab ns dt ⟨w, none⟩ rhs s).map M.run := by
  unfold stageWith
  have hcur : (M.run s).slots[(M.run s).stage]? = s.slots[s.stage]?.map M.slot := List.getElem?_map ..
  rw [hcur]
  cases s.slots[s.stage]? with
  | none => rfl
  | some cur =>
    simp only [Option.map_some, slotOr, Swe.okBind]
    have h1 : (M.slot cur).q = M.state cur.q := rfl
    have h2 : (M.run s).wet = s.wet := rfl
    have h3 : (M.run s).stage = s.stage := rfl
    have h4 : (M.run s).slots = s.slots.map M.slot := rfl
    have h5 : (M.run s).emptied = s.emptied := rfl
    rw [h1, h2, h3, h4, h5, hrhs, solve_moved, setSolution_moved]
    cases Stepper.setSolution s.slots s.stage (solve v dat (rhs s.wet cur.q)) with
    | none => rfl
    | some l1 =>
      simp only [Option.map_some, slotOr, Swe.okBind]
      rw [updateState_moved]
      cases Stepper.updateState tab ns dt s.stage l1 with
      | none => rfl
      | some l2 =>
        simp only [Option.map_some, slotOr, Swe.okBind, List.getElem?_map]
        cases l2[(s.stage + 1) % ns]? with
        | none => rfl
        | some new =>
          simp only [Option.map_some, slotOr, Swe.okBind]
          have hwd := wd_moved M dat m w ⟨new.q, s.wet, s.emptied⟩
          have h6 : M.both ⟨new.q, s.wet, s.emptied⟩ = ⟨(M.slot new).q, s.wet, s.emptied⟩ := rfl
          rw [h6] at hwd
          rw [hwd]
          cases wdAll dat m w ⟨new.q, s.wet, s.emptied⟩ with
          | error e => rfl
          | ok f =>
            simp only [Except.map, Swe.okBind, slAll]
            have h7 : (M.both f).q = M.state f.q := rfl
            rw [h7, setQ_moved]
            cases Stepper.setQ l2 ((s.stage + 1) % ns) f.q with
            | none => rfl
            | some l3 => rfl

/-- C126: a run of any length of the explicit hybridized scheme on the mesh turned and shifted, from the initial data turned, gives the result turned; the flags are
the same, and one fails as the other does. No condition on the projection is needed, since this scheme does not scale its fluxes. -/
theorem ehdg_turned (v : Env K) (dat : ℕ → EltData K) (m : Mesh K) (tab : Stepper.Tableau) (ns : ℕ) (dt : K) (w : Option (WdParams K)) (junk : State K)
    (time : ℕ → K) (x : ℕ → Faces K) (n : ℕ) (s : Run K) :
    Ehdg.run (M.env v) (fun e => M.data (dat e)) m tab ns dt ⟨w, none⟩ (M.state junk) time (fun k => turnFaces M (x k)) n (M.run s) =
      (Ehdg.run v dat m tab ns dt ⟨w, none⟩ junk time x n s).map M.run := by
  induction n with
  | zero => rfl
  | succ n ih =>
    unfold Ehdg.run at ih ⊢
    simp only [runWith] at ih ⊢
    rw [ih]
    cases runWith v dat m tab ns dt ⟨w, none⟩ (fun k wet q => Ehdg.localRhs v dat m wet (time k) (x k) q junk) n s with
    | error e => rfl
    | ok y => exact stageWith_moved M v dat m tab ns dt w (fun wet q => Ehdg.localRhs v dat m wet (time n) (x n) q junk) (fun wet q => Ehdg.localRhs (M.env v) (fun e => M.data (dat e)) m wet (time n) (turnFaces M (x n)) q (M.state junk)) (fun wet q => rhs_moved M v dat m wet (time n) (x n) q junk) y

/-- Not vacuous: two triangles with a hump of water, turned by the angle with cosine 3/5: the discharge after a stage is not zero and is turned. -/
example : ((do
      let s ← Ehdg.run (pythagoras.env (plainEnv simpleN simpleSq)) (fun e => pythagoras.data (twoTris 1 (fun _ d => if d = 0 then 1 else 0) e)) twoMesh Stepper.tab11 1 (1 / 10)
        ⟨none, none⟩ (pythagoras.state 0) (fun _ => 0) (fun _ => turnFaces pythagoras ⟨fun _ _ => 0, fun _ _ => 0, fun _ _ => 0⟩) 1 (pythagoras.run ⟨[⟨hump, 0⟩, ⟨0, 0⟩], 0, fun _ => true, false⟩)
      let c ← slotOr s.slots[0]?
      let s' ← Ehdg.run (plainEnv simpleN simpleSq) (twoTris 1 fun _ d => if d = 0 then 1 else 0) twoMesh Stepper.tab11 1 (1 / 10)
        ⟨none, none⟩ 0 (fun _ => 0) (fun _ => ⟨fun _ _ => 0, fun _ _ => 0, fun _ _ => 0⟩) 1 ⟨[⟨hump, 0⟩, ⟨0, 0⟩], 0, fun _ => true, false⟩
      let c' ← slotOr s'.slots[0]?
      return decide (c.q 0 1 0 ≠ 0 ∧ c.q 0 1 0 = 3 / 5 * c'.q 0 1 0 - 4 / 5 * c'.q 0 2 0)) : Res Bool) = .ok true := by decide +kernel

end Verif.Ehdg.Props
