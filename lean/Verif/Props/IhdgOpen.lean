import Verif.Props.IhdgNewton
import Verif.Props.FreeStream

/-!
# C83: where the matrices are derivatives, and open boundaries, where they are not
-/

namespace Verif.Ihdg.Props
open Verif.Swe Verif.Swe.Props Verif.Geometry Verif.Geometry.Props Verif.Element Verif.Edge Verif.Edge.Props Verif.Ehdg Verif.Ehdg.Props Matrix

variable {S : Scheme ℝ}

/-! ### When the coded derivative of the source is one -/

/-- Over a flat bed, without friction. -/
theorem source_ok_plain (hb : S.v.src.bottomFriction = false) {d : EltData ℝ} (u : Fin 3 → ℕ → ℝ)
    (hd : ∀ wz ∈ d.elt.gps S.v.N, ∀ dir, d.elt.deriv S.v.N dir d.bath wz.2 = 0) : SourceOk S d u := by
  intro wz hwz a v
  simp only [hd wz hwz, dsrcAt, dsource, hb, getSource, Bool.false_eq_true, if_false, zero_mul, mul_zero]
  refine (hasDerivAt_const _ _).congr_deriv ?_
  fin_cases a <;> fin_cases v <;> rfl

/-- Over a flat bed, with friction, in moving water. -/
theorem source_ok_friction (hsq : S.v.sq = Real.sqrt) (hcb : S.v.cb = cbrt) (hb : S.v.src.bottomFriction = true) {d : EltData ℝ} {u : Fin 3 → ℕ → ℝ}
    (hd : ∀ wz ∈ d.elt.gps S.v.N, ∀ dir, d.elt.deriv S.v.N dir d.bath wz.2 = 0) (hw : WetIn S d u)
    (hq : ∀ wz ∈ d.elt.gps S.v.N, (qAt S.v.N d.elt u wz.2).qx ≠ 0 ∨ (qAt S.v.N d.elt u wz.2).qy ≠ 0)
    (hs : ∀ wz ∈ d.elt.gps S.v.N, Smooth S.v.src d.src ((qAt S.v.N d.elt u wz.2).ze + d.elt.value S.v.N d.bath wz.2))
    (hC : ∀ wz ∈ d.elt.gps S.v.N, 0 < frictionCf cbrt S.v.src d.src ((qAt S.v.N d.elt u wz.2).ze + d.elt.value S.v.N d.bath wz.2)) :
    SourceOk S d u := by
  intro wz hwz a v
  obtain ⟨D, h1, h2⟩ := source_derivative_partial S.v.src d.src (S.v.fs S.tn (localToGlobal d.elt.tri wz.2)) (qAt S.v.N d.elt u wz.2)
    (d.elt.value S.v.N d.bath wz.2) (S.v.sp (localToGlobal d.elt.tri wz.2)) ⟨0, 0⟩ hb (hw wz hwz) (hq wz hwz) (hs wz hwz) (hC wz hwz)
  simp only [mul_zero, add_zero] at h2
  have h3 : dsrcAt S d u wz.2 = !![0, 0, 0; D.qx_ze, D.qx_qx, D.qx_qy; D.qy_ze, D.qy_qx, D.qy_qy] := by
    have h3 : dsource S.v.sq S.v.cb S.v.src d.src (inner S d u wz.2).1 (inner S d u wz.2).2 = some D := by
      rw [hsq, hcb]; exact h1
    unfold dsrcAt
    simp only
    rw [h3]
  rw [h3]
  simp only [hd wz hwz, hsq, hcb]
  have hz : ∀ q (x : Aux ℝ), (getSource Real.sqrt cbrt S.v.src d.src (S.v.fs S.tn (localToGlobal d.elt.tri wz.2)) q x ⟨0, 0⟩).ze =
      if S.v.src.functionSource then 0 + (S.v.fs S.tn (localToGlobal d.elt.tri wz.2)).ze else 0 := by
    intro q x
    simp only [getSource, hb, if_true]
    split_ifs <;> simp [HAdd.hAdd, Add.add, HSub.hSub, Sub.sub]
  rcases (by fin_cases a <;> simp : a = 0 ∨ a = 1 ∨ a = 2) with rfl | rfl | rfl
  · refine HasDerivAt.congr_deriv (f' := 0) ?_ (by fin_cases v <;> rfl)
    refine (hasDerivAt_const _ (if S.v.src.functionSource then 0 + (S.v.fs S.tn (localToGlobal d.elt.tri wz.2)).ze else 0)).congr_of_eventuallyEq (.of_forall fun y => ?_)
    exact hz _ _
  · rcases (by fin_cases v <;> simp : v = 0 ∨ v = 1 ∨ v = 2) with rfl | rfl | rfl
    · exact h2.qx_ze
    · exact h2.qx_qx
    · exact h2.qx_qy
  · rcases (by fin_cases v <;> simp : v = 0 ∨ v = 1 ∨ v = 2) with rfl | rfl | rfl
    · exact h2.qy_ze
    · exact h2.qy_qx
    · exact h2.qy_qy

/-! ### Tide and flow boundaries -/

/-- The first row of A- in subcritical flow. -/
theorem aminus_row {g b : ℝ} (sp : ℝ) {p : Q ℝ} (n : P2 ℝ)
    (h1 : speeds Real.sqrt g p b n 0 < 0) (h3 : 0 < speeds Real.sqrt g p b n 2) (j : Fin 3) :
    getAminus Real.sqrt g p ⟨b, p.ze + b, sp⟩ n 0 j = speeds Real.sqrt g p b n 0 *
      invR Real.sqrt g (p.ze + b) (p.qx / (p.ze + b)) (p.qy / (p.ze + b)) n 0 j := by
  obtain ⟨d1, d2⟩ := matL_diag Real.sqrt g p ⟨b, p.ze + b, sp⟩ rfl n
  simp only [getAminus]
  rw [d1, d2, Matrix.diagonal_sub, Matrix.mul_apply, Fin.sum_univ_three]
  simp only [Matrix.mul_diagonal, Matrix.smul_apply, smul_eq_mul, abs_of_neg h1, abs_of_pos h3]
  simp [matR]
  exact Or.inl (by ring)

/-- With the exterior state moving along. -/
theorem gap_by_both (g : ℝ) (n : P2 ℝ) (b : ℝ) (q p : Q ℝ) (E : Q ℝ → Q ℝ) (δ : Fin 3 → ℝ) (a v : Fin 3)
    (hE : ∀ k, HasDerivAt (fun y => comp (E (setVar q v y)) k) (δ k) (getVar q v)) :
    HasDerivAt (fun y => gap Real.sqrt g n b (setVar q v y) (E (setVar q v y)) p a)
      (getAplus Real.sqrt g p ⟨b, p.ze + b, 1⟩ n a v - ∑ k, getAminus Real.sqrt g p ⟨b, p.ze + b, 1⟩ n a k * δ k) (getVar q v) := by
  simp only [gap, Pi.sub_apply, mulVec, dotProduct, Fin.sum_univ_three]
  have hk : ∀ k, HasDerivAt (fun x => getAplus Real.sqrt g p ⟨b, p.ze + b, 1⟩ n a k * (comp (setVar q v x) k - comp p k))
      (getAplus Real.sqrt g p ⟨b, p.ze + b, 1⟩ n a k * kron k v) (getVar q v) := fun k => ((comp_deriv q k v).sub_const _).const_mul _
  have hm : ∀ k, HasDerivAt (fun x => getAminus Real.sqrt g p ⟨b, p.ze + b, 1⟩ n a k * (comp (E (setVar q v x)) k - comp p k))
      (getAminus Real.sqrt g p ⟨b, p.ze + b, 1⟩ n a k * δ k) (getVar q v) := fun k => ((hE k).sub_const _).const_mul _
  refine ((((hk 0).add (hk 1)).add (hk 2)).sub (((hm 0).add (hm 1)).add (hm 2))).congr_deriv ?_
  fin_cases v <;> simp [kron]

/-- The variables which a boundary prescribes by the state of the interior: the discharge at a tide boundary, the water level at a flow boundary. -/
def follows : BndKind ℝ → Fin 3 → Bool
  | .tide _, v => v ≠ 0
  | .flow _, v => v = 0
  | _, _ => false

theorem exterior_by_state {b : Bnd ℝ} (hk : (∃ cs, b.kind = .tide cs) ∨ ∃ cs, b.kind = .flow cs) (q : State ℝ) (c : Coef ℝ) (hsq : S.v.sq = Real.sqrt) (gp : ℕ) {j : ℕ}
    (hj : j < ndof (S.dat b.e).elt.p) (a v : Fin 3) :
    HasDerivAt (fun x => comp (gRhs S (setQ q b.e v j x) (.bnd b) c gp) a)
      ((gDelta S q (.bnd b) c ⟨b.e, b.f, false⟩ gp a v - (if follows b.kind v then
        getAminus Real.sqrt S.v.src.g (hat S (.bnd b) c gp) ⟨bathAt S (.bnd b) gp, (hat S (.bnd b) c gp).ze + bathAt S (.bnd b) gp, 1⟩ (nrm S (.bnd b)) a v else 0)) *
        S.v.N.basis.phi j (facePt (rule S (.bnd b)) b.f gp)) (q b.e v j) := by
  have hcase : ∀ (E : Q ℝ → Q ℝ) (δ : Fin 3 → ℝ), (∀ q, exterior S q b gp = E (sideQ S q (.bnd b) ⟨b.e, b.f, false⟩ gp)) →
      (∀ k, HasDerivAt (fun y => comp (E (setVar (sideQ S q (.bnd b) ⟨b.e, b.f, false⟩ gp) v y)) k) (δ k) (getVar (sideQ S q (.bnd b) ⟨b.e, b.f, false⟩ gp) v)) →
      (gDelta S q (.bnd b) c ⟨b.e, b.f, false⟩ gp a v = getAplus Real.sqrt S.v.src.g (hat S (.bnd b) c gp)
        ⟨bathAt S (.bnd b) gp, (hat S (.bnd b) c gp).ze + bathAt S (.bnd b) gp, 1⟩ (nrm S (.bnd b)) a v) →
      (∀ q, comp (gRhs S q (.bnd b) c gp) = gap Real.sqrt S.v.src.g (nrm S (.bnd b)) (bathAt S (.bnd b) gp) (sideQ S q (.bnd b) ⟨b.e, b.f, false⟩ gp)
        (exterior S q b gp) (hat S (.bnd b) c gp)) →
      HasDerivAt (fun x => comp (gRhs S (setQ q b.e v j x) (.bnd b) c gp) a)
        ((gDelta S q (.bnd b) c ⟨b.e, b.f, false⟩ gp a v - ∑ k, getAminus Real.sqrt S.v.src.g (hat S (.bnd b) c gp)
          ⟨bathAt S (.bnd b) gp, (hat S (.bnd b) c gp).ze + bathAt S (.bnd b) gp, 1⟩ (nrm S (.bnd b)) a k * δ k) *
          S.v.N.basis.phi j (facePt (rule S (.bnd b)) b.f gp)) (q b.e v j) := by
    intro E δ hE hδ hD hG
    have h1 := gap_by_both S.v.src.g (nrm S (.bnd b)) (bathAt S (.bnd b) gp) (sideQ S q (.bnd b) ⟨b.e, b.f, false⟩ gp) (hat S (.bnd b) c gp) E δ a v hδ
    have h2 := deriv_chain (x0 := q b.e v j) (f := S.v.N.basis.phi j (facePt (rule S (.bnd b)) b.f gp))
      (G := fun p => gap Real.sqrt S.v.src.g (nrm S (.bnd b)) (bathAt S (.bnd b) gp) p (E p) (hat S (.bnd b) c gp) a) h1
    simp only [hG, hE, hD, sideQ_setQ (s := ⟨b.e, b.f, false⟩) (ed := .bnd b) (q := q) v hj _ gp rfl]
    exact h2
  rcases hk with ⟨cs, hk⟩ | ⟨cs, hk⟩
  · refine (hcase (fun x => ⟨forcingIter S.v.cos S.rampn S.tn (cs gp), x.qx, x.qy⟩) (fun k => if v = 0 then 0 else kron k v) (fun q => by simp only [exterior, hk]) ?_
      (by simp only [gDelta, hk, hsq]; rfl) (fun q => by simp only [gRhs, hk, kernel_gap, hsq]; rfl)).congr_deriv ?_
    · intro k
      by_cases hv : v = 0
      · subst hv
        simp only [if_true]
        fin_cases k <;> exact hasDerivAt_const _ _
      · rw [if_neg hv]
        fin_cases k
        · refine (hasDerivAt_const _ _).congr_deriv ?_
          simp only [kron]; rw [if_neg]; exact fun h => hv h.symm
        · exact qx_deriv _ v
        · exact qy_deriv _ v
    · congr 2
      rw [Fin.sum_univ_three, hk]
      rcases (by fin_cases v <;> simp : v = 0 ∨ v = 1 ∨ v = 2) with rfl | rfl | rfl <;> simp [follows, kron]
  · refine (hcase (fun x => ⟨x.ze, forcingIter S.v.cos S.rampn S.tn (cs gp) * (nrm S (.bnd b)).x, forcingIter S.v.cos S.rampn S.tn (cs gp) * (nrm S (.bnd b)).y⟩)
      (fun k => if v = 0 then kron k 0 else 0) (fun q => by simp only [exterior, hk]) ?_
      (by simp only [gDelta, hk, hsq]; rfl) (fun q => by simp only [gRhs, hk, kernel_gap, hsq]; rfl)).congr_deriv ?_
    · intro k
      fin_cases k
      · refine (ze_deriv _ v).congr_deriv ?_
        rcases (by fin_cases v <;> simp : v = 0 ∨ v = 1 ∨ v = 2) with rfl | rfl | rfl <;> simp [kron]
      · refine (hasDerivAt_const _ _).congr_deriv ?_
        simp [kron]
      · refine (hasDerivAt_const _ _).congr_deriv ?_
        simp [kron]
    · congr 2
      rw [Fin.sum_univ_three, hk]
      rcases (by fin_cases v <;> simp : v = 0 ∨ v = 1 ∨ v = 2) with rfl | rfl | rfl <;> simp [follows, kron]

/-- C83, negation: at a tide or flow boundary with a wet trace in subcritical flow the matrices are not minus the derivatives of the right-hand sides. -/
theorem open_boundary_wrong (hsq : S.v.sq = Real.sqrt) (hg : 0 < S.v.src.g) (hphi : ∀ z, S.v.N.basis.phi 0 z = 1) (hn : (skel S).edges.flatten.Nodup)
    {k : ℕ} (hk : k < (edgesOf S.m).length) {b : Bnd ℝ} (hb : (edgesOf S.m)[k] = .bnd b) (he : b.e ∈ S.m.elts)
    (hkind : (∃ cs, b.kind = .tide cs) ∨ ∃ cs, b.kind = .flow cs) (hE : Fits (tab S (.bnd b))) (hu : Swe.Props.Unit (nrm S (.bnd b))) {it : Iter ℝ} {gp : ℕ}
    (hgp : gp < (rule S (.bnd b)).length) (hw : 0 < (hat S (.bnd b) (it.hat k) gp).ze + bathAt S (.bnd b) gp)
    (h1 : speeds Real.sqrt S.v.src.g (hat S (.bnd b) (it.hat k) gp) (bathAt S (.bnd b) gp) (nrm S (.bnd b)) 0 < 0)
    (h3 : 0 < speeds Real.sqrt S.v.src.g (hat S (.bnd b) (it.hat k) gp) (bathAt S (.bnd b) gp) (nrm S (.bnd b)) 2) (q0 : State ℝ) (prev : ℕ → ℕ → ℝ) :
    ¬ IsNewton S q0 prev it := by
  intro hI
  have hk' : k < (skel S).edges.length := by simpa [skel] using hk
  have hnd : 0 < ndof (S.dat b.e).elt.p := ndof_pos _
  have hzero : ∀ v, follows b.kind v = true → getAminus Real.sqrt S.v.src.g (hat S (.bnd b) (it.hat k) gp)
      ⟨bathAt S (.bnd b) gp, (hat S (.bnd b) (it.hat k) gp).ze + bathAt S (.bnd b) gp, 1⟩ (nrm S (.bnd b)) 0 v = 0 := by
    intro v hv
    have hp := hE.points (fun gp => getAminus Real.sqrt S.v.src.g (hat S (.bnd b) (it.hat k) gp)
      ⟨bathAt S (.bnd b) gp, (hat S (.bnd b) (it.hat k) gp).ze + bathAt S (.bnd b) gp, 1⟩ (nrm S (.bnd b)) 0 v * ((tab S (.bnd b)).w gp * (tab S (.bnd b)).J)) ?_ gp hgp
    · exact (mul_eq_zero.1 hp).resolve_right (hE.pos gp hgp).ne'
    intro i hi
    have hes : (skel S).esize k = 3 * (tab S (.bnd b)).ndof := by rw [esize_eq hk, hb]
    have hA := hI.edge_elt k hk' b.e he i 0 (by rw [hes]; omega) hnd 0 v
    rw [skel_filter hk' b.e fun f => (blocks S q0 prev it).dg b.e f (3 * i + (0 : Fin 3).val) (3 * 0 + v.val)] at hA
    simp only [hb, Edg.sides, List.filter_cons, decide_true, if_true, List.filter_nil, List.map_cons, List.map_nil, List.sum_cons, List.sum_nil, add_zero] at hA
    simp only [rg_eq _ _ _ hk, hb] at hA
    have hB := (HasDerivAt.fun_sum (u := Finset.range (rule S (.bnd b)).length)
      (A := fun gp x => comp (gRhs S (setQ it.q b.e v 0 x) (.bnd b) (it.hat k) gp) 0 * intLam (tab S (.bnd b)) gp i)
      fun gp hgp => (exterior_by_state hkind it.q (it.hat k) hsq gp hnd 0 v).mul_const (intLam (tab S (.bnd b)) gp i)).neg
    have heq := hA.unique hB
    have hs : (⟨b.e, b.f, false⟩ : Sd) ∈ (edgesOf S.m)[k].sides := by rw [hb]; simp [Edg.sides]
    have hbf := byFace_at S (fun ed k s => sideDg S it.q ed (it.hat k) s) (fun _ _ => 0) hn hk hs
    simp only at hbf
    have hpos : 0 < (tab S (.bnd b)).ndof := by omega
    simp only [hb] at hbf
    simp only [blocks, hbf, sideDg, block_entry, row_div, intPhiLam, hphi, hv, if_true, mul_one] at heq
    rw [neg_inj, show (tab S (.bnd b)).ngp = (rule S (.bnd b)).length from rfl, ← sub_eq_zero, ← Finset.sum_sub_distrib] at heq
    rw [← heq]
    refine Finset.sum_congr rfl fun gp _ => ?_
    simp only [flatten, Nat.mul_zero, Nat.zero_add, Nat.div_eq_of_lt hi, Nat.mod_eq_of_lt hi, hphi, one_mul]
    rw [show opp S (.bnd b) ⟨b.e, b.f, false⟩ gp = gp from rfl, intLam]
    ring
  have hrow := fun v => aminus_row (g := S.v.src.g) (b := bathAt S (.bnd b) gp) 1 (p := hat S (.bnd b) (it.hat k) gp) (nrm S (.bnd b)) h1 h3 v
  obtain ⟨hc, -⟩ := cel_sq real_isSqrt hg hw
  have hinv : ∀ v, follows b.kind v = true → invR Real.sqrt S.v.src.g ((hat S (.bnd b) (it.hat k) gp).ze + bathAt S (.bnd b) gp)
      ((hat S (.bnd b) (it.hat k) gp).qx / ((hat S (.bnd b) (it.hat k) gp).ze + bathAt S (.bnd b) gp))
      ((hat S (.bnd b) (it.hat k) gp).qy / ((hat S (.bnd b) (it.hat k) gp).ze + bathAt S (.bnd b) gp)) (nrm S (.bnd b)) 0 v = 0 := by
    intro v hv
    have := hzero v hv
    rw [hrow] at this
    exact (mul_eq_zero.1 this).resolve_left h1.ne
  have h2c : 2 * cel Real.sqrt S.v.src.g ((hat S (.bnd b) (it.hat k) gp).ze + bathAt S (.bnd b) gp) ≠ 0 := by positivity
  rcases hkind with ⟨cs, hkd⟩ | ⟨cs, hkd⟩
  · have hx := hinv 1 (by rw [hkd]; rfl)
    have hy := hinv 2 (by rw [hkd]; rfl)
    simp [invR, hc.ne'] at hx hy
    have : (nrm S (.bnd b)).x ^ 2 + (nrm S (.bnd b)).y ^ 2 = 1 := hu
    rw [hx, hy] at this
    norm_num at this
  · have hx := hinv 0 (by rw [hkd]; rfl)
    simp [invR, hc.ne'] at hx
    have e : vn ((hat S (.bnd b) (it.hat k) gp).qx / ((hat S (.bnd b) (it.hat k) gp).ze + bathAt S (.bnd b) gp))
      ((hat S (.bnd b) (it.hat k) gp).qy / ((hat S (.bnd b) (it.hat k) gp).ze + bathAt S (.bnd b) gp)) (nrm S (.bnd b)) =
      ((hat S (.bnd b) (it.hat k) gp).qx * (nrm S (.bnd b)).x + (hat S (.bnd b) (it.hat k) gp).qy * (nrm S (.bnd b)).y) /
        ((hat S (.bnd b) (it.hat k) gp).ze + bathAt S (.bnd b) gp) := by simp only [vn]; ring
    simp only [speeds] at h3
    rw [e] at hx
    simp [cel] at hx h3
    linarith

/-! ### Constant states and traces -/

theorem value_first {N : Numerics ℝ} (h0 : ∀ z, N.basis.phi 0 z = 1) (e : Elt ℝ) {u : ℕ → ℝ} {x : ℝ} (hu : ∀ d < ndof e.p, u d = if d = 0 then x else 0) (z : P2 ℝ) :
    e.value N u z = x := by
  unfold Elt.value
  rw [sum_range_list, Finset.sum_eq_single 0]
  · rw [hu 0 (ndof_pos _), if_pos rfl, h0, mul_one]
  · intro d hd h
    rw [hu d (Finset.mem_range.1 hd), if_neg h, zero_mul]
  · intro h
    exact absurd (Finset.mem_range.2 (ndof_pos _)) h

theorem deriv_first {N : Numerics ℝ} (hN : MassNumerics N) (e : Elt ℝ) {u : ℕ → ℝ} {x : ℝ} (hu : ∀ d < ndof e.p, u d = if d = 0 then x else 0) (dir : ℕ) (z : P2 ℝ) :
    e.deriv N dir u z = 0 := by
  unfold Elt.deriv
  rw [sum_range_list]
  refine Finset.sum_eq_zero fun d hd => ?_
  rw [hu d (Finset.mem_range.1 hd)]
  by_cases h : d = 0
  · subst h
    unfold Elt.dphi
    rw [hN.dphi10, hN.dphi20]; ring
  · rw [if_neg h, zero_mul]

theorem hat_const {ed : Edg ℝ} {gp : ℕ} (hgp : gp < (rule S ed).length) (U : Q ℝ) : hat S ed (constCoef U) gp = U := by
  apply comp_inj
  rw [hat, comp_ofComp]
  funext v
  simp only [ugp, constCoef, tab, tables]
  rw [Finset.sum_eq_single 0]
  · simp [Basis.legendre, Basis.jacobi]
  · intro k _ hk
    simp [hk]
  · intro h
    simp at h
    rw [h] at hgp
    simp at hgp

theorem code_rule (rd : ℝ → ℝ) (p : ℕ) : faceRule (codeNumerics rd) p = codeRule p := by
  unfold faceRule codeNumerics codeRule
  rfl

/-- The tables of the program suit the edges. -/
theorem tab_fits {rd : ℝ → ℝ} (hv : S.v.N = codeNumerics rd) {ed : Edg ℝ} (hp : ed.p S.dat ≤ 32) (hJ : 0 < surf S ed) : Fits (tab S ed) := by
  unfold tab rule
  rw [hv, code_rule]
  exact tables_fit hp hJ true

/-! ### Cases -/

/-- A backward Euler step of the program over two triangles, with any solvers. -/
noncomputable def twoScheme (m : Mesh ℝ) (I : Inverse ℝ) (slv : Solver ℝ) : Scheme ℝ :=
  ⟨plainEnv (codeNumerics id) Real.sqrt, twoTris 2 flat3, m, 1, 0, false, 0, 1, 1, I, slv, fun _ _ _ => 0, fun _ _ => 0, fun _ _ => ⟨0, 0, 0⟩⟩

/-- Everywhere the state `U`. -/
def sameIter (U : Q ℝ) : Iter ℝ := ⟨fun _ var d => if d = 0 then comp U var else 0, fun _ => constCoef U⟩

theorem flat3_value (m : Mesh ℝ) (I : Inverse ℝ) (slv : Solver ℝ) (e : ℕ) (z : P2 ℝ) :
    (twoTris 2 flat3 e).elt.value (twoScheme m I slv).v.N (twoTris 2 flat3 e).bath z = 3 :=
  value_first (code_mass Basis.Props.rounding_id).phi0 _ (fun _ _ => rfl) z

theorem flat3_bath (m : Mesh ℝ) (I : Inverse ℝ) (slv : Solver ℝ) (ed : Edg ℝ) (gp : ℕ) : bathAt (twoScheme m I slv) ed gp = 3 := by
  cases ed with
  | int i =>
    simp only [bathAt, bathHat, sideBath]
    rw [show (twoScheme m I slv).dat = twoTris 2 flat3 from rfl, flat3_value, flat3_value]
    norm_num
  | bnd b =>
    simp only [bathAt, sideBath]
    rw [show (twoScheme m I slv).dat = twoTris 2 flat3 from rfl, flat3_value]

/-- A basin with land around, over a flat bed, with the water moving everywhere in the same direction. -/
example (I : Inverse ℝ) (slv : Solver ℝ) (q0 : State ℝ) (prev : ℕ → ℕ → ℝ) : IsNewton (twoScheme twoMesh I slv) q0 prev (sameIter ⟨1 / 2, 2, 1⟩) := by
  have hN := code_mass Basis.Props.rounding_id
  have hq : ∀ e z, qAt (twoScheme twoMesh I slv).v.N (twoTris 2 flat3 e).elt ((sameIter ⟨1 / 2, 2, 1⟩).q e) z = ⟨1 / 2, 2, 1⟩ := by
    intro e z
    unfold qAt
    have h := fun var => value_first (u := (sameIter ⟨1 / 2, 2, 1⟩).q e var) hN.phi0 (twoTris 2 flat3 e).elt (fun d _ => rfl) z
    exact congr (congr (congrArg Q.mk (h 0)) (h 1)) (h 2)
  refine newton_matrices_partial (S := twoScheme twoMesh I slv) rfl (by norm_num [twoScheme, plainEnv]) ?_ (fun ed _ gp hgp => hN.sym (2 * ed.p (twoTris 2 flat3) + 1) gp hgp) ?_ ?_ ?_ ?_ q0 prev
  · show (List.flatten _).Nodup
    simp [skel, edgesOf, twoScheme, twoMesh, Edg.sides]
  · intro ed hed
    rcases (by simpa [edgesOf, twoScheme, twoMesh] using hed : ed = _ ∨ ed = _ ∨ ed = _ ∨ ed = _ ∨ ed = _) with rfl | rfl | rfl | rfl | rfl <;> simp [Plain]
  · intro e _ wz _
    rw [show (twoScheme twoMesh I slv).dat = twoTris 2 flat3 from rfl, flat3_value, hq]
    norm_num
  · intro e _
    exact source_ok_plain rfl _ fun wz _ dir => deriv_first hN _ (fun _ _ => rfl) dir _
  · intro k hk gp hgp
    rw [flat3_bath, sameIter, hat_const hgp]
    norm_num

/-- The channel, whose ends are open, already when the water stands still. -/
example (I : Inverse ℝ) (slv : Solver ℝ) (q0 : State ℝ) (prev : ℕ → ℕ → ℝ) : ¬ IsNewton (twoScheme channel I slv) q0 prev (sameIter ⟨1 / 2, 0, 0⟩) := by
  have hN := code_mass Basis.Props.rounding_id
  have hk : 1 < (edgesOf (twoScheme channel I slv).m).length := by simp [edgesOf, twoScheme, channel]
  have hJ : 0 < jdet (twoTris 2 flat3 0).elt.tri := (two_closed id 2 flat3).ccw 0 (by simp [twoMesh])
  have hlen : (codeRule 2).length = 3 := by
    obtain ⟨r, hr, -⟩ := (Quadrature.Props.line_rules (2 * 2 + 1)).2 (by omega)
    simp only [codeRule, hr, Option.getD_some, List.length_map, ndof_rows hr]
  have hgp : 0 < (rule (twoScheme channel I slv) (.bnd ⟨0, 1, .flow fun _ => [⟨0, 1, 0, -2, 0⟩]⟩)).length := by
    show 0 < (faceRule (codeNumerics id) 2).length
    rw [code_rule, hlen]; norm_num
  have hh := hat_const (S := twoScheme channel I slv) hgp ⟨1 / 2, 0, 0⟩
  have hc : (0 : ℝ) < Real.sqrt (10 * (1 / 2 + 3)) := Real.sqrt_pos.2 (by norm_num)
  refine open_boundary_wrong (S := twoScheme channel I slv) (k := 1) (b := ⟨0, 1, .flow fun _ => [⟨0, 1, 0, -2, 0⟩]⟩) (gp := 0) rfl (by norm_num [twoScheme, plainEnv]) hN.phi0 ?_ hk rfl
    (by simp [twoScheme, channel]) (Or.inr ⟨_, rfl⟩) (tab_fits rfl (by norm_num [Edg.p, twoScheme, twoTris]) ?_) (normal_spec real_isSqrt _ hJ 1 (by norm_num)).1 hgp ?_ ?_ ?_ q0 prev
  · simp [skel, edgesOf, twoScheme, channel, Edg.sides]
  · simp only [surf, surfaceJ, twoScheme, plainEnv, Edg.own, twoTris, vertex]
    exact div_pos (Real.sqrt_pos.2 (by norm_num)) two_pos
  · rw [flat3_bath]
    simp only [sameIter]
    rw [hh]; norm_num
  · rw [flat3_bath]
    simp only [sameIter]
    rw [hh]
    show (0 * _ + 0 * _) / _ - Real.sqrt (10 * (1 / 2 + 3)) < 0
    rw [zero_mul, zero_mul, add_zero, zero_div]
    linarith
  · rw [flat3_bath]
    simp only [sameIter]
    rw [hh]
    show 0 < (0 * _ + 0 * _) / _ + Real.sqrt (10 * (1 / 2 + 3))
    rw [zero_mul, zero_mul, add_zero, zero_div]
    linarith

end Verif.Ihdg.Props
