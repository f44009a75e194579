import Verif.Lemmas.Ihdg
import Verif.Props.SourceDeriv
import Verif.Props.MeanDeriv

/-!
# C83: the matrices of the implicit discretization are the derivatives of its right-hand sides
-/

namespace Verif.Ihdg.Props
open Verif.Swe Verif.Swe.Props Verif.Geometry Verif.Geometry.Props Verif.Element Verif.Edge Verif.Edge.Props Verif.Ehdg Verif.Ehdg.Props Matrix

/-! ### Tools -/

theorem deriv_list {α : Type} (l : List α) (f : α → ℝ → ℝ) (f' : α → ℝ) {x : ℝ} (h : ∀ a ∈ l, HasDerivAt (f a) (f' a) x) :
    HasDerivAt (fun y => (l.map fun a => f a y).sum) (l.map f').sum x := by
  induction l with
  | nil => simpa using hasDerivAt_const x (0 : ℝ)
  | cons a l ih =>
    simp only [List.map_cons, List.sum_cons]
    exact (h a (by simp)).add (ih fun b hb => h b (by simp [hb]))

theorem deriv_chain {G : Q ℝ → ℝ} {q : Q ℝ} {v : Fin 3} {D f x0 : ℝ} (h : HasDerivAt (fun y => G (setVar q v y)) D (getVar q v)) :
    HasDerivAt (fun x => G (setVar q v (getVar q v + (x - x0) * f))) (D * f) x0 := by
  have hin : HasDerivAt (fun x : ℝ => getVar q v + (x - x0) * f) f x0 := by
    have := (((hasDerivAt_id x0).sub_const x0).mul_const f).const_add (getVar q v)
    simpa using this
  have e : getVar q v + (x0 - x0) * f = getVar q v := by ring
  exact HasDerivAt.comp x0 (h := fun x : ℝ => getVar q v + (x - x0) * f) (by rw [e]; exact h) hin

theorem comp_deriv (q : Q ℝ) (k j : Fin 3) : HasDerivAt (fun x => comp (setVar q j x) k) (kron k j) (getVar q j) := by
  fin_cases k
  · exact ze_deriv _ j
  · exact qx_deriv _ j
  · exact qy_deriv _ j

theorem comp_add (q r : Q ℝ) : comp (q + r) = comp q + comp r := by
  funext i; fin_cases i <;> rfl

theorem comp_neg (q : Q ℝ) : comp (-q) = -comp q := by
  funext i; fin_cases i <;> rfl

/-- The state with one coefficient of element `e` changed. -/
def setQ (q : State ℝ) (e : ℕ) (v : Fin 3) (dof : ℕ) (x : ℝ) : State ℝ := Function.update q e (setCoef (q e) v dof x)

theorem value_setCoef (N : Numerics ℝ) (e : Elt ℝ) (u : Fin 3 → ℕ → ℝ) (v : Fin 3) {j : ℕ} (hj : j < ndof e.p) (x : ℝ) (z : P2 ℝ) :
    qAt N e (setCoef u v j x) z = setVar (qAt N e u z) v (getVar (qAt N e u z) v + (x - u v j) * N.basis.phi j z) := by
  have h1 : ∀ w : Fin 3, w ≠ v → setCoef u v j x w = u w := fun w hw => Function.update_of_ne hw _ _
  have h2 : e.value N (setCoef u v j x v) z = e.value N (u v) z + (x - u v j) * N.basis.phi j z := by
    simp only [Elt.value, setCoef, Function.update_self]
    rw [sum_range_list, sum_range_list, ← Finset.add_sum_erase _ _ (Finset.mem_range.2 hj), ← Finset.add_sum_erase (Finset.range (ndof e.p)) (fun k => u v k * N.basis.phi k z)
      (Finset.mem_range.2 hj), Function.update_self]
    rw [Finset.sum_congr rfl fun k hk => by rw [Function.update_of_ne (Finset.ne_of_mem_erase hk)]]
    ring
  rcases (by fin_cases v <;> simp : v = 0 ∨ v = 1 ∨ v = 2) with rfl | rfl | rfl
  · simp only [qAt, setVar, getVar]
    simp [h2, h1 1 (by decide), h1 2 (by decide)]
  · simp only [qAt, setVar, getVar]
    simp [h2, h1 0 (by decide), h1 2 (by decide)]
  · simp only [qAt, setVar, getVar]
    simp [h2, h1 0 (by decide), h1 1 (by decide)]

/-! ### The flux of a side -/

/-- The numerical flux of a side for interior state `q` and trace `p` over the bathymetry `b`; `ex` if the normal points into the element. -/
noncomputable def traceFlux (ex : Bool) (g b : ℝ) (n : P2 ℝ) (q p : Q ℝ) : Q ℝ :=
  (if ex then -fluxN g p ⟨b, p.ze + b, 1⟩ n else fluxN g p ⟨b, p.ze + b, 1⟩ n) + mulQ (tauLF Real.sqrt g p ⟨b, p.ze + b, 1⟩ n) (q - p)

theorem traceFlux_by_trace (ex : Bool) {g b : ℝ} (hg : 0 < g) {n : P2 ℝ} (q p : Q ℝ) (hw : 0 < p.ze + b) (a v : Fin 3) :
    MeanDeriv (fun y => comp (traceFlux ex g b n q (setVar p v y)) a)
      (((if ex then -dFnDq g p ⟨b, p.ze + b, 1⟩ n else dFnDq g p ⟨b, p.ze + b, 1⟩ n) +
        ((Matrix.of fun r k => comp (mulQ (![dtauZe Real.sqrt g p ⟨b, p.ze + b, 1⟩ n, dtauQx p ⟨b, p.ze + b, 1⟩ n, dtauQy p ⟨b, p.ze + b, 1⟩ n] k)
          (q - p)) r) - tauLF Real.sqrt g p ⟨b, p.ze + b, 1⟩ n)) a v) (getVar p v) := by
  have h1 := (jacobian_derivative g b 1 p hw n a v).1
  have h2 := mulVec_mean (tau_mean 1 n hg hw v) q a
  have e : ∀ y, comp (traceFlux ex g b n q (setVar p v y)) a = (if ex then -1 else 1) *
      getVar (fluxN g (setVar p v y) (Swe.Props.auxAt b 1 (setVar p v y)) n) a +
      (tauLF Real.sqrt g (setVar p v y) (Swe.Props.auxAt b 1 (setVar p v y)) n *ᵥ (comp q - comp (setVar p v y))) a := by
    intro y
    simp only [traceFlux, comp_add, comp_mulQ, comp_sub, Pi.add_apply, Swe.Props.auxAt]
    congr 1
    cases ex
    · simp [Swe.comp, getVar]
    · simp only [if_true, comp_neg, Pi.neg_apply]
      rw [neg_one_mul]; rfl
  rw [show (fun y => comp (traceFlux ex g b n q (setVar p v y)) a) = _ from funext e]
  refine ((MeanDeriv.of (h1.const_mul _)).add h2).congr_deriv ?_
  simp only [Matrix.add_apply, Matrix.sub_apply, Matrix.of_apply, comp_mulQ, comp_sub, Swe.Props.auxAt]
  cases ex <;> simp

theorem traceFlux_by_state (ex : Bool) (g b : ℝ) (n : P2 ℝ) (q p : Q ℝ) (a v : Fin 3) :
    HasDerivAt (fun y => comp (traceFlux ex g b n (setVar q v y) p) a) (tauLF Real.sqrt g p ⟨b, p.ze + b, 1⟩ n a v) (getVar q v) := by
  simp only [traceFlux, comp_add, comp_mulQ, comp_sub, Pi.add_apply, mulVec, dotProduct, Fin.sum_univ_three, Pi.sub_apply]
  have hk : ∀ k, HasDerivAt (fun x => tauLF Real.sqrt g p ⟨b, p.ze + b, 1⟩ n a k * (comp (setVar q v x) k - comp p k))
      (tauLF Real.sqrt g p ⟨b, p.ze + b, 1⟩ n a k * kron k v) (getVar q v) := fun k => ((comp_deriv q k v).sub_const _).const_mul _
  refine ((((hk 0).add (hk 1)).add (hk 2)).const_add _).congr_deriv ?_
  fin_cases v <;> simp [kron]

variable (S : Scheme ℝ)

/-- The trace is wet at all Gauss points of an edge. -/
def WetOn (ed : Edg ℝ) (c : Coef ℝ) : Prop :=
  ∀ gp < (rule S ed).length, 0 < (hat S ed c gp).ze + bathAt S ed gp

variable {S}

theorem fhat_eq (hsq : S.v.sq = Real.sqrt) (q : State ℝ) (ed : Edg ℝ) (c : Coef ℝ) (s : Sd) (gp : ℕ) :
    fhat S q ed c s gp = traceFlux s.ex S.v.src.g (bathAt S ed (opp S ed s gp)) (nrm S ed) (sideQ S q ed s gp) (hat S ed c (opp S ed s gp)) := by
  simp only [fhat, traceFlux, tauAt, hatAux, hsq]

theorem tab_ndof (ed : Edg ℝ) : (tab S ed).ndof = (rule S ed).length ∧ (tab S ed).ngp = (rule S ed).length := ⟨rfl, rfl⟩

theorem opp_lt {ed : Edg ℝ} {s : Sd} {gp : ℕ} (h : gp < (rule S ed).length) : opp S ed s gp < (rule S ed).length := by
  unfold opp; split_ifs <;> omega

/-- The trace with one coefficient changed. -/
theorem hat_setCoef (ed : Edg ℝ) (c : Coef ℝ) (v : Fin 3) {j : ℕ} (hj : j < (tab S ed).ndof) (x : ℝ) (gp : ℕ) :
    hat S ed (setCoef c v j x) gp = setVar (hat S ed c gp) v (getVar (hat S ed c gp) v + (x - c v j) * (tab S ed).lam j gp) :=
  trace_setCoef (o := ⟨tab S ed, nrm S ed, fun _ => 0, fun _ => 0, fun _ => 0⟩) v hj x gp

theorem sideQ_setQ {q : State ℝ} {ed : Edg ℝ} {s : Sd} {e : ℕ} (v : Fin 3) {j : ℕ} (hj : j < ndof (S.dat e).elt.p) (x : ℝ) (gp : ℕ) (he : s.e = e) :
    sideQ S (setQ q e v j x) ed s gp = setVar (sideQ S q ed s gp) v
      (getVar (sideQ S q ed s gp) v + (x - q e v j) * S.v.N.basis.phi j (facePt (rule S ed) s.f gp)) := by
  subst he
  unfold sideQ setQ
  rw [Function.update_self]
  exact value_setCoef _ _ _ _ hj _ _

theorem sideQ_other {q : State ℝ} {ed : Edg ℝ} {s : Sd} {e : ℕ} (v : Fin 3) (j : ℕ) (x : ℝ) (gp : ℕ) (he : s.e ≠ e) :
    sideQ S (setQ q e v j x) ed s gp = sideQ S q ed s gp := by
  unfold sideQ setQ
  rw [Function.update_of_ne he]

theorem fhat_by_state (hsq : S.v.sq = Real.sqrt) (q : State ℝ) (ed : Edg ℝ) (c : Coef ℝ) (s : Sd) (gp : ℕ) {e : ℕ} (he : s.e = e) {j : ℕ}
    (hj : j < ndof (S.dat e).elt.p) (a v : Fin 3) :
    HasDerivAt (fun x => comp (fhat S (setQ q e v j x) ed c s gp) a) (dfDq S ed c s gp a v * S.v.N.basis.phi j (facePt (rule S ed) s.f gp)) (q e v j) := by
  simp only [fhat_eq hsq, sideQ_setQ v hj _ gp he]
  have := traceFlux_by_state s.ex S.v.src.g (bathAt S ed (opp S ed s gp)) (nrm S ed) (sideQ S q ed s gp) (hat S ed c (opp S ed s gp)) a v
  have h2 := deriv_chain (x0 := q e v j) (f := S.v.N.basis.phi j (facePt (rule S ed) s.f gp))
    (G := fun p => comp (traceFlux s.ex S.v.src.g (bathAt S ed (opp S ed s gp)) (nrm S ed) p (hat S ed c (opp S ed s gp))) a) this
  simpa only [dfDq, tauAt, hatAux, hsq] using h2

theorem fhat_by_trace (hsq : S.v.sq = Real.sqrt) (hg : 0 < S.v.src.g) (q : State ℝ) {ed : Edg ℝ} {c : Coef ℝ} (hf : WetOn S ed c) (s : Sd) {gp : ℕ}
    (hgp : gp < (rule S ed).length) {j : ℕ} (hj : j < (tab S ed).ndof) (a v : Fin 3) :
    MeanDeriv (fun x => comp (fhat S q ed (setCoef c v j x) s gp) a) (dfDhat S q ed c s gp a v * (tab S ed).lam j (opp S ed s gp)) (c v j) := by
  simp only [fhat_eq hsq, hat_setCoef ed c v hj]
  have hw := hf _ (opp_lt (s := s) hgp)
  have := traceFlux_by_trace s.ex hg (b := bathAt S ed (opp S ed s gp)) (n := nrm S ed) (sideQ S q ed s gp) (hat S ed c (opp S ed s gp)) hw a v
  have h2 := this.line (x := c v j) ((tab S ed).lam j (opp S ed s gp))
  simpa only [dfDhat, dtauDelq, tauAt, hatAux, hsq] using h2

/-! ### Integrals over faces -/

theorem faceR_entry (q : State ℝ) (ed : Edg ℝ) (c : Coef ℝ) (s : Sd) (i : ℕ) (a : Fin 3) :
    faceR S q ed c s (3 * i + a.val) = ((List.range (rule S ed).length).map fun gp => comp (fhat S q ed c s gp) a *
      (S.v.N.basis.phi i (facePt (rule S ed) s.f gp) * (weight (rule S ed) gp * surf S ed))).sum := by
  simp only [faceR, Elt.intFace, row_div, row_mod, varOf_val]

theorem faceR_by_state (hsq : S.v.sq = Real.sqrt) (q : State ℝ) (ed : Edg ℝ) (c : Coef ℝ) (s : Sd) {e : ℕ} (he : s.e = e) (i : ℕ) {j : ℕ}
    (hj : j < ndof (S.dat e).elt.p) (a v : Fin 3) :
    HasDerivAt (fun x => faceR S (setQ q e v j x) ed c s (3 * i + a.val)) (faceD S ed c s (3 * i + a.val) (3 * j + v.val)) (q e v j) := by
  have h := deriv_list (List.range (rule S ed).length) (fun gp x => comp (fhat S (setQ q e v j x) ed c s gp) a *
      (S.v.N.basis.phi i (facePt (rule S ed) s.f gp) * (weight (rule S ed) gp * surf S ed))) _
      fun gp _ => (fhat_by_state hsq q ed c s gp he hj a v).mul_const _
  simp only [faceR_entry]
  refine h.congr_deriv ?_
  cases ed with
  | int i' =>
    simp only [faceD, block_entry, row_div, intFace2]
    exact congrArg _ (List.map_congr_left fun gp _ => by ring)
  | bnd b =>
    simp only [faceD, block_entry, row_div, intFace2]
    exact congrArg _ (List.map_congr_left fun gp _ => by ring)

theorem faceR_by_trace (hsq : S.v.sq = Real.sqrt) (hg : 0 < S.v.src.g) (q : State ℝ) {ed : Edg ℝ} {c : Coef ℝ} (hf : WetOn S ed c) (s : Sd)
    (hsym : ∀ gp < (rule S ed).length, weight (rule S ed) ((rule S ed).length - gp - 1) = weight (rule S ed) gp) (i : ℕ) {j : ℕ}
    (hj : j < (tab S ed).ndof) (a v : Fin 3) :
    MeanDeriv (fun x => (1 - S.theta) * faceR S q ed (setCoef c v j x) s (3 * i + a.val)) (sideDh S q ed c s (3 * i + a.val) (3 * j + v.val)) (c v j) := by
  have h := MeanDeriv.list (List.range (rule S ed).length) (fun gp x => comp (fhat S q ed (setCoef c v j x) s gp) a *
      (S.v.N.basis.phi i (facePt (rule S ed) s.f gp) * (weight (rule S ed) gp * surf S ed)))
      (fun gp => dfDhat S q ed c s gp a v * (tab S ed).lam j (opp S ed s gp) *
        (S.v.N.basis.phi i (facePt (rule S ed) s.f gp) * (weight (rule S ed) gp * surf S ed)))
      fun gp hgp => (fhat_by_trace hsq hg q hf s (List.mem_range.1 hgp) hj a v).mul_const _
  simp only [faceR_entry]
  refine (h.const_mul _).congr_deriv ?_
  simp only [sideDh, block_entry, row_div, intPhiLam]
  rw [sum_range_list]
  congr 1
  refine Finset.sum_congr rfl fun gp hgp => ?_
  have hgp := Finset.mem_range.1 hgp
  have hw : (tab S ed).w (opp S ed s gp) = weight (rule S ed) gp := by
    show weight (rule S ed) (opp S ed s gp) = _
    unfold opp
    split_ifs
    · exact hsym gp hgp
    · rfl
  rw [flatten, Nat.mul_add_div (by omega), Nat.mul_add_mod, Nat.div_eq_of_lt hj, Nat.mod_eq_of_lt hj, Nat.add_zero, intLam, hw]
  show _ = _ * (_ * (_ * (_ * surf S ed)))
  ring

/-! ### The interior of an element -/

/-- Wet at all Gauss points of an element. -/
def WetIn (S : Scheme ℝ) (d : EltData ℝ) (u : Fin 3 → ℕ → ℝ) : Prop :=
  ∀ wz ∈ d.elt.gps S.v.N, 0 < (qAt S.v.N d.elt u wz.2).ze + d.elt.value S.v.N d.bath wz.2

/-- At all Gauss points of an element the coded derivative of the source is the derivative of the source. -/
def SourceOk (S : Scheme ℝ) (d : EltData ℝ) (u : Fin 3 → ℕ → ℝ) : Prop :=
  ∀ wz ∈ d.elt.gps S.v.N, ∀ a v : Fin 3, HasDerivAt (fun y => comp (getSource S.v.sq S.v.cb S.v.src d.src
      (S.v.fs S.tn (localToGlobal d.elt.tri wz.2)) (setVar (qAt S.v.N d.elt u wz.2) v y)
      ⟨d.elt.value S.v.N d.bath wz.2, (setVar (qAt S.v.N d.elt u wz.2) v y).ze + d.elt.value S.v.N d.bath wz.2, S.v.sp (localToGlobal d.elt.tri wz.2)⟩
      ⟨d.elt.deriv S.v.N 0 d.bath wz.2, d.elt.deriv S.v.N 1 d.bath wz.2⟩) a) (dsrcAt S d u wz.2 a v) (getVar (qAt S.v.N d.elt u wz.2) v)

theorem deriv_gauss {N : Numerics ℝ} {e : Elt ℝ} {u : Fin 3 → ℕ → ℝ} {v : Fin 3} {j : ℕ} (hj : j < ndof e.p) (l : List (ℝ × P2 ℝ))
    (G : ℝ × P2 ℝ → Q ℝ → ℝ) (D W : ℝ × P2 ℝ → ℝ)
    (h : ∀ wz ∈ l, HasDerivAt (fun y => G wz (setVar (qAt N e u wz.2) v y)) (D wz) (getVar (qAt N e u wz.2) v)) :
    HasDerivAt (fun x => (l.map fun wz => G wz (qAt N e (setCoef u v j x) wz.2) * W wz).sum)
      (l.map fun wz => D wz * N.basis.phi j wz.2 * W wz).sum (u v j) := by
  refine deriv_list l (fun wz x => G wz (qAt N e (setCoef u v j x) wz.2) * W wz) _ fun wz hwz => ?_
  simp only [value_setCoef N e u v hj]
  exact (deriv_chain (h wz hwz)).mul_const _

/-- Change of the state. -/
theorem change_by_state (d : EltData ℝ) (u0 u : Fin 3 → ℕ → ℝ) (dt : ℝ) (i : ℕ) {j : ℕ} (hj : j < ndof d.elt.p) (a v : Fin 3) (N : Numerics ℝ) :
    HasDerivAt (fun x => d.elt.intPhi N (fun z => comp (qAt N d.elt (setCoef u v j x) z - qAt N d.elt u0 z) a / dt) i)
      (intPhiPhi N d.elt j i fun _ => ((1 / dt) • (1 : M3 ℝ)) a v) (u v j) := by
  have := deriv_gauss (N := N) (u := u) (v := v) hj (d.elt.gps N) (fun wz p => comp (p - qAt N d.elt u0 wz.2) a / dt) (fun _ => kron a v / dt)
    (fun wz => N.basis.phi i wz.2 * wz.1 * |jdet d.elt.tri|) fun wz _ => by
      simp only [comp_sub, Pi.sub_apply]
      exact ((comp_deriv _ a v).sub_const _).div_const _
  refine this.congr_deriv (congrArg _ (List.map_congr_left fun wz _ => ?_))
  simp only [Matrix.smul_apply, Matrix.one_apply, kron, smul_eq_mul]
  ring

/-- A flux. -/
theorem flux_by_state (d : EltData ℝ) (u : Fin 3 → ℕ → ℝ) (dir i : ℕ) {j : ℕ} (hj : j < ndof d.elt.p) (a v : Fin 3) (F : Q ℝ → Aux ℝ → Q ℝ)
    (dF : Q ℝ → Aux ℝ → M3 ℝ) (hF : ∀ b sp p, 0 < p.ze + b → HasDerivAt (fun y => comp (F (setVar p v y) (Swe.Props.auxAt b sp (setVar p v y))) a)
      (dF p (Swe.Props.auxAt b sp p) a v) (getVar p v)) (hw : WetIn S d u) :
    HasDerivAt (fun x => d.elt.intDPhi S.v.N dir (fun z => comp (F (inner S d (setCoef u v j x) z).1 (inner S d (setCoef u v j x) z).2) a) i)
      (intPhiDPhi S.v.N d.elt j dir i fun z => dF (inner S d u z).1 (inner S d u z).2 a v) (u v j) := by
  have := deriv_gauss (N := S.v.N) (u := u) (v := v) hj (d.elt.gps S.v.N)
    (fun wz p => comp (F p (Swe.Props.auxAt (d.elt.value S.v.N d.bath wz.2) (S.v.sp (localToGlobal d.elt.tri wz.2)) p)) a) _
    (fun wz => (0 + S.v.N.basis.dphi1 i wz.2 * wz.1 * Element.entry (jinv d.elt.tri) 0 dir +
      S.v.N.basis.dphi2 i wz.2 * wz.1 * Element.entry (jinv d.elt.tri) 1 dir) * |jdet d.elt.tri|) fun wz hwz => hF _ _ _ (hw wz hwz)
  refine this.congr_deriv (congrArg _ (List.map_congr_left fun wz _ => ?_))
  simp only [Swe.Props.auxAt, inner, Swe.auxAt]
  ring

/-- The source. -/
theorem source_by_state (d : EltData ℝ) (u : Fin 3 → ℕ → ℝ) (i : ℕ) {j : ℕ} (hj : j < ndof d.elt.p) (a v : Fin 3) (hs : SourceOk S d u) :
    HasDerivAt (fun x => srcR S d S.tn (setCoef u v j x) (3 * i + a.val)) (intPhiPhi S.v.N d.elt j i fun z => dsrcAt S d u z a v) (u v j) := by
  have := deriv_gauss (N := S.v.N) (u := u) (v := v) hj (d.elt.gps S.v.N)
    (fun wz p => comp (getSource S.v.sq S.v.cb S.v.src d.src (S.v.fs S.tn (localToGlobal d.elt.tri wz.2)) p
      ⟨d.elt.value S.v.N d.bath wz.2, p.ze + d.elt.value S.v.N d.bath wz.2, S.v.sp (localToGlobal d.elt.tri wz.2)⟩
      ⟨d.elt.deriv S.v.N 0 d.bath wz.2, d.elt.deriv S.v.N 1 d.bath wz.2⟩) a) _
    (fun wz => S.v.N.basis.phi i wz.2 * wz.1 * |jdet d.elt.tri|) fun wz hwz => hs wz hwz a v
  simp only [srcR, row_div, row_mod, varOf_val]
  refine this.congr_deriv (congrArg _ (List.map_congr_left fun wz _ => ?_))
  ring

theorem vol_by_state (d : EltData ℝ) (u0 u : Fin 3 → ℕ → ℝ) (hw : WetIn S d u) (hs : SourceOk S d u) (prev : ℕ → ℝ) (i : ℕ) {j : ℕ}
    (hj : j < ndof d.elt.p) (a v : Fin 3) :
    HasDerivAt (fun x => volR S d u0 (setCoef u v j x) prev (3 * i + a.val) + (1 - S.theta) * srcR S d S.tn (setCoef u v j x) (3 * i + a.val))
      (-(volD S d u (3 * i + a.val) (3 * j + v.val) - srcD S d u (3 * i + a.val) (3 * j + v.val))) (u v j) := by
  have h0 := change_by_state d u0 u S.dt i hj a v S.v.N
  have hx := flux_by_state (S := S) d u 0 i hj a v (fluxX S.v.src.g) (dFxDq S.v.src.g) (fun b sp p h => (jacobian_derivative S.v.src.g b sp p h ⟨0, 0⟩ a v).2.1) hw
  have hy := flux_by_state (S := S) d u 1 i hj a v (fluxY S.v.src.g) (dFyDq S.v.src.g) (fun b sp p h => (jacobian_derivative S.v.src.g b sp p h ⟨0, 0⟩ a v).2.2) hw
  have hS := source_by_state (S := S) d u i hj a v hs
  have h1 := ((((h0.neg.add (hx.const_mul (1 - S.theta))).add (hy.const_mul (1 - S.theta))).add_const (S.theta * prev (3 * i + a.val))).add
    (hS.const_mul (1 - S.theta)))
  simp only [volR, fluxR, row_div, row_mod, varOf_val]
  refine h1.congr_deriv ?_
  simp only [volD, srcD, block_entry, row_div]
  ring

/-! ### Boundary conditions -/

theorem land_by_state (n : P2 ℝ) (q qh : Q ℝ) (a v : Fin 3) :
    HasDerivAt (fun y => comp (landRhs n (setVar q v y) qh) a) (landDelta n a v) (getVar q v) := by
  have hx := qx_deriv q v
  have hy := qy_deriv q v
  have hz := ze_deriv q v
  have hn := (hx.mul_const n.x).add (hy.mul_const n.y)
  fin_cases a
  · refine (hz.const_sub qh.ze).congr_deriv ?_
    fin_cases v <;> simp [kron, landDelta]
  · refine ((hx.const_sub qh.qx).add (hn.mul_const n.x)).congr_deriv ?_
    fin_cases v <;> simp [kron, landDelta] <;> ring
  · refine ((hy.const_sub qh.qy).add (hn.mul_const n.y)).congr_deriv ?_
    fin_cases v <;> simp [kron, landDelta] <;> ring

theorem land_by_trace (n : P2 ℝ) (q qh : Q ℝ) (a v : Fin 3) :
    HasDerivAt (fun y => comp (landRhs n q (setVar qh v y)) a) ((1 : M3 ℝ) a v) (getVar qh v) := by
  have hx := qx_deriv qh v
  have hy := qy_deriv qh v
  have hz := ze_deriv qh v
  fin_cases a
  · refine (hz.sub_const q.ze).congr_deriv ?_
    fin_cases v <;> simp [kron]
  · refine ((hx.sub_const q.qx).add_const ((q.qx * n.x + q.qy * n.y) * n.x)).congr_deriv ?_
    fin_cases v <;> simp [kron]
  · refine ((hy.sub_const q.qy).add_const ((q.qx * n.x + q.qy * n.y) * n.y)).congr_deriv ?_
    fin_cases v <;> simp [kron]

theorem gap_by_state (g : ℝ) (n : P2 ℝ) (b : ℝ) (q qi p : Q ℝ) (a v : Fin 3) :
    HasDerivAt (fun y => gap Real.sqrt g n b (setVar q v y) qi p a) (getAplus Real.sqrt g p ⟨b, p.ze + b, 1⟩ n a v) (getVar q v) := by
  simp only [gap, Pi.sub_apply, mulVec, dotProduct, Fin.sum_univ_three]
  have hk : ∀ k, HasDerivAt (fun x => getAplus Real.sqrt g p ⟨b, p.ze + b, 1⟩ n a k * (comp (setVar q v x) k - comp p k))
      (getAplus Real.sqrt g p ⟨b, p.ze + b, 1⟩ n a k * kron k v) (getVar q v) := fun k => ((comp_deriv q k v).sub_const _).const_mul _
  refine ((((hk 0).add (hk 1)).add (hk 2)).sub_const _).congr_deriv ?_
  fin_cases v <;> simp [kron]

/-! ### The Newton system -/

/-- All matrices of an iteration are minus the derivatives of the right-hand sides by the coefficients of elements and traces: in the equations of
an element, by its own coefficients and by those of the traces at its faces; in the equations of an edge, by those of the elements at its sides and by
its own. In directions of the traces there are kinks, where the derivative is the mean of the derivatives from both sides. -/
structure IsNewton (S : Scheme ℝ) (q0 : State ℝ) (prev : ℕ → ℕ → ℝ) (it : Iter ℝ) : Prop where
  elt_elt : ∀ e ∈ S.m.elts, ∀ i j, j < ndof (S.dat e).elt.p → ∀ a v : Fin 3,
    HasDerivAt (fun x => (blocks S q0 prev ⟨setQ it.q e v j x, it.hat⟩).rl e (3 * i + a.val))
      (-(blocks S q0 prev it).dl e (3 * i + a.val) (3 * j + v.val)) (it.q e v j)
  elt_other : ∀ e ∈ S.m.elts, ∀ e', e' ≠ e → ∀ i j (a v : Fin 3) x,
    (blocks S q0 prev ⟨setQ it.q e' v j x, it.hat⟩).rl e (3 * i + a.val) = (blocks S q0 prev it).rl e (3 * i + a.val)
  elt_edge : ∀ e ∈ S.m.elts, ∀ k (hk : k < (skel S).edges.length) (i j : ℕ) (a v : Fin 3), 3 * j + v.val < (skel S).esize k →
    MeanDeriv (fun x => (blocks S q0 prev ⟨it.q, Function.update it.hat k (setCoef (it.hat k) v j x)⟩).rl e (3 * i + a.val))
      (-(((skel S).edges[k].filter fun c => c.e = e).map fun c => (blocks S q0 prev it).dh e c.f (3 * i + a.val) (3 * j + v.val)).sum) (it.hat k v j)
  edge_elt : ∀ k (hk : k < (skel S).edges.length), ∀ e ∈ S.m.elts, ∀ i j, 3 * i < (skel S).esize k → j < ndof (S.dat e).elt.p → ∀ a v : Fin 3,
    HasDerivAt (fun x => (blocks S q0 prev ⟨setQ it.q e v j x, it.hat⟩).rg k (3 * i + a.val))
      (-(((skel S).edges[k].filter fun c => c.e = e).map fun c => (blocks S q0 prev it).dg e c.f (3 * i + a.val) (3 * j + v.val)).sum) (it.q e v j)
  edge_edge : ∀ k < (skel S).edges.length, ∀ (i j : ℕ) (a v : Fin 3), 3 * i < (skel S).esize k → 3 * j + v.val < (skel S).esize k →
    MeanDeriv (fun x => (blocks S q0 prev ⟨it.q, Function.update it.hat k (setCoef (it.hat k) v j x)⟩).rg k (3 * i + a.val))
      (-(blocks S q0 prev it).dhg k (3 * i + a.val) (3 * j + v.val)) (it.hat k v j)
  edge_other : ∀ k < (skel S).edges.length, ∀ k', k' ≠ k → ∀ i j (a v : Fin 3) x,
    (blocks S q0 prev ⟨it.q, Function.update it.hat k' (setCoef (it.hat k') v j x)⟩).rg k (3 * i + a.val) = (blocks S q0 prev it).rg k (3 * i + a.val)

theorem deriv_sides (l : List (Edg ℝ × ℕ)) (e : ℕ) (f : Edg ℝ → ℕ → Sd → ℝ → ℝ) (f' : Edg ℝ → ℕ → Sd → ℝ) {x : ℝ}
    (h : ∀ y ∈ l, ∀ s ∈ y.1.sides, s.e = e → HasDerivAt (f y.1 y.2 s) (f' y.1 y.2 s) x) :
    HasDerivAt (fun y => sideSum l e fun ed k s => f ed k s y) (sideSum l e f') x := by
  unfold sideSum
  refine deriv_list l (fun y x => ((y.1.sides.filter fun s => s.e = e).map fun s => f y.1 y.2 s x).sum) _ fun y hy => ?_
  exact deriv_list _ (fun s x => f y.1 y.2 s x) _ fun s hs => h y hy s (List.mem_filter.1 hs).1 (by simpa using (List.mem_filter.1 hs).2)

theorem mean_sides (l : List (Edg ℝ × ℕ)) (e : ℕ) (f : Edg ℝ → ℕ → Sd → ℝ → ℝ) (f' : Edg ℝ → ℕ → Sd → ℝ) {x : ℝ}
    (h : ∀ y ∈ l, ∀ s ∈ y.1.sides, s.e = e → MeanDeriv (f y.1 y.2 s) (f' y.1 y.2 s) x) :
    MeanDeriv (fun y => sideSum l e fun ed k s => f ed k s y) (sideSum l e f') x := by
  unfold sideSum
  refine MeanDeriv.list l (fun y x => ((y.1.sides.filter fun s => s.e = e).map fun s => f y.1 y.2 s x).sum) _ fun y hy => ?_
  exact MeanDeriv.list _ (fun s x => f y.1 y.2 s x) _ fun s hs => h y hy s (List.mem_filter.1 hs).1 (by simpa using (List.mem_filter.1 hs).2)

theorem sum_neg {α : Type} (l : List α) (f : α → ℝ) : (l.map fun a => -f a).sum = -(l.map f).sum := by
  induction l with
  | nil => simp
  | cons a l ih => simp only [List.map_cons, List.sum_cons, ih]; ring

theorem sideSum_neg (l : List (Edg ℝ × ℕ)) (e : ℕ) (g : Edg ℝ → ℕ → Sd → ℝ) : sideSum l e (fun ed k s => -g ed k s) = -sideSum l e g := by
  simp only [sideSum, sum_neg]

theorem sideSum_single (l : List (Edg ℝ)) (e : ℕ) {k : ℕ} (hk : k < l.length) (g : Edg ℝ → ℕ → Sd → ℝ) :
    sideSum l.zipIdx e (fun ed k' s => if k' = k then g ed k' s else 0) = ((l[k].sides.filter fun s => s.e = e).map (g l[k] k)).sum := by
  unfold sideSum
  rw [zipIdx_sum l l[k] 0 fun ed k' => ((ed.sides.filter fun s => s.e = e).map fun s => if k' = k then g ed k' s else 0).sum, Finset.sum_eq_single k]
  · simp [List.getD_eq_getElem?_getD, hk]
  · intro k' _ hne
    simp [hne]
  · intro h; exact absurd (Finset.mem_range.2 hk) h

theorem skel_filter {k : ℕ} (hk : k < (skel S).edges.length) (e : ℕ) (g : ℕ → ℝ) :
    (((skel S).edges[k].filter fun c => c.e = e).map fun c => g c.f).sum =
      ((((edgesOf S.m)[k]'(by simpa [skel] using hk)).sides.filter fun s => s.e = e).map fun s => g s.f).sum := by
  simp only [skel, List.getElem_map, List.filter_map, List.map_map]
  rfl

/-- The rules on the edges have symmetric weights. -/
def SymLine (S : Scheme ℝ) : Prop :=
  ∀ ed ∈ edgesOf S.m, ∀ gp < (rule S ed).length, weight (rule S ed) ((rule S ed).length - gp - 1) = weight (rule S ed) gp

theorem elt_elt (hsq : S.v.sq = Real.sqrt) {q0 : State ℝ} {prev : ℕ → ℕ → ℝ} {it : Iter ℝ} {e : ℕ} (he : e ∈ S.m.elts) (hw : WetIn S (S.dat e) (it.q e))
    (hs : SourceOk S (S.dat e) (it.q e)) (i : ℕ) {j : ℕ} (hj : j < ndof (S.dat e).elt.p) (a v : Fin 3) :
    HasDerivAt (fun x => (blocks S q0 prev ⟨setQ it.q e v j x, it.hat⟩).rl e (3 * i + a.val))
      (-(blocks S q0 prev it).dl e (3 * i + a.val) (3 * j + v.val)) (it.q e v j) := by
  simp only [blocks, localR_at S _ _ _ he, localD_at S _ _ _ he]
  have h1 := vol_by_state (S := S) (S.dat e) (q0 e) (it.q e) hw hs (prev e) i hj a v
  have h2 := deriv_sides (edgesOf S.m).zipIdx e (fun ed k s x => -(1 - S.theta) * faceR S (setQ it.q e v j x) ed (it.hat k) s (3 * i + a.val))
    (fun ed k s => -(1 - S.theta) * faceD S ed (it.hat k) s (3 * i + a.val) (3 * j + v.val)) (x := it.q e v j)
    fun y _ s _ hse => (faceR_by_state hsq it.q y.1 (it.hat y.2) s hse i hj a v).const_mul _
  have e1 : ∀ x, setQ it.q e v j x e = setCoef (it.q e) v j x := fun x => Function.update_self _ _ _
  simp only [e1]
  refine (h1.add h2).congr_deriv ?_
  rw [neg_add, ← sideSum_neg]
  simp only [neg_mul]

theorem elt_edge (hsq : S.v.sq = Real.sqrt) (hg : 0 < S.v.src.g) {q0 : State ℝ} {prev : ℕ → ℕ → ℝ} {it : Iter ℝ} (hn : (skel S).edges.flatten.Nodup)
    (hsym : SymLine S) {e : ℕ} (he : e ∈ S.m.elts) {k : ℕ} (hk : k < (edgesOf S.m).length) (hf : WetOn S (edgesOf S.m)[k] (it.hat k)) (i : ℕ) {j : ℕ}
    (hj : j < (tab S (edgesOf S.m)[k]).ndof) (a v : Fin 3) :
    MeanDeriv (fun x => (blocks S q0 prev ⟨it.q, Function.update it.hat k (setCoef (it.hat k) v j x)⟩).rl e (3 * i + a.val))
      (-(((edgesOf S.m)[k].sides.filter fun s => s.e = e).map fun s => (blocks S q0 prev it).dh e s.f (3 * i + a.val) (3 * j + v.val)).sum) (it.hat k v j) := by
  have hmem : ∀ y ∈ (edgesOf S.m).zipIdx, y.2 = k → y.1 = (edgesOf S.m)[k] := by
    rintro ⟨ed, k'⟩ hy hyk
    simp only at hyk
    subst hyk
    have := List.mk_mem_zipIdx_iff_getElem?.1 hy
    rw [List.getElem?_eq_getElem hk] at this
    exact (Option.some.inj this).symm
  simp only [blocks, localR_at S _ _ _ he]
  have h2 := mean_sides (edgesOf S.m).zipIdx e
    (fun ed k' s x => -(1 - S.theta) * faceR S it.q ed (Function.update it.hat k (setCoef (it.hat k) v j x) k') s (3 * i + a.val))
    (fun ed k' s => if k' = k then -sideDh S it.q ed (it.hat k') s (3 * i + a.val) (3 * j + v.val) else 0) (x := it.hat k v j)
    fun y hy s _ hse => by
      by_cases hyk : y.2 = k
      · rw [hmem y hy hyk, hyk]
        simp only [Function.update_self, if_true]
        have := (faceR_by_trace hsq hg it.q hf s (hsym _ (List.getElem_mem hk)) i hj a v).neg
        simpa only [neg_mul] using this
      · simp only [Function.update_of_ne hyk, if_neg hyk]
        exact MeanDeriv.of (hasDerivAt_const _ _)
  refine (h2.const_add _).congr_deriv ?_
  rw [sideSum_single _ _ hk, sum_neg]
  congr 1
  refine congrArg _ (List.map_congr_left fun s hs => ?_)
  obtain ⟨h1, h3⟩ := List.mem_filter.1 hs
  have h3 : s.e = e := by simpa using h3
  have := byFace_at S (fun ed k s => sideDh S it.q ed (it.hat k) s) (fun _ _ => 0) hn hk h1
  rw [h3] at this
  rw [this]

/-- No levees, no tide and no flow boundaries. -/
def Plain : Edg ℝ → Prop
  | .int i => i.kind = .internal
  | .bnd b => b.kind = .land ∨ b.kind = .function

theorem fhat_by_any (hsq : S.v.sq = Real.sqrt) (q : State ℝ) (ed : Edg ℝ) (c : Coef ℝ) (s : Sd) (gp : ℕ) {e : ℕ} {j : ℕ}
    (hj : j < ndof (S.dat e).elt.p) (a v : Fin 3) :
    HasDerivAt (fun x => comp (fhat S (setQ q e v j x) ed c s gp) a)
      (if s.e = e then dfDq S ed c s gp a v * S.v.N.basis.phi j (facePt (rule S ed) s.f gp) else 0) (q e v j) := by
  by_cases he : s.e = e
  · rw [if_pos he]; exact fhat_by_state hsq q ed c s gp he hj a v
  · rw [if_neg he]
    simp only [fhat, sideQ_other v j _ gp he]
    exact hasDerivAt_const _ _

/-- The residual at a point of an edge by the coefficients of an element: the sum over the sides at that element. -/
theorem gRhs_by_state (hsq : S.v.sq = Real.sqrt) (q : State ℝ) {ed : Edg ℝ} (hp : Plain ed) (c : Coef ℝ) {gp : ℕ} (hgp : gp < (rule S ed).length) {e : ℕ} {j : ℕ}
    (hj : j < ndof (S.dat e).elt.p) (a v : Fin 3) :
    HasDerivAt (fun x => comp (gRhs S (setQ q e v j x) ed c gp) a)
      ((ed.sides.filter fun s => s.e = e).map fun s => gDelta S q ed c s (opp S ed s gp) a v *
        S.v.N.basis.phi j (facePt (rule S ed) s.f (opp S ed s gp))).sum (q e v j) := by
  cases ed with
  | int i =>
    have hk : i.kind = .internal := hp
    simp only [gRhs, hk, comp_add, Pi.add_apply]
    refine ((fhat_by_any hsq q (.int i) c ⟨i.ein, i.fin, false⟩ gp hj a v).add
      (fhat_by_any hsq q (.int i) c ⟨i.eex, i.fex, true⟩ ((rule S (.int i)).length - gp - 1) hj a v)).congr_deriv ?_
    simp only [Edg.sides, gDelta, hk, opp]
    by_cases h1 : i.ein = e <;> by_cases h2 : i.eex = e <;> simp [h1, h2]
  | bnd b =>
    have hside : ((Edg.bnd b).sides.filter fun s => s.e = e).map (fun s => gDelta S q (.bnd b) c s (opp S (.bnd b) s gp) a v *
        S.v.N.basis.phi j (facePt (rule S (.bnd b)) s.f (opp S (.bnd b) s gp))) = if b.e = e then
        [gDelta S q (.bnd b) c ⟨b.e, b.f, false⟩ gp a v * S.v.N.basis.phi j (facePt (rule S (.bnd b)) b.f gp)] else [] := by
      by_cases h : b.e = e <;> simp [Edg.sides, opp, h]
    rw [hside]
    have hcases : ∀ G : Q ℝ → ℝ, (fun x => comp (gRhs S (setQ q e v j x) (.bnd b) c gp) a) =
        (fun x => G (sideQ S (setQ q e v j x) (.bnd b) ⟨b.e, b.f, false⟩ gp)) →
        HasDerivAt (fun y => G (setVar (sideQ S q (.bnd b) ⟨b.e, b.f, false⟩ gp) v y)) (gDelta S q (.bnd b) c ⟨b.e, b.f, false⟩ gp a v)
          (getVar (sideQ S q (.bnd b) ⟨b.e, b.f, false⟩ gp) v) →
        HasDerivAt (fun x => comp (gRhs S (setQ q e v j x) (.bnd b) c gp) a) (if b.e = e then
        [gDelta S q (.bnd b) c ⟨b.e, b.f, false⟩ gp a v * S.v.N.basis.phi j (facePt (rule S (.bnd b)) b.f gp)] else []).sum (q e v j) := by
      intro G hG hd
      rw [hG]
      by_cases h : b.e = e
      · simp only [sideQ_setQ (s := ⟨b.e, b.f, false⟩) (ed := .bnd b) v hj _ gp h, if_pos h, List.sum_singleton]
        exact deriv_chain hd
      · simp only [sideQ_other (s := ⟨b.e, b.f, false⟩) (ed := .bnd b) v j _ gp h, if_neg h, List.sum_nil]
        exact hasDerivAt_const _ _
    rcases hp with hk | hk
    · refine hcases (fun p => comp (landRhs (nrm S (.bnd b)) p (hat S (.bnd b) c gp)) a) (by simp only [gRhs, hk]) ?_
      simp only [gDelta, hk]
      exact land_by_state _ _ _ _ _
    · refine hcases (fun p => gap Real.sqrt S.v.src.g (nrm S (.bnd b)) (bathAt S (.bnd b) gp) p
        (S.v.bcq S.tn (localToGlobal (S.dat b.e).elt.tri (facePt (rule S (.bnd b)) b.f gp))) (hat S (.bnd b) c gp) a) ?_ ?_
      · simp only [gRhs, hk, kernel_gap, hsq]
        simp only [openOf, exterior, hk]
        rfl
      · simp only [gDelta, hk, hsq]
        exact gap_by_state _ _ _ _ _ _ _ _

theorem gRhs_by_trace (hsq : S.v.sq = Real.sqrt) (hg : 0 < S.v.src.g) (q : State ℝ) {ed : Edg ℝ} (hp : Plain ed) {c : Coef ℝ} (hf : WetOn S ed c)
    {gp : ℕ} (hgp : gp < (rule S ed).length) {j : ℕ} (hj : j < (tab S ed).ndof) (a v : Fin 3) :
    MeanDeriv (fun x => comp (gRhs S q ed (setCoef c v j x) gp) a) (gHat S q ed c gp a v * (tab S ed).lam j gp) (c v j) := by
  cases ed with
  | int i =>
    have hk : i.kind = .internal := hp
    simp only [gRhs, gHat, hk, comp_add, Pi.add_apply, Matrix.add_apply]
    refine ((fhat_by_trace hsq hg q hf ⟨i.ein, i.fin, false⟩ hgp hj a v).add
      (fhat_by_trace hsq hg q hf ⟨i.eex, i.fex, true⟩ (gp := (rule S (.int i)).length - gp - 1) (by omega) hj a v)).congr_deriv ?_
    simp only [opp, if_true, show (rule S (.int i)).length - ((rule S (.int i)).length - gp - 1) - 1 = gp by omega]
    simp only [Bool.false_eq_true, if_false]
    ring
  | bnd b =>
    rcases hp with hk | hk
    · simp only [gRhs, gHat, hk, hat_setCoef (.bnd b) c v hj]
      exact MeanDeriv.of (deriv_chain (G := fun p => comp (landRhs (nrm S (.bnd b)) (sideQ S q (.bnd b) ⟨b.e, b.f, false⟩ gp) p) a) (land_by_trace _ _ _ _ _))
    · simp only [gRhs, gHat, hk, kernel_gap, hsq]
      have := gap_mean (o := openOf S q b) (c := c) hg (hf gp hgp) a v
      have h2 := this.line (x := c v j) ((tab S (.bnd b)).lam j gp)
      simp only [trace_setCoef (o := openOf S q b) (c := c) v hj]
      exact h2

theorem sum_opp (ed : Edg ℝ) (s : Sd) (F : ℕ → ℕ → ℝ) :
    ∑ gp ∈ Finset.range (rule S ed).length, F (opp S ed s gp) gp = ∑ gp ∈ Finset.range (rule S ed).length, F gp (opp S ed s gp) := by
  unfold opp
  cases s.ex with
  | false => simp
  | true =>
    simp only [if_true]
    rw [← Finset.sum_range_reflect]
    refine Finset.sum_congr rfl fun gp hgp => ?_
    have := Finset.mem_range.1 hgp
    rw [show (rule S ed).length - ((rule S ed).length - 1 - gp) - 1 = gp by omega, show (rule S ed).length - 1 - gp = (rule S ed).length - gp - 1 by omega]

theorem rg_eq (q0 : State ℝ) (prev : ℕ → ℕ → ℝ) (it : Iter ℝ) {k : ℕ} (hk : k < (edgesOf S.m).length) (i : ℕ) (a : Fin 3) :
    (blocks S q0 prev it).rg k (3 * i + a.val) =
      -∑ gp ∈ Finset.range (rule S (edgesOf S.m)[k]).length, comp (gRhs S it.q (edgesOf S.m)[k] (it.hat k) gp) a * intLam (tab S (edgesOf S.m)[k]) gp i := by
  simp only [blocks, List.getElem?_eq_getElem hk, edgeRg, row_div, row_mod, varOf_val, integral]
  rfl

theorem edge_elt (hsq : S.v.sq = Real.sqrt) {q0 : State ℝ} {prev : ℕ → ℕ → ℝ} {it : Iter ℝ} (hn : (skel S).edges.flatten.Nodup)
    {k : ℕ} (hk : k < (edgesOf S.m).length) (hp : Plain (edgesOf S.m)[k]) {e i : ℕ} (hi : i < (tab S (edgesOf S.m)[k]).ndof) {j : ℕ}
    (hj : j < ndof (S.dat e).elt.p) (a v : Fin 3) :
    HasDerivAt (fun x => (blocks S q0 prev ⟨setQ it.q e v j x, it.hat⟩).rg k (3 * i + a.val))
      (-(((edgesOf S.m)[k].sides.filter fun s => s.e = e).map fun s => (blocks S q0 prev it).dg e s.f (3 * i + a.val) (3 * j + v.val)).sum) (it.q e v j) := by
  simp only [rg_eq _ _ _ hk]
  have h := HasDerivAt.fun_sum (u := Finset.range (rule S (edgesOf S.m)[k]).length)
    (A := fun gp x => comp (gRhs S (setQ it.q e v j x) (edgesOf S.m)[k] (it.hat k) gp) a * intLam (tab S (edgesOf S.m)[k]) gp i)
    fun gp hgp => (gRhs_by_state hsq it.q hp (it.hat k) (Finset.mem_range.1 hgp) hj a v).mul_const (intLam (tab S (edgesOf S.m)[k]) gp i)
  refine h.neg.congr_deriv (congrArg _ ?_)
  have hlist : ∀ (l : List Sd) (f : ℕ → Sd → ℝ) (g : ℕ → ℝ) (n : ℕ), ∑ gp ∈ Finset.range n, (l.map (f gp)).sum * g gp =
      (l.map fun s => ∑ gp ∈ Finset.range n, f gp s * g gp).sum := by
    intro l f g n
    induction l with
    | nil => simp
    | cons b l ih => simp only [List.map_cons, List.sum_cons, add_mul, Finset.sum_add_distrib, ih]
  rw [hlist]
  refine congrArg _ (List.map_congr_left fun s hs => ?_)
  obtain ⟨h1, h3⟩ := List.mem_filter.1 hs
  have h3 : s.e = e := by simpa using h3
  have hb := byFace_at S (fun ed k s => sideDg S it.q ed (it.hat k) s) (fun _ _ => 0) hn hk h1
  rw [h3] at hb
  simp only [blocks, hb, sideDg, block_entry, row_div, intPhiLam]
  rw [sum_opp (edgesOf S.m)[k] s fun g gp => gDelta S it.q (edgesOf S.m)[k] (it.hat k) s g a v *
    S.v.N.basis.phi j (facePt (rule S (edgesOf S.m)[k]) s.f g) * intLam (tab S (edgesOf S.m)[k]) gp i]
  refine Finset.sum_congr rfl fun gp _ => ?_
  have hpos : 0 < (tab S (edgesOf S.m)[k]).ndof := by omega
  simp only [flatten]
  rw [Nat.mul_add_div hpos, Nat.div_eq_of_lt hi, Nat.add_zero, Nat.mul_add_mod, Nat.mod_eq_of_lt hi]
  ring

theorem edge_edge (hsq : S.v.sq = Real.sqrt) (hg : 0 < S.v.src.g) {q0 : State ℝ} {prev : ℕ → ℕ → ℝ} {it : Iter ℝ}
    {k : ℕ} (hk : k < (edgesOf S.m).length) (hp : Plain (edgesOf S.m)[k]) (hf : WetOn S (edgesOf S.m)[k] (it.hat k))
    {i : ℕ} (hi : i < (tab S (edgesOf S.m)[k]).ndof) {j : ℕ}
    (hj : j < (tab S (edgesOf S.m)[k]).ndof) (a v : Fin 3) :
    MeanDeriv (fun x => (blocks S q0 prev ⟨it.q, Function.update it.hat k (setCoef (it.hat k) v j x)⟩).rg k (3 * i + a.val))
      (-(blocks S q0 prev it).dhg k (3 * i + a.val) (3 * j + v.val)) (it.hat k v j) := by
  simp only [rg_eq _ _ _ hk, Function.update_self]
  have h := MeanDeriv.sum (Finset.range (rule S (edgesOf S.m)[k]).length)
    (f := fun gp x => comp (gRhs S it.q (edgesOf S.m)[k] (setCoef (it.hat k) v j x) gp) a * intLam (tab S (edgesOf S.m)[k]) gp i)
    fun gp hgp => (gRhs_by_trace hsq hg it.q hp hf (Finset.mem_range.1 hgp) hj a v).mul_const (intLam (tab S (edgesOf S.m)[k]) gp i)
  refine h.neg.congr_deriv (congrArg _ ?_)
  have hpos : 0 < (tab S (edgesOf S.m)[k]).ndof := by omega
  simp only [blocks, List.getElem?_eq_getElem hk]
  unfold edgeDhg
  generalize (edgesOf S.m)[k] = ed at *
  cases ed with
  | int d =>
    simp only [block_entry, row_div, integral2, intLamLam, flatten, Nat.mul_add_div hpos, Nat.mul_add_mod, Nat.mod_eq_of_lt hi, Nat.div_eq_of_lt hj, Nat.mod_eq_of_lt hj, Nat.add_zero]
    refine Finset.sum_congr rfl fun gp _ => ?_
    simp only [intLam]
    ring
  | bnd d =>
    simp only [block_entry, row_div, integral2, intLamLam, flatten, Nat.mul_add_div hpos, Nat.mul_add_mod, Nat.mod_eq_of_lt hi, Nat.div_eq_of_lt hi, Nat.add_zero]
    refine Finset.sum_congr rfl fun gp _ => ?_
    simp only [intLam]
    ring

theorem esize_eq {k : ℕ} (hk : k < (edgesOf S.m).length) : (skel S).esize k = 3 * (tab S (edgesOf S.m)[k]).ndof := by
  simp only [skel, List.getElem?_eq_getElem hk]

theorem elt_other {q0 : State ℝ} {prev : ℕ → ℕ → ℝ} {it : Iter ℝ} {e : ℕ} (he : e ∈ S.m.elts) {e' : ℕ} (hne : e' ≠ e) (r j : ℕ) (v : Fin 3) (x : ℝ) :
    (blocks S q0 prev ⟨setQ it.q e' v j x, it.hat⟩).rl e r = (blocks S q0 prev it).rl e r := by
  simp only [blocks, localR_at S _ _ _ he]
  rw [show setQ it.q e' v j x e = it.q e from Function.update_of_ne hne.symm _ _]
  congr 1
  unfold sideSum
  refine congrArg _ (List.map_congr_left fun y _ => congrArg _ (List.map_congr_left fun s hs => ?_))
  have h3 : s.e = e := by simpa using (List.mem_filter.1 hs).2
  simp only [faceR, fhat, sideQ_other v j x _ (show s.e ≠ e' by rw [h3]; exact hne.symm)]

/-- C83, partial: without levees and without tide and flow boundaries, at a wet iterate where the coded derivative of the source is one, all matrices of the
iteration are minus the derivatives of the right-hand sides. -/
theorem newton_matrices_partial (hsq : S.v.sq = Real.sqrt) (hg : 0 < S.v.src.g) (hn : (skel S).edges.flatten.Nodup) (hsym : SymLine S)
    (hp : ∀ ed ∈ edgesOf S.m, Plain ed) {it : Iter ℝ} (hw : ∀ e ∈ S.m.elts, WetIn S (S.dat e) (it.q e))
    (hs : ∀ e ∈ S.m.elts, SourceOk S (S.dat e) (it.q e)) (hf : ∀ k (hk : k < (edgesOf S.m).length), WetOn S (edgesOf S.m)[k] (it.hat k)) (q0 : State ℝ) (prev : ℕ → ℕ → ℝ) : IsNewton S q0 prev it where
  elt_elt e he i j hj a v := elt_elt hsq he (hw e he) (hs e he) i hj a v
  elt_other e he e' hne i j _ v x := elt_other he hne _ j v x
  elt_edge e he k hk i j a v hj := by
    have hk' : k < (edgesOf S.m).length := by simpa [skel] using hk
    rw [esize_eq hk'] at hj
    have := elt_edge (q0 := q0) (prev := prev) hsq hg hn hsym he hk' (hf k hk') i (j := j) (by omega) a v
    rw [skel_filter hk e fun f => (blocks S q0 prev it).dh e f (3 * i + a.val) (3 * j + v.val)]
    exact this
  edge_elt k hk e _ i j hi hj a v := by
    have hk' : k < (edgesOf S.m).length := by simpa [skel] using hk
    rw [esize_eq hk'] at hi
    have := edge_elt (q0 := q0) (prev := prev) (it := it) (e := e) hsq hn hk' (hp _ (List.getElem_mem hk')) (i := i) (by omega) hj a v
    rw [skel_filter hk e fun f => (blocks S q0 prev it).dg e f (3 * i + a.val) (3 * j + v.val)]
    exact this
  edge_edge k hk i j a v hi hj := by
    have hk' : k < (edgesOf S.m).length := by simpa [skel] using hk
    rw [esize_eq hk'] at hi hj
    exact edge_edge hsq hg hk' (hp _ (List.getElem_mem hk')) (hf k hk') (by omega) (by omega) a v
  edge_other k hk k' hne i j a v x := by
    have hk' : k < (edgesOf S.m).length := by simpa [skel] using hk
    simp only [rg_eq _ _ _ hk', Function.update_of_ne hne.symm]

end Verif.Ihdg.Props
