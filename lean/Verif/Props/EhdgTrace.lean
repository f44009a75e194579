import Verif.Model.EhdgTrace
import Verif.Props.Edge
import Verif.Props.EhdgRun
import Verif.Props.SweJacobian
import Mathlib.Analysis.Calculus.Deriv.Comp

/-!
# C80, C81: the trace at open boundaries of the explicit hybridized discretization

The trace q̂ is to satisfy A+ (q - q̂) = A- (q∞ - q̂) at every Gauss point, where A+ and A- are the parts of the flux Jacobian at q̂ that carry
waves out of and into the domain, q is the interior state and q∞ the prescribed one.
-/

namespace Verif.Ehdg.Props
open Verif.Swe Verif.Swe.Props Verif.Geometry Verif.Geometry.Props Verif.Edge Verif.Edge.Props Matrix

section
variable {K : Type} [Field K] [LinearOrder K]

theorem comp_ofComp (x : Fin 3 → K) : comp (ofComp x) = x := by
  funext i; fin_cases i <;> rfl

theorem comp_sub (q r : Q K) : comp (q - r) = comp q - comp r := by
  funext i; fin_cases i <;> rfl

theorem comp_mulQ (t : M3 K) (q : Q K) : comp (mulQ t q) = t *ᵥ comp q := comp_ofComp _

theorem comp_inj {q r : Q K} (h : comp q = comp r) : q = r := by
  have h0 := congrFun h 0
  have h1 := congrFun h 1
  have h2 := congrFun h 2
  ext
  · exact h0
  · exact h1
  · exact h2

/-- What is left of the boundary condition when the trace is `p`. -/
def gap (sq : K → K) (g : K) (n : P2 K) (b : K) (q qi p : Q K) : Fin 3 → K :=
  getAplus sq g p ⟨b, p.ze + b, 1⟩ n *ᵥ (comp q - comp p) - getAminus sq g p ⟨b, p.ze + b, 1⟩ n *ᵥ (comp qi - comp p)

theorem kernel_gap (sq : K → K) (g : K) (o : OpenEdge K) (c : Coef K) (gp : ℕ) :
    comp (kernelB sq g o c gp) = gap sq g o.n (o.bath gp) (o.q gp) (o.qinf gp) (traceAt o c gp) := by
  simp only [kernelB, comp_sub, comp_mulQ, gap, traceAux]

/-- The entries of `dB_dq_hat`. -/
theorem dB_apply (sq : K → K) (g : K) (o : OpenEdge K) (c : Coef K) (gp : ℕ) (i j : Fin 3) :
    let qh := traceAt o c gp
    let a := traceAux o c gp
    dB sq g o c gp i j = getAminus sq g qh a o.n i j - getAplus sq g qh a o.n i j +
      (((![getdAplusZe sq g qh a o.n, getdAplusQx sq g qh a o.n, getdAplusQy sq g qh a o.n] j) *ᵥ (comp (o.q gp) - comp qh)) i -
       ((![getdAminusZe sq g qh a o.n, getdAminusQx sq g qh a o.n, getdAminusQy sq g qh a o.n] j) *ᵥ (comp (o.qinf gp) - comp qh)) i) := by
  intro qh a
  simp only [dB, comp_sub, comp_mulQ]
  fin_cases j <;> simp [Matrix.col_apply, qh, a]

theorem entry (sq : K → K) (g : K) (o : OpenEdge K) (c : Coef K) {i j : ℕ} (hj : j < o.E.ndof) (a b : Fin 3) :
    deltaHat sq g o c (3 * i + a.val) (3 * j + b.val) =
      ∑ gp ∈ Finset.range o.E.ngp, dB sq g o c gp a b * (o.E.lam i gp * (o.E.lam j gp * (o.E.w gp * o.E.J))) := by
  have e1 : ∀ (k : ℕ) (x : Fin 3), (3 * k + x.val) / 3 = k ∧ (3 * k + x.val) % 3 = x.val := fun k x => by omega
  have e2 : ∀ x : Fin 3, varOf x.val = x := fun x => by fin_cases x <;> rfl
  simp only [deltaHat, reshape, e1, integral2]
  refine Finset.sum_congr rfl fun gp _ => ?_
  congr 1
  · simp only [flatten]
    rw [show (a.val * 3 + b.val) / 3 = a.val by omega, show (a.val * 3 + b.val) % 3 = b.val by omega, e2, e2]
  · simp only [intLamLam, flatten, intLam]
    rw [Nat.mul_add_div (by omega), Nat.mul_add_mod, Nat.div_eq_of_lt hj, Nat.mod_eq_of_lt hj, Nat.add_zero]

theorem rhs_entry (sq : K → K) (g : K) (o : OpenEdge K) (c : Coef K) (i : ℕ) (a : Fin 3) :
    rhsHat sq g o c (3 * i + a.val) = -∑ gp ∈ Finset.range o.E.ngp,
      gap sq g o.n (o.bath gp) (o.q gp) (o.qinf gp) (traceAt o c gp) a * (o.E.lam i gp * (o.E.w gp * o.E.J)) := by
  have e2 : varOf a.val = a := by fin_cases a <;> rfl
  simp only [rhsHat, integral, intLam]
  rw [show (3 * i + a.val) / 3 = i by omega, show (3 * i + a.val) % 3 = a.val by omega, e2]
  simp only [kernel_gap]

omit [LinearOrder K] in
theorem sum_three (n : ℕ) (f : ℕ → K) : ∑ s ∈ Finset.range (3 * n), f s = ∑ j ∈ Finset.range n, ∑ v : Fin 3, f (3 * j + v.val) := by
  induction n with
  | zero => simp
  | succ n ih =>
    rw [show 3 * (n + 1) = 3 * n + 1 + 1 + 1 by ring, Finset.sum_range_succ, Finset.sum_range_succ, Finset.sum_range_succ, ih,
      Finset.sum_range_succ, Fin.sum_univ_three]
    simp [add_assoc]

/-- The change of the trace at a Gauss point by the solution `x` of the linear system. -/
def change (o : OpenEdge K) (x : ℕ → K) (gp : ℕ) : Fin 3 → K := fun v => ugp o.E (fun dof => x (3 * dof + v.val)) gp

/-- The correction changes the trace at the Gauss points by `change`. -/
theorem correct_change (o : OpenEdge K) (c : Coef K) (x : ℕ → K) (gp : ℕ) :
    comp (traceAt o (correctTrace c x) gp) = comp (traceAt o c gp) + change o x gp := by
  simp only [traceAt, comp_ofComp]
  funext v
  simp only [ugp, correctTrace, reshapeCol, change, Pi.add_apply, ← Finset.sum_add_distrib, ← add_mul, mul_comm _ 3]

/-- The assembled matrix applied to a vector: each row is a moment of the pointwise matrix applied to the change of the trace. -/
theorem matrix_apply (sq : K → K) (g : K) (o : OpenEdge K) (c : Coef K) (x : ℕ → K) (i : ℕ) (a : Fin 3) :
    ∑ s ∈ Finset.range (3 * o.E.ndof), deltaHat sq g o c (3 * i + a.val) s * x s =
      ∑ gp ∈ Finset.range o.E.ngp, (dB sq g o c gp *ᵥ change o x gp) a * (o.E.lam i gp * (o.E.w gp * o.E.J)) := by
  rw [sum_three]
  have h1 : ∀ j ∈ Finset.range o.E.ndof, ∑ v : Fin 3, deltaHat sq g o c (3 * i + a.val) (3 * j + v.val) * x (3 * j + v.val) =
      ∑ gp ∈ Finset.range o.E.ngp, ∑ v : Fin 3, dB sq g o c gp a v * (x (3 * j + v.val) * o.E.lam j gp) * (o.E.lam i gp * (o.E.w gp * o.E.J)) := by
    intro j hj
    rw [Finset.sum_comm]
    refine Finset.sum_congr rfl fun v _ => ?_
    rw [entry sq g o c (Finset.mem_range.1 hj), Finset.sum_mul]
    refine Finset.sum_congr rfl fun gp _ => ?_
    ring
  rw [Finset.sum_congr rfl h1, Finset.sum_comm]
  refine Finset.sum_congr rfl fun gp _ => ?_
  rw [Finset.sum_comm]
  simp only [mulVec, dotProduct, change, ugp, Finset.sum_mul, Finset.mul_sum]

end

/-! ### The Newton step -/

section
variable {g : ℝ} {o : OpenEdge ℝ} {c : Coef ℝ}

/-- C80: where the trace is wet and no characteristic speed vanishes, `dB_dq_hat` is the derivative of the gap by the trace. -/
theorem gap_derivative (hg : 0 < g) {gp : ℕ} (hw : 0 < (traceAt o c gp).ze + o.bath gp)
    (h3 : ∀ i, speeds Real.sqrt g (traceAt o c gp) (o.bath gp) o.n i ≠ 0) (i j : Fin 3) :
    HasDerivAt (fun x => gap Real.sqrt g o.n (o.bath gp) (o.q gp) (o.qinf gp) (setVar (traceAt o c gp) j x) i) (dB Real.sqrt g o c gp i j)
      (getVar (traceAt o c gp) j) := by
  obtain ⟨-, hp, hm⟩ := dabsA_derivative g (o.bath gp) 1 (traceAt o c gp) o.n hg hw h3 j
  have hv : ∀ k, HasDerivAt (fun x => comp (setVar (traceAt o c gp) j x) k) (kron k j) (getVar (traceAt o c gp) j) := by
    intro k
    fin_cases k
    · exact ze_deriv _ j
    · exact qx_deriv _ j
    · exact qy_deriv _ j
  have term : ∀ (f : Q ℝ → M3 ℝ) (d : M3 ℝ) (r : Q ℝ), DerivBy f d (traceAt o c gp) j →
      HasDerivAt (fun x => (f (setVar (traceAt o c gp) j x) *ᵥ (comp r - comp (setVar (traceAt o c gp) j x))) i)
        ((d *ᵥ (comp r - comp (traceAt o c gp))) i - f (traceAt o c gp) i j) (getVar (traceAt o c gp) j) := by
    intro f d r hd
    have hk : ∀ k, HasDerivAt (fun x => f (setVar (traceAt o c gp) j x) i k * (comp r k - comp (setVar (traceAt o c gp) j x) k))
        (d i k * (comp r k - comp (traceAt o c gp) k) + f (traceAt o c gp) i k * (-kron k j)) (getVar (traceAt o c gp) j) := by
      intro k
      have := (hd i k).mul ((hv k).const_sub (comp r k))
      simp only [setVar_self] at this
      exact this
    simp only [mulVec, dotProduct, Fin.sum_univ_three, Pi.sub_apply]
    refine (((hk 0).add (hk 1)).add (hk 2)).congr_deriv ?_
    fin_cases j <;> simp [kron] <;> ring
  have t1 := term _ _ (o.q gp) hp
  have t2 := term _ _ (o.qinf gp) hm
  have h := t1.sub t2
  refine h.congr_deriv ?_
  rw [dB_apply]
  simp only [traceAux, Swe.Props.auxAt]
  ring

/-- The trace when one coefficient is changed. -/
def setCoef (c : Coef ℝ) (v : Fin 3) (dof : ℕ) (x : ℝ) : Coef ℝ := Function.update c v (Function.update (c v) dof x)

theorem setCoef_self (v : Fin 3) (dof : ℕ) : setCoef c v dof (c v dof) = c := by simp [setCoef]

theorem trace_setCoef (v : Fin 3) {dof : ℕ} (hd : dof < o.E.ndof) (x : ℝ) (gp : ℕ) :
    traceAt o (setCoef c v dof x) gp = setVar (traceAt o c gp) v (getVar (traceAt o c gp) v + (x - c v dof) * o.E.lam dof gp) := by
  have h1 : ∀ u : Fin 3, u ≠ v → setCoef c v dof x u = c u := fun u hu => Function.update_of_ne hu _ _
  have h2 : ugp o.E (setCoef c v dof x v) gp = ugp o.E (c v) gp + (x - c v dof) * o.E.lam dof gp := by
    simp only [ugp, setCoef, Function.update_self]
    rw [← Finset.add_sum_erase _ _ (Finset.mem_range.2 hd), ← Finset.add_sum_erase (Finset.range o.E.ndof) (fun k => c v k * o.E.lam k gp)
      (Finset.mem_range.2 hd), Function.update_self]
    rw [Finset.sum_congr rfl fun k hk => by rw [Function.update_of_ne (Finset.ne_of_mem_erase hk)]]
    ring
  rcases (by fin_cases v <;> simp : v = 0 ∨ v = 1 ∨ v = 2) with rfl | rfl | rfl
  · simp only [traceAt, ofComp, setVar, getVar] at h1 h2 ⊢
    simp [h2, h1 1 (by decide), h1 2 (by decide)]
  · simp only [traceAt, ofComp, setVar, getVar] at h1 h2 ⊢
    simp [h2, h1 0 (by decide), h1 2 (by decide)]
  · simp only [traceAt, ofComp, setVar, getVar] at h1 h2 ⊢
    simp [h2, h1 0 (by decide), h1 1 (by decide)]

/-- The moments of the gap, which the iteration is to bring to zero. -/
noncomputable def residual (g : ℝ) (o : OpenEdge ℝ) (i : ℕ) (a : Fin 3) (c : Coef ℝ) : ℝ :=
  ∑ gp ∈ Finset.range o.E.ngp,
    gap Real.sqrt g o.n (o.bath gp) (o.q gp) (o.qinf gp) (traceAt o c gp) a * (o.E.lam i gp * (o.E.w gp * o.E.J))

/-- C80: each iteration is a Newton step: the vector is minus the residual, and the entry of the matrix in the row of moment `i` and variable `a` and
the column of coefficient `j` of variable `v` is the derivative of that moment by that coefficient. -/
theorem newton_system (hg : 0 < g) (hw : ∀ gp < o.E.ngp, 0 < (traceAt o c gp).ze + o.bath gp)
    (h3 : ∀ gp < o.E.ngp, ∀ i, speeds Real.sqrt g (traceAt o c gp) (o.bath gp) o.n i ≠ 0) (i j : ℕ) (hj : j < o.E.ndof) (a v : Fin 3) :
    rhsHat Real.sqrt g o c (3 * i + a.val) = -residual g o i a c ∧
    HasDerivAt (fun x => residual g o i a (setCoef c v j x)) (deltaHat Real.sqrt g o c (3 * i + a.val) (3 * j + v.val)) (c v j) := by
  refine ⟨rhs_entry _ _ _ _ _ _, ?_⟩
  rw [entry _ _ _ _ hj]
  refine HasDerivAt.fun_sum fun gp hgp => ?_
  have hgp := Finset.mem_range.1 hgp
  have hd := gap_derivative (o := o) (c := c) hg (hw gp hgp) (h3 gp hgp) a v
  have hin : HasDerivAt (fun x : ℝ => getVar (traceAt o c gp) v + (x - c v j) * o.E.lam j gp) (o.E.lam j gp) (c v j) := by
    have := (((hasDerivAt_id (c v j)).sub_const (c v j)).mul_const (o.E.lam j gp)).const_add (getVar (traceAt o c gp) v)
    simpa using this
  have e : getVar (traceAt o c gp) v + (c v j - c v j) * o.E.lam j gp = getVar (traceAt o c gp) v := by ring
  have hc := HasDerivAt.comp (c v j) (h := fun x : ℝ => getVar (traceAt o c gp) v + (x - c v j) * o.E.lam j gp) (by rw [e]; exact hd) hin
  simp only [trace_setCoef v hj]
  refine (hc.mul_const (o.E.lam i gp * (o.E.w gp * o.E.J))).congr_deriv ?_
  ring

/-- C80: the linear system of the edge is the same as Newton's method at every Gauss point by itself. -/
theorem newton_pointwise (hE : Fits o.E) (x : ℕ → ℝ) :
    (∀ r < 3 * o.E.ndof, ∑ s ∈ Finset.range (3 * o.E.ndof), deltaHat Real.sqrt g o c r s * x s = rhsHat Real.sqrt g o c r) ↔
    ∀ gp < o.E.ngp, dB Real.sqrt g o c gp *ᵥ change o x gp =
      -gap Real.sqrt g o.n (o.bath gp) (o.q gp) (o.qinf gp) (traceAt o c gp) := by
  have split : ∀ r, ∃ (i : ℕ) (a : Fin 3), r = 3 * i + a.val := fun r => ⟨r / 3, ⟨r % 3, by omega⟩, by simp only; omega⟩
  constructor
  · intro h gp hgp
    funext a
    have hp := hE.points (fun gp => ((dB Real.sqrt g o c gp *ᵥ change o x gp) a +
      gap Real.sqrt g o.n (o.bath gp) (o.q gp) (o.qinf gp) (traceAt o c gp) a) * (o.E.w gp * o.E.J)) (fun i hi => ?_) gp hgp
    · have := (mul_eq_zero.1 hp).resolve_right (hE.pos gp hgp).ne'
      simp only [Pi.neg_apply]
      linarith
    · have := h (3 * i + a.val) (by omega)
      rw [matrix_apply, rhs_entry, ← sub_eq_zero, sub_neg_eq_add, ← Finset.sum_add_distrib] at this
      rw [← this]
      refine Finset.sum_congr rfl fun gp _ => ?_
      ring
  · intro h r hr
    obtain ⟨i, a, rfl⟩ := split r
    rw [matrix_apply, rhs_entry, ← Finset.sum_neg_distrib]
    refine Finset.sum_congr rfl fun gp hgp => ?_
    rw [h gp (Finset.mem_range.1 hgp), Pi.neg_apply]
    ring

/-- C80: the iteration leaves a trace alone exactly if the boundary condition holds at every Gauss point. -/
theorem fixed_trace (hE : Fits o.E) :
    (∀ r < 3 * o.E.ndof, rhsHat Real.sqrt g o c r = 0) ↔
    ∀ gp < o.E.ngp, gap Real.sqrt g o.n (o.bath gp) (o.q gp) (o.qinf gp) (traceAt o c gp) = 0 := by
  have h := newton_pointwise (g := g) (o := o) (c := c) hE 0
  simp only [Pi.zero_apply, mul_zero, Finset.sum_const_zero] at h
  have hz : ∀ gp, change o 0 gp = 0 := fun gp => by funext v; simp [change, ugp]
  simp only [hz, mulVec_zero] at h
  constructor
  · intro h0 gp hgp
    have := h.1 (fun r hr => (h0 r hr).symm) gp hgp
    rw [← neg_zero, this, neg_neg]
  · intro h0 r hr
    exact (h.2 (fun gp hgp => by rw [h0 gp hgp, neg_zero]) r hr).symm

end

/-! ### What the boundary condition says -/

/-- C80: the boundary condition holds exactly if the outgoing waves of the trace are those of the interior and the incoming waves those of the
prescribed state: the difference of interior and trace has no part with positive speed, that of prescribed state and trace none with negative speed. -/
theorem characteristic {g : ℝ} (hg : 0 < g) {n : P2 ℝ} (hn : Swe.Props.Unit n) {b : ℝ} (q qi p : Q ℝ) (hw : 0 < p.ze + b) :
    gap Real.sqrt g n b q qi p = 0 ↔
    ∀ i : Fin 3, (0 < speeds Real.sqrt g p b n i → (invR Real.sqrt g (p.ze + b) (p.qx / (p.ze + b)) (p.qy / (p.ze + b)) n *ᵥ (comp q - comp p)) i = 0) ∧
      (speeds Real.sqrt g p b n i < 0 → (invR Real.sqrt g (p.ze + b) (p.qx / (p.ze + b)) (p.qy / (p.ze + b)) n *ᵥ (comp qi - comp p)) i = 0) := by
  obtain ⟨h1, h2⟩ := eigenvectors_inverse real_isSqrt hg hw (p.qx / (p.ze + b)) (p.qy / (p.ze + b)) hn
  obtain ⟨-, -, -, hp, hm⟩ := eigenvalues real_isSqrt hg p ⟨b, p.ze + b, 1⟩ rfl hw hn _ rfl
  simp only at hp hm
  set R := matR Real.sqrt g (p.ze + b) (p.qx / (p.ze + b)) (p.qy / (p.ze + b)) n
  set I := invR Real.sqrt g (p.ze + b) (p.qx / (p.ze + b)) (p.qy / (p.ze + b)) n
  set s := speeds Real.sqrt g p b n
  have ep : getAplus Real.sqrt g p ⟨b, p.ze + b, 1⟩ n = R * diagonal (fun i => max (s i) 0) * I := by
    rw [← hp, Matrix.mul_assoc, h1, Matrix.mul_one]
  have em : getAminus Real.sqrt g p ⟨b, p.ze + b, 1⟩ n = R * diagonal (fun i => min (s i) 0) * I := by
    rw [← hm, Matrix.mul_assoc, h1, Matrix.mul_one]
  have e : gap Real.sqrt g n b q qi p =
      R *ᵥ (fun i => max (s i) 0 * (I *ᵥ (comp q - comp p)) i - min (s i) 0 * (I *ᵥ (comp qi - comp p)) i) := by
    simp only [gap, ep, em]
    simp only [← mulVec_mulVec]
    rw [← mulVec_sub]
    congr 1
    funext i
    simp only [Pi.sub_apply, mulVec_diagonal]
  have inj : ∀ y, R *ᵥ y = 0 → y = 0 := by
    intro y hy
    have := congrArg (fun z => I *ᵥ z) hy
    simp only [mulVec_mulVec, h2, one_mulVec, mulVec_zero] at this
    exact this
  rw [e]
  constructor
  · intro h i
    have hi := congrFun (inj _ h) i
    simp only [Pi.zero_apply] at hi
    constructor
    · intro hs
      rw [max_eq_left hs.le, min_eq_right hs.le, zero_mul, sub_zero] at hi
      exact (mul_eq_zero.1 hi).resolve_left hs.ne'
    · intro hs
      rw [max_eq_right hs.le, min_eq_left hs.le, zero_mul, zero_sub, neg_eq_zero] at hi
      exact (mul_eq_zero.1 hi).resolve_left hs.ne
  · intro h
    have : (fun i => max (s i) 0 * (I *ᵥ (comp q - comp p)) i - min (s i) 0 * (I *ᵥ (comp qi - comp p)) i) = 0 := by
      funext i
      rcases lt_trichotomy (s i) 0 with hs | hs | hs
      · rw [(h i).2 hs, max_eq_right hs.le]; simp
      · rw [hs]; simp
      · rw [(h i).1 hs, min_eq_right hs.le]; simp
    rw [this, mulVec_zero]

/-! ### States in equilibrium -/

/-- With interior, prescribed state and trace the same, the pointwise matrix is minus |A|. -/
theorem equilibrium_matrix {g : ℝ} (hg : 0 < g) {o : OpenEdge ℝ} {c : Coef ℝ} (hn : Swe.Props.Unit o.n) {gp : ℕ}
    (hw : 0 < (traceAt o c gp).ze + o.bath gp) (h1 : o.q gp = traceAt o c gp) (h2 : o.qinf gp = traceAt o c gp) :
    ∃ R I : M3 ℝ, R * I = 1 ∧ I * R = 1 ∧ R = matR Real.sqrt g ((traceAt o c gp).ze + o.bath gp)
      ((traceAt o c gp).qx / ((traceAt o c gp).ze + o.bath gp)) ((traceAt o c gp).qy / ((traceAt o c gp).ze + o.bath gp)) o.n ∧
      dB Real.sqrt g o c gp = R * diagonal (fun i => -|speeds Real.sqrt g (traceAt o c gp) (o.bath gp) o.n i|) * I ∧
      gap Real.sqrt g o.n (o.bath gp) (o.q gp) (o.qinf gp) (traceAt o c gp) = 0 := by
  obtain ⟨e1, e2⟩ := eigenvectors_inverse real_isSqrt hg hw ((traceAt o c gp).qx / ((traceAt o c gp).ze + o.bath gp))
    ((traceAt o c gp).qy / ((traceAt o c gp).ze + o.bath gp)) hn
  obtain ⟨-, -, -, hp, hm⟩ := eigenvalues real_isSqrt hg (traceAt o c gp) ⟨o.bath gp, (traceAt o c gp).ze + o.bath gp, 1⟩ rfl hw hn _ rfl
  refine ⟨_, _, e1, e2, rfl, ?_, ?_⟩
  · have hd : dB Real.sqrt g o c gp = getAminus Real.sqrt g (traceAt o c gp) (traceAux o c gp) o.n -
        getAplus Real.sqrt g (traceAt o c gp) (traceAux o c gp) o.n := by
      ext i j
      rw [dB_apply, h1, h2]
      simp
    rw [hd]
    have hs : (diagonal fun i => -|speeds Real.sqrt g (traceAt o c gp) (o.bath gp) o.n i|) =
        diagonal (fun i => min (speeds Real.sqrt g (traceAt o c gp) (o.bath gp) o.n i) 0) -
        diagonal (fun i => max (speeds Real.sqrt g (traceAt o c gp) (o.bath gp) o.n i) 0) := by
      rw [diagonal_sub]
      congr 1
      funext i
      rcases le_total 0 (speeds Real.sqrt g (traceAt o c gp) (o.bath gp) o.n i) with h | h
      · rw [abs_of_nonneg h, min_eq_right h, max_eq_left h]; ring
      · rw [abs_of_nonpos h, min_eq_left h, max_eq_right h]; ring
    simp only at hp hm
    rw [hs, Matrix.mul_sub, Matrix.sub_mul, ← hp, ← hm, Matrix.mul_assoc, e1, Matrix.mul_assoc, e1, Matrix.mul_one, Matrix.mul_one]
    rfl
  · simp only [gap, h1, h2, sub_self, mulVec_zero]

/-- What is asked of a solver: its answer solves the system, and it has an answer if the matrix is regular. -/
structure IsSolver (slv : Solver ℝ) : Prop where
  sound : ∀ n M b x, slv n M b = some x → ∀ r < n, ∑ s ∈ Finset.range n, M r s * x s = b r
  total : ∀ n M b, (∀ y : ℕ → ℝ, (∀ r < n, ∑ s ∈ Finset.range n, M r s * y s = 0) → ∀ r < n, y r = 0) → ∃ x, slv n M b = some x

/-- C81, partial: in equilibrium the Newton matrix is regular if no characteristic speed vanishes at any Gauss point. Missing: other states, and water that
does not flow through the boundary, where it is false (`singular_at_rest`). -/
theorem regular_partial {g : ℝ} (hg : 0 < g) {o : OpenEdge ℝ} (hE : Fits o.E) (hn : Swe.Props.Unit o.n)
    {c : Coef ℝ} (hw : ∀ gp < o.E.ngp, 0 < (traceAt o c gp).ze + o.bath gp)
    (h3 : ∀ gp < o.E.ngp, ∀ i, speeds Real.sqrt g (traceAt o c gp) (o.bath gp) o.n i ≠ 0)
    (hq : ∀ gp < o.E.ngp, o.q gp = traceAt o c gp ∧ o.qinf gp = traceAt o c gp) (y : ℕ → ℝ)
    (hy : ∀ r < 3 * o.E.ndof, ∑ s ∈ Finset.range (3 * o.E.ndof), deltaHat Real.sqrt g o c r s * y s = 0) : ∀ r < 3 * o.E.ndof, y r = 0 := by
  intro r hr
  have h0 := (fixed_trace (g := g) hE (o := o) (c := c)).2 fun gp hgp => by
    obtain ⟨_, _, -, -, -, -, h⟩ := equilibrium_matrix hg hn (hw gp hgp) (hq gp hgp).1 (hq gp hgp).2
    exact h
  have hp := (newton_pointwise (g := g) (o := o) (c := c) hE y).1 fun r hr => by rw [hy r hr, h0 r hr]
  have hz : ∀ gp < o.E.ngp, change o y gp = 0 := by
    intro gp hgp
    obtain ⟨R, I, e1, e2, -, hd, hgap⟩ := equilibrium_matrix hg hn (hw gp hgp) (hq gp hgp).1 (hq gp hgp).2
    have h := hp gp hgp
    rw [hgap, neg_zero, hd] at h
    have h := congrArg (fun z => I *ᵥ z) h
    simp only [mulVec_zero, mulVec_mulVec] at h
    rw [Matrix.mul_assoc, ← Matrix.mul_assoc, e2, Matrix.one_mul, ← mulVec_mulVec] at h
    have hI : I *ᵥ change o y gp = 0 := by
      funext i
      have hi := congrFun h i
      simp only [mulVec_diagonal, Pi.zero_apply] at hi
      exact (mul_eq_zero.1 hi).resolve_left (neg_ne_zero.2 (abs_ne_zero.2 (h3 gp hgp i)))
    have h := congrArg (fun z => R *ᵥ z) hI
    simp only [mulVec_mulVec, e1, one_mulVec, mulVec_zero] at h
    exact h
  have := hE.functions (fun dof => y (3 * dof + r % 3)) (fun gp hgp => congrFun (hz gp hgp) ⟨r % 3, by omega⟩) (r / 3) (by omega)
  rw [← this]
  congr 1
  omega

/-- C80: the trace of a stream that passes the boundary freely is kept, and the flux is the physical one: if interior and prescribed state are the
trace, the trace is wet and no characteristic speed vanishes, then the iteration ends after one step without changing the trace. -/
theorem stream_kept {g : ℝ} (hg : 0 < g) {slv : Solver ℝ} (hs : IsSolver slv) {o : OpenEdge ℝ} (hE : Fits o.E) (hn : Swe.Props.Unit o.n)
    {c : Coef ℝ} (hw : ∀ gp < o.E.ngp, 0 < (traceAt o c gp).ze + o.bath gp)
    (h3 : ∀ gp < o.E.ngp, ∀ i, speeds Real.sqrt g (traceAt o c gp) (o.bath gp) o.n i ≠ 0)
    (hq : ∀ gp < o.E.ngp, o.q gp = traceAt o c gp ∧ o.qinf gp = traceAt o c gp) :
    ∃ c' F, openBoundary Real.sqrt g slv o c = some (c', F) ∧ (∀ v, ∀ dof < o.E.ndof, c' v dof = c v dof) ∧
      ∀ gp < o.E.ngp, traceAt o c' gp = traceAt o c gp ∧ F gp = physical g 1 (o.bath gp) (o.q gp) o.n := by
  have regular := regular_partial hg hE hn hw h3 hq
  obtain ⟨x, hx⟩ := hs.total _ _ (rhsHat Real.sqrt g o c) regular
  have hx0 : ∀ r < 3 * o.E.ndof, x r = 0 := by
    refine regular x fun r hr => ?_
    rw [hs.sound _ _ _ _ hx r hr]
    refine (fixed_trace (g := g) hE (o := o) (c := c)).2 (fun gp hgp => ?_) r hr
    obtain ⟨_, _, -, -, -, -, h⟩ := equilibrium_matrix hg hn (hw gp hgp) (hq gp hgp).1 (hq gp hgp).2
    exact h
  have hconv : converged Real.sqrt o x = true := by
    unfold converged
    rw [Finset.sum_eq_zero fun r hr => by rw [hx0 r (Finset.mem_range.1 hr), mul_zero], Real.sqrt_zero, zero_div]
    simp
  have hsame : ∀ v, ∀ dof < o.E.ndof, correctTrace c x v dof = c v dof := by
    intro v dof hd
    simp only [correctTrace, reshapeCol]
    rw [hx0 _ (by omega), add_zero]
  have htr : ∀ gp, traceAt o (correctTrace c x) gp = traceAt o c gp := by
    intro gp
    apply comp_inj
    rw [correct_change]
    have : change o x gp = 0 := by
      funext v
      simp only [change, ugp, Pi.zero_apply]
      exact Finset.sum_eq_zero fun dof hd => by rw [hx0 _ (by have := Finset.mem_range.1 hd; omega), zero_mul]
    rw [this, add_zero]
  refine ⟨correctTrace c x, openFlux Real.sqrt g o (correctTrace c x), ?_, hsame, fun gp hgp => ⟨htr gp, ?_⟩⟩
  · rw [openBoundary, show (100 : ℕ) = 99 + 1 from rfl, trace, hx, Option.bind_some]
    simp only [hconv, if_true, Option.map_some]
  · have h1 := (hq gp hgp).1
    simp only [openFlux, htr, traceAux, h1]
    rw [mulQ_tau _ _ _ _ _ rfl, (flux_physical g (traceAt o c gp) ⟨o.bath gp, (traceAt o c gp).ze + o.bath gp, 1⟩ rfl (hw gp hgp) o.n).1]
    ext <;> simp

/-- C80: the flux at an open boundary is the physical flux of the trace plus the stabilization: what the interior state has more than the trace leaves the
element at the speed of the fastest wave. -/
theorem open_flux (g : ℝ) (o : OpenEdge ℝ) (c : Coef ℝ) (gp : ℕ) (hw : 0 < (traceAt o c gp).ze + o.bath gp) :
    openFlux Real.sqrt g o c gp = physical g 1 (o.bath gp) (traceAt o c gp) o.n + Q.smul (wave Real.sqrt g (o.bath gp) (traceAt o c gp) o.n) (o.q gp - traceAt o c gp) := by
  unfold openFlux
  simp only [traceAux]
  rw [mulQ_tau _ _ _ _ _ rfl, (flux_physical g (traceAt o c gp) ⟨o.bath gp, (traceAt o c gp).ze + o.bath gp, 1⟩ rfl hw o.n).1]

/-- With still traces, a higher interior level flows out. -/
example (g : ℝ) (hg : 0 < g) (o : OpenEdge ℝ) (c : Coef ℝ) (gp : ℕ) (hc : traceAt o c gp = ⟨0, 0, 0⟩) (hb : 0 < o.bath gp) (hq : (o.q gp).ze = 1) :
    0 < (openFlux Real.sqrt g o c gp).ze := by
  rw [open_flux g o c gp (by rw [hc]; simpa using hb), hc]
  simp [physical, Q.smul, wave, hq]
  positivity

/-- C80: in a uniform stream with the stream prescribed, whose trace is the stream, the fluxes of the open boundaries are those which
`ehdg_free_stream` (C77) asks for, and the trace is the stream again. -/
theorem stream_passes {v : Env ℝ} {dat : ℕ → EltData ℝ} {m : Mesh ℝ} {F : ℕ → MvPolynomial (Fin 2) ℝ} {P : ℕ} {ε b t ramp : ℝ} {U : Q ℝ} {q : State ℝ}
    (hR : Rules v.N F P ε) (hm : StreamMesh v dat m P U b t ramp) (hq : Uniform dat m.elts U q) (hsq : v.sq = Real.sqrt) (hg : 0 < v.src.g)
    {slv : Solver ℝ} (hs : IsSolver slv) (x : Faces ℝ) (c c' : Bnd ℝ → Coef ℝ)
    (hside : ∀ d ∈ m.bnds, d.f < 3) (hfit : ∀ d ∈ m.bnds, Fits (openEdge v dat q (fun _ => U) d).E)
    (h3 : ∀ d ∈ m.bnds, d.kind ≠ .land → ∀ i, speeds Real.sqrt v.src.g U b (normal v.sq (dat d.e).elt.tri d.f) i ≠ 0)
    (hc : ∀ d ∈ m.bnds, ∀ gp, traceAt (openEdge v dat q (fun _ => U) d) (c d) gp = U)
    (hx : ∀ d ∈ m.bnds, d.kind ≠ .land → openBoundary v.sq v.src.g slv (openEdge v dat q (fun _ => U) d) (c d) = some (c' d, x.openF d)) :
    Passes v dat m x U ∧ ∀ d ∈ m.bnds, d.kind ≠ .land → ∀ gp < (Element.faceRule v.N (dat d.e).elt.p).length,
      traceAt (openEdge v dat q (fun _ => U) d) (c' d) gp = U := by
  have key : ∀ d ∈ m.bnds, d.kind ≠ .land → ∀ gp < (Element.faceRule v.N (dat d.e).elt.p).length,
      traceAt (openEdge v dat q (fun _ => U) d) (c' d) gp = U ∧ x.openF d gp =
        physical v.src.g 1 ((dat d.e).elt.value v.N (dat d.e).bath (Element.facePt (Element.faceRule v.N (dat d.e).elt.p) d.f gp)) U
          (normal v.sq (dat d.e).elt.tri d.f) := by
    intro d hd hk gp hgp
    have h1 := hm.owner d hd
    have hb : ∀ gp, (openEdge v dat q (fun _ => U) d).bath gp = b := fun gp => const_value hR (hm.bed _ h1) _
    have hn : Swe.Props.Unit (openEdge v dat q (fun _ => U) d).n := (normal_spec hm.sqrt (dat d.e).elt.tri (hm.ccw _ h1) d.f (hside d hd)).1
    have hqv : ∀ gp, (openEdge v dat q (fun _ => U) d).q gp = U := fun gp => stream_value hR hq h1 _
    obtain ⟨c'', F, e, -, h⟩ := stream_kept hg hs (hfit d hd) hn (c := c d) (fun gp _ => by rw [hc d hd, hb]; exact hm.wet)
      (fun gp _ i => by rw [hc d hd, hb]; exact h3 d hd hk i) (fun gp _ => ⟨by rw [hc d hd, hqv], by rw [hc d hd]; rfl⟩)
    have e2 := hx d hd hk
    rw [hsq, e, Option.some.injEq, Prod.mk.injEq] at e2
    obtain ⟨rfl, rfl⟩ := e2
    have h := h gp hgp
    rw [hc d hd, hqv] at h
    exact h
  exact ⟨fun d hd hk gp hgp => (key d hd hk gp hgp).2, fun d hd hk gp hgp => (key d hd hk gp hgp).1⟩

/-- C81, negation: the Newton matrix need not be regular. Where interior, prescribed state and trace are the same and nothing flows through the
boundary, for example in water at rest, the matrix of every edge is singular. -/
theorem singular_at_rest {g : ℝ} (hg : 0 < g) {p : ℕ} (hp : p ≤ 32) {J : ℝ} (hJ : 0 < J) (ccw : Bool) {o : OpenEdge ℝ}
    (ho : o.E = tables p (codeRule p) J ccw) (hn : Swe.Props.Unit o.n) {c : Coef ℝ}
    (hw : ∀ gp < o.E.ngp, 0 < (traceAt o c gp).ze + o.bath gp)
    (h0 : ∀ gp < o.E.ngp, (traceAt o c gp).qx * o.n.x + (traceAt o c gp).qy * o.n.y = 0)
    (hq : ∀ gp < o.E.ngp, o.q gp = traceAt o c gp ∧ o.qinf gp = traceAt o c gp) :
    ∃ y : ℕ → ℝ, (∃ r < 3 * o.E.ndof, y r ≠ 0) ∧
      ∀ r < 3 * o.E.ndof, ∑ s ∈ Finset.range (3 * o.E.ndof), deltaHat Real.sqrt g o c r s * y s = 0 := by
  have hE : Fits o.E := ho ▸ tables_fit hp hJ ccw
  have hnd : 0 < o.E.ndof := by
    obtain ⟨r, hr, -⟩ := (Quadrature.Props.line_rules (2 * p + 1)).2 (by omega)
    rw [ho]
    show 0 < (codeRule p).length
    simp only [codeRule, hr, Option.getD_some, List.length_map, ndof_rows hr]
    omega
  have hlam : ∀ gp, o.E.lam 0 gp = 1 := fun gp => by rw [ho]; simp [tables, Basis.legendre, Basis.jacobi]
  let y : ℕ → ℝ := fun r => if r = 1 then -o.n.y else if r = 2 then o.n.x else 0
  have hch : ∀ gp, change o y gp = ![0, -o.n.y, o.n.x] := by
    intro gp
    funext v
    simp only [change, ugp]
    rw [Finset.sum_eq_single 0]
    · rw [hlam, mul_one]
      fin_cases v <;> simp [y]
    · intro k _ hk
      have h1 : 3 * k + v.val ≠ 1 := by omega
      have h2 : 3 * k + v.val ≠ 2 := by omega
      simp [y, h1, h2]
    · intro h
      exact absurd (Finset.mem_range.2 hnd) h
  refine ⟨y, ?_, ?_⟩
  · by_contra hc
    push Not at hc
    have h1 := hc 1 (by omega)
    have h2 := hc 2 (by omega)
    have hn' : o.n.x ^ 2 + o.n.y ^ 2 = 1 := hn
    simp only [y, if_true] at h1 h2
    norm_num at h1 h2
    rw [h1, h2] at hn'
    norm_num at hn'
  · intro r hr
    have hfix := (fixed_trace (g := g) hE (o := o) (c := c)).2 (fun gp hgp => by
      obtain ⟨_, _, -, -, -, -, h⟩ := equilibrium_matrix hg hn (hw gp hgp) (hq gp hgp).1 (hq gp hgp).2
      exact h) r hr
    rw [← hfix]
    refine (newton_pointwise (g := g) (o := o) (c := c) hE y).2 (fun gp hgp => ?_) r hr
    obtain ⟨R, I, -, e2, hR, hd, hgap⟩ := equilibrium_matrix hg hn (hw gp hgp) (hq gp hgp).1 (hq gp hgp).2
    have hcol : change o y gp = R *ᵥ ![0, 1, 0] := by
      rw [hch, hR]
      funext i
      fin_cases i <;> simp [matR, mulVec, dotProduct, Fin.sum_univ_three]
    rw [hgap, neg_zero, hd, hcol, mulVec_mulVec, Matrix.mul_assoc, e2, Matrix.mul_one, ← mulVec_mulVec]
    have : diagonal (fun i => -|speeds Real.sqrt g (traceAt o c gp) (o.bath gp) o.n i|) *ᵥ ![0, 1, 0] = 0 := by
      funext i
      rw [mulVec_diagonal]
      fin_cases i <;> simp [speeds, h0 gp hgp]
    rw [this, mulVec_zero]

/-! ### Non-vacuity -/

open Classical in
/-- There are solvers. -/
theorem solver_exists : ∃ slv : Solver ℝ, IsSolver slv := by
  refine ⟨fun n M b => if h : ∃ x : ℕ → ℝ, ∀ r < n, ∑ s ∈ Finset.range n, M r s * x s = b r then some h.choose else none, ?_, ?_⟩
  · intro n M b x hx
    by_cases h : ∃ x : ℕ → ℝ, ∀ r < n, ∑ s ∈ Finset.range n, M r s * x s = b r
    · rw [dif_pos h, Option.some.injEq] at hx
      exact hx ▸ h.choose_spec
    · rw [dif_neg h] at hx
      cases hx
  · intro n M b hreg
    let A : Matrix (Fin n) (Fin n) ℝ := fun r s => M r.val s.val
    have key : ∀ (x : ℕ → ℝ) (r : Fin n), (A *ᵥ fun s => x s.val) r = ∑ s ∈ Finset.range n, M r.val s * x s := by
      intro x r
      rw [Finset.sum_range]
      rfl
    have inj : Function.Injective A.mulVec := by
      intro y z hyz
      funext i
      have h := hreg (fun k => if hk : k < n then y ⟨k, hk⟩ - z ⟨k, hk⟩ else 0) (fun r hr => ?_) i.val i.isLt
      · simp only [i.isLt, dif_pos] at h
        exact sub_eq_zero.1 h
      · have h := key (fun k => if hk : k < n then y ⟨k, hk⟩ - z ⟨k, hk⟩ else 0) ⟨r, hr⟩
        rw [← h]
        have e : (fun s : Fin n => if hk : s.val < n then y ⟨s.val, hk⟩ - z ⟨s.val, hk⟩ else 0) = y - z := by
          funext s
          simp
        have hyz' : A *ᵥ y = A *ᵥ z := hyz
        rw [e, mulVec_sub, hyz', sub_self]
        rfl
    have hu := mulVec_injective_iff_isUnit.1 inj
    obtain ⟨x, hx⟩ := (mulVec_surjective_iff_isUnit.2 hu) fun r => b r.val
    have h : ∃ x : ℕ → ℝ, ∀ r < n, ∑ s ∈ Finset.range n, M r s * x s = b r := by
      refine ⟨fun k => if hk : k < n then x ⟨k, hk⟩ else 0, fun r hr => ?_⟩
      have h := key (fun k => if hk : k < n then x ⟨k, hk⟩ else 0) ⟨r, hr⟩
      rw [← h]
      have e : (fun s : Fin n => if hk : s.val < n then x ⟨s.val, hk⟩ else 0) = x := by funext s; simp
      have hx' : A *ᵥ x = fun r => b r.val := hx
      rw [e, hx']
    exact ⟨_, dif_pos h⟩

/-- An edge with the stream `U` inside and prescribed, over the depth `b` below zero, normal in direction of x. -/
noncomputable def streamEdge (p : ℕ) (b : ℝ) (U : Q ℝ) : OpenEdge ℝ := ⟨tables p (codeRule p) 1 true, ⟨1, 0⟩, fun _ => b, fun _ => U, fun _ => U⟩

/-- The coefficients of a constant trace. -/
def constCoef (U : Q ℝ) : Coef ℝ := fun v dof => if dof = 0 then comp U v else 0

theorem const_trace {p : ℕ} (hp : p ≤ 32) (b : ℝ) (U : Q ℝ) (gp : ℕ) : traceAt (streamEdge p b U) (constCoef U) gp = U := by
  apply comp_inj
  obtain ⟨r, hr, -⟩ := (Quadrature.Props.line_rules (2 * p + 1)).2 (by omega)
  have hnd : (streamEdge p b U).E.ndof = p + 1 := by
    show (codeRule p).length = p + 1
    simp only [codeRule, hr, Option.getD_some, List.length_map, ndof_rows hr]
  rw [traceAt, comp_ofComp]
  funext v
  simp only [ugp, hnd, constCoef]
  rw [Finset.sum_eq_single 0]
  · simp [streamEdge, tables, Basis.legendre, Basis.jacobi]
  · intro k _ hk
    simp [hk]
  · intro h
    simp at h

/-- Depth 4, gravity 1, velocity 1: speeds -1, 1, 3. The trace is kept and the flux is (4, 4 + 8 - 9/2, 0). -/
example : ∃ slv, IsSolver slv ∧ ∃ c' F, openBoundary Real.sqrt 1 slv (streamEdge 2 3 ⟨1, 4, 0⟩) (constCoef ⟨1, 4, 0⟩) = some (c', F) ∧
    F 0 = ⟨4, 15 / 2, 0⟩ := by
  obtain ⟨slv, hs⟩ := solver_exists
  have ht := const_trace (p := 2) (by norm_num) 3 ⟨1, 4, 0⟩
  have h4 : Real.sqrt (1 + 3) = 2 := by
    rw [show (1 + 3 : ℝ) = 2 ^ 2 by norm_num]; exact Real.sqrt_sq (by norm_num)
  have hE : Fits (streamEdge 2 3 ⟨1, 4, 0⟩).E := tables_fit (by norm_num) one_pos true
  obtain ⟨c', F, h1, -, h3⟩ := stream_kept one_pos hs (o := streamEdge 2 3 ⟨1, 4, 0⟩) (c := constCoef ⟨1, 4, 0⟩) hE
    (by simp [Swe.Props.Unit, streamEdge]) (fun gp _ => by rw [ht]; simp only [streamEdge]; norm_num)
    (fun gp _ i => by rw [ht]; simp only [streamEdge]; fin_cases i <;> simp [speeds, h4] <;> norm_num) (fun gp _ => by rw [ht]; exact ⟨rfl, rfl⟩)
  refine ⟨slv, hs, c', F, h1, ?_⟩
  obtain ⟨r, hr, -⟩ := (Quadrature.Props.line_rules (2 * 2 + 1)).2 (by omega)
  have hnd : 0 < (streamEdge 2 3 ⟨1, 4, 0⟩).E.ngp := by
    show 0 < (codeRule 2).length
    simp only [codeRule, hr, Option.getD_some, List.length_map, ndof_rows hr]
    norm_num
  rw [(h3 0 hnd).2]
  simp only [physical, streamEdge]
  ext <;> norm_num

/-- Water at rest at depth 4: the matrix is singular. -/
example : ∃ y : ℕ → ℝ, (∃ r < 3 * (streamEdge 2 3 ⟨1, 0, 0⟩).E.ndof, y r ≠ 0) ∧
    ∀ r < 3 * (streamEdge 2 3 ⟨1, 0, 0⟩).E.ndof, ∑ s ∈ Finset.range (3 * (streamEdge 2 3 ⟨1, 0, 0⟩).E.ndof),
      deltaHat Real.sqrt 1 (streamEdge 2 3 ⟨1, 0, 0⟩) (constCoef ⟨1, 0, 0⟩) r s * y s = 0 := by
  have ht := const_trace (p := 2) (by norm_num) 3 ⟨1, 0, 0⟩
  exact singular_at_rest one_pos (p := 2) (by norm_num) one_pos true rfl (by simp [Swe.Props.Unit, streamEdge])
    (fun gp _ => by rw [ht]; simp only [streamEdge]; norm_num) (fun gp _ => by rw [ht]; simp) (fun gp _ => by rw [ht]; exact ⟨rfl, rfl⟩)

/-- An iteration with one Gauss point, over ℚ: gravity 1, depth 4, interior state a little higher than the prescribed one. The matrix, the vector, and
the trace after one step with the exact solver of this system. -/
def smallEdge : OpenEdge ℚ := ⟨tables 0 [(2, 0)] 1 true, ⟨1, 0⟩, fun _ => 3, fun _ => ⟨3 / 2, 4, 0⟩, fun _ => ⟨1, 4, 0⟩⟩
def smallCoef : Coef ℚ := fun v dof => if dof = 0 then ![1, 4, 0] v else 0
example : traceAt smallEdge smallCoef 0 = ⟨1, 4, 0⟩ := by decide +kernel
example : (List.range 3).map (rhsHat sqQ 1 smallEdge smallCoef) = [-3 / 4, -9 / 4, 0] := by decide +kernel
example : (List.range 9).map (flatten 3 fun r s => deltaHat sqQ 1 smallEdge smallCoef r s) =
    (List.range 9).map (flatten 3 fun r s => 2 * dB sqQ 1 smallEdge smallCoef 0 (varOf r) (varOf s)) := by decide +kernel

end Verif.Ehdg.Props
