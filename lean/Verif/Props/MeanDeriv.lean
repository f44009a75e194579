import Verif.Props.EhdgTrace
import Mathlib.Analysis.Calculus.Deriv.Slope

/-!
# Derivatives at kinks

The stabilization and the characteristic matrices contain absolute values. The code differentiates them with `sgn`, which is zero at zero: the mean of both
one-sided derivatives. With that meaning the derivatives of C47, C63 and C80 hold at every wet state.
-/

namespace Verif.Swe.Props
open Verif.Swe Verif.Geometry Verif.Geometry.Props Verif.Edge Verif.Edge.Props Verif.Ehdg Verif.Ehdg.Props Matrix

/-- `D` is the mean of the derivatives of `f` from the right and from the left. -/
def MeanDeriv (f : ℝ → ℝ) (D x : ℝ) : Prop :=
  ∃ d, HasDerivWithinAt f (D + d) (Set.Ici x) x ∧ HasDerivWithinAt f (D - d) (Set.Iic x) x

theorem MeanDeriv.of {f : ℝ → ℝ} {D x : ℝ} (h : HasDerivAt f D x) : MeanDeriv f D x :=
  ⟨0, by simpa using h.hasDerivWithinAt, by simpa using h.hasDerivWithinAt⟩

/-- Where there is a derivative, the mean is the derivative. -/
theorem MeanDeriv.hasDerivAt {f : ℝ → ℝ} {D x : ℝ} (h : MeanDeriv f D x) (hd : DifferentiableAt ℝ f x) : HasDerivAt f D x := by
  obtain ⟨d, h1, h2⟩ := h
  have h3 := hd.hasDerivAt
  have e1 := (uniqueDiffWithinAt_Ici x).eq_deriv _ h1 h3.hasDerivWithinAt
  have e2 := (uniqueDiffWithinAt_Iic x).eq_deriv _ h2 h3.hasDerivWithinAt
  have : D = deriv f x := by linarith
  rw [this]; exact h3

theorem MeanDeriv.congr_deriv {f : ℝ → ℝ} {D D' x : ℝ} (h : MeanDeriv f D x) (e : D = D') : MeanDeriv f D' x := e ▸ h

theorem MeanDeriv.add {f g : ℝ → ℝ} {D D' x : ℝ} (h : MeanDeriv f D x) (h' : MeanDeriv g D' x) : MeanDeriv (fun y => f y + g y) (D + D') x := by
  obtain ⟨d, h1, h2⟩ := h
  obtain ⟨d', h1', h2'⟩ := h'
  exact ⟨d + d', (h1.add h1').congr_deriv (by ring), (h2.add h2').congr_deriv (by ring)⟩

theorem MeanDeriv.neg {f : ℝ → ℝ} {D x : ℝ} (h : MeanDeriv f D x) : MeanDeriv (fun y => -f y) (-D) x := by
  obtain ⟨d, h1, h2⟩ := h
  exact ⟨-d, h1.neg.congr_deriv (by ring), h2.neg.congr_deriv (by ring)⟩

theorem MeanDeriv.sub {f g : ℝ → ℝ} {D D' x : ℝ} (h : MeanDeriv f D x) (h' : MeanDeriv g D' x) : MeanDeriv (fun y => f y - g y) (D - D') x := by
  simpa only [sub_eq_add_neg] using h.add h'.neg

theorem MeanDeriv.mul {f g : ℝ → ℝ} {D G x : ℝ} (h : MeanDeriv f D x) (hg : HasDerivAt g G x) : MeanDeriv (fun y => f y * g y) (D * g x + f x * G) x := by
  obtain ⟨d, h1, h2⟩ := h
  exact ⟨d * g x, (h1.mul hg.hasDerivWithinAt).congr_deriv (by ring), (h2.mul hg.hasDerivWithinAt).congr_deriv (by ring)⟩

theorem MeanDeriv.mul' {f g : ℝ → ℝ} {D G x : ℝ} (hg : HasDerivAt g G x) (h : MeanDeriv f D x) : MeanDeriv (fun y => g y * f y) (G * f x + g x * D) x := by
  have := h.mul hg
  simp only [mul_comm] at this ⊢
  exact this.congr_deriv (by ring)

theorem MeanDeriv.mul_const {f : ℝ → ℝ} {D x : ℝ} (h : MeanDeriv f D x) (c : ℝ) : MeanDeriv (fun y => f y * c) (D * c) x :=
  (h.mul (hasDerivAt_const x c)).congr_deriv (by simp)

theorem MeanDeriv.const_mul {f : ℝ → ℝ} {D x : ℝ} (c : ℝ) (h : MeanDeriv f D x) : MeanDeriv (fun y => c * f y) (c * D) x := by
  simpa only [mul_comm] using h.mul_const c

theorem MeanDeriv.const_add {f : ℝ → ℝ} {D x : ℝ} (c : ℝ) (h : MeanDeriv f D x) : MeanDeriv (fun y => c + f y) D x :=
  ((MeanDeriv.of (hasDerivAt_const x c)).add h).congr_deriv (by simp)

theorem MeanDeriv.list {α : Type} (l : List α) (f : α → ℝ → ℝ) (f' : α → ℝ) {x : ℝ} (h : ∀ a ∈ l, MeanDeriv (f a) (f' a) x) :
    MeanDeriv (fun y => (l.map fun a => f a y).sum) (l.map f').sum x := by
  induction l with
  | nil => simpa using MeanDeriv.of (hasDerivAt_const x (0 : ℝ))
  | cons a l ih =>
    simp only [List.map_cons, List.sum_cons]
    exact (h a (by simp)).add (ih fun b hb => h b (by simp [hb]))

theorem MeanDeriv.sum {α : Type} (u : Finset α) {f : α → ℝ → ℝ} {f' : α → ℝ} {x : ℝ} (h : ∀ a ∈ u, MeanDeriv (f a) (f' a) x) :
    MeanDeriv (fun y => ∑ a ∈ u, f a y) (∑ a ∈ u, f' a) x := by
  classical
  induction u using Finset.induction_on with
  | empty => simpa using MeanDeriv.of (hasDerivAt_const x (0 : ℝ))
  | insert a u ha ih =>
    simp only [Finset.sum_insert ha]
    exact (h a (by simp)).add (ih fun b hb => h b (by simp [hb]))

/-- Along a straight line through the point. -/
theorem MeanDeriv.line {f : ℝ → ℝ} {D y x : ℝ} (h : MeanDeriv f D y) (k : ℝ) : MeanDeriv (fun t => f (y + (t - x) * k)) (D * k) x := by
  obtain ⟨d, h1, h2⟩ := h
  have e : y + (x - x) * k = y := by ring
  have hin : HasDerivAt (fun t : ℝ => y + (t - x) * k) k x := by
    have := (((hasDerivAt_id x).sub_const x).mul_const k).const_add y
    simpa using this
  rcases le_total 0 k with hk | hk
  · refine ⟨d * k, ?_, ?_⟩
    · have := HasDerivWithinAt.comp x (h := fun t : ℝ => y + (t - x) * k) (s' := Set.Ici y) (s := Set.Ici x) (by rw [e]; exact h1) hin.hasDerivWithinAt
        fun t ht => by
          have := mul_nonneg (sub_nonneg.2 (Set.mem_Ici.1 ht)) hk
          exact Set.mem_Ici.2 (by linarith)
      exact this.congr_deriv (by ring)
    · have := HasDerivWithinAt.comp x (h := fun t : ℝ => y + (t - x) * k) (s' := Set.Iic y) (s := Set.Iic x) (by rw [e]; exact h2) hin.hasDerivWithinAt
        fun t ht => by
          have := mul_nonneg (sub_nonneg.2 (Set.mem_Iic.1 ht)) hk
          exact Set.mem_Iic.2 (by linarith)
      exact this.congr_deriv (by ring)
  · refine ⟨-(d * k), ?_, ?_⟩
    · have := HasDerivWithinAt.comp x (h := fun t : ℝ => y + (t - x) * k) (s' := Set.Iic y) (s := Set.Ici x) (by rw [e]; exact h2) hin.hasDerivWithinAt
        fun t ht => by
          have := mul_nonneg (sub_nonneg.2 (Set.mem_Ici.1 ht)) (neg_nonneg.2 hk)
          exact Set.mem_Iic.2 (by linarith)
      exact this.congr_deriv (by ring)
    · have := HasDerivWithinAt.comp x (h := fun t : ℝ => y + (t - x) * k) (s' := Set.Ici y) (s := Set.Iic x) (by rw [e]; exact h1) hin.hasDerivWithinAt
        fun t ht => by
          have := mul_nonneg (sub_nonneg.2 (Set.mem_Iic.1 ht)) (neg_nonneg.2 hk)
          exact Set.mem_Ici.2 (by linarith)
      exact this.congr_deriv (by ring)

/-- The absolute value of a differentiable function, anywhere. -/
theorem abs_mean {f : ℝ → ℝ} {d t : ℝ} (h : HasDerivAt f d t) : MeanDeriv (fun x => |f x|) (d * sgn (f t)) t := by
  by_cases h0 : f t = 0
  · have hz : d * sgn (f t) = 0 := by simp [sgn, h0]
    refine ⟨|d|, ?_, ?_⟩
    · rw [hz, zero_add, ← hasDerivWithinAt_Ioi_iff_Ici, hasDerivWithinAt_iff_tendsto_slope' (by simp)]
      have := ((hasDerivWithinAt_iff_tendsto_slope' (s := Set.Ioi t) (by simp)).1 h.hasDerivWithinAt).abs
      refine this.congr' (Filter.eventuallyEq_of_mem self_mem_nhdsWithin fun x hx => ?_)
      have hx : 0 < x - t := sub_pos.2 hx
      simp only [slope_def_field, h0, abs_zero, sub_zero, abs_div, abs_of_pos hx]
    · rw [hz, zero_sub, ← hasDerivWithinAt_Iio_iff_Iic, hasDerivWithinAt_iff_tendsto_slope' (by simp)]
      have := ((hasDerivWithinAt_iff_tendsto_slope' (s := Set.Iio t) (by simp)).1 h.hasDerivWithinAt).abs.neg
      refine this.congr' (Filter.eventuallyEq_of_mem self_mem_nhdsWithin fun x hx => ?_)
      have hx : x - t < 0 := sub_neg.2 hx
      simp only [slope_def_field, h0, abs_zero, sub_zero, abs_div, abs_of_neg hx]
      rw [div_neg, neg_neg]
  · exact MeanDeriv.of (abs_deriv h h0)

/-- All entries of `d` are mean derivatives of the entries of `f` by a variable. -/
def MeanDerivBy (f : Q ℝ → M3 ℝ) (d : M3 ℝ) (q : Q ℝ) (j : Fin 3) : Prop :=
  ∀ r s, MeanDeriv (fun x => f (setVar q j x) r s) (d r s) (getVar q j)

theorem mean_triple {R L I : Q ℝ → M3 ℝ} {dR dL dI : M3 ℝ} {q : Q ℝ} {j : Fin 3} (h1 : DerivBy R dR q j) (h2 : MeanDerivBy L dL q j) (h3 : DerivBy I dI q j) :
    MeanDerivBy (fun p => R p * L p * I p) (dR * L q * I q + R q * dL * I q + R q * L q * dI) q j := by
  intro r s
  simp only [Matrix.mul_apply, Matrix.add_apply, Fin.sum_univ_three]
  have k : ∀ i m, MeanDeriv (fun x => R (setVar q j x) r i * L (setVar q j x) i m * I (setVar q j x) m s)
      ((dR r i * L q i m + R q r i * dL i m) * I q m s + R q r i * L q i m * dI m s) (getVar q j) := by
    intro i m
    have := (MeanDeriv.mul' (h1 r i) (h2 i m)).mul (h3 m s)
    simp only [setVar_self] at this
    exact this
  have k2 := fun m => ((k 0 m).add (k 1 m)).add (k 2 m)
  have := ((k2 0).add (k2 1)).add (k2 2)
  simp only [← add_mul] at this
  refine this.congr_deriv ?_
  ring

theorem absL_mean {g b : ℝ} {q : Q ℝ} (n : P2 ℝ) (hg : 0 < g) (hw : 0 < q.ze + b) (j : Fin 3) :
    MeanDerivBy (fun p => absL Real.sqrt g (p.ze + b) (p.qx / (p.ze + b)) (p.qy / (p.ze + b)) n)
      (![dabsLze Real.sqrt g (q.ze + b) (q.qx / (q.ze + b)) (q.qy / (q.ze + b)) n,
         dabsLqx Real.sqrt g (q.ze + b) (q.qx / (q.ze + b)) (q.qy / (q.ze + b)) n,
         dabsLqy Real.sqrt g (q.ze + b) (q.qx / (q.ze + b)) (q.qy / (q.ze + b)) n] j) q j := by
  have hu := vn_deriv b q n hw j
  have hc := cel_deriv g b q hg hw j
  have k0 := abs_mean (hu.fun_sub hc)
  have k1 := abs_mean hu
  have k2 := abs_mean (hu.fun_add hc)
  have z : ∀ x : ℝ, MeanDeriv (fun _ => (0 : ℝ)) 0 x := fun x => MeanDeriv.of (hasDerivAt_const _ _)
  intro r s
  fin_cases r <;> fin_cases s
  · refine k0.congr_deriv ?_
    simp only [setVar_self]
    fin_cases j <;> simp [dabsLze, dabsLqx, dabsLqy, kron, vn]
  · refine (z _).congr_deriv ?_
    fin_cases j <;> simp [dabsLze, dabsLqx, dabsLqy]
  · refine (z _).congr_deriv ?_
    fin_cases j <;> simp [dabsLze, dabsLqx, dabsLqy]
  · refine (z _).congr_deriv ?_
    fin_cases j <;> simp [dabsLze, dabsLqx, dabsLqy]
  · refine k1.congr_deriv ?_
    simp only [setVar_self]
    fin_cases j <;> simp [dabsLze, dabsLqx, dabsLqy, kron, vn]
  · refine (z _).congr_deriv ?_
    fin_cases j <;> simp [dabsLze, dabsLqx, dabsLqy]
  · refine (z _).congr_deriv ?_
    fin_cases j <;> simp [dabsLze, dabsLqx, dabsLqy]
  · refine (z _).congr_deriv ?_
    fin_cases j <;> simp [dabsLze, dabsLqx, dabsLqy]
  · refine k2.congr_deriv ?_
    simp only [setVar_self]
    fin_cases j <;> simp [dabsLze, dabsLqx, dabsLqy, kron, vn]

/-- The coded derivatives of |A|, A+ and A- are mean derivatives at every wet state. -/
theorem dabsA_mean {g b : ℝ} (sp : ℝ) {q : Q ℝ} (n : P2 ℝ) (hg : 0 < g) (hw : 0 < q.ze + b) (j : Fin 3) :
    MeanDerivBy (fun p => getAbsA Real.sqrt g p (Swe.Props.auxAt b sp p) n)
      (![getdAbsAze Real.sqrt g q (Swe.Props.auxAt b sp q) n, getdAbsAqx Real.sqrt g q (Swe.Props.auxAt b sp q) n, getdAbsAqy Real.sqrt g q (Swe.Props.auxAt b sp q) n] j) q j ∧
    MeanDerivBy (fun p => getAplus Real.sqrt g p (Swe.Props.auxAt b sp p) n)
      (![getdAplusZe Real.sqrt g q (Swe.Props.auxAt b sp q) n, getdAplusQx Real.sqrt g q (Swe.Props.auxAt b sp q) n, getdAplusQy Real.sqrt g q (Swe.Props.auxAt b sp q) n] j) q j ∧
    MeanDerivBy (fun p => getAminus Real.sqrt g p (Swe.Props.auxAt b sp p) n)
      (![getdAminusZe Real.sqrt g q (Swe.Props.auxAt b sp q) n, getdAminusQx Real.sqrt g q (Swe.Props.auxAt b sp q) n, getdAminusQy Real.sqrt g q (Swe.Props.auxAt b sp q) n] j) q j := by
  have hR := matR_deriv g b q n hg hw j
  have hL := matL_deriv g b q n hg hw j
  have hA := absL_mean n hg hw j
  have hI := invR_deriv g b q n hg hw j
  have h := mean_triple hR hA hI
  have hp := mean_triple hR (L := fun p => matL Real.sqrt g (p.ze + b) (p.qx / (p.ze + b)) (p.qy / (p.ze + b)) n +
    absL Real.sqrt g (p.ze + b) (p.qx / (p.ze + b)) (p.qy / (p.ze + b)) n) (fun r s => (MeanDeriv.of (hL r s)).add (hA r s)) hI
  have hm := mean_triple hR (L := fun p => matL Real.sqrt g (p.ze + b) (p.qx / (p.ze + b)) (p.qy / (p.ze + b)) n -
    absL Real.sqrt g (p.ze + b) (p.qx / (p.ze + b)) (p.qy / (p.ze + b)) n) (fun r s => (MeanDeriv.of (hL r s)).sub (hA r s)) hI
  refine ⟨?_, ?_, ?_⟩
  · fin_cases j <;> exact h
  · simp only [getAplus, Matrix.smul_mul]
    intro r s
    have := (hp r s).const_mul (1 / 2)
    fin_cases j <;> exact this
  · simp only [getAminus, Matrix.smul_mul]
    intro r s
    have := (hm r s).const_mul (1 / 2)
    fin_cases j <;> exact this

/-- The same for the stabilization parameter. -/
theorem tau_mean {g b : ℝ} (sp : ℝ) {q : Q ℝ} (n : P2 ℝ) (hg : 0 < g) (hw : 0 < q.ze + b) (j : Fin 3) :
    MeanDerivBy (fun p => tauLF Real.sqrt g p (Swe.Props.auxAt b sp p) n)
      (![dtauZe Real.sqrt g q (Swe.Props.auxAt b sp q) n, dtauQx q (Swe.Props.auxAt b sp q) n, dtauQy q (Swe.Props.auxAt b sp q) n] j) q j := by
  have hu := vn_deriv b q n hw j
  have hc := cel_deriv g b q hg hw j
  have k1 := abs_mean hu
  intro r s
  simp only [tauLF, Swe.Props.auxAt, Matrix.smul_apply, smul_eq_mul]
  refine (((MeanDeriv.of hc).add k1).mul_const _).congr_deriv ?_
  simp only [setVar_self]
  fin_cases j <;> simp [dtauZe, dtauQx, dtauQy, kron]

/-- A matrix times the difference of a state and the variable state. -/
theorem mulVec_mean {f : Q ℝ → M3 ℝ} {d : M3 ℝ} {p : Q ℝ} {j : Fin 3} (hd : MeanDerivBy f d p j) (r : Q ℝ) (i : Fin 3) :
    MeanDeriv (fun x => (f (setVar p j x) *ᵥ (comp r - comp (setVar p j x))) i) ((d *ᵥ (comp r - comp p)) i - f p i j) (getVar p j) := by
  have hv : ∀ k, HasDerivAt (fun x => comp (setVar p j x) k) (kron k j) (getVar p j) := by
    intro k
    fin_cases k
    · exact ze_deriv _ j
    · exact qx_deriv _ j
    · exact qy_deriv _ j
  have hk : ∀ k, MeanDeriv (fun x => f (setVar p j x) i k * (comp r k - comp (setVar p j x) k))
      (d i k * (comp r k - comp p k) + f p i k * (-kron k j)) (getVar p j) := by
    intro k
    have := (hd i k).mul ((hv k).const_sub (comp r k))
    simp only [setVar_self] at this
    exact this
  simp only [mulVec, dotProduct, Fin.sum_univ_three, Pi.sub_apply]
  refine (((hk 0).add (hk 1)).add (hk 2)).congr_deriv ?_
  fin_cases j <;> simp [kron] <;> ring

/-- `dB_dq_hat` is the mean derivative of the gap by the trace at every wet trace. -/
theorem gap_mean {g : ℝ} {o : OpenEdge ℝ} {c : Coef ℝ} (hg : 0 < g) {gp : ℕ} (hw : 0 < (traceAt o c gp).ze + o.bath gp) (i j : Fin 3) :
    MeanDeriv (fun x => gap Real.sqrt g o.n (o.bath gp) (o.q gp) (o.qinf gp) (setVar (traceAt o c gp) j x) i) (dB Real.sqrt g o c gp i j)
      (getVar (traceAt o c gp) j) := by
  obtain ⟨-, hp, hm⟩ := dabsA_mean 1 o.n hg hw j
  have t1 := mulVec_mean hp (o.q gp) i
  have t2 := mulVec_mean hm (o.qinf gp) i
  have h := t1.sub t2
  refine h.congr_deriv ?_
  rw [dB_apply]
  simp only [traceAux, Swe.Props.auxAt]
  ring

/-- At rest there is a kink: the derivatives of the stabilization parameter from both sides are different, the code takes their mean. -/
example : MeanDeriv (fun x => |x|) 0 0 ∧ ¬ DifferentiableAt ℝ (fun x : ℝ => |x|) 0 :=
  ⟨(abs_mean (hasDerivAt_id 0)).congr_deriv (by simp [sgn]), not_differentiableAt_abs_zero⟩

end Verif.Swe.Props
