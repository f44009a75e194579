import Verif.Model.Residual
import Verif.Props.SweInit
import Verif.Props.Parallel

/-!
# C114: the reported error

The number after `L2 error:` should be the norm of the difference between the state and the true solution, however the mesh is distributed.

`residual_near`: for a true solution that is on each element a polynomial of degree at most ten, what is added for an element is the square of the
norm over the element, up to the error of the tables; `code_residual` for the tables of the program. `code_report`: the report
is the norm. `ranks_report`: the parallel program prints the same number as the serial one, whatever the partition and the order of addition.

It is not a norm for other solutions: the rule of degree twenty has negative weights, `weights_negative`. `report_nan`: there is a true solution for
which the sum of squares is negative and the program prints `nan`, on a mesh of one triangle.
-/

namespace Verif.Swe.Props
open Verif.Geometry Verif.Geometry.Props Verif.Element Verif.Stepper Verif.Tri MvPolynomial

section
variable {N : Numerics ℝ} {F : ℕ → MvPolynomial (Fin 2) ℝ} {ε : ℝ}

/-- The approximate solution in an element as a polynomial of the master coordinates. -/
noncomputable def statePoly (F : ℕ → MvPolynomial (Fin 2) ℝ) (p : ℕ) (u : ℕ → ℝ) : MvPolynomial (Fin 2) ℝ := ∑ d ∈ Finset.range (ndof p), C (u d) * F d

theorem statePoly_degree (hR : Rules N F 10 ε) {p : ℕ} (hp : p ≤ 10) (u : ℕ → ℝ) : (statePoly F p u).totalDegree ≤ 10 := by
  refine (totalDegree_finset_sum _ _).trans (Finset.sup_le fun d hd => ?_)
  refine (totalDegree_mul _ _).trans ?_
  have := hR.degree p hp d (Finset.mem_range.mp hd)
  rw [totalDegree_C]
  omega

theorem residual_eq (hR : Rules N F 10 ε) {e : Elt ℝ} (hp : e.p ≤ 10) {f : P2 ℝ → Q ℝ} {T : Fin 3 → MvPolynomial (Fin 2) ℝ}
    (hT : ∀ z var, comp (f (localToGlobal e.tri z)) var = eval ![z.x, z.y] (T var)) (u : Fin 3 → ℕ → ℝ) :
    residualL2 N e f u = |jdet e.tri| * ∑ var : Fin 3, triL (N.tri 20) ((T var - statePoly F e.p (u var)) ^ 2) := by
  have key : ∀ var : Fin 3, ((N.tri 20).map fun wz => ((comp (f (localToGlobal e.tri wz.2)) var - e.value N (u var) wz.2) *
      (comp (f (localToGlobal e.tri wz.2)) var - e.value N (u var) wz.2)) * wz.1).sum = triL (N.tri 20) ((T var - statePoly F e.p (u var)) ^ 2) := by
    intro var
    simp only [triL, LinearMap.coe_mk, AddHom.coe_mk]
    congr 1
    refine List.map_congr_left fun wz hwz => ?_
    have hz := hR.pts 10 le_rfl wz hwz
    rw [hT, value_eval hR hp (u var) (Or.inl hz)]
    simp only [map_pow, map_sub, statePoly]
    ring
  unfold residualL2
  simp only [key, Fin.sum_univ_three]
  ring

/-- C114: what is added for an element is the square of the norm, up to the error of the rule. -/
theorem residual_near (hR : Rules N F 10 ε) {e : Elt ℝ} (hp : e.p ≤ 10) {f : P2 ℝ → Q ℝ} {T : Fin 3 → MvPolynomial (Fin 2) ℝ}
    (hT : ∀ z var, comp (f (localToGlobal e.tri z)) var = eval ![z.x, z.y] (T var)) (hdeg : ∀ var, (T var).totalDegree ≤ 10) (u : Fin 3 → ℕ → ℝ) :
    |residualL2 N e f u - |jdet e.tri| * ∑ var : Fin 3, I2 fun x y => (comp (f (localToGlobal e.tri ⟨x, y⟩)) var - e.value N (u var) ⟨x, y⟩) ^ 2| ≤
      |jdet e.tri| * (ε * ∑ var : Fin 3, absCoeffs ((T var - statePoly F e.p (u var)) ^ 2)) := by
  have hI : ∀ var : Fin 3, (I2 fun x y => (comp (f (localToGlobal e.tri ⟨x, y⟩)) var - e.value N (u var) ⟨x, y⟩) ^ 2) = I2L ((T var - statePoly F e.p (u var)) ^ 2) := by
    intro var
    refine I2_congr fun x y hy => ?_
    rw [hT, value_eval hR hp (u var) (Or.inl hy)]
    simp only [map_pow, map_sub, statePoly]
  simp only [hI]
  rw [residual_eq hR hp hT, ← mul_sub, abs_mul, abs_abs, ← Finset.sum_sub_distrib, Finset.mul_sum]
  refine mul_le_mul_of_nonneg_left ((Finset.abs_sum_le_sum_abs _ _).trans (Finset.sum_le_sum fun var _ => ?_)) (abs_nonneg _)
  refine tri_approx (n := 20) (hR.tri 10 le_rfl) _ ((totalDegree_pow _ _).trans ?_)
  have := totalDegree_sub (T var) (statePoly F e.p (u var))
  have h2 := statePoly_degree hR hp (u var)
  have := hdeg var
  omega

/-- The square of the norm of the error over an element, in master coordinates. -/
noncomputable def errorSq (N : Numerics ℝ) (e : Elt ℝ) (f : P2 ℝ → Q ℝ) (u : Fin 3 → ℕ → ℝ) : ℝ :=
  |jdet e.tri| * ∑ var : Fin 3, ∫ y in (-1 : ℝ)..1, ∫ x in (-1 : ℝ)..(-y), (comp (f (localToGlobal e.tri ⟨x, y⟩)) var - e.value N (u var) ⟨x, y⟩) ^ 2

end

/-! ### The sum over the mesh -/

section
variable {K : Type} [Field K] [LinearOrder K]

theorem residualOf_eq (N : Numerics K) (dat : ℕ → EltData K) (f : P2 K → Q K) (q : State K) (elts : List ℕ) (r : K) :
    residualOf N dat f q elts r = r + (elts.map fun e => residualL2 N (dat e).elt f (q e)).sum := by
  unfold residualOf
  induction elts generalizing r with
  | nil => simp
  | cons a l ih => rw [List.foldl_cons, ih, List.map_cons, List.sum_cons, add_assoc]

theorem residualRank_eq (N : Numerics K) (dat : ℕ → EltData K) (f : P2 K → Q K) (q : State K) (units : List (Mesh K)) :
    residualRank N dat f q units = ((units.flatMap fun m => m.elts).map fun e => residualL2 N (dat e).elt f (q e)).sum := by
  have : ∀ r, units.foldl (fun r m => residualOf N dat f q m.elts r) r = r + ((units.flatMap fun m => m.elts).map fun e => residualL2 N (dat e).elt f (q e)).sum := by
    induction units with
    | nil => simp
    | cons a l ih =>
      intro r
      rw [List.foldl_cons, ih, residualOf_eq, List.flatMap_cons, List.map_append, List.sum_append, add_assoc]
  unfold residualRank
  rw [this, zero_add]

/-- C114: all ranks together print what the serial program prints. -/
theorem ranks_report (N : Numerics K) (sq : K → K) (dat : ℕ → EltData K) (f : P2 K → Q K) (q : State K) (m : Mesh K) (ranks : List (List (Mesh K)))
    (order : List (List (Mesh K)) → List (List (Mesh K))) (ho : ∀ l, (order l).Perm l)
    (hm : (ranks.flatMap fun units => units.flatMap fun m => m.elts).Perm m.elts) :
    reportRanks N sq dat f q ranks order = reportSerial N sq dat f q m := by
  unfold reportRanks reportSerial
  congr 1
  rw [((ho ranks).map _).sum_eq, residualOf_eq, zero_add, ← (hm.map _).sum_eq]
  clear hm ho
  induction ranks with
  | nil => simp
  | cons a l ih => rw [List.map_cons, List.sum_cons, ih, residualRank_eq, List.flatMap_cons, List.map_append, List.sum_append]

end

section
variable {N : Numerics ℝ} {F : ℕ → MvPolynomial (Fin 2) ℝ} {ε : ℝ}

/-- C114: the number under the root, for the tables of the program. -/
theorem code_residual {rd : ℝ → ℝ} (hr : Basis.Props.Rounding rd) {dat : ℕ → EltData ℝ} {m : Mesh ℝ} (hp : ∀ e ∈ m.elts, (dat e).elt.p ≤ 10) {f : P2 ℝ → Q ℝ}
    {T : ℕ → Fin 3 → MvPolynomial (Fin 2) ℝ} (hT : ∀ e ∈ m.elts, ∀ z var, comp (f (localToGlobal (dat e).elt.tri z)) var = eval ![z.x, z.y] (T e var))
    (hdeg : ∀ e ∈ m.elts, ∀ var, (T e var).totalDegree ≤ 10) (q : State ℝ) :
    |residualOf (codeNumerics rd) dat f q m.elts 0 - (m.elts.map fun e => errorSq (codeNumerics rd) (dat e).elt f (q e)).sum| ≤
      1 / 2 ^ 45 * (m.elts.map fun e => |jdet (dat e).elt.tri| * ∑ var : Fin 3, absCoeffs ((T e var - statePoly (dubF rd) (dat e).elt.p (q e var)) ^ 2)).sum := by
  have hR := code_rules hr
  rw [residualOf_eq, zero_add]
  generalize m.elts = l at hp hT hdeg
  induction l with
  | nil => simp
  | cons a l ih =>
    have h1 := residual_near hR (hp a (by simp)) (hT a (by simp)) (hdeg a (by simp)) (q a)
    have h2 := ih (fun e he => hp e (by simp [he])) (fun e he => hT e (by simp [he])) (fun e he => hdeg e (by simp [he]))
    simp only [List.map_cons, List.sum_cons]
    have h3 : |residualL2 (codeNumerics rd) (dat a).elt f (q a) - errorSq (codeNumerics rd) (dat a).elt f (q a)| ≤
        |jdet (dat a).elt.tri| * (1 / 2 ^ 45 * ∑ var : Fin 3, absCoeffs ((T a var - statePoly (dubF rd) (dat a).elt.p (q a var)) ^ 2)) := h1
    rw [abs_le] at h2 h3 ⊢
    constructor <;> [have := h2.1; have := h2.2] <;> [have := h3.1; have := h3.2] <;> linarith

/-- C114: what the program prints, when the error is not so small that the rounding of the tables hides it. -/
theorem code_report {rd : ℝ → ℝ} (hr : Basis.Props.Rounding rd) {dat : ℕ → EltData ℝ} {m : Mesh ℝ} (hp : ∀ e ∈ m.elts, (dat e).elt.p ≤ 10) {f : P2 ℝ → Q ℝ}
    {T : ℕ → Fin 3 → MvPolynomial (Fin 2) ℝ} (hT : ∀ e ∈ m.elts, ∀ z var, comp (f (localToGlobal (dat e).elt.tri z)) var = eval ![z.x, z.y] (T e var))
    (hdeg : ∀ e ∈ m.elts, ∀ var, (T e var).totalDegree ≤ 10) (sq : ℝ → ℝ) (q : State ℝ) {δ : ℝ}
    (hδ : 1 / 2 ^ 45 * (m.elts.map fun e => |jdet (dat e).elt.tri| * ∑ var : Fin 3, absCoeffs ((T e var - statePoly (dubF rd) (dat e).elt.p (q e var)) ^ 2)).sum ≤ δ)
    (hbig : δ ≤ (m.elts.map fun e => errorSq (codeNumerics rd) (dat e).elt f (q e)).sum) :
    ∃ r, reportSerial (codeNumerics rd) sq dat f q m = some (sq r) ∧ |r - (m.elts.map fun e => errorSq (codeNumerics rd) (dat e).elt f (q e)).sum| ≤ δ := by
  have h := (code_residual hr hp hT hdeg q).trans hδ
  refine ⟨_, ?_, h⟩
  unfold reportSerial sqrtOf
  rw [if_neg]
  have := (abs_le.mp h).1
  linarith

end

/-! ### The rule of degree twenty -/

/-- C114: three weights of the rule are negative. -/
theorem weights_negative : (((Quadrature.rule2 20).getD []).filter fun x => x.1 < 0).length = 3 := by decide +kernel

/-- One of the points with negative weight. -/
def badPoint : ℤ × ℤ × ℤ := ((((Quadrature.rule2 20).getD []).filter fun x => x.1 < 0).head?).getD (0, 0, 0)

theorem bad_once : (((Quadrature.rule2 20).getD []).map fun x => if x.2 = badPoint.2 then x.1 else 0).sum < 0 := by decide +kernel

/-- A triangle for which master and global coordinates coincide. -/
def masterTri : Tri ℝ := ⟨⟨-1, -1⟩, ⟨1, -1⟩, ⟨-1, 1⟩⟩

/-- The point as the program has it. -/
noncomputable def badPt : P2 ℝ := ⟨tableVal badPoint.2.1, tableVal badPoint.2.2⟩

open Classical in
/-- A true solution with a bump. -/
noncomputable def bump (x : P2 ℝ) : Q ℝ := if x = badPt then ⟨1, 0, 0⟩ else ⟨0, 0, 0⟩

theorem tableVal_inj {a b : ℤ} (h : tableVal a = tableVal b) : a = b := by
  unfold tableVal at h
  have : (a : ℝ) = b := by
    have h2 : ((2 : ℝ) ^ 80) ≠ 0 := by positivity
    field_simp at h
    exact h
  exact_mod_cast this

theorem bump_sum (l : List (ℤ × ℤ × ℤ)) : ((l.map fun x => (tableVal x.1, (⟨tableVal x.2.1, tableVal x.2.2⟩ : P2 ℝ))).map fun wz =>
    ((bump wz.2).ze - 0) * ((bump wz.2).ze - 0) * wz.1).sum = tableVal (l.map fun x => if x.2 = badPoint.2 then x.1 else 0).sum := by
  induction l with
  | nil => simp [tableVal]
  | cons a l ih =>
    rw [List.map_cons, List.map_cons, List.sum_cons, ih, List.map_cons, List.sum_cons]
    have hb : (bump ⟨tableVal a.2.1, tableVal a.2.2⟩).ze = if a.2 = badPoint.2 then 1 else 0 := by
      unfold bump badPt
      by_cases h : a.2 = badPoint.2
      · rw [h, if_pos rfl, if_pos rfl]
      · rw [if_neg h, if_neg]
        intro hc
        rw [P2.mk.injEq] at hc
        exact h (Prod.ext (tableVal_inj hc.1) (tableVal_inj hc.2))
    simp only [hb]
    unfold tableVal
    split_ifs <;> (push_cast; ring)

theorem master_map (z : P2 ℝ) : localToGlobal masterTri z = z := by
  obtain ⟨x, y⟩ := z
  simp only [localToGlobal, masterTri, psi, P2.mk.injEq]
  norm_num
  constructor <;> ring

/-- C114: the sum of the squares is negative and the program prints `nan`: one triangle, the state zero, the true solution zero outside a point. -/
theorem report_nan (rd : ℝ → ℝ) (sq : ℝ → ℝ) (dat : ℕ → EltData ℝ) (m : Mesh ℝ) (hm : m.elts = [0]) (ht : (dat 0).elt.tri = masterTri) :
    reportSerial (codeNumerics rd) sq dat bump (fun _ _ _ => 0) m = none := by
  have hv : ∀ (e : Elt ℝ) z, e.value (codeNumerics rd) (fun _ => 0) z = 0 := fun e z => by simp [Elt.value]
  have h12 : ∀ x, (bump x).qx = 0 ∧ (bump x).qy = 0 := fun x => by unfold bump; split_ifs <;> simp
  have hs := bump_sum ((Quadrature.rule2 20).getD [])
  have hj : jdet masterTri = 1 := by simp [jdet, masterTri, Geometry.det, jac]
  have hneg : tableVal ((((Quadrature.rule2 20).getD []).map fun x => if x.2 = badPoint.2 then x.1 else 0).sum) < 0 := by
    have := bad_once
    unfold tableVal
    exact div_neg_of_neg_of_pos (by exact_mod_cast this) (by positivity)
  unfold reportSerial sqrtOf
  rw [if_pos]
  rw [residualOf_eq, hm]
  simp only [List.map_cons, List.map_nil, List.sum_cons, List.sum_nil, residualL2, ht, master_map, hv, comp, hj, (h12 _).1, (h12 _).2]
  simp only [codeNumerics]
  rw [← hs] at hneg
  simpa [Function.comp_def] using hneg

/-! ### Cases -/

/-- The two triangles on two ranks. -/
example (sq : ℚ → ℚ) (f : P2 ℚ → Q ℚ) (q : State ℚ) : reportRanks simpleN sq (twoTris 1 fun _ _ => 0) f q [[⟨[0], [], [], []⟩], [⟨[1], [], [], []⟩]] List.reverse =
    reportSerial simpleN sq (twoTris 1 fun _ _ => 0) f q twoMesh :=
  ranks_report _ _ _ _ _ _ _ _ (fun l => List.reverse_perm l) (by exact List.Perm.refl _)

/-- The hypotheses of `code_residual`: still water against a true solution of level one. -/
example {rd : ℝ → ℝ} (hr : Basis.Props.Rounding rd) :
    |residualOf (codeNumerics rd) (twoTris 1 fun _ _ => 0) (fun _ => ⟨1, 0, 0⟩) (fun _ _ _ => 0) (twoMesh (K := ℝ)).elts 0 -
      ((twoMesh (K := ℝ)).elts.map fun e => errorSq (codeNumerics rd) (twoTris 1 (fun _ _ => 0) e).elt (fun _ => ⟨1, 0, 0⟩) (fun _ _ => 0)).sum| ≤
      1 / 2 ^ 45 * ((twoMesh (K := ℝ)).elts.map fun e => |jdet (twoTris 1 (fun _ _ => (0 : ℝ)) e).elt.tri| * ∑ var : Fin 3,
        absCoeffs (((if var = 0 then 1 else 0) - statePoly (dubF rd) 1 fun _ => 0) ^ 2)).sum :=
  code_residual hr (T := fun _ var => if var = 0 then 1 else 0) (by intro e _; simp [twoTris])
    (by intro e _ z var; fin_cases var <;> simp [comp]) (by intro e _ var; split_ifs <;> simp) _

end Verif.Swe.Props
