import Verif.Model.Edge
import Verif.Props.Basis
import Verif.Props.Quadrature
import Mathlib.LinearAlgebra.Matrix.NonsingularInverse
import Mathlib.LinearAlgebra.Matrix.ToLin
import Mathlib.Algebra.Polynomial.Roots

/-!
# C79: layout of matrices in vectors, and the trace spaces of edges
-/

namespace Verif.Edge.Props
open Verif.Edge Verif.Basis Verif.Basis.Props Verif.Basis.Lemmas Verif.Quadrature Verif.Quadrature.Props Polynomial

/-! ### Layout -/

/-- `flatten` puts the entry in row `i` and column `j` at position `i n + j`, `reshape` reads it from there: each undoes the other, for a
matrix with `n` columns. -/
theorem flatten_reshape {α : Type} {m n : ℕ} (a : ℕ → ℕ → α) (x : ℕ → α) :
    (∀ i < m, ∀ j < n, flatten n a (i * n + j) = a i j ∧ i * n + j < m * n) ∧
    (∀ i < m, ∀ j < n, reshape n (flatten n a) i j = a i j) ∧ ∀ k < m * n, flatten n (reshape n x) k = x k := by
  have key : ∀ i < m, ∀ j < n, flatten n a (i * n + j) = a i j := by
    intro i _ j hj
    unfold flatten
    rw [Nat.add_comm, Nat.add_mul_div_right _ _ (by omega), Nat.add_mul_mod_self_right, Nat.div_eq_of_lt hj, Nat.mod_eq_of_lt hj, Nat.zero_add]
  refine ⟨fun i hi j hj => ⟨key i hi j hj, ?_⟩, key, fun k _ => ?_⟩
  · calc i * n + j < i * n + n := by omega
      _ = (i + 1) * n := by ring
      _ ≤ m * n := Nat.mul_le_mul_right _ hi
  · unfold flatten reshape
    rw [Nat.div_add_mod']

/-- The same in column major order: `m` rows, the entry in row `i` and column `j` is at position `j m + i`. -/
theorem flatten_reshape_col {α : Type} {m n : ℕ} (a : ℕ → ℕ → α) (x : ℕ → α) :
    (∀ i < m, ∀ j < n, flattenCol m a (j * m + i) = a i j ∧ j * m + i < m * n) ∧
    (∀ i < m, ∀ j < n, reshapeCol m (flattenCol m a) i j = a i j) ∧ ∀ k < m * n, flattenCol m (reshapeCol m x) k = x k := by
  have key : ∀ i < m, ∀ j < n, flattenCol m a (j * m + i) = a i j := by
    intro i hi j _
    unfold flattenCol
    rw [Nat.add_comm, Nat.add_mul_div_right _ _ (by omega), Nat.add_mul_mod_self_right, Nat.div_eq_of_lt hi, Nat.mod_eq_of_lt hi, Nat.zero_add]
  refine ⟨fun i hi j hj => ⟨key i hi j hj, ?_⟩, key, fun k _ => ?_⟩
  · calc j * m + i < j * m + m := by omega
      _ = m * (j + 1) := by ring
      _ ≤ m * n := Nat.mul_le_mul_left _ hj
  · unfold flattenCol reshapeCol
    rw [Nat.div_add_mod']

/-! ### Turning the Gauss points round -/

theorem turned_partial {α : Type} (n : ℕ) (f : ℕ → α) (m : ℕ) (hm : m ≤ n / 2) (k : ℕ) (hk : k < n) :
    (List.range m).foldl (fun f gp => swapAt f gp (n - gp - 1)) f k = if k < m ∨ n - k - 1 < m then f (n - k - 1) else f k := by
  induction m generalizing k with
  | zero => simp
  | succ m ih =>
    rw [List.range_succ, List.foldl_append, List.foldl_cons, List.foldl_nil]
    have h1 := ih (by omega) m (by omega)
    have h2 := ih (by omega) (n - m - 1) (by omega)
    have h3 := ih (by omega) k hk
    rw [if_neg (by omega)] at h1 h2
    rw [swapAt, Function.update_apply, Function.update_apply]
    by_cases e1 : k = n - m - 1
    · rw [if_pos e1, h1, if_pos (by omega)]
      congr 1; omega
    · rw [if_neg e1]
      by_cases e2 : k = m
      · rw [if_pos e2, h2, if_pos (by omega)]
        congr 1; omega
      · rw [if_neg e2, h3]
        by_cases e3 : k < m ∨ n - k - 1 < m
        · rw [if_pos e3, if_pos (by omega)]
        · rw [if_neg e3, if_neg (by omega)]

/-- The loop of swaps reverses the points. -/
theorem turned_eq {α : Type} (n : ℕ) (f : ℕ → α) (k : ℕ) (hk : k < n) : turned n f k = f (n - k - 1) := by
  unfold turned
  rw [turned_partial n f _ le_rfl k hk]
  by_cases h : k < n / 2 ∨ n - k - 1 < n / 2
  · rw [if_pos h]
  · rw [if_neg h]
    congr 1; omega

/-- The trace bases of both sides of a distributed edge are the same functions: point `gp` of one side is point `ngp - gp - 1` of the other. -/
theorem sides_agree {K : Type} [Field K] (p : ℕ) (rule : List (K × K)) (J J' : K) (dof gp : ℕ) (hgp : gp < rule.length) :
    (tables p rule J true).lam dof gp = (tables p rule J' false).lam dof (rule.length - gp - 1) := by
  simp only [tables, if_true, Bool.false_eq_true, if_false]
  rw [turned_eq _ _ _ (by omega)]
  congr 2
  rw [show rule.length - (rule.length - gp - 1) - 1 = gp by omega]

/-! ### As many functions as points -/

/-- The rule of degree 2 p + 1 has p + 1 points, so `ndof`, which is taken from the number of columns of `lambda_gp`, is the number of its rows. -/
theorem ndof_rows {p : ℕ} {r : List (ℤ × ℤ)} (h : rule1 (2 * p + 1) = some r) : r.length = p + 1 := by
  have hp : 2 * p + 1 ≤ 65 := by
    by_contra hc
    rw [(line_rules _).1 (by omega)] at h
    cases h
  obtain ⟨r', h1, h2, -⟩ := (line_rules (2 * p + 1)).2 hp
  rw [h] at h1
  cases h1
  rw [h2]
  unfold numGP1
  omega

section
variable {n : ℕ} {x : ℕ → ℝ}

theorem jc_top (k : ℕ) : (jc k 0 0 k : ℝ) ≠ 0 := by
  unfold jc
  have h1 : ((k + 0).choose (0 + k) : ℝ) ≠ 0 := by simp
  have h2 : ((k + 0 + 0 + k).choose k : ℝ) ≠ 0 := by
    have := Nat.choose_pos (n := k + 0 + 0 + k) (k := k) (by omega)
    positivity
  exact mul_ne_zero (mul_ne_zero (pow_ne_zero _ (by norm_num)) h1) h2

/-- A combination of the first `n` Legendre functions that vanishes at `n` different points is trivial. -/
theorem independent (hn : n ≤ 800) (hx : ∀ i < n, ∀ j < n, x i = x j → i = j) (c : ℕ → ℝ)
    (h : ∀ gp < n, ∑ i ∈ Finset.range n, c i * legendre i (x gp) = 0) : ∀ i < n, c i = 0 := by
  set P : ℝ[X] := ∑ i ∈ Finset.range n, C (c i) * jp i 0 0 with hP
  have hdeg : n ≠ 0 → P.natDegree < n := fun h0 => by
    refine lt_of_le_of_lt (natDegree_sum_le_of_forall_le (n := n - 1) _ _ fun i hi => ?_) (by omega)
    rw [Finset.mem_range] at hi
    exact (natDegree_C_mul_le _ _).trans ((jp_degree i 0 0).trans (by omega))
  have hz : P = 0 := by
    by_cases h0 : n = 0
    · subst h0; rw [hP]; simp
    let S : Finset ℝ := (Finset.range n).image fun gp => (1 - x gp) / 2
    have hc : S.card = n := by
      rw [Finset.card_image_of_injOn, Finset.card_range]
      intro i hi j hj hij
      simp only [Finset.coe_range, Set.mem_Iio] at hi hj
      exact hx i hi j hj (by simpa using hij)
    refine eq_zero_of_natDegree_lt_card_of_eval_eq_zero' P S (fun y hy => ?_) (by rw [hc]; exact hdeg h0)
    obtain ⟨gp, hgp, rfl⟩ := Finset.mem_image.1 hy
    rw [hP, eval_finsetSum, ← h gp (Finset.mem_range.1 hgp)]
    refine Finset.sum_congr rfl fun i hi => ?_
    rw [eval_mul, eval_C, legendre, jacobi_eq (by have := Finset.mem_range.1 hi; omega) le_rfl]
  have key : ∀ m ≤ n, ∀ i < n, n - m ≤ i → c i = 0 := by
    intro m
    induction m with
    | zero => intro _ i hi h2; omega
    | succ m ih =>
      intro hm i hi h2
      by_cases e : n - m ≤ i
      · exact ih (by omega) i hi e
      have hco := congrArg (fun Q : ℝ[X] => Q.coeff i) hz
      simp only [hP, finsetSum_coeff, coeff_C_mul, jp_coeff, coeff_zero] at hco
      rw [Finset.sum_eq_single i] at hco
      · exact (mul_eq_zero.1 hco).resolve_right (jc_top i)
      · intro k hk hki
        have hk := Finset.mem_range.1 hk
        rcases lt_or_gt_of_ne hki with hlt | hgt
        · rw [jc_zero hlt, mul_zero]
        · rw [ih (by omega) k hk (by omega), zero_mul]
      · intro hh
        exact absurd (Finset.mem_range.2 hi) hh
  exact fun i hi => key n le_rfl i hi (by omega)

/-- Values at the points whose moments with all the functions vanish are zero. -/
theorem independent_points (hn : n ≤ 800) (hx : ∀ i < n, ∀ j < n, x i = x j → i = j) (y : ℕ → ℝ)
    (h : ∀ i < n, ∑ gp ∈ Finset.range n, y gp * legendre i (x gp) = 0) : ∀ gp < n, y gp = 0 := by
  let M : Matrix (Fin n) (Fin n) ℝ := fun gp i => legendre i.val (x gp.val)
  have inj : Function.Injective M.mulVec := by
    intro a b hab
    funext i
    have h0 := independent hn hx (fun k => if hk : k < n then a ⟨k, hk⟩ - b ⟨k, hk⟩ else 0) (fun gp hgp => ?_) i.val i.isLt
    · simp only [i.isLt, dif_pos] at h0
      exact sub_eq_zero.1 h0
    · have h1 := congrFun hab ⟨gp, hgp⟩
      simp only [Matrix.mulVec, dotProduct, M] at h1
      rw [Finset.sum_range]
      simp only [Fin.isLt, dif_pos, sub_mul, Finset.sum_sub_distrib]
      rw [sub_eq_zero]
      simp only [Fin.eta, mul_comm (legendre _ _)] at h1 ⊢
      exact h1
  have hu := Matrix.mulVec_injective_iff_isUnit.1 inj
  have inj' := Matrix.vecMul_injective_iff_isUnit.2 hu
  intro gp hgp
  have h0 : Matrix.vecMul (fun g : Fin n => y g.val) M = Matrix.vecMul 0 M := by
    funext i
    simp only [Matrix.vecMul, dotProduct, M, Pi.zero_apply, zero_mul, Finset.sum_const_zero]
    rw [← h i.val i.isLt, Finset.sum_range]
  exact congrFun (inj' h0) ⟨gp, hgp⟩

end

/-! ### The tables of the program -/

/-- The points of a line rule are in increasing order. -/
theorem points_increasing : (List.range 66).all (fun p => decide ((((rule1 p).getD []).map (·.2)).Pairwise (· < ·))) = true := by decide +kernel

/-- The rule of degree 2 p + 1 as real numbers. -/
noncomputable def codeRule (p : ℕ) : List (ℝ × ℝ) := ((rule1 (2 * p + 1)).getD []).map fun x => (val x.1, val x.2)

/-- What makes the trace space of an edge fit its Gauss points: as many functions as points, none of them redundant, positive weights. -/
structure Fits (E : Tables ℝ) : Prop where
  square : E.ndof = E.ngp
  inside : E.ndof ≤ E.rows
  pos : ∀ gp < E.ngp, 0 < E.w gp * E.J
  functions : ∀ c : ℕ → ℝ, (∀ gp < E.ngp, ∑ i ∈ Finset.range E.ndof, c i * E.lam i gp = 0) → ∀ i < E.ndof, c i = 0
  points : ∀ y : ℕ → ℝ, (∀ i < E.ndof, ∑ gp ∈ Finset.range E.ngp, y gp * E.lam i gp = 0) → ∀ gp < E.ngp, y gp = 0

/-- C79: for every supported degree the tables of an edge fit, in both directions of the basis; no row of `lambda_gp` is read that it does not
have. -/
theorem tables_fit {p : ℕ} (hp : p ≤ 32) {J : ℝ} (hJ : 0 < J) (ccw : Bool) : Fits (tables p (codeRule p) J ccw) := by
  obtain ⟨r, hr, hlen, hw, -⟩ := (line_rules (2 * p + 1)).2 (by omega)
  have hn : (codeRule p).length = p + 1 := by
    simp only [codeRule, hr, Option.getD_some, List.length_map]
    exact ndof_rows hr
  have hget : ∀ gp (h : gp < p + 1), ∃ h' : gp < r.length, (codeRule p).getD gp (0, 0) = (val (r[gp]'h').1, val (r[gp]'h').2) := by
    intro gp h
    have hl := ndof_rows hr
    refine ⟨by omega, ?_⟩
    simp only [codeRule, hr, Option.getD_some, List.getD_eq_getElem?_getD, List.getElem?_map]
    rw [List.getElem?_eq_getElem (by omega : gp < r.length)]
    rfl
  have hinc := List.all_eq_true.1 points_increasing (2 * p + 1) (by simp; omega)
  simp only [hr, Option.getD_some, decide_eq_true_eq, List.pairwise_map] at hinc
  have hdist : ∀ i < p + 1, ∀ j < p + 1, ((codeRule p).getD i (0, 0)).2 = ((codeRule p).getD j (0, 0)).2 → i = j := by
    intro i hi j hj h
    obtain ⟨h1, e1⟩ := hget i hi
    obtain ⟨h2, e2⟩ := hget j hj
    rw [e1, e2] at h
    have h : (r[i]).2 = (r[j]).2 := by
      simp only [val] at h
      field_simp at h
      exact_mod_cast h
    by_contra hne
    rcases lt_or_gt_of_ne hne with hlt | hlt
    · exact absurd h (List.pairwise_iff_getElem.1 hinc i j h1 h2 hlt).ne
    · exact absurd h (List.pairwise_iff_getElem.1 hinc j i h2 h1 hlt).ne'
  have hpts : ∃ x : ℕ → ℝ, (∀ i < p + 1, ∀ j < p + 1, x i = x j → i = j) ∧
      ∀ dof gp, (tables p (codeRule p) J ccw).lam dof gp = legendre dof (x gp) := by
    cases ccw with
    | true => exact ⟨_, hdist, fun _ _ => rfl⟩
    | false =>
      refine ⟨turned (codeRule p).length fun gp => ((codeRule p).getD gp (0, 0)).2, fun i hi j hj h => ?_, fun _ _ => rfl⟩
      rw [hn, turned_eq _ _ _ hi, turned_eq _ _ _ hj] at h
      have := hdist _ (by omega) _ (by omega) h
      omega
  obtain ⟨x, hx, hlam⟩ := hpts
  have h1 : (tables p (codeRule p) J ccw).ndof = p + 1 := hn
  have h2 : (tables p (codeRule p) J ccw).ngp = p + 1 := hn
  refine ⟨rfl, h1.le, fun gp hgp => ?_, fun c hc => ?_, fun y hy => ?_⟩
  · rw [h2] at hgp
    obtain ⟨h', e⟩ := hget gp hgp
    refine mul_pos ?_ hJ
    show 0 < ((codeRule p).getD gp (0, 0)).1
    rw [e]
    exact (hw _ (List.getElem_mem h')).1
  · simp only [h1, h2, hlam] at hc ⊢
    exact independent (by omega) hx c hc
  · simp only [h1, h2, hlam] at hy ⊢
    exact independent_points (by omega) hx y hy

/-- Degree 33 and more: the program stops, there is no rule. -/
example (p : ℕ) (hp : 32 < p) : rule1 (2 * p + 1) = none := (line_rules _).1 (by omega)
/-- Three swaps of seven points. -/
example : (List.range 7).map (turned 7 id) = [6, 5, 4, 3, 2, 1, 0] := by decide
example : (List.range 6).map (flatten 3 fun i j => (i, j)) = [(0, 0), (0, 1), (0, 2), (1, 0), (1, 1), (1, 2)] := by decide
example : (List.range 6).map (flattenCol 2 fun i j => (i, j)) = [(0, 0), (1, 0), (0, 1), (1, 1), (0, 2), (1, 2)] := by decide
/-- Legendre functions of degree 0, 1, 2 at three points. -/
example : (tables 2 [(5 / 9, -(1 / 2)), (8 / 9, 0), (5 / 9, 1 / 2)] (1 : ℚ) false).lam 1 0 = 1 / 2 := by decide +kernel

end Verif.Edge.Props
