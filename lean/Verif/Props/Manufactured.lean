import Verif.Model.Examples
import Verif.Model.SweSource
import Mathlib.Analysis.SpecialFunctions.Trigonometric.Deriv
import Mathlib.Analysis.SpecialFunctions.ExpDeriv
import Mathlib.Tactic.FieldSimp
import Mathlib.Tactic.LinearCombination

/-!
# C127: the manufactured solution is a solution
-/

namespace Verif.Examples.Props
open Verif.Swe Verif.Geometry

/-- The shallow water equations in conservative form at a time and a point: `q` level and discharges, `b` the bed counted downwards from the reference level, `S` given
sources. The depth is positive there. -/
def Holds (g : ℝ) (b : ℝ → ℝ → ℝ) (S q : ℝ → ℝ → ℝ → Q ℝ) (t x y : ℝ) : Prop :=
  let z := fun t x y => (q t x y).ze
  let p := fun t x y => (q t x y).qx
  let r := fun t x y => (q t x y).qy
  let h := fun t x y => z t x y + b x y
  0 < h t x y ∧
  (∃ zt px ry, HasDerivAt (fun t => z t x y) zt t ∧ HasDerivAt (fun x => p t x y) px x ∧ HasDerivAt (fun y => r t x y) ry y ∧ zt + px + ry = (S t x y).ze) ∧
  (∃ pt fx fy bx, HasDerivAt (fun t => p t x y) pt t ∧ HasDerivAt (fun x => p t x y ^ 2 / h t x y + g * (h t x y ^ 2 - b x y ^ 2) / 2) fx x ∧
    HasDerivAt (fun y => p t x y * r t x y / h t x y) fy y ∧ HasDerivAt (fun x => b x y) bx x ∧ pt + fx + fy = g * z t x y * bx + (S t x y).qx) ∧
  (∃ rt fx fy b_y, HasDerivAt (fun t => r t x y) rt t ∧ HasDerivAt (fun x => p t x y * r t x y / h t x y) fx x ∧
    HasDerivAt (fun y => r t x y ^ 2 / h t x y + g * (h t x y ^ 2 - b x y ^ 2) / 2) fy y ∧ HasDerivAt (fun y => b x y) b_y y ∧
    rt + fx + fy = g * z t x y * b_y + (S t x y).qy)

/-- The fluxes in `Holds` are those of the program. -/
theorem flux_textbook (g : ℝ) (q : Q ℝ) (b : ℝ) : let h := q.ze + b
    fluxX g q ⟨b, h, 1⟩ = ⟨q.qx, q.qx ^ 2 / h + g * (h ^ 2 - b ^ 2) / 2, q.qx * q.qy / h⟩ ∧
    fluxY g q ⟨b, h, 1⟩ = ⟨q.qy, q.qx * q.qy / h, q.qy ^ 2 / h + g * (h ^ 2 - b ^ 2) / 2⟩ := by
  constructor
  · simp only [fluxX, pe, Q.mk.injEq]
    exact ⟨trivial, by ring, by ring⟩
  · simp only [fluxY, pe, Q.mk.injEq]
    exact ⟨trivial, by ring, by ring⟩

/-- The sources in `Holds` are those of the program with `function_source: Enable` and no bottom friction. -/
theorem source_textbook (sq cb : ℝ → ℝ) (s : SourceTerms ℝ) (hf : s.functionSource = true) (hb : s.bottomFriction = false) (e : EltSource ℝ) (S q : Q ℝ) (a : Aux ℝ) (db : P2 ℝ) :
    getSource sq cb s e S q a db = ⟨S.ze, s.g * q.ze * db.x + S.qx, s.g * q.ze * db.y + S.qy⟩ := by
  simp only [getSource, hf, hb, if_true, Bool.false_eq_true, if_false]
  show Q.mk (0 + S.ze) (s.g * (db.x * q.ze) + S.qx) (s.g * (db.y * q.ze) + S.qy) = _
  simp only [Q.mk.injEq]
  exact ⟨by ring, by ring, by ring⟩

namespace Manufactured
open Verif.Examples.Manufactured Real

/-- The initial data, which the program uses at boundaries of type `function` as well, are the values of the true solution at all times. -/
theorem initial : ic = trueQ := rfl

variable (t x y : ℝ)

theorem e_eq : e t x y = exp (sin (3 * x) * sin (3 * y) - sin (3 * t)) := by
  unfold e; congr 1; ring

theorem e_t : HasDerivAt (fun t => exp (sin (3 * x) * sin (3 * y) - sin (3 * t))) (-3 * e t x y * cos (3 * t)) t := by
  have h := ((((hasDerivAt_id t).const_mul 3).sin).const_sub (sin (3 * x) * sin (3 * y))).exp
  refine h.congr_deriv ?_
  rw [e_eq]; simp only [id]; ring

theorem e_x : HasDerivAt (fun x => exp (sin (3 * x) * sin (3 * y) - sin (3 * t))) (3 * e t x y * cos (3 * x) * sin (3 * y)) x := by
  have h := (((((hasDerivAt_id x).const_mul 3).sin).mul_const (sin (3 * y))).sub_const (sin (3 * t))).exp
  refine h.congr_deriv ?_
  rw [e_eq]; simp only [id]; ring

theorem e_y : HasDerivAt (fun y => exp (sin (3 * x) * sin (3 * y) - sin (3 * t))) (3 * e t x y * cos (3 * y) * sin (3 * x)) y := by
  have h := (((((hasDerivAt_id y).const_mul 3).sin).const_mul (sin (3 * x))).sub_const (sin (3 * t))).exp
  refine h.congr_deriv ?_
  rw [e_eq]; simp only [id]; ring

theorem p_t : HasDerivAt (fun t => cos (x - 4 * t)) (4 * sin (x - 4 * t)) t := by
  have h := (((hasDerivAt_id t).const_mul 4).const_sub x).cos
  refine h.congr_deriv ?_
  simp only [id]; ring

theorem p_x : HasDerivAt (fun x => cos (x - 4 * t)) (-sin (x - 4 * t)) x := by
  have h := ((hasDerivAt_id x).sub_const (4 * t)).cos
  refine h.congr_deriv ?_
  simp only [id]; ring

theorem r_t : HasDerivAt (fun t => sin (y + 4 * t)) (4 * cos (y + 4 * t)) t := by
  have h := (((hasDerivAt_id t).const_mul 4).const_add y).sin
  refine h.congr_deriv ?_
  simp only [id]; ring

theorem r_y : HasDerivAt (fun y => sin (y + 4 * t)) (cos (y + 4 * t)) y := by
  have h := ((hasDerivAt_id y).add_const (4 * t)).sin
  refine h.congr_deriv ?_
  simp only [id]; ring

theorem e_pos : 0 < e t x y := exp_pos _

/-- The residual of the equations for a flat bed at depth `B`: what has to be given as source. -/
noncomputable def residual (g B t x y : ℝ) : Q ℝ :=
  let E := e t x y
  let p := cos (x - 4 * t)
  let r := sin (y + 4 * t)
  let dp := -sin (x - 4 * t)
  let dr := cos (y + 4 * t)
  let ex := 3 * E * cos (3 * x) * sin (3 * y)
  let ey := 3 * E * cos (3 * y) * sin (3 * x)
  let h := E + B
  ⟨-3 * E * cos (3 * t) + dp + dr,
   -4 * dp + ((2 * p * dp) / h - p ^ 2 * ex / h ^ 2 + g * h * ex) + (p * dr / h - p * r * ey / h ^ 2),
   4 * dr + (dp * r / h - p * r * ex / h ^ 2) + ((2 * r * dr) / h - r ^ 2 * ey / h ^ 2 + g * h * ey)⟩

theorem holds_of (g B : ℝ) (hB : 0 < e t x y + B) (S : ℝ → ℝ → ℝ → Q ℝ) (hS : S t x y = residual g B t x y) : Holds g (fun _ _ => B) S trueQ t x y := by
  have he := e_eq t x y
  have hx := (e_x t x y).add_const B
  have hy := (e_y t x y).add_const B
  have hne : exp (sin (3 * x) * sin (3 * y) - sin (3 * t)) + B ≠ 0 := by rw [← he]; exact hB.ne'
  have f1 := (((p_x t x).fun_pow 2).fun_div hx hne).fun_add ((((hx.fun_pow 2).sub_const (B ^ 2)).const_mul g).div_const 2)
  have f2 := ((r_y t y).const_mul (cos (x - 4 * t))).fun_div hy hne
  have f3 := ((p_x t x).mul_const (sin (y + 4 * t))).fun_div hx hne
  have f4 := (((r_y t y).fun_pow 2).fun_div hy hne).fun_add ((((hy.fun_pow 2).sub_const (B ^ 2)).const_mul g).div_const 2)
  refine ⟨by simpa only [trueQ, ← he] using hB, ⟨_, _, _, e_t t x y, p_x t x, r_y t y, ?_⟩, ⟨_, _, _, 0, p_t t x, f1, f2, hasDerivAt_const _ _, ?_⟩,
    ⟨_, _, _, 0, r_t t y, f3, f4, hasDerivAt_const _ _, ?_⟩⟩
  · rw [hS]; rfl
  · rw [hS]
    simp only [trueQ, residual, he, Nat.cast_ofNat, Nat.add_one_sub_one, pow_one, mul_zero, zero_add]
    generalize exp (sin (3 * x) * sin (3 * y) - sin (3 * t)) = E at hne ⊢
    field_simp
  · rw [hS]
    simp only [trueQ, residual, he, Nat.cast_ofNat, Nat.add_one_sub_one, pow_one, mul_zero, zero_add]
    generalize exp (sin (3 * x) * sin (3 * y) - sin (3 * t)) = E at hne ⊢
    field_simp

/-- **C127** The true solution of the example satisfies the shallow water equations with the gravity of its input file, the sources of its source file and the bed which the
correctness test writes, everywhere and at all times. -/
theorem manufactured_solves : Holds g bath source trueQ t x y := by
  refine holds_of t x y g 2 (by have := e_pos t x y; linarith) source ?_
  have h1 : sin (4 * t - x) = -sin (x - 4 * t) := by rw [← sin_neg]; congr 1; ring
  have h2 : cos (4 * t - x) = cos (x - 4 * t) := by rw [← cos_neg]; congr 1; ring
  have h3 : 4 * t + y = y + 4 * t := by ring
  have hp : 2 + e t x y ≠ 0 := by have := e_pos t x y; linarith
  have hp' : e t x y + 2 ≠ 0 := by have := e_pos t x y; linarith
  simp only [source, residual, h1, h2, h3, g, Q.mk.injEq]
  refine ⟨by ring, ?_, ?_⟩
  · rw [add_comm (e t x y) 2]
    ring
  · rw [add_comm (e t x y) 2]
    ring

/-- What a solution gives as source is determined. -/
theorem residual_unique (g B : ℝ) (S : ℝ → ℝ → ℝ → Q ℝ) (hB : 0 < e t x y + B) (h : Holds g (fun _ _ => B) S trueQ t x y) : S t x y = residual g B t x y := by
  obtain ⟨_, ⟨zt, px, ry, a1, a2, a3, a4⟩, ⟨pt, fx, fy, bx, b1, b2, b3, b4, b5⟩, ⟨rt, gx, gy, b_y, c1, c2, c3, c4, c5⟩⟩ := h
  obtain ⟨_, ⟨zt', px', ry', a1', a2', a3', a4'⟩, ⟨pt', fx', fy', bx', b1', b2', b3', b4', b5'⟩, ⟨rt', gx', gy', b_y', c1', c2', c3', c4', c5'⟩⟩ :=
    holds_of t x y g B hB (residual g B) rfl
  have e1 := a1.unique a1'
  have e2 := a2.unique a2'
  have e3 := a3.unique a3'
  have e4 := b1.unique b1'
  have e5 := b2.unique b2'
  have e6 := b3.unique b3'
  have e7 := b4.unique b4'
  have e8 := c1.unique c1'
  have e9 := c2.unique c2'
  have e10 := c3.unique c3'
  have e11 := c4.unique c4'
  subst e1 e2 e3 e4 e5 e6 e7 e8 e9 e10 e11
  have key : ∀ a b : Q ℝ, a.ze = b.ze → a.qx = b.qx → a.qy = b.qy → a = b := by
    rintro ⟨_, _, _⟩ ⟨_, _, _⟩ rfl rfl rfl; rfl
  apply key
  · exact a4.symm.trans a4'
  · linarith
  · linarith

/-- With the bed of the mesh generator in the repository, depth 1.5, it is not a solution: the mesh has to be made with the bed of the test. -/
theorem generator_bed : ¬ Holds g generatorBath source trueQ 0 (π / 6) (π / 6) := by
  intro h
  have he := e_pos 0 (π / 6) (π / 6)
  have h1 := residual_unique 0 (π / 6) (π / 6) g (15 / 10) source (by linarith) h
  have h2 := residual_unique 0 (π / 6) (π / 6) g 2 source (by linarith) (manufactured_solves 0 (π / 6) (π / 6))
  have h3 : cos (3 * (π / 6)) = 0 := by rw [show 3 * (π / 6) = π / 2 by ring]; exact cos_pi_div_two
  have h4 := congrArg Q.qx (h1.symm.trans h2)
  simp only [residual, h3, mul_zero, zero_mul, zero_div, sub_zero, add_zero, cos_pi_div_six, sin_pi_div_six] at h4
  set E := e 0 (π / 6) (π / 6)
  have h5 : E + 15 / 10 ≠ 0 := by linarith
  have h6 : E + 2 ≠ 0 := by linarith
  have hs : √(3 : ℝ) * √3 = 3 := mul_self_sqrt (by norm_num)
  have h7 : (√3 - 2) * √3 = 0 := by
    field_simp at h4
    nlinarith
  rcases mul_eq_zero.1 h7 with h | h
  · nlinarith
  · rw [h] at hs; norm_num at hs

end Manufactured

end Verif.Examples.Props
