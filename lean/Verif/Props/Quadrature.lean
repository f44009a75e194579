import Verif.Model.Quadrature
import Verif.Props.Geometry
import Mathlib.Analysis.SpecialFunctions.Integrals.Basic
import Mathlib.Topology.Algebra.Polynomial
import Mathlib.Algebra.Polynomial.Eval.Degree

/-!
# C40, C41: quadrature rules
-/

namespace Verif.Quadrature.Props
open Verif.Quadrature

/-- Value of a double given in units of 2^-80. -/
noncomputable def val (n : ℤ) : ℝ := (n : ℝ) / 2 ^ 80

/-! ### Checks on the tables by evaluation -/

/-- |num / 2^(80 e) - a / b| ≤ 2^-t, for b > 0. -/
def near (num : ℤ) (e : ℕ) (a : ℤ) (b : ℕ) (t : ℕ) : Bool := decide (((b : ℤ) * num - a * ((2 ^ (80 * e) : ℕ) : ℤ)).natAbs * 2 ^ t ≤ b * 2 ^ (80 * e))

/-- Numerator of ∫ x^k over [-1, 1], the denominator being k + 1. -/
def m1 (k : ℕ) : ℤ := if k % 2 = 0 then 2 else 0

/-- Checks the moments k, k+1, …, k+f-1 of a line rule; the terms are (w x^k, x). -/
def moments1 : ℕ → ℕ → List (ℤ × ℤ) → Bool
  | 0, _, _ => true
  | f + 1, k, ts => near (ts.map Prod.fst).sum (k + 1) (m1 k) (k + 1) 50 && moments1 f (k + 1) (ts.map fun t => (t.1 * t.2, t.2))

/-- Line rule of degree p. -/
def check1 (p : ℕ) : Bool :=
  match rule1 p with
  | none => false
  | some r => (r.length == numGP1 p) && (r.reverse == r.map fun wx => (wx.1, -wx.2)) && (r.all fun wx => decide (0 < wx.1) && decide (wx.2.natAbs < 2 ^ 80)) &&
      moments1 (p + 1) 0 r

set_option maxRecDepth 100000 in
theorem check1_ok : (List.range 66).all check1 = true := by decide +kernel

/-- Numerator and denominator of ∫∫ z1^i z2^j over the master triangle. -/
def m2num (i j : ℕ) : ℤ := (-1) ^ (i + 1) * (m1 (i + j + 1) * (j + 1) - m1 j * (i + j + 2))
def m2den (i j : ℕ) : ℕ := (i + 1) * ((i + j + 2) * (j + 1))

/-! The kernel evaluates lazily; the following functions evaluate numbers before they are used (they are identities, see `forceL_eq`). -/

def forceN {β : Type} (n : ℕ) (k : ℕ → β) : β :=
  match n with
  | 0 => k 0
  | m + 1 => k (m + 1)

theorem forceN_eq {β : Type} (n : ℕ) (k : ℕ → β) : forceN n k = k n := by cases n <;> rfl

/-- A weight and a point in sign-magnitude form. -/
abbrev SM := Bool × ℕ × Bool × ℕ × Bool × ℕ

def conv {β : Type} : List (ℤ × ℤ × ℤ) → (List SM → β) → β
  | [], k => k []
  | (a, b, c) :: l, k => forceN a.natAbs fun a' => forceN b.natAbs fun b' => forceN c.natAbs fun c' =>
      conv l fun l => k ((decide (a < 0), a', decide (b < 0), b', decide (c < 0), c') :: l)

/-- Adds the positive terms w z1^i z2^j to P and the magnitudes of the negative ones to N. -/
def acc (oi oj : Bool) (i j : ℕ) (k : ℕ → ℕ → Bool) : List SM → ℕ → ℕ → Bool
  | [], P, N => k P N
  | (sw, w, sx, x, sy, y) :: l, P, N =>
    bif sw ^^ ((sx && oi) ^^ (sy && oj)) then acc oi oj i j k l P (Nat.add N (Nat.mul (Nat.mul w (Nat.pow x i)) (Nat.pow y j)))
    else acc oi oj i j k l (Nat.add P (Nat.mul (Nat.mul w (Nat.pow x i)) (Nat.pow y j))) N

def allMoments (p : ℕ) (l : List SM) : Bool :=
  (List.range (p + 1)).all fun i => (List.range (p + 1 - i)).all fun j =>
    acc (i % 2 == 1) (j % 2 == 1) i j
      (fun P N => forceN P fun P => forceN N fun N => near ((P : ℤ) - (N : ℤ)) (i + j + 1) (m2num i j) (m2den i j) 45) l 0 0

/-- Second point is the mirror image of the first. -/
def mirrored (t u : SM) : Bool :=
  Nat.beq t.2.1 u.2.1 && Nat.beq t.2.2.2.1 u.2.2.2.2.2 && Nat.beq t.2.2.2.2.2 u.2.2.2.1 && (t.1 == u.1) && (t.2.2.1 == u.2.2.2.2.1) && (t.2.2.2.2.1 == u.2.2.1)

/-- Triangle rule of degree p. -/
def check2 (p : ℕ) : Bool :=
  match rule2 p with
  | none => false
  | some r => (r.length == numGP2 p) && (r.length == (permData p).sum) && conv r fun r => (r.all fun t => r.any fun u => mirrored t u) && allMoments p r

set_option maxRecDepth 100000 in
theorem check2_ok : (List.range 21).all check2 = true := by decide +kernel

/-! ### From the checks to real numbers -/

theorem near_spec {num : ℤ} {e : ℕ} {a : ℤ} {b t : ℕ} (hb : 0 < b) (h : near num e a b t = true) :
    |(num : ℝ) / 2 ^ (80 * e) - (a : ℝ) / b| ≤ 1 / 2 ^ t := by
  simp only [near, decide_eq_true_eq] at h
  have hb' : (0 : ℝ) < b := by exact_mod_cast hb
  have h2 : (0 : ℝ) < 2 ^ (80 * e) := by positivity
  have h3 : (0 : ℝ) < 2 ^ t := by positivity
  have hR : |((b : ℝ) * num - a * 2 ^ (80 * e))| * 2 ^ t ≤ b * 2 ^ (80 * e) := by
    have h' : ((((b : ℤ) * num - a * 2 ^ (80 * e)).natAbs * 2 ^ t : ℕ) : ℝ) ≤ ((b * 2 ^ (80 * e) : ℕ) : ℝ) := by exact_mod_cast h
    push_cast [Nat.cast_natAbs] at h'
    exact h'
  have e1 : (num : ℝ) / 2 ^ (80 * e) - (a : ℝ) / b = ((b : ℝ) * num - a * 2 ^ (80 * e)) / (b * 2 ^ (80 * e)) := by
    field_simp
  rw [e1, abs_div, abs_of_pos (mul_pos hb' h2), div_le_div_iff₀ (mul_pos hb' h2) h3]
  linarith

theorem moments1_spec (f k : ℕ) (ts : List (ℤ × ℤ)) (h : moments1 f k ts = true) (j : ℕ) (hj : j < f) :
    near (ts.map fun t => t.1 * t.2 ^ j).sum (k + j + 1) (m1 (k + j)) (k + j + 1) 50 = true := by
  induction f generalizing k ts j with
  | zero => omega
  | succ f ih =>
    simp only [moments1, Bool.and_eq_true] at h
    obtain ⟨h1, h2⟩ := h
    cases j with
    | zero =>
      have : (ts.map fun t => t.1 * t.2 ^ 0) = ts.map Prod.fst := by simp
      rw [this]
      exact h1
    | succ j =>
      have := ih (k + 1) _ h2 j (by omega)
      rw [List.map_map] at this
      have e : (ts.map ((fun t : ℤ × ℤ => t.1 * t.2 ^ j) ∘ fun t => (t.1 * t.2, t.2))) = ts.map fun t => t.1 * t.2 ^ (j + 1) := by
        apply List.map_congr_left
        intro t _
        simp only [Function.comp_apply]
        ring
      rw [e] at this
      have e' : k + 1 + j = k + (j + 1) := by omega
      rwa [e'] at this

def toSM (x : ℤ × ℤ × ℤ) : SM := (decide (x.1 < 0), x.1.natAbs, decide (x.2.1 < 0), x.2.1.natAbs, decide (x.2.2 < 0), x.2.2.natAbs)

theorem conv_eq {β : Type} (r : List (ℤ × ℤ × ℤ)) (k : List SM → β) : conv r k = k (r.map toSM) := by
  induction r generalizing k with
  | nil => rfl
  | cons a r ih => simp only [conv, forceN_eq, ih, List.map_cons, toSM]

theorem sm_val (a : ℤ) : a = bif decide (a < 0) then -(a.natAbs : ℤ) else (a.natAbs : ℤ) := by
  by_cases h : a < 0
  · simp only [h, decide_true, cond_true]; omega
  · simp only [h, decide_false, cond_false]; omega

theorem sm_pow (s : Bool) (x i : ℕ) : (bif s then -(x : ℤ) else (x : ℤ)) ^ i = bif s && i % 2 == 1 then -((x : ℤ) ^ i) else (x : ℤ) ^ i := by
  cases s with
  | false => simp
  | true =>
    rcases Nat.even_or_odd i with h | h
    · have : (i % 2 == 1) = false := by rw [Nat.even_iff.mp h]; rfl
      simp only [this, cond_true, Bool.and_false, cond_false, h.neg_pow]
    · have : (i % 2 == 1) = true := by rw [Nat.odd_iff.mp h]; rfl
      simp only [this, cond_true, Bool.and_true, h.neg_pow]

/-- The term of one point. -/
theorem term_sm (x : ℤ × ℤ × ℤ) (i j : ℕ) : x.1 * x.2.1 ^ i * x.2.2 ^ j =
    bif (toSM x).1 ^^ (((toSM x).2.2.1 && i % 2 == 1) ^^ ((toSM x).2.2.2.2.1 && j % 2 == 1)) then
      -(((toSM x).2.1 * (toSM x).2.2.2.1 ^ i * (toSM x).2.2.2.2.2 ^ j : ℕ) : ℤ) else (((toSM x).2.1 * (toSM x).2.2.2.1 ^ i * (toSM x).2.2.2.2.2 ^ j : ℕ) : ℤ) := by
  conv_lhs => rw [sm_val x.1, sm_val x.2.1, sm_val x.2.2, sm_pow, sm_pow]
  simp only [toSM]
  generalize decide (x.1 < 0) = a
  generalize (decide (x.2.1 < 0) && i % 2 == 1) = b
  generalize (decide (x.2.2 < 0) && j % 2 == 1) = c
  push_cast
  cases a <;> cases b <;> cases c <;> simp

theorem acc_spec (i j : ℕ) (k : ℕ → ℕ → Bool) (r : List (ℤ × ℤ × ℤ)) (P N : ℕ) :
    ∃ P' N' : ℕ, acc (i % 2 == 1) (j % 2 == 1) i j k (r.map toSM) P N = k P' N' ∧
      (P' : ℤ) - N' = P - N + (r.map fun x => x.1 * x.2.1 ^ i * x.2.2 ^ j).sum := by
  induction r generalizing P N with
  | nil => exact ⟨P, N, rfl, by simp⟩
  | cons a r ih =>
    have ht := term_sm a i j
    simp only [List.map_cons, List.sum_cons]
    rw [ht]
    rw [show toSM a = ((toSM a).1, (toSM a).2.1, (toSM a).2.2.1, (toSM a).2.2.2.1, (toSM a).2.2.2.2.1, (toSM a).2.2.2.2.2) from rfl]
    simp only [acc]
    cases ((toSM a).1 ^^ (((toSM a).2.2.1 && i % 2 == 1) ^^ ((toSM a).2.2.2.2.1 && j % 2 == 1))) with
    | true =>
      obtain ⟨P', N', h1, h2⟩ := ih P (N + (toSM a).2.1 * (toSM a).2.2.2.1 ^ i * (toSM a).2.2.2.2.2 ^ j)
      refine ⟨P', N', h1, ?_⟩
      rw [h2]
      push_cast
      simp only [cond_true]
      ring
    | false =>
      obtain ⟨P', N', h1, h2⟩ := ih (P + (toSM a).2.1 * (toSM a).2.2.2.1 ^ i * (toSM a).2.2.2.2.2 ^ j) N
      refine ⟨P', N', h1, ?_⟩
      rw [h2]
      push_cast
      simp only [cond_false]
      ring

theorem allMoments_spec (p : ℕ) (r : List (ℤ × ℤ × ℤ)) (h : allMoments p (r.map toSM) = true) (i j : ℕ) (hij : i + j ≤ p) :
    near (r.map fun t => t.1 * t.2.1 ^ i * t.2.2 ^ j).sum (i + j + 1) (m2num i j) (m2den i j) 45 = true := by
  unfold allMoments at h
  simp only [List.all_eq_true, List.mem_range] at h
  have := h i (by omega) j (by omega)
  obtain ⟨P, N, h1, h2⟩ := acc_spec i j (fun P N => forceN P fun P => forceN N fun N => near ((P : ℤ) - (N : ℤ)) (i + j + 1) (m2num i j) (m2den i j) 45) r 0 0
  rw [h1, forceN_eq, forceN_eq, h2] at this
  simpa using this

theorem mirrored_spec {x y : ℤ × ℤ × ℤ} (h : mirrored (toSM x) (toSM y) = true) : y = (x.1, x.2.2, x.2.1) := by
  simp only [mirrored, toSM, Bool.and_eq_true, beq_iff_eq, decide_eq_decide] at h
  obtain ⟨⟨⟨⟨⟨h1, h2⟩, h3⟩, h4⟩, h5⟩, h6⟩ := h
  replace h1 := Nat.eq_of_beq_eq_true h1
  replace h2 := Nat.eq_of_beq_eq_true h2
  replace h3 := Nat.eq_of_beq_eq_true h3
  obtain ⟨y1, y2, y3⟩ := y
  simp only at *
  refine Prod.ext ?_ (Prod.ext ?_ ?_) <;> simp only <;> omega

/-! ### C40 -/

theorem check1_at {p : ℕ} (hp : p ≤ 65) : check1 p = true := by
  have := check1_ok
  rw [List.all_eq_true] at this
  exact this p (by simp; omega)

theorem check2_at {p : ℕ} (hp : p ≤ 20) : check2 p = true := by
  have := check2_ok
  rw [List.all_eq_true] at this
  exact this p (by simp; omega)

/-- C40, line rules: unsupported degrees are refused; the others have the announced number of points, positive weights, points inside the
interval, and are symmetric. -/
theorem line_rules (p : ℕ) :
    (65 < p → rule1 p = none) ∧
    (p ≤ 65 → ∃ r, rule1 p = some r ∧ r.length = numGP1 p ∧ (∀ wx ∈ r, 0 < val wx.1 ∧ |val wx.2| < 1) ∧
      ∀ (i : ℕ) (wx : ℤ × ℤ), r[i]? = some wx → r[r.length - i - 1]? = some (wx.1, -wx.2)) := by
  constructor
  · intro h; unfold rule1; rw [if_pos h]
  · intro h
    have hc := check1_at h
    unfold check1 at hc
    cases hr : rule1 p with
    | none => rw [hr] at hc; simp at hc
    | some r =>
      rw [hr] at hc
      simp only [Bool.and_eq_true, beq_iff_eq, List.all_eq_true, decide_eq_true_eq] at hc
      obtain ⟨⟨⟨h1, h2⟩, h3⟩, _⟩ := hc
      refine ⟨r, rfl, h1, ?_, ?_⟩
      · intro wx hwx
        obtain ⟨a, b⟩ := h3 wx hwx
        unfold val
        constructor
        · have : (0 : ℝ) < wx.1 := by exact_mod_cast a
          positivity
        · rw [abs_div, abs_of_pos (by positivity : (0 : ℝ) < 2 ^ 80), div_lt_one (by positivity)]
          have : ((wx.2.natAbs : ℕ) : ℝ) < ((2 ^ 80 : ℕ) : ℝ) := by exact_mod_cast b
          rw [Nat.cast_natAbs, Nat.cast_pow] at this
          push_cast at this
          norm_num at this ⊢
          exact this
      · intro i wx hi
        have hlt : i < r.length := (List.getElem?_eq_some_iff.mp hi).1
        have := congrArg (fun l => l[i]?) h2
        simp only [List.getElem?_map, hi, Option.map_some] at this
        rw [List.getElem?_reverse hlt] at this
        rw [← this]
        congr 1
        omega

/-- The points of a line rule satisfy the hypothesis of `Verif.Geometry.Props.gauss_points_coincide` (C34). -/
theorem line_points_symmetric {p : ℕ} {r : List (ℤ × ℤ)} (h : rule1 p = some r) : Geometry.Props.Symmetric (r.map fun wx => val wx.2) := by
  have hp : p ≤ 65 := by
    by_contra hc
    rw [(line_rules p).1 (by omega)] at h
    cases h
  obtain ⟨r', hr', _, _, hs⟩ := (line_rules p).2 hp
  rw [h] at hr'
  cases hr'
  intro i x hx
  rw [List.getElem?_map] at hx
  cases hi : r[i]? with
  | none => rw [hi] at hx; cases hx
  | some wx =>
    rw [hi] at hx
    simp only [Option.map_some, Option.some.injEq] at hx
    rw [List.length_map, List.getElem?_map, hs i wx hi, ← hx]
    simp only [Option.map_some, Option.some.injEq, val]
    push_cast
    ring

/-- C40, triangle rules: unsupported degrees are refused; the others have the announced number of points, and are invariant under exchange
of the two coordinates. -/
theorem triangle_rules (p : ℕ) :
    (20 < p → rule2 p = none) ∧
    (p ≤ 20 → ∃ r, rule2 p = some r ∧ r.length = numGP2 p ∧ r.length = (permData p).sum ∧ ∀ x ∈ r, (x.1, x.2.2, x.2.1) ∈ r) := by
  constructor
  · intro h; unfold rule2; rw [if_pos h]
  · intro h
    have hc := check2_at h
    unfold check2 at hc
    cases hr : rule2 p with
    | none => rw [hr] at hc; simp at hc
    | some r =>
      rw [hr] at hc
      simp only [conv_eq, Bool.and_eq_true, beq_iff_eq, List.all_eq_true, List.any_eq_true, List.mem_map] at hc
      obtain ⟨⟨h1, h2⟩, h3, _⟩ := hc
      refine ⟨r, rfl, h1, h2, fun x hx => ?_⟩
      obtain ⟨u, ⟨y, hy, rfl⟩, hu⟩ := h3 (toSM x) ⟨x, hx, rfl⟩
      rw [mirrored_spec hu] at hy
      exact hy

/-- One orbit of the table: the number of points matches the number of different coordinates, which add up to one within 3 units of the last
printed digit. -/
def orbitOk (x : ℕ × ℤ × ℤ × ℤ × ℤ) : Bool :=
  decide ((x.2.2.1 + x.2.2.2.1 + x.2.2.2.2 - 10 ^ 15).natAbs ≤ 3) &&
    (if x.1 = 1 then decide (x.2.2.1 = x.2.2.2.1) && decide (x.2.2.2.1 = x.2.2.2.2)
     else if x.1 = 3 then decide (x.2.2.2.1 = x.2.2.2.2)
     else decide (x.1 = 6))

theorem orbits_ok : ((List.range 21).all fun p => ((permData p).zip (orbitData p)).all orbitOk) = true := by decide +kernel

/-- The program's coordinate for a printed barycentric coordinate. -/
def zOf (l : ℤ) : ℤ := fl (fl (2 * rnd l (10 ^ 15)) - one)

def bary (d : ℤ × ℤ × ℤ × ℤ) : Fin 3 → ℤ := ![d.2.1, d.2.2.1, d.2.2.2]

/-- C40: each orbit consists of the images of one printed point under all permutations of its three barycentric coordinates, with one weight. -/
theorem orbit_symmetric {p : ℕ} (hp : p ≤ 20) {x : ℕ × ℤ × ℤ × ℤ × ℤ} (hx : x ∈ (permData p).zip (orbitData p)) (y : ℤ × ℤ × ℤ) :
    (orbit x.1 x.2).length = x.1 ∧
    (y ∈ orbit x.1 x.2 ↔ ∃ σ : Equiv.Perm (Fin 3), y = (fl (2 * rnd x.2.1 (10 ^ 15)), zOf (bary x.2 (σ 0)), zOf (bary x.2 (σ 1)))) := by
  have h := orbits_ok
  simp only [List.all_eq_true] at h
  have hc := h p (by simp; omega) x hx
  obtain ⟨n, w, a, b, c⟩ := x
  have key : ∀ P : Fin 3 → Fin 3 → Prop, (∃ σ : Equiv.Perm (Fin 3), P (σ 0) (σ 1)) ↔ P 0 1 ∨ P 1 2 ∨ P 2 0 ∨ P 1 0 ∨ P 2 1 ∨ P 0 2 := by
    intro P
    constructor
    · rintro ⟨σ, hσ⟩
      have hne : σ 0 ≠ σ 1 := fun hh => by have := σ.injective hh; revert this; decide
      revert hσ hne
      generalize σ 0 = u
      generalize σ 1 = v
      intro hP hne
      fin_cases u <;> fin_cases v <;> simp_all
    · have hex : ∀ u v : Fin 3, u ≠ v → ∃ σ : Equiv.Perm (Fin 3), σ 0 = u ∧ σ 1 = v := by decide
      have hex' : ∀ u v : Fin 3, u ≠ v → P u v → ∃ σ : Equiv.Perm (Fin 3), P (σ 0) (σ 1) := by
        intro u v huv hP
        obtain ⟨σ, h1, h2⟩ := hex u v huv
        exact ⟨σ, by rw [h1, h2]; exact hP⟩
      rintro (h | h | h | h | h | h)
      · exact hex' 0 1 (by decide) h
      · exact hex' 1 2 (by decide) h
      · exact hex' 2 0 (by decide) h
      · exact hex' 1 0 (by decide) h
      · exact hex' 2 1 (by decide) h
      · exact hex' 0 2 (by decide) h
  rw [key fun u v => y = (fl (2 * rnd w (10 ^ 15)), zOf (bary (w, a, b, c) u), zOf (bary (w, a, b, c) v))]
  simp only [orbitOk, Bool.and_eq_true, decide_eq_true_eq] at hc
  obtain ⟨_, hc⟩ := hc
  simp only [bary, zOf, orbit, Matrix.cons_val_zero, Matrix.cons_val_one, Matrix.cons_val]
  by_cases h1 : n = 1
  · subst h1
    simp at hc
    obtain ⟨rfl, rfl⟩ := hc
    simp
  · by_cases h3 : n = 3
    · subst h3
      simp at hc
      subst hc
      simp
      tauto
    · have h6 : n = 6 := by simpa [h1, h3] using hc
      subst h6
      simp

/-! ### C41 -/

/-- Quadrature sum of a function. -/
noncomputable def sum1 (r : List (ℤ × ℤ)) (f : ℝ → ℝ) : ℝ := (r.map fun wx => val wx.1 * f (val wx.2)).sum

noncomputable def sum2 (r : List (ℤ × ℤ × ℤ)) (f : ℝ → ℝ → ℝ) : ℝ := (r.map fun x => val x.1 * f (val x.2.1) (val x.2.2)).sum

theorem m1_integral (k : ℕ) : ∫ x in (-1 : ℝ)..1, x ^ k = (m1 k : ℝ) / (k + 1) := by
  rw [integral_pow]
  unfold m1
  rcases Nat.even_or_odd k with h | h
  · rw [if_pos (Nat.even_iff.mp h), Odd.neg_one_pow h.add_one]
    norm_num
  · rw [if_neg (by rw [Nat.odd_iff.mp h]; omega), Even.neg_one_pow h.add_one]
    norm_num

/-- C41, line rules, monomials. -/
theorem line_monomials {p : ℕ} {r : List (ℤ × ℤ)} (h : rule1 p = some r) (k : ℕ) (hk : k ≤ p) :
    |sum1 r (fun x => x ^ k) - ∫ x in (-1 : ℝ)..1, x ^ k| ≤ 1 / 2 ^ 50 := by
  have hp : p ≤ 65 := by
    by_contra hc
    rw [(line_rules p).1 (by omega)] at h
    cases h
  have hc := check1_at hp
  unfold check1 at hc
  rw [h] at hc
  simp only [Bool.and_eq_true] at hc
  have hm := moments1_spec (p + 1) 0 r hc.2 k (by omega)
  rw [Nat.zero_add] at hm
  have := near_spec (by omega) hm
  rw [m1_integral]
  have e : sum1 r (fun x => x ^ k) = (((r.map fun t => t.1 * t.2 ^ k).sum : ℤ) : ℝ) / 2 ^ (80 * (k + 1)) := by
    unfold sum1
    clear hc hm this h
    induction r with
    | nil => simp
    | cons a r ih =>
      simp only [List.map_cons, List.sum_cons, ih]
      push_cast
      unfold val
      rw [add_div, div_pow, ← pow_mul, Nat.mul_add, pow_add]
      congr 1
      rw [Nat.mul_one]
      field_simp
  rw [e]
  push_cast at this ⊢
  exact this

theorem sum1_add (r : List (ℤ × ℤ)) (f g : ℝ → ℝ) : sum1 r (fun x => f x + g x) = sum1 r f + sum1 r g := by
  unfold sum1
  induction r with
  | nil => simp
  | cons a r ih => simp only [List.map_cons, List.sum_cons, ih]; ring

theorem sum1_smul (r : List (ℤ × ℤ)) (c : ℝ) (f : ℝ → ℝ) : sum1 r (fun x => c * f x) = c * sum1 r f := by
  unfold sum1
  induction r with
  | nil => simp
  | cons a r ih => simp only [List.map_cons, List.sum_cons, ih]; ring

/-- C41, line rules, all polynomials up to the degree of the rule. -/
theorem line_exact {p : ℕ} {r : List (ℤ × ℤ)} (h : rule1 p = some r) (f : Polynomial ℝ) (hf : f.natDegree ≤ p) :
    |sum1 r (fun x => f.eval x) - ∫ x in (-1 : ℝ)..1, f.eval x| ≤ (∑ k ∈ Finset.range (p + 1), |f.coeff k|) / 2 ^ 50 := by
  have he : ∀ x, f.eval x = ∑ k ∈ Finset.range (p + 1), f.coeff k * x ^ k := fun x => Polynomial.eval_eq_sum_range' (by omega) x
  have hs : ∀ n, sum1 r (fun x => ∑ k ∈ Finset.range n, f.coeff k * x ^ k) = ∑ k ∈ Finset.range n, f.coeff k * sum1 r (fun x => x ^ k) := by
    intro n
    induction n with
    | zero => simp [sum1]
    | succ n ih =>
      simp only [Finset.sum_range_succ]
      rw [sum1_add, ih, sum1_smul]
  have hi : ∫ x in (-1 : ℝ)..1, f.eval x = ∑ k ∈ Finset.range (p + 1), f.coeff k * ∫ x in (-1 : ℝ)..1, x ^ k := by
    simp only [he]
    rw [intervalIntegral.integral_finsetSum]
    · exact Finset.sum_congr rfl fun k _ => intervalIntegral.integral_const_mul _ _
    · intro k _
      exact (by fun_prop : Continuous fun x : ℝ => f.coeff k * x ^ k).intervalIntegrable _ _
  rw [hi]
  simp only [he]
  rw [hs, ← Finset.sum_sub_distrib, Finset.sum_div]
  refine (Finset.abs_sum_le_sum_abs _ _).trans (Finset.sum_le_sum fun k hk => ?_)
  rw [← mul_sub, abs_mul, div_eq_mul_one_div]
  exact mul_le_mul_of_nonneg_left (line_monomials h k (by simp at hk; omega)) (abs_nonneg _)

theorem m2_integral (i j : ℕ) : ∫ y in (-1 : ℝ)..1, ∫ x in (-1 : ℝ)..(-y), x ^ i * y ^ j = (m2num i j : ℝ) / m2den i j := by
  have hin : ∀ y : ℝ, ∫ x in (-1 : ℝ)..(-y), x ^ i * y ^ j = (-1) ^ (i + 1) / (i + 1) * (y ^ (i + j + 1) - y ^ j) := by
    intro y
    rw [intervalIntegral.integral_mul_const, integral_pow, neg_pow y]
    ring
  simp only [hin]
  rw [intervalIntegral.integral_const_mul, intervalIntegral.integral_sub]
  · rw [m1_integral, m1_integral]
    unfold m2num m2den
    push_cast
    have h1 : (i : ℝ) + 1 ≠ 0 := by positivity
    have h2 : (j : ℝ) + 1 ≠ 0 := by positivity
    have h3 : (i : ℝ) + j + 1 + 1 ≠ 0 := by positivity
    have h4 : (i : ℝ) + j + 2 ≠ 0 := by positivity
    rw [show (i : ℝ) + j + 1 + 1 = i + j + 2 by ring]
    field_simp
  · exact (by fun_prop : Continuous fun x : ℝ => x ^ (i + j + 1)).intervalIntegrable _ _
  · exact (by fun_prop : Continuous fun x : ℝ => x ^ j).intervalIntegrable _ _

/-- C41, triangle rules, monomials. -/
theorem triangle_monomials {p : ℕ} {r : List (ℤ × ℤ × ℤ)} (h : rule2 p = some r) (i j : ℕ) (hij : i + j ≤ p) :
    |sum2 r (fun x y => x ^ i * y ^ j) - ∫ y in (-1 : ℝ)..1, ∫ x in (-1 : ℝ)..(-y), x ^ i * y ^ j| ≤ 1 / 2 ^ 45 := by
  have hp : p ≤ 20 := by
    by_contra hc
    rw [(triangle_rules p).1 (by omega)] at h
    cases h
  have hc := check2_at hp
  unfold check2 at hc
  rw [h] at hc
  simp only [conv_eq, Bool.and_eq_true] at hc
  have hm := allMoments_spec p r hc.2.2 i j hij
  have := near_spec (by unfold m2den; positivity) hm
  rw [m2_integral]
  have e : sum2 r (fun x y => x ^ i * y ^ j) = (((r.map fun t => t.1 * t.2.1 ^ i * t.2.2 ^ j).sum : ℤ) : ℝ) / 2 ^ (80 * (i + j + 1)) := by
    unfold sum2
    clear hc hm this h
    induction r with
    | nil => simp
    | cons a r ih =>
      simp only [List.map_cons, List.sum_cons, ih]
      push_cast
      unfold val
      rw [add_div, div_pow, div_pow, ← pow_mul, ← pow_mul, Nat.mul_add, Nat.mul_add, pow_add, pow_add]
      congr 1
      rw [Nat.mul_one]
      field_simp
  rw [e]
  exact this

theorem sum2_add (r : List (ℤ × ℤ × ℤ)) (f g : ℝ → ℝ → ℝ) : sum2 r (fun x y => f x y + g x y) = sum2 r f + sum2 r g := by
  unfold sum2
  induction r with
  | nil => simp
  | cons a r ih => simp only [List.map_cons, List.sum_cons, ih]; ring

theorem sum2_smul (r : List (ℤ × ℤ × ℤ)) (c : ℝ) (f : ℝ → ℝ → ℝ) : sum2 r (fun x y => c * f x y) = c * sum2 r f := by
  unfold sum2
  induction r with
  | nil => simp
  | cons a r ih => simp only [List.map_cons, List.sum_cons, ih]; ring

/-- C41, triangle rules, all polynomials of total degree up to the degree of the rule: c i j is the coefficient of z1^i z2^j. -/
theorem triangle_exact {p : ℕ} {r : List (ℤ × ℤ × ℤ)} (h : rule2 p = some r) (s : Finset (ℕ × ℕ)) (hs : ∀ e ∈ s, e.1 + e.2 ≤ p) (c : ℕ × ℕ → ℝ) :
    |sum2 r (fun x y => ∑ e ∈ s, c e * (x ^ e.1 * y ^ e.2)) - ∫ y in (-1 : ℝ)..1, ∫ x in (-1 : ℝ)..(-y), ∑ e ∈ s, c e * (x ^ e.1 * y ^ e.2)| ≤
      (∑ e ∈ s, |c e|) / 2 ^ 45 := by
  have h1 : sum2 r (fun x y => ∑ e ∈ s, c e * (x ^ e.1 * y ^ e.2)) = ∑ e ∈ s, c e * sum2 r (fun x y => x ^ e.1 * y ^ e.2) := by
    clear hs
    induction s using Finset.induction_on with
    | empty => simp [sum2]
    | insert a s ha ih =>
      simp only [Finset.sum_insert ha]
      rw [sum2_add, ih, sum2_smul]
  have hin : ∀ (e : ℕ × ℕ) (y : ℝ), ∫ x in (-1 : ℝ)..(-y), x ^ e.1 * y ^ e.2 = ((-y) ^ (e.1 + 1) - (-1) ^ (e.1 + 1)) / (e.1 + 1) * y ^ e.2 := by
    intro e y
    rw [intervalIntegral.integral_mul_const, integral_pow]
  have h2 : ∫ y in (-1 : ℝ)..1, ∫ x in (-1 : ℝ)..(-y), ∑ e ∈ s, c e * (x ^ e.1 * y ^ e.2) =
      ∑ e ∈ s, c e * ∫ y in (-1 : ℝ)..1, ∫ x in (-1 : ℝ)..(-y), x ^ e.1 * y ^ e.2 := by
    have ha : ∀ y : ℝ, ∫ x in (-1 : ℝ)..(-y), ∑ e ∈ s, c e * (x ^ e.1 * y ^ e.2) = ∑ e ∈ s, c e * ∫ x in (-1 : ℝ)..(-y), x ^ e.1 * y ^ e.2 := by
      intro y
      rw [intervalIntegral.integral_finsetSum]
      · exact Finset.sum_congr rfl fun k _ => intervalIntegral.integral_const_mul _ _
      · intro e _
        exact (by fun_prop : Continuous fun x : ℝ => c e * (x ^ e.1 * y ^ e.2)).intervalIntegrable _ _
    simp only [ha]
    rw [intervalIntegral.integral_finsetSum]
    · exact Finset.sum_congr rfl fun k _ => intervalIntegral.integral_const_mul _ _
    · intro e _
      simp only [hin]
      exact (by fun_prop : Continuous fun y : ℝ => c e * (((-y) ^ (e.1 + 1) - (-1) ^ (e.1 + 1)) / (e.1 + 1) * y ^ e.2)).intervalIntegrable _ _
  rw [h1, h2, ← Finset.sum_sub_distrib, Finset.sum_div]
  refine (Finset.abs_sum_le_sum_abs _ _).trans (Finset.sum_le_sum fun e he => ?_)
  rw [← mul_sub, abs_mul, div_eq_mul_one_div]
  exact mul_le_mul_of_nonneg_left (triangle_monomials h e.1 e.2 (hs e he)) (abs_nonneg _)

/-- C40: the weights sum to the length of the interval and to the area of the triangle. -/
theorem weights_sum (p : ℕ) : (∀ r, rule1 p = some r → |(r.map fun x => val x.1).sum - 2| ≤ 1 / 2 ^ 50) ∧
    (∀ r, rule2 p = some r → |(r.map fun x => val x.1).sum - 2| ≤ 1 / 2 ^ 45) := by
  constructor
  · intro r h
    have := line_monomials h 0 (by omega)
    rw [m1_integral] at this
    simpa [sum1, m1] using this
  · intro r h
    have := triangle_monomials h 0 0 (by omega)
    rw [m2_integral] at this
    have e : (m2num 0 0 : ℝ) / m2den 0 0 = 2 := by norm_num [m2num, m2den, m1]
    rw [e] at this
    simpa [sum2] using this

/-! ### Non-vacuity -/

example : (rule1 65).isSome = true ∧ (rule2 20).isSome = true ∧ rule1 66 = none ∧ rule2 21 = none := by decide +kernel
/-- The midpoint rule of degree 1: weight 2 at 0. -/
example : rule1 1 = some [(2 ^ 81, 0)] := by decide +kernel
example : (rule2 2).map (·.length) = some 3 := by decide +kernel

end Verif.Quadrature.Props
