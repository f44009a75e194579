import Verif.Model.Geometry
import Mathlib.Tactic.Ring
import Mathlib.Tactic.FieldSimp
import Mathlib.Tactic.LinearCombination
import Mathlib.Tactic.Linarith
import Mathlib.Tactic.Positivity
import Mathlib.Tactic.IntervalCases
import Mathlib.Analysis.Real.Sqrt

/-!
# C31, C32, C33, C34: triangle geometry
-/

namespace Verif.Geometry.Props
open Verif.Geometry

variable {K : Type} [Field K] [LinearOrder K] [IsStrictOrderedRing K]

/-- `s` is the non-negative square root. -/
def IsSqrt (s : K → K) : Prop := ∀ x, 0 ≤ x → 0 ≤ s x ∧ s x * s x = x

theorem real_isSqrt : IsSqrt Real.sqrt := fun x hx => ⟨Real.sqrt_nonneg x, Real.mul_self_sqrt hx⟩

/-- Twice the signed area of the triangle p, q, r. -/
def cross (p q r : P2 K) : K := (q.x - p.x) * (r.y - p.y) - (r.x - p.x) * (q.y - p.y)

omit [LinearOrder K] [IsStrictOrderedRing K] in
theorem jdet_cross [CharZero K] (t : Tri K) : jdet t = cross t.a t.b t.c / 4 := by
  unfold jdet det jac cross
  simp only
  ring

theorem hypot_pos {s : K → K} (hs : IsSqrt s) {x y : K} (h : x ≠ 0 ∨ y ≠ 0) : 0 < hypot s x y ∧ hypot s x y * hypot s x y = x * x + y * y := by
  unfold hypot
  have h0 : 0 < x * x + y * y := by
    rcases h with h | h
    · have := mul_self_pos.mpr h
      nlinarith [mul_self_nonneg y]
    · have := mul_self_pos.mpr h
      nlinarith [mul_self_nonneg x]
  obtain ⟨h1, h2⟩ := hs _ h0.le
  refine ⟨lt_of_le_of_ne h1 ?_, h2⟩
  intro e
  rw [← e] at h2
  simp only [mul_zero] at h2
  exact h0.ne h2

/-- The cross product does not depend on the vertex one starts from. -/
theorem cross_rot (t : Tri K) (k : ℕ) (hk : k < 3) :
    cross (vertex t ((k + 1) % 3)) (vertex t ((k + 2) % 3)) (vertex t k) = cross t.a t.b t.c := by
  interval_cases k <;> simp [vertex, cross] <;> ring

/-- Edges of a nondegenerate triangle have positive length. -/
theorem edge_ne (t : Tri K) (h : jdet t ≠ 0) (k : ℕ) (hk : k < 3) :
    (vertex t ((k + 2) % 3)).x - (vertex t ((k + 1) % 3)).x ≠ 0 ∨ (vertex t ((k + 2) % 3)).y - (vertex t ((k + 1) % 3)).y ≠ 0 := by
  by_contra hn
  push Not at hn
  apply h
  rw [jdet_cross, ← cross_rot t k hk]
  unfold cross
  rw [hn.1, hn.2]
  ring

/-- A point of the closed triangle. -/
def InTri (t : Tri K) (p : P2 K) : Prop :=
  ∃ u v w : K, 0 ≤ u ∧ 0 ≤ v ∧ 0 ≤ w ∧ u + v + w = 1 ∧ p.x = u * t.a.x + v * t.b.x + w * t.c.x ∧ p.y = u * t.a.y + v * t.b.y + w * t.c.y

/-- C31: normals are unit vectors and point away from the triangle: every point of the triangle is on the inner side of the line through the
face, the opposite vertex strictly so; the ends of the face are on the line. -/
theorem normal_spec {s : K → K} (hs : IsSqrt s) (t : Tri K) (h : 0 < jdet t) (k : ℕ) (hk : k < 3) :
    (normal s t k).x ^ 2 + (normal s t k).y ^ 2 = 1 ∧
    (∀ p, InTri t p → (normal s t k).x * (p.x - (vertex t ((k + 1) % 3)).x) + (normal s t k).y * (p.y - (vertex t ((k + 1) % 3)).y) ≤ 0) ∧
    (normal s t k).x * ((vertex t k).x - (vertex t ((k + 1) % 3)).x) + (normal s t k).y * ((vertex t k).y - (vertex t ((k + 1) % 3)).y) < 0 ∧
    (normal s t k).x * ((vertex t ((k + 2) % 3)).x - (vertex t ((k + 1) % 3)).x) +
      (normal s t k).y * ((vertex t ((k + 2) % 3)).y - (vertex t ((k + 1) % 3)).y) = 0 := by
  obtain ⟨hL, hL2⟩ := hypot_pos hs (edge_ne t h.ne' k hk)
  have hc := cross_rot t k hk
  have hpos : 0 < cross t.a t.b t.c := by
    rw [jdet_cross] at h
    linarith
  rw [← hc] at hpos
  unfold normal
  rw [abs_of_pos h, div_self h.ne']
  simp only
  generalize hLd : hypot s ((vertex t ((k + 2) % 3)).x - (vertex t ((k + 1) % 3)).x)
    ((vertex t ((k + 2) % 3)).y - (vertex t ((k + 1) % 3)).y) = L at hL hL2 ⊢
  have hLne := hL.ne'
  unfold cross at hpos
  refine ⟨?_, ?_, ?_, ?_⟩
  · field_simp
    nlinarith [hL2]
  · rintro p ⟨u, v, w, hu, hv, hw, hsum, hx, hy⟩
    have key : ∀ X Y : K, 1 * ((vertex t ((k + 2) % 3)).y - (vertex t ((k + 1) % 3)).y) / L * X +
        -1 * ((vertex t ((k + 2) % 3)).x - (vertex t ((k + 1) % 3)).x) / L * Y =
        (((vertex t ((k + 2) % 3)).y - (vertex t ((k + 1) % 3)).y) * X - ((vertex t ((k + 2) % 3)).x - (vertex t ((k + 1) % 3)).x) * Y) / L := by
      intro X Y; ring
    rw [key]
    apply div_nonpos_of_nonpos_of_nonneg _ hL.le
    rw [hx, hy]
    have hu' : u = 1 - v - w := by linarith
    interval_cases k
    · simp only [vertex, Nat.zero_add] at hpos ⊢
      norm_num at hpos ⊢
      have := mul_nonneg hu (sub_nonneg.mpr hpos.le)
      subst hu'
      nlinarith [this]
    · simp only [vertex] at hpos ⊢
      norm_num at hpos ⊢
      have := mul_nonneg hv (sub_nonneg.mpr hpos.le)
      subst hu'
      nlinarith [this]
    · simp only [vertex] at hpos ⊢
      norm_num at hpos ⊢
      have := mul_nonneg hw (sub_nonneg.mpr hpos.le)
      subst hu'
      nlinarith [this]
  · have : ∀ X Y : K, 1 * ((vertex t ((k + 2) % 3)).y - (vertex t ((k + 1) % 3)).y) / L * X +
        -1 * ((vertex t ((k + 2) % 3)).x - (vertex t ((k + 1) % 3)).x) / L * Y =
        (((vertex t ((k + 2) % 3)).y - (vertex t ((k + 1) % 3)).y) * X - ((vertex t ((k + 2) % 3)).x - (vertex t ((k + 1) % 3)).x) * Y) / L := by
      intro X Y; ring
    rw [this]
    exact div_neg_of_neg_of_pos (by linarith) hL
  · ring

theorem length_eq {s : K → K} (t : Tri K) (k : ℕ) : lengths s t k = 2 * surfaceJ s t k := by
  unfold lengths side surfaceJ hypot
  have : ∀ a b c d : K, (a - b) * (a - b) + (c - d) * (c - d) = (b - a) ^ 2 + (d - c) ^ 2 := by intros; ring
  rw [this]
  ring

/-- C31: the normals weighted with the lengths of the faces sum to zero. -/
theorem normals_close {s : K → K} (hs : IsSqrt s) (t : Tri K) (h : 0 < jdet t) :
    lengths s t 0 * (normal s t 0).x + lengths s t 1 * (normal s t 1).x + lengths s t 2 * (normal s t 2).x = 0 ∧
    lengths s t 0 * (normal s t 0).y + lengths s t 1 * (normal s t 1).y + lengths s t 2 * (normal s t 2).y = 0 := by
  have key : ∀ k < 3, lengths s t k * (normal s t k).x = (vertex t ((k + 2) % 3)).y - (vertex t ((k + 1) % 3)).y ∧
      lengths s t k * (normal s t k).y = -((vertex t ((k + 2) % 3)).x - (vertex t ((k + 1) % 3)).x) := by
    intro k hk
    obtain ⟨hL, _⟩ := hypot_pos hs (edge_ne t h.ne' k hk)
    have hl : lengths s t k = hypot s ((vertex t ((k + 2) % 3)).x - (vertex t ((k + 1) % 3)).x)
        ((vertex t ((k + 2) % 3)).y - (vertex t ((k + 1) % 3)).y) := by
      unfold lengths side hypot
      congr 1; ring
    unfold normal
    rw [hl, abs_of_pos h, div_self h.ne']
    simp only
    constructor <;> field_simp
  rw [(key 0 (by omega)).1, (key 1 (by omega)).1, (key 2 (by omega)).1, (key 0 (by omega)).2, (key 1 (by omega)).2, (key 2 (by omega)).2]
  simp only [vertex]
  norm_num

/-- C31: the Jacobian determinant is half of the area, positive for counterclockwise triangles; the surface Jacobian is half of the length. -/
theorem jacobian_area (t : Tri K) : jdet t = area t / 2 ∧ (0 < jdet t ↔ 0 < cross t.a t.b t.c) := by
  rw [jdet_cross]
  refine ⟨?_, ?_⟩
  · unfold area cross; ring
  · constructor <;> intro h <;> linarith

/-- C31: the constructor always produces a counterclockwise triangle. -/
theorem construct_ccw (a b c : P2 K) (h : cross a b c ≠ 0) : 0 < jdet (construct a b c) := by
  unfold construct
  by_cases hj : jdet ⟨a, b, c⟩ < 0
  · rw [if_pos hj]
    rw [jdet_cross] at hj ⊢
    unfold cross at hj ⊢
    simp only at hj ⊢
    linarith
  · rw [if_neg hj]
    have := jdet_cross (⟨a, b, c⟩ : Tri K)
    simp only at this
    apply lt_of_le_of_ne (not_lt.mp hj)
    rw [this]
    intro e
    apply h
    linarith

/-- C31: `jinv` is the inverse of the Jacobian matrix, whose columns are the derivatives of the map from the master triangle. -/
theorem jinv_spec (t : Tri K) (h : jdet t ≠ 0) :
    ((jinv t).m00 * (jac t).m00 + (jinv t).m01 * (jac t).m10 = 1 ∧ (jinv t).m00 * (jac t).m01 + (jinv t).m01 * (jac t).m11 = 0 ∧
      (jinv t).m10 * (jac t).m00 + (jinv t).m11 * (jac t).m10 = 0 ∧ (jinv t).m10 * (jac t).m01 + (jinv t).m11 * (jac t).m11 = 1) ∧
    ∀ z dz : P2 K, (localToGlobal t ⟨z.x + dz.x, z.y + dz.y⟩).x = (localToGlobal t z).x + (jac t).m00 * dz.x + (jac t).m01 * dz.y ∧
      (localToGlobal t ⟨z.x + dz.x, z.y + dz.y⟩).y = (localToGlobal t z).y + (jac t).m10 * dz.x + (jac t).m11 * dz.y := by
  constructor
  · unfold jdet at h
    unfold jinv inv
    generalize jac t = m at h ⊢
    refine ⟨?_, ?_, ?_, ?_⟩ <;> simp only <;> field_simp <;> unfold det <;> ring
  · intro z dz
    constructor <;> simp only [localToGlobal, jac, psi] <;> norm_num <;> ring

/-- The gradient of the nodal functions: they are affine, with value 1 at their own vertex and 0 at the others, and `dpsi` is their slope. -/
theorem psi_spec (t : Tri K) (h : jdet t ≠ 0) :
    (∀ i < 3, ∀ j < 3, psi i (globalToLocal t (vertex t j)) = if i = j then 1 else 0) ∧
    (∀ i < 3, ∀ p d : P2 K, psi i (globalToLocal t ⟨p.x + d.x, p.y + d.y⟩) =
      psi i (globalToLocal t p) + (dpsi t i).x * d.x + (dpsi t i).y * d.y) ∧
    (∀ z : P2 K, psi 0 z + psi 1 z + psi 2 z = 1) := by
  have hd : det (tmat t) = 4 * jdet t := by unfold det tmat jdet det jac; ring
  have hd0 : det (tmat t) ≠ 0 := by rw [hd]; exact mul_ne_zero four_ne_zero h
  refine ⟨?_, ?_, ?_⟩
  · intro i hi j hj
    have hdd : (t.b.x - t.a.x) * (t.c.y - t.a.y) - (t.c.x - t.a.x) * (t.b.y - t.a.y) ≠ 0 := hd0
    interval_cases i <;> interval_cases j <;> simp [psi, globalToLocal, lambda, inv, vertex, det, tmat] <;> field_simp <;> ring
  · intro i hi p d
    have hdd : (t.b.x - t.a.x) * (t.c.y - t.a.y) - (t.c.x - t.a.x) * (t.b.y - t.a.y) ≠ 0 := hd0
    have hj : (t.b.x - t.a.x) / 2 * ((t.c.y - t.a.y) / 2) - (t.c.x - t.a.x) / 2 * ((t.b.y - t.a.y) / 2) =
      ((t.b.x - t.a.x) * (t.c.y - t.a.y) - (t.c.x - t.a.x) * (t.b.y - t.a.y)) / 4 := by ring
    interval_cases i <;> simp [psi, dpsi, jinv, jac, globalToLocal, lambda, inv, det, tmat, hj] <;> field_simp <;> ring
  · intro z
    simp only [psi]; norm_num; ring

/-! ### Maps -/

theorem lambda_mul (t : Tri K) (h : jdet t ≠ 0) (p : P2 K) :
    det (tmat t) ≠ 0 ∧ (lambda t p).x * det (tmat t) = (p.x - t.a.x) * (t.c.y - t.a.y) - (p.y - t.a.y) * (t.c.x - t.a.x) ∧
      (lambda t p).y * det (tmat t) = (p.y - t.a.y) * (t.b.x - t.a.x) - (p.x - t.a.x) * (t.b.y - t.a.y) := by
  have hd : det (tmat t) = 4 * jdet t := by unfold det tmat jdet det jac; ring
  have hd0 : det (tmat t) ≠ 0 := by rw [hd]; exact mul_ne_zero four_ne_zero h
  refine ⟨hd0, ?_, ?_⟩
  · simp only [lambda, inv]
    field_simp
    simp only [tmat]; ring
  · simp only [lambda, inv]
    field_simp
    simp only [tmat]; ring

/-- `lambda` are the coordinates in the basis of the two edges at the first vertex. -/
theorem lambda_iff (t : Tri K) (h : jdet t ≠ 0) (p : P2 K) (u v : K) :
    lambda t p = ⟨u, v⟩ ↔ p.x = t.a.x + u * (t.b.x - t.a.x) + v * (t.c.x - t.a.x) ∧ p.y = t.a.y + u * (t.b.y - t.a.y) + v * (t.c.y - t.a.y) := by
  obtain ⟨h0, h1, h2⟩ := lambda_mul t h p
  have hD : det (tmat t) = (t.b.x - t.a.x) * (t.c.y - t.a.y) - (t.c.x - t.a.x) * (t.b.y - t.a.y) := rfl
  constructor
  · intro e
    rw [e] at h1 h2
    simp only at h1 h2
    constructor
    · apply mul_right_cancel₀ h0
      linear_combination (p.x - t.a.x) * hD - h1 * (t.b.x - t.a.x) - h2 * (t.c.x - t.a.x)
    · apply mul_right_cancel₀ h0
      linear_combination (p.y - t.a.y) * hD - h1 * (t.b.y - t.a.y) - h2 * (t.c.y - t.a.y)
  · rintro ⟨e1, e2⟩
    have hx : (lambda t p).x = u := by
      apply mul_right_cancel₀ h0
      rw [h1, hD]
      linear_combination e1 * (t.c.y - t.a.y) - e2 * (t.c.x - t.a.x)
    have hy : (lambda t p).y = v := by
      apply mul_right_cancel₀ h0
      rw [h2, hD]
      linear_combination e2 * (t.b.x - t.a.x) - e1 * (t.b.y - t.a.y)
    rw [← hx, ← hy]

/-- C32: the two maps are inverse to each other. -/
theorem maps_inverse (t : Tri K) (h : jdet t ≠ 0) :
    (∀ p, localToGlobal t (globalToLocal t p) = p) ∧ (∀ z, globalToLocal t (localToGlobal t z) = z) := by
  constructor
  · intro p
    obtain ⟨e1, e2⟩ := (lambda_iff t h p (lambda t p).x (lambda t p).y).mp rfl
    obtain ⟨x, y⟩ := p
    simp only [localToGlobal, globalToLocal, psi, P2.mk.injEq]
    norm_num
    constructor
    · linear_combination -e1
    · linear_combination -e2
  · rintro ⟨x, y⟩
    have : lambda t (localToGlobal t ⟨x, y⟩) = ⟨(1 + x) / 2, (1 + y) / 2⟩ := by
      rw [lambda_iff t h]
      simp only [localToGlobal, psi]
      norm_num
      constructor <;> ring
    unfold globalToLocal
    rw [this]
    simp only [P2.mk.injEq]
    constructor <;> ring

/-- C32: the vertices are the images of the corners of the master triangle. -/
theorem corners (t : Tri K) :
    localToGlobal t ⟨-1, -1⟩ = t.a ∧ localToGlobal t ⟨1, -1⟩ = t.b ∧ localToGlobal t ⟨-1, 1⟩ = t.c := by
  refine ⟨?_, ?_, ?_⟩ <;> (simp only [localToGlobal, psi]; norm_num)

/-- C32: containment. -/
theorem contains_iff (t : Tri K) (h : jdet t ≠ 0) (p : P2 K) : containsPoint t p = true ↔ InTri t p := by
  obtain ⟨hx, hy⟩ := (lambda_iff t h p (lambda t p).x (lambda t p).y).mp rfl
  unfold containsPoint
  simp only [Bool.and_eq_true, decide_eq_true_eq, ge_iff_le]
  constructor
  · rintro ⟨⟨h1, h2⟩, h3⟩
    refine ⟨1 - (lambda t p).x - (lambda t p).y, (lambda t p).x, (lambda t p).y, by linarith, h1, h2, by ring, ?_, ?_⟩
    · linear_combination hx
    · linear_combination hy
  · rintro ⟨u, v, w, hu, hv, hw, hsum, ex, ey⟩
    have : lambda t p = ⟨v, w⟩ := by
      rw [lambda_iff t h]
      constructor
      · linear_combination ex + t.a.x * hsum
      · linear_combination ey + t.a.y * hsum
    rw [this]
    exact ⟨⟨hv, hw⟩, by simp only; linarith⟩

/-! ### Faces and orientation -/

/-- The points of a face run from vertex k+1 to vertex k+2, with the weights of `boundaryPsi`. -/
theorem face_point (t : Tri K) (k : ℕ) (hk : k < 3) (z : K) :
    localToGlobal t (boundaryToMaster k z) =
      ⟨boundaryPsi 0 z * (vertex t ((k + 1) % 3)).x + boundaryPsi 1 z * (vertex t ((k + 2) % 3)).x,
        boundaryPsi 0 z * (vertex t ((k + 1) % 3)).y + boundaryPsi 1 z * (vertex t ((k + 2) % 3)).y⟩ := by
  interval_cases k <;> simp [localToGlobal, boundaryToMaster, boundaryPsi, psi, vertex] <;> constructor <;> ring

/-- C33, counterclockwise input: face k of the geometry runs from node k+1 to node k+2 of the list given in the mesh. Missing: clockwise input. -/
theorem face_nodes_partial (a b c : P2 K) (h : 0 < cross a b c) (k : ℕ) (hk : k < 3) :
    localToGlobal (construct a b c) (boundaryToMaster k (-1)) = vertex ⟨a, b, c⟩ ((k + 1) % 3) ∧
    localToGlobal (construct a b c) (boundaryToMaster k 1) = vertex ⟨a, b, c⟩ ((k + 2) % 3) := by
  have hc : construct a b c = ⟨a, b, c⟩ := by
    unfold construct
    rw [if_neg]
    rw [jdet_cross]
    simp only
    linarith
  rw [hc, face_point _ k hk, face_point _ k hk]
  simp [boundaryPsi]

/-- C33 fails for every clockwise triangle: face 0 of the geometry is the edge between the first two nodes, while the mesh tables
treat face 0 as the edge between the last two. -/
theorem clockwise_faces_exchanged (a b c : P2 K) (h : cross a b c < 0) :
    localToGlobal (construct a b c) (boundaryToMaster 0 (-1)) = b ∧ localToGlobal (construct a b c) (boundaryToMaster 0 1) = a ∧
    localToGlobal (construct a b c) (boundaryToMaster 2 (-1)) = c ∧ localToGlobal (construct a b c) (boundaryToMaster 2 1) = b ∧
    a ≠ c := by
  have hc : construct a b c = ⟨c, b, a⟩ := by
    unfold construct
    rw [if_pos]
    rw [jdet_cross]
    simp only
    linarith
  rw [hc, face_point _ 0 (by omega), face_point _ 0 (by omega), face_point _ 2 (by omega), face_point _ 2 (by omega)]
  refine ⟨?_, ?_, ?_, ?_, ?_⟩
  · simp [boundaryPsi, vertex]
  · simp [boundaryPsi, vertex]
  · simp [boundaryPsi, vertex]
  · simp [boundaryPsi, vertex]
  · rintro rfl
    simp [cross] at h

/-! ### Two triangles with a common edge -/

/-- A symmetric rule on the edge: point `n - 1 - i` is opposite to point `i`. -/
def Symmetric (z : List K) : Prop := ∀ (i : ℕ) (x : K), z[i]? = some x → z[z.length - i - 1]? = some (-x)

/-- C34: if face k of t and face k' of t' join the same two points in opposite direction, then the Gauss points coincide when the order of
the points is reversed on one side; the normals are opposite and the surface Jacobians equal. -/
theorem gauss_points_coincide {s : K → K} (hs : IsSqrt s) (t t' : Tri K) (h : 0 < jdet t) (h' : 0 < jdet t') (k k' : ℕ) (hk : k < 3) (hk' : k' < 3)
    (e1 : vertex t ((k + 1) % 3) = vertex t' ((k' + 2) % 3)) (e2 : vertex t ((k + 2) % 3) = vertex t' ((k' + 1) % 3))
    (z : List K) (hz : Symmetric z) :
    (∀ (gp : ℕ) (x : K), z[gp]? = some x → ∃ x', z[z.length - gp - 1]? = some x' ∧
      localToGlobal t (boundaryToMaster k x) = localToGlobal t' (boundaryToMaster k' x') ∧
      boundaryPsi 0 x = boundaryPsi 1 x' ∧ boundaryPsi 1 x = boundaryPsi 0 x') ∧
    normal s t' k' = ⟨-(normal s t k).x, -(normal s t k).y⟩ ∧ surfaceJ s t k = surfaceJ s t' k' := by
  refine ⟨?_, ?_, ?_⟩
  · intro gp x hx
    refine ⟨-x, hz gp x hx, ?_, ?_, ?_⟩
    · rw [face_point t k hk, face_point t' k' hk', e1, e2]
      simp only [boundaryPsi, P2.mk.injEq]
      norm_num
      constructor <;> ring
    · simp [boundaryPsi, sub_eq_add_neg]
    · simp [boundaryPsi]
  · unfold normal
    rw [abs_of_pos h, abs_of_pos h', div_self h.ne', div_self h'.ne', e1, e2]
    have : hypot s ((vertex t' ((k' + 1) % 3)).x - (vertex t' ((k' + 2) % 3)).x) ((vertex t' ((k' + 1) % 3)).y - (vertex t' ((k' + 2) % 3)).y) =
        hypot s ((vertex t' ((k' + 2) % 3)).x - (vertex t' ((k' + 1) % 3)).x) ((vertex t' ((k' + 2) % 3)).y - (vertex t' ((k' + 1) % 3)).y) := by
      unfold hypot; congr 1; ring
    simp only [P2.mk.injEq, this]
    constructor <;> ring
  · unfold surfaceJ
    rw [e1, e2]
    congr 2
    ring

/-- In a mesh the direction is opposite: two counterclockwise triangles on different sides of the edge through p and q. -/
theorem common_edge_reversed (t t' : Tri K) (h : 0 < jdet t) (h' : 0 < jdet t') (k k' : ℕ) (hk : k < 3) (hk' : k' < 3)
    (e1 : vertex t ((k + 1) % 3) = vertex t' ((k' + 1) % 3)) (e2 : vertex t ((k + 2) % 3) = vertex t' ((k' + 2) % 3)) :
    0 < cross (vertex t ((k + 1) % 3)) (vertex t ((k + 2) % 3)) (vertex t k) * cross (vertex t ((k + 1) % 3)) (vertex t ((k + 2) % 3)) (vertex t' k') := by
  rw [cross_rot t k hk, e1, e2, cross_rot t' k' hk']
  rw [jdet_cross] at h h'
  exact mul_pos (by linarith) (by linarith)

/-! ### Further quantities -/

/-- The barycentre and the midpoints are the images of the master barycentre and edge centres, and the linear interpolation weights agree. -/
theorem centres (t : Tri K) :
    barycentre t = localToGlobal t ⟨-1 / 3, -1 / 3⟩ ∧ (∀ v < 3, chi v (⟨-1 / 3, -1 / 3⟩ : P2 K) = chiBary v) ∧
    (∀ m < 3, midpoint t m = localToGlobal t (boundaryToMaster m 0) ∧ ∀ v < 3, chi v (boundaryToMaster m 0 : P2 K) = chiMid v m) := by
  refine ⟨?_, ?_, ?_⟩
  · simp only [barycentre, localToGlobal, psi, P2.mk.injEq]; norm_num; constructor <;> ring
  · intro v hv; interval_cases v <;> simp [chi, chiBary] <;> norm_num
  · intro m hm
    constructor
    · rw [face_point t m hm]
      simp only [midpoint, boundaryPsi, P2.mk.injEq]; norm_num
      constructor <;> ring
    · intro v hv
      interval_cases m <;> interval_cases v <;> simp [chi, chiMid, boundaryToMaster]

/-- `GetRadius` is the circumradius: there is a point at this distance from all three vertices. -/
theorem radius_spec {s : K → K} (hs : IsSqrt s) (t : Tri K) (h : 0 < jdet t) :
    0 < radius s t ∧ ∃ o : P2 K, ∀ k < 3, ((vertex t k).x - o.x) ^ 2 + ((vertex t k).y - o.y) ^ 2 = radius s t ^ 2 := by
  have hc : 0 < cross t.a t.b t.c := by rw [jdet_cross] at h; linarith
  have hA : area t = cross t.a t.b t.c / 2 := by unfold area cross; ring
  have hs0 := hypot_pos hs (edge_ne t h.ne' 2 (by omega))
  have hs1 := hypot_pos hs (edge_ne t h.ne' 0 (by omega))
  have hs2 := hypot_pos hs (edge_ne t h.ne' 1 (by omega))
  have r0 : side s t 0 1 = hypot s ((vertex t 1).x - (vertex t 0).x) ((vertex t 1).y - (vertex t 0).y) := by
    unfold side hypot; congr 1; ring
  have r1 : side s t 1 2 = hypot s ((vertex t 2).x - (vertex t 1).x) ((vertex t 2).y - (vertex t 1).y) := by
    unfold side hypot; congr 1; ring
  have r2 : side s t 2 0 = hypot s ((vertex t 0).x - (vertex t 2).x) ((vertex t 0).y - (vertex t 2).y) := by
    unfold side hypot; congr 1; ring
  norm_num at hs0 hs1 hs2
  rw [← r0] at hs0
  rw [← r1] at hs1
  rw [← r2] at hs2
  unfold radius
  rw [hA]
  obtain ⟨p0, q0⟩ := hs0
  obtain ⟨p1, q1⟩ := hs1
  obtain ⟨p2, q2⟩ := hs2
  refine ⟨by positivity, ?_⟩
  generalize side s t 0 1 = l0 at *
  generalize side s t 1 2 = l1 at *
  generalize side s t 2 0 = l2 at *
  generalize hD : cross t.a t.b t.c = D at *
  have hD0 := hc.ne'
  simp only [vertex] at q0 q1 q2
  norm_num at q0 q1 q2
  -- circumcentre relative to the first vertex
  refine ⟨⟨t.a.x + ((t.c.y - t.a.y) * (l0 * l0) - (t.b.y - t.a.y) * (l2 * l2)) / (2 * D),
    t.a.y + ((t.b.x - t.a.x) * (l2 * l2) - (t.c.x - t.a.x) * (l0 * l0)) / (2 * D)⟩, ?_⟩
  have hR : (1 / (4 * (D / 2)) * l0 * l1 * l2) ^ 2 = (l0 * l0) * (l1 * l1) * (l2 * l2) / (4 * D ^ 2) := by
    field_simp; ring
  rw [hR, q0, q1, q2, ← hD]
  have hD0' : cross t.a t.b t.c ≠ 0 := by rw [hD]; exact hD0
  intro k hk
  have hk' : k = 0 ∨ k = 1 ∨ k = 2 := by omega
  rcases hk' with rfl | rfl | rfl
  · simp only [vertex]; norm_num
    field_simp
    ring
  · simp only [vertex]; norm_num
    field_simp
    unfold cross; ring
  · simp only [vertex]; norm_num
    field_simp
    unfold cross; ring

/-- The derivatives of the vertex functions in physical coordinates are those of `dpsi`. -/
theorem dchi_eq_dpsi (t : Tri K) (v : ℕ) (hv : v < 3) : dchiGlobal t 0 v = (dpsi t v).x ∧ dchiGlobal t 1 v = (dpsi t v).y := by
  interval_cases v <;> simp [dchiGlobal, dchi, dpsi] <;> constructor <;> ring

/-! ### Tessellation -/

theorem vtk_points (t : Tri K) (n : ℕ) : vtkGlobal t n = (vtkPostPoint n).map (localToGlobal t) := by
  unfold vtkGlobal vtkPostPoint
  rw [List.map_map]
  apply List.map_congr_left
  intro p _
  simp [localToGlobal, psi]

theorem pairs_append (l l' : List ℕ) (c : ℕ → ℕ) : pairs (l ++ l') c = pairs l c ++ pairs l' c := by
  unfold pairs; exact List.flatMap_append

theorem pairs_length (n i : ℕ) (hi : i ≤ n) :
    2 * (pairs (List.range i) fun i => n - i + 1).length + (n - i + 1) * (n - i + 2) = (n + 1) * (n + 2) := by
  induction i with
  | zero => simp [pairs]
  | succ i ih =>
    have := ih (by omega)
    rw [List.range_succ, pairs_append, List.length_append]
    have h1 : (pairs [i] fun i => n - i + 1).length = n - i + 1 := by simp [pairs]
    rw [h1]
    obtain ⟨d, rfl⟩ : ∃ d, n = i + 1 + d := ⟨n - (i + 1), by omega⟩
    have e1 : i + 1 + d - i = d + 1 := by omega
    have e2 : i + 1 + d - (i + 1) = d := by omega
    rw [e1] at this ⊢
    rw [e2]
    nlinarith [this]

theorem even_half (k : ℕ) : 2 * ((k + 1) * (k + 2) / 2) = (k + 1) * (k + 2) := by
  apply Nat.mul_div_cancel'
  rcases Nat.even_or_odd k with h | h
  · exact Dvd.dvd.mul_left (by obtain ⟨r, rfl⟩ := h; exact ⟨r + 1, by ring⟩) _
  · exact Dvd.dvd.mul_right (by obtain ⟨r, rfl⟩ := h; exact ⟨r + 1, by ring⟩) _

/-- Point (i, j) of the tessellation has the number `ptId`. -/
theorem pairs_get (n i j : ℕ) (hi : i ≤ n) (hj : j ≤ n - i) :
    (pairs (List.range (n + 1)) fun i => n - i + 1)[ptId n 0 i j]? = some (i, j) := by
  have hl := pairs_length n i hi
  have e1 := even_half n
  have e2 := even_half (n - i)
  have hid : ptId n 0 i j = (pairs (List.range i) fun i => n - i + 1).length + j := by
    unfold ptId
    omega
  have hr : List.range (n + 1) = List.range i ++ ([i] ++ (List.range (n - i)).map (i + 1 + ·)) := by
    have : n + 1 = i + 1 + (n - i) := by omega
    rw [this, List.range_add, List.range_succ, List.append_assoc]
  rw [hid, hr, pairs_append, List.getElem?_append_right (by omega)]
  rw [pairs_append, List.getElem?_append_left]
  · simp only [pairs, List.flatMap_cons, List.flatMap_nil, List.append_nil, Nat.add_sub_cancel_left, List.getElem?_map]
    rw [List.getElem?_range (by omega)]
    rfl
  · simp [pairs]; omega

theorem point_get (n first i j : ℕ) (hi : i ≤ n) (hj : j ≤ n - i) :
    first ≤ ptId n first i j ∧ (vtkPostPoint n : List (P2 K))[ptId n first i j - first]? =
      some ⟨-1 + 2 / (n : K) * (j : K), -1 + 2 / (n : K) * (i : K)⟩ := by
  have e1 := even_half n
  have e2 := even_half (n - i)
  have hle : (n - i + 1) * (n - i + 2) ≤ (n + 1) * (n + 2) := Nat.mul_le_mul (by omega) (by omega)
  have h0 : ptId n first i j = first + ptId n 0 i j := by unfold ptId; omega
  refine ⟨by omega, ?_⟩
  rw [h0, Nat.add_sub_cancel_left]
  unfold vtkPostPoint
  rw [List.getElem?_map, pairs_get n i j hi hj]
  rfl

theorem ptId_next (n first i j : ℕ) : ptId n first i j + 1 = ptId n first i (j + 1) := by unfold ptId; omega

theorem ptId_up (n first i j : ℕ) (hi : i < n) : ptId n first i j + (n + 1 - i) = ptId n first (i + 1) j := by
  have e1 := even_half n
  have e2 := even_half (n - i)
  have e3 := even_half (n - (i + 1))
  have hle : (n - i + 1) * (n - i + 2) ≤ (n + 1) * (n + 2) := Nat.mul_le_mul (by omega) (by omega)
  have : (n - i + 1) * (n - i + 2) = (n - (i + 1) + 1) * (n - (i + 1) + 2) + 2 * (n + 1 - i) := by
    obtain ⟨d, rfl⟩ : ∃ d, n = i + 1 + d := ⟨n - (i + 1), by omega⟩
    have e1 : i + 1 + d - i = d + 1 := by omega
    have e2 : i + 1 + d - (i + 1) = d := by omega
    have e3 : i + 1 + d + 1 - i = d + 2 := by omega
    rw [e1, e2, e3]; ring
  unfold ptId
  omega

theorem ptId_down (n first i j : ℕ) (hi : 1 ≤ i) (hin : i ≤ n) : ptId n first i j - (n + 2 - i) + 1 = ptId n first (i - 1) (j + 1) := by
  have h := ptId_up n first (i - 1) j (by omega)
  have e : i - 1 + 1 = i := by omega
  rw [e] at h
  have e' : n + 1 - (i - 1) = n + 2 - i := by omega
  rw [e'] at h
  rw [← h, ← ptId_next]
  omega

/-- C61: the corners of each cell are points written for the same element, the cell values are those at the centroid of the cell,
and all cells have the same area, 1/n² of the triangle. -/
theorem tessellation (n first : ℕ) (hn : 0 < n) :
    List.Forall₂ (fun (c : ℕ × ℕ × ℕ) (z : P2 K) => ∃ P Q R : P2 K, first ≤ c.1 ∧ first ≤ c.2.1 ∧ first ≤ c.2.2 ∧
      (vtkPostPoint n)[c.1 - first]? = some P ∧ (vtkPostPoint n)[c.2.1 - first]? = some Q ∧ (vtkPostPoint n)[c.2.2 - first]? = some R ∧
      z.x = (P.x + Q.x + R.x) / 3 ∧ z.y = (P.y + Q.y + R.y) / 3 ∧ |cross P Q R| = 4 / (n : K) ^ 2)
      (vtkCells n first) (vtkPostCell n) := by
  have hn' : (n : K) ≠ 0 := by exact_mod_cast hn.ne'
  have hpos : (0 : K) ≤ 4 / (n : K) ^ 2 := by positivity
  unfold vtkCells vtkPostCell
  apply List.rel_append
  · rw [List.forall₂_map_left_iff, List.forall₂_map_right_iff, List.forall₂_same]
    rintro ⟨i, j⟩ hp
    simp only [pairs, List.mem_flatMap, List.mem_map, List.mem_range, Prod.mk.injEq] at hp
    obtain ⟨i', hi, j', hj, rfl, rfl⟩ := hp
    simp only
    rw [ptId_up n first i' j' hi, ptId_next]
    obtain ⟨a1, a2⟩ := point_get (K := K) n first i' j' (by omega) (by omega)
    obtain ⟨b1, b2⟩ := point_get (K := K) n first i' (j' + 1) (by omega) (by omega)
    obtain ⟨c1, c2⟩ := point_get (K := K) n first (i' + 1) j' (by omega) (by omega)
    refine ⟨_, _, _, a1, b1, c1, a2, b2, c2, ?_, ?_, ?_⟩
    · push_cast; ring
    · push_cast; ring
    · have : cross (⟨-1 + 2 / (n : K) * (j' : K), -1 + 2 / (n : K) * (i' : K)⟩ : P2 K)
          ⟨-1 + 2 / (n : K) * ((j' + 1 : ℕ) : K), -1 + 2 / (n : K) * (i' : K)⟩
          ⟨-1 + 2 / (n : K) * (j' : K), -1 + 2 / (n : K) * ((i' + 1 : ℕ) : K)⟩ = 4 / (n : K) ^ 2 := by
        unfold cross; push_cast; field_simp; ring
      rw [this, abs_of_nonneg hpos]
  · rw [List.forall₂_map_left_iff, List.forall₂_map_right_iff, List.forall₂_same]
    rintro ⟨i, j⟩ hp
    simp only [pairs, List.mem_flatMap, List.mem_map, List.mem_range, Prod.mk.injEq] at hp
    obtain ⟨i', ⟨i0, hi0, rfl⟩, j', hj, rfl, rfl⟩ := hp
    simp only
    rw [ptId_down n first (i0 + 1) j' (by omega) (by omega), ptId_next]
    obtain ⟨a1, a2⟩ := point_get (K := K) n first (i0 + 1) j' (by omega) (by omega)
    obtain ⟨b1, b2⟩ := point_get (K := K) n first (i0 + 1) (j' + 1) (by omega) (by omega)
    obtain ⟨c1, c2⟩ := point_get (K := K) n first (i0 + 1 - 1) (j' + 1) (by omega) (by omega)
    have e0 : i0 + 1 - 1 = i0 := by omega
    rw [e0] at c1 c2 ⊢
    refine ⟨_, _, _, a1, b1, c1, a2, b2, c2, ?_, ?_, ?_⟩
    · push_cast; ring
    · push_cast; ring
    · have : cross (⟨-1 + 2 / (n : K) * (j' : K), -1 + 2 / (n : K) * ((i0 + 1 : ℕ) : K)⟩ : P2 K)
          ⟨-1 + 2 / (n : K) * ((j' + 1 : ℕ) : K), -1 + 2 / (n : K) * ((i0 + 1 : ℕ) : K)⟩
          ⟨-1 + 2 / (n : K) * ((j' + 1 : ℕ) : K), -1 + 2 / (n : K) * (i0 : K)⟩ = -(4 / (n : K) ^ 2) := by
        unfold cross; push_cast; field_simp; ring
      rw [this, abs_neg, abs_of_nonneg hpos]

/-- There are n² cells and (n+1)(n+2)/2 points. -/
theorem tessellation_counts (n first : ℕ) (hn : 0 < n) :
    (vtkCells n first).length = n * n ∧ 2 * (vtkPostPoint n : List (P2 K)).length = (n + 1) * (n + 2) := by
  have hA : ∀ m, 2 * (pairs (List.range m) fun i => n - i).length + (n - m) * (n - m + 1) = n * (n + 1) ∨ n < m := by
    intro m
    induction m with
    | zero => left; simp [pairs]
    | succ m ih =>
      by_cases hm : n < m + 1
      · exact Or.inr hm
      · left
        rcases ih with ih | ih
        · rw [List.range_succ, pairs_append, List.length_append]
          have h1 : (pairs [m] fun i => n - i).length = n - m := by simp [pairs]
          rw [h1]
          obtain ⟨d, rfl⟩ : ∃ d, n = m + 1 + d := ⟨n - (m + 1), by omega⟩
          have e1 : m + 1 + d - m = d + 1 := by omega
          have e2 : m + 1 + d - (m + 1) = d := by omega
          rw [e1] at ih ⊢
          rw [e2]
          nlinarith [ih]
        · omega
  constructor
  · have h1 := (hA n).resolve_right (by omega)
    have hsplit : List.range n = [0] ++ (List.range (n - 1)).map (· + 1) := by
      obtain ⟨d, rfl⟩ : ∃ d, n = d + 1 := ⟨n - 1, by omega⟩
      rw [Nat.add_sub_cancel, List.range_succ_eq_map]
      rfl
    have h2 : (pairs (List.range n) fun i => n - i).length = n + (pairs ((List.range (n - 1)).map (· + 1)) fun i => n - i).length := by
      conv_lhs => rw [hsplit, pairs_append, List.length_append]
      congr 1
      simp [pairs]
    unfold vtkCells
    rw [List.length_append, List.length_map, List.length_map]
    have : n - n = 0 := by omega
    rw [this] at h1
    nlinarith [h1, h2]
  · unfold vtkPostPoint
    rw [List.length_map, List.range_succ, pairs_append, List.length_append]
    have h1 := pairs_length n n le_rfl
    have h2 : (pairs [n] fun i => n - i + 1).length = 1 := by simp [pairs]
    rw [h2]
    simp only [Nat.sub_self] at h1
    omega

/-! ### Examples -/

/-- A computable square root for the examples. -/
def qsqrt (x : ℚ) : ℚ := (Nat.sqrt x.num.toNat : ℚ) / (Nat.sqrt x.den : ℚ)

/-- The triangle (0,0), (3,0), (0,4). -/
def ex : Tri ℚ := construct ⟨0, 0⟩ ⟨3, 0⟩ ⟨0, 4⟩

example : 0 < jdet ex ∧ jdet ex = 3 ∧ area ex = 6 ∧ normal qsqrt ex 0 = ⟨4 / 5, 3 / 5⟩ ∧ normal qsqrt ex 1 = ⟨-1, 0⟩ ∧
    normal qsqrt ex 2 = ⟨0, -1⟩ ∧ radius qsqrt ex = 5 / 2 ∧ perimeter qsqrt ex = 12 := by decide +kernel

example : (normal Real.sqrt ⟨⟨0, 0⟩, ⟨1, 0⟩, ⟨0, 1⟩⟩ 0).x ^ 2 + (normal Real.sqrt ⟨⟨0, 0⟩, ⟨1, 0⟩, ⟨0, 1⟩⟩ 0).y ^ 2 = 1 :=
  (normal_spec real_isSqrt _ (by norm_num [jdet, det, jac]) 0 (by omega)).1

example : containsPoint ex ⟨1, 1⟩ = true ∧ containsPoint ex ⟨3, 0⟩ = true ∧ containsPoint ex ⟨2, 2⟩ = false := by decide +kernel

/-- Clockwise: the same triangle with the last two nodes exchanged. -/
example : construct (⟨0, 0⟩ : P2 ℚ) ⟨0, 4⟩ ⟨3, 0⟩ = ⟨⟨3, 0⟩, ⟨0, 4⟩, ⟨0, 0⟩⟩ := by decide +kernel

example : vtkCells 2 10 = [(10, 11, 13), (11, 12, 14), (13, 14, 15), (13, 14, 11)] ∧ (vtkPostPoint 2 : List (P2 ℚ)).length = 6 := by decide +kernel

end Verif.Geometry.Props
