import Verif.Props.LakeRun
import Verif.Props.Orthogonal
import Mathlib.Analysis.SpecialFunctions.Trigonometric.Basic
import Mathlib.Analysis.SpecialFunctions.Pow.Real

/-!
# C72: the right-hand side is the weak form of the shallow water equations

The kernels work in master coordinates, with Jacobians, normals and traces taken from tables, and with the fluxes of an interface computed once for
both sides. Here the same quantity is written down in the coordinates of the map: basis functions `Φ e d x y`, fields `U e i x y` and `B e x y` on each
element, their partial derivatives, the flux of the shallow water equations, and on every edge both traces at the same point.
-/

namespace Verif.Swe.Props
open Verif.Geometry Verif.Geometry.Props Verif.Element Verif.Stepper Verif.Tri MvPolynomial

/-! ## The equations -/

/-- Flux in direction x of (water level, discharge) over bathymetry `b`. -/
noncomputable def physX (g : ℝ) (u : Fin 3 → ℝ) (b : ℝ) : Fin 3 → ℝ :=
  ![u 1, u 1 ^ 2 / (u 0 + b) + g * (u 0 ^ 2 / 2 + u 0 * b), u 1 * u 2 / (u 0 + b)]

/-- Flux in direction y. -/
noncomputable def physY (g : ℝ) (u : Fin 3 → ℝ) (b : ℝ) : Fin 3 → ℝ :=
  ![u 2, u 1 * u 2 / (u 0 + b), u 2 ^ 2 / (u 0 + b) + g * (u 0 ^ 2 / 2 + u 0 * b)]

/-- Largest speed of a wave in direction `n`. -/
noncomputable def waveSpeed (g : ℝ) (u : Fin 3 → ℝ) (b : ℝ) (n : P2 ℝ) : ℝ := |(u 1 * n.x + u 2 * n.y) / (u 0 + b)| + √(g * (u 0 + b))

/-- The local Lax-Friedrichs flux between states `u` (own) and `w`. -/
noncomputable def numFlux (g : ℝ) (u w : Fin 3 → ℝ) (b : ℝ) (n : P2 ℝ) (i : Fin 3) : ℝ :=
  (physX g u b i * n.x + physY g u b i * n.y + (physX g w b i * n.x + physY g w b i * n.y) +
    max (waveSpeed g u b n) (waveSpeed g w b n) * (u i - w i)) / 2

/-- Coefficient of bottom friction at depth `h`. -/
noncomputable def cfAt (s : SourceTerms ℝ) (e : EltSource ℝ) (h : ℝ) : ℝ := if e.manning then max s.Cf (e.gn2 / h ^ (1 / 3 : ℝ)) else s.Cf

/-- Source: slope of the bottom (`bx`, `by'`), a given source, and bottom friction. -/
noncomputable def physSource (s : SourceTerms ℝ) (e : EltSource ℝ) (fs : Q ℝ) (u : Fin 3 → ℝ) (b bx by' : ℝ) : Fin 3 → ℝ := fun i =>
  ![0, s.g * u 0 * bx, s.g * u 0 * by'] i + (if s.functionSource then ![fs.ze, fs.qx, fs.qy] i else 0) -
    (if s.bottomFriction then cfAt s e (u 0 + b) * √((u 1 / (u 0 + b)) ^ 2 + (u 2 / (u 0 + b)) ^ 2) / (u 0 + b) * ![0, u 1, u 2] i else 0)

/-- A sum of tidal constituents at time `t`. -/
noncomputable def tidal (ramp t : ℝ) (cs : List (Constituent ℝ)) : ℝ :=
  (cs.map fun c => ramp * c.ff * c.amp * Real.cos (c.freq * t + (c.eq - c.phase) * Real.pi / 180)).sum

/-- The state outside of a boundary. -/
noncomputable def outState (v : Env ℝ) (t ramp : ℝ) (k : BndKind ℝ) (gp : ℕ) (x n : P2 ℝ) (u : Fin 3 → ℝ) : Fin 3 → ℝ :=
  match k with
  | .land => ![u 0, u 1 - 2 * (u 1 * n.x + u 2 * n.y) * n.x, u 2 - 2 * (u 1 * n.x + u 2 * n.y) * n.y]
  | .tide cs => ![tidal ramp t (cs gp), u 1, u 2]
  | .flow cs => ![u 0, tidal ramp t (cs gp) * n.x, tidal ramp t (cs gp) * n.y]
  | .function => ![(v.bcq t x).ze, (v.bcq t x).qx, (v.bcq t x).qy]

/-! ## The discrete weak form -/

/-- Basis functions in global coordinates. -/
abbrev GlobalBasis := ℕ → ℕ → ℝ → ℝ → ℝ

/-- A field on element `e`. -/
noncomputable def fieldOn (dat : ℕ → EltData ℝ) (Φ : GlobalBasis) (e : ℕ) (u : ℕ → ℝ) (x y : ℝ) : ℝ :=
  ∑ d ∈ Finset.range (ndof (dat e).elt.p), u d * Φ e d x y

/-- All fields of the state. -/
noncomputable def stateOn (dat : ℕ → EltData ℝ) (Φ : GlobalBasis) (q : State ℝ) (e : ℕ) (x : P2 ℝ) : Fin 3 → ℝ := fun i => fieldOn dat Φ e (q e i) x.x x.y

/-- Bathymetry. -/
noncomputable def bathOn (dat : ℕ → EltData ℝ) (Φ : GlobalBasis) (e : ℕ) (x : P2 ℝ) : ℝ := fieldOn dat Φ e (dat e).bath x.x x.y

/-- Point of the triangle with corners `a`, `b`, `c` that has the coordinates `z` in the master triangle (-1, -1), (1, -1), (-1, 1). -/
noncomputable def pointOf (t : Tri ℝ) (z : P2 ℝ) : P2 ℝ :=
  ⟨t.a.x + (z.x + 1) / 2 * (t.b.x - t.a.x) + (z.y + 1) / 2 * (t.c.x - t.a.x), t.a.y + (z.x + 1) / 2 * (t.b.y - t.a.y) + (z.y + 1) / 2 * (t.c.y - t.a.y)⟩

/-- Ratio of the areas of the triangle and the master triangle. -/
noncomputable def areaRatio (t : Tri ℝ) : ℝ := |(t.b.x - t.a.x) * (t.c.y - t.a.y) - (t.c.x - t.a.x) * (t.b.y - t.a.y)| / 4

/-- Integral over the element, by the rule of the element. -/
noncomputable def interior (v : Env ℝ) (dat : ℕ → EltData ℝ) (Φ : GlobalBasis) (t : ℝ) (q : State ℝ) (e : ℕ) (i : Fin 3) (dof : ℕ) : ℝ :=
  ((v.N.tri (2 * (dat e).elt.p)).map fun wz =>
    let X := pointOf (dat e).elt.tri wz.2
    let u := stateOn dat Φ q e X
    let b := bathOn dat Φ e X
    wz.1 * areaRatio (dat e).elt.tri * (physX v.src.g u b i * deriv (fun s => Φ e dof s X.y) X.x + physY v.src.g u b i * deriv (fun s => Φ e dof X.x s) X.y +
      physSource v.src (dat e).src (v.fs t X) u b (deriv (fun s => bathOn dat Φ e ⟨s, X.y⟩) X.x) (deriv (fun s => bathOn dat Φ e ⟨X.x, s⟩) X.y) i *
        Φ e dof X.x X.y)).sum

/-- Start and end of an edge. -/
def startOf (t : Tri ℝ) (f : ℕ) : P2 ℝ := if f = 0 then t.b else if f = 1 then t.c else t.a
def endOf (t : Tri ℝ) (f : ℕ) : P2 ℝ := if f = 0 then t.c else if f = 1 then t.a else t.b

/-- Point of an edge. -/
noncomputable def edgePoint (t : Tri ℝ) (f : ℕ) (s : ℝ) : P2 ℝ :=
  ⟨(1 - s) / 2 * (startOf t f).x + (1 + s) / 2 * (endOf t f).x, (1 - s) / 2 * (startOf t f).y + (1 + s) / 2 * (endOf t f).y⟩

/-- Length of an edge. -/
noncomputable def edgeLength (t : Tri ℝ) (f : ℕ) : ℝ := √(((endOf t f).x - (startOf t f).x) ^ 2 + ((endOf t f).y - (startOf t f).y) ^ 2)

/-- Outward normal of a counterclockwise triangle: the edge, turned clockwise. -/
noncomputable def outward (t : Tri ℝ) (f : ℕ) : P2 ℝ :=
  ⟨((endOf t f).y - (startOf t f).y) / edgeLength t f, -((endOf t f).x - (startOf t f).x) / edgeLength t f⟩

/-- Integral over an edge of element `e` with state `w` on the other side. -/
noncomputable def edgeIntegral (v : Env ℝ) (dat : ℕ → EltData ℝ) (Φ : GlobalBasis) (q : State ℝ) (r : List (ℝ × ℝ)) (e f : ℕ)
    (w : ℕ → P2 ℝ → P2 ℝ → (Fin 3 → ℝ) → Fin 3 → ℝ) (i : Fin 3) (dof : ℕ) : ℝ :=
  ∑ gp ∈ Finset.range r.length,
    let X := edgePoint (dat e).elt.tri f (r.getD gp (0, 0)).2
    let n := outward (dat e).elt.tri f
    let u := stateOn dat Φ q e X
    (r.getD gp (0, 0)).1 * (edgeLength (dat e).elt.tri f / 2) * numFlux v.src.g u (w gp X n u) (bathOn dat Φ e X) n i * Φ e dof X.x X.y

/-- The weak form tested with basis function `dof` of element `e`. -/
noncomputable def weakForm (v : Env ℝ) (dat : ℕ → EltData ℝ) (Φ : GlobalBasis) (m : Mesh ℝ) (t ramp : ℝ) (q : State ℝ) (e : ℕ) (i : Fin 3) (dof : ℕ) : ℝ :=
  interior v dat Φ t q e i dof -
    (m.ints.map fun j =>
      let r := v.N.line (2 * max (dat j.ein).elt.p (dat j.eex).elt.p + 1)
      (if j.ein = e then edgeIntegral v dat Φ q r e j.fin (fun _ X _ _ => stateOn dat Φ q j.eex X) i dof else 0) +
      (if j.eex = e then edgeIntegral v dat Φ q r e j.fex (fun _ X _ _ => stateOn dat Φ q j.ein X) i dof else 0)).sum -
    (m.bnds.map fun b => if b.e = e then edgeIntegral v dat Φ q (v.N.line (2 * (dat e).elt.p + 1)) e b.f (outState v t ramp b.kind) i dof else 0).sum

/-- The functions of the environment are the real ones; no projection factor. -/
structure RealEnv (v : Env ℝ) : Prop where
  sqrt : v.sq = Real.sqrt
  cube : ∀ h, v.cb h = h ^ (1 / 3 : ℝ)
  cos : v.cos = Real.cos
  pi : v.pi = Real.pi
  sp : ∀ x, v.sp x = 1

/-- A mesh of counterclockwise triangles: the two sides of an interface have an edge in common, run through in opposite direction, and the
bathymetry is continuous across it. -/
structure WeakMesh (dat : ℕ → EltData ℝ) (Φ : GlobalBasis) (m : Mesh ℝ) (P : ℕ) : Prop where
  nodup : m.elts.Nodup
  ccw : ∀ e ∈ m.elts, 0 < (((dat e).elt.tri.b.x - (dat e).elt.tri.a.x) * ((dat e).elt.tri.c.y - (dat e).elt.tri.a.y) -
    ((dat e).elt.tri.c.x - (dat e).elt.tri.a.x) * ((dat e).elt.tri.b.y - (dat e).elt.tri.a.y))
  degree : ∀ e ∈ m.elts, (dat e).elt.p ≤ P
  ends : ∀ j ∈ m.ints, j.ein ∈ m.elts ∧ j.eex ∈ m.elts ∧ j.fin < 3 ∧ j.fex < 3
  edges : ∀ j ∈ m.ints, startOf (dat j.eex).elt.tri j.fex = endOf (dat j.ein).elt.tri j.fin ∧ endOf (dat j.eex).elt.tri j.fex = startOf (dat j.ein).elt.tri j.fin
  internal : ∀ j ∈ m.ints, j.kind = .internal
  bath : ∀ j ∈ m.ints, ∀ s, bathOn dat Φ j.ein (edgePoint (dat j.ein).elt.tri j.fin s) = bathOn dat Φ j.eex (edgePoint (dat j.ein).elt.tri j.fin s)
  owner : ∀ b ∈ m.bnds, b.e ∈ m.elts ∧ b.f < 3

/-- `Φ` are the functions `F` transported to the elements. -/
def Transported (dat : ℕ → EltData ℝ) (Φ : GlobalBasis) (F : ℕ → MvPolynomial (Fin 2) ℝ) (elts : List ℕ) : Prop :=
  ∀ e ∈ elts, ∀ d z, Φ e d (pointOf (dat e).elt.tri z).x (pointOf (dat e).elt.tri z).y = eval ![z.x, z.y] (F d)

/-! ## Geometry -/

theorem pointOf_eq (t : Tri ℝ) (z : P2 ℝ) : localToGlobal t z = pointOf t z := by
  simp only [localToGlobal, pointOf, psi, P2.mk.injEq]
  norm_num
  constructor <;> ring

theorem cross_jdet (t : Tri ℝ) : jdet t = ((t.b.x - t.a.x) * (t.c.y - t.a.y) - (t.c.x - t.a.x) * (t.b.y - t.a.y)) / 4 := by
  simp only [jdet, Geometry.det, jac]; ring

theorem areaRatio_eq (t : Tri ℝ) : |jdet t| = areaRatio t := by
  rw [cross_jdet, areaRatio, abs_div, abs_of_pos (by norm_num : (0 : ℝ) < 4)]

theorem start_vertex (t : Tri ℝ) {f : ℕ} (hf : f < 3) : vertex t ((f + 1) % 3) = startOf t f ∧ vertex t ((f + 2) % 3) = endOf t f := by
  interval_cases f <;> simp [vertex, startOf, endOf]

theorem edgePoint_eq (t : Tri ℝ) {f : ℕ} (hf : f < 3) (s : ℝ) : localToGlobal t (boundaryToMaster f s) = edgePoint t f s := by
  rw [face_point t f hf, (start_vertex t hf).1, (start_vertex t hf).2]
  simp [boundaryPsi, edgePoint]

theorem surfaceJ_eq (t : Tri ℝ) {f : ℕ} (hf : f < 3) : surfaceJ Real.sqrt t f = edgeLength t f / 2 := by
  unfold surfaceJ edgeLength
  rw [(start_vertex t hf).1, (start_vertex t hf).2]

theorem normal_eq (t : Tri ℝ) (h : 0 < jdet t) {f : ℕ} (hf : f < 3) : normal Real.sqrt t f = outward t f := by
  unfold normal outward edgeLength Geometry.hypot
  rw [(start_vertex t hf).1, (start_vertex t hf).2, abs_of_pos h, div_self h.ne']
  simp [sq]

theorem edge_pos (t : Tri ℝ) (h : 0 < jdet t) {f : ℕ} (hf : f < 3) :
    0 < ((endOf t f).x - (startOf t f).x) ^ 2 + ((endOf t f).y - (startOf t f).y) ^ 2 := by
  have := vertices_ne h hf
  unfold edge at this
  rw [(start_vertex t hf).1, (start_vertex t hf).2] at this
  simpa [sq] using this

theorem outward_unit (t : Tri ℝ) (h : 0 < jdet t) {f : ℕ} (hf : f < 3) : (outward t f).x ^ 2 + (outward t f).y ^ 2 = 1 := by
  have hp := edge_pos t h hf
  unfold outward edgeLength
  simp only [div_pow, neg_sq, Real.sq_sqrt hp.le]
  rw [← add_div, add_comm, div_self hp.ne']

theorem face_regular (f : ℕ) (s : ℝ) : (boundaryToMaster f s).y ≠ 1 ∨ boundaryToMaster f s = ⟨-1, 1⟩ := by
  unfold boundaryToMaster
  by_cases h : s = 1
  · subst h; split_ifs <;> norm_num
  · by_cases h' : s = -1
    · subst h'; split_ifs <;> norm_num
    · split_ifs
      · left; exact h
      · left; simp only; intro e; exact h' (by linarith)
      · left; norm_num
      · left; norm_num

/-! ## Derivatives -/

section
variable {v : Env ℝ} {dat : ℕ → EltData ℝ} {m : Mesh ℝ} {F : ℕ → MvPolynomial (Fin 2) ℝ} {P : ℕ} {ε t ramp : ℝ} {q : State ℝ} {Φ : GlobalBasis}

theorem phi_global (hm : WeakMesh dat Φ m P) (hΦ : Transported dat Φ F m.elts) {e : ℕ} (he : e ∈ m.elts) (d : ℕ) (p : P2 ℝ) :
    Φ e d p.x p.y = eval ![(globalToLocal (dat e).elt.tri p).x, (globalToLocal (dat e).elt.tri p).y] (F d) := by
  have hj : jdet (dat e).elt.tri ≠ 0 := by rw [cross_jdet]; have := hm.ccw e he; positivity
  rw [← hΦ e he d, ← pointOf_eq, (maps_inverse _ hj).1]

theorem local_affine (t : Tri ℝ) (h : jdet t ≠ 0) (x y : ℝ) :
    HasDerivAt (fun s => (globalToLocal t ⟨s, y⟩).x) (entry (jinv t) 0 0) x ∧ HasDerivAt (fun s => (globalToLocal t ⟨s, y⟩).y) (entry (jinv t) 1 0) x ∧
    HasDerivAt (fun s => (globalToLocal t ⟨x, s⟩).x) (entry (jinv t) 0 1) y ∧ HasDerivAt (fun s => (globalToLocal t ⟨x, s⟩).y) (entry (jinv t) 1 1) y := by
  have hd : Geometry.det (tmat t) = 4 * jdet t := by simp only [Geometry.det, tmat, jdet, jac]; ring
  have key : ∀ (c k : ℝ) (s : ℝ), HasDerivAt (fun s => 2 * (s * k + c) - 1) (2 * k) s := by
    intro c k s
    have := ((((hasDerivAt_id s).mul_const k).add_const c).const_mul 2).sub_const 1
    simpa using this
  have e : ∀ z : ℝ, z / 2 / jdet t = 2 * (z / (4 * jdet t)) := by intro z; field_simp; ring
  refine ⟨?_, ?_, ?_, ?_⟩
  · have := key (-(t.a.x) * (inv (tmat t)).m00 + (y - t.a.y) * (inv (tmat t)).m01) (inv (tmat t)).m00 x
    refine (this.congr_deriv ?_).congr_of_eventuallyEq (Filter.Eventually.of_forall fun s => ?_)
    · simp only [Element.entry, jinv, Geometry.inv, hd, if_true]
      rw [show Geometry.det (jac t) = jdet t from rfl]
      simp only [tmat, jac]; rw [e]
    · simp only [globalToLocal, lambda]; ring
  · have := key (-(t.a.x) * (inv (tmat t)).m10 + (y - t.a.y) * (inv (tmat t)).m11) (inv (tmat t)).m10 x
    refine (this.congr_deriv ?_).congr_of_eventuallyEq (Filter.Eventually.of_forall fun s => ?_)
    · simp only [Element.entry, jinv, Geometry.inv, hd, if_true, one_ne_zero, if_false]
      rw [show Geometry.det (jac t) = jdet t from rfl]
      simp only [tmat, jac]; rw [← neg_div, e]
    · simp only [globalToLocal, lambda]; ring
  · have := key ((x - t.a.x) * (inv (tmat t)).m00 - t.a.y * (inv (tmat t)).m01) (inv (tmat t)).m01 y
    refine (this.congr_deriv ?_).congr_of_eventuallyEq (Filter.Eventually.of_forall fun s => ?_)
    · simp only [Element.entry, jinv, Geometry.inv, hd, if_true, one_ne_zero, if_false]
      rw [show Geometry.det (jac t) = jdet t from rfl]
      simp only [tmat, jac]; rw [← neg_div, e]
    · simp only [globalToLocal, lambda]; ring
  · have := key ((x - t.a.x) * (inv (tmat t)).m10 - t.a.y * (inv (tmat t)).m11) (inv (tmat t)).m11 y
    refine (this.congr_deriv ?_).congr_of_eventuallyEq (Filter.Eventually.of_forall fun s => ?_)
    · simp only [Element.entry, jinv, Geometry.inv, hd, one_ne_zero, if_false]
      rw [show Geometry.det (jac t) = jdet t from rfl]
      simp only [tmat, jac]; rw [e]
    · simp only [globalToLocal, lambda]; ring

theorem ccw_jdet (hm : WeakMesh dat Φ m P) {e : ℕ} (he : e ∈ m.elts) : 0 < jdet (dat e).elt.tri := by
  rw [cross_jdet]; have := hm.ccw e he; positivity

/-- Derivatives of the basis functions in global coordinates. -/
theorem dphi_global (hR : Rules v.N F P ε) (hm : WeakMesh dat Φ m P) (hΦ : Transported dat Φ F m.elts) {e : ℕ} (he : e ∈ m.elts) {d : ℕ}
    (hd : d < ndof (dat e).elt.p) {z : P2 ℝ} (hz : z.y ≠ 1 ∨ z = ⟨-1, 1⟩) :
    HasDerivAt (fun s => Φ e d s (pointOf (dat e).elt.tri z).y) ((dat e).elt.dphi v.N 0 d z) (pointOf (dat e).elt.tri z).x ∧
    HasDerivAt (fun s => Φ e d (pointOf (dat e).elt.tri z).x s) ((dat e).elt.dphi v.N 1 d z) (pointOf (dat e).elt.tri z).y := by
  have hj := (ccw_jdet hm he).ne'
  obtain ⟨_, h1, h2⟩ := hR.basis d (lt_of_lt_of_le hd (ndof_mono (hm.degree e he))) z hz
  obtain ⟨a1, a2, a3, a4⟩ := local_affine (dat e).elt.tri hj (pointOf (dat e).elt.tri z).x (pointOf (dat e).elt.tri z).y
  have hback : globalToLocal (dat e).elt.tri ⟨(pointOf (dat e).elt.tri z).x, (pointOf (dat e).elt.tri z).y⟩ = z := by
    have := (maps_inverse _ hj).2 z
    rwa [pointOf_eq] at this
  have d1 := poly_deriv (F d) a1 a2
  have d2 := poly_deriv (F d) a3 a4
  rw [hback] at d1 d2
  constructor
  · refine (d1.congr_deriv ?_).congr_of_eventuallyEq (Filter.Eventually.of_forall fun s => ?_)
    · unfold Elt.dphi; rw [h1, h2]; ring
    · exact phi_global hm hΦ he d ⟨s, _⟩
  · refine (d2.congr_deriv ?_).congr_of_eventuallyEq (Filter.Eventually.of_forall fun s => ?_)
    · unfold Elt.dphi; rw [h1, h2]; ring
    · exact phi_global hm hΦ he d ⟨_, s⟩

theorem value_global (hR : Rules v.N F P ε) (hm : WeakMesh dat Φ m P) (hΦ : Transported dat Φ F m.elts) {e : ℕ} (he : e ∈ m.elts) (u : ℕ → ℝ)
    {z : P2 ℝ} (hz : z.y ≠ 1 ∨ z = ⟨-1, 1⟩) :
    (dat e).elt.value v.N u z = fieldOn dat Φ e u (pointOf (dat e).elt.tri z).x (pointOf (dat e).elt.tri z).y := by
  unfold Elt.value fieldOn
  rw [sum_range_list]
  refine Finset.sum_congr rfl fun d hd => ?_
  rw [hΦ e he, (hR.basis d (lt_of_lt_of_le (Finset.mem_range.mp hd) (ndof_mono (hm.degree e he))) z hz).1]

theorem deriv_global (hR : Rules v.N F P ε) (hm : WeakMesh dat Φ m P) (hΦ : Transported dat Φ F m.elts) {e : ℕ} (he : e ∈ m.elts)
    {z : P2 ℝ} (hz : z.y ≠ 1 ∨ z = ⟨-1, 1⟩) :
    deriv (fun s => bathOn dat Φ e ⟨s, (pointOf (dat e).elt.tri z).y⟩) (pointOf (dat e).elt.tri z).x = (dat e).elt.deriv v.N 0 (dat e).bath z ∧
    deriv (fun s => bathOn dat Φ e ⟨(pointOf (dat e).elt.tri z).x, s⟩) (pointOf (dat e).elt.tri z).y = (dat e).elt.deriv v.N 1 (dat e).bath z := by
  unfold Elt.deriv bathOn fieldOn
  rw [sum_range_list, sum_range_list]
  constructor
  · exact (HasDerivAt.fun_sum fun d hd => (dphi_global hR hm hΦ he (Finset.mem_range.mp hd) hz).1.const_mul _).deriv
  · exact (HasDerivAt.fun_sum fun d hd => (dphi_global hR hm hΦ he (Finset.mem_range.mp hd) hz).2.const_mul _).deriv

/-! ## Interior -/

/-- A state as a vector. -/
theorem comp_qAt (hR : Rules v.N F P ε) (hm : WeakMesh dat Φ m P) (hΦ : Transported dat Φ F m.elts) {e : ℕ} (he : e ∈ m.elts) (q : State ℝ)
    {z : P2 ℝ} (hz : z.y ≠ 1 ∨ z = ⟨-1, 1⟩) :
    qAt v.N (dat e).elt (q e) z = ⟨stateOn dat Φ q e (pointOf (dat e).elt.tri z) 0, stateOn dat Φ q e (pointOf (dat e).elt.tri z) 1,
      stateOn dat Φ q e (pointOf (dat e).elt.tri z) 2⟩ := by
  unfold qAt
  rw [value_global hR hm hΦ he _ hz, value_global hR hm hΦ he _ hz, value_global hR hm hΦ he _ hz]
  rfl

theorem fluxX_phys (g : ℝ) (u : Fin 3 → ℝ) (b s : ℝ) (i : Fin 3) : comp (fluxX g ⟨u 0, u 1, u 2⟩ ⟨b, u 0 + b, s⟩) i = physX g u b i := by
  fin_cases i <;> simp [comp, fluxX, physX, pe] <;> ring

theorem fluxY_phys (g : ℝ) (u : Fin 3 → ℝ) (b s : ℝ) (i : Fin 3) : comp (fluxY g ⟨u 0, u 1, u 2⟩ ⟨b, u 0 + b, s⟩) i = physY g u b i := by
  fin_cases i <;> simp [comp, fluxY, physY, pe] <;> ring

theorem cf_phys {v : Env ℝ} (hv : RealEnv v) (e : EltSource ℝ) (h : ℝ) : frictionCf v.cb v.src e h = cfAt v.src e h := by
  unfold frictionCf cfAt
  rw [hv.cube]
  by_cases hm : e.manning = true
  · rw [if_pos hm, if_pos hm]
    simp only
    by_cases hlt : e.gn2 / h ^ (1 / 3 : ℝ) < v.src.Cf
    · rw [if_pos hlt, max_eq_left hlt.le]
    · rw [if_neg hlt, max_eq_right (not_lt.1 hlt)]
  · rw [if_neg hm, if_neg hm]

theorem source_phys {v : Env ℝ} (hv : RealEnv v) (e : EltSource ℝ) (fs : Q ℝ) (u : Fin 3 → ℝ) (b s bx by' : ℝ) (i : Fin 3) :
    comp (getSource v.sq v.cb v.src e fs ⟨u 0, u 1, u 2⟩ ⟨b, u 0 + b, s⟩ ⟨bx, by'⟩) i = physSource v.src e fs u b bx by' i := by
  unfold getSource physSource frictionStress
  rw [cf_phys hv, hv.sqrt]
  unfold Geometry.hypot
  by_cases h1 : v.src.functionSource = true <;> by_cases h2 : v.src.bottomFriction = true <;> fin_cases i <;>
    simp [comp, h1, h2, add_ze, add_qx, add_qy, sq] <;> ring

theorem interior_weak (hR : Rules v.N F P ε) (hv : RealEnv v) (hm : WeakMesh dat Φ m P) (hΦ : Transported dat Φ F m.elts) {e : ℕ} (he : e ∈ m.elts)
    (i : Fin 3) {dof : ℕ} (hdof : dof < ndof (dat e).elt.p) :
    volumeTerm v (dat e) (q e) i dof + sourceTerm v (dat e) t (q e) i dof = interior v dat Φ t q e i dof := by
  simp only [volumeTerm, sourceTerm, Elt.intDPhi, Elt.intPhi, Elt.gps, interior]
  rw [← List.sum_map_add, ← List.sum_map_add]
  congr 1
  refine List.map_congr_left fun wz hwz => ?_
  have hz : wz.2.y ≠ 1 ∨ wz.2 = ⟨-1, 1⟩ := Or.inl (hR.pts _ (hm.degree e he) wz hwz)
  obtain ⟨d1, d2⟩ := dphi_global hR hm hΦ he hdof hz
  obtain ⟨b1, b2⟩ := deriv_global hR hm hΦ he hz
  have hphi : v.N.basis.phi dof wz.2 = Φ e dof (pointOf (dat e).elt.tri wz.2).x (pointOf (dat e).elt.tri wz.2).y := by
    rw [hΦ e he, (hR.basis dof (lt_of_lt_of_le hdof (ndof_mono (hm.degree e he))) wz.2 hz).1]
  rw [d1.deriv, d2.deriv, b1, b2, ← areaRatio_eq, comp_qAt hR hm hΦ he q hz, hphi]
  simp only [Swe.auxAt, hv.sp, value_global hR hm hΦ he (dat e).bath hz, pointOf_eq]
  rw [fluxX_phys, fluxY_phys, source_phys hv]
  simp only [Elt.dphi, bathOn]
  ring

/-! ## Edges -/

theorem speed_phys (g : ℝ) (u : Fin 3 → ℝ) (b : ℝ) (n : P2 ℝ) (hn : n.x ^ 2 + n.y ^ 2 = 1) :
    speed Real.sqrt g ⟨u 0, u 1, u 2⟩ b 1 n = waveSpeed g u b n := by
  unfold speed waveSpeed
  rw [mul_one, hn, mul_one]
  congr 2
  ring

theorem llf_phys (g : ℝ) (u w : Fin 3 → ℝ) (b h : ℝ) (n : P2 ℝ) (hn : n.x ^ 2 + n.y ^ 2 = 1) (i : Fin 3) :
    comp (llf Real.sqrt g ⟨u 0, u 1, u 2⟩ ⟨w 0, w 1, w 2⟩ ⟨b, h, 1⟩ n) i = numFlux g u w b n i := by
  unfold llf numFlux
  simp only
  rw [speed_phys g u b n hn, speed_phys g w b n hn]
  set M := max (waveSpeed g u b n) (waveSpeed g w b n)
  fin_cases i <;> simp [comp, Q.smul, fnIn, fnEx, physX, physY, pe] <;> ring

theorem numFlux_opp (g : ℝ) (u w : Fin 3 → ℝ) (b : ℝ) (n : P2 ℝ) (i : Fin 3) : numFlux g w u b ⟨-n.x, -n.y⟩ i = -numFlux g u w b n i := by
  have hw : ∀ x : Fin 3 → ℝ, waveSpeed g x b ⟨-n.x, -n.y⟩ = waveSpeed g x b n := by
    intro x
    unfold waveSpeed
    simp only
    rw [show (x 1 * -n.x + x 2 * -n.y) / (x 0 + b) = -((x 1 * n.x + x 2 * n.y) / (x 0 + b)) by ring, abs_neg]
  unfold numFlux
  rw [hw, hw, max_comm]
  simp only
  ring

/-- Edge in opposite direction. -/
theorem edge_reversed {t t' : Tri ℝ} {f f' : ℕ} (h1 : startOf t' f' = endOf t f) (h2 : endOf t' f' = startOf t f) (s : ℝ) :
    edgePoint t' f' s = edgePoint t f (-s) ∧ edgeLength t' f' = edgeLength t f ∧ outward t' f' = ⟨-(outward t f).x, -(outward t f).y⟩ := by
  have hl : edgeLength t' f' = edgeLength t f := by
    unfold edgeLength
    rw [h1, h2]
    congr 1
    ring
  refine ⟨?_, hl, ?_⟩
  · unfold edgePoint
    rw [h1, h2]
    simp only [P2.mk.injEq]
    constructor <;> ring
  · unfold outward
    rw [hl, h1, h2]
    simp only [P2.mk.injEq]
    constructor <;> ring

/-- Rules are symmetric. -/
def SymRules (N : Numerics ℝ) (P : ℕ) : Prop :=
  ∀ p ≤ P, ∀ gp < (N.line (2 * p + 1)).length, ((N.line (2 * p + 1)).getD ((N.line (2 * p + 1)).length - gp - 1) (0, 0)).2 =
    -((N.line (2 * p + 1)).getD gp (0, 0)).2

theorem internal_wet (sq : ℝ → ℝ) (g : ℝ) (a b : Side ℝ) (ha : a.wet = true) (hb : b.wet = true) :
    internal sq g a b = (llf sq g a.q b.q a.aux a.n, -llf sq g a.q b.q a.aux a.n) := by
  unfold internal
  simp only [ha, hb]
  split_ifs <;> simp_all

theorem comp_neg (x : Q ℝ) (i : Fin 3) : comp (-x) i = -comp x i := by
  fin_cases i <;> simp [comp]

/-- The flux of an interface at Gauss point `gp` of the interior side. -/
theorem iface_flux (hR : Rules v.N F P ε) (hS : SymRules v.N P) (hv : RealEnv v) (hm : WeakMesh dat Φ m P) (hΦ : Transported dat Φ F m.elts)
    {wet : ℕ → Bool} (hw : ∀ e ∈ m.elts, wet e = true) {j : Iface ℝ} (hj : j ∈ m.ints) {gp : ℕ} (hgp : gp < (j.rule v dat).length) (i : Fin 3) :
    comp (j.flux v dat wet q gp).1 i =
      numFlux v.src.g (stateOn dat Φ q j.ein (edgePoint (dat j.ein).elt.tri j.fin ((j.rule v dat).getD gp (0, 0)).2))
        (stateOn dat Φ q j.eex (edgePoint (dat j.ein).elt.tri j.fin ((j.rule v dat).getD gp (0, 0)).2))
        (bathOn dat Φ j.ein (edgePoint (dat j.ein).elt.tri j.fin ((j.rule v dat).getD gp (0, 0)).2)) (outward (dat j.ein).elt.tri j.fin) i ∧
    (j.flux v dat wet q gp).2 = -(j.flux v dat wet q gp).1 := by
  obtain ⟨h1, h2, hf, hf'⟩ := hm.ends j hj
  obtain ⟨e1, e2⟩ := hm.edges j hj
  have hP : max (dat j.ein).elt.p (dat j.eex).elt.p ≤ P := max_le (hm.degree _ h1) (hm.degree _ h2)
  have hsym := hS _ hP gp hgp
  have hpt : edgePoint (dat j.eex).elt.tri j.fex ((j.rule v dat).getD ((j.rule v dat).length - gp - 1) (0, 0)).2 =
      edgePoint (dat j.ein).elt.tri j.fin ((j.rule v dat).getD gp (0, 0)).2 := by
    rw [(edge_reversed e1 e2 _).1]
    congr 1
    have : ((j.rule v dat).getD ((j.rule v dat).length - gp - 1) (0, 0)).2 = -((j.rule v dat).getD gp (0, 0)).2 := hsym
    rw [this, neg_neg]
  unfold Iface.flux
  rw [hm.internal j hj]
  simp only
  rw [internal_wet _ _ _ _ (by simpa [Iface.inside] using hw _ h1) (by simpa [Iface.outside] using hw _ h2)]
  refine ⟨?_, rfl⟩
  simp only [Iface.inside, Iface.outside, Swe.auxAt, hv.sp, hv.sqrt, facePt]
  rw [comp_qAt hR hm hΦ h1 q (face_regular _ _), comp_qAt hR hm hΦ h2 q (face_regular _ _), value_global hR hm hΦ h1 _ (face_regular _ _),
    normal_eq _ (ccw_jdet hm h1) hf]
  rw [← pointOf_eq, ← pointOf_eq, edgePoint_eq _ hf, edgePoint_eq _ hf', hpt]
  exact llf_phys _ _ _ _ _ _ (outward_unit _ (ccw_jdet hm h1) hf) i

/-- A sum over a face. -/
theorem face_weak (hR : Rules v.N F P ε) (hm : WeakMesh dat Φ m P) (hΦ : Transported dat Φ F m.elts) {e f : ℕ} (he : e ∈ m.elts) (hf : f < 3)
    (r : List (ℝ × ℝ)) (G : ℕ → ℝ) (i : Fin 3) {dof : ℕ} (hdof : dof < ndof (dat e).elt.p) (w : ℕ → P2 ℝ → P2 ℝ → (Fin 3 → ℝ) → Fin 3 → ℝ)
    (hG : ∀ gp < r.length, G gp = numFlux v.src.g (stateOn dat Φ q e (edgePoint (dat e).elt.tri f (r.getD gp (0, 0)).2))
      (w gp (edgePoint (dat e).elt.tri f (r.getD gp (0, 0)).2) (outward (dat e).elt.tri f) (stateOn dat Φ q e (edgePoint (dat e).elt.tri f (r.getD gp (0, 0)).2)))
      (bathOn dat Φ e (edgePoint (dat e).elt.tri f (r.getD gp (0, 0)).2)) (outward (dat e).elt.tri f) i) :
    Elt.intFace v.N r f (edgeLength (dat e).elt.tri f / 2) G dof = edgeIntegral v dat Φ q r e f w i dof := by
  unfold Elt.intFace edgeIntegral
  rw [sum_range_list]
  refine Finset.sum_congr rfl fun gp hgp => ?_
  rw [hG gp (Finset.mem_range.mp hgp)]
  simp only [facePt, weight]
  rw [(hR.basis dof (lt_of_lt_of_le hdof (ndof_mono (hm.degree e he))) _ (face_regular _ _)).1, ← hΦ e he, ← pointOf_eq, edgePoint_eq _ hf]
  ring

theorem in_weak (hR : Rules v.N F P ε) (hS : SymRules v.N P) (hv : RealEnv v) (hm : WeakMesh dat Φ m P) (hΦ : Transported dat Φ F m.elts)
    {wet : ℕ → Bool} (hw : ∀ e ∈ m.elts, wet e = true) {j : Iface ℝ} (hj : j ∈ m.ints) (i : Fin 3) {dof : ℕ} (hdof : dof < ndof (dat j.ein).elt.p) :
    j.inTerm v dat wet q i dof = edgeIntegral v dat Φ q (j.rule v dat) j.ein j.fin (fun _ X _ _ => stateOn dat Φ q j.eex X) i dof := by
  obtain ⟨h1, h2, hf, hf'⟩ := hm.ends j hj
  unfold Iface.inTerm Iface.J
  rw [hv.sqrt, surfaceJ_eq _ hf]
  exact face_weak hR hm hΦ h1 hf _ _ i hdof _ fun gp hgp => (iface_flux hR hS hv hm hΦ hw hj hgp i).1

theorem ex_weak (hR : Rules v.N F P ε) (hS : SymRules v.N P) (hv : RealEnv v) (hm : WeakMesh dat Φ m P) (hΦ : Transported dat Φ F m.elts)
    {wet : ℕ → Bool} (hw : ∀ e ∈ m.elts, wet e = true) {j : Iface ℝ} (hj : j ∈ m.ints) (i : Fin 3) {dof : ℕ} (hdof : dof < ndof (dat j.eex).elt.p) :
    j.exTerm v dat wet q i dof = edgeIntegral v dat Φ q (j.rule v dat) j.eex j.fex (fun _ X _ _ => stateOn dat Φ q j.ein X) i dof := by
  obtain ⟨h1, h2, hf, hf'⟩ := hm.ends j hj
  obtain ⟨e1, e2⟩ := hm.edges j hj
  have hP : max (dat j.ein).elt.p (dat j.eex).elt.p ≤ P := max_le (hm.degree _ h1) (hm.degree _ h2)
  unfold Iface.exTerm Iface.J
  rw [hv.sqrt, surfaceJ_eq _ hf, ← (edge_reversed e1 e2 0).2.1]
  refine face_weak hR hm hΦ h2 hf' _ _ i hdof _ fun gp hgp => ?_
  have hgp' : (j.rule v dat).length - gp - 1 < (j.rule v dat).length := by omega
  obtain ⟨k1, k2⟩ := iface_flux hR hS hv hm hΦ hw hj hgp' (q := q) i
  have hsym : ((j.rule v dat).getD ((j.rule v dat).length - gp - 1) (0, 0)).2 = -((j.rule v dat).getD gp (0, 0)).2 := hS _ hP gp hgp
  obtain ⟨r1, _, r3⟩ := edge_reversed e1 e2 ((j.rule v dat).getD gp (0, 0)).2
  rw [k2, comp_neg, k1, hsym, ← r1, r3, numFlux_opp]
  congr 2
  rw [r1]
  exact hm.bath j hj _

theorem bnd_weak (hR : Rules v.N F P ε) (hv : RealEnv v) (hm : WeakMesh dat Φ m P) (hΦ : Transported dat Φ F m.elts)
    {b : Bnd ℝ} (hb : b ∈ m.bnds) (i : Fin 3) {dof : ℕ} (hdof : dof < ndof (dat b.e).elt.p) :
    b.term v dat t ramp q i dof = edgeIntegral v dat Φ q (faceRule v.N (dat b.e).elt.p) b.e b.f (outState v t ramp b.kind) i dof := by
  obtain ⟨h1, hf⟩ := hm.owner b hb
  have hn := outward_unit _ (ccw_jdet hm h1) hf
  unfold Bnd.term
  simp only
  rw [hv.sqrt, surfaceJ_eq _ hf]
  refine face_weak hR hm hΦ h1 hf _ _ i hdof _ fun gp hgp => ?_
  simp only [facePt, Swe.auxAt, hv.sp]
  rw [comp_qAt hR hm hΦ h1 q (face_regular _ _), normal_eq _ (ccw_jdet hm h1) hf]
  rw [value_global hR hm hΦ h1 _ (face_regular _ _), edgePoint_eq _ hf, ← pointOf_eq, edgePoint_eq _ hf]
  set X := edgePoint (dat b.e).elt.tri b.f ((faceRule v.N (dat b.e).elt.p).getD gp (0, 0)).2
  set u := stateOn dat Φ q b.e X
  set n := outward (dat b.e).elt.tri b.f
  have hfor : ∀ cs, forcing v.cos v.pi ramp t cs = tidal ramp t cs := by
    intro cs
    unfold forcing tidal
    rw [hv.cos, hv.pi]
    have : ∀ (l : List (Constituent ℝ)) (a : ℝ), l.foldl (fun s c => s + ramp * c.ff * c.amp * Real.cos (c.freq * t + (c.eq - c.phase) * Real.pi / 180)) a =
        a + (l.map fun c => ramp * c.ff * c.amp * Real.cos (c.freq * t + (c.eq - c.phase) * Real.pi / 180)).sum := by
      intro l
      induction l with
      | nil => simp
      | cons c l ih => intro a; rw [List.foldl_cons, ih, List.map_cons, List.sum_cons, add_assoc]
    rw [this, zero_add]
  unfold bndFlux outState
  cases b.kind with
  | land =>
    simp only [landFlux]
    have : landEx n ⟨u 0, u 1, u 2⟩ = ⟨u 0, u 1 - 2 * (u 1 * n.x + u 2 * n.y) * n.x, u 2 - 2 * (u 1 * n.x + u 2 * n.y) * n.y⟩ := by
      unfold landEx
      simp only [Q.mk.injEq, true_and]
      constructor
      · linear_combination u 1 * hn
      · linear_combination u 2 * hn
    rw [this, hv.sqrt]
    exact llf_phys _ u ![_, _, _] _ _ _ hn i
  | tide cs =>
    simp only [tideEx, hfor, hv.sqrt]
    exact llf_phys _ u ![_, _, _] _ _ _ hn i
  | flow cs =>
    simp only [flowEx, hfor, hv.sqrt]
    exact llf_phys _ u ![_, _, _] _ _ _ hn i
  | function =>
    simp only [hv.sqrt]
    exact llf_phys _ u ![_, _, _] _ _ _ hn i

/-! ## The theorem -/

/-- **C72** On a mesh of wet elements the right-hand side of the program is the weak form of the shallow water equations. -/
theorem weak_form (hR : Rules v.N F P ε) (hS : SymRules v.N P) (hv : RealEnv v) (hm : WeakMesh dat Φ m P) (hΦ : Transported dat Φ F m.elts)
    {wet : ℕ → Bool} (hw : ∀ e ∈ m.elts, wet e = true) (junk : State ℝ) {e : ℕ} (he : e ∈ m.elts) (i : Fin 3) {dof : ℕ}
    (hdof : dof < ndof (dat e).elt.p) :
    localRhs v dat m wet t ramp q junk e i dof = weakForm v dat Φ m t ramp q e i dof := by
  rw [localRhs_at v dat m hm.nodup, if_pos he, if_pos (hw e he)]
  simp only [Pi.sub_apply, Pi.add_apply]
  rw [interior_weak hR hv hm hΦ he i hdof, weakForm, sub_sub]
  congr 1
  unfold faceTerms
  rw [List.map_append, List.sum_append]
  simp only [Pi.add_apply]
  congr 1
  · have hsub : ∀ l : List (Iface ℝ), (∀ j ∈ l, j ∈ m.ints) → ((l.flatMap (intTerms v dat wet q e)).map Prod.snd).sum i dof = (l.map fun j =>
        (if j.ein = e then edgeIntegral v dat Φ q (v.N.line (2 * max (dat j.ein).elt.p (dat j.eex).elt.p + 1)) e j.fin (fun _ X _ _ => stateOn dat Φ q j.eex X) i dof
          else 0) +
        (if j.eex = e then edgeIntegral v dat Φ q (v.N.line (2 * max (dat j.ein).elt.p (dat j.eex).elt.p + 1)) e j.fex (fun _ X _ _ => stateOn dat Φ q j.ein X) i dof
          else 0)).sum := by
      intro l
      induction l with
      | nil => intro _; rfl
      | cons j l ih =>
        intro hl
        have hj := hl j List.mem_cons_self
        rw [List.flatMap_cons, List.map_append, List.sum_append, List.map_cons, List.sum_cons, ← ih fun x hx => hl x (List.mem_cons_of_mem _ hx)]
        simp only [Pi.add_apply]
        congr 1
        unfold intTerms
        rw [if_pos (by rw [hw _ (hm.ends j hj).1, Bool.true_or])]
        by_cases a : j.ein = e <;> by_cases c : j.eex = e
        · have k1 := in_weak hR hS hv hm hΦ hw hj (q := q) i (dof := dof) (by rw [a]; exact hdof)
          have k2 := ex_weak hR hS hv hm hΦ hw hj (q := q) i (dof := dof) (by rw [c]; exact hdof)
          rw [if_pos a, if_pos c, if_pos a, if_pos c]
          simp only [List.map_append, List.map_cons, List.map_nil, List.sum_append, List.sum_cons, List.sum_nil, add_zero, Pi.add_apply]
          rw [k1, k2]
          conv_lhs => enter [1, 6]; rw [a]
          conv_lhs => enter [2, 6]; rw [c]
          rfl
        · have k1 := in_weak hR hS hv hm hΦ hw hj (q := q) i (dof := dof) (by rw [a]; exact hdof)
          rw [if_pos a, if_neg c, if_pos a, if_neg c]
          simp only [List.append_nil, List.map_cons, List.map_nil, List.sum_cons, List.sum_nil, add_zero]
          rw [k1]
          conv_lhs => enter [6]; rw [a]
          rfl
        · have k2 := ex_weak hR hS hv hm hΦ hw hj (q := q) i (dof := dof) (by rw [c]; exact hdof)
          rw [if_neg a, if_pos c, if_neg a, if_pos c]
          simp only [List.nil_append, List.map_cons, List.map_nil, List.sum_cons, List.sum_nil, add_zero, zero_add]
          rw [k2]
          conv_lhs => enter [6]; rw [c]
          rfl
        · rw [if_neg a, if_neg c, if_neg a, if_neg c]
          simp
    exact hsub m.ints fun _ h => h
  · have hsub : ∀ l : List (Bnd ℝ), (∀ b ∈ l, b ∈ m.bnds) → ((l.flatMap (bndTerms v dat wet t ramp q e)).map Prod.snd).sum i dof = (l.map fun b =>
        if b.e = e then edgeIntegral v dat Φ q (v.N.line (2 * (dat e).elt.p + 1)) e b.f (outState v t ramp b.kind) i dof else 0).sum := by
      intro l
      induction l with
      | nil => intro _; rfl
      | cons b l ih =>
        intro hl
        have hb := hl b List.mem_cons_self
        rw [List.flatMap_cons, List.map_append, List.sum_append, List.map_cons, List.sum_cons, ← ih fun x hx => hl x (List.mem_cons_of_mem _ hx)]
        simp only [Pi.add_apply]
        congr 1
        unfold bndTerms
        rw [if_pos (hw _ (hm.owner b hb).1)]
        by_cases a : b.e = e
        · have k := bnd_weak hR hv hm hΦ hb (q := q) (t := t) (ramp := ramp) i (dof := dof) (by rw [a]; exact hdof)
          rw [if_pos a, if_pos a]
          simp only [List.map_cons, List.map_nil, List.sum_cons, List.sum_nil, add_zero]
          rw [k, a]
          rfl
        · rw [if_neg a, if_neg a]; simp
    exact hsub m.bnds fun _ h => h

/-- The numbers in `minv` belong to an orthogonal basis. -/
def Orthogonal (N : Numerics ℝ) (F : ℕ → MvPolynomial (Fin 2) ℝ) (P : ℕ) : Prop :=
  ∀ d < ndof P, N.basis.minv d ≠ 0 ∧ ∀ d' < ndof P, I2 (fun x y => eval ![x, y] (F d) * eval ![x, y] (F d')) = if d = d' then (N.basis.minv d)⁻¹ else 0

/-- **C72** The rate of change that the program computes is the Galerkin solution: tested with every basis function of the element, its integral over
the element is the weak form. -/
theorem galerkin (hR : Rules v.N F P ε) (hO : Orthogonal v.N F P) (hS : SymRules v.N P) (hv : RealEnv v) (hm : WeakMesh dat Φ m P)
    (hΦ : Transported dat Φ F m.elts) {wet : ℕ → Bool} (hw : ∀ e ∈ m.elts, wet e = true) (junk : State ℝ) {e : ℕ} (he : e ∈ m.elts) (i : Fin 3) {dof : ℕ}
    (hdof : dof < ndof (dat e).elt.p) :
    ∫ z2 in (-1 : ℝ)..1, ∫ z1 in (-1 : ℝ)..(-z2), areaRatio (dat e).elt.tri *
      (fieldOn dat Φ e (solve v dat (localRhs v dat m wet t ramp q junk) e i) (pointOf (dat e).elt.tri ⟨z1, z2⟩).x (pointOf (dat e).elt.tri ⟨z1, z2⟩).y *
        Φ e dof (pointOf (dat e).elt.tri ⟨z1, z2⟩).x (pointOf (dat e).elt.tri ⟨z1, z2⟩).y) = weakForm v dat Φ m t ramp q e i dof := by
  rw [← weak_form hR hS hv hm hΦ hw junk he i hdof]
  set r := localRhs v dat m wet t ramp q junk
  have hP := ndof_mono (hm.degree e he)
  change I2 (fun z1 z2 => areaRatio (dat e).elt.tri * _) = _
  rw [I2_smul]
  have h1 : (fun z1 z2 => fieldOn dat Φ e (solve v dat r e i) (pointOf (dat e).elt.tri ⟨z1, z2⟩).x (pointOf (dat e).elt.tri ⟨z1, z2⟩).y *
        Φ e dof (pointOf (dat e).elt.tri ⟨z1, z2⟩).x (pointOf (dat e).elt.tri ⟨z1, z2⟩).y) =
      fun z1 z2 => ∑ d ∈ Finset.range (ndof (dat e).elt.p), solve v dat r e i d * (eval ![z1, z2] (F d) * eval ![z1, z2] (F dof)) := by
    funext z1 z2
    unfold fieldOn
    rw [Finset.sum_mul]
    refine Finset.sum_congr rfl fun d _ => ?_
    rw [hΦ e he, hΦ e he, mul_assoc]
  rw [h1, I2_sum _ _ (fun d z1 z2 => eval ![z1, z2] (F d) * eval ![z1, z2] (F dof)) (fun d _ => by
    have := C2_poly (F d * F dof)
    simpa only [map_mul] using this)]
  rw [Finset.sum_eq_single dof]
  · obtain ⟨hne, ho⟩ := hO dof (lt_of_lt_of_le hdof hP)
    rw [ho dof (lt_of_lt_of_le hdof hP), if_pos rfl]
    have ha : areaRatio (dat e).elt.tri ≠ 0 := by rw [← areaRatio_eq]; exact (abs_pos.2 (ccw_jdet hm he).ne').ne'
    simp only [solve, Elt.applyMinv, areaRatio_eq]
    field_simp
  · intro d hd hne
    rw [(hO d (lt_of_lt_of_le (Finset.mem_range.mp hd) hP)).2 dof (lt_of_lt_of_le hdof hP), if_neg hne, mul_zero]
  · intro h; exact absurd (Finset.mem_range.mpr hdof) h

end

/-! ## The numerics of the program -/

theorem code_symmetric (rd : ℝ → ℝ) (P : ℕ) : SymRules (codeNumerics rd) P := by
  intro p _ gp hgp
  simp only [codeNumerics] at hgp ⊢
  cases hr1 : Quadrature.rule1 (2 * p + 1) with
  | none => rw [hr1] at hgp; simp at hgp
  | some r =>
    rw [hr1] at hgp
    simp only [Option.getD_some, List.length_map] at hgp ⊢
    have hp : 2 * p + 1 ≤ 65 := by
      by_contra hc
      rw [(Quadrature.Props.line_rules _).1 (by omega)] at hr1
      cases hr1
    obtain ⟨r', hr', _, _, hs⟩ := (Quadrature.Props.line_rules (2 * p + 1)).2 hp
    rw [hr1] at hr'
    cases hr'
    have hg : r[gp]? = some r[gp] := by simp [hgp]
    have hs' := hs gp _ hg
    simp only [List.getD, List.getElem?_map, hg, hs', Option.map_some, Option.getD_some, tableVal]
    push_cast
    ring

theorem code_orthogonal {rd : ℝ → ℝ} (hr : Basis.Props.Rounding rd) : Orthogonal (codeNumerics rd) (dubF rd) 10 := by
  intro d hd
  have hb := fun d hd => (pair_bound hr (p := 10) (d := d) (by omega) hd).1
  constructor
  · simp only [codeNumerics, dubiner, Basis.minv]
    positivity
  · intro d' hd'
    have h := Basis.Props.dubiner_orthogonal (Basis.dofPair rd d).1 (Basis.dofPair rd d).2 (Basis.dofPair rd d').1 (Basis.dofPair rd d').2 (by have := hb d hd; omega)
      (by have := hb d' hd'; omega)
    have e1 : I2 (fun x y => eval ![x, y] (dubF rd d) * eval ![x, y] (dubF rd d')) =
        I2 fun x y => Basis.phi (Basis.dofPair rd d).1 (Basis.dofPair rd d).2 (⟨x, y⟩ : P2 ℝ) * Basis.phi (Basis.dofPair rd d').1 (Basis.dofPair rd d').2 ⟨x, y⟩ := by
      refine I2_congr fun x y hy => ?_
      simp only [dubF]
      rw [Basis.Props.dubPoly_eval, Basis.Props.dubPoly_eval, Basis.Props.phi_eq_dub _ _ (by have := hb d hd; omega) _ _ hy,
        Basis.Props.phi_eq_dub _ _ (by have := hb d' hd'; omega) _ _ hy]
    rw [e1]
    refine Eq.trans h ?_
    have hinj : d = d' ↔ (Basis.dofPair rd d).1 = (Basis.dofPair rd d').1 ∧ (Basis.dofPair rd d).2 = (Basis.dofPair rd d').2 := by
      constructor
      · rintro rfl; exact ⟨rfl, rfl⟩
      · intro hh
        exact (Basis.Props.dof_bijection hr 10 (by norm_num)).injOn hd hd' (Prod.ext hh.1 hh.2)
    by_cases h2 : d = d'
    · rw [if_pos (hinj.1 h2), if_pos h2]
      rfl
    · rw [if_neg (fun hh => h2 (hinj.2 hh)), if_neg h2]

/-- Basis functions in global coordinates exist. -/
noncomputable def transport (dat : ℕ → EltData ℝ) (F : ℕ → MvPolynomial (Fin 2) ℝ) : GlobalBasis := fun e d x y =>
  eval ![(globalToLocal (dat e).elt.tri ⟨x, y⟩).x, (globalToLocal (dat e).elt.tri ⟨x, y⟩).y] (F d)

theorem transported (dat : ℕ → EltData ℝ) (F : ℕ → MvPolynomial (Fin 2) ℝ) (elts : List ℕ) (h : ∀ e ∈ elts, jdet (dat e).elt.tri ≠ 0) :
    Transported dat (transport dat F) F elts := by
  intro e he d z
  have := (maps_inverse _ (h e he)).2 z
  rw [pointOf_eq] at this
  unfold transport
  rw [show (⟨(pointOf (dat e).elt.tri z).x, (pointOf (dat e).elt.tri z).y⟩ : P2 ℝ) = pointOf (dat e).elt.tri z from rfl, this]

/-! ## Cases -/

/-- An environment with friction, a source and real functions. -/
noncomputable def realEnv (N : Numerics ℝ) : Env ℝ :=
  ⟨N, Real.sqrt, fun h => h ^ (1 / 3 : ℝ), Real.cos, Real.pi, ⟨9.81, 1000, true, true, false, false, false, 1 / 100⟩, fun _ => 1, fun t x => ⟨t, x.x, x.y⟩,
    fun _ _ => ⟨0, 0, 0⟩⟩

/-- Depth of the bottom ten. -/
def flatBed (_ d : ℕ) : ℝ := if d = 0 then 10 else 0

theorem dub_zero {rd : ℝ → ℝ} (hr : Basis.Props.Rounding rd) (x y : ℝ) : eval ![x, y] (dubF rd 0) = 1 := by
  unfold dubF
  rw [(Basis.Props.first_dofs hr).1, Basis.Props.dubPoly_eval]
  simp [Basis.Props.dub, Basis.Lemmas.jc, Basis.Lemmas.jp]

theorem flat_bath {rd : ℝ → ℝ} (hr : Basis.Props.Rounding rd) (p : ℕ) (e : ℕ) (x : P2 ℝ) :
    bathOn (twoTris p flatBed) (transport (twoTris p flatBed) (dubF rd)) e x = 10 := by
  unfold bathOn fieldOn
  rw [Finset.sum_eq_single 0]
  · simp [twoTris, flatBed, transport, dub_zero hr]
  · intro d _ hd; simp [twoTris, flatBed, hd]
  · intro h; exact absurd (Finset.mem_range.mpr (ndof_pos _)) h

theorem two_weak {rd : ℝ → ℝ} (hr : Basis.Props.Rounding rd) (p : ℕ) (hp : p ≤ 10) :
    WeakMesh (twoTris p flatBed) (transport (twoTris p flatBed) (dubF rd)) twoMesh 10 := by
  refine ⟨(by decide), ?_, fun _ _ => hp, ?_, ?_, ?_, ?_, ?_⟩
  · intro e he
    rcases (by simpa [twoMesh] using he : e = 0 ∨ e = 1) with rfl | rfl <;> norm_num [twoTris]
  · intro j hj
    obtain rfl : j = _ := by simpa [twoMesh] using hj
    simp [twoMesh]
  · intro j hj
    obtain rfl : j = _ := by simpa [twoMesh] using hj
    simp [twoTris, startOf, endOf]
  · intro j hj
    obtain rfl : j = _ := by simpa [twoMesh] using hj
    rfl
  · intro j hj s
    rw [flat_bath hr, flat_bath hr]
  · intro b hb
    rcases (by simpa [twoMesh] using hb : b = _ ∨ b = _ ∨ b = _ ∨ b = _) with rfl | rfl | rfl | rfl <;> simp [twoMesh]

/-- The hypotheses hold for the numerics of the program and every degree up to 10. -/
example {rd : ℝ → ℝ} (hr : Basis.Props.Rounding rd) (p : ℕ) (hp : p ≤ 10) (q : State ℝ) (t : ℝ) (i : Fin 3) (dof : ℕ) (hd : dof < ndof p) :
    localRhs (realEnv (codeNumerics rd)) (twoTris p flatBed) twoMesh (fun _ => true) t 1 q 0 1 i dof =
      weakForm (realEnv (codeNumerics rd)) (twoTris p flatBed) (transport (twoTris p flatBed) (dubF rd)) twoMesh t 1 q 1 i dof :=
  weak_form (code_rules hr) (code_symmetric rd 10) ⟨rfl, fun _ => rfl, rfl, rfl, fun _ => rfl⟩ (two_weak hr p hp)
    (transported _ _ _ fun e he => by
      rcases (by simpa [twoMesh] using he : e = 0 ∨ e = 1) with rfl | rfl <;> norm_num [twoTris, jdet, Geometry.det, jac]) (fun _ _ => rfl) 0 (by simp [twoMesh]) i hd

example {rd : ℝ → ℝ} (hr : Basis.Props.Rounding rd) : Orthogonal (codeNumerics rd) (dubF rd) 10 := code_orthogonal hr

end Verif.Swe.Props
