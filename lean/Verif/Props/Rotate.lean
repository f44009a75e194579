import Verif.Props.Parallel

/-!
# Turning and shifting the mesh turns the result (C113)
-/

namespace Verif.Swe.Props
open Verif.Geometry Verif.Geometry.Props Verif.Element Verif.Swe

variable {K : Type} [Field K] [LinearOrder K] [IsStrictOrderedRing K]

/-- A motion of the plane: a rotation by an angle with cosine `c` and sine `s`, then a shift. -/
structure Motion (K : Type) [Field K] where
  c : K
  s : K
  x : K
  y : K
  unit : c * c + s * s = 1

namespace Motion

/-- A vector turned. -/
def vec (M : Motion K) (a : P2 K) : P2 K := ⟨M.c * a.x - M.s * a.y, M.s * a.x + M.c * a.y⟩
/-- A point moved. -/
def pt (M : Motion K) (a : P2 K) : P2 K := ⟨(M.vec a).x + M.x, (M.vec a).y + M.y⟩
/-- The point which is moved to a point. -/
def back (M : Motion K) (a : P2 K) : P2 K := ⟨M.c * (a.x - M.x) + M.s * (a.y - M.y), -M.s * (a.x - M.x) + M.c * (a.y - M.y)⟩
/-- The same level, the discharge turned. -/
def flow (M : Motion K) (q : Q K) : Q K := ⟨q.ze, M.c * q.qx - M.s * q.qy, M.s * q.qx + M.c * q.qy⟩
/-- Coefficients of the turned variables. -/
def rows (M : Motion K) (u : Fin 3 → ℕ → K) : Fin 3 → ℕ → K := ![u 0, fun d => M.c * u 1 d - M.s * u 2 d, fun d => M.s * u 1 d + M.c * u 2 d]
/-- The same for all elements. -/
def state (M : Motion K) (q : State K) : State K := fun e => M.rows (q e)
def tri (M : Motion K) (t : Tri K) : Tri K := ⟨M.pt t.a, M.pt t.b, M.pt t.c⟩
/-- An element moved: the same bathymetry and coefficients, directions turned. -/
def data (M : Motion K) (d : EltData K) : EltData K :=
  ⟨⟨d.elt.p, M.tri d.elt.tri⟩, d.bath, ⟨d.src.manning, d.src.gn2, d.src.coriolisF, M.vec d.src.tauS, M.vec d.src.dpAtm, M.vec d.src.dtidePot⟩⟩
/-- Given functions of time and place are moved as well. -/
def env (M : Motion K) (v : Env K) : Env K := { v with fs := fun t x => M.flow (v.fs t (M.back x)), bcq := fun t x => M.flow (v.bcq t (M.back x)) }
/-- A side of an interface. -/
def side (M : Motion K) (a : Side K) : Side K := ⟨M.flow a.q, a.aux, M.vec a.n, a.wet⟩

end Motion

variable (M : Motion K)

/-! ### Geometry -/

omit [LinearOrder K] [IsStrictOrderedRing K] in
theorem back_pt (a : P2 K) : M.back (M.pt a) = a := by
  have h := M.unit
  cases a
  simp only [Motion.back, Motion.pt, Motion.vec, P2.mk.injEq]
  constructor <;> grind

omit [LinearOrder K] [IsStrictOrderedRing K] in
theorem vertex_moved (t : Tri K) (k : ℕ) : vertex (M.tri t) k = M.pt (vertex t k) := by
  unfold vertex
  split
  · rfl
  · split <;> rfl

omit [LinearOrder K] [IsStrictOrderedRing K] in
theorem det_moved (t : Tri K) : jdet (M.tri t) = jdet t := by
  have h := M.unit
  simp only [jdet, Geometry.det, jac, Motion.tri, Motion.pt, Motion.vec]
  grind

omit [LinearOrder K] [IsStrictOrderedRing K] in
theorem sq_moved (x y : K) : (M.c * x - M.s * y) * (M.c * x - M.s * y) + (M.s * x + M.c * y) * (M.s * x + M.c * y) = x * x + y * y := by
  have h := M.unit
  grind

omit [LinearOrder K] [IsStrictOrderedRing K] in
theorem hypot_moved (sq : K → K) (x y : K) : hypot sq (M.c * x - M.s * y) (M.s * x + M.c * y) = hypot sq x y := by
  unfold hypot
  rw [sq_moved]

omit [LinearOrder K] [IsStrictOrderedRing K] in
theorem pt_sub (a b : P2 K) : (M.pt a).x - (M.pt b).x = M.c * (a.x - b.x) - M.s * (a.y - b.y) ∧ (M.pt a).y - (M.pt b).y = M.s * (a.x - b.x) + M.c * (a.y - b.y) := by
  simp only [Motion.pt, Motion.vec]
  constructor <;> ring

omit [LinearOrder K] [IsStrictOrderedRing K] in
theorem J_moved (sq : K → K) (t : Tri K) (k : ℕ) : surfaceJ sq (M.tri t) k = surfaceJ sq t k := by
  unfold surfaceJ
  rw [vertex_moved, vertex_moved, (pt_sub M _ _).1, (pt_sub M _ _).2]
  simp only [pow_two]
  rw [sq_moved]

omit [IsStrictOrderedRing K] in
theorem normal_moved (sq : K → K) (t : Tri K) (k : ℕ) : normal sq (M.tri t) k = M.vec (normal sq t k) := by
  simp only [normal]
  rw [det_moved, vertex_moved, vertex_moved, (pt_sub M _ _).1, (pt_sub M _ _).2, hypot_moved]
  simp only [Motion.vec, P2.mk.injEq]
  constructor <;> ring

omit [LinearOrder K] [IsStrictOrderedRing K] in
/-- Rows of the inverse of the Jacobian matrix are turned. -/
theorem jinv_moved (t : Tri K) (i : ℕ) : Element.entry (jinv (M.tri t)) i 0 = M.c * Element.entry (jinv t) i 0 - M.s * Element.entry (jinv t) i 1 ∧
    Element.entry (jinv (M.tri t)) i 1 = M.s * Element.entry (jinv t) i 0 + M.c * Element.entry (jinv t) i 1 := by
  have hd := det_moved M t
  unfold jdet at hd
  unfold jinv Geometry.inv
  rw [hd]
  by_cases hi : i = 0
  · subst hi
    simp only [Element.entry, if_true, one_ne_zero, if_false, jac, Motion.tri, Motion.pt, Motion.vec]
    constructor <;> ring
  · simp only [Element.entry, hi, if_true, one_ne_zero, if_false, jac, Motion.tri, Motion.pt, Motion.vec]
    constructor <;> ring

theorem global_moved (t : Tri K) (z : P2 K) : localToGlobal (M.tri t) z = M.pt (localToGlobal t z) := by
  have h : psi 0 z + psi 1 z + psi 2 z = 1 := by
    simp only [psi, if_true, one_ne_zero, if_false, OfNat.ofNat_ne_zero, OfNat.ofNat_ne_one]
    ring
  simp only [localToGlobal, Motion.tri, Motion.pt, Motion.vec, P2.mk.injEq]
  constructor
  · linear_combination M.x * h
  · linear_combination M.y * h

/-! ### Fluxes -/

theorem speed_moved (sq : K → K) (g : K) (q : Q K) (b : K) (n : P2 K) : speed sq g (M.flow q) b 1 (M.vec n) = speed sq g q b 1 n := by
  have h := M.unit
  simp only [speed, Motion.flow, Motion.vec, mul_one]
  congr 2
  · rw [div_eq_mul_inv, div_eq_mul_inv, div_eq_mul_inv, div_eq_mul_inv]; generalize (q.ze + b)⁻¹ = i; grind
  · congr 1; grind

theorem in_moved (g : K) (q : Q K) (b : K) (n : P2 K) : fnIn g (M.flow q) b 1 (M.vec n) = M.flow (fnIn g q b 1 n) := by
  have h := M.unit
  simp only [fnIn, pe, Motion.flow, Motion.vec, div_eq_mul_inv, Q.mk.injEq]
  generalize (q.ze + b)⁻¹ = i
  generalize (2 : K)⁻¹ = j
  refine ⟨?_, ?_, ?_⟩ <;> grind

theorem ex_moved (g : K) (q : Q K) (b : K) (n : P2 K) : fnEx g (M.flow q) b (M.vec n) = M.flow (fnEx g q b n) := by
  have h := M.unit
  simp only [fnEx, pe, Motion.flow, Motion.vec, div_eq_mul_inv, Q.mk.injEq]
  generalize (q.ze + b)⁻¹ = i
  generalize (2 : K)⁻¹ = j
  refine ⟨?_, ?_, ?_⟩ <;> grind

theorem llf_moved (sq : K → K) (g : K) (q q' : Q K) (a : Aux K) (ha : a.sp = 1) (n : P2 K) : llf sq g (M.flow q) (M.flow q') a (M.vec n) = M.flow (llf sq g q q' a n) := by
  simp only [llf, ha, speed_moved, in_moved, ex_moved]
  generalize max (speed sq g q a.bath 1 n) (speed sq g q' a.bath 1 n) = lam
  generalize fnIn g q a.bath 1 n = F
  generalize fnEx g q' a.bath n = G
  show Q.mk _ _ _ = Q.mk _ _ _
  simp only [Q.mk.injEq]
  refine ⟨rfl, ?_, ?_⟩
  · show 1 / 2 * (M.c * F.qx - M.s * F.qy + (M.c * G.qx - M.s * G.qy) + lam * (M.c * q.qx - M.s * q.qy - (M.c * q'.qx - M.s * q'.qy))) =
      M.c * (1 / 2 * (F.qx + G.qx + lam * (q.qx - q'.qx))) - M.s * (1 / 2 * (F.qy + G.qy + lam * (q.qy - q'.qy)))
    ring
  · show 1 / 2 * (M.s * F.qx + M.c * F.qy + (M.s * G.qx + M.c * G.qy) + lam * (M.s * q.qx + M.c * q.qy - (M.s * q'.qx + M.c * q'.qy))) =
      M.s * (1 / 2 * (F.qx + G.qx + lam * (q.qx - q'.qx))) + M.c * (1 / 2 * (F.qy + G.qy + lam * (q.qy - q'.qy)))
    ring

theorem land_moved (q : Q K) (n : P2 K) : landEx (M.vec n) (M.flow q) = M.flow (landEx n q) := by
  have h := M.unit
  simp only [landEx, Motion.flow, Motion.vec, Q.mk.injEq]
  refine ⟨trivial, ?_, ?_⟩ <;> grind

theorem landFlux_moved (sq : K → K) (g : K) (q : Q K) (a : Aux K) (ha : a.sp = 1) (n : P2 K) :
    landFlux sq g (M.flow q) a (M.vec n) = M.flow (landFlux sq g q a n) := by
  rw [landFlux, land_moved, llf_moved M sq g _ _ a ha, landFlux]

omit [LinearOrder K] [IsStrictOrderedRing K] in
theorem flow_neg (q : Q K) : -M.flow q = M.flow (-q) := by
  show Q.mk _ _ _ = Q.mk _ _ _
  simp only [Q.mk.injEq]
  refine ⟨rfl, ?_, ?_⟩
  · show -(M.c * q.qx - M.s * q.qy) = M.c * -q.qx - M.s * -q.qy
    ring
  · show -(M.s * q.qx + M.c * q.qy) = M.s * -q.qx + M.c * -q.qy
    ring

omit [LinearOrder K] [IsStrictOrderedRing K] in
theorem flow_zero : M.flow 0 = 0 := by
  show Q.mk 0 (M.c * 0 - M.s * 0) (M.s * 0 + M.c * 0) = Q.mk 0 0 0
  simp

theorem internal_moved (sq : K → K) (g : K) (i e : Side K) (hi : i.aux.sp = 1) (he : e.aux.sp = 1) :
    internal sq g (M.side i) (M.side e) = Prod.map M.flow M.flow (internal sq g i e) := by
  have hz : ∀ q : Q K, (M.flow q).ze = q.ze := fun _ => rfl
  have hw : ∀ (q : Q K) (z : K), { M.flow q with ze := z } = M.flow { q with ze := z } := fun _ _ => rfl
  have hn : ∀ q : Q K, (-q).ze = -q.ze := fun _ => rfl
  simp only [internal, Motion.side]
  simp only [llf_moved M sq _ _ _ _ hi, llf_moved M sq _ _ _ _ he, landFlux_moved M sq g _ _ hi, landFlux_moved M sq g _ _ he, flow_neg, hz]
  split
  · split
    · simp only [Prod.map, flow_zero]
    · split <;> rfl
  · split
    · split
      · simp only [Prod.map, flow_zero]
      · split <;> rfl
    · rfl

theorem levee_moved (sq : K → K) (g : K) (l : LeveeGp K) (i e : Side K) (hi : i.aux.sp = 1) (he : e.aux.sp = 1) :
    levee sq g l (M.side i) (M.side e) = Prod.map M.flow M.flow (levee sq g l i e) := by
  have hex : leveeEx sq g l (M.side i) (M.side e) = Prod.map (Prod.map M.flow id) (Prod.map M.flow id) (leveeEx sq g l i e) := by
    have hz : ∀ q : Q K, (M.flow q).ze = q.ze := fun _ => rfl
    simp only [leveeEx, Motion.side, hz, land_moved]
    split
    · rfl
    · split
      · simp only [Prod.map, Motion.flow, Motion.vec, Prod.mk.injEq, Q.mk.injEq, id]
        refine ⟨⟨⟨trivial, ?_, ?_⟩, trivial⟩, ⟨trivial, ?_, ?_⟩, rfl⟩ <;> ring
      · simp only [Prod.map, Motion.flow, Motion.vec, Prod.mk.injEq, Q.mk.injEq, id]
        refine ⟨⟨⟨trivial, ?_, ?_⟩, rfl⟩, ⟨trivial, ?_, ?_⟩, trivial⟩ <;> ring
  simp only [levee, hex]
  simp only [Prod.map, Motion.side, id, Prod.mk.injEq]
  exact ⟨llf_moved M sq _ _ _ _ hi _, llf_moved M sq _ _ _ _ he _⟩

theorem bnd_moved (v : Env K) (t ramp : K) (k : BndKind K) (gp : ℕ) (q : Q K) (a : Aux K) (ha : a.sp = 1) (n x : P2 K) :
    bndFlux (M.env v) t ramp k gp (M.flow q) a (M.vec n) (M.pt x) = M.flow (bndFlux v t ramp k gp q a n x) := by
  cases k with
  | land => exact landFlux_moved M _ _ _ _ ha _
  | tide cs => exact llf_moved M v.sq v.src.g q (tideEx v.cos v.pi ramp t (cs gp) q) a ha n
  | flow cs =>
    have : flowEx v.cos v.pi ramp t (cs gp) (M.vec n) (M.flow q) = M.flow (flowEx v.cos v.pi ramp t (cs gp) n q) := by
      simp only [flowEx, Motion.flow, Motion.vec, Q.mk.injEq]
      refine ⟨trivial, ?_, ?_⟩ <;> ring
    show llf v.sq v.src.g (M.flow q) (flowEx v.cos v.pi ramp t (cs gp) (M.vec n) (M.flow q)) a (M.vec n) = _
    rw [this]
    exact llf_moved M _ _ _ _ _ ha _
  | function =>
    show llf v.sq v.src.g (M.flow q) (M.flow (v.bcq t (M.back (M.pt x)))) a (M.vec n) = _
    rw [back_pt]
    exact llf_moved M _ _ _ _ _ ha _

theorem source_moved (v : Env K) (d : EltData K) (fs q : Q K) (a : Aux K) (db : P2 K) :
    getSource v.sq v.cb v.src (M.data d).src (M.flow fs) (M.flow q) a (M.vec db) = M.flow (getSource v.sq v.cb v.src d.src fs q a db) := by
  have hf : frictionStress v.sq v.cb v.src (M.data d).src (M.flow q) a.h = frictionStress v.sq v.cb v.src d.src q a.h := by
    unfold frictionStress
    have : hypot v.sq ((M.flow q).qx / a.h) ((M.flow q).qy / a.h) = hypot v.sq (q.qx / a.h) (q.qy / a.h) := by
      rw [← hypot_moved M v.sq (q.qx / a.h)]
      congr 1 <;> simp only [Motion.flow] <;> ring
    rw [this]
    rfl
  simp only [getSource, hf]
  have e0 : (⟨0, v.src.g * ((M.vec db).x * (M.flow q).ze), v.src.g * ((M.vec db).y * (M.flow q).ze)⟩ : Q K) = M.flow ⟨0, v.src.g * (db.x * q.ze), v.src.g * (db.y * q.ze)⟩ := by
    simp only [Motion.flow, Motion.vec, Q.mk.injEq]
    refine ⟨trivial, ?_, ?_⟩ <;> ring
  have e1 : ∀ r : Q K, M.flow r + M.flow fs = M.flow (r + fs) := by
    intro r
    show Q.mk _ _ _ = Q.mk _ _ _
    simp only [Q.mk.injEq]
    refine ⟨rfl, ?_, ?_⟩
    · show M.c * r.qx - M.s * r.qy + (M.c * fs.qx - M.s * fs.qy) = M.c * (r.qx + fs.qx) - M.s * (r.qy + fs.qy)
      ring
    · show M.s * r.qx + M.c * r.qy + (M.s * fs.qx + M.c * fs.qy) = M.s * (r.qx + fs.qx) + M.c * (r.qy + fs.qy)
      ring
  rw [e0, e1, ← apply_ite M.flow]
  generalize (if v.src.functionSource then _ else _ : Q K) = r
  generalize frictionStress v.sq v.cb v.src d.src q a.h = k
  split
  · simp only [Motion.flow, Q.mk.injEq]
    refine ⟨trivial, ?_, ?_⟩ <;> ring
  · rfl

/-! ### Kernels -/

omit [LinearOrder K] [IsStrictOrderedRing K] in
theorem sum_turn {α : Type} (l : List α) (a b : K) (A B C : α → K) (h : ∀ x, A x = a * B x + b * C x) : (l.map A).sum = a * (l.map B).sum + b * (l.map C).sum := by
  induction l with
  | nil => simp
  | cons x l ih =>
    simp only [List.map_cons, List.sum_cons, h x, ih]
    ring

omit [LinearOrder K] [IsStrictOrderedRing K] in
theorem sum_turn2 {α : Type} (l : List α) (a b : K) (A A' B B' C C' : α → K) (h : ∀ x, A x + A' x = a * (B x + B' x) + b * (C x + C' x)) :
    (l.map A).sum + (l.map A').sum = a * ((l.map B).sum + (l.map B').sum) + b * ((l.map C).sum + (l.map C').sum) := by
  induction l with
  | nil => simp
  | cons x l ih =>
    simp only [List.map_cons, List.sum_cons]
    linear_combination h x + ih

omit [LinearOrder K] [IsStrictOrderedRing K] in
theorem sum_same2 {α : Type} (l : List α) (A A' B B' : α → K) (h : ∀ x, A x + A' x = B x + B' x) : (l.map A).sum + (l.map A').sum = (l.map B).sum + (l.map B').sum := by
  have := sum_turn2 l 1 0 A A' B B' (fun _ => 0) (fun _ => 0) fun x => by rw [h]; ring
  rw [this]
  ring

omit [LinearOrder K] [IsStrictOrderedRing K] in
theorem value_turn (N : Numerics K) (e : Elt K) (a b : K) (u w : ℕ → K) (z : P2 K) : e.value N (fun d => a * u d + b * w d) z = a * e.value N u z + b * e.value N w z :=
  sum_turn _ a b _ _ _ fun _ => by ring

omit [LinearOrder K] [IsStrictOrderedRing K] in
theorem qAt_moved (N : Numerics K) (d : EltData K) (u : Fin 3 → ℕ → K) (z : P2 K) : qAt N (M.data d).elt (M.rows u) z = M.flow (qAt N d.elt u z) := by
  show Q.mk (d.elt.value N (u 0) z) (d.elt.value N (fun k => M.c * u 1 k - M.s * u 2 k) z) (d.elt.value N (fun k => M.s * u 1 k + M.c * u 2 k) z) = Q.mk _ _ _
  simp only [sub_eq_add_neg, ← neg_mul]
  rw [value_turn, value_turn]
  simp only [Q.mk.injEq]
  refine ⟨rfl, ?_, ?_⟩ <;> simp only [qAt] <;> ring

omit [LinearOrder K] [IsStrictOrderedRing K] in
/-- The rows turned, from a description of the components. -/
theorem rows_of (u w : Fin 3 → ℕ → K) (h0 : ∀ d, u 0 d = w 0 d) (h1 : ∀ d, u 1 d = M.c * w 1 d + -M.s * w 2 d) (h2 : ∀ d, u 2 d = M.s * w 1 d + M.c * w 2 d) : u = M.rows w := by
  funext var d
  fin_cases var
  · exact h0 d
  · exact (h1 d).trans (by show _ = M.c * w 1 d - M.s * w 2 d; ring)
  · exact h2 d

theorem intPhi_moved (N : Numerics K) (d : EltData K) (F F' : P2 K → Q K) (h : ∀ z, F' z = M.flow (F z)) :
    (fun var dof => (M.data d).elt.intPhi N (fun z => Swe.comp (F' z) var) dof) = M.rows fun var dof => d.elt.intPhi N (fun z => Swe.comp (F z) var) dof := by
  obtain rfl : F' = fun z => M.flow (F z) := funext h
  have hd : |jdet (M.data d).elt.tri| = |jdet d.elt.tri| := congrArg _ (det_moved M _)
  refine rows_of M _ _ (fun dof => ?_) (fun dof => ?_) (fun dof => ?_) <;> simp only [Elt.intPhi, hd]
  · rfl
  · refine sum_turn _ _ _ _ _ _ fun x => ?_
    show (M.c * (F x.2).qx - M.s * (F x.2).qy) * _ = M.c * ((F x.2).qx * _) + -M.s * ((F x.2).qy * _)
    ring
  · refine sum_turn _ _ _ _ _ _ fun x => ?_
    show (M.s * (F x.2).qx + M.c * (F x.2).qy) * _ = M.s * ((F x.2).qx * _) + M.c * ((F x.2).qy * _)
    ring

omit [LinearOrder K] [IsStrictOrderedRing K] in
theorem intFace_moved (N : Numerics K) (r : List (K × K)) (f : ℕ) (J : K) (F F' : ℕ → Q K) (h : ∀ z, F' z = M.flow (F z)) :
    (fun var dof => Elt.intFace N r f J (fun gp => Swe.comp (F' gp) var) dof) = M.rows fun var dof => Elt.intFace N r f J (fun gp => Swe.comp (F gp) var) dof := by
  obtain rfl : F' = fun z => M.flow (F z) := funext h
  refine rows_of M _ _ (fun dof => ?_) (fun dof => ?_) (fun dof => ?_) <;> simp only [Elt.intFace]
  · rfl
  · refine sum_turn _ _ _ _ _ _ fun x => ?_
    show (M.c * (F x).qx - M.s * (F x).qy) * _ = M.c * ((F x).qx * _) + -M.s * ((F x).qy * _)
    ring
  · refine sum_turn _ _ _ _ _ _ fun x => ?_
    show (M.s * (F x).qx + M.c * (F x).qy) * _ = M.s * ((F x).qx * _) + M.c * ((F x).qy * _)
    ring

theorem volume_moved (v : Env K) (hsp : ∀ x, v.sp x = 1) (d : EltData K) (u : Fin 3 → ℕ → K) :
    volumeTerm (M.env v) (M.data d) (M.rows u) = M.rows (volumeTerm v d u) := by
  have hu := M.unit
  have hq := qAt_moved M v.N d u
  have hj0 := jinv_moved M d.elt.tri 0
  have hj1 := jinv_moved M d.elt.tri 1
  have hd : |jdet (M.data d).elt.tri| = |jdet d.elt.tri| := congrArg _ (det_moved M _)
  have hg : (M.data d).elt.gps v.N = d.elt.gps v.N := rfl
  have hb : ∀ z, (M.data d).elt.value v.N (M.data d).bath z = d.elt.value v.N d.bath z := fun _ => rfl
  have ht : (M.data d).elt.tri = M.tri d.elt.tri := rfl
  have e1 : (M.env v).N = v.N := rfl
  have e2 : (M.env v).src = v.src := rfl
  have e3 : (M.env v).sp = v.sp := rfl
  refine rows_of M _ _ (fun dof => ?_) (fun dof => ?_) (fun dof => ?_) <;> simp only [volumeTerm, Elt.intDPhi, Swe.auxAt, e1, e2, e3, hsp, hg, hb, hd, hq, ht, hj0.1, hj0.2, hj1.1, hj1.2]
  · refine sum_same2 _ _ _ _ _ fun x => ?_
    simp only [Swe.comp, fluxX, fluxY, Motion.flow, Matrix.cons_val_zero]
    grind
  · refine sum_turn2 _ _ _ _ _ _ _ _ _ fun x => ?_
    simp only [Swe.comp, fluxX, fluxY, pe, Motion.flow, Matrix.cons_val_zero, Matrix.cons_val_one, div_eq_mul_inv, Matrix.cons_val]
    generalize (qAt v.N d.elt u x.2) = q
    generalize (d.elt.value v.N d.bath x.2) = b
    generalize (q.ze + b)⁻¹ = i
    generalize (2 : K)⁻¹ = j
    grind
  · refine sum_turn2 _ _ _ _ _ _ _ _ _ fun x => ?_
    simp only [Swe.comp, fluxX, fluxY, pe, Motion.flow, Matrix.cons_val_zero, Matrix.cons_val_one, div_eq_mul_inv, Matrix.cons_val]
    generalize (qAt v.N d.elt u x.2) = q
    generalize (d.elt.value v.N d.bath x.2) = b
    generalize (q.ze + b)⁻¹ = i
    generalize (2 : K)⁻¹ = j
    grind

theorem sourceTerm_moved (v : Env K) (d : EltData K) (t : K) (u : Fin 3 → ℕ → K) : sourceTerm (M.env v) (M.data d) t (M.rows u) = M.rows (sourceTerm v d t u) := by
  have hdb : ∀ z, (⟨(M.data d).elt.deriv v.N 0 d.bath z, (M.data d).elt.deriv v.N 1 d.bath z⟩ : P2 K) = M.vec ⟨d.elt.deriv v.N 0 d.bath z, d.elt.deriv v.N 1 d.bath z⟩ := by
    intro z
    have h0 := jinv_moved M d.elt.tri 0
    have h1 := jinv_moved M d.elt.tri 1
    simp only [Motion.vec, P2.mk.injEq, sub_eq_add_neg, ← neg_mul]
    constructor
    · refine sum_turn _ _ _ _ _ _ fun k => ?_
      show _ * (0 + _ * Element.entry (jinv (M.tri d.elt.tri)) 0 0 + _ * Element.entry (jinv (M.tri d.elt.tri)) 1 0) = _
      rw [h0.1, h1.1]
      simp only [Elt.dphi]
      ring
    · refine sum_turn _ _ _ _ _ _ fun k => ?_
      show _ * (0 + _ * Element.entry (jinv (M.tri d.elt.tri)) 0 1 + _ * Element.entry (jinv (M.tri d.elt.tri)) 1 1) = _
      rw [h0.2, h1.2]
      simp only [Elt.dphi]
      ring
  simp only [sourceTerm]
  refine intPhi_moved M v.N d (fun z => getSource v.sq v.cb v.src d.src (v.fs t (localToGlobal d.elt.tri z)) (qAt v.N d.elt u z) (Swe.auxAt v d (qAt v.N d.elt u z) z (localToGlobal d.elt.tri z))
    ⟨d.elt.deriv v.N 0 d.bath z, d.elt.deriv v.N 1 d.bath z⟩) _ fun z => ?_
  show getSource v.sq v.cb v.src (M.data d).src (M.flow (v.fs t (M.back (localToGlobal (M.tri d.elt.tri) z)))) (qAt v.N (M.data d).elt (M.rows u) z)
    ⟨d.elt.value v.N d.bath z, (qAt v.N (M.data d).elt (M.rows u) z).ze + d.elt.value v.N d.bath z, v.sp (localToGlobal (M.tri d.elt.tri) z)⟩
    ⟨(M.data d).elt.deriv v.N 0 d.bath z, (M.data d).elt.deriv v.N 1 d.bath z⟩ = _
  rw [hdb, qAt_moved, global_moved, back_pt, source_moved]
  rfl

/-! ### Right-hand side -/

omit [LinearOrder K] [IsStrictOrderedRing K] in
theorem rows_zero : M.rows 0 = 0 := (rows_of M _ _ (fun _ => rfl) (fun _ => by simp) (fun _ => by simp)).symm
omit [LinearOrder K] [IsStrictOrderedRing K] in
theorem rows_add (u w : Fin 3 → ℕ → K) : M.rows (u + w) = M.rows u + M.rows w :=
  (rows_of M (M.rows u + M.rows w) (u + w) (fun _ => rfl) (fun d => by show M.c * u 1 d - M.s * u 2 d + (M.c * w 1 d - M.s * w 2 d) = M.c * (u 1 d + w 1 d) + -M.s * (u 2 d + w 2 d); ring)
    (fun d => by show M.s * u 1 d + M.c * u 2 d + (M.s * w 1 d + M.c * w 2 d) = M.s * (u 1 d + w 1 d) + M.c * (u 2 d + w 2 d); ring)).symm
omit [LinearOrder K] [IsStrictOrderedRing K] in
theorem rows_smul (a : K) (u : Fin 3 → ℕ → K) : M.rows (a • u) = a • M.rows u :=
  (rows_of M (a • M.rows u) (a • u) (fun _ => rfl) (fun d => by show a * (M.c * u 1 d - M.s * u 2 d) = M.c * (a * u 1 d) + -M.s * (a * u 2 d); ring)
    (fun d => by show a * (M.s * u 1 d + M.c * u 2 d) = M.s * (a * u 1 d) + M.c * (a * u 2 d); ring)).symm
omit [LinearOrder K] [IsStrictOrderedRing K] in
theorem rows_sub (u w : Fin 3 → ℕ → K) : M.rows (u - w) = M.rows u - M.rows w := by
  rw [sub_eq_add_neg, rows_add, ← neg_one_smul K w, rows_smul, neg_one_smul, ← sub_eq_add_neg]
omit [LinearOrder K] [IsStrictOrderedRing K] in
theorem state_update (q : State K) (e : ℕ) (u : Fin 3 → ℕ → K) : M.state (Function.update q e u) = Function.update (M.state q) e (M.rows u) := by
  funext a
  by_cases h : a = e
  · subst h; simp [Motion.state]
  · simp [Motion.state, Function.update_of_ne h]
omit [LinearOrder K] [IsStrictOrderedRing K] in
theorem subAt_moved (q : State K) (e : ℕ) (u : Fin 3 → ℕ → K) : subAt (M.state q) e (M.rows u) = M.state (subAt q e u) := by
  unfold subAt
  rw [state_update, rows_sub]
  rfl

theorem flux_moved (v : Env K) (hsp : ∀ x, v.sp x = 1) (dat : ℕ → EltData K) (wet : ℕ → Bool) (q : State K) (i : Iface K) (gp : ℕ) :
    i.flux (M.env v) (fun e => M.data (dat e)) wet (M.state q) gp = Prod.map M.flow M.flow (i.flux v dat wet q gp) := by
  have hr : i.rule (M.env v) (fun e => M.data (dat e)) = i.rule v dat := rfl
  have hin : ∀ gp, i.inside (M.env v) (fun e => M.data (dat e)) wet (M.state q) gp = M.side (i.inside v dat wet q gp) := by
    intro gp
    simp only [Iface.inside, hr, Motion.side]
    have hn : normal (M.env v).sq (M.data (dat i.ein)).elt.tri i.fin = M.vec (normal v.sq (dat i.ein).elt.tri i.fin) := normal_moved M _ _ _
    have hq : qAt (M.env v).N (M.data (dat i.ein)).elt (M.state q i.ein) (facePt (i.rule v dat) i.fin gp) = M.flow (qAt v.N (dat i.ein).elt (q i.ein) (facePt (i.rule v dat) i.fin gp)) :=
      qAt_moved M _ _ _ _
    rw [hn, hq]
    simp only [Swe.auxAt, hsp, Motion.env]
    rfl
  have hout : ∀ gp, i.outside (M.env v) (fun e => M.data (dat e)) wet (M.state q) gp = M.side (i.outside v dat wet q gp) := by
    intro gp
    simp only [Iface.outside, hr, Motion.side]
    have hn : normal (M.env v).sq (M.data (dat i.ein)).elt.tri i.fin = M.vec (normal v.sq (dat i.ein).elt.tri i.fin) := normal_moved M _ _ _
    have hq : qAt (M.env v).N (M.data (dat i.eex)).elt (M.state q i.eex) (facePt (i.rule v dat) i.fex gp) = M.flow (qAt v.N (dat i.eex).elt (q i.eex) (facePt (i.rule v dat) i.fex gp)) :=
      qAt_moved M _ _ _ _
    rw [hn, hq]
    simp only [Swe.auxAt, hsp, Motion.env, Side.mk.injEq]
    refine ⟨trivial, rfl, ?_, trivial⟩
    simp only [Motion.vec, P2.mk.injEq]
    constructor <;> ring
  unfold Iface.flux
  rw [hin, hr, hout]
  cases i.kind with
  | internal => exact internal_moved M _ _ _ _ (hsp _) (hsp _)
  | levee l => exact levee_moved M _ _ _ _ _ (hsp _) (hsp _)

theorem rhs_moved (v : Env K) (hsp : ∀ x, v.sp x = 1) (dat : ℕ → EltData K) (m : Mesh K) (wet : ℕ → Bool) (t ramp : K) (q r : State K) :
    localRhs (M.env v) (fun e => M.data (dat e)) m wet t ramp (M.state q) (M.state r) = M.state (localRhs v dat m wet t ramp q r) := by
  simp only [localRhs]
  have h1 : ∀ r, m.elts.foldl (volumeKernel (M.env v) (fun e => M.data (dat e)) wet (M.state q)) (M.state r) = M.state (m.elts.foldl (volumeKernel v dat wet q) r) := by
    intro r
    refine (List.foldl_hom M.state fun r e => ?_)
    simp only [volumeKernel]
    rw [state_update]
    congr 1
    rw [apply_ite M.rows, rows_zero]
    congr 1
    exact volume_moved M v hsp _ _
  have h2 : ∀ r, m.elts.foldl (sourceKernel (M.env v) (fun e => M.data (dat e)) wet t (M.state q)) (M.state r) = M.state (m.elts.foldl (sourceKernel v dat wet t q) r) := by
    intro r
    refine (List.foldl_hom M.state fun r e => ?_)
    simp only [sourceKernel]
    rw [apply_ite M.state, state_update, rows_add]
    congr 3
    exact sourceTerm_moved M v _ _ _
  have h3 : ∀ r, m.ints.foldl (interfaceKernel (M.env v) (fun e => M.data (dat e)) wet (M.state q)) (M.state r) = M.state (m.ints.foldl (interfaceKernel v dat wet q) r) := by
    intro r
    refine (List.foldl_hom M.state fun r i => ?_)
    have hJ : i.J (M.env v) (fun e => M.data (dat e)) = i.J v dat := J_moved M _ _ _
    have hr : i.rule (M.env v) (fun e => M.data (dat e)) = i.rule v dat := rfl
    have hi : i.inTerm (M.env v) (fun e => M.data (dat e)) wet (M.state q) = M.rows (i.inTerm v dat wet q) := by
      unfold Iface.inTerm
      rw [hJ, hr]
      exact intFace_moved M v.N _ _ _ (fun gp => (i.flux v dat wet q gp).1) _ fun gp => by rw [flux_moved M v hsp]; rfl
    have he : i.exTerm (M.env v) (fun e => M.data (dat e)) wet (M.state q) = M.rows (i.exTerm v dat wet q) := by
      unfold Iface.exTerm
      rw [hJ, hr]
      exact intFace_moved M v.N _ _ _ (fun gp => (i.flux v dat wet q ((i.rule v dat).length - gp - 1)).2) _ fun gp => by rw [flux_moved M v hsp]; rfl
    simp only [interfaceKernel]
    rw [apply_ite M.state, hi, he, subAt_moved, subAt_moved]
  have h4 : ∀ r, m.bnds.foldl (boundaryKernel (M.env v) (fun e => M.data (dat e)) wet t ramp (M.state q)) (M.state r) = M.state (m.bnds.foldl (boundaryKernel v dat wet t ramp q) r) := by
    intro r
    refine (List.foldl_hom M.state fun r b => ?_)
    have hb : b.term (M.env v) (fun e => M.data (dat e)) t ramp (M.state q) = M.rows (b.term v dat t ramp q) := by
      have hJ : surfaceJ (M.env v).sq (M.data (dat b.e)).elt.tri b.f = surfaceJ v.sq (dat b.e).elt.tri b.f := J_moved M _ _ _
      simp only [Bnd.term]
      rw [hJ]
      refine intFace_moved M v.N _ _ _ _ _ fun gp => ?_
      have hn : normal (M.env v).sq (M.data (dat b.e)).elt.tri b.f = M.vec (normal v.sq (dat b.e).elt.tri b.f) := normal_moved M _ _ _
      have hg : ∀ z, localToGlobal (M.data (dat b.e)).elt.tri z = M.pt (localToGlobal (dat b.e).elt.tri z) := global_moved M _
      have hq : ∀ z, qAt (M.env v).N (M.data (dat b.e)).elt (M.state q b.e) z = M.flow (qAt v.N (dat b.e).elt (q b.e) z) := qAt_moved M _ _ _
      rw [hn, hg, hq]
      rw [← bnd_moved M v t ramp b.kind gp _ _ (hsp _)]
      congr 1
      simp only [Swe.auxAt, Motion.env, hsp]
      rfl
    simp only [boundaryKernel]
    rw [apply_ite M.state, hb, subAt_moved]
  rw [h1, h2, h3, h4]

/-! ### Stages -/

omit [IsStrictOrderedRing K] in
theorem solve_moved (v : Env K) (dat : ℕ → EltData K) (r : State K) : solve (M.env v) (fun e => M.data (dat e)) (M.state r) = M.state (solve v dat r) := by
  funext e
  have hd : |jdet (M.data (dat e)).elt.tri| = |jdet (dat e).elt.tri| := congrArg _ (det_moved M _)
  refine rows_of M _ _ (fun dof => ?_) (fun dof => ?_) (fun dof => ?_) <;> simp only [solve, Elt.applyMinv, hd]
  · rfl
  · show (M.c * r e 1 dof - M.s * r e 2 dof) * _ = _
    simp only [Motion.env]
    ring
  · show (M.s * r e 1 dof + M.c * r e 2 dof) * _ = _
    simp only [Motion.env]
    ring

/-- The stage slots turned. -/
def Motion.slot (M : Motion K) (s : Stepper.Slot (State K)) : Stepper.Slot (State K) := ⟨M.state s.q, M.state s.solution⟩

/-- A run turned: the flags are the same. -/
def Motion.run (M : Motion K) (s : Run K) : Run K := ⟨s.slots.map M.slot, s.stage, s.wet, s.emptied⟩

omit [LinearOrder K] [IsStrictOrderedRing K] in
theorem setQ_moved (l : List (Stepper.Slot (State K))) (i : ℕ) (q : State K) :
    Stepper.setQ (l.map M.slot) i (M.state q) = (Stepper.setQ l i q).map (List.map M.slot) := by
  unfold Stepper.setQ
  cases h : l[i]? with
  | none => simp [h]
  | some x => simp [h, Motion.slot]

omit [LinearOrder K] [IsStrictOrderedRing K] in
theorem setSolution_moved (l : List (Stepper.Slot (State K))) (i : ℕ) (q : State K) :
    Stepper.setSolution (l.map M.slot) i (M.state q) = (Stepper.setSolution l i q).map (List.map M.slot) := by
  unfold Stepper.setSolution
  cases h : l[i]? with
  | none => simp [h]
  | some x => simp [h, Motion.slot]

omit [LinearOrder K] [IsStrictOrderedRing K] in
theorem accumulate_moved (tab : Stepper.Tableau) (dt : K) (stage : ℕ) (l : List (Stepper.Slot (State K))) :
    Stepper.accumulate tab dt stage (l.map M.slot) = (Stepper.accumulate tab dt stage l).map M.state := by
  unfold Stepper.accumulate
  have h0 : (0 : State K) = M.state 0 := by
    funext e
    exact (rows_zero M).symm
  have key : ∀ (r : List ℕ) (acc : State K), r.foldlM (fun (acc : State K) s => do
      let a ← Stepper.entry tab.ark stage s
      let b ← Stepper.entry tab.brk stage s
      let sl ← (l.map M.slot)[s]?
      pure (acc + ((a : K) • sl.q + (dt * (b : K)) • sl.solution))) (M.state acc) =
      Option.map M.state (r.foldlM (fun (acc : State K) s => do
      let a ← Stepper.entry tab.ark stage s
      let b ← Stepper.entry tab.brk stage s
      let sl ← l[s]?
      pure (acc + ((a : K) • sl.q + (dt * (b : K)) • sl.solution))) acc) := by
    intro r
    induction r with
    | nil => intro acc; rfl
    | cons s r ih =>
      intro acc
      simp only [List.foldlM_cons]
      cases h1 : Stepper.entry tab.ark stage s with
      | none => rfl
      | some a =>
        cases h2 : Stepper.entry tab.brk stage s with
        | none => rfl
        | some b =>
          cases h3 : l[s]? with
          | none => simp [h3]
          | some x =>
            have : M.state acc + ((a : K) • (M.slot x).q + (dt * (b : K)) • (M.slot x).solution) = M.state (acc + ((a : K) • x.q + (dt * (b : K)) • x.solution)) := by
              funext e
              show M.rows (acc e) + ((a : K) • M.rows (x.q e) + (dt * (b : K)) • M.rows (x.solution e)) = M.rows (acc e + ((a : K) • x.q e + (dt * (b : K)) • x.solution e))
              rw [rows_add, rows_add, rows_smul, rows_smul]
            have h4 : (l.map M.slot)[s]? = some (M.slot x) := by simp [h3]
            simp only [h4, Option.bind_eq_bind, Option.bind_some, Option.pure_def, this]
            exact ih _
  conv_lhs => rw [h0]
  exact key _ 0

omit [LinearOrder K] [IsStrictOrderedRing K] in
theorem updateState_moved (tab : Stepper.Tableau) (ns : ℕ) (dt : K) (stage : ℕ) (l : List (Stepper.Slot (State K))) :
    Stepper.updateState tab ns dt stage (l.map M.slot) = (Stepper.updateState tab ns dt stage l).map (List.map M.slot) := by
  unfold Stepper.updateState
  rw [accumulate_moved]
  cases Stepper.accumulate tab dt stage l with
  | none => rfl
  | some x =>
    simp only [Option.map_some, Option.bind_eq_bind, Option.bind_some, setQ_moved]
    cases Stepper.setQ l (stage + 1) x with
    | none => rfl
    | some l' =>
      simp only [Option.map_some, Option.bind_some]
      by_cases hs : stage + 1 = ns
      · rw [if_pos hs, if_pos hs]
        simp only [List.getElem?_map]
        cases l'[0]? with
        | none => rfl
        | some s0 =>
          cases l'[ns]? with
          | none => rfl
          | some sn =>
            simp only [Option.map_some, Option.bind_some]
            have := setQ_moved M l' 0 sn.q
            rw [show (M.slot sn).q = M.state sn.q from rfl, this]
            cases Stepper.setQ l' 0 sn.q with
            | none => rfl
            | some l'' => exact setQ_moved M l'' ns s0.q
      · rw [if_neg hs, if_neg hs]
        rfl

/-! ### Wetting and drying -/

/-- Rows as the wetting and drying algorithm has them. -/
def Motion.turn (M : Motion K) (q : Rows K) : Rows K := ⟨q.ze, fun d => M.c * q.qx d - M.s * q.qy d, fun d => M.s * q.qx d + M.c * q.qy d⟩

def Motion.out (M : Motion K) (o : WdOut K) : WdOut K := ⟨M.turn o.q, o.wet, o.emptied, o.rhsZero⟩

omit [LinearOrder K] [IsStrictOrderedRing K] in
theorem toLinear_turn (n : ℕ) (a b : K) (u w : ℕ → K) : Basis.basisToLinear n (fun d => a * u d + b * w d) = fun k => a * Basis.basisToLinear n u k + b * Basis.basisToLinear n w k := by
  funext k
  exact sum_turn _ a b _ _ _ fun _ => by ring

omit [LinearOrder K] [IsStrictOrderedRing K] in
theorem toBasis_turn (a b : K) (u w : ℕ → K) : Basis.linearToBasis (fun d => a * u d + b * w d) = fun k => a * Basis.linearToBasis u k + b * Basis.linearToBasis w k := by
  funext k
  exact sum_turn _ a b _ _ _ fun _ => by ring

omit [LinearOrder K] [IsStrictOrderedRing K] in
theorem turn_eq (q : Rows K) : M.turn q = ⟨q.ze, fun d => M.c * q.qx d + -M.s * q.qy d, fun d => M.s * q.qx d + M.c * q.qy d⟩ := by
  simp only [Motion.turn, sub_eq_add_neg, neg_mul]

omit [LinearOrder K] [IsStrictOrderedRing K] in
theorem project_turn (q : Rows K) : Swe.project (M.turn q) = M.turn (Swe.project q) := by
  rw [turn_eq, turn_eq]
  simp only [Swe.project, toBasis_turn]

omit [LinearOrder K] [IsStrictOrderedRing K] in
theorem turn_still (z : ℕ → K) : M.turn ⟨z, 0, 0⟩ = ⟨z, 0, 0⟩ := by
  rw [turn_eq]
  simp only [Pi.zero_apply, mul_zero, add_zero]
  rfl

omit [IsStrictOrderedRing K] in
theorem check_moved (ho bm : K) (em : Bool) (h : ℕ → K) (w q : Rows K) : checkElement ho bm em h (M.turn w) (M.turn q) = M.out (checkElement ho bm em h w q) := by
  have hz : (M.turn w).ze = w.ze := rfl
  simp only [checkElement, hz]
  split
  · rfl
  · simp only [Motion.out, ← project_turn, turn_still]

omit [IsStrictOrderedRing K] in
theorem move_turn (ho thr : K) (h : ℕ → K) (a b : K) (u w : ℕ → K) :
    moveDischarge ho thr h (fun d => a * u d + b * w d) = fun k => a * moveDischarge ho thr h u k + b * moveDischarge ho thr h w k := by
  funext k
  simp only [moveDischarge]
  rw [sum_turn _ a b (fun d => a * u d + b * w d) u w fun _ => rfl]
  split
  · ring
  · ring

omit [IsStrictOrderedRing K] in
theorem wetDry_moved (ho thr : K) (n : ℕ) (bath : ℕ → K) (bm : K) (temp : ℕ → K) (wet : Bool) (q : Rows K) :
    wetDry ho thr n bath bm temp wet (M.turn q) = (wetDry ho thr n bath bm temp wet q).map M.out := by
  have hz : (M.turn q).ze = q.ze := rfl
  have hv : (⟨Basis.basisToLinear n q.ze, Basis.basisToLinear n (M.turn q).qx, Basis.basisToLinear n (M.turn q).qy⟩ : Rows K) =
      M.turn ⟨Basis.basisToLinear n q.ze, Basis.basisToLinear n q.qx, Basis.basisToLinear n q.qy⟩ := by
    rw [turn_eq, turn_eq]
    simp only [toLinear_turn]
  have hx : Basis.basisToLinear n (M.turn q).qx = fun k => M.c * Basis.basisToLinear n q.qx k + -M.s * Basis.basisToLinear n q.qy k := by
    rw [turn_eq]; simp only [toLinear_turn]
  have hy : Basis.basisToLinear n (M.turn q).qy = fun k => M.s * Basis.basisToLinear n q.qx k + M.c * Basis.basisToLinear n q.qy k := by
    rw [turn_eq]; simp only [toLinear_turn]
  delta wetDry
  simp only [hz, hv]
  by_cases h0 : nDry ho thr (fun x => Basis.basisToLinear n q.ze x + bath x) = 0
  · rw [if_pos h0, if_pos h0]
    cases wet
    · exact congrArg Except.ok (check_moved M _ _ _ _ _ _)
    · rfl
  rw [if_neg h0, if_neg h0]
  by_cases h3 : nDry ho thr (fun x => Basis.basisToLinear n q.ze x + bath x) = 3
  · rw [if_pos h3, if_pos h3]
    refine congrArg Except.ok ?_
    simp only [Motion.out, ← project_turn, turn_still]
  rw [if_neg h3, if_neg h3]
  by_cases h4 : (if (0 + (Basis.basisToLinear n q.ze 0 + bath 0) + (Basis.basisToLinear n q.ze 1 + bath 1) + (Basis.basisToLinear n q.ze 2 + bath 2)) / 3 ≤ thr then thr
      else (0 + (Basis.basisToLinear n q.ze 0 + bath 0) + (Basis.basisToLinear n q.ze 1 + bath 1) + (Basis.basisToLinear n q.ze 2 + bath 2)) / 3) ≤ ho + thr
  · rw [if_pos h4, if_pos h4]
    refine congrArg Except.ok ?_
    rw [← check_moved, ← project_turn, turn_still]
  · rw [if_neg h4, if_neg h4]
    cases newDepths ho temp fun x => Basis.basisToLinear n q.ze x + bath x with
    | error e => rfl
    | ok h' =>
      simp only [Swe.okBind]
      split
      · refine congrArg Except.ok ?_
        rw [← check_moved, ← project_turn]
        have : (⟨fun x => h' x - bath x, moveDischarge ho thr h' (Basis.basisToLinear n (M.turn q).qx), moveDischarge ho thr h' (Basis.basisToLinear n (M.turn q).qy)⟩ : Rows K) =
            M.turn ⟨fun x => h' x - bath x, moveDischarge ho thr h' (Basis.basisToLinear n q.qx), moveDischarge ho thr h' (Basis.basisToLinear n q.qy)⟩ := by
          rw [hx, hy, turn_eq, move_turn, move_turn]
        rw [this]
      · rfl

/-- State and flags turned. -/
def Motion.both (M : Motion K) (f : Flow K) : Flow K := ⟨M.state f.q, f.wet, f.emptied⟩

omit [LinearOrder K] [IsStrictOrderedRing K] in
theorem ofRows_turn (r : Rows K) : ofRows (M.turn r) = M.rows (ofRows r) := by
  funext var
  fin_cases var <;> rfl

omit [IsStrictOrderedRing K] in
theorem wd_moved (dat : ℕ → EltData K) (m : Mesh K) (w : Option (WdParams K)) (f : Flow K) : wdAll (fun e => M.data (dat e)) m w (M.both f) = (wdAll dat m w f).map M.both := by
  cases w with
  | none => rfl
  | some w =>
    simp only [wdAll]
    generalize m.elts = l
    induction l generalizing f with
    | nil => rfl
    | cons e l ih =>
      have h1 : wdStep (fun e => M.data (dat e)) w (M.both f) e = (wdStep dat w f e).map M.both := by
        unfold wdStep
        have hw : wetDry w.ho w.thr (ndof (M.data (dat e)).elt.p) (w.bath e) (w.bathMin e) (w.temp e) ((M.both f).wet e) (rowsOf ((M.both f).q e)) = _ :=
          wetDry_moved M w.ho w.thr (ndof (dat e).elt.p) (w.bath e) (w.bathMin e) (w.temp e) (f.wet e) (rowsOf (f.q e))
        rw [hw]
        cases wetDry w.ho w.thr (ndof (dat e).elt.p) (w.bath e) (w.bathMin e) (w.temp e) (f.wet e) (rowsOf (f.q e)) with
        | error e => rfl
        | ok o =>
          show Except.ok (Flow.mk (Function.update (M.state f.q) e (ofRows (M.turn o.q))) _ _) = Except.ok (Flow.mk (M.state (Function.update f.q e (ofRows o.q))) _ _)
          rw [state_update, ofRows_turn]
          rfl
      rw [List.foldlM_cons, List.foldlM_cons, h1]
      cases wdStep dat w f e with
      | error e => rfl
      | ok f' => exact ih f'

theorem stage_moved (v : Env K) (hsp : ∀ x, v.sp x = 1) (dat : ℕ → EltData K) (m : Mesh K) (tab : Stepper.Tableau) (ns : ℕ) (dt : K) (w : Option (WdParams K)) (junk : State K)
    (t ramp : K) (s : Run K) : stageSerial (M.env v) (fun e => M.data (dat e)) m tab ns dt ⟨w, none⟩ (M.state junk) t ramp (M.run s) =
      (stageSerial v dat m tab ns dt ⟨w, none⟩ junk t ramp s).map M.run := by
  unfold stageSerial stageWith
  have hcur : (M.run s).slots[(M.run s).stage]? = s.slots[s.stage]?.map M.slot := List.getElem?_map ..
  rw [hcur]
  cases s.slots[s.stage]? with
  | none => rfl
  | some cur =>
    simp only [Option.map_some, slotOr, Swe.okBind]
    have h1 : (M.slot cur).q = M.state cur.q := rfl
    have h2 : (M.run s).wet = s.wet := rfl
    have h3 : (M.run s).stage = s.stage := rfl
    have h4 : (M.run s).slots = s.slots.map M.slot := rfl
    have h5 : (M.run s).emptied = s.emptied := rfl
    rw [h1, h2, h3, h4, h5, rhs_moved M v hsp, solve_moved, setSolution_moved]
    cases Stepper.setSolution s.slots s.stage (solve v dat (localRhs v dat m s.wet t ramp cur.q junk)) with
    | none => rfl
    | some l1 =>
      simp only [Option.map_some, slotOr, Swe.okBind]
      rw [updateState_moved]
      cases Stepper.updateState tab ns dt s.stage l1 with
      | none => rfl
      | some l2 =>
        simp only [Option.map_some, slotOr, Swe.okBind, List.getElem?_map]
        cases l2[(s.stage + 1) % ns]? with
        | none => rfl
        | some new =>
          simp only [Option.map_some, slotOr, Swe.okBind]
          have hwd := wd_moved M dat m w ⟨new.q, s.wet, s.emptied⟩
          have h6 : M.both ⟨new.q, s.wet, s.emptied⟩ = ⟨(M.slot new).q, s.wet, s.emptied⟩ := rfl
          rw [h6] at hwd
          rw [hwd]
          cases wdAll dat m w ⟨new.q, s.wet, s.emptied⟩ with
          | error e => rfl
          | ok f =>
            simp only [Except.map, Swe.okBind, slAll]
            have h7 : (M.both f).q = M.state f.q := rfl
            rw [h7, setQ_moved]
            cases Stepper.setQ l2 ((s.stage + 1) % ns) f.q with
            | none => rfl
            | some l3 => rfl

/-- C113: a run of any length on the mesh turned and shifted, from the initial data turned, gives the result turned; the flags are the same, and one fails as the other does.
The data of the boundary conditions and weirs are unchanged, given functions of time and place are moved. -/
theorem run_moved (v : Env K) (hsp : ∀ x, v.sp x = 1) (dat : ℕ → EltData K) (m : Mesh K) (tab : Stepper.Tableau) (ns : ℕ) (dt : K) (w : Option (WdParams K)) (junk : State K)
    (time ramp : ℕ → K) (n : ℕ) (s : Run K) : runSerial (M.env v) (fun e => M.data (dat e)) m tab ns dt ⟨w, none⟩ (M.state junk) time ramp n (M.run s) =
      (runSerial v dat m tab ns dt ⟨w, none⟩ junk time ramp n s).map M.run := by
  induction n with
  | zero => rfl
  | succ n ih =>
    rw [runSerial_succ, runSerial_succ, ih]
    cases runSerial v dat m tab ns dt ⟨w, none⟩ junk time ramp n s with
    | error e => rfl
    | ok x => exact stage_moved M v hsp dat m tab ns dt w junk _ _ x

/-! ### The slope limiter -/

/-- The geometry of the limiter turned: the directions are turned, the factors the same. -/
def Motion.geom (M : Motion K) (g : SlGeom K) : SlGeom K := ⟨g.bath, fun b => M.vec (g.median b), g.alpha, g.rsq⟩

theorem midpoint_moved (t : Tri K) (k : ℕ) : Geometry.midpoint (M.tri t) k = M.pt (Geometry.midpoint t k) := by
  simp only [Geometry.midpoint, vertex_moved]
  simp only [Motion.pt, Motion.vec, P2.mk.injEq]
  constructor <;> ring

theorem barycentre_moved (t : Tri K) : barycentre (M.tri t) = M.pt (barycentre t) := by
  simp only [barycentre, Motion.tri, Motion.pt, Motion.vec, P2.mk.injEq]
  constructor <;> ring

/-- So it is for the triangle moved. -/
theorem geom_moved (sq : K → K) (t : Tri K) (z : ℕ → K) (nb : Fin 3 → P2 K) : slGeom sq (M.tri t) z (fun b => M.pt (nb b)) = M.geom (slGeom sq t z nb) := by
  have hu := M.unit
  simp only [slGeom, Motion.geom, midpoint_moved, barycentre_moved, SlGeom.mk.injEq]
  refine ⟨trivial, funext fun b => ?_, funext fun b => ?_, funext fun b => ?_⟩
  · simp only [slMedian, (pt_sub M _ _).1, (pt_sub M _ _).2, hypot_moved, Motion.vec, P2.mk.injEq]
    constructor <;> ring
  · simp only [slAlpha, (pt_sub M _ _).1, (pt_sub M _ _).2, Geometry.inv, Geometry.det, Prod.mk.injEq]
    generalize Geometry.midpoint t b = a, barycentre t = o, nb b = n1, nb (b + 1) = n2
    have hd : (M.c * (n1.x - o.x) - M.s * (n1.y - o.y)) * (M.s * (n2.x - o.x) + M.c * (n2.y - o.y)) -
        (M.c * (n2.x - o.x) - M.s * (n2.y - o.y)) * (M.s * (n1.x - o.x) + M.c * (n1.y - o.y)) =
        (n1.x - o.x) * (n2.y - o.y) - (n2.x - o.x) * (n1.y - o.y) := by grind
    rw [hd]
    generalize (n1.x - o.x) * (n2.y - o.y) - (n2.x - o.x) * (n1.y - o.y) = D
    simp only [div_eq_mul_inv]
    generalize D⁻¹ = i
    constructor <;> grind
  · simp only [slRsq, (pt_sub M _ _).1, (pt_sub M _ _).2, sq_moved]

/-- The rotation which takes (3, 4) to (-7/5, 24/5), say. -/
def pythagoras : Motion ℚ := ⟨3 / 5, 4 / 5, 0, 0, by norm_num⟩

/-- Directions and factors of a case. -/
def someGeom : SlGeom ℚ := ⟨1, ![⟨1, 0⟩, ⟨0, 1⟩, ⟨-3 / 5, 4 / 5⟩], fun _ => (1 / 2, 1 / 2), fun _ => 1⟩
/-- Discharges with slopes 1 at depth 1. -/
def someFlow : Fin 3 → ℕ → ℚ := ![fun _ => 0, fun d => if d = 1 then 1 else 0, fun d => if d = 2 then 1 else 0]
def someNeigh : Neigh ℚ := ⟨fun _ => true, ![![0, 1 / 2, 0], ![0, 0, 1 / 3], ![0, -1, 1 / 5]]⟩
/-- The neighbours with their discharges turned. -/
def Motion.neigh (M : Motion K) (nb : Neigh K) : Neigh K :=
  ⟨nb.wet, fun b => ![nb.bary b 0, M.c * nb.bary b 1 - M.s * nb.bary b 2, M.s * nb.bary b 1 + M.c * nb.bary b 2]⟩

/-- The slope limiter is left out above, and must be: it balances the two components of the discharge one by one, so what it does to a turned discharge is not what it does to the
discharge, turned (a case at depth 1 with gravity 1, where the square root is taken of 1 and of the lengths which tell whether there was a change). -/
theorem limiter_turns_not : limitElement id 1 0 1 (pythagoras.geom someGeom) 3 true (pythagoras.neigh someNeigh) (pythagoras.rows someFlow) 1 1 ≠
    pythagoras.rows (limitElement id 1 0 1 someGeom 3 true someNeigh someFlow) 1 1 := by decide +kernel

/-! ### Cases -/

/-- The theorem applies to any run of the two triangles, turned and shifted: here one stage from a hump of water. -/
example : ((do
      let s ← stageSerial (pythagoras.env (plainEnv simpleN simpleSq)) (fun e => pythagoras.data (twoTris 1 (fun _ d => if d = 0 then 1 else 0) e)) twoMesh Stepper.tab11 1 (1 / 10)
        ⟨none, none⟩ (pythagoras.state 0) 0 1 (pythagoras.run ⟨[⟨hump, 0⟩, ⟨0, 0⟩], 0, fun _ => true, false⟩)
      let c ← slotOr s.slots[0]?
      let s' ← stageSerial (plainEnv simpleN simpleSq) (twoTris 1 fun _ d => if d = 0 then 1 else 0) twoMesh Stepper.tab11 1 (1 / 10)
        ⟨none, none⟩ 0 0 1 ⟨[⟨hump, 0⟩, ⟨0, 0⟩], 0, fun _ => true, false⟩
      let c' ← slotOr s'.slots[0]?
      return decide (c.q 0 1 0 ≠ 0 ∧ c.q 0 1 0 = 3 / 5 * c'.q 0 1 0 - 4 / 5 * c'.q 0 2 0)) : Res Bool) = .ok true := by decide +kernel

end Verif.Swe.Props
