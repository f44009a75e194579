import Verif.Props.LakeRun

/-!
# C73: a uniform stream is preserved

Constant water level and discharge over a flat bed without friction is a solution of the equations, on any mesh. The contributions of the interior
and of the three faces of an element cancel only if metric terms, normals, face lengths, traces and rules fit together. `stream_residual` bounds the
right-hand side by the error of the integration rules, `free_stream` follows the state through any number of stages.
-/

namespace Verif.Swe.Props
open Verif.Geometry Verif.Geometry.Props Verif.Element Verif.Stepper Verif.Tri MvPolynomial Verif.Basis

/-- Boundaries that agree with the stream `U`; `n` the outward normal. -/
def Follows (v : Env ℝ) (U : Q ℝ) (t ramp : ℝ) (n : P2 ℝ) : BndKind ℝ → Prop
  | .land => U.qx * n.x + U.qy * n.y = 0
  | .tide cs => ∀ gp, forcing v.cos v.pi ramp t (cs gp) = U.ze
  | .flow cs => ∀ gp, forcing v.cos v.pi ramp t (cs gp) * n.x = U.qx ∧ forcing v.cos v.pi ramp t (cs gp) * n.y = U.qy
  | .function => ∀ x, v.bcq t x = U

/-- A mesh of counterclockwise triangles over a flat bed of depth `b` without friction; each face of each element is covered once, either by an
interface, to which the other side has the opposite edge, or by a boundary that agrees with the stream. -/
structure StreamMesh (v : Env ℝ) (dat : ℕ → EltData ℝ) (m : Mesh ℝ) (P : ℕ) (U : Q ℝ) (b t ramp : ℝ) : Prop where
  sqrt : IsSqrt v.sq
  sp : ∀ x, v.sp x = 1
  source : v.src.functionSource = true → ∀ x, v.fs t x = ⟨0, 0, 0⟩
  friction : v.src.bottomFriction = false
  nodup : m.elts.Nodup
  ccw : ∀ e ∈ m.elts, 0 < jdet (dat e).elt.tri
  degree : ∀ e ∈ m.elts, (dat e).elt.p ≤ P
  cover : ∀ e ∈ m.elts, (facesOf m e).Perm [0, 1, 2]
  ends : ∀ i ∈ m.ints, i.ein ∈ m.elts ∧ i.eex ∈ m.elts
  edges : ∀ i ∈ m.ints, edge (dat i.eex).elt.tri i.fex = ⟨-(edge (dat i.ein).elt.tri i.fin).x, -(edge (dat i.ein).elt.tri i.fin).y⟩
  internal : ∀ i ∈ m.ints, i.kind = .internal
  bed : ∀ e ∈ m.elts, ∀ d < ndof (dat e).elt.p, (dat e).bath d = if d = 0 then b else 0
  wet : 0 < U.ze + b
  owner : ∀ x ∈ m.bnds, x.e ∈ m.elts
  follows : ∀ x ∈ m.bnds, Follows v U t ramp (normal v.sq (dat x.e).elt.tri x.f) x.kind

/-- The state is `U` everywhere. -/
def Uniform (dat : ℕ → EltData ℝ) (elts : List ℕ) (U : Q ℝ) (q : State ℝ) : Prop :=
  ∀ e ∈ elts, ∀ d < ndof (dat e).elt.p, ∀ var, q e var d = if d = 0 then comp U var else 0

section
variable {v : Env ℝ} {dat : ℕ → EltData ℝ} {m : Mesh ℝ} {F : ℕ → MvPolynomial (Fin 2) ℝ} {P : ℕ} {ε b t ramp : ℝ} {U : Q ℝ} {q : State ℝ}

theorem const_value (hR : Rules v.N F P ε) {d : Elt ℝ} {u : ℕ → ℝ} {c : ℝ} (hu : ∀ k < ndof d.p, u k = if k = 0 then c else 0) (z : P2 ℝ) :
    d.value v.N u z = c := by
  unfold Elt.value
  rw [sum_range_list, Finset.sum_eq_single 0]
  · rw [hu 0 (ndof_pos _), if_pos rfl, hR.phi0, mul_one]
  · intro k hk h; rw [hu k (Finset.mem_range.mp hk), if_neg h, zero_mul]
  · intro h; exact absurd (Finset.mem_range.mpr (ndof_pos _)) h

theorem const_deriv (hR : Rules v.N F P ε) {d : Elt ℝ} {u : ℕ → ℝ} {c : ℝ} (hu : ∀ k < ndof d.p, u k = if k = 0 then c else 0) (dir : ℕ) {z : P2 ℝ}
    (hz : z.y ≠ 1 ∨ z = ⟨-1, 1⟩) : d.deriv v.N dir u z = 0 := by
  have h0 : (F 0).totalDegree = 0 := Nat.le_zero.mp (hR.degree 0 (Nat.zero_le _) 0 (ndof_pos 0))
  obtain ⟨_, h1, h2⟩ := hR.basis 0 (ndof_pos P) z hz
  rw [totalDegree_eq_zero_iff_eq_C.mp h0, pderiv_C, map_zero] at h1 h2
  unfold Elt.deriv
  rw [sum_range_list, Finset.sum_eq_zero]
  intro k hk
  rw [hu k (Finset.mem_range.mp hk)]
  by_cases hk0 : k = 0
  · subst hk0
    unfold Elt.dphi
    rw [h1, h2]; ring
  · rw [if_neg hk0, zero_mul]

theorem stream_value (hR : Rules v.N F P ε) (hq : Uniform dat m.elts U q) {e : ℕ} (he : e ∈ m.elts) (z : P2 ℝ) : qAt v.N (dat e).elt (q e) z = U := by
  unfold qAt
  rw [const_value hR fun k hk => hq e he k hk 0, const_value hR fun k hk => hq e he k hk 1, const_value hR fun k hk => hq e he k hk 2]
  rfl

theorem stream_aux (hR : Rules v.N F P ε) (hm : StreamMesh v dat m P U b t ramp) {e : ℕ} (he : e ∈ m.elts) (z g : P2 ℝ) :
    Swe.auxAt v (dat e) U z g = ⟨b, U.ze + b, 1⟩ := by
  unfold Swe.auxAt
  rw [const_value hR (hm.bed e he), hm.sp]

/-- Components of the flux of the stream. -/
noncomputable def sx (v : Env ℝ) (U : Q ℝ) (b : ℝ) (var : Fin 3) : ℝ := comp (fluxX v.src.g U ⟨b, U.ze + b, 1⟩) var
noncomputable def sy (v : Env ℝ) (U : Q ℝ) (b : ℝ) (var : Fin 3) : ℝ := comp (fluxY v.src.g U ⟨b, U.ze + b, 1⟩) var

theorem stream_llf (v : Env ℝ) (U : Q ℝ) (b : ℝ) (n : P2 ℝ) (var : Fin 3) :
    comp (llf v.sq v.src.g U U ⟨b, U.ze + b, 1⟩ n) var = sx v U b var * n.x + sy v U b var * n.y := by
  fin_cases var <;>
    simp [comp, llf, fnIn, fnEx, pe, Q.smul, sx, sy, fluxX, fluxY, add_ze, add_qx, add_qy, sub_ze, sub_qx, sub_qy] <;> ring

theorem comp_neg (a : Q ℝ) (var : Fin 3) : comp (-a) var = -comp a var := by
  fin_cases var <;> rfl

theorem stream_internal (sq : ℝ → ℝ) (g : ℝ) (a c : Side ℝ) (ha : a.wet = true) (hc : c.wet = true) :
    Swe.internal sq g a c = (llf sq g a.q c.q a.aux a.n, -llf sq g a.q c.q a.aux a.n) := by
  unfold Swe.internal
  simp only [ha, hc, Bool.not_true, Bool.false_eq_true, if_false]
  split_ifs <;> rfl

theorem stream_flux (hR : Rules v.N F P ε) (hm : StreamMesh v dat m P U b t ramp) (hq : Uniform dat m.elts U q) {wet : ℕ → Bool}
    (hw : ∀ e ∈ m.elts, wet e = true) {i : Iface ℝ} (hi : i ∈ m.ints) (gp : ℕ) (var : Fin 3) :
    comp (i.flux v dat wet q gp).1 var = sx v U b var * (normal v.sq (dat i.ein).elt.tri i.fin).x + sy v U b var * (normal v.sq (dat i.ein).elt.tri i.fin).y ∧
    comp (i.flux v dat wet q gp).2 var = sx v U b var * (normal v.sq (dat i.eex).elt.tri i.fex).x + sy v U b var * (normal v.sq (dat i.eex).elt.tri i.fex).y := by
  obtain ⟨h1, h2⟩ := hm.ends i hi
  have hn := (opposite (v := v) (hm.ccw _ h1) (hm.ccw _ h2) (hm.edges i hi)).1
  unfold Iface.flux Iface.inside Iface.outside
  simp only [stream_value hR hq h1, stream_value hR hq h2, stream_aux hR hm h1, stream_aux hR hm h2, hm.internal i hi]
  rw [stream_internal _ _ _ _ (hw _ h1) (hw _ h2)]
  simp only [comp_neg, stream_llf, hn]
  exact ⟨trivial, by ring⟩

theorem stream_bnd (hm : StreamMesh v dat m P U b t ramp) {x : Bnd ℝ} (hx : x ∈ m.bnds) (gp : ℕ) (g : P2 ℝ) (var : Fin 3) :
    comp (bndFlux v t ramp x.kind gp U ⟨b, U.ze + b, 1⟩ (normal v.sq (dat x.e).elt.tri x.f) g) var =
      sx v U b var * (normal v.sq (dat x.e).elt.tri x.f).x + sy v U b var * (normal v.sq (dat x.e).elt.tri x.f).y := by
  have hf := hm.follows x hx
  set n := normal v.sq (dat x.e).elt.tri x.f with hn
  unfold bndFlux
  cases hk : x.kind with
  | land =>
    rw [hk] at hf
    simp only [landFlux]
    have hland : landEx n U = U := by
      have hx3 : x.f < 3 := by
        have := (hm.cover _ (hm.owner x hx)).mem_iff.mp (show x.f ∈ facesOf m x.e from List.mem_append_right _ (List.mem_flatMap.mpr ⟨x, hx, by simp⟩))
        simp at this; omega
      have hu : n.x ^ 2 + n.y ^ 2 = 1 := (normal_spec hm.sqrt _ (hm.ccw _ (hm.owner x hx)) _ hx3).1
      have hf' : U.qx * n.x + U.qy * n.y = 0 := hf
      unfold landEx
      ext <;> simp only
      · rw [hf']; linear_combination U.qx * hu - n.x * hf'
      · rw [hf']; linear_combination U.qy * hu - n.y * hf'
    rw [hland]; exact stream_llf _ _ _ _ _
  | tide cs =>
    rw [hk] at hf
    have : tideEx v.cos v.pi ramp t (cs gp) U = U := by unfold tideEx; rw [hf gp]
    simp only [this]; exact stream_llf _ _ _ _ _
  | flow cs =>
    rw [hk] at hf
    have : flowEx v.cos v.pi ramp t (cs gp) n U = U := by unfold flowEx; rw [(hf gp).1, (hf gp).2]
    simp only [this]; exact stream_llf _ _ _ _ _
  | function =>
    rw [hk] at hf
    simp only [hf g]; exact stream_llf _ _ _ _ _

/-- Volume and source terms. -/
theorem stream_interior (hR : Rules v.N F P ε) (hm : StreamMesh v dat m P U b t ramp) (hq : Uniform dat m.elts U q) {e : ℕ} (he : e ∈ m.elts) {dof : ℕ}
    (hdof : dof < ndof (dat e).elt.p) (var : Fin 3) :
    (volumeTerm v (dat e) (q e) + sourceTerm v (dat e) t (q e)) var dof =
      -(sx v U b var * (snormal v (dat e).elt.tri 1).x + sy v U b var * (snormal v (dat e).elt.tri 1).y) * triL (v.N.tri (2 * (dat e).elt.p)) (pderiv 0 (F dof)) -
      (sx v U b var * (snormal v (dat e).elt.tri 2).x + sy v U b var * (snormal v (dat e).elt.tri 2).y) * triL (v.N.tri (2 * (dat e).elt.p)) (pderiv 1 (F dof)) := by
  have hd := hm.degree e he
  obtain ⟨j1, j2, j3, j4, _, _⟩ := jinv_normal hm.sqrt (hm.ccw e he)
  have hsrc : sourceTerm v (dat e) t (q e) var dof = 0 := by
    simp only [sourceTerm, Elt.intPhi, Elt.gps]
    apply List.sum_eq_zero
    intro y hy
    obtain ⟨wz, hwz, rfl⟩ := List.mem_map.mp hy
    have hz : wz.2.y ≠ 1 ∨ wz.2 = ⟨-1, 1⟩ := Or.inl (hR.pts _ hd wz hwz)
    rw [const_deriv hR (hm.bed e he) 0 hz, const_deriv hR (hm.bed e he) 1 hz]
    have : ∀ x a u, comp (getSource v.sq v.cb v.src (dat e).src (v.fs t x) u a ⟨0, 0⟩) var = 0 := by
      intro x a u
      unfold getSource
      by_cases hf : v.src.functionSource = true
      · have h1 := hm.source hf x
        fin_cases var <;> simp [hf, hm.friction, add_ze, add_qx, add_qy, h1, comp]
      · fin_cases var <;> simp [hf, hm.friction, comp]
    rw [this, zero_mul]
  have key : ∀ dir (c : ℝ), (dat e).elt.intDPhi v.N dir (fun _ => c) dof =
      c * (|jdet (dat e).elt.tri| * entry (jinv (dat e).elt.tri) 0 dir * triL (v.N.tri (2 * (dat e).elt.p)) (pderiv 0 (F dof)) +
      |jdet (dat e).elt.tri| * entry (jinv (dat e).elt.tri) 1 dir * triL (v.N.tri (2 * (dat e).elt.p)) (pderiv 1 (F dof))) := by
    intro dir c
    simp only [Elt.intDPhi, Elt.gps, triL, LinearMap.coe_mk, AddHom.coe_mk]
    rw [← List.sum_map_mul_left, ← List.sum_map_mul_left, ← List.sum_map_add, ← List.sum_map_mul_left]
    congr 1
    refine List.map_congr_left fun wz hwz => ?_
    have hz : wz.2.y ≠ 1 ∨ wz.2 = ⟨-1, 1⟩ := Or.inl (hR.pts _ hd wz hwz)
    obtain ⟨_, b1, b2⟩ := hR.basis dof (lt_of_lt_of_le hdof (ndof_mono hd)) wz.2 hz
    rw [b1, b2]; ring
  rw [Pi.add_apply, Pi.add_apply, hsrc, add_zero]
  simp only [volumeTerm, stream_value hR hq he, stream_aux hR hm he, one_mul]
  rw [key, key, j1, j2, j3, j4]
  simp only [sx, sy]; ring

/-- What a face subtracts if the flux is constant. -/
theorem stream_face (hR : Rules v.N F P ε) {p : ℕ} (hp : p ≤ P) {f : ℕ} (hf : f < 3) (r : List (ℝ × ℝ)) {dof : ℕ} (hdof : dof < ndof p) {X : ℕ → ℝ}
    {c : ℝ} (hX : ∀ gp < r.length, X gp = c) (J : ℝ) : Elt.intFace v.N r f J X dof = J * c * faceL r f (F dof) := by
  unfold Elt.intFace
  have hz : ∀ x, (boundaryToMaster f x).y ≠ 1 ∨ boundaryToMaster f x = (⟨-1, 1⟩ : P2 ℝ) := by
    intro x
    have h3 : f = 0 ∨ f = 1 ∨ f = 2 := by omega
    rcases h3 with rfl | rfl | rfl
    · by_cases h : x = 1
      · right; subst h; simp [boundaryToMaster]
      · left; simpa [boundaryToMaster] using h
    · by_cases h : x = -1
      · right; subst h; simp [boundaryToMaster]
      · left; simp [boundaryToMaster]; intro h'; exact h (by linarith)
    · left; simp [boundaryToMaster]; norm_num
  have h1 : ((List.range r.length).map fun gp => X gp * (v.N.basis.phi dof (facePt r f gp) * (weight r gp * J))) =
      (List.range r.length).map fun gp => (fun wx : ℝ × ℝ => J * c * (wx.1 * eval ![(boundaryToMaster f wx.2).x, (boundaryToMaster f wx.2).y]
        (F dof))) (r.getD gp (0, 0)) := by
    refine List.map_congr_left fun gp hgp => ?_
    rw [hX gp (List.mem_range.mp hgp)]
    simp only [facePt, weight]
    rw [(hR.basis dof (lt_of_lt_of_le hdof (ndof_mono hp)) _ (hz _)).1]
    ring
  rw [h1, range_getD r fun wx : ℝ × ℝ => J * c * (wx.1 * eval ![(boundaryToMaster f wx.2).x, (boundaryToMaster f wx.2).y] (F dof))]
  simp only [faceL, LinearMap.coe_mk, AddHom.coe_mk]
  rw [← List.sum_map_mul_left]

/-- The form of a face term. -/
def StreamTerm (v : Env ℝ) (F : ℕ → MvPolynomial (Fin 2) ℝ) (P : ℕ) (U : Q ℝ) (b : ℝ) (d : EltData ℝ) (x : ℕ × (Fin 3 → ℕ → ℝ)) : Prop :=
  x.1 < 3 ∧ ∃ p' ≤ P, d.elt.p ≤ p' ∧ ∀ dof < ndof d.elt.p, ∀ var,
    x.2 var dof = (sx v U b var * (snormal v d.elt.tri x.1).x + sy v U b var * (snormal v d.elt.tri x.1).y) * faceL (v.N.line (2 * p' + 1)) x.1 (F dof)

theorem stream_faces (hm : StreamMesh v dat m P U b t ramp) {wet : ℕ → Bool} (hw : ∀ e ∈ m.elts, wet e = true) (e : ℕ) :
    (faceTerms v dat m wet t ramp q e).map Prod.fst = facesOf m e := by
  unfold faceTerms facesOf
  rw [List.map_append, List.map_flatMap, List.map_flatMap]
  congr 1
  · apply List.flatMap_congr
    intro i hi
    simp only [intTerms, hw _ (hm.ends i hi).1, Bool.true_or, if_true]
    split <;> split <;> simp
  · apply List.flatMap_congr
    intro x hx
    simp only [bndTerms, hw _ (hm.owner x hx), if_true]
    split <;> simp

theorem stream_terms (hR : Rules v.N F P ε) (hm : StreamMesh v dat m P U b t ramp) (hq : Uniform dat m.elts U q) {wet : ℕ → Bool}
    (hw : ∀ e ∈ m.elts, wet e = true) {e : ℕ} (he : e ∈ m.elts) {x : ℕ × (Fin 3 → ℕ → ℝ)} (hx : x ∈ faceTerms v dat m wet t ramp q e) :
    StreamTerm v F P U b (dat e) x := by
  have hlt : x.1 < 3 := by
    have := (hm.cover e he).mem_iff.mp (show x.1 ∈ facesOf m e by rw [← stream_faces hm hw (q := q)]; exact List.mem_map_of_mem hx)
    simp at this; omega
  unfold faceTerms at hx
  rcases List.mem_append.mp hx with hx' | hx' <;> clear hx
  · obtain ⟨i, hi, hx⟩ := List.mem_flatMap.mp hx'
    clear hx'
    obtain ⟨h1, h2⟩ := hm.ends i hi
    simp only [intTerms, hw _ h1, Bool.true_or, if_true, List.mem_append] at hx
    rcases hx with hx | hx
    · split at hx
      · next h =>
        subst h; obtain rfl := List.mem_singleton.mp hx
        refine ⟨hlt, max (dat i.ein).elt.p (dat i.eex).elt.p, max_le (hm.degree _ h1) (hm.degree _ h2), le_max_left _ _, fun dof hdof var => ?_⟩
        refine (stream_face hR (hm.degree _ h1) hlt _ hdof (fun gp _ => (stream_flux hR hm hq hw hi gp var).1) _).trans ?_
        simp only [snormal, Iface.J, Iface.rule, faceRule]; ring
      · cases hx
    · split at hx
      · next h =>
        subst h; obtain rfl := List.mem_singleton.mp hx
        have hJ : i.J v dat = surfaceJ v.sq (dat i.eex).elt.tri i.fex := (opposite (v := v) (hm.ccw _ h1) (hm.ccw _ h2) (hm.edges i hi)).2.symm
        refine ⟨hlt, max (dat i.ein).elt.p (dat i.eex).elt.p, max_le (hm.degree _ h1) (hm.degree _ h2), le_max_right _ _, fun dof hdof var => ?_⟩
        refine (stream_face hR (hm.degree _ h2) hlt _ hdof (fun gp _ => (stream_flux hR hm hq hw hi _ var).2) _).trans ?_
        rw [hJ]
        simp only [snormal, Iface.rule, faceRule]; ring
      · cases hx
  · obtain ⟨x', hb, hx⟩ := List.mem_flatMap.mp hx'
    have h1 := hm.owner x' hb
    simp only [bndTerms, hw _ h1, if_true] at hx
    split at hx
    · next h =>
      subst h; obtain rfl := List.mem_singleton.mp hx
      refine ⟨hlt, (dat x'.e).elt.p, hm.degree _ h1, le_rfl, fun dof hdof var => ?_⟩
      refine (stream_face hR (hm.degree _ h1) hlt _ hdof (X := _) (c := sx v U b var * (normal v.sq (dat x'.e).elt.tri x'.f).x +
        sy v U b var * (normal v.sq (dat x'.e).elt.tri x'.f).y) (fun gp _ => ?_) _).trans ?_
      · simp only [stream_value hR hq h1, stream_aux hR hm h1]
        exact stream_bnd hm hb gp _ var
      · simp only [snormal, faceRule]; ring
    · cases hx

/-- Factor of `ε` in the bound of the right-hand side. -/
noncomputable def streamBound (v : Env ℝ) (F : ℕ → MvPolynomial (Fin 2) ℝ) (U : Q ℝ) (b : ℝ) (d : EltData ℝ) (dof : ℕ) (var : Fin 3) : ℝ :=
  let J := surfaceJ v.sq d.elt.tri
  (|sx v U b var| + |sy v U b var|) * (J 1 * absCoeffs (pderiv 0 (F dof)) + J 2 * absCoeffs (pderiv 1 (F dof)) + (J 0 + J 1 + J 2) * absCoeffs (F dof))

/-- C73: the right-hand side of a uniform stream is bounded by the error of the integration rules. -/
theorem stream_residual (hR : Rules v.N F P ε) (hm : StreamMesh v dat m P U b t ramp) (hq : Uniform dat m.elts U q) {wet : ℕ → Bool}
    (hw : ∀ e ∈ m.elts, wet e = true) (junk : State ℝ) {e : ℕ} (he : e ∈ m.elts) {dof : ℕ} (hdof : dof < ndof (dat e).elt.p) (var : Fin 3) :
    |localRhs v dat m wet t ramp q junk e var dof| ≤ ε * streamBound v F U b (dat e) dof var := by
  have hd := hm.degree e he
  have hc := hm.ccw e he
  have hdeg : (F dof).totalDegree ≤ (dat e).elt.p := hR.degree _ hd dof hdof
  obtain ⟨_, _, _, _, n0x, n0y⟩ := jinv_normal hm.sqrt hc
  obtain ⟨g1, g2⟩ := green (F dof)
  have ht1 := tri_approx (r := v.N.tri (2 * (dat e).elt.p)) (hR.tri _ hd) (pderiv 0 (F dof)) ((pderiv_degree 0 _).trans (by omega))
  have ht2 := tri_approx (r := v.N.tri (2 * (dat e).elt.p)) (hR.tri _ hd) (pderiv 1 (F dof)) ((pderiv_degree 1 _).trans (by omega))
  have hJ : ∀ f < 3, 0 ≤ surfaceJ v.sq (dat e).elt.tri f := fun f hf => le_trans (abs_nonneg _) (snormal_eq hm.sqrt hc hf).2.1
  set c := |sx v U b var| + |sy v U b var| with hcdef
  have hc0 : 0 ≤ c := by positivity
  set s : ℕ → ℝ := fun f => sx v U b var * (snormal v (dat e).elt.tri f).x + sy v U b var * (snormal v (dat e).elt.tri f).y with hsdef
  have hs : ∀ f < 3, |s f| ≤ c * surfaceJ v.sq (dat e).elt.tri f := by
    intro f hf
    obtain ⟨h1, h2, h3⟩ := snormal_eq hm.sqrt hc hf
    rw [hsdef]
    simp only [h1]
    refine (abs_add_le _ _).trans ?_
    rw [abs_mul, abs_mul, hcdef, add_mul]
    exact add_le_add (mul_le_mul_of_nonneg_left h2 (abs_nonneg _)) (mul_le_mul_of_nonneg_left h3 (abs_nonneg _))
  have h0 : s 0 = -s 1 - s 2 := by simp only [hsdef, n0x, n0y]; ring
  rw [localRhs_at v dat m hm.nodup, if_pos he, if_pos (hw e he)]
  have hsum : ∀ (l : List (ℕ × (Fin 3 → ℕ → ℝ))), ((l.map Prod.snd).sum : Fin 3 → ℕ → ℝ) var dof = ((l.map fun x => (x.1, x.2 var dof)).map Prod.snd).sum := by
    intro l
    induction l with
    | nil => simp
    | cons a l ih => simp only [List.map_cons, List.sum_cons, Pi.add_apply] at ih ⊢; rw [ih]
  rw [Pi.sub_apply, Pi.sub_apply, hsum, stream_interior hR hm hq he hdof]
  set T := (faceTerms v dat m wet t ramp q e).map fun x => (x.1, x.2 var dof) with hTdef
  have hnear : ∀ x ∈ T, |x.2 - s x.1 * faceI x.1 (F dof)| ≤ c * surfaceJ v.sq (dat e).elt.tri x.1 * (ε * absCoeffs (F dof)) := by
    intro x hx
    obtain ⟨y, hy, rfl⟩ := List.mem_map.mp hx
    obtain ⟨hlt, p', hp', hpp, hval⟩ := stream_terms hR hm hq hw he hy
    simp only
    rw [hval dof hdof var, ← mul_sub, abs_mul]
    exact mul_le_mul (hs _ hlt) (face_approx hlt (hR.line p' hp') _ (by omega)) (abs_nonneg _) (mul_nonneg hc0 (hJ _ hlt))
  have hn := sum_near T (fun f => s f * faceI f (F dof)) (fun f => c * surfaceJ v.sq (dat e).elt.tri f * (ε * absCoeffs (F dof))) hnear
  have hperm : (T.map Prod.fst).Perm [0, 1, 2] := by
    rw [hTdef, List.map_map, show (Prod.fst ∘ fun x : ℕ × (Fin 3 → ℕ → ℝ) => (x.1, x.2 var dof)) = Prod.fst from rfl, stream_faces hm hw (q := q) e]
    exact hm.cover e he
  have hs1 : ∀ g : ℕ → ℝ, (T.map fun x => g x.1).sum = g 0 + g 1 + g 2 := by
    intro g
    have := (hperm.map g).sum_eq
    rw [List.map_map] at this
    rw [show (fun x : ℕ × ℝ => g x.1) = g ∘ Prod.fst from rfl, this]
    simp; ring
  rw [hs1 fun f => s f * faceI f (F dof), hs1 fun f => c * surfaceJ v.sq (dat e).elt.tri f * (ε * absCoeffs (F dof))] at hn
  have e1 : -s 1 * triL (v.N.tri (2 * (dat e).elt.p)) (pderiv 0 (F dof)) - s 2 * triL (v.N.tri (2 * (dat e).elt.p)) (pderiv 1 (F dof)) - (T.map Prod.snd).sum =
      -s 1 * (triL (v.N.tri (2 * (dat e).elt.p)) (pderiv 0 (F dof)) - I2L (pderiv 0 (F dof))) -
      s 2 * (triL (v.N.tri (2 * (dat e).elt.p)) (pderiv 1 (F dof)) - I2L (pderiv 1 (F dof))) -
      ((T.map Prod.snd).sum - (s 0 * faceI 0 (F dof) + s 1 * faceI 1 (F dof) + s 2 * faceI 2 (F dof))) := by
    rw [g1, g2, h0]; ring
  refine (le_of_eq (congrArg abs e1)).trans ?_
  have b1 : |-s 1 * (triL (v.N.tri (2 * (dat e).elt.p)) (pderiv 0 (F dof)) - I2L (pderiv 0 (F dof)))| ≤
      c * surfaceJ v.sq (dat e).elt.tri 1 * (ε * absCoeffs (pderiv 0 (F dof))) := by
    rw [abs_mul, abs_neg]
    exact mul_le_mul (hs 1 (by omega)) ht1 (abs_nonneg _) (mul_nonneg hc0 (hJ 1 (by omega)))
  have b2 : |s 2 * (triL (v.N.tri (2 * (dat e).elt.p)) (pderiv 1 (F dof)) - I2L (pderiv 1 (F dof)))| ≤
      c * surfaceJ v.sq (dat e).elt.tri 2 * (ε * absCoeffs (pderiv 1 (F dof))) := by
    rw [abs_mul]
    exact mul_le_mul (hs 2 (by omega)) ht2 (abs_nonneg _) (mul_nonneg hc0 (hJ 2 (by omega)))
  refine (abs_sub _ _).trans ((add_le_add ((abs_sub _ _).trans (add_le_add b1 b2)) hn).trans (le_of_eq ?_))
  simp only [streamBound, ← hcdef]
  ring

/-- C73: with exact rules it is zero. -/
theorem stream_rhs (hR : Rules v.N F P 0) (hm : StreamMesh v dat m P U b t ramp) (hq : Uniform dat m.elts U q) {wet : ℕ → Bool}
    (hw : ∀ e ∈ m.elts, wet e = true) (junk : State ℝ) {e : ℕ} (he : e ∈ m.elts) {dof : ℕ} (hdof : dof < ndof (dat e).elt.p) (var : Fin 3) :
    localRhs v dat m wet t ramp q junk e var dof = 0 := by
  have := stream_residual hR hm hq hw junk he hdof var
  rw [zero_mul] at this
  exact abs_nonpos_iff.mp this

/-- Wetting and drying leave a deep stream alone. -/
theorem uniform_wd {wp : Option (WdParams ℝ)} (hp : ∀ w, wp = some w → 0 < w.thr ∧ w.thr ≤ w.ho ∧ ∀ e ∈ m.elts, ∀ x < 3, w.ho + w.thr < U.ze + w.bath e x)
    (hdeg : ∀ e ∈ m.elts, 1 ≤ (dat e).elt.p) (hq : Uniform dat m.elts U q) {wet : ℕ → Bool} (hw : ∀ e ∈ m.elts, wet e = true) (em : Bool) :
    ∃ w', wdAll dat m wp ⟨q, wet, em⟩ = .ok ⟨q, w', em⟩ ∧ ∀ e ∈ m.elts, w' e = true := by
  unfold wdAll
  cases wp with
  | none => exact ⟨wet, rfl, hw⟩
  | some w =>
    obtain ⟨h1, h2, h3⟩ := hp w rfl
    simp only
    suffices h : ∀ l : List ℕ, (∀ e ∈ l, e ∈ m.elts) → ∀ wet : ℕ → Bool, (∀ e ∈ m.elts, wet e = true) →
        ∃ w', l.foldlM (wdStep dat w) ⟨q, wet, em⟩ = .ok ⟨q, w', em⟩ ∧ ∀ e ∈ m.elts, w' e = true from h m.elts (fun _ h => h) wet hw
    intro l
    induction l with
    | nil => intro _ wet hw; exact ⟨wet, rfl, hw⟩
    | cons a l ih =>
      intro hl wet hw
      have ha := hl a List.mem_cons_self
      have hn3 := ndof_three (hdeg a ha)
      obtain ⟨o, ho, htr⟩ := wet_dry h1 h2 hn3 (w.bath a) (w.bathMin a) (w.temp a) (wet a) (rowsOf (q a))
      have hv : ∀ x < 3, basisToLinear (ndof (dat a).elt.p) (rowsOf (q a)).ze x = U.ze := fun x hx =>
        rest_vertex (by omega) (fun d hd => hq a ha d hd 0) hx
      obtain ⟨hu1, hu2⟩ := htr.untouched (hw a ha) fun x hx => by rw [depthAt, hv x hx]; exact h3 a ha x hx
      have hem : o.emptied = false := by
        by_contra hc
        have := htr.flag.mp (by simpa using hc)
        rw [meanDepth, depthAt, depthAt, depthAt, hv 0 (by omega), hv 1 (by omega), hv 2 (by omega)] at this
        have b0 := h3 a ha 0 (by omega); have b1 := h3 a ha 1 (by omega); have b2 := h3 a ha 2 (by omega)
        linarith
      have hs : wdStep dat w ⟨q, wet, em⟩ a = .ok ⟨q, Function.update wet a true, em⟩ := by
        unfold wdStep
        simp only [ho]
        rw [show (Except.ok o >>= fun o => (pure ⟨Function.update q a (ofRows o.q), Function.update wet a o.wet, em || o.emptied⟩ : Res (Flow ℝ))) =
          .ok ⟨Function.update q a (ofRows o.q), Function.update wet a o.wet, em || o.emptied⟩ from rfl]
        rw [hu1, hu2, hem, ofRows_rowsOf, Function.update_eq_self, Bool.or_false]
      obtain ⟨w', hf, hw'⟩ := ih (fun e he => hl e (List.mem_cons_of_mem _ he)) (Function.update wet a true) fun e he => by
        by_cases h : e = a
        · subst h; simp
        · rw [Function.update_of_ne h]; exact hw e he
      exact ⟨w', by rw [List.foldlM_cons, hs]; exact hf, hw'⟩

/-- So does the limiter. -/
theorem uniform_sl (hs : IsSqrt v.sq) (hdeg : ∀ e ∈ m.elts, 1 ≤ (dat e).elt.p) (hq : Uniform dat m.elts U q) (p : Option (SlParams ℝ)) (wet : ℕ → Bool)
    (em : Bool) : slAll v dat m p ⟨q, wet, em⟩ = ⟨q, wet, em⟩ := by
  unfold slAll
  cases p with
  | none => rfl
  | some p =>
    simp only [Flow.mk.injEq, and_true]
    funext e
    unfold limited
    split
    · next he =>
      have hn3 := ndof_three (hdeg e he)
      unfold limitAll
      refine limiter_constant hs _ _ _ _ hn3 _ _ _ fun var x hx => ?_
      exact (rest_vertex (by omega) (fun d hd => hq e he d hd var) hx).trans (by simpa using (hq e he 0 (by omega) var).symm)
    · rfl

theorem uniform_comb {tab : Tableau} {ns o : ℕ} (htab : tableau ns o = some tab)
    (hrow : (ns, o) ∈ [(1, 1), (2, 2), (3, 3), (4, 3), (6, 3), (7, 4), (8, 4)]) (dt : ℝ) {elts : List ℕ} {k : ℕ} (hk : k < ns) (u x : ℕ → State ℝ)
    (h : ∀ s, s ≤ k → Uniform dat elts U (u s) ∧ ∀ e ∈ elts, ∀ d < ndof (dat e).elt.p, ∀ var, x s e var d = 0) :
    Uniform dat elts U (∑ s ∈ Finset.range (k + 1), ((tabA tab k s : ℝ) • u s + (dt * (tabB tab k s : ℝ)) • x s)) := by
  have hsum := row_sum (K := ℝ) htab (Stepper.Props.exact_rows o ns tab htab hrow) hk
  intro e he d hd var
  rw [Finset.sum_apply, Finset.sum_apply, Finset.sum_apply]
  rw [Finset.sum_congr rfl (g := fun s => (tabA tab k s : ℝ) * (if d = 0 then comp U var else 0))]
  · rw [← Finset.sum_mul, hsum, one_mul]
  · intro s hs
    have hs' : s ≤ k := by simp at hs; omega
    simp only [Pi.add_apply, Pi.smul_apply, smul_eq_mul]
    rw [(h s hs').1 e he d hd var, (h s hs').2 e he d hd var]; ring

/-- C73: any number of stages, with wetting and drying and the limiter, leaves a uniform stream unchanged. -/
theorem free_stream (hR : Rules v.N F P 0) {tab : Tableau} {ns o : ℕ} (htab : tableau ns o = some tab)
    (hrow : (ns, o) ∈ [(1, 1), (2, 2), (3, 3), (4, 3), (6, 3), (7, 4), (8, 4)]) (dt : ℝ) (pp : PostParams ℝ)
    (hp : ∀ w, pp.wd = some w → 0 < w.thr ∧ w.thr ≤ w.ho ∧ ∀ e ∈ m.elts, ∀ x < 3, w.ho + w.thr < U.ze + w.bath e x)
    (hdeg : ∀ e ∈ m.elts, 1 ≤ (dat e).elt.p) (junk : State ℝ) (time ramp : ℕ → ℝ) (hm : ∀ n, StreamMesh v dat m P U b (time n) (ramp n))
    (slots : List (Slot (State ℝ))) (hlen : ns + 1 ≤ slots.length) (sl : Slot (State ℝ)) (h0 : slots[0]? = some sl) (hq : Uniform dat m.elts U sl.q)
    (wet : ℕ → Bool) (hw : ∀ e ∈ m.elts, wet e = true) (n : ℕ) :
    ∃ s sl', runSerial v dat m tab ns dt pp junk time ramp n ⟨slots, 0, wet, false⟩ = .ok s ∧ s.emptied = false ∧
      s.slots[s.stage]? = some sl' ∧ Uniform dat m.elts U sl'.q ∧ ∀ e ∈ m.elts, s.wet e = true := by
  have hns := (Stepper.shapeOK_of_tableau htab).2.1
  set A : State ℝ → Prop := Uniform dat m.elts U with hA
  set S : State ℝ → Prop := fun x => ∀ e ∈ m.elts, ∀ d < ndof (dat e).elt.p, ∀ var, x e var d = 0 with hS
  set G : (ℕ → Bool) → Prop := fun w => ∀ e ∈ m.elts, w e = true with hG
  suffices h : ∃ s, runSerial v dat m tab ns dt pp junk time ramp n ⟨slots, 0, wet, false⟩ = .ok s ∧ RunInv A S G ns s ∧ s.emptied = false by
    obtain ⟨s, h1, h2, h3⟩ := h
    obtain ⟨sl', h4, h5⟩ := h2.good s.stage le_rfl
    exact ⟨s, sl', h1, h3, h4, h5, h2.wet⟩
  induction n with
  | zero =>
    refine ⟨_, rfl, ⟨hns, hlen, fun i hi => ?_, fun i hi => ?_, hw⟩, rfl⟩
    · obtain rfl : i = 0 := by simpa using hi
      exact ⟨sl, h0, hq⟩
    · simp at hi
  | succ n ih =>
    obtain ⟨s, h1, h2, h3⟩ := ih
    have hrhs : ∀ q wet, A q → G wet → S (solve v dat (localRhs v dat m wet (time n) (ramp n) q junk)) := by
      intro q wet hq hw e he d hd var
      simp only [solve, Elt.applyMinv]
      rw [stream_rhs hR (hm n) hq hw junk he hd var, zero_mul]
    obtain ⟨slots', q, y, hAq, hl, hy, hold, e⟩ := stage_forward (v := v) (dat := dat) (m := m) (dt := dt) (junk := junk) (t := time n) (ramp := ramp n) pp htab
      (fun k hk u x hux => uniform_comb htab hrow dt hk u x hux) hrhs h2
    obtain ⟨w', hf, hw'⟩ := uniform_wd hp hdeg hAq h2.wet s.emptied
    rw [hf] at e
    have hsl := uniform_sl (hm n).sqrt hdeg hAq pp.sl w' s.emptied
    refine ⟨_, by rw [runSerial_succ, h1]; exact e, ?_, ?_⟩
    · rw [hsl]
      refine ⟨Nat.mod_lt _ hns, by simpa using hl, fun i hi => ?_, fun i hi => ?_, hw'⟩
      · simp only at hi ⊢
        by_cases hii : i = (s.stage + 1) % ns
        · subst hii
          have := Nat.mod_lt (s.stage + 1) hns
          exact ⟨_, List.getElem?_set_self (by omega), hAq⟩
        · obtain ⟨sl', h4, h5, _⟩ := hold i (by omega)
          exact ⟨sl', by rw [List.getElem?_set_ne (Ne.symm hii)]; exact h4, h5⟩
      · simp only at hi ⊢
        obtain ⟨sl', h4, _, h5⟩ := hold i hi
        exact ⟨sl', by rw [List.getElem?_set_ne (by omega)]; exact h4, h5⟩
    · rw [hsl]; exact h3

end

/-! ### Cases -/

/-- A channel: the stream comes in through a flow boundary on the left and leaves through a tide boundary on the right; the long sides are land. -/
noncomputable def channel : Mesh ℝ :=
  ⟨[0, 1], [⟨0, 0, 1, 0, .internal⟩], [⟨0, 1, .flow fun _ => [⟨0, 1, 0, -2, 0⟩]⟩, ⟨0, 2, .land⟩, ⟨1, 1, .tide fun _ => [⟨0, 1, 0, 1 / 2, 0⟩]⟩, ⟨1, 2, .land⟩], []⟩

/-- A flat bed at depth 3. -/
def flat3 (_ d : ℕ) : ℝ := if d = 0 then 3 else 0

theorem channel_stream (N : Numerics ℝ) (t : ℝ) (p : ℕ) :
    StreamMesh (plainEnv N Real.sqrt) (twoTris p flat3) channel p ⟨1 / 2, 2, 0⟩ 3 t 1 := by
  have hsq : ∀ x : ℝ, 0 ≤ x → Real.sqrt (x * x) = x := fun x hx => Real.sqrt_mul_self hx
  refine ⟨real_isSqrt, fun _ => rfl, (fun h => by cases h), rfl, (by decide), ?_, ?_, ?_, ?_, ?_, ?_, ?_, ?_, ?_, ?_⟩
  · exact (two_closed id p flat3).ccw
  · intro e _; exact le_rfl
  · intro e he
    rcases (by simpa [channel] using he : e = 0 ∨ e = 1) with rfl | rfl <;> simp [facesOf, channel] <;> decide
  · intro i hi
    obtain rfl : i = _ := by simpa [channel] using hi
    simp [channel]
  · intro i hi
    obtain rfl : i = _ := by simpa [channel] using hi
    simp [edge, vertex, twoTris]
  · intro i hi
    obtain rfl : i = _ := by simpa [channel] using hi
    rfl
  · intro e _ d _; rfl
  · norm_num
  · intro x hx
    rcases (by simpa [channel] using hx : x = _ ∨ x = _ ∨ x = _ ∨ x = _) with rfl | rfl | rfl | rfl <;> simp [channel]
  · intro x hx
    rcases (by simpa [channel] using hx : x = _ ∨ x = _ ∨ x = _ ∨ x = _) with rfl | rfl | rfl | rfl
    · intro gp
      have h3 : √(9 : ℝ) = 3 := by rw [show (9 : ℝ) = 3 * 3 by norm_num]; exact hsq 3 (by norm_num)
      norm_num [forcing, plainEnv, normal, twoTris, vertex, Geometry.hypot, jdet, Geometry.det, jac, h3]
    · show (2 : ℝ) * _ + 0 * _ = 0
      norm_num [normal, twoTris, vertex, Geometry.hypot, jdet, Geometry.det, jac]
    · intro gp
      norm_num [forcing, plainEnv]
    · show (2 : ℝ) * _ + 0 * _ = 0
      norm_num [normal, twoTris, vertex, Geometry.hypot, jdet, Geometry.det, jac]

/-- The stream through the channel stays as it is. -/
example (n : ℕ) (tab : Tableau) (ht : tableau 3 3 = some tab) :
    ∃ s sl, runSerial (plainEnv exactN Real.sqrt) (twoTris 1 flat3) channel tab 3 (1 / 10) ⟨none, none⟩ 0 (fun _ => 0)
      (fun _ => 1) n ⟨[⟨fun _ var d => if d = 0 then ![1 / 2, 2, 0] var else 0, 0⟩, ⟨0, 0⟩, ⟨0, 0⟩, ⟨0, 0⟩], 0, fun _ => true, false⟩ = .ok s ∧
      s.slots[s.stage]? = some sl ∧ sl.q 0 0 0 = 1 / 2 ∧ sl.q 1 1 0 = 2 ∧ sl.q 0 1 1 = 0 := by
  obtain ⟨s, sl, h1, _, h2, h3, _⟩ := free_stream (v := plainEnv exactN Real.sqrt) exact_rules ht (by simp) (1 / 10) ⟨none, none⟩ (fun _ h => by cases h)
    (fun _ _ => le_rfl) 0 (fun _ => 0) (fun _ => 1) (fun _ => channel_stream exactN 0 1)
    [⟨fun _ var d => if d = 0 then ![1 / 2, 2, 0] var else 0, 0⟩, ⟨0, 0⟩, ⟨0, 0⟩, ⟨0, 0⟩] (by simp) ⟨fun _ var d => if d = 0 then ![1 / 2, 2, 0] var else 0, 0⟩ rfl
    (fun e _ d _ var => by fin_cases var <;> simp [comp]) (fun _ => true) (fun _ _ => rfl) n
  have hd : 1 < ndof 1 := by decide
  refine ⟨s, sl, h1, h2, ?_, ?_, ?_⟩
  · exact h3 0 (by simp [channel]) 0 (ndof_pos _) 0
  · exact h3 1 (by simp [channel]) 0 (ndof_pos _) 1
  · exact h3 0 (by simp [channel]) 1 hd 1

/-- With the tables of the program, any degree up to 10. -/
example {rd : ℝ → ℝ} (hr : Basis.Props.Rounding rd) (q : State ℝ) (hq : Uniform (twoTris 2 flat3) channel.elts ⟨1 / 2, 2, 0⟩ q) (t : ℝ) :
    |localRhs (plainEnv (codeNumerics rd) Real.sqrt) (twoTris 2 flat3) channel (fun _ => true) t 1 q 0 0 1 3| ≤
      1 / 2 ^ 45 * streamBound (plainEnv (codeNumerics rd) Real.sqrt) (dubF rd) ⟨1 / 2, 2, 0⟩ 3 (twoTris 2 flat3 0) 3 1 := by
  have hm := channel_stream (codeNumerics rd) t 2
  have hm' : StreamMesh (plainEnv (codeNumerics rd) Real.sqrt) (twoTris 2 flat3) channel 10 ⟨1 / 2, 2, 0⟩ 3 t 1 :=
    { hm with degree := fun e he => (hm.degree e he).trans (by norm_num) }
  exact stream_residual (v := plainEnv (codeNumerics rd) Real.sqrt) (code_rules hr) hm' hq (fun _ _ => rfl) 0 (by simp [channel]) (by decide) 1

/-- A land boundary across the stream disturbs it. -/
example : (localRhs (plainEnv simpleN simpleSq) (twoTris 1 fun _ d => if d = 0 then 3 else 0) twoMesh (fun _ => true) 0 1
    (fun _ var d => if d = 0 then ![1 / 2, 2, 0] var else 0) 0) 0 0 0 ≠ 0 := by decide +kernel

end Verif.Swe.Props
