import Verif.Props.SweProgram
import Verif.Props.FreeStream
import Mathlib.Analysis.SpecialFunctions.Trigonometric.Deriv
import Mathlib.Analysis.SpecialFunctions.Trigonometric.Bounds

/-!
# C108, C109: spherical coordinates

The program maps longitude and latitude to a plane and scales fluxes in x by the factor `sp`. C108 compares the equations it then solves with those on the
sphere, C109 is about lakes at rest.
-/

namespace Verif.Swe.Props
open Verif.Geometry Verif.Geometry.Props Verif.Element Verif.Stepper Verif.Gn.Props MvPolynomial
open Verif.MeshMeta (Elts Dict)

/-! ### The projection -/

/-- Radians. -/
noncomputable def rad (x : ℝ) : ℝ := x * Real.pi / 180

/-- **C108** The projection keeps the orientation of triangles, so that a mesh which is counterclockwise in longitude and latitude is so in the plane. -/
theorem sphere_orientation (s : Spherical ℝ) (a b c : P3 ℝ) :
    jdet ⟨(projectSphere Real.cos Real.pi s a).flat, (projectSphere Real.cos Real.pi s b).flat, (projectSphere Real.cos Real.pi s c).flat⟩ =
      s.R ^ 2 * Real.cos (rad s.lat) * (Real.pi / 180) ^ 2 * jdet ⟨a.flat, b.flat, c.flat⟩ := by
  simp only [jdet, Geometry.det, jac, projectSphere, P3.flat, rad]
  ring

/-- **C108** Latitude and longitude can be recovered from the position in the plane. -/
theorem sphere_inverse {s : Spherical ℝ} (hR : 0 < s.R) (hl : |s.lat| < 90) (a b : P3 ℝ)
    (h : projectSphere Real.cos Real.pi s a = projectSphere Real.cos Real.pi s b) : a = b := by
  have hpi := Real.pi_pos
  have hl' := abs_lt.mp hl
  have hc : 0 < Real.cos (rad s.lat) := by
    apply Real.cos_pos_of_mem_Ioo
    unfold rad
    constructor <;> nlinarith
  have hc' : Real.cos (s.lat * Real.pi / 180) ≠ 0 := hc.ne'
  obtain ⟨x, y, z⟩ := a
  obtain ⟨x', y', z'⟩ := b
  simp only [projectSphere, P3.mk.injEq] at h ⊢
  obtain ⟨h1, h2, h3⟩ := h
  refine ⟨?_, ?_, h3⟩
  · have : s.R * Real.cos (s.lat * Real.pi / 180) * Real.pi * (x - x') = 0 := by linarith
    rcases mul_eq_zero.mp this with h | h
    · exact absurd h (by positivity)
    · linarith
  · have : s.R * Real.pi * (y - y') = 0 := by linarith
    rcases mul_eq_zero.mp this with h | h
    · exact absurd h (by positivity)
    · linarith

/-- **C108** At the projected position the factor is cos φ₀ / cos φ. -/
theorem sphere_factor {s : Spherical ℝ} (he : s.enabled = true) (hR : s.R ≠ 0) (n : P3 ℝ) :
    spOf Real.cos Real.pi s (projectSphere Real.cos Real.pi s n).flat = Real.cos (rad s.lat) / Real.cos (rad n.y) := by
  simp only [spOf, he, if_true, projectSphere, P3.flat, rad]
  congr 2
  field_simp

/-- Divergence of a vector field on the sphere with components to the east and to the north, longitude `l` and latitude `p` in radians. -/
noncomputable def sphereDiv (R : ℝ) (E N : ℝ → ℝ → ℝ) (l p : ℝ) : ℝ :=
  1 / (R * Real.cos p) * (deriv (fun l => E l p) l + deriv (fun p => N l p * Real.cos p) p)

/-- The position in the plane of longitude and latitude in radians. -/
noncomputable def planeX (R l0 p0 l : ℝ) : ℝ := R * Real.cos p0 * (l - l0)
noncomputable def planeY (R p : ℝ) : ℝ := R * p

theorem plane_project (s : Spherical ℝ) (n : P3 ℝ) :
    projectSphere Real.cos Real.pi s n = ⟨planeX s.R (rad s.lon) (rad s.lat) (rad n.x), planeY s.R (rad n.y), n.z⟩ := by
  simp only [projectSphere, planeX, planeY, rad, P3.mk.injEq, and_true]
  constructor <;> ring

/-- **C108** What the equations of the program mean on the sphere: the derivatives in x, scaled by the factor, and in y are those of the divergence on the
sphere but for one term, which the program does not have. -/
theorem sphere_divergence {R l0 p0 l p : ℝ} (hR : R ≠ 0) (hp : Real.cos p ≠ 0) {f g : ℝ → ℝ → ℝ} {fx gy : ℝ}
    (hf : HasDerivAt (fun x => f x (planeY R p)) fx (planeX R l0 p0 l)) (hg : HasDerivAt (fun y => g (planeX R l0 p0 l) y) gy (planeY R p)) :
    sphereDiv R (fun l p => f (planeX R l0 p0 l) (planeY R p)) (fun l p => g (planeX R l0 p0 l) (planeY R p)) l p =
      Real.cos p0 / Real.cos p * fx + gy - g (planeX R l0 p0 l) (planeY R p) * Real.tan p / R := by
  have h1 : HasDerivAt (fun l => f (planeX R l0 p0 l) (planeY R p)) (fx * (R * Real.cos p0 * 1)) l := by
    refine HasDerivAt.comp (h₂ := fun x => f x (planeY R p)) (h := planeX R l0 p0) l hf ?_
    exact ((hasDerivAt_id l).sub_const l0).const_mul _
  have h2 : HasDerivAt (fun p => g (planeX R l0 p0 l) (planeY R p)) (gy * (R * 1)) p := by
    refine HasDerivAt.comp (h₂ := fun y => g (planeX R l0 p0 l) y) (h := planeY R) p hg ?_
    exact (hasDerivAt_id p).const_mul _
  have h3 := h2.mul (Real.hasDerivAt_cos p)
  unfold sphereDiv
  rw [h1.deriv, show deriv (fun p => g (planeX R l0 p0 l) (planeY R p) * Real.cos p) p = _ from h3.deriv, Real.tan_eq_sin_div_cos]
  field_simp
  ring

/-- The missing term: a uniform northward stream converges on the northern hemisphere. -/
theorem north_converges {R l p c : ℝ} (hR : R ≠ 0) (hp : Real.cos p ≠ 0) : sphereDiv R (fun _ _ => 0) (fun _ _ => c) l p = -(c * Real.tan p / R) := by
  have h := sphere_divergence (R := R) (l0 := 0) (p0 := 0) (l := l) (p := p) hR hp (f := fun _ _ => 0) (g := fun _ _ => c) (hasDerivAt_const _ _) (hasDerivAt_const _ _)
  simpa using h

/-! ### States that do not feel the factor -/

/-- The same with factor 1. -/
noncomputable def flatEnv (v : Env ℝ) : Env ℝ := { v with sp := fun _ => 1 }

/-- The exterior state of a boundary. -/
noncomputable def outer (v : Env ℝ) (t ramp : ℝ) (k : BndKind ℝ) (gp : ℕ) (q : Q ℝ) (n g : P2 ℝ) : Q ℝ :=
  match k with
  | .land => landEx n q
  | .tide cs => tideEx v.cos v.pi ramp t (cs gp) q
  | .flow cs => flowEx v.cos v.pi ramp t (cs gp) n q
  | .function => v.bcq t g

theorem bndFlux_outer (v : Env ℝ) (t ramp : ℝ) (k : BndKind ℝ) (gp : ℕ) (q : Q ℝ) (a : Aux ℝ) (n g : P2 ℝ) :
    bndFlux v t ramp k gp q a n g = llf v.sq v.src.g q (outer v t ramp k gp q n g) a n := by
  cases k <;> rfl

theorem llf_indifferent (sq : ℝ → ℝ) (g c : ℝ) {a a' : Aux ℝ} (h : a.bath = a'.bath) (n : P2 ℝ) :
    llf sq g ⟨0, 0, c⟩ ⟨0, 0, c⟩ a n = llf sq g ⟨0, 0, c⟩ ⟨0, 0, c⟩ a' n := by
  ext <;> simp [llf, fnIn, fnEx, pe, Q.smul, add_ze, add_qx, add_qy, sub_ze, sub_qx, sub_qy, h]

section
variable {v : Env ℝ} {dat : ℕ → EltData ℝ} {m : Mesh ℝ} {F : ℕ → MvPolynomial (Fin 2) ℝ} {P : ℕ} {L t ramp c : ℝ} {q : State ℝ}

/-- States with level zero and no discharge in x have the right-hand side that they have in Cartesian coordinates. -/
theorem sphere_rhs (hn : m.elts.Nodup) (hU : ∀ e ∈ m.elts, ∀ z, qAt v.N (dat e).elt (q e) z = ⟨0, 0, c⟩) {wet : ℕ → Bool} (hw : ∀ e ∈ m.elts, wet e = true)
    (hint : ∀ i ∈ m.ints, i.ein ∈ m.elts ∧ i.eex ∈ m.elts ∧ (i.kind = .internal ∨ c = 0))
    (hbnd : ∀ b ∈ m.bnds, b.e ∈ m.elts ∧ ∀ gp g, outer v t ramp b.kind gp ⟨0, 0, c⟩ (normal v.sq (dat b.e).elt.tri b.f) g = ⟨0, 0, c⟩) (junk : State ℝ)
    {e : ℕ} (he : e ∈ m.elts) : localRhs v dat m wet t ramp q junk e = localRhs (flatEnv v) dat m wet t ramp q junk e := by
  rw [localRhs_at _ _ _ hn, localRhs_at _ _ _ hn, if_pos he, if_pos he, if_pos (hw e he), if_pos (hw e he)]
  congr 1
  · congr 1
    · funext var dof
      unfold volumeTerm
      congr 1
      unfold Elt.intDPhi
      congr 1
      refine List.map_congr_left fun wz _ => ?_
      have : fluxX v.src.g (qAt v.N (dat e).elt (q e) wz.2) (Swe.auxAt v (dat e) (qAt v.N (dat e).elt (q e) wz.2) wz.2 (localToGlobal (dat e).elt.tri wz.2)) = ⟨0, 0, 0⟩ := by
        rw [hU e he]; simp [fluxX, pe]
      have h' : fluxX (flatEnv v).src.g (qAt (flatEnv v).N (dat e).elt (q e) wz.2)
          (Swe.auxAt (flatEnv v) (dat e) (qAt (flatEnv v).N (dat e).elt (q e) wz.2) wz.2 (localToGlobal (dat e).elt.tri wz.2)) = ⟨0, 0, 0⟩ := by
        show fluxX v.src.g (qAt v.N (dat e).elt (q e) wz.2) _ = _
        rw [hU e he]; simp [fluxX, pe]
      have h0 : Swe.comp (⟨0, 0, 0⟩ : Q ℝ) var = 0 := by fin_cases var <;> rfl
      simp only [this, h', h0, mul_zero]
      rfl
  · congr 2
    unfold faceTerms
    congr 1
    · apply List.flatMap_congr
      intro i hi
      obtain ⟨h1, h2, hk⟩ := hint i hi
      have hflux : ∀ gp, i.flux v dat wet q gp = i.flux (flatEnv v) dat wet q gp := by
        intro gp
        unfold Iface.flux Iface.inside Iface.outside
        simp only [show (flatEnv v).N = v.N from rfl, show (flatEnv v).sq = v.sq from rfl, show (flatEnv v).src = v.src from rfl, hU _ h1, hU _ h2,
          show i.rule (flatEnv v) dat = i.rule v dat from rfl]
        cases hkind : i.kind with
        | internal =>
          simp only [internal, hw _ h1, hw _ h2, Bool.not_true, Bool.false_eq_true, if_false, ite_self]
          rw [llf_indifferent v.sq v.src.g c (a := Swe.auxAt v (dat i.ein) ⟨0, 0, c⟩ (facePt (i.rule v dat) i.fin gp) (localToGlobal (dat i.ein).elt.tri (facePt (i.rule v dat) i.fin gp)))
            (a' := Swe.auxAt (flatEnv v) (dat i.ein) ⟨0, 0, c⟩ (facePt (i.rule v dat) i.fin gp) (localToGlobal (dat i.ein).elt.tri (facePt (i.rule v dat) i.fin gp))) (by rfl)]
        | levee l =>
          have hc : c = 0 := hk.resolve_left (by rw [hkind]; simp)
          subst hc
          have ht : (0 : ℝ) ≤ hTol := by unfold hTol; norm_num
          simp only [levee, leveeEx, sub_self, abs_zero, ht, or_true, if_true, rest_land]
          rw [Prod.mk.injEq]
          exact ⟨llf_indifferent _ _ _ (by rfl) _, llf_indifferent _ _ _ (by rfl) _⟩
      unfold intTerms
      have e1 : i.inTerm v dat wet q = i.inTerm (flatEnv v) dat wet q := by
        funext var dof
        unfold Iface.inTerm
        simp only [hflux]
        rfl
      have e2 : i.exTerm v dat wet q = i.exTerm (flatEnv v) dat wet q := by
        funext var dof
        unfold Iface.exTerm
        simp only [hflux]
        rfl
      rw [e1, e2]
    · apply List.flatMap_congr
      intro b hb
      obtain ⟨h1, h2⟩ := hbnd b hb
      unfold bndTerms
      have e1 : b.term v dat t ramp q = b.term (flatEnv v) dat t ramp q := by
        funext var dof
        unfold Bnd.term
        simp only [bndFlux_outer]
        show Elt.intFace v.N _ b.f _ _ dof = Elt.intFace v.N _ b.f _ _ dof
        congr 1
        funext gp
        have ho : ∀ gp' g', outer (flatEnv v) t ramp b.kind gp' ⟨0, 0, c⟩ (normal v.sq (dat b.e).elt.tri b.f) g' = ⟨0, 0, c⟩ := by
          intro gp' g'
          refine Eq.trans ?_ (h2 gp' g')
          cases b.kind <;> rfl
        congr 1
        simp only [show (flatEnv v).N = v.N from rfl, show (flatEnv v).sq = v.sq from rfl, show (flatEnv v).src = v.src from rfl, hU _ h1, h2, ho]
        exact llf_indifferent _ _ _ (by rfl) _
      rw [e1]

theorem quiet_outer {k : BndKind ℝ} (h : Quiet v 0 t ramp k) (gp : ℕ) (n g : P2 ℝ) : outer v t ramp k gp ⟨0, 0, 0⟩ n g = ⟨0, 0, 0⟩ := by
  cases k with
  | land => exact rest_land n 0
  | tide cs => simp only [outer, tideEx, h gp]
  | flow cs => simp only [outer, flowEx, h gp, zero_mul]
  | function => exact h g

theorem follows_outer {k : BndKind ℝ} {n : P2 ℝ} (hn : n.x ^ 2 + n.y ^ 2 = 1) (h : Follows v ⟨0, 0, c⟩ t ramp n k) (gp : ℕ) (g : P2 ℝ) : outer v t ramp k gp ⟨0, 0, c⟩ n g = ⟨0, 0, c⟩ := by
  cases k with
  | land =>
    have h' : 0 * n.x + c * n.y = 0 := h
    simp only [outer, landEx, h', Q.mk.injEq, true_and]
    rw [zero_mul, zero_add] at h'
    constructor
    · linear_combination (-n.x) * h'
    · linear_combination c * hn - n.y * h'
  | tide cs => simp only [outer, tideEx, h gp]
  | flow cs =>
    obtain ⟨h1, h2⟩ := h gp
    simp only [outer, flowEx, h1, h2]
  | function => exact h g

/-- **C109** With exact rules a lake at level zero has right-hand side zero in spherical coordinates. -/
theorem rest_sphere (hR : Rules v.N F P 0) (hm : RestMesh (flatEnv v) dat m P 0 t ramp) (hq : AtRest dat m.elts 0 q) {wet : ℕ → Bool}
    (hw : ∀ e ∈ m.elts, wet e = true) (junk : State ℝ) {e : ℕ} (he : e ∈ m.elts) {dof : ℕ} (hdof : dof < ndof (dat e).elt.p) (var : Fin 3) :
    localRhs v dat m wet t ramp q junk e var dof = 0 := by
  rw [sphere_rhs (v := v) (c := 0) hm.nodup (fun e he z => rest_value hR hq he z) hw (fun i hi => ⟨(hm.ends i hi).1, (hm.ends i hi).2, Or.inr rfl⟩)
    (fun b hb => ⟨hm.owner b hb, fun gp g => quiet_outer (by have := hm.quiet b hb; cases hk : b.kind <;> rw [hk] at this <;> exact this) gp _ g⟩) junk he]
  exact rest_rhs (v := flatEnv v) hR hm hq hw junk he hdof var

/-- **C108** A uniform stream to the north with level zero over a flat bed is steady for the program, whatever the factor. -/
theorem north_steady (hR : Rules v.N F P 0) {b : ℝ} (hm : StreamMesh (flatEnv v) dat m P ⟨0, 0, c⟩ b t ramp) (hq : Uniform dat m.elts ⟨0, 0, c⟩ q) {wet : ℕ → Bool}
    (hw : ∀ e ∈ m.elts, wet e = true) (junk : State ℝ) {e : ℕ} (he : e ∈ m.elts) {dof : ℕ} (hdof : dof < ndof (dat e).elt.p) (var : Fin 3) :
    localRhs v dat m wet t ramp q junk e var dof = 0 := by
  have hface : ∀ x ∈ m.bnds, x.f < 3 := by
    intro x hx
    have h1 : x.f ∈ facesOf m x.e := List.mem_append_right _ (List.mem_flatMap.mpr ⟨x, hx, by simp⟩)
    have := (hm.cover x.e (hm.owner x hx)).subset h1
    simp at this
    omega
  rw [sphere_rhs (v := v) (c := c) hm.nodup (fun e he z => ?_) hw (fun i hi => ⟨(hm.ends i hi).1, (hm.ends i hi).2, Or.inl (hm.internal i hi)⟩)
    (fun x hx => ⟨hm.owner x hx, fun gp g => follows_outer ((normal_spec hm.sqrt _ (hm.ccw _ (hm.owner x hx)) _ (hface x hx)).1)
      (by have := hm.follows x hx; cases hk : x.kind <;> rw [hk] at this <;> exact this) gp g⟩) junk he]
  · exact stream_rhs (v := flatEnv v) hR hm hq hw junk he hdof var
  · unfold qAt
    rw [const_value hR fun k hk => hq e he k hk 0, const_value hR fun k hk => hq e he k hk 1, const_value hR fun k hk => hq e he k hk 2]
    rfl

/-- **C109** A lake at level zero stays at rest in spherical coordinates. -/
theorem lake_sphere_partial (hR : Rules v.N F P 0) {tab : Tableau} {ns o : ℕ} (htab : tableau ns o = some tab)
    (hrow : (ns, o) ∈ [(1, 1), (2, 2), (3, 3), (4, 3), (6, 3), (7, 4), (8, 4)]) (dt : ℝ) (pp : PostParams ℝ)
    (hp : ∀ w, pp.wd = some w → 0 < w.thr ∧ w.thr ≤ w.ho ∧ ∀ e ∈ m.elts, ∀ x < 3, w.ho + w.thr < 0 + w.bath e x)
    (hdeg : ∀ e ∈ m.elts, 1 ≤ (dat e).elt.p) (junk : State ℝ) (time ramp : ℕ → ℝ) (hm : ∀ n, RestMesh (flatEnv v) dat m P 0 (time n) (ramp n))
    (slots : List (Slot (State ℝ))) (hlen : ns + 1 ≤ slots.length) (sl : Slot (State ℝ)) (h0 : slots[0]? = some sl) (hq : AtRest dat m.elts 0 sl.q)
    (wet : ℕ → Bool) (hw : ∀ e ∈ m.elts, wet e = true) (n : ℕ) :
    ∃ s sl', runSerial v dat m tab ns dt pp junk time ramp n ⟨slots, 0, wet, false⟩ = .ok s ∧ s.emptied = false ∧
      s.slots[s.stage]? = some sl' ∧ AtRest dat m.elts 0 sl'.q ∧ ∀ e ∈ m.elts, s.wet e = true :=
  rest_run (v := v) (hm 0).sqrt htab hrow dt pp hp hdeg junk time ramp (fun n _ _ hq hw _ he _ hd var => rest_sphere hR (hm n) hq hw junk he hd var) slots hlen sl h0 hq wet hw n

end

/-! ### From the file -/

/-- The same input without projection factor. -/
def Setup.plain (S : Setup ℝ) : Setup ℝ := { S with inp := { S.inp with sph := { S.inp.sph with enabled := false } } }

theorem plain_v (S : Setup ℝ) : (Setup.plain S).v = flatEnv S.v := by
  simp [Setup.plain, Setup.v, flatEnv]
  rfl

/-- **C109** From the mesh file in longitude and latitude to the end of the run: a lake at level zero stays at rest. -/
theorem program_sphere_partial {W : Type} {g : Program ℝ} {m : Adcirc.Fort14 W ℝ} {F : ℕ → MvPolynomial (Fin 2) ℝ} {P : ℕ} (hR : Rules g.env.N F P 0)
    (hO : Orthogonal g.env.N F P) (hS : SymRules g.env.N P) (hP : g.p ≤ P) (h1 : 1 ≤ g.p) (hq : IsSqrt g.env.sq) (hm : GoodFile (finalPos g m) m) (hg : Fed g m)
    (hz : Silent g) (hU : g.inp.ic = .constant ⟨0, 0, 0⟩ ∨ g.inp.ic = .default ⟨0, 0, 0⟩)
    (hd : ∀ ho, g.inp.wd = some ho → 0 < ho ∧ ∀ x ∈ m.nodes, ho + threshold ho < 0 + x.2.2.2) {order : Dict}
    (hperm : order.Perm (MeshMeta.edgeDict m.elements)) {tab : Stepper.Tableau} {ns o : ℕ} (htab : Stepper.tableau ns o = some tab)
    (hrow : (ns, o) ∈ [(1, 1), (2, 2), (3, 3), (4, 3), (6, 3), (7, 4), (8, 4)]) (dt : ℝ) (sl : Option (SlParams ℝ)) (temp : ℕ → ℕ → ℝ) (junk : State ℝ)
    (time ramp : ℕ → ℝ) (hsrc : g.env.src.functionSource = true → ∀ k x, g.env.fs (time k) x = ⟨0, 0, 0⟩)
    (hf : Has m 3 → ∀ k x, g.env.bcq (time k) x = ⟨0, 0, 0⟩) :
    ∃ S mesh, g.start m order = .ok (S, mesh) ∧ mesh.elts = m.elements.map Prod.fst ∧
      ∀ (slots : List (Stepper.Slot (State ℝ))) (rhs : State ℝ), ns + 1 ≤ slots.length → slots[0]? = some ⟨S.q0, rhs⟩ → ∀ n,
        ∃ s sl', runSerial S.v S.dat mesh tab ns dt ⟨S.wdParams temp, sl⟩ junk time ramp n ⟨slots, 0, S.wet0, false⟩ = .ok s ∧ s.emptied = false ∧
          s.slots[s.stage]? = some sl' ∧ AtRest S.dat mesh.elts 0 sl'.q ∧ ∀ e ∈ mesh.elts, s.wet e = true := by
  obtain ⟨S, mesh, h⟩ := program_starts hm hg hperm
  obtain ⟨f1, f2, -, -, f5, f6, f7⟩ := start_file hm hperm h
  obtain ⟨hs, hc⟩ := start_sound hm hperm h
  have hn : S.nodes = nodeAt m.nodes := by
    obtain ⟨E, A, -, -, -, rfl⟩ := start_ok h
    rfl
  have hdeep : Deep S mesh.elts ⟨0, 0, 0⟩ := by
    intro ho hwd
    rw [f6] at hwd
    obtain ⟨d1, d2⟩ := hd ho hwd
    refine ⟨d1, fun e he k hk => ?_⟩
    rw [f1] at he
    obtain ⟨⟨e', ty, a, b, c⟩, hx, rfl⟩ := List.mem_map.mp he
    unfold nodesOf at hk
    rw [f2 _ _ _ _ _ hx] at hk
    have hsome := hg.nodes _ _ _ _ _ hx k hk
    obtain ⟨v, hv⟩ := Option.isSome_iff_exists.mp hsome
    have := d2 _ (MeshMeta.mem_of_lookup hv)
    rw [final_z, hn, nodeAt, hv]
    exact this
  have hprop : ∀ e ∈ mesh.elts, Proper S e := fun e he => (hc e he).ne'
  have hR' : Rules S.env.N F P 0 := f5 ▸ hR
  have hO' : Orthogonal S.env.N F P := f5 ▸ hO
  have hS' : SymRules S.env.N P := f5 ▸ hS
  have hP' : S.p ≤ P := f7 ▸ hP
  have h1' : 1 ≤ S.p := f7 ▸ h1
  obtain ⟨u1, u2⟩ := init_uniform hR' hO' hP' h1' (by unfold Starts; rw [f6]; exact hU) hprop hdeep
  refine ⟨S, mesh, h, f1, fun slots rhs hlen h0 n => ?_⟩
  refine lake_sphere_partial (v := S.v) (dat := S.dat) (P := P) hR' htab hrow dt ⟨S.wdParams temp, sl⟩ (fun w hw => ?_) (fun e _ => h1') junk time ramp (fun k => ?_) slots hlen
    ⟨S.q0, rhs⟩ h0 (uniform_rest u1) S.wet0 u2 n
  · simp only [Setup.wdParams, Option.map_eq_some_iff] at hw
    obtain ⟨ho, hs, rfl⟩ := hw
    obtain ⟨h0, hall⟩ := hdeep ho hs
    refine ⟨(threshold_range h0).1, (threshold_range h0).2, fun e he => ?_⟩
    exact (zs_nodes (S := S) e fun z => ho + threshold ho < 0 + z).mpr (hall e he)
  · rw [← plain_v]
    refine rest_input (S := Setup.plain S) hR' hO' hS' hP' h1' ⟨(show IsSqrt S.env.sq from f5 ▸ hq), rfl, ?_, hs.nodup, hprop, hs.cover, hs.ends, ?_, hs.owner, ?_⟩
    · intro hfs x
      have hfs' : S.env.src.functionSource = true := hfs
      show S.env.fs (time k) x = _
      rw [f5] at hfs' ⊢
      exact hsrc hfs' k x
    · intro i hi
      obtain ⟨a1, a2, a3, a4⟩ := hs.shared i hi
      exact ⟨a1, a2, a3, a4⟩
    · exact quiet_start hm hg hz hperm h (ramp k) (fun _ => rfl) fun h3 => hf h3 k

/-- **C108** A file that is good in longitude and latitude is good in the plane. -/
theorem sphere_good {W : Type} {g : Program ℝ} {m : Adcirc.Fort14 W ℝ} (hcos : g.env.cos = Real.cos) (hpi : g.env.pi = Real.pi) (hsys : g.inp.sys = true)
    (hR : 0 < g.inp.sph.R) (hl : |g.inp.sph.lat| < 90) (hm : GoodFile (fun k => (nodeAt m.nodes k).flat) m) : GoodFile (finalPos g m) m := by
  refine ⟨hm.ids, hm.small, hm.levee, fun e ty a b c he => ?_, hm.oriented, hm.types⟩
  unfold finalPos preprocessNodes
  rw [hcos, hpi, hsys]
  simp only [if_true]
  rw [sphere_orientation]
  have h := hm.ccw e ty a b c he
  have hpos := Real.pi_pos
  have hl' := abs_lt.mp hl
  have hc : 0 < Real.cos (rad g.inp.sph.lat) := by
    apply Real.cos_pos_of_mem_Ioo
    unfold rad
    constructor <;> nlinarith
  positivity

end Verif.Swe.Props
