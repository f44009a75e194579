import Verif.Props.LakeAtRest

/-!
# C48, continued: runs of a lake at rest, the numerics of the program, and cases
-/

namespace Verif.Swe.Props
open Verif.Geometry Verif.Geometry.Props Verif.Element Verif.Stepper Verif.Tri MvPolynomial Verif.Basis

section
variable {v : Env ℝ} {dat : ℕ → EltData ℝ} {m : Mesh ℝ} {F : ℕ → MvPolynomial (Fin 2) ℝ} {P : ℕ} {L : ℝ} {q : State ℝ}

theorem rest_vertex {n : ℕ} (hn : 0 < n) {u : ℕ → ℝ} {l : ℝ} (hu : ∀ d < n, u d = if d = 0 then l else 0) {x : ℕ} (hx : x < 3) :
    basisToLinear n u x = l := by
  unfold basisToLinear
  rw [sum_range_list, Finset.sum_eq_single 0]
  · rw [hu 0 hn, if_pos rfl]
    have : (basisLinear 0 x : ℝ) = 1 := by
      have h3 : x = 0 ∨ x = 1 ∨ x = 2 := by omega
      rcases h3 with rfl | rfl | rfl <;> simp [basisLinear]
    rw [this, mul_one]
  · intro d hd h0
    rw [hu d (Finset.mem_range.mp hd), if_neg h0, zero_mul]
  · intro h; exact absurd (Finset.mem_range.mpr hn) h

theorem ndof_three {p : ℕ} (h : 1 ≤ p) : 3 ≤ ndof p := by
  unfold ndof
  obtain ⟨k, rfl⟩ : ∃ k, p = k + 1 := ⟨p - 1, by omega⟩
  rw [Nat.le_div_iff_mul_le (by omega)]
  nlinarith

theorem ofRows_rowsOf (u : Fin 3 → ℕ → ℝ) : ofRows (rowsOf u) = u := by
  funext var
  fin_cases var <;> rfl

/-- Wetting and drying leave a deep lake alone. -/
theorem rest_wd {wp : Option (WdParams ℝ)} (hp : ∀ w, wp = some w → 0 < w.thr ∧ w.thr ≤ w.ho ∧ ∀ e ∈ m.elts, ∀ x < 3, w.ho + w.thr < L + w.bath e x)
    (hdeg : ∀ e ∈ m.elts, 1 ≤ (dat e).elt.p) (hq : AtRest dat m.elts L q) {wet : ℕ → Bool} (hw : ∀ e ∈ m.elts, wet e = true) (em : Bool) :
    ∃ w', wdAll dat m wp ⟨q, wet, em⟩ = .ok ⟨q, w', em⟩ ∧ ∀ e ∈ m.elts, w' e = true := by
  unfold wdAll
  cases wp with
  | none => exact ⟨wet, rfl, hw⟩
  | some w =>
    obtain ⟨h1, h2, h3⟩ := hp w rfl
    simp only
    suffices h : ∀ l : List ℕ, (∀ e ∈ l, e ∈ m.elts) → ∀ wet : ℕ → Bool, (∀ e ∈ m.elts, wet e = true) →
        ∃ w', l.foldlM (wdStep dat w) ⟨q, wet, em⟩ = .ok ⟨q, w', em⟩ ∧ ∀ e ∈ m.elts, w' e = true from h m.elts (fun _ h => h) wet hw
    intro l
    induction l with
    | nil => intro _ wet hw; exact ⟨wet, rfl, hw⟩
    | cons a l ih =>
      intro hl wet hw
      have ha := hl a List.mem_cons_self
      have hn3 := ndof_three (hdeg a ha)
      obtain ⟨o, ho, htr⟩ := wet_dry h1 h2 hn3 (w.bath a) (w.bathMin a) (w.temp a) (wet a) (rowsOf (q a))
      have hv : ∀ x < 3, basisToLinear (ndof (dat a).elt.p) (rowsOf (q a)).ze x = L := fun x hx =>
        rest_vertex (by omega) (fun d hd => (hq a ha d hd).1) hx
      obtain ⟨hu1, hu2⟩ := htr.untouched (hw a ha) fun x hx => by rw [depthAt, hv x hx]; exact h3 a ha x hx
      have hem : o.emptied = false := by
        by_contra hc
        have := htr.flag.mp (by simpa using hc)
        rw [meanDepth, depthAt, depthAt, depthAt, hv 0 (by omega), hv 1 (by omega), hv 2 (by omega)] at this
        have b0 := h3 a ha 0 (by omega); have b1 := h3 a ha 1 (by omega); have b2 := h3 a ha 2 (by omega)
        linarith
      have hs : wdStep dat w ⟨q, wet, em⟩ a = .ok ⟨q, Function.update wet a true, em⟩ := by
        unfold wdStep
        simp only [ho]
        rw [show (Except.ok o >>= fun o => (pure ⟨Function.update q a (ofRows o.q), Function.update wet a o.wet, em || o.emptied⟩ : Res (Flow ℝ))) =
          .ok ⟨Function.update q a (ofRows o.q), Function.update wet a o.wet, em || o.emptied⟩ from rfl]
        rw [hu1, hu2, hem, ofRows_rowsOf, Function.update_eq_self, Bool.or_false]
      obtain ⟨w', hf, hw'⟩ := ih (fun e he => hl e (List.mem_cons_of_mem _ he)) (Function.update wet a true) fun e he => by
        by_cases h : e = a
        · subst h; simp
        · rw [Function.update_of_ne h]; exact hw e he
      exact ⟨w', by rw [List.foldlM_cons, hs]; exact hf, hw'⟩

/-- So does the limiter. -/
theorem rest_sl (hs : IsSqrt v.sq) (hdeg : ∀ e ∈ m.elts, 1 ≤ (dat e).elt.p) (hq : AtRest dat m.elts L q) (p : Option (SlParams ℝ)) (wet : ℕ → Bool)
    (em : Bool) : slAll v dat m p ⟨q, wet, em⟩ = ⟨q, wet, em⟩ := by
  unfold slAll
  cases p with
  | none => rfl
  | some p =>
    simp only [Flow.mk.injEq, and_true]
    funext e
    unfold limited
    split
    · next he =>
      have hn3 := ndof_three (hdeg e he)
      unfold limitAll
      refine limiter_constant hs _ _ _ _ hn3 _ _ _ fun var x hx => ?_
      fin_cases var
      · exact (rest_vertex (by omega) (fun d hd => (hq e he d hd).1) hx).trans (by simpa using (hq e he 0 (by omega)).1.symm)
      · exact (rest_vertex (l := 0) (by omega) (fun d hd => by rw [ite_self]; exact (hq e he d hd).2.1) hx).trans (hq e he 0 (by omega)).2.1.symm
      · exact (rest_vertex (l := 0) (by omega) (fun d hd => by rw [ite_self]; exact (hq e he d hd).2.2) hx).trans (hq e he 0 (by omega)).2.2.symm
    · rfl

theorem rest_comb {tab : Tableau} {ns o : ℕ} (htab : tableau ns o = some tab)
    (hrow : (ns, o) ∈ [(1, 1), (2, 2), (3, 3), (4, 3), (6, 3), (7, 4), (8, 4)]) (dt : ℝ) {elts : List ℕ} {k : ℕ} (hk : k < ns) (u x : ℕ → State ℝ)
    (h : ∀ s, s ≤ k → AtRest dat elts L (u s) ∧ ∀ e ∈ elts, ∀ d < ndof (dat e).elt.p, ∀ var, x s e var d = 0) :
    AtRest dat elts L (∑ s ∈ Finset.range (k + 1), ((tabA tab k s : ℝ) • u s + (dt * (tabB tab k s : ℝ)) • x s)) := by
  have hsum := row_sum (K := ℝ) htab (Stepper.Props.exact_rows o ns tab htab hrow) hk
  intro e he d hd
  have hval : ∀ var (c : ℝ), (∀ s, s ≤ k → u s e var d = c) →
      (∑ s ∈ Finset.range (k + 1), ((tabA tab k s : ℝ) • u s + (dt * (tabB tab k s : ℝ)) • x s)) e var d = c := by
    intro var c hc
    rw [Finset.sum_apply, Finset.sum_apply, Finset.sum_apply]
    rw [Finset.sum_congr rfl (g := fun s => (tabA tab k s : ℝ) * c)]
    · rw [← Finset.sum_mul, hsum, one_mul]
    · intro s hs
      have hs' : s ≤ k := by simp at hs; omega
      simp only [Pi.add_apply, Pi.smul_apply, smul_eq_mul]
      rw [hc s hs', (h s hs').2 e he d hd var]; ring
  exact ⟨hval 0 _ fun s hs => ((h s hs).1 e he d hd).1, hval 1 _ fun s hs => ((h s hs).1 e he d hd).2.1, hval 2 _ fun s hs => ((h s hs).1 e he d hd).2.2⟩

/-- A right-hand side that is zero for the lake keeps the lake at rest for any number of stages. -/
theorem rest_run (hs : IsSqrt v.sq) {tab : Tableau} {ns o : ℕ} (htab : tableau ns o = some tab)
    (hrow : (ns, o) ∈ [(1, 1), (2, 2), (3, 3), (4, 3), (6, 3), (7, 4), (8, 4)]) (dt : ℝ) (pp : PostParams ℝ)
    (hp : ∀ w, pp.wd = some w → 0 < w.thr ∧ w.thr ≤ w.ho ∧ ∀ e ∈ m.elts, ∀ x < 3, w.ho + w.thr < L + w.bath e x)
    (hdeg : ∀ e ∈ m.elts, 1 ≤ (dat e).elt.p) (junk : State ℝ) (time ramp : ℕ → ℝ)
    (hz : ∀ n q wet, AtRest dat m.elts L q → (∀ e ∈ m.elts, wet e = true) → ∀ e ∈ m.elts, ∀ d < ndof (dat e).elt.p, ∀ var,
      localRhs v dat m wet (time n) (ramp n) q junk e var d = 0)
    (slots : List (Slot (State ℝ))) (hlen : ns + 1 ≤ slots.length) (sl : Slot (State ℝ)) (h0 : slots[0]? = some sl) (hq : AtRest dat m.elts L sl.q)
    (wet : ℕ → Bool) (hw : ∀ e ∈ m.elts, wet e = true) (n : ℕ) :
    ∃ s sl', runSerial v dat m tab ns dt pp junk time ramp n ⟨slots, 0, wet, false⟩ = .ok s ∧ s.emptied = false ∧
      s.slots[s.stage]? = some sl' ∧ AtRest dat m.elts L sl'.q ∧ ∀ e ∈ m.elts, s.wet e = true := by
  have hns := (Stepper.shapeOK_of_tableau htab).2.1
  set A : State ℝ → Prop := AtRest dat m.elts L with hA
  set S : State ℝ → Prop := fun x => ∀ e ∈ m.elts, ∀ d < ndof (dat e).elt.p, ∀ var, x e var d = 0 with hS
  set G : (ℕ → Bool) → Prop := fun w => ∀ e ∈ m.elts, w e = true with hG
  suffices h : ∃ s, runSerial v dat m tab ns dt pp junk time ramp n ⟨slots, 0, wet, false⟩ = .ok s ∧ RunInv A S G ns s ∧ s.emptied = false by
    obtain ⟨s, h1, h2, h3⟩ := h
    obtain ⟨sl', h4, h5⟩ := h2.good s.stage le_rfl
    exact ⟨s, sl', h1, h3, h4, h5, h2.wet⟩
  induction n with
  | zero =>
    refine ⟨_, rfl, ⟨hns, hlen, fun i hi => ?_, fun i hi => ?_, hw⟩, rfl⟩
    · obtain rfl : i = 0 := by simpa using hi
      exact ⟨sl, h0, hq⟩
    · simp at hi
  | succ n ih =>
    obtain ⟨s, h1, h2, h3⟩ := ih
    have hrhs : ∀ q wet, A q → G wet → S (solve v dat (localRhs v dat m wet (time n) (ramp n) q junk)) := by
      intro q wet hq hw e he d hd var
      simp only [solve, Elt.applyMinv]
      rw [hz n q wet hq hw e he d hd var, zero_mul]
    obtain ⟨slots', q, y, hAq, hl, hy, hold, e⟩ := stage_forward (v := v) (dat := dat) (m := m) (dt := dt) (junk := junk) (t := time n) (ramp := ramp n) pp htab
      (fun k hk u x hux => rest_comb htab hrow dt hk u x hux) hrhs h2
    obtain ⟨w', hf, hw'⟩ := rest_wd hp hdeg hAq h2.wet s.emptied
    rw [hf] at e
    have hsl := rest_sl hs hdeg hAq pp.sl w' s.emptied
    refine ⟨_, by rw [runSerial_succ, h1]; exact e, ?_, ?_⟩
    · rw [hsl]
      refine ⟨Nat.mod_lt _ hns, by simpa using hl, fun i hi => ?_, fun i hi => ?_, hw'⟩
      · simp only at hi ⊢
        by_cases hii : i = (s.stage + 1) % ns
        · subst hii
          have := Nat.mod_lt (s.stage + 1) hns
          exact ⟨_, List.getElem?_set_self (by omega), hAq⟩
        · obtain ⟨sl', h4, h5, _⟩ := hold i (by omega)
          exact ⟨sl', by rw [List.getElem?_set_ne (Ne.symm hii)]; exact h4, h5⟩
      · simp only at hi ⊢
        obtain ⟨sl', h4, _, h5⟩ := hold i hi
        exact ⟨sl', by rw [List.getElem?_set_ne (by omega)]; exact h4, h5⟩
    · rw [hsl]; exact h3

/-- C48: any number of stages, with wetting and drying and the limiter, leaves a lake at rest unchanged. -/
theorem lake_at_rest (hR : Rules v.N F P 0) {tab : Tableau} {ns o : ℕ} (htab : tableau ns o = some tab)
    (hrow : (ns, o) ∈ [(1, 1), (2, 2), (3, 3), (4, 3), (6, 3), (7, 4), (8, 4)]) (dt : ℝ) (pp : PostParams ℝ)
    (hp : ∀ w, pp.wd = some w → 0 < w.thr ∧ w.thr ≤ w.ho ∧ ∀ e ∈ m.elts, ∀ x < 3, w.ho + w.thr < L + w.bath e x)
    (hdeg : ∀ e ∈ m.elts, 1 ≤ (dat e).elt.p) (junk : State ℝ) (time ramp : ℕ → ℝ) (hm : ∀ n, RestMesh v dat m P L (time n) (ramp n))
    (slots : List (Slot (State ℝ))) (hlen : ns + 1 ≤ slots.length) (sl : Slot (State ℝ)) (h0 : slots[0]? = some sl) (hq : AtRest dat m.elts L sl.q)
    (wet : ℕ → Bool) (hw : ∀ e ∈ m.elts, wet e = true) (n : ℕ) :
    ∃ s sl', runSerial v dat m tab ns dt pp junk time ramp n ⟨slots, 0, wet, false⟩ = .ok s ∧ s.emptied = false ∧
      s.slots[s.stage]? = some sl' ∧ AtRest dat m.elts L sl'.q ∧ ∀ e ∈ m.elts, s.wet e = true :=
  rest_run (hm 0).sqrt htab hrow dt pp hp hdeg junk time ramp (fun n _ _ hq hw _ he _ hd var => rest_rhs hR (hm n) hq hw junk he hd var) slots hlen sl h0 hq wet hw n

end

/-! ### The numerics of the program -/

/-- The polynomials of the Dubiner basis. -/
noncomputable def dubF (rd : ℝ → ℝ) (d : ℕ) : MvPolynomial (Fin 2) ℝ := Basis.Props.dubPoly (dofPair rd d).1 (dofPair rd d).2

theorem dub_basis {pair : ℕ → ℕ × ℕ} {d : ℕ} (h : (pair d).1 + (pair d).2 ≤ 800) (z : P2 ℝ) (hz : z.y ≠ 1 ∨ z = ⟨-1, 1⟩) :
    (dubiner pair).phi d z = eval ![z.x, z.y] (Basis.Props.dubPoly (pair d).1 (pair d).2) ∧
    (dubiner pair).dphi1 d z = eval ![z.x, z.y] (pderiv 0 (Basis.Props.dubPoly (pair d).1 (pair d).2)) ∧
    (dubiner pair).dphi2 d z = eval ![z.x, z.y] (pderiv 1 (Basis.Props.dubPoly (pair d).1 (pair d).2)) := by
  have key : Basis.phi (pair d).1 (pair d).2 z = Basis.Props.dub (pair d).1 (pair d).2 z.x z.y ∧
      HasDerivAt (fun t => Basis.Props.dub (pair d).1 (pair d).2 t z.y) (Basis.dphi1 (pair d).1 (pair d).2 z) z.x ∧
      HasDerivAt (fun t => Basis.Props.dub (pair d).1 (pair d).2 z.x t) (Basis.dphi2 (pair d).1 (pair d).2 z) z.y := by
    rcases hz with hz | rfl
    · exact ⟨Basis.Props.phi_eq_dub _ _ h _ _ hz, Basis.Props.regular_derivs _ _ h _ _ hz⟩
    · exact Basis.Props.singular_point _ _
  obtain ⟨h1, h2, h3⟩ := key
  have e1 := poly_deriv1 (Basis.Props.dubPoly (pair d).1 (pair d).2) z.x z.y
  have e2 := poly_deriv2 (Basis.Props.dubPoly (pair d).1 (pair d).2) z.x z.y
  simp only [Basis.Props.dubPoly_eval] at e1 e2 ⊢
  refine ⟨?_, ?_, ?_⟩
  · rw [← h1]; unfold dubiner; congr
  · rw [← h2.unique e1]; unfold dubiner; congr
  · rw [← h3.unique e2]; unfold dubiner; congr

theorem tri_points : ∀ p ≤ 20, ∀ x ∈ (Quadrature.rule2 p).getD [], x.2.2 ≠ 2 ^ 80 := by decide +kernel

/-- C48: the basis and the tables of the program, for elements up to degree 10, the largest for which there is a rule (C40). -/
theorem code_rules {rd : ℝ → ℝ} (hr : Basis.Props.Rounding rd) : Rules (codeNumerics rd) (dubF rd) 10 (1 / 2 ^ 45) := by
  have hb : ∀ p ≤ 10, ∀ d < ndof p, (dofPair rd d).1 + (dofPair rd d).2 ≤ p := fun p hp d hd => (pair_bound hr (by omega) hd).1
  refine ⟨(code_mass hr).phi0, ?_, ?_, ?_, ?_, ?_⟩
  · intro p hp d hd
    exact (Basis.Props.dubPoly_degree _ _).trans (hb p hp d hd)
  · intro d hd z hz
    exact dub_basis (by have := hb 10 le_rfl d hd; omega) z hz
  · intro p hp wz hwz
    simp only [codeNumerics, List.mem_map] at hwz
    obtain ⟨x, hx, rfl⟩ := hwz
    have := tri_points (2 * p) (by omega) x hx
    simp only [tableVal]
    intro h
    rw [div_eq_one_iff_eq (by positivity)] at h
    exact this (by exact_mod_cast h)
  · intro p hp i j hij
    obtain ⟨r, hr2, _⟩ := (Quadrature.Props.triangle_rules (2 * p)).2 (by omega)
    have := Quadrature.Props.triangle_monomials hr2 i j hij
    simp only [codeNumerics, hr2, Option.getD_some, List.map_map]
    exact this
  · intro p hp k hk
    obtain ⟨r, hr1, _⟩ := (Quadrature.Props.line_rules (2 * p + 1)).2 (by omega)
    have := Quadrature.Props.line_monomials hr1 k hk
    simp only [codeNumerics, hr1, Option.getD_some, List.map_map]
    exact this.trans (by norm_num)

/-! ### Cases -/

/-- Exact rules for degree one. -/
noncomputable def exactN : Numerics ℝ where
  basis := dubiner (dofPair id)
  tri _ := [(2 / 3, ⟨-1, 0⟩), (2 / 3, ⟨0, -1⟩), (2 / 3, ⟨0, 0⟩)]
  line _ := [(1 / 3, -1), (4 / 3, 0), (1 / 3, 1)]

theorem exact_rules : Rules exactN (dubF id) 1 0 := by
  have hr := Basis.Props.rounding_id
  have hb : ∀ p ≤ 1, ∀ d < ndof p, (dofPair id d).1 + (dofPair id d).2 ≤ p := fun p hp d hd => (pair_bound hr (by omega) hd).1
  refine ⟨(code_mass hr).phi0, ?_, ?_, ?_, ?_, ?_⟩
  · intro p hp d hd
    exact (Basis.Props.dubPoly_degree _ _).trans (hb p hp d hd)
  · intro d hd z hz
    exact dub_basis (by have := hb 1 le_rfl d hd; omega) z hz
  · intro p hp wz hwz
    simp only [exactN, List.mem_cons, List.not_mem_nil, or_false] at hwz
    rcases hwz with rfl | rfl | rfl <;> norm_num
  · intro p hp i j hij
    rw [Quadrature.Props.m2_integral, abs_nonpos_iff]
    have : (i = 0 ∧ j = 0) ∨ (i = 0 ∧ j = 1) ∨ (i = 1 ∧ j = 0) ∨ (i = 0 ∧ j = 2) ∨ (i = 1 ∧ j = 1) ∨ (i = 2 ∧ j = 0) := by omega
    rcases this with ⟨rfl, rfl⟩ | ⟨rfl, rfl⟩ | ⟨rfl, rfl⟩ | ⟨rfl, rfl⟩ | ⟨rfl, rfl⟩ | ⟨rfl, rfl⟩ <;>
      norm_num [exactN, Quadrature.Props.m2num, Quadrature.Props.m2den, Quadrature.Props.m1]
  · intro p hp k hk
    rw [Quadrature.Props.m1_integral, abs_nonpos_iff]
    have : k = 0 ∨ k = 1 ∨ k = 2 ∨ k = 3 := by omega
    rcases this with rfl | rfl | rfl | rfl <;> norm_num [exactN, Quadrature.Props.m1]

/-- A sloping bed, continuous across the diagonal of the rectangle. -/
def slope (e d : ℕ) : ℝ := if d = 0 then 10 else if e = 0 then 1 else if d = 1 then 0 else 2

theorem two_rest (L t ramp : ℝ) : RestMesh (plainEnv exactN Real.sqrt) (twoTris 1 slope) twoMesh 1 L t ramp := by
  refine ⟨real_isSqrt, fun _ => rfl, (fun h => by cases h), (by decide), ?_, ?_, ?_, ?_, ?_, ?_, ?_, ?_⟩
  · exact (two_closed id 1 slope).ccw
  · intro e _; exact le_rfl
  · intro e he
    rcases (by simpa [twoMesh] using he : e = 0 ∨ e = 1) with rfl | rfl <;> decide
  · intro i hi
    obtain rfl : i = _ := by simpa [twoMesh] using hi
    simp [twoMesh]
  · intro i hi
    obtain rfl : i = _ := by simpa [twoMesh] using hi
    simp [edge, vertex, twoTris]
  · intro i hi _ gp hgp
    obtain rfl : i = _ := by simpa [twoMesh] using hi
    obtain ⟨h0, h1, h2⟩ := Basis.Props.first_dofs Basis.Props.rounding_id
    have hlen : gp < 3 := by simpa [Iface.rule, faceRule, plainEnv, exactN] using hgp
    have hph : ∀ z : P2 ℝ, (z.y ≠ 1 ∨ z = ⟨-1, 1⟩) → exactN.basis.phi 1 z = (1 + 3 * z.y) / 2 ∧ exactN.basis.phi 2 z = (1 + 2 * z.x + z.y) / 2 := by
      intro z hz
      have hb : ∀ d < 3, (dofPair id d).1 + (dofPair id d).2 ≤ 800 := by
        intro d hd
        have : d = 0 ∨ d = 1 ∨ d = 2 := by omega
        rcases this with rfl | rfl | rfl
        · rw [h0]; decide
        · rw [h1]; decide
        · rw [h2]; decide
      have e1 := (dub_basis (pair := dofPair id) (hb 1 (by omega)) z hz).1
      have e2 := (dub_basis (pair := dofPair id) (hb 2 (by omega)) z hz).1
      rw [Basis.Props.dubPoly_eval, h1] at e1
      rw [Basis.Props.dubPoly_eval, h2] at e2
      constructor
      · refine e1.trans ?_
        simp [Basis.Props.dub, Basis.Lemmas.jc, Basis.Lemmas.jp, Finset.sum_range_succ]
        ring
      · refine e2.trans ?_
        simp [Basis.Props.dub, Basis.Lemmas.jc, Basis.Lemmas.jp, Finset.sum_range_succ]
        ring
    have hp0 : ∀ z, exactN.basis.phi 0 z = 1 := exact_rules.phi0
    have h3 : gp = 0 ∨ gp = 1 ∨ gp = 2 := by omega
    have hnd : ndof 1 = 3 := by decide
    rcases h3 with rfl | rfl | rfl
    all_goals
      simp only [Iface.rule, faceRule, plainEnv, twoTris, Elt.value, hnd, List.range_succ, List.range_zero, List.nil_append, List.map_append, List.map_cons,
        List.map_nil, List.sum_append, List.sum_cons, List.sum_nil, facePt, hp0]
      rw [(hph _ ?_).1, (hph _ ?_).2, (hph _ ?_).1, (hph _ ?_).2]
      · norm_num [exactN, slope, boundaryToMaster]
      all_goals norm_num [exactN, slope, boundaryToMaster]
  · intro b hb
    rcases (by simpa [twoMesh] using hb : b = _ ∨ b = _ ∨ b = _ ∨ b = _) with rfl | rfl | rfl | rfl <;> simp [twoMesh]
  · intro b hb
    rcases (by simpa [twoMesh] using hb : b = _ ∨ b = _ ∨ b = _ ∨ b = _) with rfl | rfl | rfl | rfl <;> simp [Quiet]

/-- A lake of any level over the sloping bed. -/
example (L : ℝ) (n : ℕ) (tab : Tableau) (ht : tableau 3 3 = some tab) :
    ∃ s sl, runSerial (plainEnv exactN Real.sqrt) (twoTris 1 slope) twoMesh tab 3 (1 / 10) ⟨none, none⟩ 0 (fun _ => 0)
      (fun _ => 0) n ⟨[⟨fun _ var d => if var = 0 ∧ d = 0 then L else 0, 0⟩, ⟨0, 0⟩, ⟨0, 0⟩, ⟨0, 0⟩], 0, fun _ => true, false⟩ = .ok s ∧
      s.slots[s.stage]? = some sl ∧ sl.q 0 0 0 = L ∧ sl.q 1 0 0 = L ∧ sl.q 0 1 1 = 0 := by
  obtain ⟨s, sl, h1, _, h2, h3, _⟩ := lake_at_rest (v := plainEnv exactN Real.sqrt) exact_rules ht (by simp) (1 / 10) ⟨none, none⟩ (fun _ h => by cases h)
    (fun _ _ => le_rfl) 0 (fun _ => 0) (fun _ => 0) (fun _ => two_rest L 0 0)
    [⟨fun _ var d => if var = 0 ∧ d = 0 then L else 0, 0⟩, ⟨0, 0⟩, ⟨0, 0⟩, ⟨0, 0⟩] (by simp) ⟨fun _ var d => if var = 0 ∧ d = 0 then L else 0, 0⟩ rfl
    (fun e _ d _ => by simp) (fun _ => true) (fun _ _ => rfl) n
  have hd : 1 < ndof 1 := by decide
  refine ⟨s, sl, h1, h2, ?_, ?_, ?_⟩
  · exact (h3 0 (by simp [twoMesh]) 0 (ndof_pos _)).1
  · exact (h3 1 (by simp [twoMesh]) 0 (ndof_pos _)).1
  · exact (h3 0 (by simp [twoMesh]) 1 hd).2.1

/-- The water is pushed by a slope of its surface. -/
example : (localRhs (plainEnv simpleN simpleSq) (twoTris 1 fun _ d => if d = 0 then 1 else 0) twoMesh (fun _ => true) 0 1
    (fun _ var d => if var = 0 ∧ d = 1 then 1 / 10 else 0) 0) 0 2 0 ≠ 0 := by decide +kernel

end Verif.Swe.Props
