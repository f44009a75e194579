import Verif.Props.Water

/-!
# C115: the balance of water; C116: flow boundaries

`inflow` is the rate at which boundaries and the function source bring water, at a state. `rhs_balance`: the right-hand side adds up to it, so the
interfaces between elements neither make nor lose water. `steps_balance`: over any number of time steps the water in the domain grows by the time step
times a weighted mean of the inflow rates of the stages, weights not negative and of sum one, with or without wetting and drying and limiting as long
as no element is emptied (C49).

`flow_rate`: what a flow boundary lets in is the mean of the prescribed discharge and the discharge of the state at the boundary. So it is the
prescribed one if and only if the state has it already, `flow_rate_iff`; into still water it is the half, `flow_half`.
-/

namespace Verif.Swe.Props
open Verif.Geometry Verif.Geometry.Props Verif.Element Verif.Stepper

variable {K : Type} [Field K] [LinearOrder K] [IsStrictOrderedRing K]

/-- Counterclockwise triangles, ordinary interfaces, any boundary conditions and sources, no projection. -/
structure OpenBasin (v : Env K) (dat : ℕ → EltData K) (m : Mesh K) : Prop where
  sqrt : IsSqrt v.sq
  sp : ∀ x, v.sp x = 1
  nodup : m.elts.Nodup
  ccw : ∀ e ∈ m.elts, 0 < jdet (dat e).elt.tri
  ints : ∀ i ∈ m.ints, i.ein ∈ m.elts ∧ i.eex ∈ m.elts ∧ i.fin < 3 ∧ i.kind = .internal
  bnds : ∀ b ∈ m.bnds, b.e ∈ m.elts

/-- Water that the function source makes in an element. -/
def made (v : Env K) (d : EltData K) (t : K) : K :=
  if v.src.functionSource then ((v.N.tri (2 * d.elt.p)).map fun wz => wz.1 * (v.fs t (localToGlobal d.elt.tri wz.2)).ze).sum * |jdet d.elt.tri| else 0

/-- Water that leaves through a boundary: its mass flux, integrated along the face. -/
def leaving (v : Env K) (dat : ℕ → EltData K) (t ramp : K) (q : State K) (b : Bnd K) : K :=
  let d := dat b.e
  let r := v.N.line (2 * d.elt.p + 1)
  ((List.range r.length).map fun gp =>
    let z := facePt r b.f gp
    let x := qAt v.N d.elt (q b.e) z
    (bndFlux v t ramp b.kind gp x (Verif.Swe.auxAt v d x z (localToGlobal d.elt.tri z)) (normal v.sq d.elt.tri b.f) (localToGlobal d.elt.tri z)).ze * weight r gp).sum *
    surfaceJ v.sq d.elt.tri b.f

/-- The rate at which water comes in: dry elements take no part. -/
def inflow (v : Env K) (dat : ℕ → EltData K) (m : Mesh K) (wet : ℕ → Bool) (t ramp : K) (q : State K) : K :=
  (m.elts.map fun e => if wet e then made v (dat e) t else 0).sum - (m.bnds.map fun b => if wet b.e then leaving v dat t ramp q b else 0).sum

/-! ### The right-hand side -/

omit [IsStrictOrderedRing K] in
theorem source_made {v : Env K} (hN : MassNumerics v.N) (d : EltData K) (t : K) (u : Fin 3 → ℕ → K) : sourceTerm v d t u 0 0 = made v d t := by
  have h : ∀ z q a db, comp (getSource v.sq v.cb v.src d.src (v.fs t z) q a db) 0 = if v.src.functionSource then (v.fs t z).ze else 0 := by
    intro z q a db
    unfold getSource comp
    by_cases hf : v.src.functionSource = true <;> by_cases hbf : v.src.bottomFriction = true <;> simp [hf, hbf, add_ze]
  simp only [sourceTerm, Elt.intPhi, h, hN.phi0, one_mul, Elt.gps]
  unfold made
  split_ifs with hf
  · rw [← List.sum_map_mul_right]
    congr 1
    exact List.map_congr_left fun wz _ => by ring
  · simp

omit [IsStrictOrderedRing K] in
theorem bnd_leaving {v : Env K} (hN : MassNumerics v.N) (dat : ℕ → EltData K) (t ramp : K) (q : State K) (b : Bnd K) :
    b.term v dat t ramp q 0 0 = leaving v dat t ramp q b := by
  simp only [Bnd.term, Elt.intFace, hN.phi0, one_mul, comp, Matrix.cons_val_zero, faceRule]
  unfold leaving
  rw [← List.sum_map_mul_right]
  congr 1
  exact List.map_congr_left fun gp _ => by ring

theorem interface_none {v : Env K} {dat : ℕ → EltData K} {m : Mesh K} (hb : OpenBasin v dat m) (hN : MassNumerics v.N) {i : Iface K}
    (hi : i ∈ m.ints) (wet : ℕ → Bool) (q : State K) : i.inTerm v dat wet q 0 0 + i.exTerm v dat wet q 0 0 = 0 := by
  obtain ⟨h1, h2, h3, h4⟩ := hb.ints i hi
  have hu := (normal_spec hb.sqrt (dat i.ein).elt.tri (hb.ccw _ h1) i.fin h3).1
  have hf : ∀ gp, (i.flux v dat wet q gp).2.ze = -(i.flux v dat wet q gp).1.ze := by
    intro gp
    unfold Iface.flux
    rw [h4]
    refine (internal_mass_partial v.sq v.src.g (i.inside v dat wet q gp) (i.outside v dat wet q _) ?_ ?_ hu ?_).1
    · exact hb.sp _
    · exact hb.sp _
    · simp only [Iface.outside, Unit, neg_sq]; exact hu
  simp only [Iface.inTerm, Iface.exTerm, Elt.intFace, sum_range_list, hN.phi0, one_mul, comp, Matrix.cons_val_zero, hf]
  rw [← Finset.sum_range_reflect (fun gp => (i.flux v dat wet q gp).1.ze * (weight (i.rule v dat) gp * i.J v dat)), ← Finset.sum_add_distrib]
  apply Finset.sum_eq_zero
  intro gp hgp
  have hlt : gp < (i.rule v dat).length := Finset.mem_range.mp hgp
  have hw := hN.sym (2 * max (dat i.ein).elt.p (dat i.eex).elt.p + 1) gp hlt
  change weight (i.rule v dat) ((i.rule v dat).length - gp - 1) = weight (i.rule v dat) gp at hw
  rw [show (i.rule v dat).length - 1 - gp = (i.rule v dat).length - gp - 1 by omega, hw]
  ring

/-- C115: the kernels make and lose no water but at boundaries and by the function source. -/
theorem rhs_balance {v : Env K} {dat : ℕ → EltData K} {m : Mesh K} (hb : OpenBasin v dat m) (hN : MassNumerics v.N) (wet : ℕ → Bool) (t ramp : K)
    (q junk : State K) : total m.elts (localRhs v dat m wet t ramp q junk) = inflow v dat m wet t ramp q := by
  unfold localRhs
  have h1 : ∀ e ∈ m.elts, (m.elts.foldl (volumeKernel v dat wet q) junk) e 0 0 = 0 := by
    intro e he
    have : volumeKernel v dat wet q = fun r e => Function.update r e (if wet e then volumeTerm v (dat e) (q e) else 0) := rfl
    rw [this, foldl_update, if_pos he]
    split
    · exact volume_zero hN _ _
    · rfl
  have h2 : ∀ (l : List ℕ), (∀ e ∈ l, e ∈ m.elts) → ∀ r : State K, total m.elts (l.foldl (sourceKernel v dat wet t q) r) =
      total m.elts r + (l.map fun e => if wet e then made v (dat e) t else 0).sum := by
    intro l
    induction l with
    | nil => intro _ r; simp
    | cons a l ih =>
      intro hl r
      rw [List.foldl_cons, ih (fun j hj => hl j (List.mem_cons_of_mem _ hj)), List.map_cons, List.sum_cons]
      unfold sourceKernel
      split
      · rw [total_update hb.nodup (hl a List.mem_cons_self), Pi.add_apply, Pi.add_apply, source_made hN]
        ring
      · ring
  have h3 : ∀ (l : List (Iface K)), (∀ i ∈ l, i ∈ m.ints) → ∀ r : State K, total m.elts (l.foldl (interfaceKernel v dat wet q) r) = total m.elts r := by
    intro l
    induction l with
    | nil => intro _ r; rfl
    | cons i l ih =>
      intro hl r
      rw [List.foldl_cons, ih (fun j hj => hl j (List.mem_cons_of_mem _ hj))]
      have hi := hl i List.mem_cons_self
      obtain ⟨e1, e2, _⟩ := hb.ints i hi
      unfold interfaceKernel
      split
      · rw [total_subAt hb.nodup e2, total_subAt hb.nodup e1]
        linear_combination -interface_none hb hN hi wet q
      · rfl
  have h4 : ∀ (l : List (Bnd K)), (∀ b ∈ l, b ∈ m.bnds) → ∀ r : State K, total m.elts (l.foldl (boundaryKernel v dat wet t ramp q) r) =
      total m.elts r - (l.map fun b => if wet b.e then leaving v dat t ramp q b else 0).sum := by
    intro l
    induction l with
    | nil => intro _ r; simp
    | cons b l ih =>
      intro hl r
      rw [List.foldl_cons, ih (fun j hj => hl j (List.mem_cons_of_mem _ hj)), List.map_cons, List.sum_cons]
      unfold boundaryKernel
      split
      · rw [total_subAt hb.nodup (hb.bnds b (hl b List.mem_cons_self)), bnd_leaving hN]
        ring
      · ring
  simp only
  rw [h4 _ (fun _ h => h), h3 _ (fun _ h => h), h2 _ (fun _ h => h)]
  have h0 : total m.elts (m.elts.foldl (volumeKernel v dat wet q) junk) = 0 := by
    unfold total
    rw [List.map_congr_left h1]
    simp
  rw [h0, zero_add]
  rfl

/-- Weighted with the Jacobians: the rate of the water. -/
theorem rate_balance {v : Env K} {dat : ℕ → EltData K} {m : Mesh K} (hb : OpenBasin v dat m) (hN : MassNumerics v.N) (wet : ℕ → Bool)
    (t ramp : K) (q junk : State K) : waterZe dat m.elts (solve v dat (localRhs v dat m wet t ramp q junk)) = inflow v dat m wet t ramp q := by
  rw [← rhs_balance hb hN wet t ramp q junk]
  unfold waterZe total
  congr 1
  apply List.map_congr_left
  intro e he
  have hj : |jdet (dat e).elt.tri| ≠ 0 := abs_ne_zero.mpr (hb.ccw e he).ne'
  simp only [solve, Elt.applyMinv, hN.minv0]
  field_simp

/-! ### The weights of the stages -/

/-- The Butcher form of the tables whose rows sum to one exactly, evaluated. -/
theorem butcher_table (ns o : ℕ) (tab : Tableau) (h : tableau ns o = some tab) (hx : (ns, o) ∈ [(1, 1), (2, 2), (3, 3), (4, 3), (6, 3), (7, 4), (8, 4)]) :
    (∀ k < ns, Stepper.Props.coef (Stepper.Props.butcherRows tab ns) 0 k = 0) ∧
    (∀ i < ns, ∀ k < ns, Stepper.Props.coef (Stepper.Props.butcherRows tab ns) (i + 1) k =
      ((List.range (i + 1)).map fun s => Stepper.Props.coef tab.ark i s * Stepper.Props.coef (Stepper.Props.butcherRows tab ns) s k).sum +
        if k ≤ i then Stepper.Props.coef tab.brk i k else 0) ∧
    (∀ i < ns, ((List.range (i + 1)).map fun s => Stepper.Props.coef tab.ark i s).sum = 1) ∧
    (∀ k < ns, 0 ≤ Stepper.Props.coef (Stepper.Props.butcherRows tab ns) ns k) ∧
    |((List.range ns).map fun k => Stepper.Props.coef (Stepper.Props.butcherRows tab ns) ns k).sum - 1| ≤ Stepper.Props.orderTol ns o := by
  revert hx
  refine Stepper.tableau_cases (P := fun ns o tab => (ns, o) ∈ [(1, 1), (2, 2), (3, 3), (4, 3), (6, 3), (7, 4), (8, 4)] →
    (∀ k < ns, Stepper.Props.coef (Stepper.Props.butcherRows tab ns) 0 k = 0) ∧
    (∀ i < ns, ∀ k < ns, Stepper.Props.coef (Stepper.Props.butcherRows tab ns) (i + 1) k =
      ((List.range (i + 1)).map fun s => Stepper.Props.coef tab.ark i s * Stepper.Props.coef (Stepper.Props.butcherRows tab ns) s k).sum +
        if k ≤ i then Stepper.Props.coef tab.brk i k else 0) ∧
    (∀ i < ns, ((List.range (i + 1)).map fun s => Stepper.Props.coef tab.ark i s).sum = 1) ∧
    (∀ k < ns, 0 ≤ Stepper.Props.coef (Stepper.Props.butcherRows tab ns) ns k) ∧
    |((List.range ns).map fun k => Stepper.Props.coef (Stepper.Props.butcherRows tab ns) ns k).sum - 1| ≤ Stepper.Props.orderTol ns o)
    h ?_ ?_ ?_ ?_ ?_ ?_ ?_ ?_ ?_ ?_ ?_ ?_ <;> decide +kernel

theorem butcher_exists {ns o : ℕ} {tab : Tableau} (h : tableau ns o = some tab) (hx : (ns, o) ∈ [(1, 1), (2, 2), (3, 3), (4, 3), (6, 3), (7, 4), (8, 4)]) :
    Stepper.Props.IsButcher (Stepper.Props.coef tab.ark) (Stepper.Props.coef tab.brk) ns (fun _ => 1) (Stepper.Props.coef (Stepper.Props.butcherRows tab ns)) := by
  obtain ⟨h0, h1, h2, _, _⟩ := butcher_table ns o tab h hx
  refine ⟨rfl, h0, fun i hi => ?_, fun i hi k hk => ?_⟩
  · rw [Stepper.Props.finset_sum_eq_list]
    simp only [mul_one]
    exact (h2 i hi).symm
  · rw [Stepper.Props.finset_sum_eq_list]
    exact h1 i hi k hk

/-! ### The run -/

/-- The state of the current stage. -/
def current (s : Run K) : State K := ((s.slots[s.stage]?).getD ⟨0, 0⟩).q

omit [IsStrictOrderedRing K] in
theorem slAll_emptied (v : Env K) (dat : ℕ → EltData K) (m : Mesh K) (p : Option (SlParams K)) (s : Flow K) : (slAll v dat m p s).emptied = s.emptied := by
  cases p <;> rfl

omit [IsStrictOrderedRing K] in
/-- What a stage does to the slots. -/
theorem stage_slots {v : Env K} {dat : ℕ → EltData K} {m : Mesh K} {tab : Tableau} {ns o : ℕ} {dt : K} {pp : PostParams K}
    {R : (ℕ → Bool) → State K → State K} (htab : tableau ns o = some tab) {s s' : Run K} (hst : s.stage < ns) (hlen : ns + 1 ≤ s.slots.length) (u x : ℕ → State K)
    (hu : ∃ y, s.slots[s.stage]? = some ⟨u s.stage, y⟩) (hx : ∀ i < s.stage, s.slots[i]? = some ⟨u i, x i⟩)
    (hX : x s.stage = solve v dat (R s.wet (u s.stage))) (h : stageWith v dat m tab ns dt pp R s = .ok s') :
    ∃ f, wdAll dat m pp.wd ⟨∑ i ∈ Finset.range (s.stage + 1), ((tabA tab s.stage i : K) • u i + (dt * (tabB tab s.stage i : K)) • x i), s.wet, s.emptied⟩ = .ok f ∧
      s'.emptied = f.emptied ∧ s'.stage = (s.stage + 1) % ns ∧ ns + 1 ≤ s'.slots.length ∧
      (∃ y, s'.slots[s'.stage]? = some ⟨(slAll v dat m pp.sl f).q, y⟩) ∧ (s.stage + 1 ≠ ns → ∀ i ≤ s.stage, s'.slots[i]? = some ⟨u i, x i⟩) := by
  obtain ⟨ha, hb⟩ := Stepper.Props.entries_ok htab
  obtain ⟨y0, hcur⟩ := hu
  set slots1 := s.slots.set s.stage ⟨u s.stage, x s.stage⟩ with hs1
  have hset : setSolution s.slots s.stage (x s.stage) = some slots1 := by simp [setSolution, hcur, hs1]
  have hl1 : slots1.length = s.slots.length := by simp [hs1]
  have hq : ∀ i, i ≤ s.stage → slots1[i]? = some ⟨u i, x i⟩ := by
    intro i hi
    rcases Nat.lt_or_eq_of_le hi with hlt | rfl
    · rw [hs1, List.getElem?_set_ne (by omega)]; exact hx i hlt
    · rw [hs1]; exact List.getElem?_set_self (by omega)
  obtain ⟨slots2, hupd, hl2, hlast, hmid⟩ := updateState_forward (dt := dt) ha hb (by omega) hst hq
  set w := ∑ i ∈ Finset.range (s.stage + 1), ((tabA tab s.stage i : K) • u i + (dt * (tabB tab s.stage i : K)) • x i) with hw
  have hnew : ∃ y, slots2[(s.stage + 1) % ns]? = some ⟨w, y⟩ := by
    by_cases h : s.stage + 1 = ns
    · rw [h, Nat.mod_self]; exact hlast h
    · rw [Nat.mod_eq_of_lt (by omega)]; exact (hmid h).2
  obtain ⟨y, hy⟩ := hnew
  unfold stageWith at h
  simp only [hcur, slotOr, okBind] at h
  rw [← hX, hset] at h
  simp only [okBind] at h
  rw [hupd] at h
  simp only [okBind, hy] at h
  obtain ⟨f, hf, h⟩ := bindOk h
  refine ⟨f, hf, ?_⟩
  simp only [okBind, setQ, hy, Option.bind_eq_bind, Option.bind_some] at h
  cases h
  have hlt : (s.stage + 1) % ns < slots2.length := by
    have := Nat.mod_lt (s.stage + 1) (show ns > 0 by omega)
    omega
  refine ⟨slAll_emptied v dat m pp.sl f, rfl, by simp only [List.length_set]; omega, ⟨y, List.getElem?_set_self hlt⟩, fun hne i hi => ?_⟩
  rw [List.getElem?_set_ne (by rw [Nat.mod_eq_of_lt (by omega)]; omega)]
  exact (hmid hne).1 i hi

/-- A sequence of stages, each the successor of the one before. -/
def Stages (v : Env K) (dat : ℕ → EltData K) (m : Mesh K) (tab : Tableau) (ns : ℕ) (dt : K) (pp : PostParams K) (junk : State K) (time ramp : ℕ → K) (S : ℕ → Run K) (n : ℕ) : Prop :=
  ∀ j < n, stageSerial v dat m tab ns dt pp junk (time j) (ramp j) (S j) = .ok (S (j + 1))

/-- One time step, beginning at stage number `B` of the run. -/
theorem step_balance {v : Env K} {dat : ℕ → EltData K} {m : Mesh K} (hb : OpenBasin v dat m) (hN : MassNumerics v.N) {tab : Tableau} {ns o : ℕ}
    (htab : tableau ns o = some tab) (hrow : (ns, o) ∈ [(1, 1), (2, 2), (3, 3), (4, 3), (6, 3), (7, 4), (8, 4)]) {dt : K} {pp : PostParams K}
    (hp : ∀ w, pp.wd = some w → 0 < w.thr ∧ w.thr ≤ w.ho) (hdeg : ∀ e, 1 ≤ (dat e).elt.p) {junk : State K} {time ramp : ℕ → K} {S : ℕ → Run K} {B : ℕ}
    (hS : Stages v dat m tab ns dt pp junk time ramp S (B + ns)) (hlen : ns + 1 ≤ (S B).slots.length) (hst : (S B).stage = 0) (hem : (S (B + ns)).emptied = false) :
    (S B).emptied = false ∧ ns + 1 ≤ (S (B + ns)).slots.length ∧ (S (B + ns)).stage = 0 ∧
    waterZe dat m.elts (current (S (B + ns))) = waterZe dat m.elts (current (S B)) + dt * ∑ k ∈ Finset.range ns,
      ((Stepper.Props.coef (Stepper.Props.butcherRows tab ns) ns k : ℚ) : K) * inflow v dat m (S (B + k)).wet (time (B + k)) (ramp (B + k)) (current (S (B + k))) := by
  have hns := (Stepper.shapeOK_of_tableau htab).2.1
  set u : ℕ → State K := fun i => current (S (B + i)) with hu
  set x : ℕ → State K := fun i => solve v dat (localRhs v dat m (S (B + i)).wet (time (B + i)) (ramp (B + i)) (u i) junk) with hx
  -- the contents of the slots
  have inv : ∀ j < ns, (S (B + j)).stage = j ∧ ns + 1 ≤ (S (B + j)).slots.length ∧ (∃ y, (S (B + j)).slots[j]? = some ⟨u j, y⟩) ∧
      ∀ i < j, (S (B + j)).slots[i]? = some ⟨u i, x i⟩ := by
    intro j
    induction j with
    | zero =>
      intro _
      refine ⟨hst, hlen, ?_, fun i hi => absurd hi (Nat.not_lt_zero _)⟩
      have hl : 0 < (S B).slots.length := by omega
      refine ⟨((S B).slots[0]).solution, ?_⟩
      simp only [hu, add_zero, current, hst, List.getElem?_eq_getElem hl, Option.getD_some]
    | succ j ih =>
      intro hj
      obtain ⟨i1, i2, i3, i4⟩ := ih (by omega)
      obtain ⟨f, _, _, f1, f2, f3, f4⟩ := stage_slots htab (by omega) i2 u x (by rw [i1]; exact i3) (by rw [i1]; exact i4) (by rw [i1]) (hS (B + j) (by omega))
      have hmod : (j + 1) % ns = j + 1 := Nat.mod_eq_of_lt hj
      rw [i1, hmod] at f1
      have hc : (S (B + j + 1)).stage = j + 1 := f1
      refine ⟨hc, f2, ?_, fun i hi => ?_⟩
      · obtain ⟨y, hy⟩ := f3
        rw [hc] at hy
        refine ⟨y, ?_⟩
        have : u (j + 1) = (slAll v dat m pp.sl f).q := by
          simp only [hu, current]
          rw [show B + (j + 1) = B + j + 1 from rfl, hc, hy]
          rfl
        rw [this]
        exact hy
      · exact f4 (by rw [i1]; omega) i (by rw [i1]; omega)
  -- emptied never goes back
  have hback : ∀ j ≤ ns, (S (B + j)).emptied = false := by
    intro j hj
    obtain ⟨d, rfl⟩ : ∃ d, j = ns - d := ⟨ns - j, by omega⟩
    clear hj
    induction d with
    | zero => exact hem
    | succ d ih =>
      by_cases hd : ns ≤ d
      · rw [show ns - (d + 1) = ns - d by omega]; exact ih
      · obtain ⟨i1, i2, i3, i4⟩ := inv (ns - (d + 1)) (by omega)
        obtain ⟨f, hf, f0, _⟩ := stage_slots htab (by omega) i2 u x (by rw [i1]; exact i3) (by rw [i1]; exact i4) (by rw [i1]) (hS (B + (ns - (d + 1))) (by omega))
        rw [show B + (ns - (d + 1)) + 1 = B + (ns - d) by omega, ih] at f0
        exact (wdAll_keeps hp (fun e _ => hdeg e) hf f0.symm).1
  -- the recurrence of the water
  have hrec : ∀ j < ns, waterZe dat m.elts (u (j + 1)) = ∑ s ∈ Finset.range (j + 1), ((tabA tab j s : K) • waterZe dat m.elts (u s) +
      (dt * (tabB tab j s : K)) • inflow v dat m (S (B + s)).wet (time (B + s)) (ramp (B + s)) (u s)) := by
    intro j hj
    obtain ⟨i1, i2, i3, i4⟩ := inv j hj
    obtain ⟨f, hf, f0, f1, f2, f3, f4⟩ := stage_slots htab (by omega) i2 u x (by rw [i1]; exact i3) (by rw [i1]; exact i4) (by rw [i1]) (hS (B + j) (by omega))
    obtain ⟨y, hy⟩ := f3
    have hc : u (j + 1) = (slAll v dat m pp.sl f).q := by
      simp only [hu, current]
      rw [show B + (j + 1) = B + j + 1 from rfl, hy]
      rfl
    have he : f.emptied = false := by rw [← f0]; exact hback (j + 1) (by omega)
    have hk := (wdAll_keeps hp (fun e _ => hdeg e) hf he).2
    rw [hc, waterZe_congr dat m.elts (q := (slAll v dat m pp.sl f).q) (fun e _ => (slAll_keeps v dat m pp.sl hdeg f e).trans (hk e)), i1, waterZe_sum]
    refine Finset.sum_congr rfl fun s _ => ?_
    rw [waterZe_add, waterZe_smul, waterZe_smul, hx]
    simp only [rate_balance hb hN, smul_eq_mul]
  have hso : Stepper.Props.ShuOsher (Stepper.Props.coef tab.ark) (Stepper.Props.coef tab.brk) ns dt
      (fun k _ => inflow v dat m (S (B + k)).wet (time (B + k)) (ramp (B + k)) (u k)) (fun _ q => q) (fun j => waterZe dat m.elts (u j)) := by
    intro i hi
    simp only [hrec i hi, Stepper.Props.coef_eq]
    rfl
  have hbut := Stepper.Props.butcher_form _ _ ns _ _ (butcher_exists htab hrow) dt _ _ hso ns le_rfl
  refine ⟨hback 0 (by omega), ?_, ?_, ?_⟩
  · obtain ⟨i1, i2, i3, i4⟩ := inv (ns - 1) (by omega)
    obtain ⟨f, _, _, f1, f2, _⟩ := stage_slots htab (by omega) i2 u x (by rw [i1]; exact i3) (by rw [i1]; exact i4) (by rw [i1]) (hS (B + (ns - 1)) (by omega))
    rw [show B + (ns - 1) + 1 = B + ns by omega] at f2
    exact f2
  · obtain ⟨i1, i2, i3, i4⟩ := inv (ns - 1) (by omega)
    obtain ⟨f, _, _, f1, f2, _⟩ := stage_slots htab (by omega) i2 u x (by rw [i1]; exact i3) (by rw [i1]; exact i4) (by rw [i1]) (hS (B + (ns - 1)) (by omega))
    rw [show B + (ns - 1) + 1 = B + ns by omega, i1, show ns - 1 + 1 = ns by omega, Nat.mod_self] at f1
    exact f1
  · simpa only [Rat.cast_one, one_smul, one_mul, smul_eq_mul, hu, add_zero] using hbut

/-- C115: the balance of any number of time steps, for the schemes whose rows sum to one exactly (as in C57). The weights depend on the scheme only. -/
theorem steps_balance {tab : Tableau} {ns o : ℕ} (htab : tableau ns o = some tab)
    (hrow : (ns, o) ∈ [(1, 1), (2, 2), (3, 3), (4, 3), (6, 3), (7, 4), (8, 4)]) :
    ∃ b : ℕ → ℚ, (∀ k < ns, 0 ≤ b k) ∧ |∑ k ∈ Finset.range ns, b k - 1| ≤ Stepper.Props.orderTol ns o ∧
    ∀ {v : Env K} {dat : ℕ → EltData K} {m : Mesh K}, OpenBasin v dat m → MassNumerics v.N → ∀ {dt : K} {pp : PostParams K},
    (∀ w, pp.wd = some w → 0 < w.thr ∧ w.thr ≤ w.ho) → (∀ e, 1 ≤ (dat e).elt.p) → ∀ {junk : State K} {time ramp : ℕ → K} {S : ℕ → Run K} {n : ℕ},
    Stages v dat m tab ns dt pp junk time ramp S (n * ns) → ns + 1 ≤ (S 0).slots.length → (S 0).stage = 0 → (S (n * ns)).emptied = false →
    water dat m.elts (current (S (n * ns))) = water dat m.elts (current (S 0)) + dt * ∑ j ∈ Finset.range n, ∑ k ∈ Finset.range ns,
      (b k : K) * inflow v dat m (S (j * ns + k)).wet (time (j * ns + k)) (ramp (j * ns + k)) (current (S (j * ns + k))) := by
  obtain ⟨_, _, _, h3, h4⟩ := butcher_table ns o tab htab hrow
  refine ⟨fun k => Stepper.Props.coef (Stepper.Props.butcherRows tab ns) ns k, h3, by rw [Stepper.Props.finset_sum_eq_list]; exact h4, ?_⟩
  intro v dat m hb hN dt pp hp hdeg junk time ramp S n hS hlen hst hem
  suffices h : ∀ n, Stages v dat m tab ns dt pp junk time ramp S (n * ns) → (S (n * ns)).emptied = false →
      ns + 1 ≤ (S (n * ns)).slots.length ∧ (S (n * ns)).stage = 0 ∧ waterZe dat m.elts (current (S (n * ns))) = waterZe dat m.elts (current (S 0)) +
        dt * ∑ j ∈ Finset.range n, ∑ k ∈ Finset.range ns, ((Stepper.Props.coef (Stepper.Props.butcherRows tab ns) ns k : ℚ) : K) *
          inflow v dat m (S (j * ns + k)).wet (time (j * ns + k)) (ramp (j * ns + k)) (current (S (j * ns + k))) by
    rw [water_split, water_split, (h n hS hem).2.2]
    ring
  clear hS hem n
  -- the number of slots and the stage at the beginning of each step need no knowledge of emptied elements
  have hforward : ∀ n, Stages v dat m tab ns dt pp junk time ramp S (n * ns) → ns + 1 ≤ (S (n * ns)).slots.length ∧ (S (n * ns)).stage = 0 := by
    have hone : ∀ j, ns + 1 ≤ (S j).slots.length → (S j).stage < ns → stageSerial v dat m tab ns dt pp junk (time j) (ramp j) (S j) = .ok (S (j + 1)) →
        ns + 1 ≤ (S (j + 1)).slots.length ∧ (S (j + 1)).stage = ((S j).stage + 1) % ns := by
      intro j h1 h2 h
      obtain ⟨slots', q, y, _, hl, hy, _, e⟩ := stage_forward (v := v) (dat := dat) (m := m) (dt := dt) (junk := junk) (t := time j) (ramp := ramp j)
        (A := fun _ => True) (S := fun _ => True) (G := fun _ => True) pp htab (fun _ _ _ _ _ => trivial) (fun _ _ _ _ => trivial)
        (s := S j) ⟨h2, h1, fun i hi => ⟨(S j).slots[i]'(by omega), List.getElem?_eq_getElem _, trivial⟩,
          fun i hi => ⟨(S j).slots[i]'(by omega), List.getElem?_eq_getElem _, trivial⟩, trivial⟩
      rw [e] at h
      obtain ⟨f, _, h⟩ := bindOk h
      have h' := Except.ok.inj h
      rw [← h']
      exact ⟨by simpa using hl, rfl⟩
    have hns := (Stepper.shapeOK_of_tableau htab).2.1
    intro n hS
    have : ∀ j ≤ n * ns, ns + 1 ≤ (S j).slots.length ∧ (S j).stage = j % ns := by
      intro j
      induction j with
      | zero => intro _; exact ⟨hlen, by rw [hst, Nat.zero_mod]⟩
      | succ j ih =>
        intro hj
        obtain ⟨h1, h2⟩ := ih (by omega)
        obtain ⟨h3, h4⟩ := hone j h1 (by rw [h2]; exact Nat.mod_lt _ hns) (hS j (by omega))
        exact ⟨h3, by rw [h4, h2, Nat.mod_add_mod]⟩
    obtain ⟨h1, h2⟩ := this (n * ns) le_rfl
    exact ⟨h1, by rw [h2, Nat.mul_mod_left]⟩
  intro n
  induction n with
  | zero => intro _ _; simp [hlen, hst]
  | succ n ih =>
    intro hS hem
    rw [Nat.succ_mul] at hS hem ⊢
    have hS' : Stages v dat m tab ns dt pp junk time ramp S (n * ns) := fun j hj => hS j (by omega)
    obtain ⟨g1, g2⟩ := hforward n hS'
    obtain ⟨k1, k2, k3, k4⟩ := step_balance hb hN htab hrow hp hdeg hS g1 g2 hem
    obtain ⟨_, _, i3⟩ := ih hS' k1
    refine ⟨k2, k3, ?_⟩
    rw [k4, i3, Finset.sum_range_succ, mul_add, add_assoc]

/-! ### Flow boundaries -/

omit [IsStrictOrderedRing K] in
/-- C116: mass flux at a Gauss point of a flow boundary: the mean of the prescribed discharge and that of the state. -/
theorem flow_rate [CharZero K] (v : Env K) (t ramp : K) (cs : ℕ → List (Constituent K)) (gp : ℕ) (q : Q K) (a : Aux K) (ha : a.sp = 1) {n : P2 K} (hn : n.x ^ 2 + n.y ^ 2 = 1) (g : P2 K) :
    (bndFlux v t ramp (.flow cs) gp q a n g).ze = (q.qx * n.x + q.qy * n.y + forcing v.cos v.pi ramp t (cs gp)) / 2 := by
  have h : forcing v.cos v.pi ramp t (cs gp) = forcing v.cos v.pi ramp t (cs gp) * (n.x ^ 2 + n.y ^ 2) := by rw [hn, mul_one]
  show (Q.smul (1 / 2) _).ze = _
  simp only [Q.smul, add_ze, sub_ze, fnIn, fnEx, flowEx, ha]
  conv_rhs => rw [h]
  ring

omit [IsStrictOrderedRing K] in
/-- C116: the prescribed discharge enters only if the state has it already. -/
theorem flow_rate_iff [CharZero K] (v : Env K) (t ramp : K) (cs : ℕ → List (Constituent K)) (gp : ℕ) (q : Q K) (a : Aux K) (ha : a.sp = 1) {n : P2 K} (hn : n.x ^ 2 + n.y ^ 2 = 1) (g : P2 K) :
    (bndFlux v t ramp (.flow cs) gp q a n g).ze = forcing v.cos v.pi ramp t (cs gp) ↔ q.qx * n.x + q.qy * n.y = forcing v.cos v.pi ramp t (cs gp) := by
  rw [flow_rate v t ramp cs gp q a ha hn g, div_eq_iff two_ne_zero]
  constructor
  · intro h; linear_combination h
  · intro h; linear_combination h

/-- C116: into or out of still water goes the half of the prescribed discharge. -/
theorem flow_half {v : Env K} {dat : ℕ → EltData K} {b : Bnd K} (hs : IsSqrt v.sq) (hsp : ∀ x, v.sp x = 1) (hj : 0 < jdet (dat b.e).elt.tri) (hf : b.f < 3)
    {cs : ℕ → List (Constituent K)} (hk : b.kind = .flow cs) (t ramp : K) {q : State K} (hq : ∀ d, q b.e 1 d = 0 ∧ q b.e 2 d = 0) :
    leaving v dat t ramp q b = 1 / 2 * (((List.range (v.N.line (2 * (dat b.e).elt.p + 1)).length).map fun gp =>
      forcing v.cos v.pi ramp t (cs gp) * weight (v.N.line (2 * (dat b.e).elt.p + 1)) gp).sum * surfaceJ v.sq (dat b.e).elt.tri b.f) := by
  have hn := (normal_spec hs (dat b.e).elt.tri hj b.f hf).1
  have h0 : ∀ z, (dat b.e).elt.value v.N (q b.e 1) z = 0 ∧ (dat b.e).elt.value v.N (q b.e 2) z = 0 := fun z => by
    simp [Elt.value, hq]
  unfold leaving
  simp only
  rw [← mul_assoc, ← List.sum_map_mul_left]
  congr 2
  refine List.map_congr_left fun gp _ => ?_
  simp only [hk]
  rw [flow_rate v t ramp cs gp _ _ (hsp _) hn]
  simp only [qAt, h0]
  ring

/-! ### Cases -/

/-- The two triangles with any boundary conditions. -/
def openMesh (k : ℕ → BndKind K) : Mesh K := ⟨[0, 1], [⟨0, 0, 1, 0, .internal⟩], [⟨0, 1, k 0⟩, ⟨0, 2, k 1⟩, ⟨1, 1, k 2⟩, ⟨1, 2, k 3⟩], []⟩

theorem two_open (rd : ℝ → ℝ) (p : ℕ) (b : ℕ → ℕ → ℝ) (k : ℕ → BndKind ℝ) : OpenBasin (plainEnv (codeNumerics rd) Real.sqrt) (twoTris p b) (openMesh k) := by
  refine ⟨real_isSqrt, fun _ => rfl, (by simp [openMesh]), ?_, ?_, ?_⟩
  · intro e he
    rcases (by simpa [openMesh] using he : e = 0 ∨ e = 1) with rfl | rfl <;> norm_num [twoTris, jdet, Geometry.det, jac]
  · intro i hi
    obtain rfl : i = _ := by simpa [openMesh] using hi
    simp [openMesh]
  · intro i hi
    rcases (by simpa [openMesh] using hi : i = _ ∨ i = _ ∨ i = _ ∨ i = _) with rfl | rfl | rfl | rfl <;> simp [openMesh]

/-- The hypotheses of `steps_balance` hold with the numerics of the program, any boundary conditions, any initial state: the run exists. -/
example {rd : ℝ → ℝ} (p : ℕ) (hp : 1 ≤ p) (b : ℕ → ℕ → ℝ) (k : ℕ → BndKind ℝ) (q : State ℝ) (dt : ℝ) (time ramp : ℕ → ℝ) (tab : Tableau) (ht : tableau 3 3 = some tab) :
    ∃ S : ℕ → Run ℝ, (∀ n, Stages (plainEnv (codeNumerics rd) Real.sqrt) (twoTris p b) (openMesh k) tab 3 dt ⟨none, none⟩ 0 time ramp S n) ∧ current (S 0) = q ∧
      4 ≤ (S 0).slots.length ∧ (S 0).stage = 0 ∧ ∀ n, (S n).emptied = false := by
  have h := fun n => run_succeeds (plainEnv (codeNumerics rd) Real.sqrt) (twoTris p b) (openMesh k) ht dt ⟨none, none⟩ (fun _ h => by cases h) (fun _ => hp)
    0 time ramp [⟨q, 0⟩, ⟨0, 0⟩, ⟨0, 0⟩, ⟨0, 0⟩] (by simp) (fun _ => true) n
  choose S hS _ using h
  have h0 : S 0 = ⟨[⟨q, 0⟩, ⟨0, 0⟩, ⟨0, 0⟩, ⟨0, 0⟩], 0, fun _ => true, false⟩ := (Except.ok.inj (hS 0)).symm
  refine ⟨S, fun n j _ => ?_, by rw [h0]; rfl, by rw [h0]; simp, by rw [h0], fun n => run_emptied_none (hS n)⟩
  have := hS (j + 1)
  rw [runSerial_succ, hS j] at this
  exact this

/-- A flow boundary with discharge 2 per unit of width along the side of length 4, still water of depth 1: per unit of time 4 leave, not 8. -/
example : leaving (plainEnv simpleN simpleSq) (twoTris 1 fun _ d => if d = 0 then 1 else 0) 0 1 (fun _ _ _ => 0)
    ⟨0, 2, .flow fun _ => [⟨0, 1, 0, 2, 0⟩]⟩ = 4 := by decide +kernel

/-- One step of that: the balance, and water has left. -/
example : ((do
      let s ← stageSerial (plainEnv simpleN simpleSq) (twoTris 1 fun _ d => if d = 0 then 1 else 0) (openMesh fun i => if i = 1 then .flow fun _ => [⟨0, 1, 0, 2, 0⟩] else .land)
        tab11 1 (1 / 100) ⟨none, none⟩ 0 0 1 ⟨[⟨0, 0⟩, ⟨0, 0⟩], 0, fun _ => true, false⟩
      return decide (water (twoTris 1 fun _ d => if d = 0 then 1 else 0) [0, 1] (current s) = 12 - 1 / 100 * 4)) : Res Bool) = .ok true := by decide +kernel

end Verif.Swe.Props
