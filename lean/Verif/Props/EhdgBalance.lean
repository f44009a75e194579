import Verif.Props.Balance
import Verif.Props.EhdgRun

/-!
# C122: the balance of water, hybridized discretizations

The change of the water over any number of time steps is the sum of what the boundaries and the sources bring in, weighted as the scheme weighs its
stages. Here for any right-hand side of which the rate of water is known, then for the explicit hybridized discretization with any boundary
conditions.
-/

namespace Verif.Swe.Props
open Verif.Geometry Verif.Geometry.Props Verif.Element Verif.Stepper

variable {K : Type} [Field K] [LinearOrder K] [IsStrictOrderedRing K]

/-- A sequence of stages with given right-hand sides, each the successor of the one before. -/
def StagesWith (v : Env K) (dat : ℕ → EltData K) (m : Mesh K) (tab : Tableau) (ns : ℕ) (dt : K) (pp : PostParams K) (R : ℕ → (ℕ → Bool) → State K → State K) (S : ℕ → Run K) (n : ℕ) : Prop :=
  ∀ j < n, stageWith v dat m tab ns dt pp (R j) (S j) = .ok (S (j + 1))

/-- One time step with given rates of water, beginning at stage number `B` of the run. -/
theorem step_with {v : Env K} {dat : ℕ → EltData K} {m : Mesh K} {R : ℕ → (ℕ → Bool) → State K → State K} {I : ℕ → (ℕ → Bool) → State K → K} (hI : ∀ k wet q, waterZe dat m.elts (solve v dat (R k wet q)) = I k wet q) {tab : Tableau} {ns o : ℕ}
    (htab : tableau ns o = some tab) (hrow : (ns, o) ∈ [(1, 1), (2, 2), (3, 3), (4, 3), (6, 3), (7, 4), (8, 4)]) {dt : K} {pp : PostParams K}
    (hp : ∀ w, pp.wd = some w → 0 < w.thr ∧ w.thr ≤ w.ho) (hdeg : ∀ e, 1 ≤ (dat e).elt.p) {S : ℕ → Run K} {B : ℕ}
    (hS : StagesWith v dat m tab ns dt pp R S (B + ns)) (hlen : ns + 1 ≤ (S B).slots.length) (hst : (S B).stage = 0) (hem : (S (B + ns)).emptied = false) :
    (S B).emptied = false ∧ ns + 1 ≤ (S (B + ns)).slots.length ∧ (S (B + ns)).stage = 0 ∧
    waterZe dat m.elts (current (S (B + ns))) = waterZe dat m.elts (current (S B)) + dt * ∑ k ∈ Finset.range ns,
      ((Stepper.Props.coef (Stepper.Props.butcherRows tab ns) ns k : ℚ) : K) * I (B + k) (S (B + k)).wet (current (S (B + k))) := by
  have hns := (Stepper.shapeOK_of_tableau htab).2.1
  set u : ℕ → State K := fun i => current (S (B + i)) with hu
  set x : ℕ → State K := fun i => solve v dat (R (B + i) (S (B + i)).wet (u i)) with hx
  -- the contents of the slots
  have inv : ∀ j < ns, (S (B + j)).stage = j ∧ ns + 1 ≤ (S (B + j)).slots.length ∧ (∃ y, (S (B + j)).slots[j]? = some ⟨u j, y⟩) ∧
      ∀ i < j, (S (B + j)).slots[i]? = some ⟨u i, x i⟩ := by
    intro j
    induction j with
    | zero =>
      intro _
      refine ⟨hst, hlen, ?_, fun i hi => absurd hi (Nat.not_lt_zero _)⟩
      have hl : 0 < (S B).slots.length := by omega
      refine ⟨((S B).slots[0]).solution, ?_⟩
      simp only [hu, add_zero, current, hst, List.getElem?_eq_getElem hl, Option.getD_some]
    | succ j ih =>
      intro hj
      obtain ⟨i1, i2, i3, i4⟩ := ih (by omega)
      obtain ⟨f, _, _, f1, f2, f3, f4⟩ := stage_slots htab (by omega) i2 u x (by rw [i1]; exact i3) (by rw [i1]; exact i4) (by rw [i1]) (hS (B + j) (by omega))
      have hmod : (j + 1) % ns = j + 1 := Nat.mod_eq_of_lt hj
      rw [i1, hmod] at f1
      have hc : (S (B + j + 1)).stage = j + 1 := f1
      refine ⟨hc, f2, ?_, fun i hi => ?_⟩
      · obtain ⟨y, hy⟩ := f3
        rw [hc] at hy
        refine ⟨y, ?_⟩
        have : u (j + 1) = (slAll v dat m pp.sl f).q := by
          simp only [hu, current]
          rw [show B + (j + 1) = B + j + 1 from rfl, hc, hy]
          rfl
        rw [this]
        exact hy
      · exact f4 (by rw [i1]; omega) i (by rw [i1]; omega)
  -- emptied never goes back
  have hback : ∀ j ≤ ns, (S (B + j)).emptied = false := by
    intro j hj
    obtain ⟨d, rfl⟩ : ∃ d, j = ns - d := ⟨ns - j, by omega⟩
    clear hj
    induction d with
    | zero => exact hem
    | succ d ih =>
      by_cases hd : ns ≤ d
      · rw [show ns - (d + 1) = ns - d by omega]; exact ih
      · obtain ⟨i1, i2, i3, i4⟩ := inv (ns - (d + 1)) (by omega)
        obtain ⟨f, hf, f0, _⟩ := stage_slots htab (by omega) i2 u x (by rw [i1]; exact i3) (by rw [i1]; exact i4) (by rw [i1]) (hS (B + (ns - (d + 1))) (by omega))
        rw [show B + (ns - (d + 1)) + 1 = B + (ns - d) by omega, ih] at f0
        exact (wdAll_keeps hp (fun e _ => hdeg e) hf f0.symm).1
  -- the recurrence of the water
  have hrec : ∀ j < ns, waterZe dat m.elts (u (j + 1)) = ∑ s ∈ Finset.range (j + 1), ((tabA tab j s : K) • waterZe dat m.elts (u s) +
      (dt * (tabB tab j s : K)) • I (B + s) (S (B + s)).wet (u s)) := by
    intro j hj
    obtain ⟨i1, i2, i3, i4⟩ := inv j hj
    obtain ⟨f, hf, f0, f1, f2, f3, f4⟩ := stage_slots htab (by omega) i2 u x (by rw [i1]; exact i3) (by rw [i1]; exact i4) (by rw [i1]) (hS (B + j) (by omega))
    obtain ⟨y, hy⟩ := f3
    have hc : u (j + 1) = (slAll v dat m pp.sl f).q := by
      simp only [hu, current]
      rw [show B + (j + 1) = B + j + 1 from rfl, hy]
      rfl
    have he : f.emptied = false := by rw [← f0]; exact hback (j + 1) (by omega)
    have hk := (wdAll_keeps hp (fun e _ => hdeg e) hf he).2
    rw [hc, waterZe_congr dat m.elts (q := (slAll v dat m pp.sl f).q) (fun e _ => (slAll_keeps v dat m pp.sl hdeg f e).trans (hk e)), i1, waterZe_sum]
    refine Finset.sum_congr rfl fun s _ => ?_
    rw [waterZe_add, waterZe_smul, waterZe_smul, hx]
    simp only [hI, smul_eq_mul]
  have hso : Stepper.Props.ShuOsher (Stepper.Props.coef tab.ark) (Stepper.Props.coef tab.brk) ns dt
      (fun k _ => I (B + k) (S (B + k)).wet (u k)) (fun _ q => q) (fun j => waterZe dat m.elts (u j)) := by
    intro i hi
    simp only [hrec i hi, Stepper.Props.coef_eq]
    rfl
  have hbut := Stepper.Props.butcher_form _ _ ns _ _ (butcher_exists htab hrow) dt _ _ hso ns le_rfl
  refine ⟨hback 0 (by omega), ?_, ?_, ?_⟩
  · obtain ⟨i1, i2, i3, i4⟩ := inv (ns - 1) (by omega)
    obtain ⟨f, _, _, f1, f2, _⟩ := stage_slots htab (by omega) i2 u x (by rw [i1]; exact i3) (by rw [i1]; exact i4) (by rw [i1]) (hS (B + (ns - 1)) (by omega))
    rw [show B + (ns - 1) + 1 = B + ns by omega] at f2
    exact f2
  · obtain ⟨i1, i2, i3, i4⟩ := inv (ns - 1) (by omega)
    obtain ⟨f, _, _, f1, f2, _⟩ := stage_slots htab (by omega) i2 u x (by rw [i1]; exact i3) (by rw [i1]; exact i4) (by rw [i1]) (hS (B + (ns - 1)) (by omega))
    rw [show B + (ns - 1) + 1 = B + ns by omega, i1, show ns - 1 + 1 = ns by omega, Nat.mod_self] at f1
    exact f1
  · simpa only [Rat.cast_one, one_smul, one_mul, smul_eq_mul, hu, add_zero] using hbut

/-- The balance of any number of time steps, for the schemes whose rows sum to one exactly (as in C57). The weights depend on the scheme only. -/
theorem steps_with {tab : Tableau} {ns o : ℕ} (htab : tableau ns o = some tab)
    (hrow : (ns, o) ∈ [(1, 1), (2, 2), (3, 3), (4, 3), (6, 3), (7, 4), (8, 4)]) :
    ∃ b : ℕ → ℚ, (∀ k < ns, 0 ≤ b k) ∧ |∑ k ∈ Finset.range ns, b k - 1| ≤ Stepper.Props.orderTol ns o ∧
    ∀ {v : Env K} {dat : ℕ → EltData K} {m : Mesh K}, ∀ {R : ℕ → (ℕ → Bool) → State K → State K} {I : ℕ → (ℕ → Bool) → State K → K}, (∀ k wet q, waterZe dat m.elts (solve v dat (R k wet q)) = I k wet q) → ∀ {dt : K} {pp : PostParams K},
    (∀ w, pp.wd = some w → 0 < w.thr ∧ w.thr ≤ w.ho) → (∀ e, 1 ≤ (dat e).elt.p) → ∀ {S : ℕ → Run K} {n : ℕ},
    StagesWith v dat m tab ns dt pp R S (n * ns) → ns + 1 ≤ (S 0).slots.length → (S 0).stage = 0 → (S (n * ns)).emptied = false →
    water dat m.elts (current (S (n * ns))) = water dat m.elts (current (S 0)) + dt * ∑ j ∈ Finset.range n, ∑ k ∈ Finset.range ns,
      (b k : K) * I (j * ns + k) (S (j * ns + k)).wet (current (S (j * ns + k))) := by
  obtain ⟨_, _, _, h3, h4⟩ := butcher_table ns o tab htab hrow
  refine ⟨fun k => Stepper.Props.coef (Stepper.Props.butcherRows tab ns) ns k, h3, by rw [Stepper.Props.finset_sum_eq_list]; exact h4, ?_⟩
  intro v dat m R I hI dt pp hp hdeg S n hS hlen hst hem
  suffices h : ∀ n, StagesWith v dat m tab ns dt pp R S (n * ns) → (S (n * ns)).emptied = false →
      ns + 1 ≤ (S (n * ns)).slots.length ∧ (S (n * ns)).stage = 0 ∧ waterZe dat m.elts (current (S (n * ns))) = waterZe dat m.elts (current (S 0)) +
        dt * ∑ j ∈ Finset.range n, ∑ k ∈ Finset.range ns, ((Stepper.Props.coef (Stepper.Props.butcherRows tab ns) ns k : ℚ) : K) *
          I (j * ns + k) (S (j * ns + k)).wet (current (S (j * ns + k))) by
    rw [water_split, water_split, (h n hS hem).2.2]
    ring
  clear hS hem n
  -- the number of slots and the stage at the beginning of each step need no knowledge of emptied elements
  have hforward : ∀ n, StagesWith v dat m tab ns dt pp R S (n * ns) → ns + 1 ≤ (S (n * ns)).slots.length ∧ (S (n * ns)).stage = 0 := by
    have hone : ∀ j, ns + 1 ≤ (S j).slots.length → (S j).stage < ns → stageWith v dat m tab ns dt pp (R j) (S j) = .ok (S (j + 1)) →
        ns + 1 ≤ (S (j + 1)).slots.length ∧ (S (j + 1)).stage = ((S j).stage + 1) % ns := by
      intro j h1 h2 h
      obtain ⟨slots', q, y, _, hl, hy, _, e⟩ := with_forward (v := v) (dat := dat) (m := m) (dt := dt) (R := R j)
        (A := fun _ => True) (S := fun _ => True) (G := fun _ => True) pp htab (fun _ _ _ _ _ => trivial) (fun _ _ _ _ => trivial)
        (s := S j) ⟨h2, h1, fun i hi => ⟨(S j).slots[i]'(by omega), List.getElem?_eq_getElem _, trivial⟩,
          fun i hi => ⟨(S j).slots[i]'(by omega), List.getElem?_eq_getElem _, trivial⟩, trivial⟩
      rw [e] at h
      obtain ⟨f, _, h⟩ := bindOk h
      have h' := Except.ok.inj h
      rw [← h']
      exact ⟨by simpa using hl, rfl⟩
    have hns := (Stepper.shapeOK_of_tableau htab).2.1
    intro n hS
    have : ∀ j ≤ n * ns, ns + 1 ≤ (S j).slots.length ∧ (S j).stage = j % ns := by
      intro j
      induction j with
      | zero => intro _; exact ⟨hlen, by rw [hst, Nat.zero_mod]⟩
      | succ j ih =>
        intro hj
        obtain ⟨h1, h2⟩ := ih (by omega)
        obtain ⟨h3, h4⟩ := hone j h1 (by rw [h2]; exact Nat.mod_lt _ hns) (hS j (by omega))
        exact ⟨h3, by rw [h4, h2, Nat.mod_add_mod]⟩
    obtain ⟨h1, h2⟩ := this (n * ns) le_rfl
    exact ⟨h1, by rw [h2, Nat.mul_mod_left]⟩
  intro n
  induction n with
  | zero => intro _ _; simp [hlen, hst]
  | succ n ih =>
    intro hS hem
    rw [Nat.succ_mul] at hS hem ⊢
    have hS' : StagesWith v dat m tab ns dt pp R S (n * ns) := fun j hj => hS j (by omega)
    obtain ⟨g1, g2⟩ := hforward n hS'
    obtain ⟨k1, k2, k3, k4⟩ := step_with hI htab hrow hp hdeg hS g1 g2 hem
    obtain ⟨_, _, i3⟩ := ih hS' k1
    refine ⟨k2, k3, ?_⟩
    rw [k4, i3, Finset.sum_range_succ, mul_add, add_assoc]

end Verif.Swe.Props

namespace Verif.Ehdg.Props
open Verif.Swe Verif.Swe.Props Verif.Geometry Verif.Geometry.Props Verif.Element Verif.Stepper

variable {K : Type} [Field K] [LinearOrder K] [IsStrictOrderedRing K] {v : Env K} {dat : ℕ → EltData K} {m : Mesh K}

/-- Water that leaves through an open boundary: the mass flux its condition stores, integrated along the face. Land lets nothing through. -/
def openLeaving (v : Env K) (dat : ℕ → EltData K) (x : Faces K) (b : Bnd K) : K :=
  match b.kind with
  | .land => 0
  | _ => ((List.range (v.N.line (2 * (dat b.e).elt.p + 1)).length).map fun gp => (x.openF b gp).ze * weight (v.N.line (2 * (dat b.e).elt.p + 1)) gp).sum *
      surfaceJ v.sq (dat b.e).elt.tri b.f

/-- The rate at which water comes in: dry elements take no part. -/
def ehdgInflow (v : Env K) (dat : ℕ → EltData K) (m : Mesh K) (wet : ℕ → Bool) (t : K) (x : Faces K) : K :=
  (m.elts.map fun e => if wet e then made v (dat e) t else 0).sum - (m.bnds.map fun b => if wet b.e then openLeaving v dat x b else 0).sum

theorem interface_none (hb : OpenBasin v dat m) (hN : MassNumerics v.N) {i : Iface K} (hi : i ∈ m.ints) {wet : ℕ → Bool}
    (hw : (wet i.ein || wet i.eex) = true) (q : State K) (x : Faces K) : inTerm v dat wet q x i 0 0 + exTerm v dat wet q x i 0 0 = 0 := by
  obtain ⟨h1, h2, h3, h4⟩ := hb.ints i hi
  have hu : Unit (normal v.sq (dat i.ein).elt.tri i.fin) := (normal_spec hb.sqrt (dat i.ein).elt.tri (hb.ccw _ h1) i.fin h3).1
  have hu' : Unit (opp (normal v.sq (dat i.ein).elt.tri i.fin)) := by
    simp only [Swe.Props.Unit, opp, neg_sq]; exact hu
  have hf : ∀ gp < (i.rule v dat).length, ((faceFlux v dat wet q x i).2 ((i.rule v dat).length - gp - 1)).ze = -((faceFlux v dat wet q x i).1 gp).ze := by
    intro gp hgp
    have hp := face_pair q x h4 hw hgp
    have hc := (interface_conservative v.sq v.src.g (bathHat (i.rule v dat).length (fun gp => (i.inside v dat wet q gp).aux.bath)
      (fun gp => (i.outside v dat wet q gp).aux.bath) gp) _ _ hu hu' (wet i.ein) (wet i.eex) (i.inside v dat wet q gp).q
        (i.outside v dat wet q ((i.rule v dat).length - gp - 1)).q).1
    rw [← hp] at hc
    exact hc
  simp only [inTerm, exTerm, Elt.intFace, sum_range_list, hN.phi0, one_mul, comp, Matrix.cons_val_zero]
  rw [← Finset.sum_range_reflect (fun gp => ((faceFlux v dat wet q x i).2 gp).ze * (weight (i.rule v dat) gp * i.J v dat)), ← Finset.sum_add_distrib]
  apply Finset.sum_eq_zero
  intro gp hgp
  have hlt : gp < (i.rule v dat).length := Finset.mem_range.mp hgp
  have hw := hN.sym (2 * max (dat i.ein).elt.p (dat i.eex).elt.p + 1) gp hlt
  change weight (i.rule v dat) ((i.rule v dat).length - gp - 1) = weight (i.rule v dat) gp at hw
  rw [show (i.rule v dat).length - 1 - gp = (i.rule v dat).length - gp - 1 by omega, hw, hf gp hlt]
  ring

theorem bnd_leaving (hb : OpenBasin v dat m) (hN : MassNumerics v.N) {b : Bnd K} (hbm : b ∈ m.bnds) (hf : b.f < 3) (q : State K) (x : Faces K) :
    bndTerm v dat q x b 0 0 = openLeaving v dat x b := by
  have hu := (normal_spec hb.sqrt (dat b.e).elt.tri (hb.ccw _ (hb.bnds b hbm)) b.f hf).1
  have hopen : (∀ gp, Ehdg.bndFlux v dat q x b gp = x.openF b gp) →
      bndTerm v dat q x b 0 0 = ((List.range (v.N.line (2 * (dat b.e).elt.p + 1)).length).map fun gp =>
        (x.openF b gp).ze * weight (v.N.line (2 * (dat b.e).elt.p + 1)) gp).sum * surfaceJ v.sq (dat b.e).elt.tri b.f := by
    intro h
    simp only [bndTerm, Elt.intFace, h, hN.phi0, one_mul, comp, Matrix.cons_val_zero, faceRule]
    rw [← List.sum_map_mul_right]
    congr 1
    exact List.map_congr_left fun gp _ => by ring
  cases hk : b.kind with
  | land =>
    simp only [bndTerm, Elt.intFace, Ehdg.bndFlux, openLeaving, hk, comp, Matrix.cons_val_zero, land_mass v.sq v.src.g _ _ hu, zero_mul, List.map_const',
      List.sum_replicate, smul_zero]
  | tide => simp only [openLeaving, hk]; exact hopen fun gp => by simp only [Ehdg.bndFlux, hk]
  | flow => simp only [openLeaving, hk]; exact hopen fun gp => by simp only [Ehdg.bndFlux, hk]
  | function => simp only [openLeaving, hk]; exact hopen fun gp => by simp only [Ehdg.bndFlux, hk]

/-- C122: the kernels make and lose no water but at open boundaries and by the function source. -/
theorem ehdg_balance (hb : OpenBasin v dat m) (hf : ∀ b ∈ m.bnds, b.f < 3) (hN : MassNumerics v.N) (wet : ℕ → Bool) (t : K) (x : Faces K)
    (q junk : State K) : total m.elts (Ehdg.localRhs v dat m wet t x q junk) = ehdgInflow v dat m wet t x := by
  unfold Ehdg.localRhs
  have h1 : ∀ e ∈ m.elts, (m.elts.foldl (Ehdg.volumeKernel v dat wet q) junk) e 0 0 = 0 := by
    intro e he
    have : Ehdg.volumeKernel v dat wet q = fun r e => Function.update r e (if wet e then Ehdg.volumeTerm v (dat e) (q e) else 0) := rfl
    rw [this, foldl_update, if_pos he]
    split
    · exact volume_zero hN _ _
    · rfl
  have h2 : ∀ (l : List ℕ), (∀ e ∈ l, e ∈ m.elts) → ∀ r : State K, total m.elts (l.foldl (sourceKernel v dat wet t q) r) =
      total m.elts r + (l.map fun e => if wet e then made v (dat e) t else 0).sum := by
    intro l
    induction l with
    | nil => intro _ r; simp
    | cons a l ih =>
      intro hl r
      rw [List.foldl_cons, ih (fun j hj => hl j (List.mem_cons_of_mem _ hj)), List.map_cons, List.sum_cons]
      unfold sourceKernel
      split
      · rw [total_update hb.nodup (hl a List.mem_cons_self), Pi.add_apply, Pi.add_apply, source_made hN]
        ring
      · ring
  have h3 : ∀ (l : List (Iface K)), (∀ i ∈ l, i ∈ m.ints) → ∀ r : State K, total m.elts (l.foldl (Ehdg.interfaceKernel v dat wet q x) r) = total m.elts r := by
    intro l
    induction l with
    | nil => intro _ r; rfl
    | cons i l ih =>
      intro hl r
      rw [List.foldl_cons, ih (fun j hj => hl j (List.mem_cons_of_mem _ hj))]
      have hi := hl i List.mem_cons_self
      obtain ⟨e1, e2, _⟩ := hb.ints i hi
      unfold Ehdg.interfaceKernel
      split
      · next hw =>
        rw [total_subAt hb.nodup e2, total_subAt hb.nodup e1]
        linear_combination -interface_none hb hN hi hw q x
      · rfl
  have h4 : ∀ (l : List (Bnd K)), (∀ b ∈ l, b ∈ m.bnds) → ∀ r : State K, total m.elts (l.foldl (Ehdg.boundaryKernel v dat wet q x) r) =
      total m.elts r - (l.map fun b => if wet b.e then openLeaving v dat x b else 0).sum := by
    intro l
    induction l with
    | nil => intro _ r; simp
    | cons b l ih =>
      intro hl r
      rw [List.foldl_cons, ih (fun j hj => hl j (List.mem_cons_of_mem _ hj)), List.map_cons, List.sum_cons]
      unfold Ehdg.boundaryKernel
      split
      · rw [total_subAt hb.nodup (hb.bnds b (hl b List.mem_cons_self)), bnd_leaving hb hN (hl b List.mem_cons_self) (hf b (hl b List.mem_cons_self))]
        ring
      · ring
  simp only
  rw [h4 _ (fun _ h => h), h3 _ (fun _ h => h), h2 _ (fun _ h => h)]
  have h0 : total m.elts (m.elts.foldl (Ehdg.volumeKernel v dat wet q) junk) = 0 := by
    unfold total
    rw [List.map_congr_left h1]
    simp
  rw [h0, zero_add]
  rfl

/-- Weighted with the Jacobians: the rate of the water. -/
theorem ehdg_rate_balance (hb : OpenBasin v dat m) (hf : ∀ b ∈ m.bnds, b.f < 3) (hN : MassNumerics v.N) (wet : ℕ → Bool) (t : K) (x : Faces K)
    (q junk : State K) : waterZe dat m.elts (solve v dat (Ehdg.localRhs v dat m wet t x q junk)) = ehdgInflow v dat m wet t x := by
  rw [← ehdg_balance hb hf hN wet t x q junk]
  unfold waterZe total
  congr 1
  apply List.map_congr_left
  intro e he
  have hj : |jdet (dat e).elt.tri| ≠ 0 := abs_ne_zero.mpr (hb.ccw e he).ne'
  simp only [solve, Elt.applyMinv, hN.minv0]
  field_simp

/-- C122: the balance of any number of time steps of the explicit hybridized discretization. The weights depend on the scheme only and are those of
the RKDG discretization. -/
theorem ehdg_steps_balance {tab : Tableau} {ns o : ℕ} (htab : tableau ns o = some tab)
    (hrow : (ns, o) ∈ [(1, 1), (2, 2), (3, 3), (4, 3), (6, 3), (7, 4), (8, 4)]) :
    ∃ b : ℕ → ℚ, (∀ k < ns, 0 ≤ b k) ∧ |∑ k ∈ Finset.range ns, b k - 1| ≤ Stepper.Props.orderTol ns o ∧
    ∀ {v : Env K} {dat : ℕ → EltData K} {m : Mesh K}, OpenBasin v dat m → (∀ b ∈ m.bnds, b.f < 3) → MassNumerics v.N → ∀ {dt : K} {pp : PostParams K},
    (∀ w, pp.wd = some w → 0 < w.thr ∧ w.thr ≤ w.ho) → (∀ e, 1 ≤ (dat e).elt.p) → ∀ {junk : State K} {time : ℕ → K} {x : ℕ → Faces K} {s₀ : Run K} {S : ℕ → Run K} {n : ℕ},
    (∀ j ≤ n * ns, Ehdg.run v dat m tab ns dt pp junk time x j s₀ = .ok (S j)) → ns + 1 ≤ s₀.slots.length → s₀.stage = 0 → (S (n * ns)).emptied = false →
    water dat m.elts (current (S (n * ns))) = water dat m.elts (current s₀) + dt * ∑ j ∈ Finset.range n, ∑ k ∈ Finset.range ns,
      (b k : K) * ehdgInflow v dat m (S (j * ns + k)).wet (time (j * ns + k)) (x (j * ns + k)) := by
  obtain ⟨b, h1, h2, h⟩ := steps_with (K := K) htab hrow
  refine ⟨b, h1, h2, ?_⟩
  intro v dat m hb hf hN dt pp hp hdeg junk time x s₀ S n hS hlen hst hem
  have h0 : S 0 = s₀ := (Except.ok.inj (hS 0 (Nat.zero_le _))).symm
  have := h (dt := dt) (R := fun k wet q => Ehdg.localRhs v dat m wet (time k) (x k) q junk) (I := fun k wet _ => ehdgInflow v dat m wet (time k) (x k))
    (fun k wet q => ehdg_rate_balance hb hf hN wet (time k) (x k) q junk) hp hdeg (S := S) (n := n) (fun j hj => ?_) (by rw [h0]; exact hlen) (by rw [h0]; exact hst) hem
  · rw [h0] at this
    exact this
  · have h3 := hS (j + 1) hj
    unfold Ehdg.run at h3
    rw [runWith] at h3
    have h4 := hS j (by omega)
    unfold Ehdg.run at h4
    rw [h4] at h3
    exact h3

/-! ### Cases -/

/-- The hypotheses of `ehdg_steps_balance` hold with the numerics of the program, any boundary conditions, any initial state and fluxes: the run
exists. -/
example {rd : ℝ → ℝ} (hr : Basis.Props.Rounding rd) (p : ℕ) (b : ℕ → ℕ → ℝ) (k : ℕ → BndKind ℝ) (q : State ℝ) (dt : ℝ) (time : ℕ → ℝ) (x : ℕ → Faces ℝ)
    (tab : Tableau) (ht : tableau 3 3 = some tab) :
    OpenBasin (plainEnv (codeNumerics rd) Real.sqrt) (twoTris p b) (openMesh k) ∧ (∀ b ∈ (openMesh k).bnds, b.f < 3) ∧ MassNumerics (codeNumerics rd) ∧
    ∃ S : ℕ → Run ℝ, (∀ n, Ehdg.run (plainEnv (codeNumerics rd) Real.sqrt) (twoTris p b) (openMesh k) tab 3 dt ⟨none, none⟩ 0 time x n
      ⟨[⟨q, 0⟩, ⟨0, 0⟩, ⟨0, 0⟩, ⟨0, 0⟩], 0, fun _ => true, false⟩ = .ok (S n)) ∧ ∀ n, (S n).emptied = false := by
  refine ⟨two_open rd p b k, fun b hb => ?_, code_mass hr, ?_⟩
  · rcases (by simpa [openMesh] using hb : b = _ ∨ b = _ ∨ b = _ ∨ b = _) with rfl | rfl | rfl | rfl <;> simp
  · have h := fun n => withRun_keeps (v := plainEnv (codeNumerics rd) Real.sqrt) (dat := twoTris p b) (m := openMesh k) (dt := dt) (pp := ⟨none, none⟩)
      (R := fun k' wet q => Ehdg.localRhs (plainEnv (codeNumerics rd) Real.sqrt) (twoTris p b) (openMesh k) wet (time k') (x k') q 0)
      (A := fun _ => True) (S := fun _ => True) (G := fun _ => True) ht (fun _ _ _ _ _ => trivial) (fun _ _ _ _ _ => trivial)
      (fun q wet em _ _ => ⟨⟨q, wet, em⟩, rfl, rfl, trivial, trivial⟩)
      (s := ⟨[⟨q, 0⟩, ⟨0, 0⟩, ⟨0, 0⟩, ⟨0, 0⟩], 0, fun _ => true, false⟩)
      ⟨show 0 < 3 by decide, by simp, fun i hi => (by obtain rfl : i = 0 := by simpa using hi
                                                      exact ⟨⟨q, 0⟩, rfl, trivial⟩), fun i hi => by simp at hi, trivial⟩ n
    choose S h1 h2 h3 using h
    exact ⟨S, h1, h3⟩

/-- One step with an open boundary through which, along a side of length 4, 3 per unit of width leave. -/
example : ((do
      let s ← Ehdg.run (plainEnv simpleN simpleSq) (twoTris 1 fun _ d => if d = 0 then 1 else 0) (openMesh fun i => if i = 1 then .flow fun _ => [] else .land)
        tab11 1 (1 / 100) ⟨none, none⟩ 0 (fun _ => 0) (fun _ => ⟨fun _ _ => 0, fun _ _ => 0, fun _ _ => ⟨3, 0, 0⟩⟩) 1 ⟨[⟨0, 0⟩, ⟨0, 0⟩], 0, fun _ => true, false⟩
      return decide (water (twoTris 1 fun _ d => if d = 0 then 1 else 0) [0, 1] (current s) = 12 - 1 / 100 * 12)) : Res Bool) = .ok true := by decide +kernel

end Verif.Ehdg.Props
