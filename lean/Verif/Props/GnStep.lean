import Verif.Props.GnWeak
import Verif.Props.IhdgSteady
import Verif.Props.EhdgRun

/-!
# C93: what the dispersive correction leaves alone

The correction changes discharges only: levels of all elements stay the same, and so does the water of a closed basin through a step of the program
(`correction_levels`, `strang_water`). A lake at rest stays at rest and a uniform stream over a flat bed stays uniform (`correction_rest`,
`correction_stream`, `strang_rest`, `strang_stream`).
-/

namespace Verif.Gn.Props
open Verif.Swe Verif.Swe.Props Verif.Geometry Verif.Geometry.Props Verif.Element Verif.Edge Verif.Edge.Props Verif.Ehdg Verif.Ihdg Verif.Ihdg.Props Verif.Stepper MvPolynomial

/-! ### A stage of the correction is a stage of the stepper without post-processing -/

section
variable {K : Type} [Field K] [LinearOrder K]

theorem set_same {α : Type} {l : List α} {i : ℕ} {x : α} (h : l[i]? = some x) : l.set i x = l := by
  refine List.ext_getElem? fun j => ?_
  by_cases hj : i = j
  · subst hj; rw [List.getElem?_set_self', h]; rfl
  · rw [List.getElem?_set_ne hj]

theorem dcStage_with {D : Dc K} {tab : Tableau} {ns : ℕ} {dt : K} {corr troubled : ℕ → Bool} {s s' : GnRun K} (h : dcStage D tab ns dt corr troubled s = .ok s') :
    ∃ cur x w1, s.run.slots[s.run.stage]? = some cur ∧
      solveDc D.I D.slv (dcSkel D) D.wd s.run.wet s.idx (dcBlocks D s.run.wet cur.q) = some (s'.idx, x, w1) ∧
      ∃ slots', Stepper.setSolution s.run.slots s.run.stage (solve D.v D.dat (dcRhs D corr troubled s.run.wet cur.q w1)) = some slots' ∧
      ∃ slots'', Stepper.updateState tab ns dt s.run.stage slots' = some slots'' ∧ s'.run = { s.run with slots := slots'', stage := (s.run.stage + 1) % ns } := by
  unfold dcStage at h
  obtain ⟨cur, h1, h⟩ := bindOk h
  obtain ⟨⟨t, x, w1⟩, h2, h⟩ := bindOk h
  obtain ⟨slots', h3, h⟩ := bindOk h
  obtain ⟨slots'', h4, h⟩ := bindOk h
  cases h
  refine ⟨cur, x, w1, ?_, ?_, slots', ?_, slots'', ?_, rfl⟩
  · cases hh : s.run.slots[s.run.stage]? with
    | none => rw [hh] at h1; cases h1
    | some y => rw [hh] at h1; cases h1; rfl
  · revert h2
    cases hh : solveDc D.I D.slv (dcSkel D) D.wd s.run.wet s.idx (dcBlocks D s.run.wet cur.q) with
    | none => intro h2; cases h2
    | some y => intro h2; cases h2; rfl
  · revert h3
    cases hh : Stepper.setSolution s.run.slots s.run.stage (solve D.v D.dat (dcRhs D corr troubled s.run.wet cur.q w1)) with
    | none => intro h3; cases h3
    | some y => intro h3; cases h3; rfl
  · revert h4
    cases hh : Stepper.updateState tab ns dt s.run.stage slots' with
    | none => intro h4; cases h4
    | some y => intro h4; cases h4; rfl

/-- The invariant of a run is kept by a stage of the correction. -/
theorem dc_invariant {D : Dc K} [IsStrictOrderedRing K] {tab : Tableau} {ns o : ℕ} {dt : K} {corr troubled : ℕ → Bool} {A S : State K → Prop} {G : (ℕ → Bool) → Prop}
    (htab : tableau ns o = some tab)
    (hcomb : ∀ k, k < ns → ∀ u x : ℕ → State K, (∀ s, s ≤ k → A (u s) ∧ S (x s)) →
      A (∑ s ∈ Finset.range (k + 1), ((tabA tab k s : K) • u s + (dt * (tabB tab k s : K)) • x s)))
    (hrhs : ∀ q wet t0 t x w1, A q → G wet → solveDc D.I D.slv (dcSkel D) D.wd wet t0 (dcBlocks D wet q) = some (t, x, w1) →
      S (solve D.v D.dat (dcRhs D corr troubled wet q w1)))
    {s s' : GnRun K} (hs : RunInv A S G ns s.run) (h : dcStage D tab ns dt corr troubled s = .ok s') :
    RunInv A S G ns s'.run ∧ s'.run.wet = s.run.wet ∧ s'.run.emptied = s.run.emptied ∧ s'.run.stage = (s.run.stage + 1) % ns := by
  obtain ⟨cur, x, w1, hcur, hsol, sl1, h1, sl2, h2, h3⟩ := dcStage_with h
  obtain ⟨c', hc', hA⟩ := hs.good s.run.stage le_rfl
  rw [hcur] at hc'; cases hc'
  have hS := hrhs _ _ _ _ _ _ hA hs.wet hsol
  obtain ⟨slots, q, y, hAq, hl, hy, hold, e⟩ := with_forward (v := D.v) (dat := D.dat) (m := D.m) (dt := dt) ⟨none, none⟩
    (R := fun _ _ => dcRhs D corr troubled s.run.wet cur.q w1) htab hcomb (fun _ _ _ _ => hS) hs
  have e' : stageWith D.v D.dat D.m tab ns dt ⟨none, none⟩ (fun _ _ => dcRhs D corr troubled s.run.wet cur.q w1) s.run = .ok s'.run := by
    have hw : ∀ z : Flow K, wdAll D.dat D.m none z = .ok z := fun z => rfl
    have hl' : ∀ z : Flow K, slAll D.v D.dat D.m none z = z := fun z => rfl
    revert e
    unfold stageWith
    simp only [hcur, slotOr, okBind, h1, h2, hw, hl']
    cases hn : sl2[(s.run.stage + 1) % ns]? with
    | none => intro e; cases e
    | some new =>
      intro e
      have : Stepper.setQ sl2 ((s.run.stage + 1) % ns) new.q = some sl2 := by
        simp only [Stepper.setQ, hn, Option.bind_eq_bind, Option.bind_some]
        exact congrArg some (set_same hn)
      simp only [okBind, this, h3]
      rfl
  have key := with_invariant (pp := ⟨none, none⟩) (s' := { s'.run with emptied := false }) htab hcomb (fun _ _ _ _ => hS)
    (fun q wet em f hf hfe => by cases hf; exact ⟨hfe, fun h1 h2 => ⟨h1, h2⟩⟩) (s := { s.run with emptied := false }) ⟨hs.stage, hs.len, hs.good, hs.incr, hs.wet⟩ (dt := dt)
    (v := D.v) (dat := D.dat) (m := D.m) (R := fun _ _ => dcRhs D corr troubled s.run.wet cur.q w1) ?_ rfl
  · refine ⟨⟨key.stage, key.len, key.good, key.incr, key.wet⟩, ?_, ?_, ?_⟩ <;> rw [h3]
  · rw [h3] at e' ⊢
    revert e'
    unfold stageWith
    simp only [hcur, slotOr, okBind, h1, h2]
    cases hn : sl2[(s.run.stage + 1) % ns]? with
    | none => intro e; cases e
    | some new =>
      intro e
      have : Stepper.setQ sl2 ((s.run.stage + 1) % ns) new.q = some sl2 := by
        simp only [Stepper.setQ, hn, Option.bind_eq_bind, Option.bind_some]
        exact congrArg some (set_same hn)
      have hw : ∀ z : Flow K, wdAll D.dat D.m none z = .ok z := fun z => rfl
      have hl' : ∀ z : Flow K, slAll D.v D.dat D.m none z = z := fun z => rfl
      simp only [hw, hl', okBind, this]
      rfl

/-! ### Lengths -/

theorem setQ_length {E : Type} {slots slots' : List (Slot E)} {i : ℕ} {q : E} (h : Stepper.setQ slots i q = some slots') : slots'.length = slots.length := by
  simp only [Stepper.setQ, Option.bind_eq_bind, Option.bind_eq_some_iff] at h
  obtain ⟨_, _, h⟩ := h
  cases h; simp

theorem setSolution_length {E : Type} {slots slots' : List (Slot E)} {i : ℕ} {q : E} (h : Stepper.setSolution slots i q = some slots') :
    slots'.length = slots.length := by
  simp only [Stepper.setSolution, Option.bind_eq_bind, Option.bind_eq_some_iff] at h
  obtain ⟨_, _, h⟩ := h
  cases h; simp

omit [LinearOrder K] in
theorem update_length {E : Type} [AddCommGroup E] [Module K E] {tab : Tableau} {n k : ℕ} {dt : K} {slots slots' : List (Slot E)}
    (h : updateState tab n dt k slots = some slots') : slots'.length = slots.length := by
  delta updateState at h
  simp only [Option.bind_eq_bind, Option.bind_eq_some_iff] at h
  obtain ⟨_, _, _, h1, h⟩ := h
  have l1 := setQ_length h1
  by_cases hk : k + 1 = n
  · rw [if_pos hk] at h
    simp only [Option.bind_eq_some_iff] at h
    obtain ⟨_, _, _, _, _, h2, h3⟩ := h
    rw [setQ_length h3, setQ_length h2, l1]
  · rw [if_neg hk] at h
    cases h; exact l1

theorem slotOr_some {α : Type} {x : Option α} {y : α} (h : slotOr x = .ok y) : x = some y := by
  cases x with
  | none => cases h
  | some z => cases h; rfl

theorem stageWith_shape {v : Env K} {dat : ℕ → EltData K} {m : Mesh K} {tab : Tableau} {ns : ℕ} {dt : K} {pp : PostParams K}
    {R : (ℕ → Bool) → State K → State K} {s s' : Run K} (h : stageWith v dat m tab ns dt pp R s = .ok s') :
    s'.slots.length = s.slots.length ∧ s'.stage = (s.stage + 1) % ns := by
  unfold stageWith at h
  obtain ⟨_, _, h⟩ := bindOk h
  obtain ⟨_, h1, h⟩ := bindOk h
  obtain ⟨_, h2, h⟩ := bindOk h
  obtain ⟨_, _, h⟩ := bindOk h
  obtain ⟨_, _, h⟩ := bindOk h
  obtain ⟨_, h3, h⟩ := bindOk h
  cases h
  exact ⟨by rw [setQ_length (slotOr_some h3), update_length (slotOr_some h2), setSolution_length (slotOr_some h1)], rfl⟩

theorem runWith_shape {v : Env K} {dat : ℕ → EltData K} {m : Mesh K} {tab : Tableau} {ns : ℕ} {dt : K} {pp : PostParams K}
    {R : ℕ → (ℕ → Bool) → State K → State K} {s s' : Run K} (hs : s.stage < ns) (n : ℕ) (h : runWith v dat m tab ns dt pp R n s = .ok s') :
    s'.slots.length = s.slots.length ∧ s'.stage = (s.stage + n) % ns := by
  induction n generalizing s' with
  | zero => cases h; exact ⟨rfl, (Nat.mod_eq_of_lt hs).symm⟩
  | succ n ih =>
    rw [runWith] at h
    obtain ⟨s1, h1, h2⟩ := bindOk h
    obtain ⟨l1, k1⟩ := ih h1
    obtain ⟨l2, k2⟩ := stageWith_shape h2
    exact ⟨l2.trans l1, by rw [k2, k1, Nat.mod_add_mod, add_assoc]⟩

theorem dcStage_length {D : Dc K} {tab : Tableau} {ns : ℕ} {dt : K} {corr troubled : ℕ → Bool} {s s' : GnRun K} (h : dcStage D tab ns dt corr troubled s = .ok s') :
    s'.run.slots.length = s.run.slots.length := by
  obtain ⟨_, _, _, _, _, _, h1, _, h2, h3⟩ := dcStage_with h
  rw [h3, update_length h2, setSolution_length h1]

/-! ### Invariants of the correction and of a step -/

section
variable [IsStrictOrderedRing K] {D : Dc K} {corr troubled : ℕ → Bool} {A S T : State K → Prop} {G : (ℕ → Bool) → Prop}

/-- The combinations of the stages keep `A`. -/
def Combines (M : Method K) (A S : State K → Prop) : Prop := ∀ k, k < M.ns → ∀ u x : ℕ → State K, (∀ s, s ≤ k → A (u s) ∧ S (x s)) →
  A (∑ s ∈ Finset.range (k + 1), ((tabA M.tab k s : K) • u s + (M.dt * (tabB M.tab k s : K)) • x s))

/-- The correction of a state of kind `A` is of kind `S`. -/
def Corrects (D : Dc K) (corr troubled : ℕ → Bool) (A S : State K → Prop) (G : (ℕ → Bool) → Prop) : Prop :=
  ∀ q wet t0 t x w1, A q → G wet → solveDc D.I D.slv (dcSkel D) D.wd wet t0 (dcBlocks D wet q) = some (t, x, w1) →
    S (solve D.v D.dat (dcRhs D corr troubled wet q w1))

theorem dcStages_invariant {M : Method K} {o : ℕ} (htab : tableau M.ns o = some M.tab) (hcomb : Combines M A S) (hrhs : Corrects D corr troubled A S G)
    {s s' : GnRun K} (hs : RunInv A S G M.ns s.run) (n : ℕ) (h : dcStages D M.tab M.ns M.dt corr troubled n s = .ok s') :
    RunInv A S G M.ns s'.run ∧ s'.run.wet = s.run.wet ∧ s'.run.emptied = s.run.emptied ∧ s'.run.stage = (s.run.stage + n) % M.ns ∧
      s'.run.slots.length = s.run.slots.length := by
  induction n generalizing s' with
  | zero => cases h; exact ⟨hs, rfl, rfl, (Nat.mod_eq_of_lt hs.stage).symm, rfl⟩
  | succ n ih =>
    rw [dcStages] at h
    obtain ⟨s1, h1, h2⟩ := bindOk h
    obtain ⟨i1, w1, e1, k1, l1⟩ := ih h1
    obtain ⟨i2, w2, e2, k2⟩ := dc_invariant htab hcomb hrhs i1 h2
    exact ⟨i2, w2.trans w1, e2.trans e1, by rw [k2, k1, Nat.mod_add_mod, add_assoc], (dcStage_length h2).trans l1⟩

/-- Between steps: the stage counters are at zero, the current state is good. -/
structure Ready (A : State K → Prop) (G : (ℕ → Bool) → Prop) (n : ℕ) (s : Run K) : Prop where
  stage : s.stage = 0
  len : n + 1 ≤ s.slots.length
  good : ∃ sl, s.slots[0]? = some sl ∧ A sl.q
  wet : G s.wet

omit [Field K] [LinearOrder K] [IsStrictOrderedRing K] in
theorem ready_inv {s : Run K} {n k : ℕ} (h : Ready A G n s) (hk : 0 < k) (hkn : k ≤ n) : RunInv A S G k s := by
  obtain ⟨sl, h1, h2⟩ := h.good
  refine ⟨by rw [h.stage]; exact hk, by have := h.len; omega, fun i hi => ?_, fun i hi => ?_, h.wet⟩
  · rw [h.stage] at hi
    obtain rfl : i = 0 := by omega
    exact ⟨sl, h1, h2⟩
  · rw [h.stage] at hi; omega

omit [Field K] [LinearOrder K] [IsStrictOrderedRing K] in
theorem inv_ready {s : Run K} {n k : ℕ} (h : RunInv A S G k s) (h0 : s.stage = 0) (hl : n + 1 ≤ s.slots.length) : Ready A G n s :=
  ⟨h0, hl, h.good 0 (Nat.zero_le _), h.wet⟩

/-- A step of the program keeps what its three parts keep. -/
theorem strang_invariant {M N : Method K} {o o' : ℕ} (hM : tableau M.ns o = some M.tab) (hN : tableau N.ns o' = some N.tab)
    (cM : Combines M A S) (cN : Combines N A T) {pp : PostParams K} {R1 R2 : ℕ → (ℕ → Bool) → State K → State K}
    (h1 : ∀ k q wet, A q → G wet → S (solve D.v D.dat (R1 k wet q))) (h2 : ∀ k q wet, A q → G wet → S (solve D.v D.dat (R2 k wet q)))
    (hpost : ∀ q wet em f, wdAll D.dat D.m pp.wd ⟨q, wet, em⟩ = .ok f → f.emptied = false → em = false ∧
      (A q → G wet → A (slAll D.v D.dat D.m pp.sl f).q ∧ G (slAll D.v D.dat D.m pp.sl f).wet))
    (hrhs : Corrects D corr troubled A T G) {n : ℕ} (hn : M.ns ≤ n) (hn' : N.ns ≤ n) {s s' : GnRun K} (hs : Ready A G n s.run)
    (h : strangStep D M N pp R1 R2 corr troubled s = .ok s') (hem : s'.run.emptied = false) : Ready A G n s'.run := by
  have p1 := (Stepper.shapeOK_of_tableau hM).2.1
  have p2 := (Stepper.shapeOK_of_tableau hN).2.1
  unfold strangStep at h
  obtain ⟨r1, a1, h⟩ := bindOk h
  obtain ⟨s2, a2, h⟩ := bindOk h
  obtain ⟨r3, a3, h⟩ := bindOk h
  cases h
  have he2 : s2.run.emptied = false := by
    have aux : ∀ n r, runWith D.v D.dat D.m M.tab M.ns M.dt pp R2 n s2.run = .ok r → r.emptied = false → s2.run.emptied = false := by
      intro n
      induction n with
      | zero => intro r hr he; cases hr; exact he
      | succ n ih =>
        intro r hr he
        rw [runWith] at hr
        obtain ⟨s1, b1, b2⟩ := bindOk hr
        exact ih _ b1 (with_emptied (fun q wet em f hf hfe => (hpost q wet em f hf hfe).1) b2 he)
    exact aux _ _ a3 hem
  have st1 := runWith_shape (by rw [hs.stage]; exact p1) _ a1
  have k1 : r1.stage = 0 := by rw [st1.2, hs.stage, zero_add, Nat.mod_self]
  have l1 : n + 1 ≤ r1.slots.length := by rw [st1.1]; exact hs.len
  -- the invariant of the correction needs the state after the first part, whatever the emptied flag
  have hde : s2.run.emptied = r1.emptied := by
    have aux : ∀ n r, dcStages D N.tab N.ns N.dt corr troubled n { s with run := r1 } = .ok r → r.run.emptied = r1.emptied := by
      intro n
      induction n with
      | zero => intro r hr; cases hr; rfl
      | succ n ih =>
        intro r hr
        rw [dcStages] at hr
        obtain ⟨s1, b1, b2⟩ := bindOk hr
        obtain ⟨_, _, _, _, _, _, _, _, _, h3⟩ := dcStage_with b2
        rw [h3, ← ih _ b1]
    exact aux _ _ a2
  have he1 : r1.emptied = false := hde ▸ he2
  have i1 := inv_ready (n := n) (withRun_invariant hM cM h1 hpost (ready_inv hs p1 hn) _ a1 he1) k1 l1
  obtain ⟨i2, _, _, k2, l2⟩ := dcStages_invariant hN cN hrhs (s := { s with run := r1 }) (ready_inv i1 p2 hn') _ a2
  have k2' : s2.run.stage = 0 := by rw [k2, k1, zero_add, Nat.mod_self]
  have r2 := inv_ready (n := n) i2 k2' (by rw [l2]; exact l1)
  have i3 := withRun_invariant hM cM h2 hpost (ready_inv r2 p1 hn) _ a3 hem
  have st3 := runWith_shape (by rw [k2']; exact p1) _ a3
  exact inv_ready i3 (by rw [st3.2, k2', zero_add, Nat.mod_self]) (by rw [st3.1, l2]; exact l1)

/-- The same, if post-processing succeeds on good states and empties nothing. -/
theorem strang_keeps {M N : Method K} {o o' : ℕ} (hM : tableau M.ns o = some M.tab) (hN : tableau N.ns o' = some N.tab)
    (cM : Combines M A S) (cN : Combines N A T) {pp : PostParams K} {R1 R2 : ℕ → (ℕ → Bool) → State K → State K}
    (h1 : ∀ k q wet, A q → G wet → S (solve D.v D.dat (R1 k wet q))) (h2 : ∀ k q wet, A q → G wet → S (solve D.v D.dat (R2 k wet q)))
    (hpost : ∀ q wet em, A q → G wet → ∃ f, wdAll D.dat D.m pp.wd ⟨q, wet, em⟩ = .ok f ∧ f.emptied = em ∧ A (slAll D.v D.dat D.m pp.sl f).q ∧
      G (slAll D.v D.dat D.m pp.sl f).wet)
    (hrhs : Corrects D corr troubled A T G) {n : ℕ} (hn : M.ns ≤ n) (hn' : N.ns ≤ n) {s s' : GnRun K} (hs : Ready A G n s.run)
    (h : strangStep D M N pp R1 R2 corr troubled s = .ok s') : Ready A G n s'.run ∧ s'.run.emptied = s.run.emptied := by
  have p1 := (Stepper.shapeOK_of_tableau hM).2.1
  have p2 := (Stepper.shapeOK_of_tableau hN).2.1
  unfold strangStep at h
  obtain ⟨r1, a1, h⟩ := bindOk h
  obtain ⟨s2, a2, h⟩ := bindOk h
  obtain ⟨r3, a3, h⟩ := bindOk h
  cases h
  obtain ⟨r1', b1, i1, e1⟩ := withRun_keeps (m := D.m) hM cM h1 hpost (ready_inv hs p1 hn) M.ns
  obtain rfl : r1 = r1' := by rw [a1] at b1; cases b1; rfl
  have st1 := runWith_shape (by rw [hs.stage]; exact p1) _ a1
  have k1 : r1.stage = 0 := by rw [st1.2, hs.stage, zero_add, Nat.mod_self]
  have l1 : n + 1 ≤ r1.slots.length := by rw [st1.1]; exact hs.len
  obtain ⟨i2, _, e2, k2, l2⟩ := dcStages_invariant hN cN hrhs (s := { s with run := r1 }) (ready_inv (inv_ready i1 k1 l1) p2 hn') _ a2
  have k2' : s2.run.stage = 0 := by rw [k2, k1, zero_add, Nat.mod_self]
  have r2 := inv_ready (n := n) i2 k2' (by rw [l2]; exact l1)
  obtain ⟨r3', b3, i3, e3⟩ := withRun_keeps (m := D.m) hM cM h2 hpost (ready_inv r2 p1 hn) M.ns
  obtain rfl : r3 = r3' := by rw [a3] at b3; cases b3; rfl
  have st3 := runWith_shape (by rw [k2']; exact p1) _ a3
  exact ⟨inv_ready i3 (by rw [st3.2, k2', zero_add, Nat.mod_self]) (by rw [st3.1, l2]; exact l1), by rw [e3, e2, e1]⟩

omit [IsStrictOrderedRing K] in
theorem dcStages_shape {M : Method K} {s s' : GnRun K} (n : ℕ) (hs : s.run.stage < M.ns) (h : dcStages D M.tab M.ns M.dt corr troubled n s = .ok s') :
    s'.run.slots.length = s.run.slots.length ∧ s'.run.stage = (s.run.stage + n) % M.ns := by
  induction n generalizing s' with
  | zero => cases h; exact ⟨rfl, (Nat.mod_eq_of_lt hs).symm⟩
  | succ n ih =>
    rw [dcStages] at h
    obtain ⟨s1, h1, h2⟩ := bindOk h
    obtain ⟨l1, k1⟩ := ih h1
    refine ⟨(dcStage_length h2).trans l1, ?_⟩
    obtain ⟨_, _, _, _, _, _, _, _, _, h3⟩ := dcStage_with h2
    rw [h3]
    show (s1.run.stage + 1) % M.ns = _
    rw [k1, Nat.mod_add_mod, add_assoc]

omit [IsStrictOrderedRing K] in
theorem strang_length {M N : Method K} {o o' : ℕ} {pp : PostParams K} {R1 R2 : ℕ → (ℕ → Bool) → State K → State K} {s s' : GnRun K}
    (h : strangStep D M N pp R1 R2 corr troubled s = .ok s') (h0 : s.run.stage = 0) (hM : tableau M.ns o = some M.tab) (hN : tableau N.ns o' = some N.tab) :
    s'.run.slots.length = s.run.slots.length := by
  have p1 := (Stepper.shapeOK_of_tableau hM).2.1
  have p2 := (Stepper.shapeOK_of_tableau hN).2.1
  unfold strangStep at h
  obtain ⟨r1, a1, h⟩ := bindOk h
  obtain ⟨s2, a2, h⟩ := bindOk h
  obtain ⟨r3, a3, h⟩ := bindOk h
  cases h
  obtain ⟨l1, k1⟩ := runWith_shape (by rw [h0]; exact p1) _ a1
  rw [h0, zero_add, Nat.mod_self] at k1
  obtain ⟨l2, k2⟩ := dcStages_shape (s := { s with run := r1 }) _ (by simp only [k1]; exact p2) a2
  simp only [k1, zero_add, Nat.mod_self] at k2
  obtain ⟨l3, _⟩ := runWith_shape (by rw [k2]; exact p1) _ a3
  exact l3.trans (l2.trans l1)

/-! ### Levels and water -/

/-- The tableaux whose rows of weights sum up to one exactly. -/
def exactRows : List (ℕ × ℕ) := [(1, 1), (2, 2), (3, 3), (4, 3), (6, 3), (7, 4), (8, 4)]

omit [IsStrictOrderedRing K] in
/-- **C93** The correction has no first row. -/
theorem corrects_levels (L : ℕ → ℕ → K) : Corrects D corr troubled (fun q => ∀ e d, q e 0 d = L e d) (fun x => ∀ e d, x e 0 d = 0) G := by
  intro q wet t0 t x w1 _ _ _ e d
  simp only [solve, Elt.applyMinv, dcRhs]
  split <;> simp

theorem levels_combine {M : Method K} {o : ℕ} (hM : tableau M.ns o = some M.tab) (hrow : (M.ns, o) ∈ exactRows) (L : ℕ → ℕ → K) :
    Combines M (fun q => ∀ e d, q e 0 d = L e d) (fun x => ∀ e d, x e 0 d = 0) := by
  intro k hk u x h e d
  have hsum := row_sum (K := K) hM (Stepper.Props.exact_rows o M.ns M.tab hM hrow) hk
  rw [Finset.sum_apply, Finset.sum_apply, Finset.sum_apply, Finset.sum_congr rfl (g := fun s => (tabA M.tab k s : K) * L e d)]
  · rw [← Finset.sum_mul, hsum, one_mul]
  · intro s hs
    have hs' : s ≤ k := by simp at hs; omega
    simp only [Pi.add_apply, Pi.smul_apply, smul_eq_mul]
    rw [(h s hs').1 e d, (h s hs').2 e d]; ring

/-- **C93** The dispersive correction leaves all levels as they are. -/
theorem correction_levels {M : Method K} {o : ℕ} (hM : tableau M.ns o = some M.tab) (hrow : (M.ns, o) ∈ exactRows) {s s' : GnRun K} (h0 : s.run.stage = 0)
    (hl : M.ns + 1 ≤ s.run.slots.length) {sl : Slot (State K)} (hsl : s.run.slots[0]? = some sl) (n : ℕ)
    (h : dcStages D M.tab M.ns M.dt corr troubled n s = .ok s') :
    ∃ sl', s'.run.slots[s'.run.stage]? = some sl' ∧ (∀ e d, sl'.q e 0 d = sl.q e 0 d) ∧ s'.run.wet = s.run.wet ∧ s'.run.emptied = s.run.emptied := by
  have p1 := (Stepper.shapeOK_of_tableau hM).2.1
  obtain ⟨i, w, e, _⟩ := dcStages_invariant (A := fun q => ∀ e d, q e 0 d = sl.q e 0 d) (S := fun x => ∀ e d, x e 0 d = 0) (G := fun _ => True) hM
    (levels_combine hM hrow _) (corrects_levels _) (ready_inv (n := M.ns) ⟨h0, hl, ⟨sl, hsl, fun _ _ => rfl⟩, trivial⟩ p1 le_rfl) n h
  obtain ⟨sl', a, b⟩ := i.good _ le_rfl
  exact ⟨sl', a, b, w, e⟩

omit [IsStrictOrderedRing K] in
theorem corrects_water (c : K) : Corrects D corr troubled (fun q => waterZe D.dat D.m.elts q = c) (fun x => waterZe D.dat D.m.elts x = 0) G := by
  intro q wet t0 t x w1 _ _ h
  have := corrects_levels (D := D) (corr := corr) (troubled := troubled) (G := fun _ => True) (fun e d => q e 0 d) q wet t0 t x w1 (fun _ _ => rfl) trivial h
  unfold waterZe
  refine List.sum_eq_zero fun y hy => ?_
  obtain ⟨e, he, rfl⟩ := List.mem_map.1 hy
  rw [this]; simp

theorem water_combine {M : Method K} {o : ℕ} (hM : tableau M.ns o = some M.tab) (hrow : (M.ns, o) ∈ exactRows) (c : K) :
    Combines M (fun q => waterZe D.dat D.m.elts q = c) (fun x => waterZe D.dat D.m.elts x = 0) := by
  intro k hk u x hux
  rw [waterZe_sum]
  have h1 : ∀ s ∈ Finset.range (k + 1), waterZe D.dat D.m.elts ((tabA M.tab k s : K) • u s + (M.dt * (tabB M.tab k s : K)) • x s) = (tabA M.tab k s : K) * c := by
    intro s hs
    obtain ⟨h2, h3⟩ := hux s (by simp at hs; omega)
    rw [waterZe_add, waterZe_smul, waterZe_smul, h2, h3]; ring
  rw [Finset.sum_congr rfl h1, ← Finset.sum_mul, row_sum hM (Stepper.Props.exact_rows o M.ns M.tab hM hrow) hk, one_mul]

theorem rhs_water (hb : ClosedBasin D.v D.dat D.m) (hN : MassNumerics D.v.N) (wet : ℕ → Bool) (t : K) (x : Faces K) (q junk : State K) :
    waterZe D.dat D.m.elts (solve D.v D.dat (Ehdg.localRhs D.v D.dat D.m wet t x q junk)) = 0 := by
  rw [← Ehdg.Props.rhs_total hb hN wet t x q junk]
  unfold total waterZe
  congr 1
  apply List.map_congr_left
  intro e he
  have hj : |jdet (D.dat e).elt.tri| ≠ 0 := abs_ne_zero.mpr (hb.ccw e he).ne'
  simp only [solve, Elt.applyMinv, hN.minv0]
  field_simp

/-- The right-hand sides of the shallow water stages of a step. -/
def sweRhs (D : Dc K) (junk : State K) (time : ℕ → K) (x : ℕ → Faces K) (k : ℕ) (wet : ℕ → Bool) (q : State K) : State K :=
  Ehdg.localRhs D.v D.dat D.m wet (time k) (x k) q junk

/-- **C93** A step of the program - shallow water, correction, shallow water - keeps the water of a closed basin unless an element is emptied. -/
theorem strang_water (hb : ClosedBasin D.v D.dat D.m) (hN : MassNumerics D.v.N) {M N : Method K} {o o' : ℕ} (hM : tableau M.ns o = some M.tab)
    (hMrow : (M.ns, o) ∈ exactRows) (hN' : tableau N.ns o' = some N.tab) (hNrow : (N.ns, o') ∈ exactRows) {pp : PostParams K}
    (hp : ∀ w, pp.wd = some w → 0 < w.thr ∧ w.thr ≤ w.ho) (hdeg : ∀ e, 1 ≤ (D.dat e).elt.p) (junk1 junk2 : State K) (time1 time2 : ℕ → K) (x1 x2 : ℕ → Faces K)
    {s s' : GnRun K} (h0 : s.run.stage = 0) (hl : max M.ns N.ns + 1 ≤ s.run.slots.length) {sl : Slot (State K)} (hsl : s.run.slots[0]? = some sl)
    (h : strangStep D M N pp (sweRhs D junk1 time1 x1) (sweRhs D junk2 time2 x2) corr troubled s = .ok s') (hem : s'.run.emptied = false) :
    s'.run.stage = 0 ∧ s'.run.slots.length = s.run.slots.length ∧
      ∃ sl', s'.run.slots[0]? = some sl' ∧ water D.dat D.m.elts sl'.q = water D.dat D.m.elts sl.q := by
  obtain ⟨k, l, ⟨sl', a, b⟩, _⟩ := strang_invariant (A := fun q => waterZe D.dat D.m.elts q = waterZe D.dat D.m.elts sl.q)
    (S := fun x => waterZe D.dat D.m.elts x = 0) (T := fun x => waterZe D.dat D.m.elts x = 0) (G := fun _ => True) (n := s.run.slots.length - 1) hM hN'
    (water_combine hM hMrow _) (water_combine hN' hNrow _) (fun k q wet _ _ => rhs_water hb hN wet _ _ _ _) (fun k q wet _ _ => rhs_water hb hN wet _ _ _ _)
    (fun q wet em f hf hfe => by
      obtain ⟨h1, h2⟩ := wdAll_keeps hp (fun e _ => hdeg e) hf hfe
      refine ⟨h1, fun hq _ => ⟨?_, trivial⟩⟩
      rw [← hq]
      exact waterZe_congr _ _ fun e _ => by rw [slAll_keeps D.v D.dat D.m pp.sl hdeg, h2])
    (corrects_water _) (by omega) (by omega) ⟨h0, by omega, ⟨sl, hsl, rfl⟩, trivial⟩ h hem
  refine ⟨k, strang_length h h0 hM hN', sl', a, by rw [water_split, water_split, b]⟩

end
end
/-! ### Zero right-hand sides -/

section
variable {s : Skel} {I : Inverse ℝ} {slv : Solver ℝ} {wet : ℕ → Bool} {b : DcBlocks ℝ}

theorem elimAll_zero (hz : ZeroOnZero slv) (hr : ∀ e ∈ s.elts, ∀ i < 2 * s.ndof e, b.r1 e i = 0) :
    ∀ (es : List ℕ) (l : Gn.Local ℝ), (∀ e ∈ es, e ∈ s.elts) → elimAll I slv s wet b es = some l → ∀ e ∈ s.elts, ∀ i < 2 * s.ndof e, l.rhs e i = 0 := by
  intro es
  induction es with
  | nil => intro l _ h; cases h; exact hr
  | cons e es ih =>
    intro l hm h
    rw [elimAll] at h
    obtain ⟨t, h1, h⟩ := Option.bind_eq_some_iff.1 h
    have ht := ih t (fun x hx => hm x (List.mem_cons_of_mem _ hx)) h1
    by_cases hw : wet e
    · rw [if_pos hw] at h
      obtain ⟨⟨inv, hat, r⟩, h2, h⟩ := Option.bind_eq_some_iff.1 h
      cases h
      have hr0 : ∀ i < 2 * s.ndof e, r i = 0 := by
        unfold elim at h2
        simp only [Option.bind_eq_bind, Option.bind_eq_some_iff] at h2
        obtain ⟨_, _, _, _, _, _, _, _, y, hy, h2⟩ := h2
        cases h2
        exact hz _ _ _ _ hy fun i hi => hr e (hm e List.mem_cons_self) i hi
      intro e' he' i hi
      by_cases hee : e' = e
      · subst hee; simp only [Function.update_self]; exact hr0 i hi
      · simp only [Function.update_of_ne hee]; exact ht e' he' i hi
    · rw [if_neg hw] at h
      cases h; exact ht

theorem mulV_zero {n : ℕ} {A : ℕ → ℕ → ℝ} {x : ℕ → ℝ} (hx : ∀ i < n, x i = 0) (i : ℕ) : mulV n A x i = 0 := by
  unfold mulV
  exact Finset.sum_eq_zero fun j hj => by rw [hx j (Finset.mem_range.1 hj), mul_zero]

theorem rhsDc_zero {t : Index} {l : Gn.Local ℝ} (hl : ∀ e ∈ s.elts, ∀ i < 2 * s.ndof e, l.rhs e i = 0) {v : ℕ → ℝ} (hv : ∀ i, v i = 0) {x : List Face × ℕ}
    (hx : ∀ c ∈ x.1, c.e ∈ s.elts) (i : ℕ) : rhsDc s t wet b l v x i = 0 := by
  obtain ⟨cs, k⟩ := x
  unfold rhsDc
  split
  · have key : ∀ (cs : List Face) (v : ℕ → ℝ), (∀ c ∈ cs, c.e ∈ s.elts) → (∀ i, v i = 0) → ∀ i, cs.foldl (fun v c =>
        subSub v (t.edge k * s.m) s.m (mulV (2 * s.ndof c.e) (hatSchur s b l c) (l.rhs c.e))) v i = 0 := by
      intro cs
      induction cs with
      | nil => intro v _ hv; exact hv
      | cons c cs ih =>
        intro v hc hv
        refine ih _ (fun c' h => hc c' (List.mem_cons_of_mem _ h)) fun i => ?_
        unfold subSub
        beta_reduce
        rw [mulV_zero (hl _ (hc c List.mem_cons_self)), hv, sub_zero, ite_self]
    rcases cs with _ | ⟨c, _ | ⟨c', cs⟩⟩
    · exact hv i
    · show setSub v _ _ _ i = 0
      unfold setSub
      beta_reduce
      rw [mulV_zero (hl _ (hx c (by simp))), hv, ite_self]
    · exact key _ _ (fun c hc => hx c (List.mem_filter.1 hc).1) hv i
  · exact hv i

/-- **C93** Without a source the solution is zero. -/
theorem solveDc_zero (hz : ZeroOnZero slv) (hf : ∀ x ∈ s.edges, ∀ c ∈ x, c.e ∈ s.elts) (hr : ∀ e ∈ s.elts, ∀ i < 2 * s.ndof e, b.r1 e i = 0) {wd : Bool}
    {t0 t : Index} {x : ℕ → ℝ} {w : ℕ → ℕ → ℝ} (h : solveDc I slv s wd wet t0 b = some (t, x, w)) : ∀ e ∈ s.elts, ∀ i < 2 * s.ndof e, w e i = 0 := by
  unfold solveDc at h
  simp only [Option.bind_eq_bind, Option.bind_eq_some_iff] at h
  obtain ⟨l, h1, x', h2, w', h3, h⟩ := h
  cases h
  generalize (if wd = true then renumber s wet t0 else t0) = t at h2 h3
  have hl := elimAll_zero hz hr _ l (fun e he => he) h1
  have hx : ∀ i < t.off * s.m, x i = 0 := by
    refine hz _ _ _ _ h2 fun i _ => ?_
    unfold assembleDc
    simp only
    have key : ∀ (L : List (List Face × ℕ)) (v : ℕ → ℝ), (∀ y ∈ L, ∀ c ∈ y.1, c.e ∈ s.elts) → (∀ i, v i = 0) → ∀ i, L.foldl (rhsDc s t wet b l) v i = 0 := by
      intro L
      induction L with
      | nil => intro v _ hv; exact hv
      | cons y L ih => intro v hy hv; exact ih _ (fun y' h => hy y' (List.mem_cons_of_mem _ h)) (rhsDc_zero hl hv (hy y List.mem_cons_self))
    exact key _ _ (fun y hy => hf y.1 (by rw [← List.zipIdx_map_fst 0 s.edges]; exact List.mem_map_of_mem hy)) (fun _ => rfl) i
  have key : ∀ (L : List (List Face × ℕ)) (r : ℕ → ℕ → ℝ) (w : ℕ → ℕ → ℝ), (∀ e ∈ s.elts, ∀ i < 2 * s.ndof e, r e i = 0) →
      L.foldlM (backEdge s t wet l x) r = some w → ∀ e ∈ s.elts, ∀ i < 2 * s.ndof e, w e i = 0 := by
    intro L
    induction L with
    | nil => intro r w hr h; cases h; exact hr
    | cons y L ih =>
      intro r w hr h
      rw [List.foldlM_cons] at h
      obtain ⟨r', hb, h⟩ := Option.bind_eq_some_iff.1 h
      refine ih r' w ?_ h
      unfold backEdge at hb
      split at hb
      · next hin =>
        cases hb
        have hin : t.edge y.2 * s.m + s.m ≤ t.off * s.m := by simpa [inside] using hin
        have hx' : ∀ j < s.m, x (t.edge y.2 * s.m + j) = 0 := fun j hj => hx _ (by omega)
        have aux : ∀ (cs : List Face) (r : ℕ → ℕ → ℝ), (∀ e ∈ s.elts, ∀ i < 2 * s.ndof e, r e i = 0) → ∀ e ∈ s.elts, ∀ i < 2 * s.ndof e,
            cs.foldl (fun (r : ℕ → ℕ → ℝ) c => Function.update r c.e fun i => r c.e i - mulV s.m (l.hat c.e c.f) (fun j => x (t.edge y.2 * s.m + j)) i) r e i = 0 := by
          intro cs
          induction cs with
          | nil => intro r hr; exact hr
          | cons c cs ih' =>
            intro r hr
            refine ih' _ fun e he i hi => ?_
            by_cases hee : e = c.e
            · subst hee
              beta_reduce
              rw [Function.update_self, mulV_zero hx', hr _ he i hi, sub_zero]
            · beta_reduce
              rw [Function.update_of_ne hee, hr e he i hi]
        exact aux _ r hr
      · cases hb
  exact key _ _ _ hl h3

end

/-! ### Lake at rest and uniform stream -/

section
variable {D : Dc ℝ} {F : ℕ → MvPolynomial (Fin 2) ℝ} {P : ℕ} {q : State ℝ} {corr troubled : ℕ → Bool}

/-- The derivative of a constant. -/
theorem grad_const {v : Env ℝ} {dat : ℕ → EltData ℝ} {m : Mesh ℝ} (hR : Rules v.N F P 0) (hO : Orthogonal v.N F P) (hs : IsSqrt v.sq) (hm : GradMesh dat m P)
    {R : Row ℝ} {c : ℝ} (h : ∀ e ∈ m.elts, ∀ z, Reg z → R e z = c) {dir : ℕ} (hdir : dir < 2) {e : ℕ} (he : e ∈ m.elts) {z : P2 ℝ} (hz : Reg z) :
    rowOf v dat (grad v dat m R dir) e z = 0 := by
  have hP : Piecewise v dat m R fun _ => C c := ⟨fun e he z hz => by rw [h e he z hz, eval_C], fun e _ => by rw [totalDegree_C]; exact Nat.zero_le _,
    fun i hi gp hgp => by rw [h _ (hm.ends i hi).1 (facePt _ _ _) (face_regular _ _), h _ (hm.ends i hi).2 (facePt _ _ _) (face_regular _ _)]⟩
  rw [grad_exact hR hO hs hm hP hdir he hz]
  simp [dPoly]

/-- Level and velocity are the same everywhere; the water is at rest or the bed is flat. -/
structure Still (D : Dc ℝ) (q : State ℝ) : Prop where
  level : ∃ c, ∀ e ∈ D.m.elts, ∀ z, Reg z → rowOf D.v D.dat (fun e => q e 0) e z = c
  vel : ∀ k, ∃ c, ∀ e ∈ D.m.elts, ∀ z, Reg z → uRow D.v D.dat q k e z = c
  flat : (∀ k, ∀ e ∈ D.m.elts, ∀ z, Reg z → uRow D.v D.dat q k e z = 0) ∨ ∃ c, ∀ e ∈ D.m.elts, ∀ z, Reg z → bathRow D.v D.dat e z = c

theorem still_dze (hR : Rules D.v.N F P 0) (hO : Orthogonal D.v.N F P) (hs : IsSqrt D.v.sq) (hm : GradMesh D.dat D.m P) (hq : Still D q) {e : ℕ}
    (he : e ∈ D.m.elts) {z : P2 ℝ} (hz : Reg z) {k : ℕ} (hk : k < 2) : rowOf D.v D.dat (dze D.v D.dat D.m q k) e z = 0 := by
  obtain ⟨c, hc⟩ := hq.level
  exact grad_const hR hO hs hm hc hk he hz

theorem still_source (hR : Rules D.v.N F P 0) (hO : Orthogonal D.v.N F P) (hs : IsSqrt D.v.sq) (hm : GradMesh D.dat D.m P) (hq : Still D q) {e : ℕ}
    (he : e ∈ D.m.elts) {z : P2 ℝ} (hz : Reg z) {dir : ℕ} (hdir : dir < 2) : dcSource D.v.src.g D.al (ptAt D q e z) dir = 0 := by
  have hdu : ∀ k, ∀ e ∈ D.m.elts, ∀ z, Reg z → rowOf D.v D.dat (du D.v D.dat D.m q k) e z = 0 := fun k e he z hz => by
    obtain ⟨c, hc⟩ := hq.vel (k / 2)
    exact grad_const hR hO hs hm hc (Nat.mod_lt _ (by omega)) he hz
  have hddu : ∀ k, rowOf D.v D.dat (ddu D.v D.dat D.m q k) e z = 0 := fun k =>
    grad_const hR hO hs hm (c := 0) (fun e he z hz => hdu (k / 2) e he z hz) (Nat.mod_lt _ (by omega)) he hz
  have hdze := still_dze hR hO hs hm hq he hz hdir
  have e1 : ∀ k, (ptAt D q e z).du k = 0 := fun k => hdu k e he z hz
  have e2 : ∀ k, (ptAt D q e z).ddu k = 0 := hddu
  have e3 : (ptAt D q e z).dze dir = 0 := hdze
  have e4 : (∀ k, (ptAt D q e z).u k = 0) ∨ (∀ k < 4, (ptAt D q e z).ddbath k = 0) ∧ ∀ k < 8, (ptAt D q e z).dddbath k = 0 := by
    rcases hq.flat with h | ⟨c, h⟩
    · exact Or.inl fun k => h k e he z hz
    · have d1 : ∀ k < 2, ∀ e ∈ D.m.elts, ∀ z, Reg z → rowOf D.v D.dat (dbath D.v D.dat D.m k) e z = 0 := fun k hk e he z hz =>
        grad_const hR hO hs hm h hk he hz
      have d2 : ∀ k < 4, ∀ e ∈ D.m.elts, ∀ z, Reg z → rowOf D.v D.dat (ddbath D.v D.dat D.m k) e z = 0 := fun k hk e he z hz =>
        grad_const hR hO hs hm (d1 (k / 2) (by omega)) (Nat.mod_lt _ (by omega)) he hz
      exact Or.inr ⟨fun k hk => d2 k hk e he z hz, fun k hk => grad_const hR hO hs hm (d2 (k / 2) (by omega)) (Nat.mod_lt _ (by omega)) he hz⟩
  unfold dcSource c1 c2 c3 c4 c5 c6
  simp only [e1, e2, e3]
  rcases e4 with h | ⟨h1, h2⟩
  · simp only [h]; simp
  · rw [h1 0 (by omega), h1 1 (by omega), h1 2 (by omega), h1 3 (by omega), h2 0 (by omega), h2 1 (by omega), h2 2 (by omega), h2 3 (by omega), h2 4 (by omega),
      h2 5 (by omega), h2 6 (by omega), h2 7 (by omega)]
    simp

theorem gps_reg (hR : Rules D.v.N F P 0) (hm : GradMesh D.dat D.m P) {e : ℕ} (he : e ∈ D.m.elts) {wz : ℝ × P2 ℝ} (h : wz ∈ (D.dat e).elt.gps D.v.N) : Reg wz.2 :=
  Or.inl (hR.pts _ (hm.degree e he) wz h)

theorem edges_elts (hm : GradMesh D.dat D.m P) : ∀ x ∈ (dcSkel D).edges, ∀ c ∈ x, c.e ∈ (dcSkel D).elts := by
  intro x hx c hc
  simp only [dcSkel, List.mem_map] at hx ⊢
  obtain ⟨ed, he, rfl⟩ := hx
  obtain ⟨sd, hsd, rfl⟩ := List.mem_map.1 hc
  rcases List.mem_append.1 he with h | h
  · obtain ⟨i, hi, rfl⟩ := List.mem_map.1 h
    simp only [Edg.sides, List.mem_cons, List.not_mem_nil, or_false] at hsd
    rcases hsd with rfl | rfl
    · exact (hm.ends i hi).1
    · exact (hm.ends i hi).2
  · obtain ⟨b, hb, rfl⟩ := List.mem_map.1 h
    simp only [Edg.sides, List.mem_cons, List.not_mem_nil, or_false] at hsd
    subst hsd
    exact hm.owner b hb

/-- **C93** Where level and velocity are constant, and the water at rest or the bed flat, the solution of the global problem is zero. -/
theorem still_solution (hz : ZeroOnZero D.slv) (hR : Rules D.v.N F P 0) (hO : Orthogonal D.v.N F P) (hs : IsSqrt D.v.sq) (hm : GradMesh D.dat D.m P)
    (hq : Still D q) {wet : ℕ → Bool} {t0 t : Index} {x : ℕ → ℝ} {w1 : ℕ → ℕ → ℝ}
    (h : solveDc D.I D.slv (dcSkel D) D.wd wet t0 (dcBlocks D wet q) = some (t, x, w1)) : ∀ e ∈ D.m.elts, ∀ i < 2 * ndof (D.dat e).elt.p, w1 e i = 0 := by
  refine solveDc_zero hz (edges_elts hm) (fun e he i _ => ?_) h
  show srcDc D q e i = 0
  unfold srcDc Elt.intPhi
  refine List.sum_eq_zero fun y hy => ?_
  obtain ⟨wz, hwz, rfl⟩ := List.mem_map.1 hy
  beta_reduce
  rw [still_source hR hO hs hm hq he (gps_reg hR hm he hwz) (Nat.mod_lt _ (by omega)), zero_mul]

/-- **C93** Then the correction is zero. -/
theorem still_correction (hz : ZeroOnZero D.slv) (hR : Rules D.v.N F P 0) (hO : Orthogonal D.v.N F P) (hs : IsSqrt D.v.sq) (hm : GradMesh D.dat D.m P)
    (hq : Still D q) {wet : ℕ → Bool} {t0 t : Index} {x : ℕ → ℝ} {w1 : ℕ → ℕ → ℝ}
    (h : solveDc D.I D.slv (dcSkel D) D.wd wet t0 (dcBlocks D wet q) = some (t, x, w1)) :
    ∀ e ∈ D.m.elts, ∀ var d, dcRhs D corr troubled wet q w1 e var d = 0 := by
  intro e he var d
  have hw := still_solution hz hR hO hs hm hq h e he
  have key : ∀ dir < 2, (D.dat e).elt.intPhi D.v.N (fun z => correction D.v.src.g D.al (depth D.v D.dat q e z)
      (rowOf D.v D.dat (dze D.v D.dat D.m q dir) e z) ((D.dat e).elt.value D.v.N (fun d => reshapeCol 2 (w1 e) dir d) z)) d = 0 := by
    intro dir hdir
    unfold Elt.intPhi
    refine List.sum_eq_zero fun y hy => ?_
    obtain ⟨wz, hwz, rfl⟩ := List.mem_map.1 hy
    have hv : (D.dat e).elt.value D.v.N (fun d => reshapeCol 2 (w1 e) dir d) wz.2 = 0 := by
      unfold Elt.value
      refine List.sum_eq_zero fun y hy => ?_
      obtain ⟨d', hd', rfl⟩ := List.mem_map.1 hy
      have := List.mem_range.1 hd'
      have h0 : reshapeCol 2 (w1 e) dir d' = 0 := hw _ (by omega)
      beta_reduce
      rw [h0, zero_mul]
    beta_reduce
    rw [hv, still_dze hR hO hs hm hq he (gps_reg hR hm he hwz) hdir]
    simp [correction]
  unfold dcRhs
  split
  · rcases (by fin_cases var <;> simp : var = 0 ∨ var = 1 ∨ var = 2) with rfl | rfl | rfl
    · rfl
    · exact key 0 (by omega)
    · exact key 1 (by omega)
  · rfl

theorem rest_still (hR : Rules D.v.N F P 0) {L : ℝ} (hq : AtRest D.dat D.m.elts L q) : Still D q := by
  have hu : ∀ k, ∀ e ∈ D.m.elts, ∀ z, Reg z → uRow D.v D.dat q k e z = 0 := by
    intro k e he z _
    have := rest_value hR hq he z
    simp only [qAt, Q.mk.injEq] at this
    unfold uRow
    split
    · rw [this.2.1, zero_div]
    · rw [this.2.2, zero_div]
  refine ⟨⟨L, fun e he z _ => ?_⟩, fun k => ⟨0, hu k⟩, Or.inl hu⟩
  have := rest_value hR hq he z
  simp only [qAt, Q.mk.injEq] at this
  exact this.1

theorem uniform_still (hR : Rules D.v.N F P 0) {U : Q ℝ} {b : ℝ} (hbed : ∀ e ∈ D.m.elts, ∀ d < ndof (D.dat e).elt.p, (D.dat e).bath d = if d = 0 then b else 0)
    (hq : Uniform D.dat D.m.elts U q) : Still D q := by
  have hb : ∀ e ∈ D.m.elts, ∀ z, Reg z → bathRow D.v D.dat e z = b := fun e he z _ => const_value hR (hbed e he) z
  have hv : ∀ var, ∀ e ∈ D.m.elts, ∀ z, (D.dat e).elt.value D.v.N (q e var) z = Swe.comp U var := fun var e he z =>
    const_value hR (fun d hd => hq e he d hd var) z
  refine ⟨⟨Swe.comp U 0, fun e he z _ => hv 0 e he z⟩, fun k => ⟨Swe.comp U (if k = 0 then 1 else 2) / (Swe.comp U 0 + b), fun e he z hz => ?_⟩, Or.inr ⟨b, hb⟩⟩
  unfold uRow depth
  rw [hv _ e he, hv _ e he, hb e he z hz]

theorem corrects_zero (hz : ZeroOnZero D.slv) (hR : Rules D.v.N F P 0) (hO : Orthogonal D.v.N F P) (hs : IsSqrt D.v.sq) (hm : GradMesh D.dat D.m P)
    {A : State ℝ → Prop} {G : (ℕ → Bool) → Prop} (hA : ∀ q, A q → Still D q) :
    Corrects D corr troubled A (fun x => ∀ e ∈ D.m.elts, ∀ d < ndof (D.dat e).elt.p, ∀ var, x e var d = 0) G := by
  intro q wet t0 t x w1 hq _ h e he d _ var
  simp only [solve, Elt.applyMinv]
  rw [still_correction hz hR hO hs hm (hA q hq) h e he var d, zero_mul]

/-- **C93** A lake at rest, over any bed and with any of its elements dry: the correction leaves it at rest. -/
theorem correction_rest (hz : ZeroOnZero D.slv) (hR : Rules D.v.N F P 0) (hO : Orthogonal D.v.N F P) (hs : IsSqrt D.v.sq) (hm : GradMesh D.dat D.m P)
    {M : Method ℝ} {o : ℕ} (hM : tableau M.ns o = some M.tab) (hrow : (M.ns, o) ∈ exactRows) {s s' : GnRun ℝ} (h0 : s.run.stage = 0)
    (hl : M.ns + 1 ≤ s.run.slots.length) {sl : Slot (State ℝ)} (hsl : s.run.slots[0]? = some sl) {L : ℝ} (hq : AtRest D.dat D.m.elts L sl.q) (n : ℕ)
    (h : dcStages D M.tab M.ns M.dt corr troubled n s = .ok s') :
    ∃ sl', s'.run.slots[s'.run.stage]? = some sl' ∧ AtRest D.dat D.m.elts L sl'.q := by
  have p1 := (Stepper.shapeOK_of_tableau hM).2.1
  obtain ⟨i, _⟩ := dcStages_invariant (A := AtRest D.dat D.m.elts L) (G := fun _ => True) hM
    (fun k hk u x hux => rest_comb hM hrow M.dt hk u x hux) (corrects_zero hz hR hO hs hm fun q hq => rest_still hR hq)
    (ready_inv (n := M.ns) ⟨h0, hl, ⟨sl, hsl, hq⟩, trivial⟩ p1 le_rfl) n h
  exact i.good _ le_rfl

/-- **C93** A uniform stream over a flat bed. -/
theorem correction_stream (hz : ZeroOnZero D.slv) (hR : Rules D.v.N F P 0) (hO : Orthogonal D.v.N F P) (hs : IsSqrt D.v.sq) (hm : GradMesh D.dat D.m P)
    {b : ℝ} (hbed : ∀ e ∈ D.m.elts, ∀ d < ndof (D.dat e).elt.p, (D.dat e).bath d = if d = 0 then b else 0)
    {M : Method ℝ} {o : ℕ} (hM : tableau M.ns o = some M.tab) (hrow : (M.ns, o) ∈ exactRows) {s s' : GnRun ℝ} (h0 : s.run.stage = 0)
    (hl : M.ns + 1 ≤ s.run.slots.length) {sl : Slot (State ℝ)} (hsl : s.run.slots[0]? = some sl) {U : Q ℝ} (hq : Uniform D.dat D.m.elts U sl.q) (n : ℕ)
    (h : dcStages D M.tab M.ns M.dt corr troubled n s = .ok s') :
    ∃ sl', s'.run.slots[s'.run.stage]? = some sl' ∧ Uniform D.dat D.m.elts U sl'.q := by
  have p1 := (Stepper.shapeOK_of_tableau hM).2.1
  obtain ⟨i, _⟩ := dcStages_invariant (A := Uniform D.dat D.m.elts U) (G := fun _ => True) hM
    (fun k hk u x hux => uniform_comb hM hrow M.dt hk u x hux) (corrects_zero hz hR hO hs hm fun q hq => uniform_still hR hbed hq)
    (ready_inv (n := M.ns) ⟨h0, hl, ⟨sl, hsl, hq⟩, trivial⟩ p1 le_rfl) n h
  exact i.good _ le_rfl

/-- **C93** A lake at rest under a whole step. -/
theorem strang_rest (hz : ZeroOnZero D.slv) (hR : Rules D.v.N F P 0) (hO : Orthogonal D.v.N F P) (hm : GradMesh D.dat D.m P)
    {M N : Method ℝ} {o o' : ℕ} (hM : tableau M.ns o = some M.tab) (hMrow : (M.ns, o) ∈ exactRows) (hN : tableau N.ns o' = some N.tab)
    (hNrow : (N.ns, o') ∈ exactRows) {L : ℝ} (pp : PostParams ℝ)
    (hp : ∀ w, pp.wd = some w → 0 < w.thr ∧ w.thr ≤ w.ho ∧ ∀ e ∈ D.m.elts, ∀ x < 3, w.ho + w.thr < L + w.bath e x)
    (hdeg : ∀ e ∈ D.m.elts, 1 ≤ (D.dat e).elt.p) (junk1 junk2 : State ℝ) (time1 time2 ramp1 ramp2 : ℕ → ℝ)
    (hm1 : ∀ n, RestMesh D.v D.dat D.m P L (time1 n) (ramp1 n)) (hm2 : ∀ n, RestMesh D.v D.dat D.m P L (time2 n) (ramp2 n))
    (hk : ∀ i ∈ D.m.ints, i.kind = .internal) (x1 x2 : ℕ → Faces ℝ) (hx1 : ∀ n, Ehdg.Props.Passes D.v D.dat D.m (x1 n) ⟨L, 0, 0⟩)
    (hx2 : ∀ n, Ehdg.Props.Passes D.v D.dat D.m (x2 n) ⟨L, 0, 0⟩) {s s' : GnRun ℝ} (h0 : s.run.stage = 0) (hl : max M.ns N.ns + 1 ≤ s.run.slots.length)
    {sl : Slot (State ℝ)} (hsl : s.run.slots[0]? = some sl) (hq : AtRest D.dat D.m.elts L sl.q) (hw : ∀ e ∈ D.m.elts, s.run.wet e = true)
    (h : strangStep D M N pp (sweRhs D junk1 time1 x1) (sweRhs D junk2 time2 x2) corr troubled s = .ok s') :
    s'.run.stage = 0 ∧ s'.run.slots.length = s.run.slots.length ∧ s'.run.emptied = s.run.emptied ∧ (∀ e ∈ D.m.elts, s'.run.wet e = true) ∧
      ∃ sl', s'.run.slots[0]? = some sl' ∧ AtRest D.dat D.m.elts L sl'.q := by
  have hrhs : ∀ (junk : State ℝ) (time ramp : ℕ → ℝ) (x : ℕ → Faces ℝ), (∀ n, RestMesh D.v D.dat D.m P L (time n) (ramp n)) →
      (∀ n, Ehdg.Props.Passes D.v D.dat D.m (x n) ⟨L, 0, 0⟩) → ∀ k q wet, AtRest D.dat D.m.elts L q → (∀ e ∈ D.m.elts, wet e = true) →
      ∀ e ∈ D.m.elts, ∀ d < ndof (D.dat e).elt.p, ∀ var, solve D.v D.dat (sweRhs D junk time x k wet q) e var d = 0 := by
    intro junk time ramp x hm hx k q wet hq hw e he d hd var
    simp only [solve, Elt.applyMinv, sweRhs]
    rw [Ehdg.Props.rest_same hR (hm k) hk hq (hx k) hw, Swe.Props.rest_rhs hR (hm k) hq hw junk he hd var, zero_mul]
  obtain ⟨⟨k, l, g, w⟩, e⟩ := strang_keeps (A := AtRest D.dat D.m.elts L) (S := fun x => ∀ e ∈ D.m.elts, ∀ d < ndof (D.dat e).elt.p, ∀ var, x e var d = 0)
    (G := fun w => ∀ e ∈ D.m.elts, w e = true) (n := s.run.slots.length - 1) hM hN (fun k hk u x hux => rest_comb hM hMrow M.dt hk u x hux)
    (fun k hk u x hux => rest_comb hN hNrow N.dt hk u x hux) (hrhs junk1 time1 ramp1 x1 hm1 hx1) (hrhs junk2 time2 ramp2 x2 hm2 hx2)
    (fun q wet em hq hw => by
      obtain ⟨w', hf, hw'⟩ := rest_wd hp hdeg hq hw em
      exact ⟨_, hf, rfl, by rw [rest_sl (hm1 0).sqrt hdeg hq]; exact ⟨hq, hw'⟩⟩)
    (corrects_zero hz hR hO (hm1 0).sqrt hm fun q hq => rest_still hR hq) (by omega) (by omega) ⟨h0, by omega, ⟨sl, hsl, hq⟩, hw⟩ h
  exact ⟨k, strang_length h h0 hM hN, e, w, g⟩

/-- **C93** A uniform stream over a flat bed under a whole step. -/
theorem strang_stream (hz : ZeroOnZero D.slv) (hR : Rules D.v.N F P 0) (hO : Orthogonal D.v.N F P) (hm : GradMesh D.dat D.m P)
    {M N : Method ℝ} {o o' : ℕ} (hM : tableau M.ns o = some M.tab) (hMrow : (M.ns, o) ∈ exactRows) (hN : tableau N.ns o' = some N.tab)
    (hNrow : (N.ns, o') ∈ exactRows) {U : Q ℝ} {b : ℝ} (pp : PostParams ℝ)
    (hp : ∀ w, pp.wd = some w → 0 < w.thr ∧ w.thr ≤ w.ho ∧ ∀ e ∈ D.m.elts, ∀ x < 3, w.ho + w.thr < U.ze + w.bath e x)
    (hdeg : ∀ e ∈ D.m.elts, 1 ≤ (D.dat e).elt.p) (junk1 junk2 : State ℝ) (time1 time2 ramp1 ramp2 : ℕ → ℝ)
    (hm1 : ∀ n, StreamMesh D.v D.dat D.m P U b (time1 n) (ramp1 n)) (hm2 : ∀ n, StreamMesh D.v D.dat D.m P U b (time2 n) (ramp2 n))
    (x1 x2 : ℕ → Faces ℝ) (hx1 : ∀ n, Ehdg.Props.Passes D.v D.dat D.m (x1 n) U)
    (hx2 : ∀ n, Ehdg.Props.Passes D.v D.dat D.m (x2 n) U) {s s' : GnRun ℝ} (h0 : s.run.stage = 0) (hl : max M.ns N.ns + 1 ≤ s.run.slots.length)
    {sl : Slot (State ℝ)} (hsl : s.run.slots[0]? = some sl) (hq : Uniform D.dat D.m.elts U sl.q) (hw : ∀ e ∈ D.m.elts, s.run.wet e = true)
    (h : strangStep D M N pp (sweRhs D junk1 time1 x1) (sweRhs D junk2 time2 x2) corr troubled s = .ok s') :
    s'.run.stage = 0 ∧ s'.run.slots.length = s.run.slots.length ∧ s'.run.emptied = s.run.emptied ∧ (∀ e ∈ D.m.elts, s'.run.wet e = true) ∧
      ∃ sl', s'.run.slots[0]? = some sl' ∧ Uniform D.dat D.m.elts U sl'.q := by
  have hrhs : ∀ (junk : State ℝ) (time ramp : ℕ → ℝ) (x : ℕ → Faces ℝ), (∀ n, StreamMesh D.v D.dat D.m P U b (time n) (ramp n)) →
      (∀ n, Ehdg.Props.Passes D.v D.dat D.m (x n) U) → ∀ k q wet, Uniform D.dat D.m.elts U q → (∀ e ∈ D.m.elts, wet e = true) →
      ∀ e ∈ D.m.elts, ∀ d < ndof (D.dat e).elt.p, ∀ var, solve D.v D.dat (sweRhs D junk time x k wet q) e var d = 0 := by
    intro junk time ramp x hm hx k q wet hq hw e he d hd var
    simp only [solve, Elt.applyMinv, sweRhs]
    rw [Ehdg.Props.stream_same hR (hm k) hq (hx k) hw, Swe.Props.stream_rhs hR (hm k) hq hw junk he hd var, zero_mul]
  obtain ⟨⟨k, l, g, w⟩, e⟩ := strang_keeps (A := Uniform D.dat D.m.elts U) (S := fun x => ∀ e ∈ D.m.elts, ∀ d < ndof (D.dat e).elt.p, ∀ var, x e var d = 0)
    (G := fun w => ∀ e ∈ D.m.elts, w e = true) (n := s.run.slots.length - 1) hM hN (fun k hk u x hux => uniform_comb hM hMrow M.dt hk u x hux)
    (fun k hk u x hux => uniform_comb hN hNrow N.dt hk u x hux) (hrhs junk1 time1 ramp1 x1 hm1 hx1) (hrhs junk2 time2 ramp2 x2 hm2 hx2)
    (fun q wet em hq hw => by
      obtain ⟨w', hf, hw'⟩ := uniform_wd hp hdeg hq hw em
      exact ⟨_, hf, rfl, by rw [uniform_sl (hm1 0).sqrt hdeg hq]; exact ⟨hq, hw'⟩⟩)
    (corrects_zero hz hR hO (hm1 0).sqrt hm fun q hq => uniform_still hR (hm1 0).bed hq) (by omega) (by omega) ⟨h0, by omega, ⟨sl, hsl, hq⟩, hw⟩ h
  exact ⟨k, strang_length h h0 hM hN, e, w, g⟩

end
end Verif.Gn.Props
