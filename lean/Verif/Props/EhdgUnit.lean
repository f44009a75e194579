import Verif.Lemmas.EhdgUnit
import Verif.Props.SweUnit

/-!
# C134: every schedule of the threaded explicit hybridized program ends with the solution of the serial program
-/

namespace Verif.Ehdg.Props
open Verif.Geometry Verif.Element Verif.Swe Verif.Schedule Verif.Schedule.Props Verif.Swe.Props Verif.Ehdg

variable {K : Type} [Field K] [LinearOrder K] {U : Type} [DecidableEq U]
variable {v : Env K} {dat : ℕ → EltData K}

/-- Up to `UpdateState`. -/
theorem ehdg_unit_after {sub : U → Mesh K} {owner : ℕ → U} {nbrs : U → List U} (hs : Shared sub owner nbrs) {us : List U} (hn : us.Nodup)
    (hall : ∀ u, u ∈ us) {tab : Stepper.Tableau} {ns : ℕ} {dt : K} {junk : State K} {time : ℕ → K} {fx : ℕ → Faces K} {junkD : Dbnd K → ℕ → Q K} {n : ℕ}
    {s : Run K} {mem : U → Res (UnitMem K)} (hm : ∀ u, ∃ x, mem u = .ok x ∧ Holds (sub u).elts ns n s x) {cur : Stepper.Slot (State K)} {rhs : State K}
    {l1 l2 : List (Stepper.Slot (State K))} (c1 : s.slots[s.stage]? = some cur)
    (c2 : Ehdg.parallelRhs v dat (us.map sub) s.wet (time n) (fx n) junkD cur.q junk = .ok rhs)
    (c3 : Stepper.setSolution s.slots s.stage (solve v dat rhs) = some l1) (c4 : Stepper.updateState tab ns dt s.stage l1 = some l2) (u : U)
    {bath : Mail K} (hbath : ∀ b ∈ (sub u).dist, bath b.e' b.f' = bathMessage v dat b.e' b.f') :
    ∃ y, ehdgAfter v dat (sub u) tab ns dt junkD n bath (mailOf owner (hears nbrs (fun w x _ => ehdgPack v dat (sub w) ns n x) mem u))
        (ehdgBefore v dat (sub u) ns time fx n (mem u)) = .ok y ∧
      SlotsSame (sub u).elts l2 y.slots ∧ ∀ e ∈ (sub u).elts, s.wet e = y.wet e := by
  -- the messages
  have hmail : ∀ b ∈ (sub u).dist, mailOf owner (hears nbrs (fun w x _ => ehdgPack v dat (sub w) ns n x) mem u) b.e' b.f' =
      stateMessage v dat s.wet cur.q b.e' b.f' := by
    intro b hb
    obtain ⟨h1, h2⟩ := hs.mirror u b hb
    obtain ⟨x, hx, hh⟩ := hm (owner b.e')
    rw [hh.stage] at c1
    obtain ⟨cur', h3, h4⟩ := slots_get hh.slots c1
    have he := sends_own hs h2
    simp only [mailOf, hears, if_pos h1, ehdgPack, hx, h3, if_pos h2]
    exact (state_congr v dat _ (h4.1 _ he) (hh.wet _ he)).symm
  obtain ⟨x, hx, hh⟩ := hm u
  rw [hh.stage] at c1 c3 c4
  obtain ⟨cur', h3, h4⟩ := slots_get hh.slots c1
  -- the right-hand side
  have c2' : us.foldlM (fun r u => (sub u).dist.foldlM (ehdgDbound v dat s.wet cur.q junkD (bathMessage v dat) (stateMessage v dat s.wet cur.q)) r)
      (us.foldl (fun r u => Ehdg.localRhs v dat (sub u) s.wet (time n) (fx n) cur.q r) junk) = .ok rhs := by
    rw [Ehdg.parallelRhs, ehdg_dbound_mail, List.foldl_map, List.foldlM_map] at c2
    exact c2
  obtain ⟨r1, x1, h5, h6⟩ := ehdg_dists_own v dat hs hn (hall u) c2'
  obtain ⟨x2, h7, h8⟩ := ehdg_dist_same v dat (wet' := x.wet) (q' := cur'.q) (bath' := bath)
    (mail' := mailOf owner (hears nbrs (fun w x _ => ehdgPack v dat (sub w) ns n x) mem u)) (sub u).elts (sub u).dist
    (r' := Ehdg.localRhs v dat (sub u) x.wet (time n) (fx n) cur'.q x.rhs) (fun b hb => by
      rw [hmail b hb, hbath b hb]
      exact ehdg_amount_congr v dat _ _ _ (h4.1 _ (hs.dist u b hb)) (hh.wet _ (hs.dist u b hb))) (fun e he => by
      rw [(h6 e he).1, ehdg_locals_own v dat hs _ _ _ _ hn (hall u) he junk x.rhs]
      exact ehdg_local_congr v dat (hs.nodup u) (hs.ints u) (hs.bnds u) _ _ _ _ h4.1 hh.wet he) h5
  have hsol : ∀ e ∈ (sub u).elts, solve v dat rhs e = solve v dat x2 e := by
    intro e he
    funext var
    show (dat e).elt.applyMinv v.N (rhs e var) = (dat e).elt.applyMinv v.N (x2 e var)
    rw [(h6 e he).2, h8 e he]
  obtain ⟨l1', h9, h10⟩ := setSolution_same hh.slots hsol c3
  obtain ⟨l2', h11, h12⟩ := updateState_same h10 tab ns dt _ c4
  refine ⟨{ x with slots := l2', rhs := x2 }, ?_, h12, hh.wet⟩
  simp only [ehdgAfter, ehdgBefore, hx, h3, slotOr, okBind, pure, Except.pure]
  rw [h7, okBind, h9]
  simp only [okBind, h11]

/-- One stage: if the partitioned program of C98 ends it, every unit ends it with its part of the state and the bathymetry it had received. -/
theorem ehdg_unit_stage {sub : U → Mesh K} {owner : ℕ → U} {nbrs : U → List U} (hs : Shared sub owner nbrs) {us : List U} (hn : us.Nodup)
    (hall : ∀ u, u ∈ us) {tab : Stepper.Tableau} {ns : ℕ} {dt : K} {pp : PostParams K} {junk : State K} {time : ℕ → K} {fx : ℕ → Faces K}
    {junkD : Dbnd K → ℕ → Q K} {n : ℕ} {s s' : Run K}
    (h : stageParallelWith v dat (us.map sub) tab ns dt pp (fun wet q => Ehdg.parallelRhs v dat (us.map sub) wet (time n) (fx n) junkD q junk) s = .ok s')
    {G : U → Mail K} (hG : ∀ u, ∀ b ∈ (sub u).dist, G u b.e' b.f' = bathMessage v dat b.e' b.f') {mem : U → Res (EMem K)}
    (hm : ∀ u, ∃ x, mem u = .ok ⟨x, G u⟩ ∧ Holds (sub u).elts ns n s x) (u : U) :
    ∃ x, stageMem nbrs (ehdgKernels v dat sub owner tab ns dt pp time fx junkD) pp.wd.isSome pp.sl.isSome n mem u = .ok ⟨x, G u⟩ ∧
      Holds (sub u).elts ns (n + 1) s' x := by
  have hstage : ∀ u : U, (s.stage + 1) % ns = (n + 1) % ns := by
    intro u
    obtain ⟨x, -, hh⟩ := hm u
    rw [hh.stage, Nat.mod_add_mod]
  unfold stageParallelWith at h
  obtain ⟨cur, c1, h⟩ := bindOk h
  obtain ⟨rhs, c2, h⟩ := bindOk h
  obtain ⟨l1, c3, h⟩ := bindOk h
  obtain ⟨l2, c4, h⟩ := bindOk h
  obtain ⟨new, c5, h⟩ := bindOk h
  obtain ⟨f, c6, h⟩ := bindOk h
  obtain ⟨l3, c7, h⟩ := bindOk h
  cases h
  rw [slotOr_ok] at c1 c3 c4 c5 c7
  rw [hstage u] at c5 c7 ⊢
  -- the part without the bathymetry
  have hm' : ∀ u, ∃ x, (fun w => theUnit (mem w)) u = .ok x ∧ Holds (sub u).elts ns n s x := by
    intro u
    obtain ⟨x, h1, h2⟩ := hm u
    exact ⟨x, by simp only [h1, theUnit_ok], h2⟩
  -- after `UpdateState`
  have hA : ∀ w, ∃ y, ehdgAfterMem v dat (sub w) tab ns dt junkD n (onUnit (ehdgBefore v dat (sub w) ns time fx n) (mem w))
        (mailOf owner (hears nbrs (fun w x _ => ehdgPack v dat (sub w) ns n (theUnit x)) mem w)) = .ok ⟨y, G w⟩ ∧
      Mid (sub w).elts l2 ((n + 1) % ns) ⟨new.q, s.wet, s.emptied⟩ y := by
    intro w
    obtain ⟨y, h1, h2, h3⟩ := ehdg_unit_after hs hn hall hm' c1 c2 c3 c4 w (hG w)
    refine ⟨y, ?_, l2, ?_, h2, h3⟩
    · obtain ⟨x, h4, h5⟩ := hm w
      have h6 : ∃ z, ehdgBefore v dat (sub w) ns time fx n (.ok x) = .ok z := by
        have h1' := h1
        simp only [h4, theUnit_ok] at h1'
        cases hz : ehdgBefore v dat (sub w) ns time fx n (.ok x) with
        | ok z => exact ⟨z, rfl⟩
        | error z => rw [hz] at h1'; cases h1'
      obtain ⟨z, h6⟩ := h6
      simp only [h4, theUnit_ok, h6] at h1
      rw [h4, onUnit_ok (G w) h6]
      simp only [ehdgAfterMem, okBind]
      have h7 : hears nbrs (fun w x _ => ehdgPack v dat (sub w) ns n (theUnit x)) mem w =
          hears nbrs (fun w x _ => ehdgPack v dat (sub w) ns n x) (fun w => theUnit (mem w)) w := rfl
      rw [h7, h1]
      rfl
    · unfold Stepper.setQ
      rw [c5]
      show some (l2.set ((n + 1) % ns) new) = some l2
      obtain ⟨hi, he⟩ := List.getElem?_eq_some_iff.mp c5
      rw [← he, List.set_getElem_self]
  -- wetting and drying
  have hB : ∀ w, ∃ y, (if pp.wd.isSome then fun w => onUnit (unitWetDry dat (sub w) pp.wd ns (n + 1)) (ehdgAfterMem v dat (sub w) tab ns dt junkD n
        (onUnit (ehdgBefore v dat (sub w) ns time fx n) (mem w))
        (mailOf owner (hears nbrs (fun w x _ => ehdgPack v dat (sub w) ns n (theUnit x)) mem w)))
      else fun w => ehdgAfterMem v dat (sub w) tab ns dt junkD n (onUnit (ehdgBefore v dat (sub w) ns time fx n) (mem w))
        (mailOf owner (hears nbrs (fun w x _ => ehdgPack v dat (sub w) ns n (theUnit x)) mem w))) w = .ok ⟨y, G w⟩ ∧
      Mid (sub w).elts l2 ((n + 1) % ns) f y := by
    intro w
    obtain ⟨y, h1, h2⟩ := hA w
    cases hwd : pp.wd with
    | none =>
      rw [hwd] at c6
      have : f = ⟨new.q, s.wet, s.emptied⟩ := by
        have key : ∀ (ms : List (Mesh K)) (s : Flow K), ms.foldlM (fun s m => wdAll dat m none s) s = .ok s := by
          intro ms
          induction ms with
          | nil => exact fun _ => rfl
          | cons a l ih => exact fun s => ih s
        rw [wdParallel, key] at c6
        cases c6; rfl
      subst this
      exact ⟨y, h1, h2⟩
    | some wp =>
      rw [hwd] at c6
      obtain ⟨z, h3, h4⟩ := unit_wd hs hn hall wp c6 w h2
      refine ⟨z, ?_, h4⟩
      simp only [Option.isSome_some, if_true, h1]
      exact onUnit_ok _ h3
  -- the limiter
  have hC : ∀ w, ∃ y, stageMem nbrs (ehdgKernels v dat sub owner tab ns dt pp time fx junkD) pp.wd.isSome pp.sl.isSome n mem w = .ok ⟨y, G w⟩ ∧
      Mid (sub w).elts l2 ((n + 1) % ns) (slParallel v dat (us.map sub) pp.sl f) y := by
    intro w
    cases hsl : pp.sl with
    | none => exact hB w
    | some p =>
      obtain ⟨x, h3, h4⟩ := hB w
      obtain ⟨y, h1, h2⟩ := unit_sl (v := v) (dat := dat) (owner := owner) (nbrs := nbrs) hs hall p (f := f) (ns := ns) (n := n + 1) (l := l2)
        (mem := fun w => theUnit ((if pp.wd.isSome then fun w => onUnit (unitWetDry dat (sub w) pp.wd ns (n + 1)) (ehdgAfterMem v dat (sub w) tab ns dt junkD n
        (onUnit (ehdgBefore v dat (sub w) ns time fx n) (mem w))
        (mailOf owner (hears nbrs (fun w x _ => ehdgPack v dat (sub w) ns n (theUnit x)) mem w)))
      else fun w => ehdgAfterMem v dat (sub w) tab ns dt junkD n (onUnit (ehdgBefore v dat (sub w) ns time fx n) (mem w))
        (mailOf owner (hears nbrs (fun w x _ => ehdgPack v dat (sub w) ns n (theUnit x)) mem w))) w)) (fun w => by
          obtain ⟨x, h3, h4⟩ := hB w
          exact ⟨x, by simp only [h3, theUnit_ok], h4⟩) w
      refine ⟨y, ?_, h2⟩
      simp only [h3, theUnit_ok] at h1
      simp only [stageMem, ehdgKernels, hsl, Option.isSome_some, if_true, unitLimitOpt, unitPackBaryOpt]
      rw [h3]
      exact onUnit_ok _ h1
  obtain ⟨y, h1, l4, h2, h3, h4⟩ := hC u
  rw [c7] at h2
  cases h2
  exact ⟨y, h1, rfl, h3, h4⟩

/-- Any number of stages. -/
theorem ehdg_unit_run {sub : U → Mesh K} {owner : ℕ → U} {nbrs : U → List U} (hs : Shared sub owner nbrs) {us : List U} (hn : us.Nodup)
    (hall : ∀ u, u ∈ us) {tab : Stepper.Tableau} {ns : ℕ} {dt : K} {pp : PostParams K} {junk : State K} {time : ℕ → K} {fx : ℕ → Faces K}
    {junkD : Dbnd K → ℕ → Q K} {n : ℕ} {s s' : Run K}
    (h : Ehdg.runParallel v dat (us.map sub) tab ns dt pp junk time fx junkD n s = .ok s')
    {G : U → Mail K} (hG : ∀ u, ∀ b ∈ (sub u).dist, G u b.e' b.f' = bathMessage v dat b.e' b.f') {mem : U → Res (EMem K)}
    (hm : ∀ u, ∃ x, mem u = .ok ⟨x, G u⟩ ∧ Holds (sub u).elts ns 0 s x) (u : U) :
    ∃ x, stagesMem nbrs (ehdgKernels v dat sub owner tab ns dt pp time fx junkD) pp.wd.isSome pp.sl.isSome n 0 mem u = .ok ⟨x, G u⟩ ∧
      Holds (sub u).elts ns n s' x := by
  induction n generalizing s' u with
  | zero =>
    cases h
    exact hm u
  | succ n ih =>
    rw [Ehdg.runParallel, runParallelWith] at h
    obtain ⟨s1, h1, h2⟩ := bindOk h
    rw [stages_succ, Nat.zero_add]
    exact ehdg_unit_stage hs hn hall h2 hG (ih h1) u

omit [LinearOrder K] in
/-- The exchange of the bathymetry in the preprocessor: every unit has the numbers of the other sides of its distributed boundaries. -/
theorem ehdg_unit_pre {sub : U → Mesh K} {owner : ℕ → U} {nbrs : U → List U} (hs : Shared sub owner nbrs) (u : U) :
    ∀ b ∈ (sub u).dist, mailOf owner (hears nbrs (fun w (_ : Res (EMem K)) _ => bathPack v dat (sub w)) (fun _ => .error .ub) u) b.e' b.f' =
      bathMessage v dat b.e' b.f' := by
  intro b hb
  obtain ⟨h1, h2⟩ := hs.mirror u b hb
  simp only [mailOf, hears, if_pos h1, bathPack, if_pos h2]

section
variable [IsStrictOrderedRing K]
variable {nR : ℕ} {nT nU : Fin nR → ℕ} {hT : ∀ r, 0 < nT r}
  {nbrs : (Σ r, Fin (nU r)) → List (Σ r, Fin (nU r))} {early : (Σ r, Fin (nU r)) → CommType → ℕ → Bool}

/-- At the end of every schedule, every unit holds its part of the state with which the serial program ends. -/
theorem ehdg_schedules_holds (hb : ∀ r, nU r + nT r ≤ 2 ^ 32) (hn : ∀ u w, w ∈ nbrs u → u ∈ nbrs w) {m : Mesh K}
    {cut : List (Iface K)} {sub : (Σ r, Fin (nU r)) → Mesh K} {us : List (Σ r, Fin (nU r))} (hu : us.Nodup) (hall : ∀ u, u ∈ us)
    (hp : Partitioned (fun i => (i.rule v dat).length) m (us.map sub) cut) (hc : ∀ i ∈ cut, Meets dat i)
    {owner : ℕ → Σ r, Fin (nU r)} (ho : ∀ u, ∀ e ∈ (sub u).elts, owner e = u) (hnb : ∀ u, ∀ b ∈ (sub u).dist, owner b.e' ∈ nbrs u)
    {tab : Stepper.Tableau} {ns nsteps : ℕ} {dt : K} {pp : PostParams K} (hsl : pp.sl ≠ none → Covered m ∧ ∀ e, 1 ≤ (dat e).elt.p) {junk : State K}
    {time : ℕ → K} {fx : ℕ → Faces K} (junkD : Dbnd K → ℕ → Q K) {s s' : Run K} (hrun : Ehdg.run v dat m tab ns dt pp junk time fx (nsteps * ns) s = .ok s')
    {init : (Σ r, Fin (nU r)) → Loc (Σ r, Fin (nU r)) CommType (Res (EMem K)) (Mail K)} (hi : ∀ u, idle (init u))
    (hinit : ∀ u, ∃ x, (init u).mem = .ok x ∧ Holds (sub u).elts ns 0 s x.unit)
    {z : St (Σ r, Fin (nU r)) (Fin nR) (Σ r, Fin (nT r)) CommType (Res (EMem K)) (Mail K)}
    (hz : Schedule.Reach (simTeam nR nT nU hT nbrs early) (runText (preText true (ehdgKernels v dat sub owner tab ns dt pp time fx junkD))
      (ehdgKernels v dat sub owner tab ns dt pp time fx junkD) pp.wd.isSome pp.sl.isSome ns nsteps) init z) (hf : Finished z) (u : Σ r, Fin (nU r)) :
    ∃ x, (z.loc u).mem = .ok x ∧ Holds (sub u).elts ns (nsteps * ns) s' x.unit := by
  have hpar := (ehdg_parallel_run hp hc tab ns dt pp hsl junk time fx junkD (nsteps * ns) s s').mpr hrun
  obtain ⟨h1, -⟩ := sim_result hb hn _ true _ _ ns nsteps init hi hz hf
  have hs := shared_of hall hp ho hnb
  obtain ⟨x, h2, h3⟩ := ehdg_unit_run (owner := owner) (nbrs := nbrs) hs hu hall hpar (ehdg_unit_pre hs)
    (mem := fun u => preMem nbrs (ehdgKernels v dat sub owner tab ns dt pp time fx junkD) true (fun u => (init u).mem) u) (fun u => by
      obtain ⟨x, h4, h5⟩ := hinit u
      refine ⟨x.unit, ?_, h5⟩
      simp only [preMem, ehdgKernels, if_true, h4, takeBath, okBind]
      rfl) u
  have h4 : (z.loc u).mem = _ := congrFun h1 u
  refine ⟨_, h4.trans (Eq.trans ?_ h2), h3⟩
  rw [ runMem, steps_stages _ _ (fun _ _ _ => rfl)]
  rfl

/-- **C134.** However the threads of all ranks are scheduled and whatever MPI buffers: if the serial program ends `nsteps` steps of `ns` stages on the
whole mesh with the state `s'`, then every schedule of the threaded program on a partition of the mesh that has come to its end has left in the memory of
every unit the slots and the wet flags of `s'` for all elements of the unit. What the units held for elements of others and for the bathymetry of others does
not matter. -/
theorem ehdg_schedules_serial (hb : ∀ r, nU r + nT r ≤ 2 ^ 32) (hn : ∀ u w, w ∈ nbrs u → u ∈ nbrs w) {m : Mesh K}
    {cut : List (Iface K)} {sub : (Σ r, Fin (nU r)) → Mesh K} {us : List (Σ r, Fin (nU r))} (hu : us.Nodup) (hall : ∀ u, u ∈ us)
    (hp : Partitioned (fun i => (i.rule v dat).length) m (us.map sub) cut) (hc : ∀ i ∈ cut, Meets dat i)
    {owner : ℕ → Σ r, Fin (nU r)} (ho : ∀ u, ∀ e ∈ (sub u).elts, owner e = u) (hnb : ∀ u, ∀ b ∈ (sub u).dist, owner b.e' ∈ nbrs u)
    {tab : Stepper.Tableau} {ns nsteps : ℕ} {dt : K} {pp : PostParams K} (hsl : pp.sl ≠ none → Covered m ∧ ∀ e, 1 ≤ (dat e).elt.p) {junk : State K}
    {time : ℕ → K} {fx : ℕ → Faces K} (junkD : Dbnd K → ℕ → Q K) {s s' : Run K} (hrun : Ehdg.run v dat m tab ns dt pp junk time fx (nsteps * ns) s = .ok s')
    {init : (Σ r, Fin (nU r)) → Loc (Σ r, Fin (nU r)) CommType (Res (EMem K)) (Mail K)} (hi : ∀ u, idle (init u))
    (hinit : ∀ u, ∃ x, (init u).mem = .ok x ∧ Holds (sub u).elts ns 0 s x.unit)
    {z : St (Σ r, Fin (nU r)) (Fin nR) (Σ r, Fin (nT r)) CommType (Res (EMem K)) (Mail K)}
    (hz : Schedule.Reach (simTeam nR nT nU hT nbrs early) (runText (preText true (ehdgKernels v dat sub owner tab ns dt pp time fx junkD))
      (ehdgKernels v dat sub owner tab ns dt pp time fx junkD) pp.wd.isSome pp.sl.isSome ns nsteps) init z) (hf : Finished z) (u : Σ r, Fin (nU r)) :
    ∃ x, (z.loc u).mem = .ok x ∧ x.unit.slots.length = s'.slots.length ∧
      (∀ (i : ℕ) (a b : Stepper.Slot (State K)), s'.slots[i]? = some a → x.unit.slots[i]? = some b → ∀ e ∈ (sub u).elts, a.q e = b.q e) ∧
      ∀ e ∈ (sub u).elts, x.unit.wet e = s'.wet e := by
  obtain ⟨x, h1, h3⟩ := ehdg_schedules_holds hb hn hu hall hp hc ho hnb hsl junkD hrun hi hinit hz hf u
  exact ⟨x, h1, h3.slots.1.symm, fun i a b ha hb => (h3.slots.2 i a b ha hb).1, fun e he => (h3.wet e he).symm⟩

omit [IsStrictOrderedRing K] in
/-- Some schedule always comes to its end, from every state. -/
theorem ehdg_schedules_end (hb : ∀ r, nU r + nT r ≤ 2 ^ 32) (hn : ∀ u w, w ∈ nbrs u → u ∈ nbrs w) (sub : (Σ r, Fin (nU r)) → Mesh K)
    (owner : ℕ → Σ r, Fin (nU r)) (tab : Stepper.Tableau) (ns nsteps : ℕ) (dt : K) (pp : PostParams K) (time : ℕ → K) (fx : ℕ → Faces K)
    (junkD : Dbnd K → ℕ → Q K) {init : (Σ r, Fin (nU r)) → Loc (Σ r, Fin (nU r)) CommType (Res (EMem K)) (Mail K)} (hi : ∀ u, idle (init u))
    {z : St (Σ r, Fin (nU r)) (Fin nR) (Σ r, Fin (nT r)) CommType (Res (EMem K)) (Mail K)}
    (hz : Schedule.Reach (simTeam nR nT nU hT nbrs early) (runText (preText true (ehdgKernels v dat sub owner tab ns dt pp time fx junkD))
      (ehdgKernels v dat sub owner tab ns dt pp time fx junkD) pp.wd.isSome pp.sl.isSome ns nsteps) init z) :
    ∃ z', Relation.ReflTransGen (Move (simTeam nR nT nU hT nbrs early)) z z' ∧ Finished z' :=
  (sim_ends hb hn _ true _ _ ns nsteps init hi).2 z hz

end

/-! ### The serial program comes to its end -/

open Verif.Stepper in
/-- With thresholds as they should be, every run of the serial program succeeds, whatever the right-hand side. -/
theorem with_succeeds [IsStrictOrderedRing K] (v : Env K) (dat : ℕ → EltData K) (m : Mesh K) {tab : Tableau} {ns o : ℕ} (htab : tableau ns o = some tab) (dt : K)
    (pp : PostParams K) (hp : ∀ w, pp.wd = some w → 0 < w.thr ∧ w.thr ≤ w.ho) (hdeg : ∀ e, 1 ≤ (dat e).elt.p) (R : ℕ → (ℕ → Bool) → State K → State K)
    (slots : List (Slot (State K))) (hlen : ns + 1 ≤ slots.length) (wet : ℕ → Bool) (n : ℕ) :
    ∃ s, runWith v dat m tab ns dt pp R n ⟨slots, 0, wet, false⟩ = .ok s ∧ s.stage = n % ns := by
  have hns := (Stepper.shapeOK_of_tableau htab).2.1
  suffices h : ∃ s, runWith v dat m tab ns dt pp R n ⟨slots, 0, wet, false⟩ = .ok s ∧
      RunInv (fun _ => True) (fun _ => True) (fun _ => True) ns s ∧ s.stage = n % ns by
    obtain ⟨s, h1, _, h2⟩ := h
    exact ⟨s, h1, h2⟩
  induction n with
  | zero =>
    refine ⟨_, rfl, ⟨hns, hlen, fun i hi => ?_, fun i hi => ?_, trivial⟩, (Nat.zero_mod _).symm⟩
    · obtain rfl : i = 0 := by simpa using hi
      exact ⟨slots[0], by simp, trivial⟩
    · simp at hi
  | succ n ih =>
    obtain ⟨s, h1, h2, h3⟩ := ih
    obtain ⟨slots', q, y, _, hl, hy, hold, e⟩ := with_forward (v := v) (dat := dat) (m := m) (dt := dt) pp htab
      (fun _ _ _ _ _ => trivial) (R := R n) (fun _ _ _ _ => trivial) h2
    obtain ⟨f, hf⟩ := wdAll_ok (dat := dat) (m := m) hp hdeg ⟨q, s.wet, s.emptied⟩
    rw [hf] at e
    refine ⟨_, by rw [runWith, h1]; exact e, ⟨Nat.mod_lt _ hns, by simpa using hl, fun i hi => ?_, fun i hi => ?_, trivial⟩, ?_⟩
    · simp only at hi ⊢
      have : i < (slots'.set ((s.stage + 1) % ns) ⟨(slAll v dat m pp.sl f).q, y⟩).length := by
        have := Nat.mod_lt (s.stage + 1) hns
        simp; omega
      exact ⟨_, List.getElem?_eq_getElem this, trivial⟩
    · simp only at hi ⊢
      have : i < (slots'.set ((s.stage + 1) % ns) ⟨(slAll v dat m pp.sl f).q, y⟩).length := by
        have := Nat.mod_lt (s.stage + 1) hns
        simp; omega
      exact ⟨_, List.getElem?_eq_getElem this, trivial⟩
    · simp only
      rw [h3, Nat.mod_add_mod]

/-! ### Example: two ranks with one triangle each -/

/-- Any run of the two ranks, with wetting and drying and the limiter, from any state: it can be brought to an end, and the end has the serial solution. -/
example (rd : ℝ → ℝ) (b : ℕ → ℕ → ℝ) (wd : WdParams ℝ) (hwd : 0 < wd.thr ∧ wd.thr ≤ wd.ho) (sl : SlParams ℝ) {tab : Stepper.Tableau} {ns o : ℕ}
    (htab : Stepper.tableau ns o = some tab) (dt : ℝ) (time : ℕ → ℝ) (fx : ℕ → Faces ℝ) (junkD : Dbnd ℝ → ℕ → Q ℝ) (nsteps : ℕ)
    (slots : List (Stepper.Slot (State ℝ))) (hlen : ns + 1 ≤ slots.length) (wet : ℕ → Bool) (old : Mail ℝ) (early : (Σ _ : Fin 2, Fin 1) → CommType → ℕ → Bool)
    (com : CommType → Req (Σ _ : Fin 2, Fin 1) (Mail ℝ)) (hcom : ∀ c, (com c).rAct = false ∧ (com c).sAct = false ∧
      (com c).posted = 0 ∧ (com c).recvd = 0 ∧ (com c).started = 0 ∧ ∀ w, (com c).out w = []) :
    ∃ s', Ehdg.run (plainEnv (codeNumerics rd) Real.sqrt) (twoTris 1 b) twoMesh tab ns dt ⟨some wd, some sl⟩ 0 time fx (nsteps * ns)
        ⟨slots, 0, wet, false⟩ = .ok s' ∧
      ∃ z, Schedule.Reach (simTeam 2 (fun _ => 1) (fun _ => 1) (fun _ => Nat.one_pos) twoNbrs early)
          (runText (preText true (ehdgKernels (plainEnv (codeNumerics rd) Real.sqrt) (twoTris 1 b) twoSub twoOwner tab ns dt ⟨some wd, some sl⟩ time fx junkD))
            (ehdgKernels (plainEnv (codeNumerics rd) Real.sqrt) (twoTris 1 b) twoSub twoOwner tab ns dt ⟨some wd, some sl⟩ time fx junkD) true true ns nsteps)
          (fun _ => ⟨.ok ⟨⟨slots, wet, false, 0⟩, old⟩, com⟩) z ∧ Finished z ∧
        ∃ x, (z.loc ⟨1, 0⟩).mem = .ok x ∧ x.unit.wet 1 = s'.wet 1 := by
  obtain ⟨s', h1, -⟩ := with_succeeds (plainEnv (codeNumerics rd) Real.sqrt) (twoTris 1 b) twoMesh htab dt ⟨some wd, some sl⟩
    (by rintro w ⟨⟩; exact hwd) (fun _ => Nat.le_refl _)
    (fun k wet q => Ehdg.localRhs (plainEnv (codeNumerics rd) Real.sqrt) (twoTris 1 b) twoMesh wet (time k) (fx k) q 0) slots hlen wet (nsteps * ns)
  have hb : ∀ _ : Fin 2, 1 + 1 ≤ 2 ^ 32 := by decide
  have hn : ∀ u w, w ∈ twoNbrs u → u ∈ twoNbrs w := by decide
  have hidle : ∀ u : (Σ _ : Fin 2, Fin 1), idle (⟨.ok ⟨⟨slots, wet, false, 0⟩, old⟩, com⟩ : Loc (Σ _ : Fin 2, Fin 1) CommType (Res (EMem ℝ)) (Mail ℝ)) :=
    fun _ => hcom
  obtain ⟨z, h2, h3⟩ := ehdg_schedules_end (v := plainEnv (codeNumerics rd) Real.sqrt) (dat := twoTris 1 b) (nT := fun _ : Fin 2 => 1)
    (nU := fun _ => 1) (hT := fun _ => Nat.one_pos) (early := early) hb hn twoSub twoOwner tab ns nsteps dt ⟨some wd, some sl⟩ time fx junkD hidle
    Relation.ReflTransGen.refl
  refine ⟨s', h1, z, h2, h3, ?_⟩
  obtain ⟨x, h4, -, -, h5⟩ := ehdg_schedules_serial (us := twoUnits) (sub := twoSub) (owner := twoOwner) hb hn (by decide) (by decide)
    (two_partitioned _) (fun i hi => by
      obtain rfl : i = _ := by simpa using hi
      exact two_meets 1 b) two_owns two_hears (fun _ => ⟨two_covered, fun _ => Nat.le_refl _⟩) junkD h1 hidle
    (fun u => ⟨_, rfl, (Nat.zero_mod _).symm, ⟨rfl, fun i a b ha hb => by
      rw [ha] at hb
      cases hb
      exact ⟨fun _ _ => rfl, fun _ _ => rfl⟩⟩, fun _ _ => rfl⟩) h2 h3 ⟨1, 0⟩
  exact ⟨x, h4, h5 1 (by simp [twoSub])⟩

end Verif.Ehdg.Props
