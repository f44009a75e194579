import Verif.Lemmas.SweUnit
import Verif.Props.Parallel
import Verif.Props.ScheduleRun
import Verif.Props.Water

/-!
# C133: every schedule of the threaded RKDG program ends with the solution of the serial program
-/

namespace Verif.Swe.Props
open Verif.Geometry Verif.Element Verif.Swe Verif.Schedule Verif.Schedule.Props

variable {K : Type} [Field K] [LinearOrder K] {U : Type} [DecidableEq U]
variable {v : Env K} {dat : ℕ → EltData K}

/-- The unit holds the part `S` of the state `s` when the stepper has been advanced `n` times. -/
structure Holds (S : List ℕ) (ns n : ℕ) (s : Run K) (x : UnitMem K) : Prop where
  stage : s.stage = n % ns
  slots : SlotsSame S s.slots x.slots
  wet : ∀ e ∈ S, s.wet e = x.wet e

omit [Field K] [LinearOrder K] in
theorem slotOr_ok {α : Type} {o : Option α} {x : α} : slotOr o = .ok x ↔ o = some x := by
  cases o with
  | none => exact ⟨fun h => (by cases h), fun h => (by cases h)⟩
  | some y => exact ⟨fun h => (by cases h; rfl), fun h => (by cases h; rfl)⟩

omit [Field K] [LinearOrder K] [DecidableEq U] in
theorem shared_flat {sub : U → Mesh K} {owner : ℕ → U} {nbrs : U → List U} (hs : Shared sub owner nbrs) {us : List U} (hn : us.Nodup) :
    ((us.map sub).flatMap Mesh.elts).Nodup := by
  rw [List.flatMap_map, List.nodup_flatMap]
  refine ⟨fun u _ => hs.nodup u, ?_⟩
  refine hn.imp ?_
  intro a b hab e ha hb
  exact hab ((hs.owns a e ha).symm.trans (hs.owns b e hb))

/-- Up to `UpdateState`. -/
theorem unit_after {sub : U → Mesh K} {owner : ℕ → U} {nbrs : U → List U} (hs : Shared sub owner nbrs) {us : List U} (hn : us.Nodup)
    (hall : ∀ u, u ∈ us) {tab : Stepper.Tableau} {ns : ℕ} {dt : K} {junk : State K} {time ramp : ℕ → K} {n : ℕ} {s : Run K}
    {mem : U → Res (UnitMem K)} (hm : ∀ u, ∃ x, mem u = .ok x ∧ Holds (sub u).elts ns n s x) {cur : Stepper.Slot (State K)} {rhs : State K}
    {l1 l2 : List (Stepper.Slot (State K))} (c1 : s.slots[s.stage]? = some cur)
    (c2 : parallelRhs v dat (us.map sub) s.wet (time n) (ramp n) cur.q junk = .ok rhs)
    (c3 : Stepper.setSolution s.slots s.stage (solve v dat rhs) = some l1) (c4 : Stepper.updateState tab ns dt s.stage l1 = some l2) (u : U) :
    ∃ y, unitAfter v dat (sub u) tab ns dt n (unitBefore v dat (sub u) ns time ramp n (mem u))
        (mailOf owner (hears nbrs (fun w x _ => unitPack v dat (sub w) ns n x) mem u)) = .ok y ∧
      SlotsSame (sub u).elts l2 y.slots ∧ ∀ e ∈ (sub u).elts, s.wet e = y.wet e := by
  -- the messages
  have hmail : ∀ b ∈ (sub u).dist, mailOf owner (hears nbrs (fun w x _ => unitPack v dat (sub w) ns n x) mem u) b.e' b.f' =
      message v dat s.wet cur.q b.e' b.f' := by
    intro b hb
    obtain ⟨h1, h2⟩ := hs.mirror u b hb
    obtain ⟨x, hx, hh⟩ := hm (owner b.e')
    rw [hh.stage] at c1
    obtain ⟨cur', h3, h4⟩ := slots_get hh.slots c1
    have he := sends_own hs h2
    simp only [mailOf, hears, if_pos h1, unitPack, hx, h3, if_pos h2]
    exact (message_congr v dat _ (h4.1 _ he) (hh.wet _ he)).symm
  obtain ⟨x, hx, hh⟩ := hm u
  rw [hh.stage] at c1 c3 c4
  obtain ⟨cur', h3, h4⟩ := slots_get hh.slots c1
  -- the right-hand side
  have c2' : us.foldlM (fun r u => (sub u).dist.foldlM (dboundMail v dat s.wet cur.q (message v dat s.wet cur.q)) r)
      (us.foldl (fun r u => localRhs v dat (sub u) s.wet (time n) (ramp n) cur.q r) junk) = .ok rhs := by
    rw [parallelRhs, dbound_mail, List.foldl_map, List.foldlM_map] at c2
    exact c2
  obtain ⟨r1, x1, h5, h6⟩ := dists_own v dat hs hn (hall u) c2'
  obtain ⟨x2, h7, h8⟩ := dist_same v dat (wet' := x.wet) (q' := cur'.q)
    (mail' := mailOf owner (hears nbrs (fun w x _ => unitPack v dat (sub w) ns n x) mem u)) (sub u).elts (sub u).dist
    (r' := localRhs v dat (sub u) x.wet (time n) (ramp n) cur'.q x.rhs) (fun b hb => by
      rw [hmail b hb]
      exact amount_congr v dat _ (h4.1 _ (hs.dist u b hb)) (hh.wet _ (hs.dist u b hb))) (fun e he => by
      rw [(h6 e he).1, locals_own v dat hs _ _ _ _ hn (hall u) he junk x.rhs]
      exact localRhs_congr v dat (hs.nodup u) (hs.ints u) (hs.bnds u) _ _ _ _ h4.1 hh.wet he) h5
  have hsol : ∀ e ∈ (sub u).elts, solve v dat rhs e = solve v dat x2 e := by
    intro e he
    funext var
    show (dat e).elt.applyMinv v.N (rhs e var) = (dat e).elt.applyMinv v.N (x2 e var)
    rw [(h6 e he).2, h8 e he]
  obtain ⟨l1', h9, h10⟩ := setSolution_same hh.slots hsol c3
  obtain ⟨l2', h11, h12⟩ := updateState_same h10 tab ns dt _ c4
  refine ⟨{ x with slots := l2', rhs := x2 }, ?_, h12, hh.wet⟩
  simp only [unitAfter, unitBefore, hx, h3, slotOr, okBind, pure, Except.pure]
  rw [h7, okBind, h9]
  simp only [okBind, h11]

/-- What the unit holds in the middle of the post-processing: the whole program has the flow `f` for the slot `st` of `l`. -/
def Mid (S : List ℕ) (l : List (Stepper.Slot (State K))) (st : ℕ) (f : Flow K) (x : UnitMem K) : Prop :=
  ∃ l', Stepper.setQ l st f.q = some l' ∧ SlotsSame S l' x.slots ∧ ∀ e ∈ S, f.wet e = x.wet e

omit [Field K] [LinearOrder K] in
theorem mid_get {S : List ℕ} {l : List (Stepper.Slot (State K))} {st : ℕ} {f : Flow K} {x : UnitMem K} (h : Mid S l st f x) :
    ∃ b, x.slots[st]? = some b ∧ ∀ e ∈ S, f.q e = b.q e := by
  obtain ⟨l', h1, h2, -⟩ := h
  unfold Stepper.setQ at h1
  cases ha : l[st]? with
  | none => rw [ha] at h1; cases h1
  | some a =>
    rw [ha] at h1
    cases h1
    have hi : st < l.length := (List.getElem?_eq_some_iff.mp ha).1
    obtain ⟨b, h3, h4⟩ := slots_get h2 (List.getElem?_set_self hi)
    exact ⟨b, h3, h4.1⟩

omit [Field K] [LinearOrder K] in
theorem mid_set {S : List ℕ} {l : List (Stepper.Slot (State K))} {st : ℕ} {f f' : Flow K} {x : UnitMem K} (h : Mid S l st f x) {q : State K}
    (hq : ∀ e ∈ S, f'.q e = q e) (wet : ℕ → Bool) (hw : ∀ e ∈ S, f'.wet e = wet e) (em : Bool) :
    ∃ l', Stepper.setQ x.slots st q = some l' ∧ Mid S l st f' { x with slots := l', wet := wet, emptied := em } := by
  obtain ⟨l', h1, h2, -⟩ := h
  unfold Stepper.setQ at h1
  cases ha : l[st]? with
  | none => rw [ha] at h1; cases h1
  | some a =>
    rw [ha] at h1
    cases h1
    have hi : st < l.length := (List.getElem?_eq_some_iff.mp ha).1
    obtain ⟨b, h3, h4⟩ := slots_get h2 (List.getElem?_set_self hi)
    refine ⟨x.slots.set st { b with q := q }, ?_, l.set st { a with q := f'.q }, ?_, ?_, hw⟩
    · unfold Stepper.setQ
      rw [h3]
      rfl
    · unfold Stepper.setQ
      rw [ha]
      rfl
    · have := slots_set h2 st (a := { a with q := f'.q }) (b := { b with q := q }) ⟨hq, h4.2⟩
      rwa [List.set_set] at this

omit [DecidableEq U] in
/-- Wetting and drying. -/
theorem unit_wd {sub : U → Mesh K} {owner : ℕ → U} {nbrs : U → List U} (hs : Shared sub owner nbrs) {us : List U} (hn : us.Nodup)
    (hall : ∀ u, u ∈ us) (w : WdParams K) {f f' : Flow K} (h : wdParallel dat (us.map sub) (some w) f = .ok f') (u : U) {ns n : ℕ}
    {l : List (Stepper.Slot (State K))} {x : UnitMem K} (hx : Mid (sub u).elts l (n % ns) f x) :
    ∃ y, unitWetDry dat (sub u) (some w) ns n (.ok x) = .ok y ∧ Mid (sub u).elts l (n % ns) f' y := by
  obtain ⟨b, h1, h2⟩ := mid_get hx
  have h3 : ∀ e ∈ (sub u).elts, f.wet e = x.wet e := hx.choose_spec.2.2
  unfold wdParallel at h
  simp only [wdAll] at h
  rw [foldlM_flat (wdStep dat w) Mesh.elts (us.map sub) f, wdFold_spec dat w _ (shared_flat hs hn)] at h
  obtain ⟨o, h4, h5⟩ := h
  have hin : ∀ e ∈ (sub u).elts, e ∈ (us.map sub).flatMap Mesh.elts := fun e he =>
    List.mem_flatMap.mpr ⟨sub u, List.mem_map.mpr ⟨u, hall u, rfl⟩, he⟩
  have h6 : (sub u).elts.foldlM (wdStep dat w) ⟨b.q, x.wet, x.emptied⟩ = .ok ⟨fun e => if e ∈ (sub u).elts then ofRows (o e).q else b.q e,
      fun e => if e ∈ (sub u).elts then (o e).wet else x.wet e, x.emptied || (sub u).elts.any fun e => (o e).emptied⟩ := by
    rw [wdFold_spec dat w _ (hs.nodup u)]
    refine ⟨o, fun e he => ?_, rfl⟩
    rw [← h4 e (hin e he)]
    simp only [wdOut, h2 e he, h3 e he]
  obtain ⟨l', h7, h8⟩ := mid_set hx (f' := f') (q := fun e => if e ∈ (sub u).elts then ofRows (o e).q else b.q e)
    (fun e he => by rw [h5]; simp only [if_pos he, if_pos (hin e he)])
    (fun e => if e ∈ (sub u).elts then (o e).wet else x.wet e)
    (fun e he => by rw [h5]; simp only [if_pos he, if_pos (hin e he)]) (x.emptied || (sub u).elts.any fun e => (o e).emptied)
  refine ⟨_, ?_, h8⟩
  simp only [unitWetDry, okBind, h1, slotOr, wdAll, h6, h7]
  rfl

/-- The limiter. -/
theorem unit_sl {sub : U → Mesh K} {owner : ℕ → U} {nbrs : U → List U} (hs : Shared sub owner nbrs) {us : List U}
    (hall : ∀ u, u ∈ us) (p : SlParams K) {f : Flow K} {ns n : ℕ} {l : List (Stepper.Slot (State K))} {mem : U → Res (UnitMem K)}
    (hm : ∀ u, ∃ x, mem u = .ok x ∧ Mid (sub u).elts l (n % ns) f x) (u : U) :
    ∃ y, unitLimit v dat (sub u) p ns n (mem u) (mailOf owner (hears nbrs (fun w x _ => unitPackBary v dat (sub w) p ns n x) mem u)) = .ok y ∧
      Mid (sub u).elts l (n % ns) { f with q := limitedParallel v dat (us.map sub) p f } y := by
  have hmail : ∀ b ∈ (sub u).dist, slSend v dat p f b.e' b.f' =
      mailOf owner (hears nbrs (fun w x _ => unitPackBary v dat (sub w) p ns n x) mem u) b.e' b.f' := by
    intro b hb
    obtain ⟨h1, h2⟩ := hs.mirror u b hb
    obtain ⟨x, hx, hh⟩ := hm (owner b.e')
    obtain ⟨c, h3, h4⟩ := mid_get hh
    have he := sends_own hs h2
    simp only [mailOf, hears, if_pos h1, unitPackBary, hx, h3, if_pos h2]
    exact slSend_congr v dat p _ (h4 _ he) (hh.choose_spec.2.2 _ he)
  obtain ⟨x, hx, hh⟩ := hm u
  obtain ⟨b, h1, h2⟩ := mid_get hh
  have h3 : ∀ e ∈ (sub u).elts, f.wet e = x.wet e := hh.choose_spec.2.2
  obtain ⟨l', h4, h5⟩ := mid_set hh (f' := { f with q := limitedParallel v dat (us.map sub) p f })
    (q := unitLimited v dat (sub u) p (mailOf owner (hears nbrs (fun w x _ => unitPackBary v dat (sub w) p ns n x) mem u)) x.wet b.q)
    (fun e he => by
      have hfind : ∃ m, (us.map sub).find? (fun m => decide (e ∈ m.elts)) = some m ∧ m = sub u := by
        cases hf : (us.map sub).find? (fun m => decide (e ∈ m.elts)) with
        | none =>
          have := List.find?_eq_none.mp hf (sub u) (List.mem_map.mpr ⟨u, hall u, rfl⟩)
          simp [he] at this
        | some m =>
          refine ⟨m, rfl, ?_⟩
          obtain ⟨w, -, rfl⟩ := List.mem_map.mp (List.mem_of_find?_eq_some hf)
          have : e ∈ (sub w).elts := by simpa using List.find?_some hf
          rw [← hs.owns u e he, hs.owns w e this]
      obtain ⟨m, hf, rfl⟩ := hfind
      simp only [limitedParallel, hf, unitLimited, if_pos he]
      exact limited_congr v dat p (mail := slSend v dat p f) (hs.ints u) (hs.bnds u) hmail h2 h3 he) x.wet h3 x.emptied
  refine ⟨_, ?_, h5⟩
  simp only [unitLimit, hx, okBind, h1, slotOr, h4]
  rfl

/-- One stage: if the partitioned program of C70 ends it, every unit ends it with its part of the state. -/
theorem unit_stage {sub : U → Mesh K} {owner : ℕ → U} {nbrs : U → List U} (hs : Shared sub owner nbrs) {us : List U} (hn : us.Nodup)
    (hall : ∀ u, u ∈ us) {tab : Stepper.Tableau} {ns : ℕ} {dt : K} {pp : PostParams K} {junk : State K} {time ramp : ℕ → K} {n : ℕ} {s s' : Run K}
    (h : stageParallel v dat (us.map sub) tab ns dt pp junk (time n) (ramp n) s = .ok s') {mem : U → Res (UnitMem K)}
    (hm : ∀ u, ∃ x, mem u = .ok x ∧ Holds (sub u).elts ns n s x) (u : U) :
    ∃ x, stageMem nbrs (rkdgKernels v dat sub owner tab ns dt pp time ramp) pp.wd.isSome pp.sl.isSome n mem u = .ok x ∧
      Holds (sub u).elts ns (n + 1) s' x := by
  have hstage : ∀ u : U, (s.stage + 1) % ns = (n + 1) % ns := by
    intro u
    obtain ⟨x, -, hh⟩ := hm u
    rw [hh.stage, Nat.mod_add_mod]
  unfold stageParallel stageParallelWith at h
  obtain ⟨cur, c1, h⟩ := bindOk h
  obtain ⟨rhs, c2, h⟩ := bindOk h
  obtain ⟨l1, c3, h⟩ := bindOk h
  obtain ⟨l2, c4, h⟩ := bindOk h
  obtain ⟨new, c5, h⟩ := bindOk h
  obtain ⟨f, c6, h⟩ := bindOk h
  obtain ⟨l3, c7, h⟩ := bindOk h
  cases h
  rw [slotOr_ok] at c1 c3 c4 c5 c7
  rw [hstage u] at c5 c7 ⊢
  -- after `UpdateState`
  have hA := unit_after hs hn hall hm c1 c2 c3 c4
  have hA' : ∀ w, ∃ y, unitAfter v dat (sub w) tab ns dt n (unitBefore v dat (sub w) ns time ramp n (mem w))
        (mailOf owner (hears nbrs (fun w x _ => unitPack v dat (sub w) ns n x) mem w)) = .ok y ∧
      Mid (sub w).elts l2 ((n + 1) % ns) ⟨new.q, s.wet, s.emptied⟩ y := by
    intro w
    obtain ⟨y, h1, h2, h3⟩ := hA w
    refine ⟨y, h1, l2, ?_, h2, h3⟩
    unfold Stepper.setQ
    rw [c5]
    show some (l2.set ((n + 1) % ns) new) = some l2
    obtain ⟨hi, he⟩ := List.getElem?_eq_some_iff.mp c5
    rw [← he, List.set_getElem_self]
  -- wetting and drying
  have hB : ∀ w, ∃ y, (if pp.wd.isSome then fun w => unitWetDry dat (sub w) pp.wd ns (n + 1) (unitAfter v dat (sub w) tab ns dt n
        (unitBefore v dat (sub w) ns time ramp n (mem w)) (mailOf owner (hears nbrs (fun w x _ => unitPack v dat (sub w) ns n x) mem w)))
      else fun w => unitAfter v dat (sub w) tab ns dt n
        (unitBefore v dat (sub w) ns time ramp n (mem w)) (mailOf owner (hears nbrs (fun w x _ => unitPack v dat (sub w) ns n x) mem w))) w = .ok y ∧
      Mid (sub w).elts l2 ((n + 1) % ns) f y := by
    intro w
    obtain ⟨y, h1, h2⟩ := hA' w
    cases hwd : pp.wd with
    | none =>
      rw [hwd] at c6
      have : f = ⟨new.q, s.wet, s.emptied⟩ := by
        have key : ∀ (ms : List (Mesh K)) (s : Flow K), ms.foldlM (fun s m => wdAll dat m none s) s = .ok s := by
          intro ms
          induction ms with
          | nil => exact fun _ => rfl
          | cons a l ih => exact fun s => ih s
        rw [wdParallel, key] at c6
        cases c6; rfl
      subst this
      exact ⟨y, h1, h2⟩
    | some wp =>
      rw [hwd] at c6
      simp only [Option.isSome_some, if_true, h1]
      exact unit_wd hs hn hall wp c6 w h2
  -- the limiter
  have hC : ∀ w, ∃ y, stageMem nbrs (rkdgKernels v dat sub owner tab ns dt pp time ramp) pp.wd.isSome pp.sl.isSome n mem w = .ok y ∧
      Mid (sub w).elts l2 ((n + 1) % ns) (slParallel v dat (us.map sub) pp.sl f) y := by
    intro w
    cases hsl : pp.sl with
    | none => exact hB w
    | some p =>
      have := unit_sl (v := v) (dat := dat) hs hall p hB w
      obtain ⟨y, h1, h2⟩ := this
      refine ⟨y, ?_, h2⟩
      rw [← h1]
      simp only [stageMem, rkdgKernels, hsl, Option.isSome_some, if_true, unitLimitOpt, unitPackBaryOpt]
  obtain ⟨y, h1, l4, h2, h3, h4⟩ := hC u
  rw [c7] at h2
  cases h2
  exact ⟨y, h1, rfl, h3, h4⟩

/-- Stages one after the other. -/
theorem stages_succ (nbrs : U → List U) {M B : Type} (k : Kernels U M B) (wd sl : Bool) (ns n : ℕ) (mem : U → M) :
    stagesMem nbrs k wd sl (ns + 1) n mem = stageMem nbrs k wd sl (n + ns) (stagesMem nbrs k wd sl ns n mem) := by
  induction ns generalizing n mem with
  | zero => rfl
  | succ ns ih =>
    rw [stagesMem, ih, stagesMem]
    congr 1
    omega

theorem stages_add (nbrs : U → List U) {M B : Type} (k : Kernels U M B) (wd sl : Bool) (a b n : ℕ) (mem : U → M) :
    stagesMem nbrs k wd sl (a + b) n mem = stagesMem nbrs k wd sl b (n + a) (stagesMem nbrs k wd sl a n mem) := by
  induction b with
  | zero => rfl
  | succ b ih => rw [← Nat.add_assoc, stages_succ, ih, stages_succ, Nat.add_assoc]

/-- Without output the steps are stages. -/
theorem steps_stages (nbrs : U → List U) {M B : Type} (k : Kernels U M B) (hout : ∀ u n x, k.output u n x = x) (wd sl : Bool) (ns m n : ℕ)
    (mem : U → M) : stepsMem nbrs k wd sl ns m n mem = stagesMem nbrs k wd sl (m * ns) n mem := by
  induction m generalizing n mem with
  | zero => rw [Nat.zero_mul]; rfl
  | succ m ih =>
    rw [stepsMem, ih, Nat.succ_mul, Nat.add_comm (m * ns), stages_add]
    simp only [hout]

/-- Any number of stages. -/
theorem unit_run {sub : U → Mesh K} {owner : ℕ → U} {nbrs : U → List U} (hs : Shared sub owner nbrs) {us : List U} (hn : us.Nodup)
    (hall : ∀ u, u ∈ us) {tab : Stepper.Tableau} {ns : ℕ} {dt : K} {pp : PostParams K} {junk : State K} {time ramp : ℕ → K} {n : ℕ} {s s' : Run K}
    (h : runParallel v dat (us.map sub) tab ns dt pp junk time ramp n s = .ok s') {mem : U → Res (UnitMem K)}
    (hm : ∀ u, ∃ x, mem u = .ok x ∧ Holds (sub u).elts ns 0 s x) (u : U) :
    ∃ x, stagesMem nbrs (rkdgKernels v dat sub owner tab ns dt pp time ramp) pp.wd.isSome pp.sl.isSome n 0 mem u = .ok x ∧
      Holds (sub u).elts ns n s' x := by
  induction n generalizing s' u with
  | zero =>
    cases h
    exact hm u
  | succ n ih =>
    rw [runParallel] at h
    obtain ⟨s1, h1, h2⟩ := bindOk h
    rw [stages_succ, Nat.zero_add]
    exact unit_stage hs hn hall h2 (ih h1) u

omit [Field K] [LinearOrder K] [DecidableEq U] in
/-- A partition as in C70, with the units as its submeshes. -/
theorem shared_of {npts : Iface K → ℕ} {m : Mesh K} {cut : List (Iface K)} {sub : U → Mesh K} {us : List U} (hall : ∀ u, u ∈ us)
    (hp : Partitioned npts m (us.map sub) cut) {owner : ℕ → U} (ho : ∀ u, ∀ e ∈ (sub u).elts, owner e = u) {nbrs : U → List U}
    (hnb : ∀ u, ∀ b ∈ (sub u).dist, owner b.e' ∈ nbrs u) : Shared sub owner nbrs := by
  have hmem : ∀ u, sub u ∈ us.map sub := fun u => List.mem_map.mpr ⟨u, hall u, rfl⟩
  refine ⟨fun u => ?_, ho, fun u => hp.ownInts _ (hmem u), fun u => hp.ownBnds _ (hmem u), fun u => hp.ownDist _ (hmem u),
    fun u b hb => ⟨hnb u b hb, ?_⟩⟩
  · exact (List.nodup_flatMap.mp (hp.elts.nodup_iff.mpr hp.nodup)).1 _ (hmem u)
  · have h1 := hp.dist.mem_iff.mp (List.mem_flatMap.mpr ⟨sub u, hmem u, hb⟩)
    obtain ⟨i, hi, hbi⟩ := List.mem_flatMap.mp h1
    have key : ∀ b' ∈ halves (npts i) i, b'.e = b.e' → b'.f = b.f' → sendsFace (sub (owner b.e')) b.e' b.f' = true := by
      intro b' hb' e1 e2
      have h2 := hp.dist.mem_iff.mpr (List.mem_flatMap.mpr ⟨i, hi, hb'⟩)
      obtain ⟨s', hs', h3⟩ := List.mem_flatMap.mp h2
      obtain ⟨w, -, rfl⟩ := List.mem_map.mp hs'
      have : owner b.e' = w := ho w _ (e1 ▸ hp.ownDist _ hs' b' h3)
      rw [this]
      exact List.any_eq_true.mpr ⟨b', h3, by simp [e1, e2]⟩
    simp only [halves, List.mem_cons, List.not_mem_nil, or_false] at hbi
    rcases hbi with rfl | rfl
    · exact key ⟨i.eex, i.fex, i.ein, i.fin, turned (npts i) i.kind⟩ (by simp [halves]) rfl rfl
    · exact key ⟨i.ein, i.fin, i.eex, i.fex, i.kind⟩ (by simp [halves]) rfl rfl

section
variable [IsStrictOrderedRing K]
variable {nR : ℕ} {nT nU : Fin nR → ℕ} {hT : ∀ r, 0 < nT r}
  {nbrs : (Σ r, Fin (nU r)) → List (Σ r, Fin (nU r))} {early : (Σ r, Fin (nU r)) → CommType → ℕ → Bool}

/-- At the end of every schedule, every unit holds its part of the state with which the serial program ends. -/
theorem schedules_holds (hb : ∀ r, nU r + nT r ≤ 2 ^ 32) (hn : ∀ u w, w ∈ nbrs u → u ∈ nbrs w) (hsp : ∀ x, v.sp x = 1) {m : Mesh K}
    {cut : List (Iface K)} {sub : (Σ r, Fin (nU r)) → Mesh K} {us : List (Σ r, Fin (nU r))} (hu : us.Nodup) (hall : ∀ u, u ∈ us)
    (hp : Partitioned (fun i => (i.rule v dat).length) m (us.map sub) cut) (hc : ∀ i ∈ cut, Fits v dat i)
    {owner : ℕ → Σ r, Fin (nU r)} (ho : ∀ u, ∀ e ∈ (sub u).elts, owner e = u) (hnb : ∀ u, ∀ b ∈ (sub u).dist, owner b.e' ∈ nbrs u)
    {tab : Stepper.Tableau} {ns nsteps : ℕ} {dt : K} {pp : PostParams K} (hsl : pp.sl ≠ none → Covered m ∧ ∀ e, 1 ≤ (dat e).elt.p) {junk : State K}
    {time ramp : ℕ → K} {s s' : Run K} (hrun : runSerial v dat m tab ns dt pp junk time ramp (nsteps * ns) s = .ok s')
    {init : (Σ r, Fin (nU r)) → Loc (Σ r, Fin (nU r)) CommType (Res (UnitMem K)) (Mail K)} (hi : ∀ u, idle (init u))
    (hinit : ∀ u, ∃ x, (init u).mem = .ok x ∧ Holds (sub u).elts ns 0 s x)
    {z : St (Σ r, Fin (nU r)) (Fin nR) (Σ r, Fin (nT r)) CommType (Res (UnitMem K)) (Mail K)}
    (hz : Schedule.Reach (simTeam nR nT nU hT nbrs early) (runText (preText false (rkdgKernels v dat sub owner tab ns dt pp time ramp))
      (rkdgKernels v dat sub owner tab ns dt pp time ramp) pp.wd.isSome pp.sl.isSome ns nsteps) init z) (hf : Finished z) (u : Σ r, Fin (nU r)) :
    ∃ x, (z.loc u).mem = .ok x ∧ Holds (sub u).elts ns (nsteps * ns) s' x := by
  have hpar := (parallel_run hsp hp hc tab ns dt pp hsl junk time ramp (nsteps * ns) s s').mpr hrun
  obtain ⟨h1, -⟩ := sim_result hb hn _ false _ _ ns nsteps init hi hz hf
  obtain ⟨x, h2, h3⟩ := unit_run (shared_of hall hp ho hnb) hu hall hpar hinit u
  refine ⟨x, ?_, h3⟩
  rw [← h2]
  have h4 : (z.loc u).mem = _ := congrFun h1 u
  rw [h4, runMem, steps_stages _ _ (fun _ _ _ => rfl)]
  rfl

/-- **C133.** However the threads of all ranks are scheduled and whatever MPI buffers: if the serial program ends `nsteps` steps of `ns` stages on the
whole mesh with the state `s'`, then every schedule of the threaded program on a partition of the mesh that has come to its end has left in the memory of
every unit the slots and the wet flags of `s'` for all elements of the unit. What the units held for elements of others does not matter. -/
theorem schedules_serial (hb : ∀ r, nU r + nT r ≤ 2 ^ 32) (hn : ∀ u w, w ∈ nbrs u → u ∈ nbrs w) (hsp : ∀ x, v.sp x = 1) {m : Mesh K}
    {cut : List (Iface K)} {sub : (Σ r, Fin (nU r)) → Mesh K} {us : List (Σ r, Fin (nU r))} (hu : us.Nodup) (hall : ∀ u, u ∈ us)
    (hp : Partitioned (fun i => (i.rule v dat).length) m (us.map sub) cut) (hc : ∀ i ∈ cut, Fits v dat i)
    {owner : ℕ → Σ r, Fin (nU r)} (ho : ∀ u, ∀ e ∈ (sub u).elts, owner e = u) (hnb : ∀ u, ∀ b ∈ (sub u).dist, owner b.e' ∈ nbrs u)
    {tab : Stepper.Tableau} {ns nsteps : ℕ} {dt : K} {pp : PostParams K} (hsl : pp.sl ≠ none → Covered m ∧ ∀ e, 1 ≤ (dat e).elt.p) {junk : State K}
    {time ramp : ℕ → K} {s s' : Run K} (hrun : runSerial v dat m tab ns dt pp junk time ramp (nsteps * ns) s = .ok s')
    {init : (Σ r, Fin (nU r)) → Loc (Σ r, Fin (nU r)) CommType (Res (UnitMem K)) (Mail K)} (hi : ∀ u, idle (init u))
    (hinit : ∀ u, ∃ x, (init u).mem = .ok x ∧ Holds (sub u).elts ns 0 s x)
    {z : St (Σ r, Fin (nU r)) (Fin nR) (Σ r, Fin (nT r)) CommType (Res (UnitMem K)) (Mail K)}
    (hz : Schedule.Reach (simTeam nR nT nU hT nbrs early) (runText (preText false (rkdgKernels v dat sub owner tab ns dt pp time ramp))
      (rkdgKernels v dat sub owner tab ns dt pp time ramp) pp.wd.isSome pp.sl.isSome ns nsteps) init z) (hf : Finished z) (u : Σ r, Fin (nU r)) :
    ∃ x, (z.loc u).mem = .ok x ∧ x.slots.length = s'.slots.length ∧
      (∀ (i : ℕ) (a b : Stepper.Slot (State K)), s'.slots[i]? = some a → x.slots[i]? = some b → ∀ e ∈ (sub u).elts, a.q e = b.q e) ∧
      ∀ e ∈ (sub u).elts, x.wet e = s'.wet e := by
  obtain ⟨x, h1, h3⟩ := schedules_holds hb hn hsp hu hall hp hc ho hnb hsl hrun hi hinit hz hf u
  exact ⟨x, h1, h3.slots.1.symm, fun i a b ha hb => (h3.slots.2 i a b ha hb).1, fun e he => (h3.wet e he).symm⟩

omit [IsStrictOrderedRing K] in
/-- Some schedule always comes to its end, from every state. -/
theorem schedules_end (hb : ∀ r, nU r + nT r ≤ 2 ^ 32) (hn : ∀ u w, w ∈ nbrs u → u ∈ nbrs w) (sub : (Σ r, Fin (nU r)) → Mesh K)
    (owner : ℕ → Σ r, Fin (nU r)) (tab : Stepper.Tableau) (ns nsteps : ℕ) (dt : K) (pp : PostParams K) (time ramp : ℕ → K)
    {init : (Σ r, Fin (nU r)) → Loc (Σ r, Fin (nU r)) CommType (Res (UnitMem K)) (Mail K)} (hi : ∀ u, idle (init u))
    {z : St (Σ r, Fin (nU r)) (Fin nR) (Σ r, Fin (nT r)) CommType (Res (UnitMem K)) (Mail K)}
    (hz : Schedule.Reach (simTeam nR nT nU hT nbrs early) (runText (preText false (rkdgKernels v dat sub owner tab ns dt pp time ramp))
      (rkdgKernels v dat sub owner tab ns dt pp time ramp) pp.wd.isSome pp.sl.isSome ns nsteps) init z) :
    ∃ z', Relation.ReflTransGen (Move (simTeam nR nT nU hT nbrs early)) z z' ∧ Finished z' :=
  (sim_ends hb hn _ false _ _ ns nsteps init hi).2 z hz

end

/-! ### Example: two ranks with one triangle each -/

def twoSub {K : Type} (u : Σ _ : Fin 2, Fin 1) : Mesh K :=
  if u.1 = 0 then ⟨[0], [], [⟨0, 1, .land⟩, ⟨0, 2, .land⟩], [⟨0, 0, 1, 0, .internal⟩]⟩
  else ⟨[1], [], [⟨1, 1, .land⟩, ⟨1, 2, .land⟩], [⟨1, 0, 0, 0, .internal⟩]⟩

def twoOwner (e : ℕ) : Σ _ : Fin 2, Fin 1 := if e = 0 then ⟨0, 0⟩ else ⟨1, 0⟩

def twoNbrs (u : Σ _ : Fin 2, Fin 1) : List (Σ _ : Fin 2, Fin 1) := if u.1 = 0 then [⟨1, 0⟩] else [⟨0, 0⟩]

def twoUnits : List (Σ _ : Fin 2, Fin 1) := [⟨0, 0⟩, ⟨1, 0⟩]

theorem two_owns {K : Type} : ∀ u : (Σ _ : Fin 2, Fin 1), ∀ e ∈ (twoSub u : Mesh K).elts, twoOwner e = u := by
  rintro ⟨r, i⟩ e he
  fin_cases r <;> fin_cases i
  · obtain rfl : e = 0 := by simpa [twoSub] using he
    rfl
  · obtain rfl : e = 1 := by simpa [twoSub] using he
    rfl

theorem two_hears {K : Type} : ∀ u : (Σ _ : Fin 2, Fin 1), ∀ b ∈ (twoSub u : Mesh K).dist, twoOwner b.e' ∈ twoNbrs u := by
  rintro ⟨r, i⟩ b hb
  fin_cases r <;> fin_cases i
  · obtain rfl : b = _ := by simpa [twoSub] using hb
    exact List.mem_cons_self
  · obtain rfl : b = _ := by simpa [twoSub] using hb
    exact List.mem_cons_self

/-- Any run of the two ranks, with wetting and drying and the limiter, from any state: it can be brought to an end, and every end has the serial solution. -/
example (rd : ℝ → ℝ) (wd : WdParams ℝ) (hwd : 0 < wd.thr ∧ wd.thr ≤ wd.ho) (sl : SlParams ℝ) {tab : Stepper.Tableau} {ns o : ℕ}
    (htab : Stepper.tableau ns o = some tab) (dt : ℝ) (time ramp : ℕ → ℝ) (nsteps : ℕ) (slots : List (Stepper.Slot (State ℝ)))
    (hlen : ns + 1 ≤ slots.length) (wet : ℕ → Bool) (early : (Σ _ : Fin 2, Fin 1) → CommType → ℕ → Bool)
    (com : CommType → Req (Σ _ : Fin 2, Fin 1) (Mail ℝ)) (hcom : ∀ c, (com c).rAct = false ∧ (com c).sAct = false ∧
      (com c).posted = 0 ∧ (com c).recvd = 0 ∧ (com c).started = 0 ∧ ∀ w, (com c).out w = []) :
    ∃ s', runSerial (plainEnv (codeNumerics rd) Real.sqrt) (twoTris 1 fun _ _ => 0) twoMesh tab ns dt ⟨some wd, some sl⟩ 0 time ramp (nsteps * ns)
        ⟨slots, 0, wet, false⟩ = .ok s' ∧
      ∃ z, Schedule.Reach (simTeam 2 (fun _ => 1) (fun _ => 1) (fun _ => Nat.one_pos) twoNbrs early)
          (runText (preText false (rkdgKernels (plainEnv (codeNumerics rd) Real.sqrt) (twoTris 1 fun _ _ => 0) twoSub twoOwner tab ns dt ⟨some wd, some sl⟩ time ramp))
            (rkdgKernels (plainEnv (codeNumerics rd) Real.sqrt) (twoTris 1 fun _ _ => 0) twoSub twoOwner tab ns dt ⟨some wd, some sl⟩ time ramp) true true ns nsteps)
          (fun _ => ⟨.ok ⟨slots, wet, false, 0⟩, com⟩) z ∧ Finished z ∧
        ∃ x, (z.loc ⟨1, 0⟩).mem = .ok x ∧ x.wet 1 = s'.wet 1 := by
  obtain ⟨s', h1, -⟩ := run_succeeds (plainEnv (codeNumerics rd) Real.sqrt) (twoTris 1 fun _ _ => 0) twoMesh htab dt ⟨some wd, some sl⟩
    (by rintro w ⟨⟩; exact hwd) (fun _ => Nat.le_refl _) 0 time ramp slots hlen wet (nsteps * ns)
  have hb : ∀ _ : Fin 2, 1 + 1 ≤ 2 ^ 32 := by decide
  have hn : ∀ u w, w ∈ twoNbrs u → u ∈ twoNbrs w := by decide
  have hidle : ∀ u : (Σ _ : Fin 2, Fin 1), idle (⟨.ok ⟨slots, wet, false, 0⟩, com⟩ : Loc (Σ _ : Fin 2, Fin 1) CommType (Res (UnitMem ℝ)) (Mail ℝ)) := fun _ => hcom
  obtain ⟨z, h2, h3⟩ := schedules_end (v := plainEnv (codeNumerics rd) Real.sqrt) (dat := twoTris 1 fun _ _ => 0) (nT := fun _ : Fin 2 => 1)
    (nU := fun _ => 1) (hT := fun _ => Nat.one_pos) (early := early) hb hn twoSub twoOwner tab ns nsteps dt ⟨some wd, some sl⟩ time ramp hidle
    Relation.ReflTransGen.refl
  refine ⟨s', h1, z, h2, h3, ?_⟩
  obtain ⟨x, h4, -, -, h5⟩ := schedules_serial (us := twoUnits) (sub := twoSub) (owner := twoOwner) hb hn (fun _ => rfl) (by decide) (by decide)
    (two_partitioned _) (fun i hi => by
      obtain rfl : i = _ := by simpa using hi
      refine two_fits 1 (fun _ => 0) _ _ fun gp _ => ?_
      simp [Elt.value]) two_owns two_hears (fun _ => ⟨two_covered, fun _ => Nat.le_refl _⟩) h1 hidle
    (fun u => ⟨_, rfl, (Nat.zero_mod _).symm, ⟨rfl, fun i a b ha hb => by
      rw [ha] at hb
      cases hb
      exact ⟨fun _ _ => rfl, fun _ _ => rfl⟩⟩, fun _ _ => rfl⟩) h2 h3 ⟨1, 0⟩
  exact ⟨x, h4, h5 1 (by simp [twoSub])⟩

end Verif.Swe.Props
