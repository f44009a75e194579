import Verif.Props.ScheduleText

/-!
# C131: the result of every interleaving, stage by stage; and the preprocessor of the Green-Naghdi program
-/

namespace Verif.Schedule.Props

open Verif.Schedule

variable {U R T C M B : Type} [DecidableEq U] [DecidableEq R] [DecidableEq T] [DecidableEq C]

/-! ## The result in closed form -/

/-- What a unit hears when all units send `pack` of their memories. -/
def hears (nbrs : U → List U) (pack : U → M → U → B) (mem : U → M) (u : U) : U → Option B :=
  fun v => if v ∈ nbrs u then some (pack v (mem v) u) else none

/-- The preprocessor, all units at once. -/
def preMem (nbrs : U → List U) (k : Kernels U M B) (ehdg : Bool) (mem : U → M) : U → M :=
  let a := fun u => k.preSend u 0 (mem u)
  let b := fun u => k.takeCoord u 0 (a u) (hears nbrs (fun v => k.packCoord v 0) a u)
  let e := fun u => k.globSend u 0 (b u)
  let d := if ehdg then fun u => k.takeGlob u 0 (e u) (hears nbrs (fun v => k.packGlob v 0) e u) else b
  fun u => k.resize u 0 (d u)

/-- One stage, all units at once; the stepper has been advanced `n` times before it. -/
def stageMem (nbrs : U → List U) (k : Kernels U M B) (wd sl : Bool) (n : ℕ) (mem : U → M) : U → M :=
  let a := fun u => k.gather u n (k.parse u n (mem u))
  let b := fun u => k.after u n (k.before u n (a u)) (hears nbrs (fun v => k.packBound v n) a u)
  let c := if wd then fun u => k.wetDry u (n + 1) (b u) else b
  let e := fun u => k.prepare u (n + 1) (c u)
  let d := if sl then fun u => k.limit u (n + 1) (k.prepFaces u (n + 1) (e u))
      (hears nbrs (fun v => k.packBary v (n + 1)) e u) else c
  fun u => k.check u (n + 1) (d u)

/-- `ns` stages, the first after `n` advances. -/
def stagesMem (nbrs : U → List U) (k : Kernels U M B) (wd sl : Bool) : ℕ → ℕ → (U → M) → U → M
  | 0, _, mem => mem
  | ns + 1, n, mem => stagesMem nbrs k wd sl ns (n + 1) (stageMem nbrs k wd sl n mem)

/-- `nsteps` steps of `ns` stages. -/
def stepsMem (nbrs : U → List U) (k : Kernels U M B) (wd sl : Bool) (ns : ℕ) :
    ℕ → ℕ → (U → M) → U → M
  | 0, _, mem => mem
  | m + 1, n, mem => stepsMem nbrs k wd sl ns m (n + ns) fun u =>
      k.output u (n + ns) (stagesMem nbrs k wd sl ns n mem u)

/-- The run. -/
def runMem (nbrs : U → List U) (k : Kernels U M B) (ehdg wd sl : Bool) (ns nsteps : ℕ)
    (mem : U → M) : U → M :=
  stepsMem nbrs k wd sl ns nsteps 0 fun u => k.first u 0 (preMem nbrs k ehdg mem u)

/-- The preprocessor of the two programs. -/
def preText (ehdg : Bool) (k : Kernels U M B) : List (Phase U CommType M B) :=
  if ehdg then ehdgPre k else rkdgPre k

omit [DecidableEq R] [DecidableEq T] [DecidableEq C] in
theorem heard_hears (tm : Team U R T C) (pack : U → M → U → B) (mem : U → M) (u : U) (r : U → U → B) :
    heard tm u (delivered tm (fun v => pack v (mem v)) r u) = hears tm.nbrs pack mem u := by
  funext v
  simp only [heard, delivered, hears]
  by_cases h : v ∈ tm.nbrs u
  · simp only [if_pos h]
  · simp only [if_neg h]

omit [DecidableEq R] [DecidableEq T] in
theorem pre_mem (tm : Team U R T CommType) (k : Kernels U M B) (ehdg : Bool) (p : Plain U CommType M B) :
    (plainRun tm (lines 0 (preText ehdg k)) p).mem = preMem tm.nbrs k ehdg p.mem := by
  cases ehdg <;>
    simp only [preText, rkdgPre, ehdgPre, Bool.false_eq_true, if_false, if_true, lines, List.map_cons, List.map_nil, List.cons_append,
      List.nil_append, plainRun, plain, Function.update_self, preMem] <;>
    simp only [heard_hears tm]

omit [DecidableEq R] [DecidableEq T] in
theorem stage_mem (tm : Team U R T CommType) (k : Kernels U M B) (wd sl : Bool) (n : ℕ)
    (p : Plain U CommType M B) :
    (plainRun tm (lines n (.each [.work k.parse] :: stageText k wd sl)) p).mem =
      stageMem tm.nbrs k wd sl n p.mem := by
  cases wd <;> cases sl <;>
    simp only [stageText, limiterText, barrier, Bool.false_eq_true, if_false, if_true, List.append_nil,
      lines, List.map_cons, List.map_nil, List.cons_append,
      List.nil_append, plainRun, plain, Function.update_self, stageMem] <;>
    simp only [heard_hears tm]

omit [DecidableEq U] in
theorem masters_stage (k : Kernels U M B) (wd sl : Bool) :
    masters (.each [.work k.parse] :: stageText k wd sl) = 1 := by
  cases wd <;> cases sl <;> rfl

omit [DecidableEq U] [DecidableEq C] in
theorem masters_repeat (a : List (Phase U C M B)) (n : ℕ) :
    masters (List.replicate n a).flatten = n * masters a := by
  induction n with
  | zero => simp [masters]
  | succ n ih => rw [List.replicate_succ, List.flatten_cons, masters_append, ih]; ring

omit [DecidableEq U] in
theorem masters_step (k : Kernels U M B) (wd sl : Bool) (ns : ℕ) : masters (stepText k wd sl ns) = ns := by
  rw [stepText, masters_append, masters_repeat, masters_stage]
  simp [masters]

omit [DecidableEq R] [DecidableEq T] in
theorem stages_mem (tm : Team U R T CommType) (k : Kernels U M B) (wd sl : Bool) (ns n : ℕ)
    (p : Plain U CommType M B) :
    (plainRun tm (lines n (List.replicate ns (.each [.work k.parse] :: stageText k wd sl)).flatten) p).mem =
      stagesMem tm.nbrs k wd sl ns n p.mem := by
  induction ns generalizing n p with
  | zero => rfl
  | succ ns ih =>
    rw [List.replicate_succ, List.flatten_cons, lines_append, plainRun_append, masters_stage, ih, stage_mem]
    rfl

omit [DecidableEq R] [DecidableEq T] in
theorem steps_mem (tm : Team U R T CommType) (k : Kernels U M B) (wd sl : Bool) (ns m n : ℕ)
    (p : Plain U CommType M B) :
    (plainRun tm (lines n (List.replicate m (stepText k wd sl ns)).flatten) p).mem =
      stepsMem tm.nbrs k wd sl ns m n p.mem := by
  induction m generalizing n p with
  | zero => rfl
  | succ m ih =>
    rw [List.replicate_succ, List.flatten_cons, lines_append, plainRun_append, masters_step, ih]
    rw [stepText, lines_append, plainRun_append, masters_repeat, masters_stage, Nat.mul_one]
    simp only [lines, List.map_cons, List.map_nil, List.append_nil, plainRun, plain, stages_mem, stepsMem]

omit [DecidableEq R] [DecidableEq T] in
theorem run_mem (tm : Team U R T CommType) (k : Kernels U M B) (ehdg wd sl : Bool) (ns nsteps : ℕ)
    (p : Plain U CommType M B) :
    (plainRun tm (lines 0 (runText (preText ehdg k) k wd sl ns nsteps)) p).mem =
      runMem tm.nbrs k ehdg wd sl ns nsteps p.mem := by
  have hm : masters (preText ehdg k ++ [.each [.work k.first]]) = 0 := by cases ehdg <;> rfl
  have hm2 : masters (preText ehdg k) = 0 := by cases ehdg <;> rfl
  rw [runText, lines_append, plainRun_append, hm, steps_mem, lines_append, plainRun_append, hm2]
  simp only [lines, List.map_cons, List.map_nil, List.append_nil, plainRun, plain, pre_mem, runMem]

omit [DecidableEq U] in
theorem piece_pre (ehdg : Bool) (k : Kernels U M B) : Piece (preText ehdg k) := by
  cases ehdg
  · exact piece_rkdgPre k
  · exact piece_ehdgPre k

/-! ## The claims for the run -/

section Sim

variable {nR : ℕ} {nT nU : Fin nR → ℕ} {hT : ∀ r, 0 < nT r}
  {nbrs : (Σ r, Fin (nU r)) → List (Σ r, Fin (nU r))} {early : (Σ r, Fin (nU r)) → CommType → ℕ → Bool}

/-- **C131.** A run with any number of ranks, threads and units, and any schedule: nothing undefined is
done, nobody looks at the stepper while it is advanced, and unless all threads have come to the end one
of them can go on. -/
theorem sim_safe (hb : ∀ r, nU r + nT r ≤ 2 ^ 32) (hn : ∀ u v, v ∈ nbrs u → u ∈ nbrs v)
    (k : Kernels (Σ r, Fin (nU r)) M B) (ehdg wd sl : Bool) (ns nsteps : ℕ)
    (init : (Σ r, Fin (nU r)) → Loc (Σ r, Fin (nU r)) CommType M B) (hi : ∀ u, idle (init u))
    {s : St (Σ r, Fin (nU r)) (Fin nR) (Σ r, Fin (nT r)) CommType M B}
    (h : Reach (simTeam nR nT nU hT nbrs early) (runText (preText ehdg k) k wd sl ns nsteps) init s) :
    (∀ t, step (simTeam nR nT nU hT nbrs early) t s ≠ .ub) ∧
    (∀ t t' r r' u o, s.rest t = .tick :: r → s.rest t' = .unit u o :: r' → t'.1 ≠ t.1) ∧
    (¬ Finished s → ∃ s', Move (simTeam nR nT nU hT nbrs early) s s') := by
  have ho : Own (simTeam nR nT nU hT nbrs early) := own_sim hb hn
  have hs := (piece_run (piece_pre ehdg k) k wd sl ns nsteps).sound
  exact ⟨never_ub ho hs hi h, fun t t' r r' u o h1 h2 => stepper_alone ho hs hi h h1 h2,
    never_stuck ho hs hi h⟩

/-- **C131.** At the end of every schedule the memory of every unit is what the stages, taken one after
the other by all units together, make of it, and every stepper has been advanced once per stage. -/
theorem sim_result (hb : ∀ r, nU r + nT r ≤ 2 ^ 32) (hn : ∀ u v, v ∈ nbrs u → u ∈ nbrs v)
    (k : Kernels (Σ r, Fin (nU r)) M B) (ehdg wd sl : Bool) (ns nsteps : ℕ)
    (init : (Σ r, Fin (nU r)) → Loc (Σ r, Fin (nU r)) CommType M B) (hi : ∀ u, idle (init u))
    {s : St (Σ r, Fin (nU r)) (Fin nR) (Σ r, Fin (nT r)) CommType M B}
    (h : Reach (simTeam nR nT nU hT nbrs early) (runText (preText ehdg k) k wd sl ns nsteps) init s)
    (hf : Finished s) :
    (fun u => (s.loc u).mem) = runMem nbrs k ehdg wd sl ns nsteps (fun u => (init u).mem) ∧
    ∀ r, s.clock r = nsteps * ns := by
  have ho : Own (simTeam nR nT nU hT nbrs early) := own_sim hb hn
  have hs := (piece_run (piece_pre ehdg k) k wd sl ns nsteps).sound
  constructor
  · rw [same_result ho hs hi h hf]
    rcases isEmpty_or_nonempty (Σ r, Fin (nU r)) with he | ⟨⟨u0⟩⟩
    · funext u; exact he.elim u
    · have hr := lock_plain ho.symm init hi (fun c u v => ((init u).com c).sbuf v) _ hs.order
      funext u
      rw [hr.mem u, run_mem]
      rfl
  · intro r
    have hc : s.clock r = _ := same_clocks ho hs hi h hf ⟨r, ⟨0, hT r⟩⟩
    rw [hc, runText, masters_append, masters_append, masters_repeat,
      masters_step]
    have : masters (preText ehdg k) = 0 := by cases ehdg <;> rfl
    rw [this]
    simp [masters]

/-- **C131.** Every schedule ends after the same number of moves at most, and every run begun can be
brought to that end. -/
theorem sim_ends (hb : ∀ r, nU r + nT r ≤ 2 ^ 32) (hn : ∀ u v, v ∈ nbrs u → u ∈ nbrs v)
    (k : Kernels (Σ r, Fin (nU r)) M B) (ehdg wd sl : Bool) (ns nsteps : ℕ)
    (init : (Σ r, Fin (nU r)) → Loc (Σ r, Fin (nU r)) CommType M B) (hi : ∀ u, idle (init u)) :
    (∃ N, ∀ (s : ℕ → St (Σ r, Fin (nU r)) (Fin nR) (Σ r, Fin (nT r)) CommType M B) (n : ℕ),
      s 0 = start (simTeam nR nT nU hT nbrs early) (runText (preText ehdg k) k wd sl ns nsteps) init →
      (∀ i < n, Move (simTeam nR nT nU hT nbrs early) (s i) (s (i + 1))) → n ≤ N) ∧
    ∀ s, Reach (simTeam nR nT nU hT nbrs early) (runText (preText ehdg k) k wd sl ns nsteps) init s →
      ∃ s', Relation.ReflTransGen (Move (simTeam nR nT nU hT nbrs early)) s s' ∧ Finished s' := by
  have ho : Own (simTeam nR nT nU hT nbrs early) := own_sim hb hn
  have hs := (piece_run (piece_pre ehdg k) k wd sl ns nsteps).sound
  refine ⟨⟨∑ t, (code (simTeam nR nT nU hT nbrs early) (runText (preText ehdg k) k wd sl ns nsteps) t).length,
    fun s n h0 h => ?_⟩, fun s h => ?_⟩
  · have := always_ends _ s n h
    rw [h0] at this
    exact this
  · obtain ⟨s', h1, h2, -⟩ := completes ho hs hi h
    exact ⟨s', h1, h2⟩

end Sim

/-! ## Two threads on one unit -/

/-- Two threads are about to work on the same unit. -/
def Race (s : St U R T C M B) : Prop :=
  ∃ t t' u o o' r r', t ≠ t' ∧ s.rest t = .unit u o :: r ∧ s.rest t' = .unit u o' :: r'

/-- **C132.** In a text of loops over the units of the thread no two threads ever work on the same unit. -/
theorem no_race {tm : Team U R T C} {phs : List (Phase U C M B)} {init : U → Loc U C M B}
    {s : St U R T C M B} (ho : Own tm) (hs : Sound phs) (hi : ∀ u, idle (init u))
    (h : Reach tm phs init s) : ¬ Race s := by
  rintro ⟨t, t', u, o, o', r, r', hne, h1, h2⟩
  obtain ⟨done, inv⟩ := inv_reach ho hs hi h
  have e1 := inv.text t
  have e2 := inv.text t'
  rw [h1] at e1
  rw [h2] at e2
  obtain ⟨a, hat⟩ := at_of_text tm ho.nodup t phs _ _ _ e1
  obtain ⟨a', hat'⟩ := at_of_text tm ho.nodup t' phs _ _ _ e2
  cases hat with
  | unit _ _ _ _ _ _ _ hu =>
    cases hat' with
    | unit _ _ _ _ _ _ _ hu' => exact hne (ho.unique u t t' hu hu')

/-- The same state with more to do afterwards. -/
def more (suf : T → List (Op U C M B)) (s : St U R T C M B) : St U R T C M B :=
  { s with rest := fun t => s.rest t ++ suf t }

theorem more_step (tm : Team U R T C) (suf : T → List (Op U C M B)) (t : T) (s s' : St U R T C M B)
    (h : step tm t s = .next s') : step tm t (more suf s) = .next (more suf s') := by
  have hupd : ∀ r, (fun t' => Function.update s.rest t r t' ++ suf t') =
      Function.update (fun t' => s.rest t' ++ suf t') t (r ++ suf t) := by
    intro r
    funext t'
    by_cases ht : t' = t
    · subst ht; simp
    · simp [ht]
  cases hr : s.rest t with
  | nil => simp [step, hr] at h
  | cons op r =>
    have hr' : (more suf s).rest t = op :: (r ++ suf t) := by simp [more, hr]
    cases op with
    | unit u o =>
      simp only [step, hr] at h
      split at h
      · rename_i hl
        split at h
        · rename_i hd
          simp only [Out.next.injEq] at h
          subst h
          simp only [step, hr']
          rw [if_pos (show legal o ((more suf s).loc u) = true from hl),
            if_pos (show ready tm o u (more suf s).loc = true from hd)]
          simp only [more, hupd]
        · cases h
      · cases h
    | arrive =>
      simp only [step, hr, Out.next.injEq] at h
      subst h
      simp only [step, hr']
      simp only [more, hupd]
    | leave =>
      simp only [step, hr] at h
      split at h
      · rename_i hd
        simp only [Out.next.injEq] at h
        subst h
        simp only [step, hr']
        rw [if_pos (show ((tm.crew (tm.rank t)).all fun t' =>
          decide ((more suf s).arrived t ≤ (more suf s).arrived t')) = true from hd)]
        simp only [more, hupd]
      · cases h
    | tick =>
      simp only [step, hr, Out.next.injEq] at h
      subst h
      simp only [step, hr']
      simp only [more, hupd]

theorem more_reach (tm : Team U R T C) (suf : T → List (Op U C M B)) {s s' : St U R T C M B}
    (h : Relation.ReflTransGen (Move tm) s s') :
    Relation.ReflTransGen (Move tm) (more suf s) (more suf s') := by
  induction h with
  | refl => exact Relation.ReflTransGen.refl
  | tail _ hm ih =>
    obtain ⟨t, ht⟩ := hm
    exact ih.tail ⟨t, more_step tm suf t _ _ ht⟩

/-- **C132 is false of the Green-Naghdi program.** When a rank has two threads and a unit, then after any
text in order a loop of every thread over all the units of its rank has two threads on one unit in some
schedule, whatever comes afterwards. -/
theorem all_units_race [Fintype T] {tm : Team U R T C} {phs : List (Phase U C M B)}
    {init : U → Loc U C M B} (ho : Own tm) (hs : Sound phs) (hi : ∀ u, idle (init u))
    (o : UOp U C M B) (ops : List (UOp U C M B)) (post : List (Phase U C M B)) {t t' : T} (hne : t ≠ t')
    (hr : tm.rank t = tm.rank t') {u : U} {t'' : T} (hu : u ∈ tm.units t'') (hr' : tm.rank t'' = tm.rank t) :
    ∃ s, Relation.ReflTransGen (Move tm) (startAll tm phs (o :: ops) post init) s ∧ Race s := by
  obtain ⟨s, h1, h2, -⟩ := completes ho hs hi (Relation.ReflTransGen.refl : Reach tm phs init _)
  refine ⟨more (fun t => ((tm.crew (tm.rank t)).flatMap tm.units).flatMap
    (fun u => (o :: ops).map (Op.unit u)) ++ code tm post t) s, ?_, ?_⟩
  · have := more_reach tm (fun t => ((tm.crew (tm.rank t)).flatMap tm.units).flatMap
      (fun u => (o :: ops).map (Op.unit u)) ++ code tm post t) h1
    refine (Eq.mp ?_ this)
    congr 1
    simp only [more, startAll, start, List.append_assoc]
  · have hmem : u ∈ (tm.crew (tm.rank t)).flatMap tm.units :=
      List.mem_flatMap.mpr ⟨t'', (ho.crew _ _).mpr hr', hu⟩
    cases hc : (tm.crew (tm.rank t)).flatMap tm.units with
    | nil => rw [hc] at hmem; simp at hmem
    | cons u0 us =>
      have e1 : ∃ r, (more (fun t => ((tm.crew (tm.rank t)).flatMap tm.units).flatMap
          (fun u => (o :: ops).map (Op.unit u)) ++ code tm post t) s).rest t = .unit u0 o :: r := by
        simp only [more, h2 t, List.nil_append, hc, List.flatMap_cons, List.map_cons, List.cons_append]
        exact ⟨_, rfl⟩
      have e2 : ∃ r, (more (fun t => ((tm.crew (tm.rank t)).flatMap tm.units).flatMap
          (fun u => (o :: ops).map (Op.unit u)) ++ code tm post t) s).rest t' = .unit u0 o :: r := by
        simp only [more, h2 t', List.nil_append, ← hr, hc, List.flatMap_cons, List.map_cons, List.cons_append]
        exact ⟨_, rfl⟩
      obtain ⟨r1, e1⟩ := e1
      obtain ⟨r2, e2⟩ := e2
      exact ⟨t, t', u0, o, o, r1, r2, hne, e1, e2⟩

omit [DecidableEq U] in
theorem piece_gnPre (k : Kernels U M B) (m : ℕ) : Piece (gnPre k m) := by
  have e : gnPre k m = ehdgPre k ++
      ([.each [.work k.preSend, .pack .coord k.packCoord], .each [.post .coord], .each [.send .coord],
        .each [.waitR .coord, .take .coord k.takeCoord], .each [.waitS .coord]] ++
      ((barrier ++ barrier) ++ (List.replicate m
        [.each [.post .dbath, .work k.globSend, .pack .dbath k.packGlob, .send .dbath],
         .each [.waitR .dbath, .take .dbath k.takeGlob],
         .each [.waitS .dbath]]).flatten)) := by
    simp only [gnPre, List.append_assoc]
  rw [e]
  refine (piece_ehdgPre k).append (Piece.append ?_ (Piece.append ?_ (Piece.repeat ?_ m)))
  · refine ⟨fun c => by cases c <;> rfl, fun c => by cases c <;> rfl, fun c ph h => ?_, fun b => rfl⟩
    have : ([.each [.work k.preSend, .pack .coord k.packCoord], .each [.post .coord], .each [.send .coord],
      .each [.waitR .coord, .take .coord k.takeCoord], .each [.waitS .coord]] :
        List (Phase U CommType M B)).all (Schedule.apart c) = true := by cases c <;> rfl
    exact List.all_eq_true.mp this ph h
  · refine ⟨fun c => rfl, fun c => rfl, fun c ph h => ?_, fun b => rfl⟩
    have : (barrier ++ barrier : List (Phase U CommType M B)).all (Schedule.apart c) = true := rfl
    exact List.all_eq_true.mp this ph h
  · refine ⟨fun c => by cases c <;> rfl, fun c => by cases c <;> rfl, fun c ph h => ?_, fun b => rfl⟩
    have : ([.each [.post .dbath, .work k.globSend, .pack .dbath k.packGlob, .send .dbath],
         .each [.waitR .dbath, .take .dbath k.takeGlob], .each [.waitS .dbath]] :
        List (Phase U CommType M B)).all (Schedule.apart c) = true := by cases c <;> rfl
    exact List.all_eq_true.mp this ph h

section Gn

variable {nR : ℕ} {nT nU : Fin nR → ℕ} {hT : ∀ r, 0 < nT r}
  {nbrs : (Σ r, Fin (nU r)) → List (Σ r, Fin (nU r))} {early : (Σ r, Fin (nU r)) → CommType → ℕ → Bool}

/-- **C132 is false of the Green-Naghdi program.** `ehdg_gn_pre_ompi.hpp` lines 257-260 go through all the
units of the rank in every thread: on a rank with two threads and a unit, some schedule has two threads
resizing the stages of the same element at once. -/
theorem gn_resize_race (hb : ∀ r, nU r + nT r ≤ 2 ^ 32) (hn : ∀ u v, v ∈ nbrs u → u ∈ nbrs v)
    (k : Kernels (Σ r, Fin (nU r)) M B) (m : ℕ) (post : List (Phase (Σ r, Fin (nU r)) CommType M B))
    (init : (Σ r, Fin (nU r)) → Loc (Σ r, Fin (nU r)) CommType M B) (hi : ∀ u, idle (init u))
    (r : Fin nR) (h2 : 2 ≤ nT r) (h1 : 1 ≤ nU r) :
    ∃ s, Relation.ReflTransGen (Move (simTeam nR nT nU hT nbrs early))
      (startAll (simTeam nR nT nU hT nbrs early) (gnPre k m) [.work k.resize] post init) s ∧ Race s := by
  have ho : Own (simTeam nR nT nU hT nbrs early) := own_sim hb hn
  obtain ⟨t'', hu⟩ := ho.owner ⟨r, ⟨0, h1⟩⟩
  refine all_units_race ho (piece_gnPre k m).sound hi _ [] post (t := ⟨r, ⟨0, by omega⟩⟩)
    (t' := ⟨r, ⟨1, by omega⟩⟩) ?_ rfl hu ((mem_simUnits _ _).mp hu).1.symm
  intro e
  simp at e

/-- The same loop over the units of the thread only, as in the shallow-water programs, is free of it. -/
theorem gn_resize_own_partial (hb : ∀ r, nU r + nT r ≤ 2 ^ 32) (hn : ∀ u v, v ∈ nbrs u → u ∈ nbrs v)
    (k : Kernels (Σ r, Fin (nU r)) M B) (m : ℕ)
    (init : (Σ r, Fin (nU r)) → Loc (Σ r, Fin (nU r)) CommType M B) (hi : ∀ u, idle (init u))
    {s : St (Σ r, Fin (nU r)) (Fin nR) (Σ r, Fin (nT r)) CommType M B}
    (h : Reach (simTeam nR nT nU hT nbrs early) (gnPre k m ++ [.each [.work k.resize]]) init s) : ¬ Race s :=
  no_race (own_sim hb hn) ((piece_gnPre k m).append (Piece.work k.resize)).sound hi h

/-- The shallow-water programs: no two threads ever work on the same unit. -/
theorem sim_no_race_partial (hb : ∀ r, nU r + nT r ≤ 2 ^ 32) (hn : ∀ u v, v ∈ nbrs u → u ∈ nbrs v)
    (k : Kernels (Σ r, Fin (nU r)) M B) (ehdg wd sl : Bool) (ns nsteps : ℕ)
    (init : (Σ r, Fin (nU r)) → Loc (Σ r, Fin (nU r)) CommType M B) (hi : ∀ u, idle (init u))
    {s : St (Σ r, Fin (nU r)) (Fin nR) (Σ r, Fin (nT r)) CommType M B}
    (h : Reach (simTeam nR nT nU hT nbrs early) (runText (preText ehdg k) k wd sl ns nsteps) init s) : ¬ Race s :=
  no_race (own_sim hb hn) (piece_run (piece_pre ehdg k) k wd sl ns nsteps).sound hi h

end Gn

/-! ## The conditions are needed, and can be met -/

/-- Run a schedule. -/
def follow (tm : Team U R T C) : List T → St U R T C M B → Option (St U R T C M B)
  | [], s => some s
  | t :: ts, s => match step tm t s with
    | .next s' => follow tm ts s'
    | _ => none

theorem follow_reach (tm : Team U R T C) (ts : List T) (s s' : St U R T C M B)
    (h : follow tm ts s = some s') : Relation.ReflTransGen (Move tm) s s' := by
  induction ts generalizing s with
  | nil => cases h; exact Relation.ReflTransGen.refl
  | cons t ts ih =>
    simp only [follow] at h
    cases hs : step tm t s with
    | blocked => rw [hs] at h; cases h
    | ub => rw [hs] at h; cases h
    | next s1 => rw [hs] at h; exact Relation.ReflTransGen.head ⟨t, hs⟩ (ih s1 h)

/-- Two ranks; the first has two threads and three units, the second one thread and one unit. -/
def demoNT : Fin 2 → ℕ := ![2, 1]
def demoNU : Fin 2 → ℕ := ![3, 1]

theorem demoNT_pos : ∀ r, 0 < demoNT r := by decide

/-- Every unit is a neighbour of every other. -/
def demoNbrs (u : Σ r, Fin (demoNU r)) : List (Σ r, Fin (demoNU r)) :=
  ((List.finRange 2).flatMap fun r => (List.finRange (demoNU r)).map fun i => ⟨r, i⟩).filter (· ≠ u)

def demoTeam : Team (Σ r, Fin (demoNU r)) (Fin 2) (Σ r, Fin (demoNT r)) CommType :=
  simTeam 2 demoNT demoNU demoNT_pos demoNbrs fun _ _ _ => false

theorem demo_own : Own demoTeam := by
  refine own_sim (by decide) ?_
  decide

def demoInit : (Σ r, Fin (demoNU r)) → Loc (Σ r, Fin (demoNU r)) CommType ℕ ℕ := fun u =>
  ⟨u.1.val * 10 + u.2.val, fun _ => ⟨fun _ => 0, fun _ => 0, fun _ => [], false, false, 0, 0, 0⟩⟩

theorem demo_idle : ∀ u, idle (demoInit u) := fun _ _ => ⟨rfl, rfl, rfl, rfl, rfl, fun _ => rfl⟩

/-- The hypotheses of `sim_safe`, `sim_result` and `sim_ends` hold of it: every run of every scheme ends, with
the clocks of both ranks at the number of stages. -/
example (k : Kernels (Σ r, Fin (demoNU r)) ℕ ℕ) (ehdg wd sl : Bool) :
    ∃ s, Reach demoTeam (runText (preText ehdg k) k wd sl 2 3) demoInit s ∧ Finished s ∧
      ∀ r, s.clock r = 6 := by
  have hn : ∀ u v, v ∈ demoNbrs u → u ∈ demoNbrs v := by decide
  have hb : ∀ r, demoNU r + demoNT r ≤ 2 ^ 32 := by decide
  obtain ⟨s, hr, hf⟩ := (sim_ends (hT := demoNT_pos) (early := fun _ _ _ => false) hb hn k ehdg wd sl 2 3
    demoInit demo_idle).2 _ Relation.ReflTransGen.refl
  exact ⟨s, hr, hf, (sim_result hb hn k ehdg wd sl 2 3 demoInit demo_idle hr hf).2⟩

/-- So do those of `gn_resize_race`: the first rank has two threads. -/
example (k : Kernels (Σ r, Fin (demoNU r)) ℕ ℕ) :
    ∃ s, Relation.ReflTransGen (Move demoTeam) (startAll demoTeam (gnPre k 1) [.work k.resize] [] demoInit) s ∧
      Race s :=
  gn_resize_race (hT := demoNT_pos) (by decide) (by decide) k 1 [] demoInit demo_idle 0 (by decide) (by decide)

/-- Two threads with a unit each, neighbours of each other, on one rank. -/
def pairTeam : Team Bool Unit Bool Unit where
  units := fun t => [t]
  rank := fun _ => ()
  master := fun _ => false
  crew := fun _ => [false, true]
  nbrs := fun u => [!u]
  early := fun _ _ _ => false

theorem pair_own : Own pairTeam := by
  refine ⟨by decide, by decide, by decide, by decide, by decide, by decide⟩

/-- One thread with two units, neighbours of each other. -/
def soloTeam : Team Bool Unit Unit Unit where
  units := fun _ => [false, true]
  rank := fun _ => ()
  master := fun _ => ()
  crew := fun _ => [()]
  nbrs := fun u => [!u]
  early := fun _ _ _ => false

theorem solo_own : Own soloTeam := by
  refine ⟨by decide, by decide, by decide, by decide, by decide, by decide⟩

def pairInit : Bool → Loc Bool Unit ℕ ℕ := fun u =>
  ⟨u.toNat, fun _ => ⟨fun _ => 0, fun _ => 0, fun _ => [], false, false, 0, 0, 0⟩⟩

theorem pair_idle : ∀ u, idle (pairInit u) := fun _ _ => ⟨rfl, rfl, rfl, rfl, rfl, fun _ => rfl⟩

/-- Waiting for the receives in the loop that starts the sends. -/
def oneLoop : List (Phase Bool Unit ℕ ℕ) :=
  [.each [.post (), .pack () (fun _ _ m _ => m + 7), .send (), .waitR (),
    .take () (fun _ _ m h => m + ((h true).getD 0) + ((h false).getD 0))], .each [.waitS ()]]

/-- The same in two loops. -/
def twoLoops : List (Phase Bool Unit ℕ ℕ) :=
  [.each [.post (), .pack () (fun _ _ m _ => m + 7), .send ()],
   .each [.waitR (), .take () (fun _ _ m h => m + ((h true).getD 0) + ((h false).getD 0))], .each [.waitS ()]]

/-- Without the condition `apart` a thread with two units waits for itself for ever. -/
theorem one_loop_stuck : ∃ s, Reach soloTeam oneLoop pairInit s ∧ ¬ Finished s ∧
    ∀ s', ¬ Move soloTeam s s' := by
  have h : (match follow soloTeam [(), (), ()] (start soloTeam oneLoop pairInit) with
    | some s => (match step soloTeam () s with | .blocked => true | _ => false) && !(s.rest ()).isEmpty
    | none => false) = true := by decide +kernel
  cases hf : follow soloTeam [(), (), ()] (start soloTeam oneLoop pairInit) with
  | none => rw [hf] at h; cases h
  | some s =>
    rw [hf] at h
    simp only [Bool.and_eq_true] at h
    refine ⟨s, follow_reach _ _ _ _ hf, fun hfin => ?_, ?_⟩
    · have := h.2
      rw [hfin ()] at this
      simp at this
    · rintro s' ⟨t, ht⟩
      have := h.1
      cases t
      rw [ht] at this
      cases this

/-- In two loops it goes through, and every unit hears the other. -/
example : (match follow soloTeam (List.replicate 12 ()) (start soloTeam twoLoops pairInit) with
    | some s => decide ((s.rest ()).length = 0 ∧ (s.loc false).mem = 0 + 1 + 7 ∧ (s.loc true).mem = 1 + 0 + 7)
    | none => false) = true := by decide +kernel

/-- Advancing the stepper without the second barrier. -/
def noBarrier : List (Phase Bool Unit ℕ ℕ) :=
  [.each [.work fun _ n m => m + n]] ++ barrier ++ [.master] ++ [.each [.work fun _ n m => m + n]]

/-- Without the condition `guarded` a thread reads the stepper while the master advances it. -/
theorem no_barrier_race : ∃ s, Reach pairTeam noBarrier pairInit s ∧
    ∃ r r' u o, s.rest false = .tick :: r ∧ s.rest true = .unit u o :: r' := by
  have h : (match follow pairTeam [false, false, true, true, false, true]
        (start pairTeam noBarrier pairInit) with
    | some s => (match s.rest false with | .tick :: _ => true | _ => false) &&
        (match s.rest true with | .unit _ _ :: _ => true | _ => false)
    | none => false) = true := by decide +kernel
  cases hf : follow pairTeam [false, false, true, true, false, true] (start pairTeam noBarrier pairInit) with
  | none => rw [hf] at h; cases h
  | some s =>
    rw [hf] at h
    simp only [Bool.and_eq_true] at h
    refine ⟨s, follow_reach _ _ _ _ hf, ?_⟩
    obtain ⟨h1, h2⟩ := h
    split at h1
    · rename_i e1
      split at h2
      · rename_i e2
        exact ⟨_, _, _, _, e1, e2⟩
      · cases h2
    · cases h1

/-- The advance seen or not: the result depends on the schedule. -/
example : (match follow pairTeam [false, false, true, true, false, true, false, true]
        (start pairTeam noBarrier pairInit),
      follow pairTeam [false, false, true, true, false, true, true, false]
        (start pairTeam noBarrier pairInit) with
    | some s, some s' => decide ((s.loc true).mem = 2 ∧ (s'.loc true).mem = 1)
    | _, _ => false) = true := by decide +kernel

end Verif.Schedule.Props
