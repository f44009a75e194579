import Verif.Model.IhdgSchedule
import Verif.Props.GnSchedule

/-!
# C139: the implicit program with its slope limiter under every schedule
-/

namespace Verif.IhdgSchedule.Props

open Verif.Schedule Verif.Schedule.Props Verif.GnSchedule Verif.GnSchedule.Props Verif.IhdgSchedule

variable {U R T C M B : Type} [DecidableEq U] [DecidableEq R] [DecidableEq T] [DecidableEq C]

/-- Between two places everything sent has been received and every request has been waited for. -/
def Neat : Prog U C M B → Prop
  | .fin a => Piece a
  | .place a _ y z => Piece a ∧ Neat y ∧ Neat z

omit [DecidableEq U] in
theorem Neat.piece {l : Prog U C M B} (h : Neat l) : Piece l.text := by
  cases l with
  | fin a => exact h
  | place a f y z => exact h.1

omit [DecidableEq U] in
theorem Neat.seq {a : List (Phase U C M B)} {l : Prog U C M B} (ha : Piece a) (h : Neat l) : Neat (seq a l) := by
  cases l with
  | fin b => exact ha.append h
  | place b f y z => exact ⟨ha.append h.1, h.2⟩

/-- All units take the program together; how often the stepper has been advanced, and what is left. -/
def inStep (tm : Team U R T C) : Prog U C M B → ℕ → Plain U C M B → ℕ × Plain U C M B
  | .fin a, n, p => (n + ticks a, plainRun tm (lines n a) p)
  | .place a f y z, n, p =>
    let q := plainRun tm (lines n a) p
    let x := f (n + ticks a) q.mem
    if x.2 then inStep tm y (n + ticks a) { q with mem := x.1 }
    else inStep tm z (n + ticks a) { q with mem := x.1 }

omit [DecidableEq R] [DecidableEq T] in
theorem inStep_seq (tm : Team U R T C) (a : List (Phase U C M B)) (l : Prog U C M B) (n : ℕ)
    (p : Plain U C M B) :
    inStep tm (seq a l) n p = inStep tm l (n + ticks a) (plainRun tm (lines n a) p) := by
  cases l with
  | fin b => simp only [seq, inStep, lines_append, plainRun_append, ticks_masters, masters_append, Nat.add_assoc]
  | place b f y z =>
    simp only [seq, inStep, lines_append, plainRun_append, ticks_masters, masters_append, Nat.add_assoc]

omit [DecidableEq R] [DecidableEq T] in
theorem inStep_ite (tm : Team U R T C) (b : Bool) (y z : Prog U C M B) (n : ℕ) (p : Plain U C M B) :
    inStep tm (if b then y else z) n p = if b then inStep tm y n p else inStep tm z n p := by
  cases b <;> rfl

/-- Where the machine is. -/
structure PInv (tm : Team U R T C) (l : Prog U C M B) (p0 : Plain U C M B) (g : PSt U R T C M B)
    (r : Prog U C M B) (k : ℕ) (init : U → Loc U C M B) (w : C → U → U → B) : Prop where
  todo : g.todo = r.todo
  time : g.time = k + ticks r.text
  neat : Neat r
  idle : ∀ u, idle (init u)
  reach : Reach tm (r.text.map (later k)) init g.st
  same : inStep tm l 0 p0 = inStep tm r k (plainStart init w)

theorem pinv_masters {tm : Team U R T C} {l : Prog U C M B} {p0 : Plain U C M B}
    {g : PSt U R T C M B} {r : Prog U C M B} {k : ℕ} {init : U → Loc U C M B} {w : C → U → U → B}
    (ho : Own tm) (h : PInv tm l p0 g r k init w) (hf : Finished g.st) {f : Meet U M}
    {y z : Prog U C M B} (e : g.todo = some (f, y, z)) :
    ∃ w', PInv tm l p0 (take tm (if (f g.time fun u => (g.st.loc u).mem).2 then y else z) g.time
        (passed (fun m => (f g.time m).1) g.st.loc))
      (if (f g.time fun u => (g.st.loc u).mem).2 then y else z) g.time
      (passed (fun m => (f g.time m).1) g.st.loc) w' := by
  have hp := piece_later h.neat.piece k
  have hr := lock_plain ho.symm init h.idle w _ hp.sound.order
  rw [← same_result ho hp.sound h.idle h.reach hf, run_later, Nat.add_zero] at hr
  cases r with
  | fin a => rw [h.todo] at e; simp [Prog.todo] at e
  | place a f' y' z' =>
    have e' := e
    rw [h.todo] at e'
    simp only [Prog.todo, Option.some.injEq, Prod.mk.injEq] at e'
    obtain ⟨rfl, rfl, rfl⟩ := e'
    simp only [Prog.text] at hr
    have e1 : (fun v => (g.st.loc v).mem) = (plainRun tm (lines k a) (plainStart init w)).mem :=
      funext hr.mem
    refine ⟨(plainRun tm (lines k a) (plainStart init w)).wire, rfl, rfl, ?_, ?_, .refl, ?_⟩
    · split
      · exact h.neat.2.1
      · exact h.neat.2.2
    · intro u c
      obtain ⟨h1, h2, -, -⟩ := settled_of ho hp h.idle h.reach hf u c
      exact ⟨h1, h2, rfl, rfl, rfl, fun _ => rfl⟩
    · have hq : plainStart (passed (fun m => (f' g.time m).1) g.st.loc)
          (plainRun tm (lines k a) (plainStart init w)).wire =
          { plainRun tm (lines k a) (plainStart init w) with
            mem := (f' g.time (plainRun tm (lines k a) (plainStart init w)).mem).1 } := by
        have e2 : (fun c u => ((g.st.loc u).com c).sbuf) =
            (plainRun tm (lines k a) (plainStart init w)).sbuf := by
          funext c u; exact hr.sbuf u c
        have e3 : (fun c u => ((g.st.loc u).com c).rbuf) =
            (plainRun tm (lines k a) (plainStart init w)).rbuf := by
          funext c u; exact hr.rbuf u c
        simp only [plainStart, passed, renew]
        rw [e1, e2, e3]
        rfl
      rw [hq, h.same, e1, h.time]
      exact (inStep_ite tm _ _ _ _ _).symm

theorem pinv_reach {tm : Team U R T C} {l : Prog U C M B} {init : U → Loc U C M B}
    {g : PSt U R T C M B} (ho : Own tm) (hl : Neat l) (hi : ∀ u, idle (init u)) (w : C → U → U → B)
    (h : PReach tm l init g) : ∃ r k x w', PInv tm l (plainStart init w) g r k x w' := by
  induction h with
  | refl => exact ⟨l, 0, init, w, rfl, rfl, hl, hi, .refl, rfl⟩
  | tail _ hm ih =>
    obtain ⟨r, k, x, w', inv⟩ := ih
    cases hm with
    | thread t s hs => exact ⟨r, k, x, w', inv.todo, inv.time, inv.neat, inv.idle,
        inv.reach.tail ⟨t, hs⟩, inv.same⟩
    | masters f y z hf e =>
      obtain ⟨w'', h'⟩ := pinv_masters ho inv hf e
      exact ⟨_, _, _, w'', h'⟩

/-- **C139.** Whatever the schedule: nothing undefined is done, no two threads are at the same unit,
nobody looks at the stepper while it is advanced, and unless all threads have come to the end somebody can
go on. -/
theorem prog_safe {tm : Team U R T C} {l : Prog U C M B} {init : U → Loc U C M B} {g : PSt U R T C M B}
    (ho : Own tm) (hl : Neat l) (hi : ∀ u, idle (init u)) (h : PReach tm l init g) :
    (∀ t, step tm t g.st ≠ .ub) ∧ ¬ Race g.st ∧
    (∀ t t' a a' u o, g.st.rest t = .tick :: a → g.st.rest t' = .unit u o :: a' → tm.rank t' ≠ tm.rank t) ∧
    (¬ PEnded g → ∃ g', PMove tm g g') := by
  obtain ⟨r, k, x, w', inv⟩ := pinv_reach ho hl hi (fun c u => ((init u).com c).sbuf) h
  have hs := (piece_later inv.neat.piece k).sound
  refine ⟨never_ub ho hs inv.idle inv.reach, no_race ho hs inv.idle inv.reach,
    fun t t' a a' u o h1 h2 => stepper_alone ho hs inv.idle inv.reach h1 h2, fun he => ?_⟩
  by_cases hf : Finished g.st
  · cases ht : g.todo with
    | none => exact absurd ⟨hf, ht⟩ he
    | some q => exact ⟨_, .masters g q.1 q.2.1 q.2.2 hf (by rw [ht])⟩
  · obtain ⟨s, t, hm⟩ := never_stuck ho hs inv.idle inv.reach hf
    exact ⟨_, .thread g t s hm⟩

/-- **C139.** When the masters meet, no message is under way and no request is active. -/
theorem prog_settled {tm : Team U R T C} {l : Prog U C M B} {init : U → Loc U C M B} {g : PSt U R T C M B}
    (ho : Own tm) (hl : Neat l) (hi : ∀ u, idle (init u)) (h : PReach tm l init g)
    (hf : ∀ t, g.st.rest t = []) (u : U) (c : C) :
    ((g.st.loc u).com c).rAct = false ∧ ((g.st.loc u).com c).sAct = false ∧
      ((g.st.loc u).com c).recvd = ((g.st.loc u).com c).posted ∧
      ∀ v ∈ tm.nbrs u, (((g.st.loc v).com c).out u).length = ((g.st.loc u).com c).recvd := by
  obtain ⟨r, k, x, w', inv⟩ := pinv_reach ho hl hi (fun c u => ((init u).com c).sbuf) h
  exact settled_of ho (piece_later inv.neat.piece k) inv.idle inv.reach hf u c

/-- **C139.** At the end of every schedule the memories are what all units together make of them. -/
theorem prog_result {tm : Team U R T C} {l : Prog U C M B} {init : U → Loc U C M B} {g : PSt U R T C M B}
    (ho : Own tm) (hl : Neat l) (hi : ∀ u, idle (init u)) (h : PReach tm l init g) (he : PEnded g) :
    (fun u => (g.st.loc u).mem) =
      (inStep tm l 0 (plainStart init fun c u => ((init u).com c).sbuf)).2.mem ∧
    g.time = (inStep tm l 0 (plainStart init fun c u => ((init u).com c).sbuf)).1 := by
  obtain ⟨r, k, x, w', inv⟩ := pinv_reach ho hl hi (fun c u => ((init u).com c).sbuf) h
  have hp := piece_later inv.neat.piece k
  have hr := lock_plain ho.symm x inv.idle w' _ hp.sound.order
  rw [← same_result ho hp.sound inv.idle inv.reach he.1, run_later, Nat.add_zero] at hr
  cases r with
  | fin a =>
    rw [inv.same]
    exact ⟨funext hr.mem, inv.time⟩
  | place a f y z =>
    have e := inv.todo
    rw [he.2] at e
    simp [Prog.todo] at e

/-! ## Every schedule ends -/

/-- How many moves the program has at most. -/
def most [Fintype T] (tm : Team U R T C) : Prog U C M B → ℕ
  | .fin a => ∑ t, (code tm a t).length
  | .place a _ y z => ∑ t, (code tm a t).length + (1 + max (most tm y) (most tm z))

/-- How many are left at most. -/
def leftover [Fintype T] (tm : Team U R T C) (g : PSt U R T C M B) : ℕ :=
  ∑ t, (g.st.rest t).length +
    (match g.todo with | none => 0 | some q => 1 + max (most tm q.2.1) (most tm q.2.2))

omit [DecidableEq C] [DecidableEq U] in
theorem code_later (tm : Team U R T C) (k : ℕ) (a : List (Phase U C M B)) (t : T) :
    (code tm (a.map (later k)) t).length = (code tm a t).length := by
  induction a with
  | nil => rfl
  | cons p a ih =>
    simp only [code, List.map_cons, List.flatMap_cons, List.length_append, expand_later] at ih ⊢
    rw [ih]

omit [DecidableEq C] [DecidableEq U] in
theorem leftover_take [Fintype T] (tm : Team U R T C) (l : Prog U C M B) (k : ℕ)
    (init : U → Loc U C M B) : leftover tm (take tm l k init) = most tm l := by
  cases l <;> simp [leftover, take, start, Prog.text, Prog.todo, most, code_later]

theorem move_leftover [Fintype T] {tm : Team U R T C} {a b : PSt U R T C M B} (h : PMove tm a b) :
    leftover tm b < leftover tm a := by
  cases h with
  | thread t s hs =>
    have := move_shorter (tm := tm) ⟨t, hs⟩
    simp only [leftover]
    omega
  | masters f y z hf e =>
    rw [leftover_take]
    simp only [leftover, e, hf, List.length_nil, Finset.sum_const_zero]
    have := le_max_left (most tm y) (most tm z)
    have := le_max_right (most tm y) (most tm z)
    split <;> omega

/-- **C139.** Every schedule ends. -/
theorem prog_ends [Fintype T] {tm : Team U R T C} {l : Prog U C M B} {init : U → Loc U C M B}
    (ho : Own tm) (hl : Neat l) (hi : ∀ u, idle (init u)) :
    (∀ (g : ℕ → PSt U R T C M B) (n : ℕ), g 0 = take tm l 0 init →
      (∀ i < n, PMove tm (g i) (g (i + 1))) → n ≤ most tm l) ∧
    ∀ g, PReach tm l init g → ∃ g', Relation.ReflTransGen (PMove tm) g g' ∧ PEnded g' := by
  constructor
  · intro g n h0 h
    have key : ∀ i ≤ n, i + leftover tm (g i) ≤ most tm l := by
      intro i
      induction i with
      | zero => intro _; rw [h0, leftover_take]; omega
      | succ i ih =>
        intro hi'
        have h1 := ih (by omega)
        have h2 := move_leftover (h i (by omega))
        omega
    have := key n le_rfl
    omega
  · intro g h
    generalize hn : leftover tm g = n
    induction n using Nat.strong_induction_on generalizing g with
    | _ n ih =>
      by_cases he : PEnded g
      · exact ⟨g, .refl, he⟩
      · obtain ⟨g', hm⟩ := (prog_safe ho hl hi h).2.2.2 he
        have := move_leftover hm
        obtain ⟨g'', hr, he'⟩ := ih _ (by omega) g' (h.tail hm) rfl
        exact ⟨g'', .head hm hr, he'⟩

/-! ## The text of the program -/

omit [DecidableEq U] in
theorem neat_newton (w : Implicit U M) (i : ℕ) {r : Prog U CommType M B} (h : Neat r) :
    Neat (newton w i r) := by
  induction i with
  | zero => exact h
  | succ i ih => exact ⟨Piece.work _, Neat.seq (Piece.work _) h, Neat.seq (Piece.work _) ih⟩

omit [DecidableEq U] in
theorem piece_closing (k : Kernels U M B) (w : Implicit U M) (sl : Bool) : Piece (closing k w sl) := by
  refine ⟨fun c => ?_, fun c => ?_, fun c ph h => ?_, fun b => ?_⟩
  · cases sl <;> cases c <;> rfl
  · cases sl <;> cases c <;> rfl
  · have : (closing k w sl).all (Schedule.apart c) = true := by cases sl <;> cases c <;> rfl
    exact List.all_eq_true.mp this ph h
  · cases sl <;> rfl

omit [DecidableEq U] in
theorem neat_stage (k : Kernels U M B) (w : Implicit U M) (sl : Bool) {r : Prog U CommType M B} (h : Neat r) :
    Neat (stage k w sl r) :=
  Neat.seq ((Piece.work k.parse).append (Piece.work w.init))
    (neat_newton w 100 (Neat.seq (piece_closing k w sl) h))

omit [DecidableEq U] in
theorem neat_stages (k : Kernels U M B) (w : Implicit U M) (sl : Bool) (n : ℕ) {r : Prog U CommType M B}
    (h : Neat r) : Neat (stages k w sl n r) := by
  induction n with
  | zero => exact h
  | succ n ih => exact neat_stage k w sl ih

omit [DecidableEq U] in
theorem neat_steps (k : Kernels U M B) (w : Implicit U M) (sl : Bool) (ns s : ℕ) : Neat (steps k w sl ns s) := by
  induction s with
  | zero => exact Piece.nil
  | succ s ih => exact neat_stages k w sl ns (Neat.seq (Piece.work k.output) ih)

/-! ## What it computes -/

/-- At most `i` Newton iterations. -/
def newtonMem (w : Implicit U M) : ℕ → ℕ → (U → M) → U → M
  | 0, _, mem => mem
  | i + 1, n, mem =>
    let x := w.solve n fun u => w.kern u n (mem u)
    let b := fun u => w.update u n (x.1 u)
    if x.2 then b else newtonMem w i n b

/-- One stage: the Newton loop with at most 100 iterations, the swap, the limiter. -/
def implicitMem (nbrs : U → List U) (k : Kernels U M B) (w : Implicit U M) (sl : Bool) (n : ℕ) (mem : U → M) :
    U → M :=
  let a := newtonMem w 100 n fun u => w.init u n (k.parse u n (mem u))
  let c := fun u => w.swap u (n + 1) (a u)
  let e := fun u => k.prepare u (n + 1) (c u)
  let d := if sl then fun u => k.limit u (n + 1) (k.prepFaces u (n + 1) (e u))
      (hears nbrs (fun v => k.packBary v (n + 1)) e u) else c
  fun u => k.check u (n + 1) (d u)

/-- `ns` stages. -/
def implicitStages (nbrs : U → List U) (k : Kernels U M B) (w : Implicit U M) (sl : Bool) :
    ℕ → ℕ → (U → M) → U → M
  | 0, _, mem => mem
  | ns + 1, n, mem => implicitStages nbrs k w sl ns (n + 1) (implicitMem nbrs k w sl n mem)

/-- `s` steps of `ns` stages. -/
def implicitSteps (nbrs : U → List U) (k : Kernels U M B) (w : Implicit U M) (sl : Bool) (ns : ℕ) :
    ℕ → ℕ → (U → M) → U → M
  | 0, _, mem => mem
  | s + 1, n, mem => implicitSteps nbrs k w sl ns s (n + ns) fun u =>
      k.output u (n + ns) (implicitStages nbrs k w sl ns n mem u)

omit [DecidableEq R] [DecidableEq T] in
theorem newton_mem (tm : Team U R T CommType) (w : Implicit U M) (i : ℕ) (r : Prog U CommType M B) (n : ℕ)
    (p : Plain U CommType M B) :
    ∃ p', inStep tm (newton w i r) n p = inStep tm r n p' ∧ p'.mem = newtonMem w i n p.mem := by
  induction i generalizing p with
  | zero => exact ⟨p, rfl, rfl⟩
  | succ i ih =>
    simp only [newton, inStep, newtonMem]
    have hx : (plainRun tm (lines n [.each [.work w.kern]]) p).mem = fun u => w.kern u n (p.mem u) := rfl
    have hn : n + ticks ([.each [.work w.kern]] : List (Phase U CommType M B)) = n := rfl
    rw [hx, hn]
    split
    · exact ⟨_, inStep_seq tm _ r n _, rfl⟩
    · rw [inStep_seq]
      exact ih _

omit [DecidableEq R] [DecidableEq T] in
theorem stage_implicit (tm : Team U R T CommType) (k : Kernels U M B) (w : Implicit U M) (sl : Bool)
    (r : Prog U CommType M B) (n : ℕ) (p : Plain U CommType M B) :
    ∃ p', inStep tm (stage k w sl r) n p = inStep tm r (n + 1) p' ∧
      p'.mem = implicitMem tm.nbrs k w sl n p.mem := by
  unfold stage
  rw [inStep_seq]
  have h0 : n + ticks ([.each [.work k.parse], .each [.work w.init]] : List (Phase U CommType M B)) = n := rfl
  rw [h0]
  obtain ⟨p', h1, h2⟩ := newton_mem tm w 100 (seq (closing k w sl) r) n
    (plainRun tm (lines n [.each [.work k.parse], .each [.work w.init]]) p)
  have ht : ticks (closing k w sl) = 1 := by cases sl <;> rfl
  refine ⟨plainRun tm (lines n (closing k w sl)) p', ?_, ?_⟩
  · rw [h1, inStep_seq, ht]
  · have h3 : p'.mem = newtonMem w 100 n fun u => w.init u n (k.parse u n (p.mem u)) := h2
    unfold implicitMem
    rw [← h3]
    cases sl <;>
      simp only [closing, limiterText, barrier, Bool.false_eq_true, if_false, if_true, List.append_nil,
        lines, List.map_cons, List.map_nil, List.cons_append,
        List.nil_append, plainRun, plain, Function.update_self] <;>
      simp only [heard_hears tm]

omit [DecidableEq R] [DecidableEq T] in
theorem stages_implicit (tm : Team U R T CommType) (k : Kernels U M B) (w : Implicit U M) (sl : Bool)
    (ns : ℕ) (r : Prog U CommType M B) (n : ℕ) (p : Plain U CommType M B) :
    ∃ p', inStep tm (stages k w sl ns r) n p = inStep tm r (n + ns) p' ∧
      p'.mem = implicitStages tm.nbrs k w sl ns n p.mem := by
  induction ns generalizing n p with
  | zero => exact ⟨p, rfl, rfl⟩
  | succ ns ih =>
    obtain ⟨p', h1, h2⟩ := stage_implicit tm k w sl (stages k w sl ns r) n p
    obtain ⟨p'', h3, h4⟩ := ih (n + 1) p'
    refine ⟨p'', ?_, ?_⟩
    · rw [stages, h1, h3]; congr 1; omega
    · rw [h4, h2]; rfl

omit [DecidableEq R] [DecidableEq T] in
theorem steps_implicit (tm : Team U R T CommType) (k : Kernels U M B) (w : Implicit U M) (sl : Bool)
    (ns s n : ℕ) (p : Plain U CommType M B) :
    (inStep tm (steps k w sl ns s) n p).1 = n + s * ns ∧
      (inStep tm (steps k w sl ns s) n p).2.mem = implicitSteps tm.nbrs k w sl ns s n p.mem := by
  induction s generalizing n p with
  | zero => exact ⟨by simp [steps, inStep, ticks], rfl⟩
  | succ s ih =>
    obtain ⟨p', h1, h2⟩ := stages_implicit tm k w sl ns (seq [.each [.work k.output]] (steps k w sl ns s)) n p
    rw [steps, h1, inStep_seq]
    have h0 : n + ns + ticks ([.each [.work k.output]] : List (Phase U CommType M B)) = n + ns := rfl
    rw [h0]
    obtain ⟨h3, h4⟩ := ih (n + ns) (plainRun tm (lines (n + ns) [.each [.work k.output]]) p')
    refine ⟨by rw [h3]; ring, ?_⟩
    rw [h4]
    have h5 : (plainRun tm (lines (n + ns) [.each [.work k.output]]) p').mem =
        fun u => k.output u (n + ns) (p'.mem u) := rfl
    rw [h5, h2]
    rfl

/-! ## The claims for the run -/

section Sim

variable {nR : ℕ} {nT nU : Fin nR → ℕ} {hT : ∀ r, 0 < nT r}
  {nbrs : (Σ r, Fin (nU r)) → List (Σ r, Fin (nU r))} {early : (Σ r, Fin (nU r)) → CommType → ℕ → Bool}

/-- **C139.** The steps of the implicit program, with the slope limiter, on any number of ranks, threads
and units, under any schedule. -/
theorem implicit_safe (hb : ∀ r, nU r + nT r ≤ 2 ^ 32) (hn : ∀ u v, v ∈ nbrs u → u ∈ nbrs v)
    (k : Kernels (Σ r, Fin (nU r)) M B) (w : Implicit (Σ r, Fin (nU r)) M) (sl : Bool)
    (ns s : ℕ) (init : (Σ r, Fin (nU r)) → Loc (Σ r, Fin (nU r)) CommType M B)
    (hi : ∀ u, idle (init u)) {g : PSt (Σ r, Fin (nU r)) (Fin nR) (Σ r, Fin (nT r)) CommType M B}
    (h : PReach (simTeam nR nT nU hT nbrs early) (steps k w sl ns s) init g) :
    (∀ t, step (simTeam nR nT nU hT nbrs early) t g.st ≠ .ub) ∧ ¬ Race g.st ∧
    (∀ t t' a a' u o, g.st.rest t = .tick :: a → g.st.rest t' = .unit u o :: a' → t'.1 ≠ t.1) ∧
    (¬ PEnded g → ∃ g', PMove (simTeam nR nT nU hT nbrs early) g g') :=
  prog_safe (own_sim hb hn) (neat_steps k w sl ns s) hi h

/-- **C139.** At the end of every schedule the memory of every unit is what the stages, with a Newton loop
that all units leave together, make of it. -/
theorem implicit_result (hb : ∀ r, nU r + nT r ≤ 2 ^ 32) (hn : ∀ u v, v ∈ nbrs u → u ∈ nbrs v)
    (k : Kernels (Σ r, Fin (nU r)) M B) (w : Implicit (Σ r, Fin (nU r)) M) (sl : Bool)
    (ns s : ℕ) (init : (Σ r, Fin (nU r)) → Loc (Σ r, Fin (nU r)) CommType M B)
    (hi : ∀ u, idle (init u)) {g : PSt (Σ r, Fin (nU r)) (Fin nR) (Σ r, Fin (nT r)) CommType M B}
    (h : PReach (simTeam nR nT nU hT nbrs early) (steps k w sl ns s) init g) (he : PEnded g) :
    (fun u => (g.st.loc u).mem) = implicitSteps nbrs k w sl ns s 0 (fun u => (init u).mem) ∧
    g.time = s * ns := by
  obtain ⟨h1, h2⟩ := prog_result (own_sim hb hn) (neat_steps k w sl ns s) hi h he
  obtain ⟨h3, h4⟩ := steps_implicit (simTeam nR nT nU hT nbrs early) k w sl ns s 0
    (plainStart init fun c u => ((init u).com c).sbuf)
  rw [h4] at h1
  exact ⟨h1, by rw [h2, h3, Nat.zero_add]⟩

/-- **C139.** Every schedule ends. -/
theorem implicit_ends (hb : ∀ r, nU r + nT r ≤ 2 ^ 32) (hn : ∀ u v, v ∈ nbrs u → u ∈ nbrs v)
    (k : Kernels (Σ r, Fin (nU r)) M B) (w : Implicit (Σ r, Fin (nU r)) M) (sl : Bool)
    (ns s : ℕ) (init : (Σ r, Fin (nU r)) → Loc (Σ r, Fin (nU r)) CommType M B) (hi : ∀ u, idle (init u)) :
    (∃ N, ∀ (g : ℕ → PSt (Σ r, Fin (nU r)) (Fin nR) (Σ r, Fin (nT r)) CommType M B) (n : ℕ),
      g 0 = take (simTeam nR nT nU hT nbrs early) (steps k w sl ns s) 0 init →
      (∀ i < n, PMove (simTeam nR nT nU hT nbrs early) (g i) (g (i + 1))) → n ≤ N) ∧
    ∀ g, PReach (simTeam nR nT nU hT nbrs early) (steps k w sl ns s) init g →
      ∃ g', Relation.ReflTransGen (PMove (simTeam nR nT nU hT nbrs early)) g g' ∧ PEnded g' :=
  have h := prog_ends (own_sim (hT := hT) (early := early) hb hn) (neat_steps k w sl ns s) hi
  ⟨⟨_, h.1⟩, h.2⟩

end Sim

/-! ## The conditions can be met -/

/-- There is a schedule to the end. -/
example (k : Kernels (Σ r, Fin (demoNU r)) ℕ ℕ) (w : Implicit (Σ r, Fin (demoNU r)) ℕ) (sl : Bool) :
    ∃ g, PReach demoTeam (steps k w sl 2 3) demoInit g ∧ PEnded g ∧ g.time = 6 := by
  have hn : ∀ u v, v ∈ demoNbrs u → u ∈ demoNbrs v := by decide
  have hb : ∀ r, demoNU r + demoNT r ≤ 2 ^ 32 := by decide
  obtain ⟨g, hr, hf⟩ := (implicit_ends (hT := demoNT_pos) (early := fun _ _ _ => false) hb hn k w sl 2 3
    demoInit demo_idle).2 _ Relation.ReflTransGen.refl
  exact ⟨g, hr, hf, (implicit_result hb hn k w sl 2 3 demoInit demo_idle hr hf).2⟩

/-- A loop that doubles a number until it passes twenty. -/
def doubling : Implicit Unit ℕ where
  init := fun _ _ m => m + 1
  kern := fun _ _ m => 2 * m
  solve := fun n x => (fun u => x u + n, decide (20 ≤ x ()))
  update := fun _ _ m => m + 3
  swap := fun _ _ m => m

/-- The loop ends by the decision, after three of the hundred iterations, or by its bound. -/
example : newtonMem doubling 100 0 (fun _ => 1) () = 29 ∧ newtonMem doubling 3 0 (fun _ => 1) () = 29 ∧
    newtonMem doubling 2 0 (fun _ => 1) () = 13 := by decide +kernel

end Verif.IhdgSchedule.Props
