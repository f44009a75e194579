import Verif.Props.Schedule
import Verif.Props.Util

/-!
# C131 for the programs of the code

The texts of the Runge-Kutta and of the explicit hybridized programs satisfy the conditions, and so does
the distribution of the units to threads; hence every interleaving of the run ends and gives the result
of the stages taken one by one.
-/

namespace Verif.Schedule.Props

open Verif.Schedule

variable {U R T C M B : Type} [DecidableEq U] [DecidableEq R] [DecidableEq T] [DecidableEq C]

/-! ## The texts are in order -/

/-- The lines without the clock. -/
def body (phs : List (Phase U C M B)) : List (UOp U C M B) := (lines 0 phs).map Prod.snd

omit [DecidableEq U] [DecidableEq C] in
theorem body_lines (n : ℕ) (phs : List (Phase U C M B)) : (lines n phs).map Prod.snd = body phs := by
  unfold body
  generalize 0 = m
  induction phs generalizing n m with
  | nil => rfl
  | cons p phs ih =>
    cases p with
    | each ops =>
      simp only [lines, List.map_append, List.map_map]
      rw [ih n m]
      rfl
    | arrive => exact ih n m
    | leave => exact ih n m
    | master => exact ih (n + 1) (m + 1)

omit [DecidableEq U] [DecidableEq C] in
theorem body_append (a b : List (Phase U C M B)) : body (a ++ b) = body a ++ body b := by
  rw [body, lines_append, List.map_append, body_lines, body_lines]

/-- A piece of text that can stand anywhere between two others. -/
structure Piece (a : List (Phase U C M B)) : Prop where
  order : ∀ c, checked c idleFlags (body a) = true
  back : ∀ c, flags c idleFlags (body a) = idleFlags
  apart : ∀ c, ∀ ph ∈ a, apart c ph = true
  guard : ∀ b, guarded false false (a ++ b) = guarded false false b

omit [DecidableEq U] in
theorem Piece.nil : Piece ([] : List (Phase U C M B)) :=
  ⟨fun _ => rfl, fun _ => rfl, fun _ _ h => by simp at h, fun _ => rfl⟩

omit [DecidableEq U] in
theorem Piece.append {a b : List (Phase U C M B)} (ha : Piece a) (hb : Piece b) : Piece (a ++ b) := by
  refine ⟨fun c => ?_, fun c => ?_, fun c ph h => ?_, fun l => ?_⟩
  · rw [body_append, checked_append, ha.order, ha.back, hb.order]; rfl
  · rw [body_append, flags_append, ha.back, hb.back]
  · rcases List.mem_append.mp h with h | h
    · exact ha.apart c ph h
    · exact hb.apart c ph h
  · rw [List.append_assoc, ha.guard, hb.guard]

omit [DecidableEq U] in
theorem Piece.repeat {a : List (Phase U C M B)} (ha : Piece a) (n : ℕ) :
    Piece (List.replicate n a).flatten := by
  induction n with
  | zero => exact Piece.nil
  | succ n ih => rw [List.replicate_succ, List.flatten_cons]; exact ha.append ih

omit [DecidableEq U] in
theorem Piece.sound {a : List (Phase U C M B)} (ha : Piece a) : Sound a := by
  refine ⟨ha.order, ha.apart, ?_⟩
  have := ha.guard []
  rwa [List.append_nil] at this

omit [DecidableEq U] in
theorem Piece.work (f : U → ℕ → M → M) : Piece ([.each [.work f]] : List (Phase U C M B)) :=
  ⟨fun _ => rfl, fun _ => rfl, fun c ph h => by
    rw [List.mem_singleton] at h; subst h; rfl, fun _ => rfl⟩

omit [DecidableEq U] in
theorem piece_rkdgPre (k : Kernels U M B) : Piece (rkdgPre k) := by
  refine ⟨fun c => ?_, fun c => ?_, fun c ph h => ?_, fun b => rfl⟩
  · cases c <;> rfl
  · cases c <;> rfl
  · have : (rkdgPre k).all (Schedule.apart c) = true := by cases c <;> rfl
    exact List.all_eq_true.mp this ph h

omit [DecidableEq U] in
theorem piece_ehdgPre (k : Kernels U M B) : Piece (ehdgPre k) := by
  refine ⟨fun c => ?_, fun c => ?_, fun c ph h => ?_, fun b => rfl⟩
  · cases c <;> rfl
  · cases c <;> rfl
  · have : (ehdgPre k).all (Schedule.apart c) = true := by cases c <;> rfl
    exact List.all_eq_true.mp this ph h

omit [DecidableEq U] in
theorem piece_stage (k : Kernels U M B) (wd sl : Bool) : Piece (stageText k wd sl) := by
  refine ⟨fun c => ?_, fun c => ?_, fun c ph h => ?_, fun b => ?_⟩
  · cases wd <;> cases sl <;> cases c <;> rfl
  · cases wd <;> cases sl <;> cases c <;> rfl
  · have : (stageText k wd sl).all (Schedule.apart c) = true := by
      cases wd <;> cases sl <;> cases c <;> rfl
    exact List.all_eq_true.mp this ph h
  · cases wd <;> cases sl <;> rfl

omit [DecidableEq U] in
theorem piece_step (k : Kernels U M B) (wd sl : Bool) (ns : ℕ) : Piece (stepText k wd sl ns) := by
  unfold stepText
  refine Piece.append (Piece.repeat ?_ ns) (Piece.work k.output)
  have := (Piece.work (C := CommType) (B := B) k.parse).append (piece_stage k wd sl)
  exact this

omit [DecidableEq U] in
theorem piece_run {pre : List (Phase U CommType M B)} (hp : Piece pre) (k : Kernels U M B) (wd sl : Bool)
    (ns nsteps : ℕ) : Piece (runText pre k wd sl ns nsteps) :=
  (hp.append (Piece.work k.first)).append ((piece_step k wd sl ns).repeat nsteps)

/-! ## The distribution of the units -/

theorem unitsOf_nodup (N n t : ℕ) : (Util.unitsOf N n t).Nodup := List.nodup_range'

theorem mem_unitsOf (N n t j : ℕ) : j ∈ Util.unitsOf N n t ↔ Util.beginSim N n t ≤ j ∧ j < Util.endSim N n t := by
  unfold Util.unitsOf
  rw [List.mem_range'_1]
  omega

omit [DecidableEq C] in
theorem mem_simUnits {nR : ℕ} {nT nU : Fin nR → ℕ} {hT : ∀ r, 0 < nT r}
    {nbrs : (Σ r, Fin (nU r)) → List (Σ r, Fin (nU r))} {early : (Σ r, Fin (nU r)) → C → ℕ → Bool}
    (t : Σ r, Fin (nT r)) (u : Σ r, Fin (nU r)) :
    u ∈ (simTeam nR nT nU hT nbrs early).units t ↔
      u.1 = t.1 ∧ u.2.val ∈ Util.unitsOf (nU t.1) (nT t.1) t.2.val := by
  obtain ⟨r, i⟩ := t
  obtain ⟨r', j⟩ := u
  simp only [simTeam, List.mem_filterMap]
  constructor
  · rintro ⟨a, ha, h⟩
    split at h
    · simp only [Option.some.injEq, Sigma.mk.injEq] at h
      obtain ⟨rfl, h⟩ := h
      have := eq_of_heq h
      subst this
      exact ⟨rfl, ha⟩
    · cases h
  · rintro ⟨h, ha⟩
    subst h
    exact ⟨j.val, ha, by rw [dif_pos j.isLt]⟩

omit [DecidableEq C] in
/-- Every unit belongs to one thread, every rank has its master, and neighbours are mutual. -/
theorem own_sim {nR : ℕ} {nT nU : Fin nR → ℕ} {hT : ∀ r, 0 < nT r}
    {nbrs : (Σ r, Fin (nU r)) → List (Σ r, Fin (nU r))} {early : (Σ r, Fin (nU r)) → C → ℕ → Bool}
    (hb : ∀ r, nU r + nT r ≤ 2 ^ 32) (hn : ∀ u v, v ∈ nbrs u → u ∈ nbrs v) :
    Own (simTeam nR nT nU hT nbrs early) := by
  refine ⟨?_, ?_, ?_, ?_, ?_, hn⟩
  · rintro ⟨r, j⟩
    obtain ⟨i, ⟨hi, h1, h2⟩, -⟩ := Util.Props.threads_unique (nU r) (nT r) (hT r) (hb r) j.val j.isLt
    exact ⟨⟨r, ⟨i, hi⟩⟩, (mem_simUnits _ _).mpr ⟨rfl, (mem_unitsOf ..).mpr ⟨h1, h2⟩⟩⟩
  · rintro ⟨r, j⟩ ⟨r1, i1⟩ ⟨r2, i2⟩ h1 h2
    rw [mem_simUnits] at h1 h2
    obtain ⟨e1, h1⟩ := h1
    obtain ⟨e2, h2⟩ := h2
    simp only at e1 e2 h1 h2
    subst e1 e2
    obtain ⟨i, -, hu⟩ := Util.Props.threads_unique (nU r) (nT r) (hT r) (hb r) j.val j.isLt
    have g1 := hu i1.val ⟨i1.isLt, (mem_unitsOf ..).mp h1⟩
    have g2 := hu i2.val ⟨i2.isLt, (mem_unitsOf ..).mp h2⟩
    have : i1 = i2 := Fin.ext (g1.trans g2.symm)
    subst this
    rfl
  · rintro ⟨r, i⟩
    refine List.Nodup.filterMap ?_ (unitsOf_nodup _ _ _)
    intro a a' b h h'
    simp only at h h'
    split at h
    · split at h'
      · simp only [Option.mem_def, Option.some.injEq] at h h'
        rw [← h'] at h
        simp only [Sigma.mk.injEq, heq_eq_eq, Fin.mk.injEq, true_and] at h
        exact h
      · simp at h'
    · simp at h
  · rintro r ⟨r', i⟩
    simp only [simTeam, List.mem_map, List.mem_finRange, true_and]
    constructor
    · rintro ⟨a, h⟩
      cases h
      rfl
    · intro h
      subst h
      exact ⟨i, rfl⟩
  · intro r _
    rfl

/-! ## Lockstep is what the text says, without requests -/

/-- The memories and buffers of the units. -/
structure Refines (tm : Team U R T C) (l : List (UOp U C M B)) (xs : U → Loc U C M B)
    (p : Plain U C M B) : Prop where
  mem : ∀ u, (xs u).mem = p.mem u
  sbuf : ∀ u c, ((xs u).com c).sbuf = p.sbuf c u
  rbuf : ∀ u c, ((xs u).com c).rbuf = p.rbuf c u
  wire : ∀ c, (flags c idleFlags l).nw = true → ∀ u, ∀ v ∈ tm.nbrs u,
    (((xs u).com c).out v)[((xs v).com c).recvd]? = some (p.wire c u v)

omit [DecidableEq R] [DecidableEq T] in
theorem refines_step {tm : Team U R T C} (hsym : ∀ u v, v ∈ tm.nbrs u → u ∈ tm.nbrs v)
    (l : List (UOp U C M B)) (o : UOp U C M B) (n : ℕ) (xs : U → Loc U C M B)
    (p : Plain U C M B) (hag : ∀ u c, Agree tm u c l ((xs u).com c))
    (hok : ∀ c, okay c (flags c idleFlags l) o = true) (h : Refines tm l xs p) :
    Refines tm (l ++ [o]) (fun u => eff tm o u n xs) (plain tm n o p) := by
  obtain ⟨h1, h2, h3, h4⟩ := h
  have hf : ∀ c, flags c idleFlags (l ++ [o]) = flag c (flags c idleFlags l) o := by
    intro c; rw [flags_append]; rfl
  cases o with
  | work f =>
    refine ⟨fun u => ?_, h2, h3, fun c hc => ?_⟩
    · simp only [eff, plain, h1]
    · rw [hf] at hc; exact h4 c hc
  | take d f =>
    refine ⟨fun u => ?_, h2, h3, fun c hc => ?_⟩
    · simp only [eff, plain, h1, h3]
    · rw [hf] at hc; exact h4 c hc
  | post d =>
    refine ⟨h1, fun u c => ?_, fun u c => ?_, fun c hc u v hv => ?_⟩
    · by_cases hd : c = d
      · subst hd; simp [eff, setCom, plain, h2]
      · simp [eff, setCom, plain, hd, h2]
    · by_cases hd : c = d
      · subst hd; simp [eff, setCom, plain, h3]
      · simp [eff, setCom, plain, hd, h3]
    · have hc' : (flags c idleFlags l).nw = true := by
        rw [hf] at hc; simp only [flag] at hc; split at hc <;> exact hc
      have := h4 c hc' u v hv
      by_cases hd : c = d
      · subst hd; simpa [eff, setCom, plain] using this
      · simpa [eff, setCom, plain, hd] using this
  | waitS d =>
    refine ⟨h1, fun u c => ?_, fun u c => ?_, fun c hc u v hv => ?_⟩
    · by_cases hd : c = d
      · subst hd; simp [eff, setCom, plain, h2]
      · simp [eff, setCom, plain, hd, h2]
    · by_cases hd : c = d
      · subst hd; simp [eff, setCom, plain, h3]
      · simp [eff, setCom, plain, hd, h3]
    · have hc' : (flags c idleFlags l).nw = true := by
        rw [hf] at hc; simp only [flag] at hc; split at hc <;> exact hc
      have := h4 c hc' u v hv
      by_cases hd : c = d
      · subst hd; simpa [eff, setCom, plain] using this
      · simpa [eff, setCom, plain, hd] using this
  | pack d f =>
    refine ⟨h1, fun u c => ?_, fun u c => ?_, fun c hc u v hv => ?_⟩
    · by_cases hd : c = d
      · subst hd; simp [eff, setCom, plain, h1]
      · simp [eff, setCom, plain, hd, h2]
    · by_cases hd : c = d
      · subst hd; simp [eff, setCom, plain, h3]
      · simp [eff, setCom, plain, hd, h3]
    · rw [hf] at hc
      have := h4 c hc u v hv
      by_cases hd : c = d
      · subst hd; simpa [eff, setCom, plain] using this
      · simpa [eff, setCom, plain, hd] using this
  | send d =>
    refine ⟨h1, fun u c => ?_, fun u c => ?_, fun c hc u v hv => ?_⟩
    · by_cases hd : c = d
      · subst hd; simp [eff, setCom, plain, h2]
      · simp [eff, setCom, plain, hd, h2]
    · by_cases hd : c = d
      · subst hd; simp [eff, setCom, plain, h3]
      · simp [eff, setCom, plain, hd, h3]
    · by_cases hd : c = d
      · subst hd
        have hnw : (flags c idleFlags l).nw = false := by
          have := hok c
          simp only [okay, if_true, Bool.and_eq_true] at this
          simpa using this.2
        have e1 := (hag v c).balS
        have e2 := (hag u c).balS
        have e3 := (hag u c).len v hv
        rw [hnw, Bool.toNat_false] at e1 e2
        have e4 := (hag u c).started
        have e5 := (hag v c).started
        have e6 : ((xs v).com c).recvd = (((xs u).com c).out v).length := by omega
        simp only [eff, setCom, plain, Function.update_self, if_pos hv, e6]
        rw [List.getElem?_concat_length, h2]
      · have hc' : (flags c idleFlags l).nw = true := by
          rw [hf] at hc
          simp only [flag] at hc
          rw [if_neg (fun e => hd e.symm)] at hc
          exact hc
        have := h4 c hc' u v hv
        simpa [eff, setCom, plain, hd] using this
  | waitR d =>
    have hact : ∀ u, ((xs u).com d).rAct = true := by
      intro u
      have := hok d
      simp only [okay, if_true, Bool.and_eq_true] at this
      rw [(hag u d).rAct]; exact this.1
    have hnw : (flags d idleFlags l).nw = true := by
      have := hok d
      simp only [okay, if_true, Bool.and_eq_true] at this
      exact this.2
    refine ⟨fun u => ?_, fun u c => ?_, fun u c => ?_, fun c hc u v hv => ?_⟩
    · simp [eff, setCom, plain, hact, h1]
    · by_cases hd : c = d
      · subst hd; simp [eff, setCom, plain, h2, hact]
      · simp [eff, setCom, plain, hd, h2, hact]
    · by_cases hd : c = d
      · subst hd
        simp only [eff, setCom, plain, hact, if_true, Function.update_self]
        funext v
        simp only [arrivals, delivered]
        by_cases hv : v ∈ tm.nbrs u
        · rw [if_pos hv, if_pos hv, h4 c hnw v u (hsym _ _ hv)]; rfl
        · rw [if_neg hv, if_neg hv, h3]
      · simp [eff, setCom, plain, hd, h3, hact]
    · by_cases hd : c = d
      · subst hd
        rw [hf] at hc
        simp [flag] at hc
      · have hc' : (flags c idleFlags l).nw = true := by
          rw [hf] at hc
          simp only [flag] at hc
          rw [if_neg (fun e => hd e.symm)] at hc
          exact hc
        have := h4 c hc' u v hv
        simpa [eff, setCom, plain, hd, hact] using this

/-- The units before the run, without the requests. -/
def plainStart (init : U → Loc U C M B) (w : C → U → U → B) : Plain U C M B :=
  ⟨fun u => (init u).mem, fun c u => ((init u).com c).sbuf, fun c u => ((init u).com c).rbuf, w⟩

omit [DecidableEq R] [DecidableEq T] in
theorem plainRun_append (tm : Team U R T C) (a b : List (ℕ × UOp U C M B)) (p : Plain U C M B) :
    plainRun tm (a ++ b) p = plainRun tm b (plainRun tm a p) := by
  induction a generalizing p with
  | nil => rfl
  | cons q a ih => obtain ⟨n, o⟩ := q; exact ih _

omit [DecidableEq R] [DecidableEq T] in
/-- The lockstep run with requests and channels leaves the memories the text says. -/
theorem lock_plain {tm : Team U R T C} (hsym : ∀ u v, v ∈ tm.nbrs u → u ∈ tm.nbrs v)
    (init : U → Loc U C M B) (hi : ∀ u, idle (init u)) (w : C → U → U → B)
    (l : List (ℕ × UOp U C M B)) (h : ∀ c, checked c idleFlags (l.map Prod.snd) = true) :
    Refines tm (l.map Prod.snd) (lock tm l init) (plainRun tm l (plainStart init w)) := by
  induction l using List.reverseRecOn with
  | nil =>
    refine ⟨fun u => rfl, fun u c => rfl, fun u c => rfl, fun c hc => ?_⟩
    simp [flags, idleFlags] at hc
  | append_singleton l q ih =>
    obtain ⟨n, o⟩ := q
    have h' : ∀ c, checked c idleFlags (l.map Prod.snd) = true ∧
        okay c (flags c idleFlags (l.map Prod.snd)) o = true := by
      intro c
      have := h c
      rw [List.map_append, checked_append, Bool.and_eq_true] at this
      exact ⟨this.1, by simpa [checked] using this.2⟩
    rw [lock_append, plainRun_append, List.map_append]
    exact refines_step hsym _ o n _ _ (fun u c => agree_lock tm init hi c l (h' c).1 u)
      (fun c => (h' c).2) (ih fun c => (h' c).1)

end Verif.Schedule.Props
