import Verif.Lemmas.Util
import Mathlib.Data.Finset.Dedup

/-!
# Properties C09, C10, C11, C58, C59: run length, output schedule, thread ranges, edge types, utilities
-/

namespace Verif.Util.Props
open Verif.Util

/-! ## C10 -/

theorem units_prefix (N T : ℕ) (hT : 1 ≤ T) (hb : N + T ≤ 2 ^ 32) (t : ℕ) (ht : t ≤ T) :
    (List.range t).flatMap (unitsOf N T) = List.range (min ((N + T - 1) / T * t) N) := by
  have hs : (N + T - 1) / T * T ≤ N + T - 1 := Nat.div_mul_le_self _ _
  set s := (N + T - 1) / T with hsdef
  have hsT : s ≤ s * T := Nat.le_mul_of_pos_right _ hT
  have hsp : simPerThread N T = s := by
    unfold simPerThread; exact Nat.mod_eq_of_lt (by omega)
  induction t with
  | zero => simp
  | succ t ih =>
    have h1 : s * t ≤ s * T := Nat.mul_le_mul_left _ (by omega)
    have h2 : s * (t + 1) ≤ s * T := Nat.mul_le_mul_left _ ht
    have hbegin : beginSim N T t = s * t := by
      unfold beginSim; rw [hsp]; exact Nat.mod_eq_of_lt (by omega)
    have hend : endSim N T t = min (s * (t + 1)) N := by
      unfold endSim; rw [hsp, Nat.mod_eq_of_lt (a := N) (by omega), Nat.mod_eq_of_lt (by omega)]
    rw [List.range_succ, List.flatMap_append, ih (by omega)]
    simp only [List.flatMap_cons, List.flatMap_nil, List.append_nil, unitsOf, hbegin, hend]
    have h3 : s * t ≤ s * (t + 1) := Nat.mul_le_mul_left _ (by omega)
    rw [List.range_eq_range', List.range_eq_range']
    by_cases hN : s * t ≤ N
    · rw [Nat.min_eq_left hN]
      have : min (s * (t + 1)) N = s * t + (min (s * (t + 1)) N - s * t) := by omega
      conv_rhs => rw [this, ← List.range'_append_1]
      simp
    · have e1 : min (s * t) N = N := by omega
      have e2 : min (s * (t + 1)) N = N := by omega
      rw [e1, e2, Nat.sub_eq_zero_of_le (by omega)]; simp

/-- **C10** Going through the threads in order and through each thread's range visits the units `0, 1, …, N-1`, each
exactly once (`N + T ≤ 2³²`, so that no `uint` product wraps). -/
theorem threads_cover (N T : ℕ) (hT : 1 ≤ T) (hb : N + T ≤ 2 ^ 32) :
    (List.range T).flatMap (unitsOf N T) = List.range N := by
  rw [units_prefix N T hT hb T le_rfl]
  congr 1
  have h := Nat.div_add_mod (N + T - 1) T
  have h2 : (N + T - 1) % T < T := Nat.mod_lt _ hT
  rw [Nat.mul_comm] at h
  omega

/-- **C10** Each unit belongs to exactly one thread. -/
theorem threads_unique (N T : ℕ) (hT : 1 ≤ T) (hb : N + T ≤ 2 ^ 32) (su : ℕ) (hsu : su < N) :
    ∃! tid, tid < T ∧ beginSim N T tid ≤ su ∧ su < endSim N T tid := by
  have hc := threads_cover N T hT hb
  have hnd : ((List.range T).flatMap (unitsOf N T)).Nodup := by rw [hc]; exact List.nodup_range
  have hmem : su ∈ (List.range T).flatMap (unitsOf N T) := by rw [hc]; exact List.mem_range.mpr hsu
  have hunit : ∀ t, su ∈ unitsOf N T t ↔ beginSim N T t ≤ su ∧ su < endSim N T t := by
    intro t; unfold unitsOf; rw [List.mem_range'_1]; omega
  obtain ⟨t, ht, hm⟩ := List.mem_flatMap.mp hmem
  refine ⟨t, ⟨List.mem_range.mp ht, (hunit t).mp hm⟩, ?_⟩
  rintro u ⟨hu, hm'⟩
  have hm' := (hunit u).mpr hm'
  by_contra hne
  rw [List.nodup_flatMap] at hnd
  have hpw := hnd.2
  have : ∀ a b, a < b → b < T → List.Disjoint (unitsOf N T a) (unitsOf N T b) := by
    intro a b hab hb
    have := List.pairwise_iff_getElem.mp hpw a b (by simp; omega) (by simpa using hb) hab
    simpa using this
  rcases Nat.lt_or_gt_of_ne hne with h | h
  · exact this u t h (List.mem_range.mp ht) hm' hm
  · exact this t u h hu hm hm'

example : (List.range 4).flatMap (unitsOf 5 4) = [0, 1, 2, 3, 4] ∧ unitsOf 5 4 3 = [] ∧ beginSim 5 4 3 = 6 := by decide

/-! ## C11 -/

theorem isInternal_iff (e : ℕ) : isInternal e = true ↔ 128 ≤ e ∧ e < 192 := by
  unfold isInternal; rw [Bool.and_eq_true, decide_eq_true_iff, decide_eq_true_iff]; rfl
theorem isDistributed_iff (e : ℕ) : isDistributed e = true ↔ 192 ≤ e := by
  unfold isDistributed; rw [decide_eq_true_iff]; rfl
theorem isBoundary_iff (e : ℕ) : isBoundary e = true ↔ e < 128 := by
  unfold isBoundary; rw [decide_eq_true_iff]; rfl

/-- **C11** For every byte: exactly one of internal / boundary / distributed. -/
theorem edge_types_partition (e : ℕ) (_ : e < 256) :
    (isInternal e = true ∧ isBoundary e = false ∧ isDistributed e = false) ∨
    (isInternal e = false ∧ isBoundary e = true ∧ isDistributed e = false) ∨
    (isInternal e = false ∧ isBoundary e = false ∧ isDistributed e = true) := by
  simp only [← Bool.not_eq_true, isInternal_iff, isDistributed_iff, isBoundary_iff]
  omega

/-- **C11** Marking an internal code (including the internal levee code 129) distributed yields a distributed code in
the byte range, from which subtracting the offset restores the code; no two codes below 192 are confused. -/
theorem distributed_roundtrip (e : ℕ) (h : isInternal e = true) :
    isDistributed (distributed e) = true ∧ distributed e < 256 ∧ distributed e - DISTRIBUTED_OFFSET = e ∧
    ∀ e', e' < 192 → distributed e' = distributed e → e' = e := by
  simp only [isInternal_iff, isDistributed_iff, distributed, DISTRIBUTED_OFFSET] at *
  refine ⟨by omega, by omega, by omega, ?_⟩
  intro e' h1 h2; omega

/-- Codes that are not internal do not become distributed: marking is only meaningful for internal edges. -/
theorem distributed_only_internal (e : ℕ) (h : e < 256) :
    isDistributed (distributed e) = true ↔ isInternal e = true := by
  simp only [isInternal_iff, isDistributed_iff, distributed, DISTRIBUTED_OFFSET] at *
  omega

example : isInternal 129 = true ∧ distributed 129 = 193 ∧ isDistributed 193 = true := by decide

/-! ## C09 -/

/-- **C09** (run length) Whenever the conversion is defined, the number of steps is the least `n` with
`n * dt ≥ run_time` (for `dt > 0`). -/
theorem steps_least (a dt : ℚ) (hdt : 0 < dt) (n : ℕ) (h : ceilSteps a dt = some n) :
    a ≤ n * dt ∧ ∀ m : ℕ, a ≤ m * dt → n ≤ m := by
  unfold ceilSteps at h
  rw [if_neg hdt.ne'] at h
  split_ifs at h with hr
  simp only [Option.some.injEq] at h
  have hz : ((n : ℤ)) = ⌈a / dt⌉ := by omega
  constructor
  · have := Int.le_ceil (a / dt)
    rw [← hz, div_le_iff₀ hdt] at this
    exact_mod_cast this
  · intro m hm
    have : a / dt ≤ ((m : ℤ) : ℚ) := by rw [div_le_iff₀ hdt]; exact_mod_cast hm
    have := Int.ceil_le.mpr this
    omega

/-- The conversion is defined exactly for durations in `(-dt, (2³²-1) dt]`. -/
theorem steps_defined (a dt : ℚ) (hdt : 0 < dt) :
    (ceilSteps a dt).isSome = true ↔ -dt < a ∧ a ≤ (2 ^ 32 - 1) * dt := by
  unfold ceilSteps
  rw [if_neg hdt.ne']
  have h1 : 0 ≤ ⌈a / dt⌉ ↔ -dt < a := by
    rw [← Int.sub_one_lt_iff, zero_sub, Int.lt_ceil, lt_div_iff₀ hdt]; push_cast; constructor <;> intro h <;> linarith
  have h2 : ⌈a / dt⌉ < 2 ^ 32 ↔ a ≤ (2 ^ 32 - 1) * dt := by
    rw [← div_le_iff₀ hdt]
    have : (⌈a / dt⌉ < 2 ^ 32) ↔ ⌈a / dt⌉ ≤ 2 ^ 32 - 1 := by omega
    rw [this, Int.ceil_le]; norm_num
  rw [← h1, ← h2]
  split_ifs with h
  · exact ⟨fun _ => h, fun _ => rfl⟩
  · exact ⟨fun h' => absurd h' (by simp), fun h' => absurd h' h⟩

theorem runLoop_eq (freq : ℕ) (hf : freq ≠ 0) (k : ℕ) (w : List ℕ) :
    runLoop freq k w = some (w ++ ((List.range' 1 k).filter fun s => decide (freq ∣ s))) := by
  induction k with
  | zero => simp [runLoop]
  | succ k ih =>
    rw [runLoop, ih]
    simp only [Option.bind_some, writeOutput, due, if_neg hf, Option.bind_eq_bind, List.range'_1_concat, List.filter_append]
    by_cases hd : freq ∣ k + 1
    · simp [Nat.mod_eq_zero_of_dvd hd, Nat.add_comm 1 k, hd]
    · have : (k + 1) % freq ≠ 0 := fun h => hd (Nat.dvd_of_mod_eq_zero h)
      simp [this, Nat.add_comm 1 k, hd]

/-- **C09** (schedule) With a positive frequency in steps, a run of `n` steps writes output exactly for the initial state
and for those steps in `1..n` that are multiples of the frequency, each once and in order; every step written has its own
file name. -/
theorem output_schedule (freq n : ℕ) (hf : freq ≠ 0) (hn : n + 1 < 2 ^ 32) :
    runOutput freq n = some ((List.range (n + 1)).filter fun s => decide (freq ∣ s)) := by
  unfold runOutput
  rw [if_neg (by omega)]
  have h0 : writeOutput freq 0 [] = some [0] := by simp [writeOutput, due, hf]
  rw [h0, Option.bind_some, runLoop_eq freq hf, List.range_eq_range', Nat.add_comm n 1, ← List.range'_append_1]
  simp [List.range'_one]

theorem output_each_once (freq n : ℕ) (w : List ℕ) (h : runOutput freq n = some w) : w.Nodup ∧ 0 ∈ w := by
  by_cases hn : n + 1 ≥ 2 ^ 32
  · unfold runOutput at h; rw [if_pos hn] at h; cases h
  · by_cases hf : freq = 0
    · simp [runOutput, hf, writeOutput, due] at h
    · rw [output_schedule freq n hf (by omega)] at h
      cases h
      exact ⟨List.nodup_range.filter _, by simp⟩

/-- **C09** A frequency of zero steps is undefined behaviour (modulo by zero), whatever the length of the run. A
frequency in seconds in `(-dt, 0]` is such a case (no lower bound is checked by the input reader). -/
theorem zero_frequency_undefined (n : ℕ) (a dt : ℚ) (hdt : 0 < dt) (ha : -dt < a) (ha0 : a ≤ 0) :
    ceilSteps a dt = some 0 ∧ runOutput 0 n = none := by
  constructor
  · have h := (steps_defined a dt hdt).mpr ⟨ha, le_trans ha0 (by positivity)⟩
    obtain ⟨m, hm⟩ := Option.isSome_iff_exists.mp h
    have := (steps_least a dt hdt m hm).2 0 (by simpa using ha0)
    rw [hm]; congr 1; omega
  · unfold runOutput; split_ifs <;> simp [writeOutput, due]

/-- **C09** Distinct steps have distinct output file names. -/
theorem data_file_injective (path mesh ext : List Char) : Function.Injective (dataFile path mesh ext) := by
  intro a b h
  unfold dataFile at h
  have h1 := List.append_cancel_right h
  exact dec_injective (List.append_cancel_left h1)

example : runOutput 3 10 = some [0, 3, 6, 9] := by decide
example : ceilSteps (10 : ℚ) (3 : ℚ) = some 4 := by decide +kernel
example : String.ofList (dataFile "out/".toList "m".toList ".vtk".toList 120) = "out/m_data_120.vtk" := by decide +kernel

/-! ## C58 -/

open Verif.Stepper in
/-- **C58** `almost_equal` is reflexive up to the zero tolerance, symmetric, and true only for numbers whose distance is
below the tolerance. -/
theorem almost_equal_spec {K : Type} [Field K] [LinearOrder K] [IsStrictOrderedRing K] (eps factor : K) (he : 0 < eps * factor)
    (a b : K) :
    almostEqual eps factor a a = true ∧
    almostEqual eps factor a b = almostEqual eps factor b a ∧
    (almostEqual eps factor a b = true → |a - b| < max (2 * (eps * factor)) (max |a| |b| * eps * factor)) := by
  refine ⟨?_, ?_, ?_⟩
  · unfold almostEqual
    split_ifs with h
    · rfl
    · simp only [max_self, sub_self, abs_zero, decide_eq_true_eq] at *
      have : 0 < |a| := lt_of_lt_of_le he (not_lt.mp h)
      rw [mul_assoc]; positivity
  · unfold almostEqual; rw [max_comm |a| |b|, abs_sub_comm a b]
  · unfold almostEqual
    split_ifs with h
    · intro _
      have ha : |a| < eps * factor := lt_of_le_of_lt (le_max_left _ _) h
      have hb : |b| < eps * factor := lt_of_le_of_lt (le_max_right _ _) h
      refine lt_max_of_lt_left ?_
      calc |a - b| ≤ |a| + |b| := abs_sub a b
        _ < eps * factor + eps * factor := add_lt_add ha hb
        _ = 2 * (eps * factor) := by ring
    · intro h2
      exact lt_max_of_lt_right (of_decide_eq_true h2)

example : Verif.Stepper.almostEqual (1/2^52 : ℚ) 100 1 (1 + 1/10^15) = true ∧
    Verif.Stepper.almostEqual (1/2^52 : ℚ) 100 1 (1 + 1/10^13) = false := by decide +kernel

theorem advance_spec (now period : ℤ) (hp : 0 < period) (fuel : ℕ) (t : ℤ) (hf : now - t ≤ fuel) :
    ∃ t', advance now period fuel t = some t' ∧ now ≤ t' ∧ (t < now → t' < now + period) ∧ t ≤ t' ∧ period ∣ t' - t := by
  induction fuel generalizing t with
  | zero =>
    refine ⟨t, ?_, by omega, by omega, le_rfl, by simp⟩
    unfold advance; rw [if_neg (by simp at hf; omega)]
  | succ fuel ih =>
    unfold advance
    by_cases h : now > t
    · rw [if_pos h]
      obtain ⟨t', e, h1, h2, h3, h4⟩ := ih (t + period) (by push_cast at hf; omega)
      refine ⟨t', e, h1, ?_, by omega, ?_⟩
      · intro _
        by_cases hlt : t + period < now
        · exact h2 hlt
        · have : advance now period fuel (t + period) = some (t + period) := by
            cases fuel <;> (unfold advance; rw [if_neg (by omega)])
          rw [this] at e; cases e; omega
      · have : t' - t = (t' - (t + period)) + period := by ring
        rw [this]; exact Int.dvd_add h4 (dvd_refl _)
    · rw [if_neg h]; exact ⟨t, rfl, by omega, by omega, le_rfl, by simp⟩

/-- **C58** (heartbeat, one poll) With a positive period a poll always terminates; it fires iff the next firing time has
passed; afterwards the next firing time is not in the past and, if the poll fired, less than one period away. The firing
times stay on the grid of multiples of the period. -/
theorem heartbeat_poll (now : ℤ) (h : HeartBeat) (hp : 0 < h.period) :
    ∃ b h', h.thump now = some (b, h') ∧ (b = true ↔ h.tNext < now) ∧ now ≤ h'.tNext ∧ h'.period = h.period ∧
      (b = true → h'.tNext < now + h.period) ∧ (b = false → h' = h) ∧ h.period ∣ h'.tNext - h.tNext ∧ h.tNext ≤ h'.tNext := by
  unfold HeartBeat.thump
  by_cases hn : now > h.tNext
  · rw [if_pos hn]
    obtain ⟨t', e, h1, h2, h3, h4⟩ := advance_spec now h.period hp (now - h.tNext).toNat h.tNext (by omega)
    rw [e]
    exact ⟨true, _, rfl, by simp; omega, h1, rfl, fun _ => h2 hn, by simp, h4, h3⟩
  · rw [if_neg hn]
    exact ⟨false, h, rfl, by simp; omega, by omega, rfl, by simp, by simp, by simp, le_rfl⟩

theorem heartbeat_polls_aux (ns : List ℤ) (h : HeartBeat) (hp : 0 < h.period) (hd : h.period ∣ h.tNext) :
    ∃ rs h', h.polls ns = some (rs, h') ∧ rs.map Prod.fst = ns ∧
      (∀ r ∈ rs, r.2 = true → h.tNext < r.1) ∧
      (rs.filter (·.2)).Pairwise (fun r s => ∃ k : ℤ, r.1 ≤ k * h.period ∧ k * h.period < s.1) := by
  induction ns generalizing h with
  | nil => exact ⟨[], h, rfl, rfl, by simp, by simp⟩
  | cons n ns ih =>
    obtain ⟨b, h1, e1, hb, hle, hper, hlt, hsame, hdiv, hmono⟩ := heartbeat_poll n h hp
    have hd1 : h1.period ∣ h1.tNext := by
      rw [hper]; have := Int.dvd_add hdiv hd; rwa [sub_add_cancel] at this
    obtain ⟨rs, h2, e2, hm, hgt, hpw⟩ := ih h1 (by rw [hper]; exact hp) hd1
    refine ⟨(n, b) :: rs, h2, by simp [HeartBeat.polls, e1, e2], by simp [hm], ?_, ?_⟩
    · intro r hr hrt
      rcases List.mem_cons.mp hr with rfl | hr
      · exact hb.mp hrt
      · exact lt_of_le_of_lt hmono (hgt r hr hrt)
    · rw [hper] at hpw
      by_cases hbt : b = true
      · rw [List.filter_cons_of_pos (by simpa using hbt), List.pairwise_cons]
        refine ⟨fun s hs => ?_, hpw⟩
        rw [List.mem_filter] at hs
        obtain ⟨k, hk⟩ := hd1
        rw [hper, mul_comm] at hk
        exact ⟨k, by rw [← hk]; exact hle, by rw [← hk]; exact hgt s hs.1 hs.2⟩
      · rw [List.filter_cons_of_neg (by simpa using hbt)]; exact hpw

/-- **C58** (heartbeat, any poll sequence) For any sequence of polls (clock readings, in any order), any two firing polls
are separated by a multiple of the period: at most one firing per period window `(k·period, (k+1)·period]`. -/
theorem heartbeat_once_per_period (period now : ℤ) (hp : 0 < period) (h : HeartBeat) (hi : HeartBeat.init period now = some h)
    (ns : List ℤ) :
    ∃ rs h', h.polls ns = some (rs, h') ∧ rs.map Prod.fst = ns ∧
      (rs.filter (·.2)).Pairwise (fun r s => ∃ k : ℤ, r.1 ≤ k * period ∧ k * period < s.1) := by
  unfold HeartBeat.init at hi
  rw [if_neg hp.ne'] at hi
  cases hi
  obtain ⟨rs, h', e, hm, _, hpw⟩ := heartbeat_polls_aux ns ⟨period, (now.tdiv period + 2) * period⟩ hp ⟨now.tdiv period + 2, mul_comm _ _⟩
  exact ⟨rs, h', e, hm, hpw⟩

example : ((HeartBeat.init 10 3).bind (HeartBeat.polls [5, 21, 22, 30, 31, 55, 60])).map (fun p => p.1.filter (·.2)) =
    some [(21, true), (31, true), (55, true)] := by decide

/-! ## C59 -/

section het
variable {Ty : Type} [DecidableEq Ty] {α : Type}

theorem hetVec_aux (ops : List (Ty × α)) (v : HetVec Ty α) (hl : v.data.length = v.types.length)
    (hops : ∀ o ∈ ops, o.1 ∈ v.types) :
    ∃ v', v.insertAll ops = some v' ∧ v'.types = v.types ∧ v'.data.length = v.data.length ∧
      (∀ T, slotOf v'.types v'.data T = (slotOf v.types v.data T).map (· ++ (ops.filter (fun o => o.1 = T)).map Prod.snd)) ∧
      (v'.data.map List.length).sum = (v.data.map List.length).sum + ops.length := by
  induction ops generalizing v with
  | nil => exact ⟨v, rfl, rfl, rfl, by simp, by simp⟩
  | cons o ops ih =>
    obtain ⟨U, x⟩ := o
    obtain ⟨i, hi⟩ := typeIndex_isSome (hops (U, x) (by simp))
    have hil := typeIndex_lt hi
    obtain ⟨v', e, h1, h2, h3, h4⟩ := ih { v with data := v.data.modify i (· ++ [x]) } (by simp [hl])
      (fun o ho => hops o (by simp [ho]))
    refine ⟨v', ?_, h1, by simpa using h2, ?_, ?_⟩
    · simp [HetVec.insertAll, HetVec.emplaceBack, hi, e]
    · intro T
      rw [h3 T]
      simp only
      rw [slotOf_modify hi]
      by_cases hT : T = U
      · subst hT; simp [Option.map_map, Function.comp_def]
      · have : ¬ U = T := fun h => hT h.symm
        simp [hT, this]
    · rw [h4, sum_length_modify _ _ (by omega) _ 1 (by simp)]; simp; omega

/-- **C59** (vector) After any sequence of insertions of objects whose types are among the container's types,
`at<T>(k)` is the `k`-th inserted object of type `T` (out of range reported otherwise) and the sizes add up. -/
theorem hetVec_spec (types : List Ty) (ops : List (Ty × α)) (hops : ∀ o ∈ ops, o.1 ∈ types) :
    ∃ v, (HetVec.empty types).insertAll ops = some v ∧
      (∀ T ∈ types, ∀ k, v.get T k = some (((ops.filter (fun o => o.1 = T)).map Prod.snd)[k]?)) ∧
      v.size = ops.length % 2 ^ 32 := by
  obtain ⟨v, e, h1, h2, h3, h4⟩ := hetVec_aux ops (HetVec.empty types) (by simp [HetVec.empty]) hops
  refine ⟨v, e, ?_, ?_⟩
  · intro T hT k
    obtain ⟨i, hi⟩ := typeIndex_isSome hT
    have hil := typeIndex_lt hi
    have hs : slotOf (HetVec.empty (α := α) types).types (HetVec.empty (α := α) types).data T = some [] := by
      simp [slotOf, HetVec.empty, hi, hil]
    have := h3 T
    rw [hs] at this
    simp only [Option.map_some, List.nil_append] at this
    unfold slotOf at this
    unfold HetVec.get
    rw [h1] at this ⊢
    simp only [HetVec.empty] at this ⊢
    rw [hi, Option.bind_some] at this
    simp [hi, this]
  · unfold HetVec.size; rw [foldl_size, h4]; simp [HetVec.empty]

example : ((HetVec.empty (α := ℕ) ["a", "b"]).insertAll [("a", 1), ("b", 2), ("a", 3)]).bind (fun v => v.get "a" 1) = some (some 3) := by
  decide

theorem lookup_mapEmplace (m : List (ℕ × α)) (k j : ℕ) (x : α) :
    (mapEmplace m k x).lookup j = (m ++ [(k, x)]).lookup j := by
  unfold mapEmplace
  split_ifs with h
  · rw [List.lookup_append]
    by_cases hj : j = k
    · subst hj
      obtain ⟨y, hy⟩ := Option.isSome_iff_exists.mp h
      simp [hy]
    · have : (j == k) = false := by simp [hj]
      simp [List.lookup, this]
  · rfl

theorem hetMap_aux (ops : List (Ty × ℕ × α)) (v : HetMap Ty α)
    (hops : ∀ o ∈ ops, o.1 ∈ v.types) :
    ∃ v', v.insertAll ops = some v' ∧ v'.types = v.types ∧
      (∀ T m, slotOf v.types v.data T = some m → ∃ m', slotOf v'.types v'.data T = some m' ∧
        ∀ j, m'.lookup j = (m ++ (ops.filter (fun o => o.1 = T)).map Prod.snd).lookup j) := by
  induction ops generalizing v with
  | nil => exact ⟨v, rfl, rfl, fun T m hm => ⟨m, hm, by simp⟩⟩
  | cons o ops ih =>
    obtain ⟨U, k, x⟩ := o
    obtain ⟨i, hi⟩ := typeIndex_isSome (hops (U, k, x) (by simp))
    obtain ⟨v', e, h1, h3⟩ := ih { v with data := v.data.modify i (fun m => mapEmplace m k x) }
      (fun o ho => hops o (by simp [ho]))
    refine ⟨v', by simp [HetMap.insertAll, HetMap.emplace, hi, e], h1, ?_⟩
    intro T m hm
    have hsl := slotOf_modify (data := v.data) hi (fun m => mapEmplace m k x) T
    by_cases hT : T = U
    · subst hT
      rw [if_pos rfl, hm, Option.map_some] at hsl
      obtain ⟨m', hm', hlook⟩ := h3 T _ hsl
      refine ⟨m', hm', fun j => ?_⟩
      rw [hlook j, List.lookup_append, lookup_mapEmplace]
      simp [List.lookup_append, Option.or_assoc]
      simp [List.lookup]
      cases m.lookup j <;> simp
      cases (j == k) <;> simp
    · rw [if_neg hT, hm] at hsl
      obtain ⟨m', hm', hlook⟩ := h3 T _ hsl
      refine ⟨m', hm', fun j => ?_⟩
      have : ¬ U = T := fun h => hT h.symm
      rw [hlook j]; simp [this]

/-- **C59** (map) After any sequence of insertions, looking up key `k` in the map of type `T` returns the value of the
*first* insertion of this type with this key (later ones never overwrite it), and reports a missing key otherwise. -/
theorem hetMap_spec (types : List Ty) (ops : List (Ty × ℕ × α)) (hops : ∀ o ∈ ops, o.1 ∈ types) :
    ∃ v, (HetMap.empty types).insertAll ops = some v ∧
      ∀ T ∈ types, ∀ k, v.get T k = some ((ops.find? (fun o => o.1 = T ∧ o.2.1 = k)).map fun o => o.2.2) := by
  obtain ⟨v, e, h1, h3⟩ := hetMap_aux ops (HetMap.empty types) hops
  refine ⟨v, e, fun T hT k => ?_⟩
  obtain ⟨i, hi⟩ := typeIndex_isSome hT
  have hil := typeIndex_lt hi
  have hs : slotOf (HetMap.empty (α := α) types).types (HetMap.empty (α := α) types).data T = some [] := by
    simp [slotOf, HetMap.empty, hi, hil]
  obtain ⟨m, hm, hlook⟩ := h3 T _ hs
  have hget : v.get T k = some (m.lookup k) := by
    unfold slotOf at hm
    unfold HetMap.get
    rw [h1] at hm ⊢
    simp only [HetMap.empty] at hm ⊢
    rw [hi, Option.bind_some] at hm
    simp [hi, hm]
  rw [hget, hlook k]
  congr 1
  clear hget hlook hm hs h3 h1 e hops v m
  simp only [List.nil_append]
  induction ops with
  | nil => simp
  | cons o ops ih =>
    obtain ⟨U, j, x⟩ := o
    by_cases hU : U = T
    · by_cases hj : j = k
      · simp [hU, hj]
      · have h2 : (k == j) = false := by simp; exact fun h => hj h.symm
        simp [hU, hj, List.lookup, h2, ih]
    · simp [hU, ih]

example : ((HetMap.empty (α := ℕ) ["a", "b"]).insertAll [("a", 7, 1), ("b", 7, 2), ("a", 7, 3)]).bind (fun v => v.get "a" 7) =
    some (some 1) := by decide

theorem insertAll_snoc (ops : List (Ty × ℕ × α)) (o : Ty × ℕ × α) (v : HetMap Ty α) :
    v.insertAll (ops ++ [o]) = (v.insertAll ops).bind fun w => w.emplace o.1 o.2.1 o.2.2 := by
  induction ops generalizing v with
  | nil =>
    obtain ⟨U, k, x⟩ := o
    simp [HetMap.insertAll]
  | cons p ops ih =>
    obtain ⟨U, k, x⟩ := p
    simp only [List.cons_append, HetMap.insertAll, ih, Option.bind_assoc]

/-- **C59** (map) The size is the number of different pairs of a type and a key (as an unsigned integer). -/
theorem hetMap_size (types : List Ty) (ops : List (Ty × ℕ × α)) (hops : ∀ o ∈ ops, o.1 ∈ types) :
    ∃ v, (HetMap.empty types).insertAll ops = some v ∧ v.size = (ops.map fun o => (o.1, o.2.1)).toFinset.card % 2 ^ 32 := by
  suffices h : ∃ v, (HetMap.empty types).insertAll ops = some v ∧ v.types = types ∧ v.data.length = types.length ∧
      (v.data.map List.length).sum = (ops.map fun o => (o.1, o.2.1)).toFinset.card by
    obtain ⟨v, e, _, _, h⟩ := h
    refine ⟨v, e, ?_⟩
    unfold HetMap.size
    rw [foldl_size, h]
  induction ops using List.reverseRecOn with
  | nil => exact ⟨_, rfl, rfl, by simp [HetMap.empty], by simp [HetMap.empty]⟩
  | append_singleton ops o ih =>
    obtain ⟨v, e, ht, hl, hs⟩ := ih fun o ho => hops o (by simp [ho])
    obtain ⟨v', e', hget⟩ := hetMap_spec types ops fun o ho => hops o (by simp [ho])
    obtain rfl : v = v' := by rw [e] at e'; exact Option.some.inj e'
    have hU : o.1 ∈ types := hops o (by simp)
    obtain ⟨i, hi⟩ := typeIndex_isSome hU
    have hil := typeIndex_lt hi
    have hi' : typeIndex o.1 v.types = some i := by rw [ht]; exact hi
    have hg := hget o.1 hU o.2.1
    obtain ⟨m, hm⟩ : ∃ m, v.data[i]? = some m := ⟨v.data[i]'(by omega), by simp [hl, hil]⟩
    have hlook : m.lookup o.2.1 = (ops.find? (fun p => p.1 = o.1 ∧ p.2.1 = o.2.1)).map fun o => o.2.2 := by
      unfold HetMap.get at hg
      simpa [hi', hm] using hg
    refine ⟨{ v with data := v.data.modify i fun m => mapEmplace m o.2.1 o.2.2 }, by rw [insertAll_snoc, e]; simp [HetMap.emplace, hi'], ht, by simp [hl], ?_⟩
    have hfin : ((ops ++ [o]).map fun o => (o.1, o.2.1)).toFinset = insert (o.1, o.2.1) (ops.map fun o => (o.1, o.2.1)).toFinset := by
      ext a
      simp
    rw [hfin]
    by_cases hold : ∃ p ∈ ops, p.1 = o.1 ∧ p.2.1 = o.2.1
    · have h1 : (m.lookup o.2.1).isSome := by
        rw [hlook]
        simpa using hold
      have h2 : v.data.modify i (fun m => mapEmplace m o.2.1 o.2.2) = v.data := by
        refine List.ext_getElem? fun j => ?_
        rw [List.getElem?_modify]
        by_cases hj : i = j
        · subst hj
          simp [hm, mapEmplace, h1]
        · simp [hj]
      obtain ⟨p, hp, hp1, hp2⟩ := hold
      rw [Finset.insert_eq_of_mem (by simp only [List.mem_toFinset, List.mem_map]; exact ⟨p, hp, by rw [hp1, hp2]⟩), ← hs]
      simp only [h2]
    · have h1 : (m.lookup o.2.1).isSome = false := by
        rw [hlook, Option.isSome_map, Bool.eq_false_iff, Ne, List.find?_isSome]
        rintro ⟨p, hp, hpe⟩
        exact hold ⟨p, hp, of_decide_eq_true hpe⟩
      rw [Finset.card_insert_of_notMem, ← hs]
      · refine sum_length_modify _ _ (by omega) _ 1 fun l hl' => ?_
        rw [hm] at hl'
        cases hl'
        simp [mapEmplace, h1]
      · simp only [List.mem_toFinset, List.mem_map]
        rintro ⟨p, hp, hpe⟩
        simp only [Prod.mk.injEq] at hpe
        exact hold ⟨p, hp, hpe.1, hpe.2⟩

example : ((HetMap.empty (α := ℕ) ["a", "b"]).insertAll [("a", 7, 1), ("b", 7, 2), ("a", 7, 3)]).map HetMap.size = some 2 := by decide

end het

end Verif.Util.Props
