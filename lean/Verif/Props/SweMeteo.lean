import Verif.Model.SweMeteo
import Verif.Props.Stepper
import Verif.Lemmas.Util
import Mathlib.Algebra.Order.Field.Basic
import Mathlib.Tactic.FieldSimp
import Mathlib.Tactic.Ring

/-!
# C54: meteorological data
-/

namespace Verif.Swe.Props
open Verif.Swe Verif.Stepper Verif.Stepper.Props

variable {K : Type} [Field K]

theorem meteo_ok_bind {α β : Type} (x : α) (f : α → Res β) : ((.ok x : Res α) >>= f) = f x := rfl

theorem loadSet_absent {files : ℕ → Option (List (ℕ × Wind K))} {k : ℕ} {sets : ℕ → Option (WindSet K)} (h : sets k = none) {ls : List (ℕ × Wind K)}
    (hf : files k = some ls) (hl : ls ≠ []) : loadSet files k sets = .ok fun j => if j = k then some (windSet ls) else sets j := by
  unfold loadSet
  rw [h, hf]
  cases ls with
  | nil => exact absurd rfl hl
  | cons a l => rfl

theorem loadSet_missing {files : ℕ → Option (List (ℕ × Wind K))} {k : ℕ} {sets : ℕ → Option (WindSet K)} (h : sets k = none) (hf : files k = none) :
    loadSet files k sets = .error .exc := by
  unfold loadSet; rw [h, hf]; rfl

theorem loadSet_present {files : ℕ → Option (List (ℕ × Wind K))} {k : ℕ} {sets : ℕ → Option (WindSet K)} {d : WindSet K} (h : sets k = some d) :
    loadSet files k sets = .ok sets := by
  unfold loadSet; rw [h]; rfl

theorem interpolate_ok (freq step : ℕ) (time dt : K) (sets : ℕ → Option (WindSet K)) (A B : WindSet K)
    (hA : sets (stepStart freq step) = some A) (hB : sets (stepEnd freq step) = some B) (a b : ℕ → Wind K) (ns : List ℕ)
    (ha : ∀ n ∈ ns, A n = some (a n)) (hb : ∀ n ∈ ns, B n = some (b n)) (v : ℕ → Option (Wind K)) :
    ∃ v', interpolate freq step time dt sets ns v = .ok v' ∧
      (∀ n ∈ ns, v' n = some (interpWind (interpFactor freq step time dt) (a n) (b n))) ∧ ∀ n ∉ ns, v' n = v n := by
  induction ns generalizing v with
  | nil => exact ⟨v, rfl, (fun n hn => by cases hn), fun _ _ => rfl⟩
  | cons n ns ih =>
    have e1 : windAt sets (stepStart freq step) n = .ok (a n) := by unfold windAt; rw [hA]; dsimp only; rw [ha n List.mem_cons_self]
    have e2 : windAt sets (stepEnd freq step) n = .ok (b n) := by unfold windAt; rw [hB]; dsimp only; rw [hb n List.mem_cons_self]
    rw [interpolate, e1, e2]
    obtain ⟨v', h1, h2, h3⟩ := ih (fun m hm => ha m (List.mem_cons_of_mem _ hm)) (fun m hm => hb m (List.mem_cons_of_mem _ hm))
      (fun m => if m = n then some (interpWind (interpFactor freq step time dt) (a n) (b n)) else v m)
    refine ⟨v', h1, fun m hm => ?_, fun m hm => ?_⟩
    · by_cases hmn : m ∈ ns
      · exact h2 m hmn
      · rw [h3 m hmn]
        have : m = n := (List.mem_cons.mp hm).resolve_right hmn
        rw [if_pos this, this]
    · rw [List.mem_cons, not_or] at hm
      rw [h3 m hm.2, if_neg hm.1]

theorem mem_addNodes (ms l : List ℕ) (n : ℕ) : n ∈ addNodes ms l ↔ n ∈ ms ∨ n ∈ l := by
  induction ms generalizing l with
  | nil => simp [addNodes]
  | cons m ms ih =>
    rw [addNodes, ih]
    by_cases h : m ∈ l
    · rw [if_pos h, List.mem_cons]
      constructor
      · rintro (h1 | h1)
        · exact Or.inl (Or.inr h1)
        · exact Or.inr h1
      · rintro ((h1 | h1) | h1)
        · exact Or.inr (h1 ▸ h)
        · exact Or.inl h1
        · exact Or.inr h1
    · rw [if_neg h, List.mem_cons, List.mem_append, List.mem_singleton]; tauto

theorem windSet_mem {ls : List (ℕ × Wind K)} (hn : (ls.map Prod.fst).Nodup) {n : ℕ} {w : Wind K} (h : (n, w) ∈ ls) : windSet ls n = some w := by
  have hf' : (ls.reverse.map Prod.fst).Nodup := by rw [List.map_reverse]; exact List.nodup_reverse.mpr hn
  have h' : (n, w) ∈ ls.reverse := List.mem_reverse.mpr h
  unfold windSet
  generalize ls.reverse = l at hf' h'
  clear hn h
  induction l with
  | nil => cases h'
  | cons x l ih =>
    rw [List.map_cons, List.nodup_cons] at hf'
    obtain ⟨x1, x2⟩ := x
    rcases List.mem_cons.mp h' with h | h
    · cases h; simp
    · have : n ≠ x1 := fun he => hf'.1 (List.mem_map.mpr ⟨(n, w), h, he⟩)
      rw [List.lookup_cons]
      have : (n == x1) = false := by simpa using this
      rw [this]
      exact ih hf'.2 h

/-- The steps at which a data set is due, as seen from step `k`: the last one not after `k`. -/
def windowStart (freq k : ℕ) : ℕ := k / freq * freq

theorem stepStart_eq (freq k : ℕ) : stepStart freq k = windowStart freq k := by
  unfold stepStart windowStart
  have := Nat.div_add_mod k freq
  rw [Nat.mul_comm] at this
  omega

/-- Contents of the store at step `k` in a run without failures. -/
def storeAt (files : ℕ → Option (List (ℕ × Wind K))) (freq k : ℕ) : ℕ → Option (WindSet K) :=
  fun j => if j = windowStart freq k ∨ j = windowStart freq k + freq then some (windSet ((files j).getD [])) else none

/-- Start of a window: the oldest set is dropped and the next one read. -/
theorem parseMeteo_ok {files : ℕ → Option (List (ℕ × Wind K))} {freq : ℕ} (hf : 0 < freq) {k : ℕ} (hk : k % freq = 0) (hB : k + freq < 2 ^ 32)
    {sets : ℕ → Option (WindSet K)} (hs : (k = 0 ∧ sets = fun _ => none) ∨ (0 < k ∧ sets = storeAt files freq (k - 1)))
    {l1 l2 : List (ℕ × Wind K)} (h1 : files k = some l1) (h1' : l1 ≠ []) (h2 : files (k + freq) = some l2) (h2' : l2 ≠ []) :
    parseMeteo files freq k sets = .ok (storeAt files freq k) := by
  have hw : windowStart freq k = k := by unfold windowStart; exact Nat.div_mul_cancel (Nat.dvd_of_mod_eq_zero hk)
  have hfm : freq % 2 ^ 32 = freq := Nat.mod_eq_of_lt (by omega)
  have hkm : (k + freq) % 2 ^ 32 = k + freq := Nat.mod_eq_of_lt hB
  unfold parseMeteo
  rw [hkm, hfm]
  have hst : storeAt files freq k = fun j => if j = k + freq then some (windSet l2) else if j = k then some (windSet l1) else none := by
    funext j
    unfold storeAt
    rw [hw]
    by_cases e1 : j = k + freq
    · rw [if_pos (Or.inr e1), if_pos e1, e1, h2]; rfl
    · rw [if_neg e1]
      by_cases e2 : j = k
      · rw [if_pos (Or.inl e2), if_pos e2, e2, h1]; rfl
      · rw [if_neg e2, if_neg (by tauto)]
  rw [hst]
  rcases hs with ⟨hk0, hs⟩ | ⟨hk0, hs⟩
  · subst hs
    have e0 : (fun j => if j = (k + (2 ^ 32 - freq)) % 2 ^ 32 then none else (none : Option (WindSet K))) = fun _ => none := by funext j; split_ifs <;> rfl
    dsimp only
    rw [e0, loadSet_absent rfl h1 h1']
    rw [meteo_ok_bind, loadSet_absent (if_neg (by omega)) h2 h2']
  · have hge : freq ≤ k := Nat.le_of_dvd hk0 (Nat.dvd_of_mod_eq_zero hk)
    have hold : (k + (2 ^ 32 - freq)) % 2 ^ 32 = k - freq := by
      have : k + (2 ^ 32 - freq) = (k - freq) + 2 ^ 32 := by omega
      rw [this, Nat.add_mod_right]
      exact Nat.mod_eq_of_lt (by omega)
    have hw1 : windowStart freq (k - 1) = k - freq := by
      obtain ⟨m, rfl⟩ := Nat.dvd_of_mod_eq_zero hk
      unfold windowStart
      have hm : 0 < m := Nat.pos_of_mul_pos_left hk0
      have : (freq * m - 1) / freq = m - 1 := by
        apply Nat.div_eq_of_lt_le
        · rw [Nat.sub_mul, Nat.one_mul, Nat.mul_comm m freq]
          omega
        · rw [Nat.sub_add_cancel hm, Nat.mul_comm m freq]; omega
      rw [this, Nat.sub_mul, Nat.one_mul, Nat.mul_comm]
    have e0 : (fun j => if j = (k + (2 ^ 32 - freq)) % 2 ^ 32 then none else sets j) = fun j => if j = k then some (windSet l1) else none := by
      funext j
      rw [hold, hs]
      unfold storeAt
      rw [hw1, Nat.sub_add_cancel hge]
      by_cases e1 : j = k - freq
      · rw [if_pos e1, if_neg (by omega)]
      · rw [if_neg e1]
        by_cases e2 : j = k
        · rw [if_pos (Or.inr e2), if_pos e2, e2, h1]; rfl
        · rw [if_neg e2, if_neg (by tauto)]
    dsimp only
    rw [e0, loadSet_present (if_pos rfl)]
    rw [meteo_ok_bind, loadSet_absent (if_neg (by omega)) h2 h2']

/-- Inside a window nothing changes. -/
theorem storeAt_congr (files : ℕ → Option (List (ℕ × Wind K))) {freq j k : ℕ} (h : j / freq = k / freq) : storeAt files freq j = storeAt files freq k := by
  unfold storeAt windowStart; rw [h]

/-- The files a run needs: for each multiple of the frequency up to the end of the window of step `last`, a file with one record `D` for each
node of the mesh. -/
def FilesFor (files : ℕ → Option (List (ℕ × Wind K))) (mesh : List ℕ) (freq last : ℕ) (D : ℕ → ℕ → Wind K) : Prop :=
  ∀ j ≤ last / freq + 1, ∃ ls, files (j * freq) = some ls ∧ (ls.map Prod.fst).Nodup ∧ ∀ n ∈ mesh, (n, D (j * freq) n) ∈ ls

section Run
variable [LinearOrder K] [IsStrictOrderedRing K]

/-- **C54** In every run of the explicit stepper, after the call at the beginning of stage `n` (counted over all steps; the step is
`k = n / nstages`): the call has succeeded; the sets in memory are exactly the two around the present step; every node of the mesh has the linear
interpolation between their values, with weight `(k - start) / freq`, which lies in [0,1). -/
theorem meteo_window (files : ℕ → Option (List (ℕ × Wind K))) (mesh : List ℕ) (hmesh : mesh ≠ []) (freq : ℕ) (hf : 0 < freq) (tanh : K → K) (order nstages : ℕ)
    (dt rd : K) (hdt : 0 < dt) (s0 : Explicit K) (h0 : Explicit.init order nstages dt rd = some s0) (n : ℕ) (hB : n / nstages + freq < 2 ^ 32)
    (D : ℕ → ℕ → Wind K) (hfiles : FilesFor files mesh freq (n / nstages) D) :
    ∃ p, meteoRun files mesh freq tanh s0 (n + 1) = .ok p ∧
      (∀ j, (p.sets j).isSome ↔ j = windowStart freq (n / nstages) ∨ j = windowStart freq (n / nstages) + freq) ∧
      windowStart freq (n / nstages) ≤ n / nstages ∧ n / nstages < windowStart freq (n / nstages) + freq ∧
      ∃ θ : K, θ = ((n / nstages - windowStart freq (n / nstages) : ℕ) : K) / freq ∧ 0 ≤ θ ∧ θ < 1 ∧
        ∀ m ∈ mesh, p.values m = some
          ((1 - θ) * (D (windowStart freq (n / nstages)) m).1 + θ * (D (windowStart freq (n / nstages) + freq) m).1,
           (1 - θ) * (D (windowStart freq (n / nstages)) m).2.1 + θ * (D (windowStart freq (n / nstages) + freq) m).2.1,
           (1 - θ) * (D (windowStart freq (n / nstages)) m).2.2 + θ * (D (windowStart freq (n / nstages) + freq) m).2.2) := by
  obtain ⟨m0, hm0⟩ := List.exists_mem_of_ne_nil mesh hmesh
  have hns : 0 < nstages := (init_inv h0).2.1
  -- one call
  have step : ∀ i ≤ n, ∀ p : Meteo K, (i = 0 ∧ p = Meteo.init) ∨ (0 < i ∧ p.sets = storeAt files freq ((i - 1) / nstages) ∧ p.nodes = addNodes mesh []) →
      meteoRun files mesh freq tanh s0 i = .ok p → ∃ p', meteoRun files mesh freq tanh s0 (i + 1) = .ok p' ∧ p'.sets = storeAt files freq (i / nstages) ∧
        p'.nodes = addNodes mesh [] ∧ ∀ m ∈ mesh, p'.values m = some (interpWind (interpFactor freq (i / nstages) (((i / nstages : ℕ) : K) * dt) dt)
          (D (windowStart freq (i / nstages)) m) (D (windowStart freq (i / nstages) + freq) m)) := by
    intro i hi p hp hrun
    have hik : i / nstages ≤ n / nstages := Nat.div_le_div_right hi
    have hib : i / nstages + freq < 2 ^ 32 := by omega
    obtain ⟨s, hs, h1, -, -, h4, -, -, h7⟩ := explicit_clock tanh order nstages dt rd s0 h0 i
    have ht : s.time = some (((i / nstages : ℕ) : K) * dt) := by
      obtain ⟨s', hs', hi', _⟩ := incrN_inv tanh h0 i
      rw [hs] at hs'; cases hs'
      exact hi'.time hns
    rw [Nat.mod_eq_of_lt (by omega)] at h4
    rw [meteoRun, hrun, hs]
    show ∃ p', (ofOpt s.time >>= fun t => p.parse files mesh freq s.step s.stage t s.dt) = .ok p' ∧ _
    rw [ht]
    show ∃ p', p.parse files mesh freq s.step s.stage _ s.dt = .ok p' ∧ _
    rw [h4, h1, h7]
    generalize hk : i / nstages = k at *
    -- files around step k
    have hdiv : k / freq ≤ n / nstages / freq := Nat.div_le_div_right hik
    obtain ⟨l1, hl1, hd1, hr1⟩ := hfiles (k / freq) (by omega)
    obtain ⟨l2, hl2, hd2, hr2⟩ := hfiles (k / freq + 1) (by omega)
    have ew : k / freq * freq = windowStart freq k := rfl
    have ew2 : (k / freq + 1) * freq = windowStart freq k + freq := by rw [Nat.add_mul, Nat.one_mul, ew]
    rw [ew] at hl1 hr1
    rw [ew2] at hl2 hr2
    have hne1 : l1 ≠ [] := List.ne_nil_of_mem (hr1 m0 hm0)
    have hne2 : l2 ≠ [] := List.ne_nil_of_mem (hr2 m0 hm0)
    -- the store after reading
    have hsets : refreshSets files freq k (i % nstages) p.sets = .ok (storeAt files freq k) := by
      unfold refreshSets
      by_cases hc : k % freq = 0 ∧ i % nstages = 0
      · rw [if_pos hc]
        have hwk : windowStart freq k = k := by unfold windowStart; exact Nat.div_mul_cancel (Nat.dvd_of_mod_eq_zero hc.1)
        rw [hwk] at hl1 hl2
        refine parseMeteo_ok hf hc.1 hib ?_ hl1 hne1 hl2 hne2
        rcases hp with ⟨hi0, hp⟩ | ⟨hi0, hp, _⟩
        · left
          subst hp
          refine ⟨?_, rfl⟩
          rw [← hk, hi0, Nat.zero_div]
        · right
          have hi1 : i = nstages * k := by have := Nat.div_add_mod i nstages; rw [hc.2, hk] at this; omega
          have hk0 : 0 < k := by
            rcases Nat.eq_zero_or_pos k with h | h
            · rw [h] at hi1; omega
            · exact h
          refine ⟨hk0, ?_⟩
          rw [hp]
          congr 1
          apply Nat.div_eq_of_lt_le
          · rw [Nat.sub_mul, Nat.one_mul, hi1, Nat.mul_comm k]; omega
          · rw [Nat.sub_add_cancel hk0, hi1, Nat.mul_comm k]; have := Nat.mul_pos hns hk0; omega
      · rw [if_neg hc]
        rcases hp with ⟨hi0, hp⟩ | ⟨hi0, hp, _⟩
        · exfalso; apply hc
          rw [← hk, hi0]; simp
        · rw [hp]
          congr 1
          apply storeAt_congr
          have hd : (i - 1) / nstages = if i % nstages = 0 then k - 1 else k := by
            have h2 := Nat.div_add_mod i nstages
            rw [hk] at h2
            have h3 := Nat.mod_lt i hns
            split_ifs with h5
            · rw [h5, Nat.add_zero] at h2
              have hk0 : 0 < k := by
                rcases Nat.eq_zero_or_pos k with h | h
                · rw [h] at h2; omega
                · exact h
              apply Nat.div_eq_of_lt_le
              · rw [Nat.sub_mul, Nat.one_mul, ← h2, Nat.mul_comm k]; omega
              · rw [Nat.sub_add_cancel hk0, ← h2, Nat.mul_comm k]; have := Nat.mul_pos hns hk0; omega
            · apply Nat.div_eq_of_lt_le
              · rw [Nat.mul_comm]; omega
              · rw [Nat.add_mul, Nat.one_mul, Nat.mul_comm]; omega
          rw [hd]
          split_ifs with h5
          · have hkf : k % freq ≠ 0 := fun h => hc ⟨h, h5⟩
            have h2 := Nat.div_add_mod k freq
            apply Nat.div_eq_of_lt_le
            · rw [Nat.mul_comm]; omega
            · rw [Nat.add_mul, Nat.one_mul, Nat.mul_comm]; have := Nat.mod_lt k hf; omega
          · rfl
    have hnodes : (if k = 0 ∧ i % nstages = 0 then addNodes mesh p.nodes else p.nodes) = addNodes mesh [] := by
      rcases hp with ⟨hi0, hp⟩ | ⟨hi0, _, hp⟩
      · have hk0 : k = 0 := by rw [← hk, hi0, Nat.zero_div]
        rw [if_pos ⟨hk0, by rw [hi0, Nat.zero_mod]⟩, hp]; rfl
      · rw [if_neg, hp]
        rintro ⟨e1, e2⟩
        have := Nat.div_add_mod i nstages
        rw [hk, e1, e2] at this; omega
    have hend : stepEnd freq k = windowStart freq k + freq := by
      unfold stepEnd
      rw [stepStart_eq]
      apply Nat.mod_eq_of_lt
      have : windowStart freq k ≤ k := Nat.div_mul_le_self k freq
      omega
    obtain ⟨v', hv, hv1, -⟩ := interpolate_ok freq k (((k : ℕ) : K) * dt) dt (storeAt files freq k) (windSet l1) (windSet l2)
      (by rw [stepStart_eq]; unfold storeAt; rw [if_pos (Or.inl rfl), hl1]; rfl)
      (by rw [hend]; unfold storeAt; rw [if_pos (Or.inr rfl), hl2]; rfl)
      (D (windowStart freq k)) (D (windowStart freq k + freq)) (addNodes mesh [])
      (fun m hm => windSet_mem hd1 (hr1 m (by simpa [mem_addNodes] using hm)))
      (fun m hm => windSet_mem hd2 (hr2 m (by simpa [mem_addNodes] using hm))) p.values
    refine ⟨⟨storeAt files freq k, addNodes mesh [], v'⟩, ?_, rfl, rfl, fun m hm => hv1 m (by simpa [mem_addNodes] using hm)⟩
    unfold Meteo.parse
    rw [if_neg hf.ne']
    dsimp only
    rw [hsets]
    show (interpolate freq k _ dt (storeAt files freq k) (if k = 0 ∧ i % nstages = 0 then addNodes mesh p.nodes else p.nodes) p.values >>= _) = _
    rw [hnodes, hv]
    rfl
  -- all calls
  have all : ∀ i ≤ n, ∃ p', meteoRun files mesh freq tanh s0 (i + 1) = .ok p' ∧ p'.sets = storeAt files freq (i / nstages) ∧
        p'.nodes = addNodes mesh [] ∧ ∀ m ∈ mesh, p'.values m = some (interpWind (interpFactor freq (i / nstages) (((i / nstages : ℕ) : K) * dt) dt)
          (D (windowStart freq (i / nstages)) m) (D (windowStart freq (i / nstages) + freq) m)) := by
    intro i
    induction i with
    | zero => intro hi; exact step 0 hi Meteo.init (Or.inl ⟨rfl, rfl⟩) rfl
    | succ i ih =>
      intro hi
      obtain ⟨p, hp, h1, h2, -⟩ := ih (by omega)
      exact step (i + 1) hi p (Or.inr ⟨Nat.succ_pos _, by rw [Nat.add_sub_cancel]; exact h1, h2⟩) hp
  obtain ⟨p, hp, h1, -, h3⟩ := all n le_rfl
  generalize n / nstages = k at *
  have hle : windowStart freq k ≤ k := Nat.div_mul_le_self k freq
  have hlt : k < windowStart freq k + freq := by
    have h2 := Nat.div_add_mod k freq
    have := Nat.mod_lt k hf
    unfold windowStart
    rw [Nat.mul_comm]; omega
  have hfK : (0 : K) < freq := by exact_mod_cast hf
  have hθ : interpFactor freq k ((k : K) * dt) dt = ((k - windowStart freq k : ℕ) : K) / freq := by
    unfold interpFactor stepEnd
    rw [stepStart_eq, Nat.mod_eq_of_lt (by omega)]
    dsimp only
    push_cast [hle]
    have h5 := hdt.ne'
    have h6 := hfK.ne'
    have h7 : ((windowStart freq k : K) + freq) * dt - windowStart freq k * dt = freq * dt := by ring
    rw [h7]
    field_simp
  refine ⟨p, hp, fun j => ?_, hle, hlt, _, rfl, ?_, ?_, fun m hm => ?_⟩
  · rw [h1]; unfold storeAt
    split_ifs with hj
    · simp [hj]
    · simp [hj]
  · positivity
  · rw [div_lt_one hfK]
    exact_mod_cast (by omega : k - windowStart freq k < freq)
  · rw [h3 m hm, hθ]
    generalize ((k - windowStart freq k : ℕ) : K) / freq = θ
    unfold interpWind
    congr 2
    · ring
    · congr 1 <;> ring

end Run

/-- A file that is missing stops the run with an exception. -/
theorem meteo_missing_file (files : ℕ → Option (List (ℕ × Wind K))) (mesh : List ℕ) {freq : ℕ} (hf : 0 < freq) (time dt : K) {step : ℕ}
    (hs : step % freq = 0) (p : Meteo K) (hp : p.sets step = none) (h : files step = none) :
    p.parse files mesh freq step 0 time dt = .error .exc := by
  unfold Meteo.parse
  rw [if_neg hf.ne']
  unfold refreshSets
  rw [if_pos ⟨hs, rfl⟩]
  unfold parseMeteo
  dsimp only
  rw [loadSet_missing (by split_ifs <;> first | rfl | exact hp) h]
  rfl

/-- A parse frequency of zero steps (input frequency zero) is undefined behaviour. -/
theorem meteo_zero_frequency (files : ℕ → Option (List (ℕ × Wind K))) (mesh : List ℕ) (step stage : ℕ) (time dt : K) (p : Meteo K) :
    p.parse files mesh 0 step stage time dt = .error .ub := by simp [Meteo.parse]

omit [Field K] in
/-- Distinct steps read distinct files. -/
theorem meteo_file_injective (base : List Char) (a b : ℕ) (x : List Char) (ha : meteoFile base a = .ok x) (hb : meteoFile base b = .ok x) : a = b := by
  unfold meteoFile at ha hb
  by_cases h : '.' ∈ base
  · rw [if_pos h] at ha hb
    dsimp only at ha hb
    rw [← hb] at ha
    have := Except.ok.inj ha
    have h1 := List.append_cancel_right this
    have h2 := List.append_cancel_left h1
    exact Verif.Util.dec_injective (List.cons.inj h2).2
  · rw [if_neg h] at ha; cases ha

example : (meteoFile "wind.v2.dat".toList 30).toOption = some "wind.v2_30.dat".toList := by decide +kernel
example : meteoFile "wind".toList 30 = .error .exc := by decide +kernel

/-- A run of the two-stage stepper with data every 2 steps, wind `10 j` at step `j`: the values at step 3 are those between steps 2 and 4. -/
example : ((Explicit.init (K := ℚ) 2 2 (1 / 10) 0).map fun s0 =>
    ((meteoRun (fun j => some [(7, ((10 * j : ℕ) : ℚ), 0, 1), (8, 0, 0, 0)]) [7] 2 id s0 8).toOption).map fun p =>
      (p.values 7, (List.range 10).filter fun j => (p.sets j).isSome)) = some (some (some (30, 0, 1), [2, 4])) := by decide +kernel
/-- The hypotheses of `meteo_window` for it. -/
example : (Explicit.init (K := ℚ) 2 2 (1 / 10) 0).isSome ∧
    FilesFor (fun j => some [(7, ((10 * j : ℕ) : ℚ), 0, 1), (8, 0, 0, 0)]) [7] 2 3 (fun j _ => (((10 * j : ℕ) : ℚ), 0, 1)) := by
  refine ⟨by decide +kernel, fun j _ => ⟨_, rfl, by simp, fun n hn => ?_⟩⟩
  rw [List.mem_singleton] at hn; subst hn; exact List.mem_cons_self
/-- Node 9 of the mesh has no record: undefined behaviour. -/
example : ((Explicit.init (K := ℚ) 2 2 (1 / 10) 0).map fun s0 =>
    match meteoRun (fun _ => some [(7, (0 : ℚ), 0, 1)]) [7, 9] 2 id s0 1 with | .error e => some e | .ok _ => none) = some (some .ub) := by decide +kernel

end Verif.Swe.Props
