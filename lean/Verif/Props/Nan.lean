import Mathlib.Data.Rat.Defs
import Mathlib.Algebra.Order.Ring.Rat
import Verif.Model.Nan
import Verif.Props.SweWetDry

/-!
# A NaN is noticed, unless drying wipes it out
-/

namespace Verif.Nan.Props
open Verif Verif.Swe Verif.Basis Verif.Nan

set_option linter.unusedSectionVars false

variable {K : Type} [Field K] [LinearOrder K]

theorem add_none (a : Option K) : add a none = none := by cases a <;> rfl
theorem mul_none (b : Option K) : mul none b = none := by cases b <;> rfl
theorem lt_none (a : Option K) : lt a none = false := by cases a <;> rfl

theorem sum_none {l : List (Option K)} (h : none ∈ l) : sumN l = none := by
  induction l with
  | nil => cases h
  | cons a l ih =>
    show add a (sumN l) = none
    rcases List.mem_cons.1 h with h | h
    · rw [← h]; cases sumN l <;> rfl
    · rw [ih h]; exact add_none a

theorem toLinear_none {ndof : ℕ} {u : ℕ → Option K} {d : ℕ} (hd : d < ndof) (hu : u d = none) (v : ℕ) : toLinear ndof u v = none :=
  sum_none (List.mem_map.2 ⟨d, List.mem_range.2 hd, by rw [hu, mul_none]⟩)

theorem toBasis_none {w : ℕ → Option K} {v : ℕ} (hv : v < 3) (hw : w v = none) (dof : ℕ) : toBasis w dof = none :=
  sum_none (List.mem_map.2 ⟨v, List.mem_range.2 hv, by rw [hw, mul_none]⟩)

/-- A NaN among the coefficients. -/
def HasNan (ndof : ℕ) (q : Rows (Option K)) : Prop := ∃ d < ndof, q.ze d = none ∨ q.qx d = none ∨ q.qy d = none

theorem scrutinize_iff (ndof : ℕ) (q : Rows (Option K)) : scrutinize ndof q = true ↔ HasNan ndof q := by
  unfold scrutinize HasNan
  simp only [Bool.or_eq_true, List.any_eq_true, List.mem_range, Option.isNone_iff_eq_none]
  constructor
  · rintro ((⟨d, h, hd⟩ | ⟨d, h, hd⟩) | ⟨d, h, hd⟩)
    · exact ⟨d, h, .inl hd⟩
    · exact ⟨d, h, .inr (.inl hd)⟩
    · exact ⟨d, h, .inr (.inr hd)⟩
  · rintro ⟨d, h, hd | hd | hd⟩
    · exact .inl (.inl ⟨d, h, hd⟩)
    · exact .inl (.inr ⟨d, h, hd⟩)
    · exact .inr ⟨d, h, hd⟩

/-- C125. A NaN in the elevation passes through wetting and drying: it neither disappears nor leads out of bounds. -/
theorem elevation_kept (ho thr : K) {ndof : ℕ} (bath : ℕ → K) (b : K) (temp : ℕ → Option K) (wet : Bool) {q : Rows (Option K)}
    {d : ℕ} (hd : d < ndof) (hq : q.ze d = none) : ∃ o, wetDryN ho thr ndof bath b temp wet q = .ok o ∧ o.q.ze d = none := by
  have hv : ∀ x, toLinear ndof q.ze x = none := toLinear_none hd hq
  have hh : (fun x => add (toLinear ndof q.ze x) (some (bath x))) = fun _ => none := by
    funext x
    rw [hv x]
    rfl
  have hn : nDryN ho thr (fun x => add (toLinear ndof q.ze x) (some (bath x))) = 0 := by
    rw [hh]
    rfl
  unfold wetDryN
  dsimp only
  rw [if_pos hn]
  cases wet with
  | true => exact ⟨_, if_pos rfl, hq⟩
  | false =>
    rw [if_neg (by simp)]
    unfold checkElementN
    rw [if_neg (by simp only [hv]; rw [lt_none]; simp)]
    exact ⟨_, rfl, toBasis_none (v := 0) (by omega) (hv 0) d⟩

/-- What stays finite, stays finite: the model of NaN is the model of numbers there. -/
theorem sum_some (l : List K) : sumN (l.map some) = some l.sum := by
  induction l with
  | nil => rfl
  | cons a l ih => rw [List.map_cons, List.sum_cons]; show add (some a) (sumN (l.map some)) = _; rw [ih]; rfl

theorem toLinear_some {ndof : ℕ} {u : ℕ → Option K} {w : ℕ → K} (h : ∀ d < ndof, u d = some (w d)) (v : ℕ) :
    toLinear ndof u v = some (basisToLinear ndof w v) := by
  unfold toLinear basisToLinear
  rw [← sum_some, List.map_map]
  congr 1
  refine List.map_congr_left fun d hd => ?_
  rw [h d (List.mem_range.1 hd)]
  rfl

theorem toBasis_some {u : ℕ → Option K} {w : ℕ → K} (h : ∀ v < 3, u v = some (w v)) (d : ℕ) : toBasis u d = some (linearToBasis w d) := by
  unfold toBasis linearToBasis
  rw [← sum_some, List.map_map]
  congr 1
  refine List.map_congr_left fun v hv => ?_
  rw [h v (List.mem_range.1 hv)]
  rfl

theorem argmin_some (h : ℕ → K) : argminN (fun x => some (h x)) = argmin h := by
  unfold argminN argmin lt
  by_cases h1 : h 1 < h 0 <;> by_cases h2 : h 2 < h 1 <;> by_cases h3 : h 2 < h 0 <;> simp [h1, h2, h3]

theorem argmax_some (h : ℕ → K) : argmaxN (fun x => some (h x)) = argmax h := by
  unfold argmaxN argmax lt
  by_cases h1 : h 0 < h 1 <;> by_cases h2 : h 1 < h 2 <;> by_cases h3 : h 0 < h 2 <;> simp [h1, h2, h3]

theorem nDry_some (ho thr : K) (h : ℕ → K) : nDryN ho thr (fun x => some (h x)) = nDry ho thr h := rfl

theorem max_some (a b : K) : maxN (some a) (some b) = some (max a b) := by
  unfold maxN lt
  by_cases h : a < b
  · simp [h, max_eq_right h.le]
  · simp [h, max_eq_left (not_lt.1 h)]

theorem div_some (a : K) {b : K} (hb : b ≠ 0) : div (some a) (some b) = some (a / b) := by
  show (if b = 0 then none else some (a / b)) = _
  rw [if_neg hb]

variable [IsStrictOrderedRing K]

theorem update_some (f : ℕ → K) (i : ℕ) (a : K) : Function.update (fun x => some (f x)) i (some a) = fun x => some (Function.update f i a x) := by
  funext x
  by_cases h : x = i
  · subst h; simp
  · simp [h]

theorem newDepths_some (ho : K) (temp h : ℕ → K) :
    newDepthsN ho (fun x => some (temp x)) (fun x => some (h x)) = (newDepths ho temp h).map fun t x => some (t x) := by
  unfold newDepthsN newDepths
  dsimp only
  rw [argmin_some, argmax_some]
  by_cases hk : midVrtx (argmax h) (argmin h) < 3
  · rw [if_pos hk, if_pos hk]
    show Except.ok _ = Except.ok _
    congr 1
    rw [update_some]
    have e1 : ∀ x y : K, sub (some x) (some y) = some (x - y) := fun _ _ => rfl
    simp only [e1, div_some _ (two_ne_zero (α := K)), max_some, update_some]
  · rw [if_neg hk, if_neg hk]
    rfl

theorem move_some (ho thr : K) (h q : ℕ → K) (hn : nDry ho thr h < 3) :
    moveDischargeN ho thr (fun x => some (h x)) (fun x => some (q x)) = fun x => some (moveDischarge ho thr h q x) := by
  have hne : (3 : K) - (nDry ho thr h : K) ≠ 0 := by
    have : ((nDry ho thr h : ℕ) : K) < 3 := by exact_mod_cast hn
    exact (sub_pos.2 this).ne'
  funext x
  unfold moveDischargeN moveDischarge
  dsimp only
  rw [nDry_some]
  have hs : (List.filter (fun v => le (some (h v)) (some (ho + thr))) (List.range 3)).map (fun x => some (q x)) =
      (((List.range 3).filter fun v => decide (h v ≤ ho + thr)).map q).map some := by
    rw [List.map_map]
    rfl
  rw [hs, sum_some, div_some _ hne]
  unfold le lt
  by_cases hx : h x ≤ ho + thr
  · simp [hx, not_lt.2 hx]
  · simp [hx, not_le.1 hx, add]

theorem check_some (ho b : K) (e : Bool) (h : ℕ → K) (v q : Rows K) :
    checkElementN ho b (fun x => some (h x)) ⟨fun x => some (v.ze x), fun x => some (v.qx x), fun x => some (v.qy x)⟩
      ⟨fun x => some (q.ze x), fun x => some (q.qx x), fun x => some (q.qy x)⟩ =
    ⟨⟨fun x => some ((checkElement ho b e h v q).q.ze x), fun x => some ((checkElement ho b e h v q).q.qx x),
      fun x => some ((checkElement ho b e h v q).q.qy x)⟩, (checkElement ho b e h v q).wet⟩ := by
  unfold checkElementN checkElement
  rw [argmax_some]
  by_cases hc : v.ze (argmax h) > ho - b
  · rw [if_pos hc, if_pos (show lt (some (ho - b)) (some (v.ze (argmax h))) = true from decide_eq_true hc)]
  · rw [if_neg hc, if_neg (show ¬ lt (some (ho - b)) (some (v.ze (argmax h))) = true from fun h => hc (of_decide_eq_true h))]
    unfold projectN Verif.Swe.project
    dsimp only
    congr 2


/-- Rows of numbers as rows of doubles. -/
def lift (q : Rows K) : Rows (Option K) := ⟨fun x => some (q.ze x), fun x => some (q.qx x), fun x => some (q.qy x)⟩

theorem project_some (v : Rows K) : projectN (lift v) = lift (Verif.Swe.project v) := by
  unfold projectN Verif.Swe.project lift
  dsimp only
  congr 1

/-- On numbers the kernel is the one of the model without NaN. -/
theorem wd_some (ho thr : K) (ndof : ℕ) (bath : ℕ → K) (b : K) (temp : ℕ → K) (wet : Bool) (q : Rows K) :
    wetDryN ho thr ndof bath b (fun x => some (temp x)) wet (lift q) = (wetDry ho thr ndof bath b temp wet q).map fun o => ⟨lift o.q, o.wet⟩ := by
  have e0 : ∀ u : ℕ → K, toLinear ndof (fun x => some (u x)) = fun v => some (basisToLinear ndof u v) := fun u => by
    funext v; exact toLinear_some (fun _ _ => rfl) v
  unfold wetDryN wetDry
  simp only [lift, e0]
  set v : Rows K := ⟨basisToLinear ndof q.ze, basisToLinear ndof q.qx, basisToLinear ndof q.qy⟩ with hv
  set h : ℕ → K := fun x => basisToLinear ndof q.ze x + bath x with hh
  have eh : (fun x => add (some (basisToLinear ndof q.ze x)) (some (bath x))) = fun x => some (h x) := rfl
  have e3 : div (add (add (add (some 0) (some (h 0))) (some (h 1))) (some (h 2))) (some 3) = some ((0 + h 0 + h 1 + h 2) / 3) := div_some _ three_ne_zero
  rw [eh]
  have e3' : div (add (add (add (some 0) (add (some (basisToLinear ndof q.ze 0)) (some (bath 0)))) (add (some (basisToLinear ndof q.ze 1)) (some (bath 1))))
    (add (some (basisToLinear ndof q.ze 2)) (some (bath 2)))) (some 3) = some ((0 + h 0 + h 1 + h 2) / 3) := e3
  rw [e3', nDry_some]
  have e4 : (if le (some ((0 + h 0 + h 1 + h 2) / 3)) (some thr) = true then some thr else some ((0 + h 0 + h 1 + h 2) / 3)) =
      some (if (0 + h 0 + h 1 + h 2) / 3 ≤ thr then thr else (0 + h 0 + h 1 + h 2) / 3) := by
    by_cases hc : (0 + h 0 + h 1 + h 2) / 3 ≤ thr
    · rw [if_pos hc, if_pos (show le (some ((0 + h 0 + h 1 + h 2) / 3)) (some thr) = true from decide_eq_true hc)]
    · rw [if_neg hc, if_neg (show ¬ le (some ((0 + h 0 + h 1 + h 2) / 3)) (some thr) = true from fun hx => hc (of_decide_eq_true hx))]
  rw [e4]
  set avg := if (0 + h 0 + h 1 + h 2) / 3 ≤ thr then thr else (0 + h 0 + h 1 + h 2) / 3 with havg
  have hlift : ∀ r : Rows K, (⟨fun x => some (r.ze x), fun x => some (r.qx x), fun x => some (r.qy x)⟩ : Rows (Option K)) = lift r := fun _ => rfl
  by_cases h0 : nDry ho thr h = 0
  · rw [if_pos h0, if_pos h0]
    cases wet with
    | true => rfl
    | false =>
      rw [if_neg (by simp), if_neg (by simp)]
      exact congrArg Except.ok (check_some ho b _ h v q)
  rw [if_neg h0, if_neg h0]
  by_cases h3 : nDry ho thr h = 3
  · rw [if_pos h3, if_pos h3]
    exact congrArg (fun r => Except.ok (Out.mk r false)) (project_some ⟨fun x => avg - bath x, 0, 0⟩)
  rw [if_neg h3, if_neg h3]
  by_cases h4 : avg ≤ ho + thr
  · rw [if_pos h4, if_pos (show le (some avg) (some (ho + thr)) = true from decide_eq_true h4)]
    have hp := project_some (K := K) ⟨fun x => avg - bath x, 0, 0⟩
    have := check_some ho b (decide ((0 + h 0 + h 1 + h 2) / 3 ≤ thr)) h ⟨fun x => avg - bath x, 0, 0⟩ (Verif.Swe.project ⟨fun x => avg - bath x, 0, 0⟩)
    refine congrArg Except.ok (Eq.trans ?_ this)
    exact congrArg (checkElementN ho b (fun x => some (h x)) _) hp
  rw [if_neg h4, if_neg (show ¬ le (some avg) (some (ho + thr)) = true from fun hx => h4 (of_decide_eq_true hx)), newDepths_some]
  cases hd : newDepths ho temp h with
  | error e => rfl
  | ok h' =>
    by_cases hn : nDry ho thr h' < 3
    · have hl : ∀ f : Res (ℕ → Option K) → Res (Out K), f (Except.map (fun (t : ℕ → K) x => some (t x)) (Except.ok h')) = f (.ok fun x => some (h' x)) :=
        fun _ => rfl
      show (if nDryN ho thr (fun x => some (h' x)) < 3 then _ else _) = Except.map _ (if nDry ho thr h' < 3 then _ else _)
      rw [nDry_some, if_pos hn, if_pos hn, move_some ho thr h' _ hn, move_some ho thr h' _ hn]
      set v' : Rows K := ⟨fun x => h' x - bath x, moveDischarge ho thr h' v.qx, moveDischarge ho thr h' v.qy⟩ with hv'
      have hp := project_some v'
      have := check_some ho b (decide ((0 + h 0 + h 1 + h 2) / 3 ≤ thr)) h' v' (Verif.Swe.project v')
      refine congrArg Except.ok (Eq.trans ?_ this)
      exact congrArg (checkElementN ho b (fun x => some (h' x)) _) hp
    · show (if nDryN ho thr (fun x => some (h' x)) < 3 then _ else _) = Except.map _ (if nDry ho thr h' < 3 then _ else _)
      rw [nDry_some, if_neg hn, if_neg hn]
      rfl


/-- Whatever the doubles are, the kernel stays within its arrays. -/
theorem wd_bounds {ho thr : K} (hthr : 0 < thr) (hho : thr ≤ ho) {ndof : ℕ} (hn : 3 ≤ ndof) (bath : ℕ → K) (b : K) (temp : ℕ → K) (wet : Bool)
    (q : Rows (Option K)) : wetDryN ho thr ndof bath b (fun x => some (temp x)) wet q ≠ .error .ub := by
  by_cases hq : ∃ d < ndof, q.ze d = none
  · obtain ⟨d, hd, hq⟩ := hq
    obtain ⟨o, ho, _⟩ := elevation_kept ho thr bath b (fun x => some (temp x)) wet hd hq
    rw [ho]
    exact fun h => by cases h
  have hq' : ∀ d, ∃ x, d < ndof → q.ze d = some x := fun d => by
    by_cases hd : d < ndof
    · cases hc : q.ze d with
      | none => exact absurd ⟨d, hd, hc⟩ hq
      | some x => exact ⟨x, fun _ => rfl⟩
    · exact ⟨0, fun h => absurd h hd⟩
  choose w hw using hq'
  have e0 : toLinear ndof q.ze = fun v => some (basisToLinear ndof w v) := by funext v; exact toLinear_some hw v
  -- the same element without discharge is a matter of numbers
  obtain ⟨o, hok, _⟩ := Verif.Swe.Props.wet_dry hthr hho hn bath b temp wet ⟨w, 0, 0⟩
  unfold wetDry at hok
  unfold wetDryN
  simp only [e0] at hok ⊢
  set h : ℕ → K := fun x => basisToLinear ndof w x + bath x with hh
  have eh : (fun x => add (some (basisToLinear ndof w x)) (some (bath x))) = fun x => some (h x) := rfl
  rw [eh]
  have e3' : div (add (add (add (some 0) (add (some (basisToLinear ndof w 0)) (some (bath 0)))) (add (some (basisToLinear ndof w 1)) (some (bath 1))))
    (add (some (basisToLinear ndof w 2)) (some (bath 2)))) (some 3) = some ((0 + h 0 + h 1 + h 2) / 3) := div_some _ three_ne_zero
  rw [e3', nDry_some]
  have e4 : (if le (some ((0 + h 0 + h 1 + h 2) / 3)) (some thr) = true then some thr else some ((0 + h 0 + h 1 + h 2) / 3)) =
      some (if (0 + h 0 + h 1 + h 2) / 3 ≤ thr then thr else (0 + h 0 + h 1 + h 2) / 3) := by
    by_cases hc : (0 + h 0 + h 1 + h 2) / 3 ≤ thr
    · rw [if_pos hc, if_pos (show le (some ((0 + h 0 + h 1 + h 2) / 3)) (some thr) = true from decide_eq_true hc)]
    · rw [if_neg hc, if_neg (show ¬ le (some ((0 + h 0 + h 1 + h 2) / 3)) (some thr) = true from fun hx => hc (of_decide_eq_true hx))]
  rw [e4]
  set avg := if (0 + h 0 + h 1 + h 2) / 3 ≤ thr then thr else (0 + h 0 + h 1 + h 2) / 3 with havg
  by_cases h0 : nDry ho thr h = 0
  · rw [if_pos h0]
    cases wet
    · exact fun h => by cases h
    · exact fun h => by cases h
  rw [if_neg h0] at hok ⊢
  by_cases h3 : nDry ho thr h = 3
  · rw [if_pos h3]
    exact fun h => by cases h
  rw [if_neg h3] at hok ⊢
  by_cases h4 : avg ≤ ho + thr
  · rw [if_pos (show le (some avg) (some (ho + thr)) = true from decide_eq_true h4)]
    exact fun h => by cases h
  rw [if_neg h4] at hok
  rw [if_neg (show ¬ le (some avg) (some (ho + thr)) = true from fun hx => h4 (of_decide_eq_true hx)), newDepths_some]
  cases hd : newDepths ho temp h with
  | error e => rw [hd] at hok; cases hok
  | ok h' =>
    show (if nDryN ho thr (fun x => some (h' x)) < 3 then _ else _) ≠ _
    by_cases hn : nDryN ho thr (fun x => some (h' x)) < 3
    · rw [if_pos hn]
      exact fun h => by cases h
    · rw [if_neg hn]
      exact fun h => by cases h

/-- A NaN in the discharge of an element that is wet and whose vertices are all deep enough stays where it is. -/
theorem discharge_kept (ho thr : K) (ndof : ℕ) (bath : ℕ → K) (b : K) (temp : ℕ → Option K) {q : Rows (Option K)} {w : ℕ → K}
    (hw : ∀ d < ndof, q.ze d = some (w d)) (hdeep : ∀ v < 3, ho + thr < basisToLinear ndof w v + bath v) :
    wetDryN ho thr ndof bath b temp true q = .ok ⟨q, true⟩ := by
  have e0 : toLinear ndof q.ze = fun v => some (basisToLinear ndof w v) := by funext v; exact toLinear_some hw v
  have hn : nDryN ho thr (fun x => add (toLinear ndof q.ze x) (some (bath x))) = 0 := by
    rw [e0]
    exact Verif.Swe.Props.nDry_zero.2 hdeep
  unfold wetDryN
  dsimp only
  rw [if_pos hn, if_pos rfl]

/-- Parameters of wetting and drying as the preprocessor leaves them. -/
structure WdGood (ndof : ℕ → ℕ) (elts : List ℕ) (w : WdN K) : Prop where
  thr : 0 < w.thr
  ho : w.thr ≤ w.ho
  ndof : ∀ e ∈ elts, 3 ≤ ndof e
  temp : ∀ e ∈ elts, ∀ x, ∃ y, w.temp e x = some y

theorem wd_all {ndof : ℕ → ℕ} {w : WdN K} : ∀ {elts : List ℕ}, elts.Nodup → WdGood ndof elts w → ∀ s : ℕ → Out K,
    elts.foldlM (wdStepN ndof w) s = .error .exc ∨ ∃ s', elts.foldlM (wdStepN ndof w) s = .ok s' ∧
      (∀ e ∈ elts, wetDryN w.ho w.thr (ndof e) (w.bath e) (w.bathMin e) (w.temp e) (s e).wet (s e).q = .ok (s' e)) ∧ ∀ e, e ∉ elts → s' e = s e
  | [], _, _, s => .inr ⟨s, rfl, fun e he => (by cases he), fun _ _ => rfl⟩
  | a :: l, hn, hg, s => by
    have hg' : WdGood ndof l w := ⟨hg.thr, hg.ho, fun e he => hg.ndof e (List.mem_cons_of_mem _ he), fun e he => hg.temp e (List.mem_cons_of_mem _ he)⟩
    obtain ⟨tmp, htmp⟩ : ∃ tmp : ℕ → K, w.temp a = fun x => some (tmp x) := by
      choose tmp h using hg.temp a List.mem_cons_self
      exact ⟨tmp, funext h⟩
    have hb := wd_bounds hg.thr hg.ho (hg.ndof a List.mem_cons_self) (w.bath a) (w.bathMin a) tmp (s a).wet (s a).q
    rw [← htmp] at hb
    rw [List.foldlM_cons]
    cases hr : wetDryN w.ho w.thr (ndof a) (w.bath a) (w.bathMin a) (w.temp a) (s a).wet (s a).q with
    | error e =>
      have he : e = .exc := by
        cases e with
        | exc => rfl
        | ub => exact absurd hr hb
      refine .inl ?_
      unfold wdStepN
      rw [hr, he]
      rfl
    | ok o =>
      have hs : wdStepN ndof w s a = .ok (Function.update s a o) := by
        unfold wdStepN
        rw [hr]
        rfl
      rw [hs]
      rcases wd_all (List.nodup_cons.1 hn).2 hg' (Function.update s a o) with h | ⟨s', h, h1, h2⟩
      · exact .inl h
      refine .inr ⟨s', h, fun e he => ?_, fun e he => ?_⟩
      · rcases List.mem_cons.1 he with rfl | he
        · rw [hr, h2 e (List.nodup_cons.1 hn).1, Function.update_self]
        · have hea : e ≠ a := fun hx => (List.nodup_cons.1 hn).1 (hx ▸ he)
          have := h1 e he
          rw [Function.update_of_ne hea] at this
          exact this
      · have hea : e ≠ a := fun hx => he (hx ▸ List.mem_cons_self)
        rw [h2 e fun hx => he (List.mem_cons_of_mem _ hx), Function.update_of_ne hea]

/-- C125. What a stage hands on, to the next stage or to the output, has no NaN. -/
theorem stage_clean {ndof : ℕ → ℕ} {elts : List ℕ} {w : Option (WdN K)} {upd : (ℕ → Out K) → ℕ → Out K} {s s' : ℕ → Out K}
    (h : stageN ndof elts w upd s = .ok s') : ∀ e ∈ elts, ¬ HasNan (ndof e) (s' e).q := by
  unfold stageN at h
  cases h1 : wdAllN ndof elts w (upd s) with
  | error e => rw [h1] at h; cases h
  | ok s1 =>
    rw [h1] at h
    have h : scrutinizeAll ndof elts s1 = .ok s' := h
    unfold scrutinizeAll at h
    by_cases hc : elts.any (fun e => scrutinize (ndof e) (s1 e).q) = true
    · rw [if_pos hc] at h; cases h
    · rw [if_neg hc] at h
      cases h
      intro e he hnan
      exact hc (List.any_eq_true.2 ⟨e, he, (scrutinize_iff _ _).2 hnan⟩)

/-- C125. After any number of stages. -/
theorem run_clean {ndof : ℕ → ℕ} {elts : List ℕ} {w : Option (WdN K)} : ∀ (upds : List ((ℕ → Out K) → ℕ → Out K)) {s s' : ℕ → Out K},
    upds ≠ [] → runN ndof elts w upds s = .ok s' → ∀ e ∈ elts, ¬ HasNan (ndof e) (s' e).q
  | [], _, _, hne, _ => absurd rfl hne
  | u :: us, s, s', _, h => by
    have hr : runN ndof elts w (u :: us) s = stageN ndof elts w u s >>= fun s1 => runN ndof elts w us s1 := by
      unfold runN
      rw [List.foldlM_cons]
    rw [hr] at h
    cases h1 : stageN ndof elts w u s with
    | error e => rw [h1] at h; cases h
    | ok s1 =>
      rw [h1] at h
      have h : runN ndof elts w us s1 = .ok s' := h
      cases us with
      | nil => cases h; exact stage_clean h1
      | cons v vs => exact run_clean (v :: vs) (by simp) h

/-- C125. Without wetting and drying the program ends exactly if the update gave a NaN. -/
theorem noticed_without (ndof : ℕ → ℕ) (elts : List ℕ) (upd : (ℕ → Out K) → ℕ → Out K) (s : ℕ → Out K) :
    stageN ndof elts none upd s = (open Classical in if ∃ e ∈ elts, HasNan (ndof e) (upd s e).q then .error .exc else .ok (upd s)) := by
  show scrutinizeAll ndof elts (upd s) = _
  unfold scrutinizeAll
  have hiff : (elts.any fun e => scrutinize (ndof e) (upd s e).q) = true ↔ ∃ e ∈ elts, HasNan (ndof e) (upd s e).q := by
    rw [List.any_eq_true]
    exact exists_congr fun e => and_congr_right fun _ => scrutinize_iff _ _
  by_cases hc : ∃ e ∈ elts, HasNan (ndof e) (upd s e).q
  · rw [if_pos (hiff.2 hc), if_pos hc]
  · rw [if_neg fun h => hc (hiff.1 h), if_neg hc]

/-- C125. With wetting and drying, a NaN in the elevation, or in the discharge of a wet element deep enough at all vertices, ends the program in the
stage in which it appears, without access out of bounds. Missing: discharges of elements that are dry somewhere, see `nan_erased`. -/
theorem noticed_partial {ndof : ℕ → ℕ} {elts : List ℕ} (hn : elts.Nodup) {w : WdN K} (hg : WdGood ndof elts w) (upd : (ℕ → Out K) → ℕ → Out K)
    (s : ℕ → Out K) {e : ℕ} (he : e ∈ elts)
    (hnan : (∃ d < ndof e, (upd s e).q.ze d = none) ∨
      (HasNan (ndof e) (upd s e).q ∧ (upd s e).wet = true ∧ ∃ z, (∀ d < ndof e, (upd s e).q.ze d = some (z d)) ∧
        ∀ v < 3, w.ho + w.thr < basisToLinear (ndof e) z v + w.bath e v)) :
    stageN ndof elts (some w) upd s = .error .exc := by
  unfold stageN
  show (elts.foldlM (wdStepN ndof w) (upd s) >>= _) = _
  rcases wd_all hn hg (upd s) with h | ⟨s', h, h1, _⟩
  · rw [h]; rfl
  rw [h]
  show scrutinizeAll ndof elts s' = _
  unfold scrutinizeAll
  have hs : HasNan (ndof e) (s' e).q := by
    have h1 := h1 e he
    rcases hnan with ⟨d, hd, hq⟩ | ⟨hnan, hwet, z, hz, hdeep⟩
    · obtain ⟨o, ho, hk⟩ := elevation_kept w.ho w.thr (w.bath e) (w.bathMin e) (w.temp e) (upd s e).wet hd hq
      rw [ho] at h1
      cases h1
      exact ⟨d, hd, .inl hk⟩
    · rw [hwet, discharge_kept w.ho w.thr (ndof e) (w.bath e) (w.bathMin e) (w.temp e) hz hdeep] at h1
      rw [← Except.ok.inj h1]
      exact hnan
  rw [if_pos (List.any_eq_true.2 ⟨e, he, (scrutinize_iff _ _).2 hs⟩)]

/-- A basin one unit deep, `h_o` a tenth. -/
def wdExample : WdN ℚ := ⟨1 / 10, 1 / 100, fun _ _ => 1, fun _ => 1, fun _ _ => some 0⟩

/-- The elevation leaves a film of water, the discharge is NaN. -/
def badElement : Out ℚ := ⟨⟨fun d => if d = 0 then some (-19 / 20) else some 0, fun _ => none, fun _ => some 0⟩, true⟩

example : WdGood (fun _ => 3) [0] wdExample := ⟨by decide +kernel, by decide +kernel, fun _ _ => Nat.le_refl 3, fun _ _ _ => ⟨0, rfl⟩⟩

/-- C125 does not hold as it stands: the update gives a NaN, drying replaces it, and the program goes on. -/
theorem nan_erased : HasNan 3 badElement.q ∧ ∃ s', stageN (fun _ => 3) [0] (some wdExample) (fun s => s) (fun _ => badElement) = .ok s' := by
  refine ⟨⟨0, by decide, .inr (.inl rfl)⟩, ?_⟩
  have h : (match stageN (fun _ => 3) [0] (some wdExample) (fun s => s) (fun _ => badElement) with
    | .ok _ => true
    | .error _ => false) = true := by decide +kernel
  cases hs : stageN (fun _ => 3) [0] (some wdExample) (fun s => s) (fun _ => badElement) with
  | ok s' => exact ⟨s', rfl⟩
  | error e => rw [hs] at h; cases h

/-- The same NaN is noticed when wetting and drying is off, or when it stands in the elevation. -/
example : (match stageN (fun _ => 3) [0] none (fun s => s) (fun _ => badElement), stageN (fun _ => 3) [0] (some wdExample) (fun s => s)
      (fun _ => ⟨⟨badElement.q.qx, badElement.q.ze, badElement.q.qy⟩, true⟩) with
    | .error e, .error e' => decide (e = .exc ∧ e' = .exc)
    | _, _ => false) = true := by decide +kernel

end Verif.Nan.Props
