import Verif.Model.SweWetDry

/-!
# Not a number

Models `source/problem/SWE/problem_postprocessor/swe_post_scrutinize.hpp` (`scrutinize_solution`), its use at the end of a stage
(`rkdg_swe_proc_serial_step.hpp` lines 47-66, `rkdg_swe_proc_ompi_step.hpp` lines 110-127, `ehdg_swe_proc_serial_step.hpp` lines 66-83,
`ihdg_swe_proc_serial_step.hpp` lines 80-96) and `wetting_drying_kernel` of `swe_post_wet_dry.hpp` for numbers that may be NaN.

A double is an exact number or NaN (`none`): an operation with NaN gives NaN, also the product with zero in a matrix product; a comparison with NaN is
false. Simplifications: rounding, infinities and signed zeros are left out; a quotient by zero is NaN; bathymetry and parameters are numbers; the limiter is
switched off.
-/

namespace Verif.Nan
open Verif Verif.Swe Verif.Basis

variable {K : Type} [Field K] [LinearOrder K]

def add (a b : Option K) : Option K := Option.map₂ (· + ·) a b
def sub (a b : Option K) : Option K := Option.map₂ (· - ·) a b
def mul (a b : Option K) : Option K := Option.map₂ (· * ·) a b

def div (a b : Option K) : Option K :=
  match a, b with
  | some x, some y => if y = 0 then none else some (x / y)
  | _, _ => none

/-- `a <= b`. -/
def le (a b : Option K) : Bool :=
  match a, b with
  | some x, some y => decide (x ≤ y)
  | _, _ => false

/-- `a < b`. -/
def lt (a b : Option K) : Bool :=
  match a, b with
  | some x, some y => decide (x < y)
  | _, _ => false

def sumN (l : List (Option K)) : Option K := l.foldr add (some 0)

/-- `master_triangle.tpp` line 127: a matrix product, entries that are zero take part. -/
def toLinear (ndof : ℕ) (u : ℕ → Option K) (v : ℕ) : Option K := sumN ((List.range ndof).map fun d => mul (u d) (some (basisLinear d v)))

/-- Line 133. -/
def toBasis (w : ℕ → Option K) (dof : ℕ) : Option K := sumN ((List.range 3).map fun v => mul (w v) (some (linearBasis v dof)))

def projectN (q : Rows (Option K)) : Rows (Option K) := ⟨toBasis q.ze, toBasis q.qx, toBasis q.qy⟩

/-- `std::min_element`. -/
def argminN (h : ℕ → Option K) : ℕ :=
  let m := if lt (h 1) (h 0) then 1 else 0
  if lt (h 2) (h m) then 2 else m

/-- `std::max_element`. -/
def argmaxN (h : ℕ → Option K) : ℕ :=
  let m := if lt (h 0) (h 1) then 1 else 0
  if lt (h m) (h 2) then 2 else m

/-- `std::max(a, b)`. -/
def maxN (a b : Option K) : Option K := if lt a b then b else a

/-- Lines 18-24. -/
def nDryN (ho thr : K) (h : ℕ → Option K) : ℕ := ((List.range 3).filter fun v => le (h v) (some (ho + thr))).length

/-- Lines 62-84. -/
def newDepthsN (ho : K) (temp h : ℕ → Option K) : Res (ℕ → Option K) :=
  let i := argminN h
  let j := argmaxN h
  let k := midVrtx j i
  if k < 3 then
    let t1 := Function.update temp i (some ho)
    let t2 := Function.update t1 k (maxN (some ho) (sub (h k) (div (sub (t1 i) (h i)) (some 2))))
    let t3 := Function.update t2 j (sub (sub (h j) (sub (t2 i) (h i))) (sub (t2 k) (h k)))
    .ok t3
  else .error .ub

/-- Lines 86-111 for one component. -/
def moveDischargeN (ho thr : K) (h q : ℕ → Option K) : ℕ → Option K :=
  let n := nDryN ho thr h
  let del := sumN (((List.range 3).filter fun v => le (h v) (some (ho + thr))).map q)
  fun v =>
    let q' := if le (h v) (some (ho + thr)) then some 0 else q v
    if lt (some (ho + thr)) (h v) then add q' (div del (some (3 - (n : K)))) else q'

/-- State and flag of an element. -/
structure Out (K : Type) where
  q : Rows (Option K)
  wet : Bool

/-- Lines 117-145. -/
def checkElementN (ho bathMin : K) (h : ℕ → Option K) (v : Rows (Option K)) (q : Rows (Option K)) : Out K :=
  if lt (some (ho - bathMin)) (v.ze (argmaxN h)) then ⟨q, true⟩ else ⟨projectN ⟨v.ze, fun _ => some 0, fun _ => some 0⟩, false⟩

/-- Lines 6-145 (`wetting_drying_kernel`). -/
def wetDryN (ho thr : K) (ndof : ℕ) (bath : ℕ → K) (bathMin : K) (temp : ℕ → Option K) (wet : Bool) (q : Rows (Option K)) : Res (Out K) :=
  let v : Rows (Option K) := ⟨toLinear ndof q.ze, toLinear ndof q.qx, toLinear ndof q.qy⟩
  let h : ℕ → Option K := fun x => add (v.ze x) (some (bath x))
  let n := nDryN ho thr h
  let avg := div (add (add (add (some 0) (h 0)) (h 1)) (h 2)) (some 3)
  let avg := if le avg (some thr) then some thr else avg
  let flat : Rows (Option K) := ⟨fun x => sub avg (some (bath x)), fun _ => some 0, fun _ => some 0⟩
  if n = 0 then
    if wet then .ok ⟨q, true⟩ else .ok (checkElementN ho bathMin h v q)
  else if n = 3 then .ok ⟨projectN flat, false⟩
  else if le avg (some (ho + thr)) then .ok (checkElementN ho bathMin h flat (projectN flat))
  else do
    let h' ← newDepthsN ho temp h
    if nDryN ho thr h' < 3 then
      let v' : Rows (Option K) := ⟨fun x => sub (h' x) (some (bath x)), moveDischargeN ho thr h' v.qx, moveDischargeN ho thr h' v.qy⟩
      return checkElementN ho bathMin h' v' (projectN v')
    else throw .exc

/-- `scrutinize_solution` (`swe_post_scrutinize.hpp` lines 5-43): is there a NaN among the coefficients? -/
def scrutinize (ndof : ℕ) (q : Rows (Option K)) : Bool :=
  (List.range ndof).any (fun d => (q.ze d).isNone) || (List.range ndof).any (fun d => (q.qx d).isNone) || (List.range ndof).any (fun d => (q.qy d).isNone)

/-- Parameters of wetting and drying. -/
structure WdN (K : Type) where
  ho : K
  thr : K
  bath : ℕ → ℕ → K
  bathMin : ℕ → K
  temp : ℕ → ℕ → Option K

/-- One element. -/
def wdStepN (ndof : ℕ → ℕ) (w : WdN K) (s : ℕ → Out K) (e : ℕ) : Res (ℕ → Out K) := do
  let o ← wetDryN w.ho w.thr (ndof e) (w.bath e) (w.bathMin e) (w.temp e) (s e).wet (s e).q
  return Function.update s e o

/-- Lines 49-51 of `rkdg_swe_proc_serial_step.hpp`. -/
def wdAllN (ndof : ℕ → ℕ) (elts : List ℕ) (w : Option (WdN K)) (s : ℕ → Out K) : Res (ℕ → Out K) :=
  match w with
  | none => .ok s
  | some w => elts.foldlM (wdStepN ndof w) s

/-- Lines 59-66: the program ends when an element has a NaN. -/
def scrutinizeAll (ndof : ℕ → ℕ) (elts : List ℕ) (s : ℕ → Out K) : Res (ℕ → Out K) :=
  if elts.any (fun e => scrutinize (ndof e) (s e).q) then .error .exc else .ok s

/-- A stage, with any update of the state. -/
def stageN (ndof : ℕ → ℕ) (elts : List ℕ) (w : Option (WdN K)) (upd : (ℕ → Out K) → ℕ → Out K) (s : ℕ → Out K) : Res (ℕ → Out K) := do
  let s ← wdAllN ndof elts w (upd s)
  scrutinizeAll ndof elts s

/-- Stages one after the other, with the updates of the schedule. -/
def runN (ndof : ℕ → ℕ) (elts : List ℕ) (w : Option (WdN K)) (upds : List ((ℕ → Out K) → ℕ → Out K)) (s : ℕ → Out K) : Res (ℕ → Out K) :=
  upds.foldlM (fun s u => stageN ndof elts w u s) s

end Verif.Nan
