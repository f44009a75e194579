import Verif.Model.SweFlux
import Verif.Model.Basis
import Verif.Model.Basic

/-!
# Wetting and drying

Models `source/problem/SWE/problem_postprocessor/swe_post_wet_dry.hpp` (`wetting_drying_kernel`), the part of
`source/problem/SWE/problem_preprocessor/swe_pre_init_data.hpp` that prepares the elements (lines 212-252), and the choice of the threshold in
`swe_pre_init_prob_params.hpp` lines 33-37.

Simplifications: elements are triangles with straight sides (three vertices), the polynomial degree is at least one; doubles are elements of an
ordered field. Coefficients and vertex values are functions of the number of the basis function or vertex; an access to a vertex whose number is
not below three is undefined behaviour.
-/

namespace Verif.Swe
open Verif.Basis

variable {K : Type} [Field K] [LinearOrder K]

/-- The three variables, each as a function of the dof or of the vertex. -/
structure Rows (K : Type) where
  ze : ℕ → K
  qx : ℕ → K
  qy : ℕ → K

/-- `std::min_element` over the vertices: the first of the smallest. -/
def argmin (h : ℕ → K) : ℕ :=
  let m := if h 1 < h 0 then 1 else 0
  if h 2 < h m then 2 else m

/-- `std::max_element` over the vertices: the first of the largest. -/
def argmax (h : ℕ → K) : ℕ :=
  let m := if h 0 < h 1 then 1 else 0
  if h m < h 2 then 2 else m

/-- Line 68: `3 - h_max_vrtx - h_min_vrtx` for unsigned numbers. -/
def midVrtx (mx mn : ℕ) : ℕ := ((3 - (mx : ℤ) - mn) % 2 ^ 32).toNat

/-- Lines 18-24: the number of vertices whose depth is not above `h_o + h_o_threshold`. -/
def nDry (ho thr : K) (h : ℕ → K) : ℕ := ((List.range 3).filter fun v => decide (h v ≤ ho + thr)).length

/-- Lines 62-84: new depths; `temp` is the scratch vector. -/
def newDepths (ho : K) (temp h : ℕ → K) : Res (ℕ → K) :=
  let i := argmin h
  let j := argmax h
  let k := midVrtx j i
  if k < 3 then
    let t1 := Function.update temp i ho
    let t2 := Function.update t1 k (max ho (h k - (t1 i - h i) / 2))
    let t3 := Function.update t2 j (h j - (t2 i - h i) - (t2 k - h k))
    .ok t3
  else .error .ub

/-- Lines 86-111 for one component of the discharge. -/
def moveDischarge (ho thr : K) (h q : ℕ → K) : ℕ → K :=
  let n := nDry ho thr h
  let del := (((List.range 3).filter fun v => decide (h v ≤ ho + thr)).map q).sum
  fun v => if h v ≤ ho + thr then 0 else q v + del / (3 - (n : K))

/-- What the kernel leaves behind. -/
structure WdOut (K : Type) where
  /-- `state.q`. -/
  q : Rows K
  wet : Bool
  /-- `went_completely_dry`. -/
  emptied : Bool
  /-- `state.rhs` was set to zero. -/
  rhsZero : Bool

/-- Coefficients of all three variables from vertex values. -/
def project (q : Rows K) : Rows K := ⟨linearToBasis q.ze, linearToBasis q.qx, linearToBasis q.qy⟩

/-- Lines 117-145: the final test, given the depths used by it, the vertex values and the state. -/
def checkElement (ho bathMin : K) (emptied : Bool) (h : ℕ → K) (v : Rows K) (q : Rows K) : WdOut K :=
  if v.ze (argmax h) > ho - bathMin then ⟨q, true, emptied, false⟩ else ⟨project ⟨v.ze, 0, 0⟩, false, emptied, true⟩

/-- Lines 6-145 (`wetting_drying_kernel`). -/
def wetDry (ho thr : K) (ndof : ℕ) (bath : ℕ → K) (bathMin : K) (temp : ℕ → K) (wet : Bool) (q : Rows K) : Res (WdOut K) :=
  let v : Rows K := ⟨basisToLinear ndof q.ze, basisToLinear ndof q.qx, basisToLinear ndof q.qy⟩
  let h : ℕ → K := fun x => v.ze x + bath x
  let n := nDry ho thr h
  let avg := (0 + h 0 + h 1 + h 2) / 3
  let emptied := decide (avg ≤ thr)
  let avg := if avg ≤ thr then thr else avg
  if n = 0 then
    if wet then .ok ⟨q, true, emptied, false⟩ else .ok (checkElement ho bathMin emptied h v q)
  else if n = 3 then .ok ⟨project ⟨fun x => avg - bath x, 0, 0⟩, false, emptied, true⟩
  else if avg ≤ ho + thr then
    let v' : Rows K := ⟨fun x => avg - bath x, 0, 0⟩
    .ok (checkElement ho bathMin emptied h v' (project v'))
  else do
    let h' ← newDepths ho temp h
    -- the assertion of line 102
    if nDry ho thr h' < 3 then
      let v' : Rows K := ⟨fun x => h' x - bath x, moveDischarge ho thr h' v.qx, moveDischarge ho thr h' v.qy⟩
      return checkElement ho bathMin emptied h' v' (project v')
    else throw .exc

/-- `swe_pre_init_data.hpp` lines 225-251: the element before the first step. -/
def initWetDry (ho thr : K) (ndof : ℕ) (bath : ℕ → K) (q : Rows K) : WdOut K :=
  let v : Rows K := ⟨basisToLinear ndof q.ze, basisToLinear ndof q.qx, basisToLinear ndof q.qy⟩
  let h : ℕ → K := fun x => v.ze x + bath x
  if nDry ho thr h = 0 then ⟨q, true, false, false⟩
  else ⟨project ⟨fun x => if h x ≤ ho + thr then ho - bath x else v.ze x, 0, 0⟩, false, false, true⟩

/-- Line 223: the smallest bathymetry of the vertices. -/
def bathMin (bath : ℕ → K) : K := bath (argmin bath)

/-- `swe_pre_init_prob_params.hpp` line 36, with the machine epsilon 2^-52. -/
def threshold (ho : K) : K := 10 ^ 6 * ho * (1 / 2 ^ 52)

end Verif.Swe
