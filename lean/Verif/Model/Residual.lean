import Verif.Model.SweStage

/-!
# The reported error

Models `ComputeResidualL2` (`source/geometry/element.hpp` lines 547-593), `compute_residual_L2`
(`source/problem/SWE/problem_postprocessor/swe_post_comp_res_l2.hpp`) and `ComputeL2Residual` of the serial and the parallel program
(`source/simulation/serial/simulation.hpp` lines 84-92, `source/simulation/ompi/simulation_ompi.hpp` lines 96-115).

Simplifications: doubles are elements of an ordered field. The true solution at the time of the report is a function of the place. `MPI_Reduce`
adds the numbers of the ranks in an order of its own. The square root of a negative number is not a number, here `none`.
-/

namespace Verif.Swe
open Verif.Geometry Verif.Element

variable {K : Type} [Field K] [LinearOrder K]

/-- `element.hpp` lines 547-593: the square of the difference, with the rule of degree 20, whatever the degree of the element. -/
def residualL2 (N : Numerics K) (e : Elt K) (f : P2 K → Q K) (u : Fin 3 → ℕ → K) : K :=
  let sqDiff := fun (var : Fin 3) z => (comp (f (localToGlobal e.tri z)) var - e.value N (u var) z) * (comp (f (localToGlobal e.tri z)) var - e.value N (u var) z)
  let l2 := fun var => ((N.tri 20).map fun wz => sqDiff var wz.2 * wz.1).sum * |jdet e.tri|
  0 + l2 0 + l2 1 + l2 2

/-- The loops over elements: the accumulation of `residual_L2`. -/
def residualOf (N : Numerics K) (dat : ℕ → EltData K) (f : P2 K → Q K) (q : State K) (elts : List ℕ) (r : K) : K :=
  elts.foldl (fun r e => r + residualL2 N (dat e).elt f (q e)) r

/-- `std::sqrt`. -/
def sqrtOf (sq : K → K) (x : K) : Option K := if x < 0 then none else some (sq x)

/-- `simulation.hpp` lines 84-92: the number after `L2 error:`. -/
def reportSerial (N : Numerics K) (sq : K → K) (dat : ℕ → EltData K) (f : P2 K → Q K) (q : State K) (m : Mesh K) : Option K := sqrtOf sq (residualOf N dat f q m.elts 0)

/-- `simulation_ompi.hpp` lines 101-108: the number of one rank, from all its submeshes. -/
def residualRank (N : Numerics K) (dat : ℕ → EltData K) (f : P2 K → Q K) (q : State K) (units : List (Mesh K)) : K :=
  units.foldl (fun r m => residualOf N dat f q m.elts r) 0

/-- Lines 110-114: what rank 0 prints; `order` lists the ranks as `MPI_Reduce` adds them. -/
def reportRanks (N : Numerics K) (sq : K → K) (dat : ℕ → EltData K) (f : P2 K → Q K) (q : State K) (ranks : List (List (Mesh K))) (order : List (List (Mesh K)) → List (List (Mesh K))) : Option K :=
  sqrtOf sq ((order ranks).map (residualRank N dat f q)).sum

end Verif.Swe
