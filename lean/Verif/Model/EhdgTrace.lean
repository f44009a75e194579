import Verif.Model.Ehdg
import Verif.Model.Edge

/-!
# The trace at open boundaries of the explicit hybridized discretization

Models `source/problem/SWE/discretization_EHDG/boundary_conditions/compute_bc_trace.hpp` and the flux computed from the trace in
`ehdg_swe_bc_tide.hpp`, `ehdg_swe_bc_flow.hpp` and `ehdg_swe_bc_function.hpp`.

Simplifications: as in `Ehdg` and `Edge`. The solver of linear systems (`solve_sle`: LAPACK with Blaze, `fullPivLu` with Eigen) is a parameter; it may
fail (Blaze throws for a singular matrix).
-/

namespace Verif.Ehdg
open Verif.Swe Verif.Geometry Verif.Edge

variable {K : Type} [Field K] [LinearOrder K]

/-- What an open boundary knows: tables of the edge, normal, bathymetry, interior and prescribed state at the Gauss points. -/
structure OpenEdge (K : Type) where
  E : Tables K
  n : P2 K
  bath : ℕ → K
  q : ℕ → Q K
  qinf : ℕ → Q K

/-- Coefficients of the trace, `edge_state.q_hat`: variable and number of the basis function. -/
abbrev Coef (K : Type) := Fin 3 → ℕ → K

/-- `compute_bc_trace.hpp` line 19: the trace at a Gauss point. -/
def traceAt (o : OpenEdge K) (c : Coef K) (gp : ℕ) : Q K := ofComp fun v => ugp o.E (c v) gp

/-- Lines 21-23: depth and bathymetry of the trace. -/
def traceAux (o : OpenEdge K) (c : Coef K) (gp : ℕ) : Aux K := ⟨o.bath gp, (traceAt o c gp).ze + o.bath gp, 1⟩

/-- Lines 40-48, `dB_dq_hat`: the columns are changed one after another. -/
def dB (sq : K → K) (g : K) (o : OpenEdge K) (c : Coef K) (gp : ℕ) : M3 K :=
  let q := o.q gp
  let qh := traceAt o c gp
  let a := traceAux o c gp
  let qi := o.qinf gp
  let m := getAminus sq g qh a o.n - getAplus sq g qh a o.n
  let m := m.updateCol 0 (m.col 0 + comp (mulQ (getdAplusZe sq g qh a o.n) (q - qh) - mulQ (getdAminusZe sq g qh a o.n) (qi - qh)))
  let m := m.updateCol 1 (m.col 1 + comp (mulQ (getdAplusQx sq g qh a o.n) (q - qh) - mulQ (getdAminusQx sq g qh a o.n) (qi - qh)))
  m.updateCol 2 (m.col 2 + comp (mulQ (getdAplusQy sq g qh a o.n) (q - qh) - mulQ (getdAminusQy sq g qh a o.n) (qi - qh)))

/-- Lines 51-52, `rhs_global_kernel_at_gp`. -/
def kernelB (sq : K → K) (g : K) (o : OpenEdge K) (c : Coef K) (gp : ℕ) : Q K :=
  let qh := traceAt o c gp
  let a := traceAux o c gp
  mulQ (getAplus sq g qh a o.n) (o.q gp - qh) - mulQ (getAminus sq g qh a o.n) (o.qinf gp - qh)

/-- Number of a variable. -/
def varOf (k : ℕ) : Fin 3 := Fin.ofNat 3 k

/-- Lines 50 and 55-64: entry of the assembled matrix `delta_hat_global`. -/
def deltaHat (sq : K → K) (g : K) (o : OpenEdge K) (c : Coef K) (r s : ℕ) : K :=
  let block := fun k => integral2 o.E (r / 3) (s / 3) fun gp => flatten 3 (fun i j => dB sq g o c gp (varOf i) (varOf j)) k
  reshape 3 block (r % 3) (s % 3)

/-- Lines 66-67: entry of `rhs_global` before the system is solved. -/
def rhsHat (sq : K → K) (g : K) (o : OpenEdge K) (c : Coef K) (r : ℕ) : K :=
  -integral o.E (r / 3) fun gp => comp (kernelB sq g o c gp) (varOf (r % 3))

/-- Lines 72-73: the solution is added to the trace. -/
def correctTrace (c : Coef K) (x : ℕ → K) : Coef K := fun v dof => c v dof + reshapeCol 3 x v.val dof

/-- Lines 75-79: the test for convergence. -/
def converged (sq : K → K) (o : OpenEdge K) (x : ℕ → K) : Bool :=
  decide (sq (∑ r ∈ Finset.range (3 * o.E.ndof), x r * x r) / ((3 * o.E.ndof : ℕ) : K) < 1 / 10 ^ 12)

/-- A solver of linear systems: size, matrix, right-hand side. -/
abbrev Solver (K : Type) := ℕ → (ℕ → ℕ → K) → (ℕ → K) → Option (ℕ → K)

/-- Lines 17-82: up to `fuel` iterations; `none` if the solver fails. -/
def trace (sq : K → K) (g : K) (slv : Solver K) (o : OpenEdge K) : ℕ → Coef K → Option (Coef K)
  | 0, c => some c
  | fuel + 1, c => (slv (3 * o.E.ndof) (deltaHat sq g o c) (rhsHat sq g o c)).bind fun x =>
      let c' := correctTrace c x
      if converged sq o x then some c' else trace sq g slv o fuel c'

/-- `ehdg_swe_bc_tide.hpp` lines 120-140, `ehdg_swe_bc_flow.hpp` lines 125-145, `ehdg_swe_bc_function.hpp` lines 83-103: the flux from the trace. -/
def openFlux (sq : K → K) (g : K) (o : OpenEdge K) (c : Coef K) (gp : ℕ) : Q K :=
  let qh := traceAt o c gp
  let a := traceAux o c gp
  fluxN g qh a o.n + mulQ (tauLF sq g qh a o.n) (o.q gp - qh)

/-- The whole: `compute_bc_trace` with 100 iterations, then the flux. The trace is kept for the next stage. -/
def openBoundary (sq : K → K) (g : K) (slv : Solver K) (o : OpenEdge K) (c : Coef K) : Option (Coef K × (ℕ → Q K)) :=
  (trace sq g slv o 100 c).map fun c' => (c', openFlux sq g o c')

/-- The edge of a boundary of the mesh (`ehdg_swe_pre_init_global_prob.hpp` lines 35-40 for the bathymetry); `qinf` is the prescribed state. -/
def openEdge (v : Env K) (dat : ℕ → EltData K) (q : State K) (qinf : ℕ → Q K) (b : Bnd K) : OpenEdge K :=
  let d := dat b.e
  let r := Element.faceRule v.N d.elt.p
  ⟨tables d.elt.p r (surfaceJ v.sq d.elt.tri b.f) true, normal v.sq d.elt.tri b.f, fun gp => d.elt.value v.N d.bath (Element.facePt r b.f gp),
    fun gp => qAt v.N d.elt (q b.e) (Element.facePt r b.f gp), qinf⟩

end Verif.Ehdg
