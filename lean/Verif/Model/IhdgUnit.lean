import Verif.Model.IhdgParallel
import Verif.Model.Rounds

/-!
# The implicit hybridized discretization, one submesh at a time

`IhdgParallel` computes all submeshes together, with shared arrays. Here a submesh computes with what is its own, as `SimulationUnit`s do in
`source/problem/SWE/discretization_IHDG/kernels_processor/ihdg_swe_proc_ompi_step.hpp` (lines 39-106) and `ihdg_swe_proc_ompi_sol_glob_prob.hpp`; the kernels are
handed to the threads of `Rounds`.

Simplifications: as in `IhdgParallel` and `Rounds`. The numbers of the unknowns are those which `preprocessor_ompi` has computed. A submesh which has failed (a
matrix cannot be inverted, the system cannot be solved, the derivative of the source is not finite) holds nothing from then on.
-/

namespace Verif.Ihdg
open Verif.Swe Verif.Geometry Verif.Element Verif.Edge Verif.Ehdg
open Verif.Gn (PEdge PEdg edgesP byFaceP byOwnP)

variable {K : Type} [Field K] [LinearOrder K]

/-- A submesh: its rank and its place there. -/
abbrev Sub (W : Cluster K) := (r : Fin W.ranks.length) × Fin (W.ranks.get r).length

def subMesh (W : Cluster K) (u : Sub W) : Mesh K := (W.ranks.get u.1).get u.2

/-- What a submesh keeps: iterate, state at the start of the stage, `rhs_prev`, blocks, `delta_local_inv`. -/
structure SubMem (K : Type) where
  it : PIter K
  q0 : State K
  prev : ℕ → ℕ → K
  blk : PBlocks K
  inv : ℕ → ℕ → ℕ → K

variable (S : Scheme K) (W : Cluster K)

/-- `ihdg_swe_proc_init_iter.hpp` for one submesh. -/
def subPrev (it : PIter K) (m : Mesh K) : ℕ → ℕ → K := if S.order2 then prevMesh S W it (fun _ _ => 0) m else fun _ _ => 0

/-- `ihdg_swe_proc_ompi_step.hpp` lines 50-90 for one submesh. -/
def subBlocks (q0 : State K) (prev : ℕ → ℕ → K) (it : PIter K) (m : Mesh K) : PBlocks K where
  dl := (localMesh S W q0 prev it ⟨fun _ _ _ => 0, fun _ _ => 0⟩ m).D
  rl := (localMesh S W q0 prev it ⟨fun _ _ _ => 0, fun _ _ => 0⟩ m).R
  dh := byFaceP [m] (fun ed s => sideDh S it.q ed (it.at ed) s) (fun b => cutDh S W it.q (it.hat b.e b.f) b) fun _ _ => 0
  dg := byFaceP [m] (fun ed s => sideDg S it.q ed (it.at ed) s) (fun b => cutDg S W (it.hat b.e b.f) b) fun _ _ => 0
  hg := byOwnP [m] (fun ed => edgeDhg S it.q ed (it.at ed)) (fun b => cutHg S W it.q (it.hat b.e b.f) b) fun _ _ => 0
  hr := byOwnP [m] (fun ed => edgeRg S it.q ed (it.at ed)) (fun b => cutHr S W it.q (it.hat b.e b.f) b) fun _ => 0

/-- All entries of the derivative of the source are finite. -/
def subFinite (q : State K) (m : Mesh K) : Bool :=
  m.elts.all fun e => ((S.dat e).elt.gps S.v.N).all fun wz =>
    let x := inner S (S.dat e) (q e) wz.2
    (dsource S.v.sq S.v.cb S.v.src (S.dat e).src x.1 x.2).isSome

/-- The edges of a submesh. -/
def subEdges (m : Mesh K) : List PEdge := (edgesP m).map PEdg.skel

/-- `ihdg_swe_proc_ompi_sol_glob_prob.hpp` lines 135-290: what a submesh adds to the matrix and the vector of the global system. -/
def subPart (m : Mesh K) (x : SubMem K) : List (ℕ × ℕ × K) × ((ℕ → K) → ℕ → K) :=
  ((subEdges m).flatMap (tripletsP (skelP S W) (numberP (skelP S W)) x.blk x.inv),
    fun v => (subEdges m).foldl (addP (skelP S W) (numberP (skelP S W)) x.blk x.inv) v)

/-- Lines 326-393: right-hand sides, traces and states of a submesh, from the vector of its rank. -/
def subUpdate (gs : List ℕ) (y : ℕ → K) (m : Mesh K) (x : SubMem K) : Option (SubMem K) :=
  let P := skelP S W
  ((subEdges m).foldlM (backP P (numberP P) x.blk gs y) (x.blk.rl, fun _ _ _ => 0)).map fun w => { x with it :=
    ⟨fun e var dof => if e ∈ m.elts ∧ 3 * dof < P.size e then x.it.q e var dof + reshapeCol 3 (mulV (P.size e) (x.inv e) (w.1 e)) var.val dof
        else x.it.q e var dof,
      fun e f var dof => if 3 * dof < P.esize e f then x.it.hat e f var dof + reshapeCol 3 (w.2 e f) var.val dof else x.it.hat e f var dof⟩ }

/-- `ihdg_swe_proc_ompi_step.hpp` lines 47-84, `ihdg_swe_proc_ompi_sol_glob_prob.hpp` lines 12-131. -/
def subKernels (m : Mesh K) (x : SubMem K) : Option (SubMem K) :=
  if subFinite S x.it.q m then
    (inverses S.I (subBlocks S W x.q0 x.prev x.it m).elt (skelP S W).sizes m.elts).map fun inv =>
      { x with blk := subBlocks S W x.q0 x.prev x.it m, inv := inv }
  else none

/-- The scheme in step `n`. -/
def Scheme.inStep (S : Scheme K) (time ramp : ℕ → K) (n : ℕ) : Scheme K := { S with t := time n, tn := time (n + 1), rampn := ramp (n + 1) }

/-- The implicit program on submeshes, for `Rounds`. A rank contributes entries of the matrix and a change of the vector; the solution comes with the numbers of
the unknowns of the rank. -/
def subNewton (time ramp : ℕ → K) : Rounds.Newton (Sub W) (Fin W.ranks.length) (Option (SubMem K))
    (List (ℕ × ℕ × K) × ((ℕ → K) → ℕ → K)) (Option (ℕ → K)) (Option (List ℕ × (ℕ → K))) where
  init n u m := m.map fun x => { x with q0 := x.it.q, prev := subPrev (S.inStep time ramp n) W x.it (subMesh W u) }
  kernels n u m := m.bind (subKernels (S.inStep time ramp n) W (subMesh W u))
  assemble r m :=
    let ps := (List.finRange (W.ranks.get r).length).map fun i => match m ⟨r, i⟩ with
      | some (some x) => subPart S W (subMesh W ⟨r, i⟩) x
      | _ => ([], id)
    (ps.flatMap Prod.fst, fun v => ps.foldl (fun v p => p.2 v) v)
  solve ps :=
    let ps := (List.finRange W.ranks.length).map fun r => (ps r).getD ([], id)
    S.slv (numberP (skelP S W)).total (fromTriplets (ps.flatMap Prod.fst)) (ps.foldl (fun v p => p.2 v) fun _ => 0)
  scatter r x := x.map fun x => ((numberP (skelP S W)).globals.getD r.val [], x)
  small x := match x with
    | some x => convergedP S W x
    | none => false
  update n y u m := m.bind fun x => y.bind fun y => subUpdate (S.inStep time ramp n) W y.1 y.2 (subMesh W u) x
  finish _ _ m := m

end Verif.Ihdg
