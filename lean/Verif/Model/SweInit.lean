import Verif.Model.SweStage

/-!
# Initial data

Models `source/problem/SWE/problem_preprocessor/swe_pre_preprocess_mesh.hpp` (projection of spherical coordinates),
`source/problem/SWE/problem_preprocessor/swe_pre_init_data.hpp` lines 8-252 (bathymetry, projection factor, initial state, Manning's and Coriolis
parameters, wet flags), the constructor of `source/shape/shapes_2D/shape_straighttriangle.cpp` with all three coordinates, `L2ProjectionF` of
`source/geometry/element.hpp`, and the weights of `partitioner/problem/swe_partitioner_inputs.cpp`.

Simplifications: doubles are elements of an ordered field; cosine, sine, π and the functions `ic_q` are parameters; nodes are a function of the
number of the node (a missing node is an exception of `at`, not modelled here); warnings are not modelled. The Manning file is the list of its
entries. Division by zero is zero.
-/

namespace Verif.Swe
open Verif.Geometry Verif.Element

variable {K : Type} [Field K] [LinearOrder K]

/-- `Point<3>`: a node of the mesh, `z` its bathymetry. -/
structure P3 (K : Type) where
  x : K
  y : K
  z : K
deriving DecidableEq, Repr

/-- `swe_inputs.hpp` (`SphericalProjection`): type, radius, longitude and latitude of the origin in degrees. -/
structure Spherical (K : Type) where
  enabled : Bool
  R : K
  lon : K
  lat : K

/-- `swe_pre_preprocess_mesh.hpp` lines 15-25: one node. -/
def projectSphere (cos : K → K) (pi : K) (s : Spherical K) (n : P3 K) : P3 K :=
  let Ro := s.R * cos (s.lat * pi / 180)
  ⟨Ro * (n.x - s.lon) * pi / 180, s.R * n.y * pi / 180, n.z⟩

/-- `swe_pre_preprocess_mesh.hpp` lines 5-27: all nodes; `sys` says that the coordinates of the mesh are spherical. -/
def preprocessNodes (cos : K → K) (pi : K) (sys : Bool) (s : Spherical K) (nodes : ℕ → P3 K) : ℕ → P3 K :=
  if sys then fun n => projectSphere cos pi s (nodes n) else nodes

/-- `nodal_coordinates` of a triangle. -/
structure Shape (K : Type) where
  a : P3 K
  b : P3 K
  c : P3 K

/-- The first two coordinates. -/
def P3.flat (n : P3 K) : P2 K := ⟨n.x, n.y⟩

/-- `shape_straighttriangle.cpp` lines 4-12: the first and the last node of a clockwise triangle are swapped, with all coordinates. -/
def shapeOf (a b c : P3 K) : Shape K := if jdet ⟨a.flat, b.flat, c.flat⟩ < 0 then ⟨c, b, a⟩ else ⟨a, b, c⟩

def Shape.tri (s : Shape K) : Tri K := ⟨s.a.flat, s.b.flat, s.c.flat⟩
def Shape.ys (s : Shape K) (k : ℕ) : K := if k = 0 then s.a.y else if k = 1 then s.b.y else s.c.y
def Shape.zs (s : Shape K) (k : ℕ) : K := if k = 0 then s.a.z else if k = 1 then s.b.z else s.c.z

/-- `swe_pre_init_data.hpp` lines 20-24: the coefficients of the bathymetry. -/
def bathOf (N : Numerics K) (p : ℕ) (s : Shape K) : ℕ → K := (⟨p, s.tri⟩ : Elt K).projectNode N s.zs

/-- Lines 32-49 (= 85-101, 114-131, 144-161): the projection factor where the nodal values `ys` are interpolated. -/
def spAt (cos : K → K) (pi : K) (s : Spherical K) (ys : ℕ → K) (z : P2 K) : K :=
  if s.enabled then cos (s.lat * pi / 180) / cos ((ys 0 * psi 0 z + ys 1 * psi 1 z + ys 2 * psi 2 z) / s.R) else 1

/-- The same as a function of the point in space, as the kernels of the model use it. -/
def spOf (cos : K → K) (pi : K) (s : Spherical K) (x : P2 K) : K := if s.enabled then cos (s.lat * pi / 180) / cos (x.y / s.R) else 1

/-- Lines 69-102: the loop over the Gauss points of an interface, which fills the arrays of both sides from the interior one. -/
def spFace (cos : K → K) (pi : K) (s : Spherical K) (ys : ℕ → K) (pt : ℕ → P2 K) (ngp : ℕ) (old : (ℕ → K) × (ℕ → K)) : (ℕ → K) × (ℕ → K) :=
  (List.range ngp).foldl (fun a gp => (Function.update a.1 gp (spAt cos pi s ys (pt gp)), Function.update a.2 (ngp - gp - 1) (spAt cos pi s ys (pt gp)))) old

/-- `swe_inputs.hpp` (`InitialConditions`): the types `Constant` and `Default` have values (zero by default), `Function` uses `ic_q`. -/
inductive Initial (K : Type) where
  | constant (u : Q K)
  | default (u : Q K)
  | function

/-- `element.hpp` lines 306-313 (`L2ProjectionF`): coefficients of a function in space. -/
def _root_.Verif.Element.Elt.projectF (N : Numerics K) (e : Elt K) (f : P2 K → K) (d : ℕ) : K :=
  e.intPhi N (fun z => f (localToGlobal e.tri z)) d * (N.basis.minv d / |jdet e.tri|)

/-- `swe_pre_init_data.hpp` lines 51-66: the initial coefficients of an element. -/
def initQ (N : Numerics K) (ic : K → P2 K → Q K) (u : Initial K) (e : Elt K) : Fin 3 → ℕ → K :=
  match u with
  | .constant u => fun var => e.projectNode N fun _ => comp u var
  | .default u => fun var => e.projectNode N fun _ => comp u var
  | .function => fun var => e.projectF N fun x => comp (ic 0 x) var

/-- The part of the input that the initial data depend on. `manning` holds the entries of the data file, `wd` the depth `h_o`. -/
structure InitInput (K : Type) where
  sys : Bool
  sph : Spherical K
  ic : Initial K
  manning : Option (List (ℕ × K))
  coriolis : Bool
  wd : Option K

/-- What the initial data are made from: functions, input, degree, nodes and the nodes of each element. -/
structure Setup (K : Type) where
  env : Env K
  sin : K → K
  inp : InitInput K
  p : ℕ
  nodes : ℕ → P3 K
  corners : ℕ → ℕ × ℕ × ℕ

/-- `mesh_metadata.cpp` lines 138-148 (`get_nodal_coordinates`) after `preprocess_mesh_data`, and the constructor of the shape. -/
def Setup.shape (S : Setup K) (e : ℕ) : Shape K :=
  let n := preprocessNodes S.env.cos S.env.pi S.inp.sys S.inp.sph S.nodes
  shapeOf (n (S.corners e).1) (n (S.corners e).2.1) (n (S.corners e).2.2)

/-- The element. -/
def Setup.elt (S : Setup K) (e : ℕ) : Elt K := ⟨S.p, (S.shape e).tri⟩

/-- `swe_pre_init_data.hpp` lines 164-211: source data of an element. Meteorological data come later. -/
def Setup.source (S : Setup K) (e : ℕ) : EltSource K where
  manning := S.inp.manning.isSome
  gn2 := match S.inp.manning with
    | none => 0
    | some file => gManning S.env.src.g file [(S.corners e).1, (S.corners e).2.1, (S.corners e).2.2]
  coriolisF := if S.inp.coriolis then coriolisParam S.sin (72921 / 10 ^ 9) S.inp.sph.R [(S.shape e).ys 0, (S.shape e).ys 1, (S.shape e).ys 2] else 0
  tauS := ⟨0, 0⟩
  dpAtm := ⟨0, 0⟩
  dtidePot := ⟨0, 0⟩

/-- The data of all elements. -/
def Setup.dat (S : Setup K) (e : ℕ) : EltData K := ⟨S.elt e, bathOf S.env.N S.p (S.shape e), S.source e⟩

/-- The functions with the projection factor of the input. -/
def Setup.v (S : Setup K) : Env K := { S.env with sp := spOf S.env.cos S.env.pi S.inp.sph }

/-- Lines 51-66 and 213-252: state and wet flag of an element before the first step. -/
def Setup.start (S : Setup K) (e : ℕ) : (Fin 3 → ℕ → K) × Bool :=
  let q := initQ S.env.N S.env.bcq S.inp.ic (S.elt e)
  match S.inp.wd with
  | none => (q, true)
  | some ho =>
    let o := initWetDry ho (threshold ho) (ndof S.p) (S.shape e).zs (rowsOf q)
    (ofRows o.q, o.wet)

/-- State of all elements before the first step. -/
def Setup.q0 (S : Setup K) : State K := fun e => (S.start e).1

/-- Wet flags before the first step. -/
def Setup.wet0 (S : Setup K) : ℕ → Bool := fun e => (S.start e).2

/-- The parameters of wetting and drying, `temp` being an array filled before it is read. -/
def Setup.wdParams (S : Setup K) (temp : ℕ → ℕ → K) : Option (WdParams K) :=
  S.inp.wd.map fun ho => ⟨ho, threshold ho, fun e => (S.shape e).zs, fun e => bathMin (S.shape e).zs, temp⟩

/-- `swe_partitioner_inputs.cpp` lines 11-31: whether the partitioner counts an element as wet. The mesh is the one in the file, not yet
projected. -/
def partWet (ic : K → P2 K → Q K) (u : Initial K) (ho : K) (ns : List (P3 K)) : Bool :=
  ns.foldl (fun wet n => wet && decide ((match u with
    | .constant u => u.ze + n.z
    | .function => (ic 0 n.flat).ze + n.z
    | .default _ => 2 * ho) ≥ ho)) true

end Verif.Swe
