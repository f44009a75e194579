import Verif.Model.SweInit
import Verif.Model.Assemble
import Verif.Model.Bcis

/-!
# From the mesh file to the first step

Puts together the parts that the serial program runs before its first step: `MeshMetaData::MeshMetaData(const AdcircFormat&)`
(`source/preprocessor/mesh_metadata.cpp`), `preprocess_mesh_data`, `initialize_mesh` (`source/preprocessor/initialize_mesh.hpp`), the constructors and
`Initialize` of the boundary conditions (`source/problem/SWE/discretization_RKDG/boundary_conditions/*.hpp`) and `initialize_data_serial`
(`source/problem/SWE/problem_preprocessor/swe_pre_init_data.hpp`), in the order of `source/simulation/serial/simulation.hpp`.

Simplifications: those of the parts; the boundary conditions are listed in the order of `swe_pre_create_bound.hpp`; a boundary condition holds its data at
the Gauss points of its own rule.
-/

namespace Verif.Swe
open Verif Verif.Geometry Verif.Element

variable {K : Type} [Field K] [LinearOrder K]

/-- What the program knows besides the mesh. -/
structure Program (K : Type) where
  env : Env K
  sin : K → K
  inp : InitInput K
  p : ℕ
  data : Assemble.Input (Bcis.LeveeData K) (Bcis.NodeData K) (Bcis.NodeData K)

/-- Data of a tide or flow boundary at the Gauss points. -/
def forcingAt (r : List (K × K)) (d : List (Bcis.NodeData K)) : Res (ℕ → List (Constituent K)) := do
  let f ← Bcis.mkForcing d
  let l ← r.mapM fun wx => f.atGp wx.2
  pure fun gp => l.getD gp []

/-- Data of a levee at the Gauss points. -/
def leveeAt (r : List (K × K)) (d : List (Bcis.LeveeData K)) : Res (ℕ → LeveeGp K) := do
  let l ← r.mapM fun wx => Bcis.leveeAtGp d wx.2
  pure fun gp => l.getD gp ⟨0, 0, 0⟩

def tideOf (r : List (K × K)) (x : Assemble.Raw × List (Bcis.NodeData K)) : Res (Bnd K) := do
  let c ← forcingAt r x.2
  pure ⟨x.1.elem, x.1.face, .tide c⟩

def flowOf (r : List (K × K)) (x : Assemble.Raw × List (Bcis.NodeData K)) : Res (Bnd K) := do
  let c ← forcingAt r x.2
  pure ⟨x.1.elem, x.1.face, .flow c⟩

def leveeOf (r : List (K × K)) (x : Assemble.Raw × Assemble.Raw × List (Bcis.LeveeData K)) : Res (Iface K) := do
  let d ← leveeAt r x.2.2
  pure ⟨x.1.elem, x.1.face, x.2.1.elem, x.2.1.face, .levee d⟩

/-- The mesh with its boundary conditions. All elements have the same degree, so all faces have the same rule. -/
def meshOf (N : Numerics K) (p : ℕ) (ids : List ℕ) (M : Assemble.Mesh (Bcis.LeveeData K) (Bcis.NodeData K) (Bcis.NodeData K)) : Res (Mesh K) := do
  let levees ← M.levee.mapM (leveeOf (faceRule N p))
  let tides ← M.tide.mapM (tideOf (faceRule N p))
  let flows ← M.flow.mapM (flowOf (faceRule N p))
  pure ⟨ids, M.internal.map (fun x => ⟨x.1.elem, x.1.face, x.2.elem, x.2.face, .internal⟩) ++ levees,
    M.land.map (fun r => ⟨r.elem, r.face, .land⟩) ++ tides ++ flows ++ M.function.map (fun r => ⟨r.elem, r.face, .function⟩), []⟩

/-- `mesh_metadata.cpp` lines 138-148: `nodes.at(node_ID)`, one element. -/
def nodesFound (nodes : List (ℕ × K × K × K)) (ids : List ℕ) : Res Unit :=
  if ids.all fun n => (nodes.lookup n).isSome then .ok () else .error .exc

/-- Coordinates of a node. -/
def nodeAt (nodes : List (ℕ × K × K × K)) (n : ℕ) : P3 K :=
  match nodes.lookup n with
  | some x => ⟨x.1, x.2.1, x.2.2⟩
  | none => ⟨0, 0, 0⟩

/-- Nodes of an element. -/
def cornersOf (E : MeshMeta.Elts) (e : ℕ) : ℕ × ℕ × ℕ :=
  match E.lookup e with
  | some x => (x.nodes.getD 0 0, x.nodes.getD 1 0, x.nodes.getD 2 0)
  | none => (0, 0, 0)

/-- The data from which elements are made. -/
def Program.setup (g : Program K) (nodes : List (ℕ × K × K × K)) (E : MeshMeta.Elts) : Setup K :=
  ⟨g.env, g.sin, g.inp, g.p, nodeAt nodes, cornersOf E⟩

/-- All that happens before the first step. `order` is the iteration order of the hash map of edges. -/
def Program.start {W : Type} (g : Program K) (m : Adcirc.Fort14 W K) (order : MeshMeta.Dict) : Res (Setup K × Mesh K) := do
  let E ← MeshMeta.build m order
  let _ ← E.mapM fun x => nodesFound m.nodes x.2.nodes
  let A ← Assemble.assemble E g.data []
  let M ← meshOf g.env.N g.p (E.map Prod.fst) A
  pure (g.setup m.nodes E, M)

end Verif.Swe
