import Mathlib.Data.List.Forall2
import Verif.Model.Basic

/-!
# Storage: which objects refer to which, and whether they still exist

Elements point to the master element of the mesh (`source/geometry/element.hpp` lines 15, 147-148), raw boundaries and faces hold references to the data of
elements and to masters (`raw_boundary.hpp` lines 14-18, `interface.hpp` lines 13-14, 23-27, `boundary.hpp`), the exchanger of a distributed boundary to the
buffers of the communicator (`db_data_exchanger.hpp` lines 17-18), edges to faces (`edge_interface.hpp` line 12, `edge_boundary.hpp`), requests of MPI to
the storage of the buffers (`ompi_communicator.cpp` lines 42-56). Elements live in the nodes of a map, which stay where they are; faces and edges in
vectors (`heterogeneous_containers.hpp` lines 18, 76), which move their contents when they grow.

The model is a memory of cells with addresses and a machine whose instructions are the calls which create objects; to follow a reference to a cell that no
longer exists is undefined behaviour. Simplifications: an address is never used a second time, so that a dangling reference is always noticed; of the
contents of an object only its references are kept, and which element or face it belongs to; shape and basis stand in the cells of element and master;
the moves of an element on its way into the map are one.
-/

namespace Verif.Lifetime
open Verif

/-- Addresses. -/
scoped notation "Addr" => ℕ

/-- Contents of a cell. -/
inductive Cell where
  /-- The tuple of master elements of a mesh (`mesh.hpp` line 32). -/
  | masters
  /-- An element with its pointer to the master (`element.hpp` lines 13-15). -/
  | elt (id : ℕ) (master : Addr)
  /-- A rank boundary, with the storage of the vectors of its two buffers (`ompi_communicator.hpp` lines 9-20). -/
  | rank (r : ℕ) (blocks : List Addr)
  /-- Storage of a buffer of rank boundary `r`. -/
  | block (r n : ℕ)
  /-- An interface (two elements) or boundary (one) of type number `c`: references to data and masters, and to the buffers if it is distributed. -/
  | face (c : ℕ) (ids : List ℕ) (data masters : List Addr) (buf : Option Addr)
  /-- An edge of type number `c` with its reference to the face. -/
  | edge (c : ℕ) (face : Addr)
deriving DecidableEq, Repr

/-- The memory: addresses from `next` on have not been used. -/
structure Heap where
  next : Addr
  cell : Addr → Option Cell

/-- A new object. -/
def Heap.alloc (h : Heap) (x : Cell) : Heap × Addr := (⟨h.next + 1, Function.update h.cell h.next (some x)⟩, h.next)

/-- The end of an object. -/
def Heap.free (h : Heap) (a : Addr) : Heap := ⟨h.next, Function.update h.cell a none⟩

/-- To follow a reference. -/
def Heap.read (h : Heap) (a : Addr) : Res Cell :=
  match h.cell a with
  | some x => .ok x
  | none => .error .ub

/-- `std::vector`: capacity and the addresses of the elements. -/
structure Vec where
  cap : ℕ
  at' : List Addr
deriving DecidableEq, Repr

/-- The elements move to new storage. -/
def relocate (h : Heap) : List Addr → Res (Heap × List Addr)
  | [] => .ok (h, [])
  | a :: l => do
    let x ← h.read a
    let (h, b) := h.alloc x
    let (h, l) ← relocate (h.free a) l
    return (h, b :: l)

/-- `emplace_back` (`heterogeneous_containers.hpp` lines 37-42): a vector without room grows to a capacity which the library chooses and moves. -/
def emplaceBack (grow : ℕ → ℕ) (h : Heap) (v : Vec) (x : Cell) : Res (Heap × Vec) :=
  if v.at'.length < v.cap then .ok ((h.alloc x).1, ⟨v.cap, v.at' ++ [(h.alloc x).2]⟩)
  else do
    let (h', l) ← relocate (h.alloc x).1 v.at'
    return (h', ⟨grow v.cap, l ++ [(h.alloc x).2]⟩)

/-- A raw boundary (`raw_boundary.hpp`): face `b` of element `id`. -/
structure Raw where
  id : ℕ
  b : ℕ
  data : Addr
  master : Addr
deriving DecidableEq, Repr

/-- A simulation unit: mesh, skeleton and communicator. -/
structure St where
  h : Heap
  masters : Addr
  elts : List (ℕ × Addr)
  raws : List Raw
  faces : ℕ → Vec
  edges : ℕ → Vec
  ranks : List Addr
  requests : List Addr

/-- What the code does with the storage. -/
inductive Instr where
  | element (id : ℕ)
  | rawBoundaries
  | face (c : ℕ) (keys : List (ℕ × ℕ))
  | dface (c : ℕ) (key : ℕ × ℕ) (r : ℕ)
  | resize (r : ℕ) (sizes : List ℕ)
  | edges (c : ℕ)
  | register
  | access
deriving DecidableEq, Repr

/-- `CreateElement` (`mesh.hpp` lines 91-101, `heterogeneous_containers.hpp` lines 97-102): a temporary element, moved into a node of the map unless the key
is there. -/
def createElement (s : St) (id : ℕ) : St :=
  let (h, t) := s.h.alloc (.elt id s.masters)
  if s.elts.any (·.1 = id) then { s with h := h.free t }
  else
    let (h, a) := h.alloc (.elt id s.masters)
    { s with h := h.free t, elts := s.elts ++ [(id, a)] }

/-- `CreateRawBoundaries` of one element (`element.hpp` lines 275-297): the pointer to the master is read from the element. -/
def rawsOf (h : Heap) (x : ℕ × Addr) : Res (List Raw) := do
  match ← h.read x.2 with
  | .elt _ m => let _ ← h.read m; return (List.range 3).map fun b => ⟨x.1, b, x.2, m⟩
  | _ => .error .ub

/-- The raw boundary of a key; the callers of the code have the iterator at hand, a missing key is an exception. -/
def findRaw (raws : List Raw) (k : ℕ × ℕ) : Res Raw :=
  match raws.find? fun r => r.id = k.1 && r.b = k.2 with
  | some r => .ok r
  | none => .error .exc

/-- The constructor of a face reads shape and master of its elements. -/
def newFace (s : St) (c : ℕ) (keys : List (ℕ × ℕ)) (buf : Option Addr) : Res Cell := do
  let rs ← keys.mapM (findRaw s.raws)
  let _ ← rs.mapM fun r => s.h.read r.data
  let _ ← rs.mapM fun r => s.h.read r.master
  return .face c (rs.map (·.id)) (rs.map (·.data)) (rs.map (·.master)) buf

/-- `CreateInterface`, `CreateBoundary`, `CreateDistributedBoundary` (`mesh.hpp` lines 103-128). -/
def createFace (grow : ℕ → ℕ) (s : St) (c : ℕ) (keys : List (ℕ × ℕ)) (buf : Option Addr) : Res St := do
  let x ← newFace s c keys buf
  let (h, v) ← emplaceBack grow s.h (s.faces c) x
  return { s with h := h, faces := Function.update s.faces c v }

/-- `GetRankBoundary` (`ompi_communicator.hpp` lines 36-38), with the check of `at`. -/
def rankOf (s : St) (r : ℕ) : Res Addr :=
  match s.ranks[r]? with
  | some a => .ok a
  | none => .error .exc

def freeAll (h : Heap) (l : List Addr) : Heap := l.foldl Heap.free h

def allocBlocks (r : ℕ) (h : Heap) : List ℕ → Heap × List Addr
  | [] => (h, [])
  | n :: l =>
    let (h, a) := h.alloc (.block r n)
    let (h, as) := allocBlocks r h l
    (h, a :: as)

/-- `swe_pre_create_dbound.hpp` lines 127-133 (`gn_pre_create_dbound.hpp` likewise): the buffers get their size, and new storage. -/
def resize (s : St) (r : ℕ) (sizes : List ℕ) : Res St := do
  let a ← rankOf s r
  match ← s.h.read a with
  | .rank _ old =>
    let (h, bs) := allocBlocks r (freeAll s.h old) sizes
    return { s with h := ⟨h.next, Function.update h.cell a (some (.rank r bs))⟩ }
  | _ => .error .ub

/-- One edge: the constructor reads the face. -/
def createEdge (grow : ℕ → ℕ) (c : ℕ) (x : Heap × Vec) (a : Addr) : Res (Heap × Vec) := do
  let _ ← x.1.read a
  emplaceBack grow x.1 x.2 (.edge c a)

/-- `CallForEach…OfType` with `CreateEdge…` (`swe_pre_create_edge_bound.hpp`, `swe_pre_create_edge_intface.hpp`, `swe_pre_create_edge_dbound.hpp`,
`gn_pre_create_edge_*.hpp`, `mesh_skeleton.hpp` lines 47-65). -/
def createEdges (grow : ℕ → ℕ) (s : St) (c : ℕ) : Res St := do
  let (h, v) ← (s.faces c).at'.foldlM (createEdge grow c) (s.h, s.edges c)
  return { s with h := h, edges := Function.update s.edges c v }

/-- The storage of the buffers of a rank boundary. -/
def blocksAt (h : Heap) (a : Addr) : Res (List Addr) := do
  match ← h.read a with
  | .rank _ bs => return bs
  | _ => .error .ub

/-- `InitializeCommunication` (`ompi_communicator.cpp` lines 21-59). That it needs a rank boundary at all is not part of this model (see C26). -/
def register (s : St) : Res St := do
  let bs ← s.ranks.mapM (blocksAt s.h)
  return { s with requests := bs.flatten }

/-- Everything that a face refers to is read. -/
def readFace (h : Heap) (a : Addr) : Res Unit := do
  match ← h.read a with
  | .face _ _ ds ms b =>
    let _ ← ds.mapM h.read
    let _ ← ms.mapM h.read
    match b with
    | some x => let bs ← blocksAt h x; let _ ← bs.mapM h.read; return ()
    | none => return ()
  | _ => .error .ub

/-- Everything that an edge refers to is read. -/
def readEdge (h : Heap) (e : Addr) : Res Unit := do
  match ← h.read e with
  | .edge _ a => readFace h a
  | _ => .error .ub

/-- A stage: elements, faces, edges (of the types below `n`) and requests are used. -/
def access (n : ℕ) (s : St) : Res Unit := do
  let _ ← s.elts.mapM fun x => rawsOf s.h x
  let _ ← ((List.range n).flatMap fun c => (s.faces c).at').mapM (readFace s.h)
  let _ ← ((List.range n).flatMap fun c => (s.edges c).at').mapM (readEdge s.h)
  let _ ← s.requests.mapM s.h.read
  return ()

/-- One instruction; `n` types of faces. -/
def step (grow : ℕ → ℕ) (n : ℕ) (s : St) : Instr → Res St
  | .element id => .ok (createElement s id)
  | .rawBoundaries => do
    let rs ← s.elts.mapM (rawsOf s.h)
    return { s with raws := rs.flatten }
  | .face c keys => createFace grow s c keys none
  | .dface c key r => do
    let a ← rankOf s r
    createFace grow s c [key] (some a)
  | .resize r sizes => resize s r sizes
  | .edges c => createEdges grow s c
  | .register => register s
  | .access => do
    let _ ← access n s
    return s

/-- A program. -/
def run (grow : ℕ → ℕ) (n : ℕ) (s : St) (p : List Instr) : Res St := p.foldlM (step grow n) s

/-- The rank boundaries of the communicator (`ompi_communicator.cpp` lines 3-19), complete before the mesh is made (`sim_unit_ompi.hpp` line 41). -/
def allocRanks (h : Heap) (r : ℕ) : ℕ → Heap × List Addr
  | 0 => (h, [])
  | n + 1 =>
    let (h, a) := h.alloc (.rank r [])
    let (h, as) := allocRanks h (r + 1) n
    (h, a :: as)

/-- A new unit (`simulation.hpp` line 49, `sim_unit_ompi.hpp` lines 40-41): the masters of the temporary mesh are moved into those of the member. -/
def fresh (cap : ℕ) (nranks : ℕ) : St :=
  let (h, m) := Heap.alloc ⟨0, fun _ => none⟩ .masters
  let (h, t) := h.alloc .masters
  let (h, rs) := allocRanks (h.free t) 0 nranks
  ⟨h, m, [], [], fun _ => ⟨cap, []⟩, fun _ => ⟨cap, []⟩, rs, []⟩

/-- What the mesh file and the boundary data ask for: elements, faces of each type, for each rank boundary its faces and the sizes of the buffers. -/
structure Plan where
  ids : List ℕ
  faces : List (ℕ × List (ℕ × ℕ))
  ranks : List (List (ℕ × (ℕ × ℕ)) × List ℕ)

/-- `swe_pre_create_dbound.hpp` lines 23-134: the faces of a rank boundary, then its buffers. -/
def rankProgram (x : (List (ℕ × (ℕ × ℕ)) × List ℕ) × ℕ) : List Instr := (x.1.1.map fun f => .dface f.1 f.2 x.2) ++ [.resize x.2 x.1.2]

/-- Construction of a unit (`initialize_mesh.hpp`, `initialize_mesh_skeleton.hpp`, `discretization.hpp` lines 12-46, `sim_unit_ompi.hpp` lines 55-57).
`cs`: the types of faces in the order in which their edges are made (none for the discretization without edges). -/
def program (p : Plan) (cs : List ℕ) : List Instr :=
  (p.ids.map .element ++ [.rawBoundaries] ++ (p.faces.map fun f => .face f.1 f.2) ++ p.ranks.zipIdx.flatMap rankProgram) ++ (cs.map .edges ++ [.register])

end Verif.Lifetime
