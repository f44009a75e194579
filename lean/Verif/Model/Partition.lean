import Verif.Model.MeshMeta
import Verif.Model.Text

/-!
# Model of the partitioner

Models `partitioner/partition.cpp`, `partitioner/csrmat.hpp`, `partitioner/write_distributed_interfaces.cpp`, the file names
of `partitioner/partitioner.cpp`, and where the parallel simulation looks for these files
(`simulation/ompi/simulation_ompi.hpp`, `preprocessor/input_parameters.hpp`).

Simplifications: METIS is an arbitrary assignment; the iteration order of every hash map is a parameter; `uint`/`int`
arithmetic on ranks is exact; statistics printed by `partition` are left out. `neighbor_ID` and `boundary_type` of an
element have the same length (they are always resized together) and are traversed together.
-/

namespace Verif.Partition
open Verif Verif.MeshMeta Verif.Util Verif.Text

/-! ### Assignment of partitions to ranks -/

/-- The local variables of `partition.cpp` lines 96-108. -/
structure RR where
  /-- `local_rank_counter` -/
  rankCtr : ℕ → ℕ
  /-- `local_partition_counter` -/
  partCtr : ℕ → ℕ
  /-- `partition2rank` -/
  p2r : List (ℕ × ℕ)
  /-- `partition2local_partition`, a vector initialised with zeros -/
  p2l : ℕ → ℕ

/-- Assignment to a vector element. -/
def setAt (f : ℕ → ℕ) (i v : ℕ) : ℕ → ℕ := fun j => if j = i then v else f j

/-- `partition.cpp` lines 101-108: one partition `pn = (partition, node)`. Out-of-range numbers are undefined behaviour;
`ranks_per_locality = 0` is a division by zero. -/
def rrStep (numParts numNodes rpl : ℕ) (s : RR) (pn : ℕ × ℕ) : Res RR :=
  if pn.1 < numParts ∧ pn.2 < numNodes ∧ rpl ≠ 0 then
    let rank := s.rankCtr pn.2 + rpl * pn.2
    .ok { rankCtr := setAt s.rankCtr pn.2 ((s.rankCtr pn.2 + 1) % rpl)
          partCtr := setAt s.partCtr rank (s.partCtr rank + 1)
          p2r := upsert s.p2r pn.1 rank
          p2l := setAt s.p2l pn.1 (s.partCtr rank) }
  else .error .ub

/-- `partition.cpp` lines 96-108. `order` is `partition2node` in iteration order. -/
def roundRobin (numParts numNodes rpl : ℕ) (order : List (ℕ × ℕ)) : Res RR :=
  order.foldlM (rrStep numParts numNodes rpl) ⟨fun _ => 0, fun _ => 0, [], fun _ => 0⟩

/-! ### Submeshes -/

/-- `MeshMetaData` without the name. -/
structure Sub (N : Type) where
  elements : Elts
  nodes : List (ℕ × N)

/-- All submeshes: `submeshes[rank][local]`, with `local < count rank`. -/
structure Subs (N : Type) where
  numRanks : ℕ
  count : ℕ → ℕ
  get : ℕ → ℕ → Sub N

section
variable {N : Type}

/-- Index check of `submeshes[rank][loc]`. -/
def Subs.has (S : Subs N) (r l : ℕ) : Prop := r < S.numRanks ∧ l < S.count r

instance (S : Subs N) (r l : ℕ) : Decidable (S.has r l) := inferInstanceAs (Decidable (_ ∧ _))

/-- `submeshes[rank][loc] = …`. -/
def Subs.put (S : Subs N) (r l : ℕ) (x : Sub N) : Subs N :=
  { S with get := fun r' l' => if r' = r ∧ l' = l then x else S.get r' l' }

/-- `map.insert({k, v})`: keeps an existing entry. -/
def insertNew {β : Type} (m : List (ℕ × β)) (k : ℕ) (v : β) : List (ℕ × β) :=
  if (m.lookup k).isSome then m else m ++ [(k, v)]

/-- `partition.cpp` lines 120-122: rank and local number of the element's partition. -/
def place (e2p : List (ℕ × ℕ)) (rr : RR) (id : ℕ) : Res (ℕ × ℕ) := do
  let p ← atKey e2p id
  pure ((rr.p2r.lookup p).getD 0, rr.p2l p)

/-- `partition.cpp` lines 128-130. -/
def addNodes (nodes : List (ℕ × N)) (m : List (ℕ × N)) (ids : List ℕ) : Res (List (ℕ × N)) :=
  ids.foldlM (fun m id => do let x ← atKey nodes id; pure (upsert m id x)) m

/-- `partition.cpp` lines 119-131: one element. -/
def addElt (e2p : List (ℕ × ℕ)) (rr : RR) (nodes : List (ℕ × N)) (S : Subs N) (elt : ℕ × Elt) : Res (Subs N) := do
  let (r, l) ← place e2p rr elt.1
  if S.has r l then
    let x := S.get r l
    let nds ← addNodes nodes x.nodes elt.2.nodes
    pure (S.put r l ⟨insertNew x.elements elt.1 elt.2, nds⟩)
  else .error .ub

/-- `curr_elt.boundary_type[k] = distributed(curr_elt.boundary_type[k])` for the faces `k < 3` whose neighbour is `nb`
(`partition.cpp` lines 147-152, 154-159). The neighbours are those of the unpartitioned mesh. -/
def markFaces (nbr : List ℕ) (nb : ℕ) (e : Elt) : Elt :=
  { e with btype := e.btype.mapIdx fun k b => if k < 3 ∧ nbr[k]? = some nb then distributed b else b }

/-- `partition.cpp` lines 147-152: mark the faces of element `a` towards `b`. `elements.at` may throw. -/
def markSide (e2p : List (ℕ × ℕ)) (rr : RR) (els : Elts) (a b : ℕ) (S : Subs N) : Res (Subs N) := do
  let (r, l) ← place e2p rr a
  let e ← atKey els a
  if e.nbr.length < 3 then .error .ub
  else if b ∈ e.nbr.take 3 then
    if S.has r l then
      let x := S.get r l
      let _ ← atKey x.elements a
      pure (S.put r l { x with elements := x.elements.map fun (i, y) => if i = a then (i, markFaces e.nbr b y) else (i, y) })
    else .error .ub
  else pure S

/-- `partition.cpp` lines 135-161: one edge of the element graph. -/
def splitEdge (e2p : List (ℕ × ℕ)) (rr : RR) (els : Elts) (S : Subs N) (edg : ℕ × ℕ) : Res (Subs N) := do
  let pa ← atKey e2p edg.1
  let pb ← atKey e2p edg.2
  if pa ≠ pb then
    let S ← markSide e2p rr els edg.1 edg.2 S
    markSide e2p rr els edg.2 edg.1 S
  else pure S

/-- An unordered pair as a key. -/
def pairKey (a b : ℕ) : ℕ × ℕ := (min a b, max a b)

/-- `partition.cpp` lines 22-28: the keys that one element adds to `edge_weights`. -/
def eltEdges (x : ℕ × Elt) : List (ℕ × ℕ) := (x.2.nbr.filter (· ≠ DEFAULT_ID)).map (pairKey x.1)

/-- `partition.cpp` lines 17-29: the keys of `edge_weights`, without repetition. -/
def edgeKeys (els : Elts) : List (ℕ × ℕ) := (els.flatMap eltEdges).dedup

/-- `partition.cpp` lines 96-162, given `elt2partition`, `partition2node` (iteration order `nodeOrder`) and the iteration
order `edgeOrder` of `edge_weights`. -/
def partition (els : Elts) (nodes : List (ℕ × N)) (e2p : List (ℕ × ℕ)) (numParts numNodes rpl : ℕ)
    (nodeOrder : List (ℕ × ℕ)) (edgeOrder : List (ℕ × ℕ)) : Res (Subs N) := do
  let rr ← roundRobin numParts numNodes rpl nodeOrder
  let S0 : Subs N := ⟨numNodes * rpl, rr.partCtr, fun _ _ => ⟨[], []⟩⟩
  let S1 ← els.foldlM (addElt e2p rr nodes) S0
  edgeOrder.foldlM (splitEdge e2p rr els) S1

end

/-! ### Distributed interfaces -/

/-- `write_distributed_interfaces.cpp` lines 16-24, 29-34: the names of the internal faces of some elements. -/
def internalFaces (els : Elts) : List (ℕ × ℕ) :=
  els.flatMap fun x => ((x.2.nbr.zip x.2.btype).filter fun y => isInternal y.2).map fun y => pairKey x.1 y.1

/-- `write_distributed_interfaces.cpp` lines 14-38: internal faces of the mesh that are not internal to a submesh. -/
def cutFaces (els : Elts) (subs : List (List Elts)) : List (ℕ × ℕ) :=
  (internalFaces els).dedup.filter fun f => !(subs.any fun row => row.any fun s => decide (f ∈ internalFaces s))

/-- `write_distributed_interfaces.cpp` lines 26-28: `elt2partition.insert({id, loc + num_loc * sub})`. -/
def rankOf (subs : List (List Elts)) : List (ℕ × ℕ) :=
  (subs.zipIdx.flatMap fun (row, loc) => row.zipIdx.flatMap fun (s, sub) => s.map fun x => (x.1, loc + subs.length * sub)).foldl
    (fun m x => insertNew m x.1 x.2) []

/-- `write_distributed_interfaces.cpp` lines 49-54: the last face whose neighbour is `nb`; `DEFAULT_ID` if none. -/
def lastFace (nbr : List ℕ) (nb : ℕ) : ℕ :=
  nbr.zipIdx.foldl (fun r x => if nb = x.1 then x.2 else r) DEFAULT_ID

/-- `write_distributed_interfaces.cpp` lines 42-80: one cut face. -/
def addFace (els : Elts) (rk : List (ℕ × ℕ)) (p : ℕ) (m : List ((ℕ × ℕ) × List DBPair)) (f : ℕ × ℕ) :
    Res (List ((ℕ × ℕ) × List DBPair)) := do
  let rA ← atKey rk f.1
  let rB ← atKey rk f.2
  let eA ← atKey els f.1
  let eB ← atKey els f.2
  let fA := lastFace eA.nbr f.2
  let fB := lastFace eB.nbr f.1
  let x : DBPair := if rA > rB then ⟨f.2, f.1, fB, fA, p⟩ else ⟨f.1, f.2, fA, fB, p⟩
  let key := pairKey rA rB
  pure (upsert m key ((m.lookup key).getD [] ++ [x]))

/-- `write_distributed_interfaces.cpp` lines 83-106: the blocks written for submesh `(loc, sub)`. `shared` is
`shared_faces` in iteration order. -/
def fileOf (numLoc loc sub : ℕ) (shared : List ((ℕ × ℕ) × List DBPair)) : List Block :=
  shared.filterMap fun sf =>
    let locA := sf.1.1 % numLoc
    let subA := sf.1.1 / numLoc
    let locB := sf.1.2 % numLoc
    let subB := sf.1.2 / numLoc
    if (locA = loc ∧ subA = sub) ∨ (locB = loc ∧ subB = sub) then some ⟨(locA, subA), (locB, subB), sf.2⟩ else none

/-- `write_distributed_interfaces.cpp` lines 14-81: `shared_faces`; `order` is the set `faces` in iteration order. -/
def sharedFaces (els : Elts) (subs : List (List Elts)) (p : ℕ) (order : List (ℕ × ℕ)) :
    Res (List ((ℕ × ℕ) × List DBPair)) :=
  order.foldlM (addFace els (rankOf subs) p) []

/-! ### File names -/

/-- `s.substr(0, s.find_last_of("."))`: without a dot, the whole string. -/
def stem (s : List Char) : List Char := if '.' ∈ s then (s.reverse.dropWhile (· ≠ '.')).tail.reverse else s

/-- `s.substr(s.find_last_of('.'))`; without a dot `find_last_of` is `npos` and `substr` throws. -/
def dotPart (s : List Char) : Res (List Char) :=
  if '.' ∈ s then .ok ('.' :: (s.reverse.takeWhile (· ≠ '.')).reverse) else .error .exc

/-- `_n_m`. -/
def suffix (n m : ℕ) : List Char := '_' :: dec n ++ '_' :: dec m

/-- `partitioner.cpp` lines 88-92. -/
def metaName (mesh : List Char) (n m : ℕ) : List Char := stem mesh ++ suffix n m ++ ".meta".toList

/-- `write_distributed_interfaces.cpp` lines 85-89. -/
def dbmdName (mesh : List Char) (n m : ℕ) : List Char := stem mesh ++ suffix n m ++ ".dbmd".toList

/-- `partitioner.cpp` lines 106-107: the mesh name in the input file for the parallel run. -/
def updatedMesh (mesh : List Char) : List Char := stem mesh ++ ".meta".toList

/-- `simulation_ompi.hpp` lines 41-49: the file looked for by rank `loc`. -/
def simMesh (mesh : List Char) (loc sub : ℕ) : Res (List Char) := do
  let p ← dotPart mesh
  pure (stem mesh ++ '_' :: dec loc ++ ['_'] ++ dec sub ++ p)

/-- `s.insert(s.find_last_of("."), t)`; without a dot `insert` throws (`npos` is out of range). -/
def insertBeforeDot (s t : List Char) : Res (List Char) := do
  let p ← dotPart s
  pure (stem s ++ t ++ p)

/-- `input_parameters.hpp` lines 120-123: the `.dbmd` name derived from the mesh name. -/
def dbName (mesh : List Char) : List Char := stem mesh ++ ".dbmd".toList

/-- `input_parameters.hpp` lines 268-272: the names used by simulation unit `(loc, sub)`. -/
def unitMesh (mesh : List Char) (loc sub : ℕ) : Res (List Char) := insertBeforeDot mesh (suffix loc sub)
/-- See `unitMesh`. -/
def unitDb (mesh : List Char) (loc sub : ℕ) : Res (List Char) := insertBeforeDot (dbName mesh) (suffix loc sub)

/-- `simulation_ompi.hpp` lines 47-53: the loop that creates simulation units while files exist; `fuel` bounds the number
of iterations, `none` = still files left. -/
def discover (exists_ : ℕ → Bool) : ℕ → ℕ → Option ℕ
  | 0, sub => if exists_ sub then none else some sub
  | fuel + 1, sub => if exists_ sub then discover exists_ fuel (sub + 1) else some sub

end Verif.Partition
