import Verif.Model.Basic
import Mathlib.Data.Nat.Notation

/-!
# Model of the fort.14 mesh file class

Models `source/preprocessor/ADCIRC_reader/adcirc_format.{hpp,cpp}`.

Simplifications: the file is a list of lines, each a list of tokens (white space and the 1000-character limit of
`ignore` are not modelled); numbers are printed and read exactly; the hash maps `nodes`, `elements` are lists in iteration
order; the four parallel maps of an internal barrier (`IBCONN`, `BARINTH`, `BARINCFSB`, `BARINCFSP`) are one map of
records. A token of the wrong kind makes the stream fail silently in C++; the model reports `none`.
-/

namespace Verif.Adcirc

/-- `swe_definitions.hpp` `BoundaryTypes`. -/
def land : ℕ := 0
def tide : ℕ := 1
def flow : ℕ := 2
def function : ℕ := 3
def outflow : ℕ := 4
def internal : ℕ := 128
def levee : ℕ := 129

/-- One line of an internal barrier: `IBCONN`, `BARINTH`, `BARINCFSB`, `BARINCFSP` (`adcirc_format.hpp` lines 27-30). -/
structure Bar (R : Type) where
  ibconn : ℕ
  h : R
  csb : R
  csp : R
deriving DecidableEq

/-- `adcirc_format.hpp` lines 8-37. `gen` is `none` as long as `NGEN`, `NNGN` are uninitialised. `W` is the type of words. -/
structure Fort14 (W R : Type) where
  name : W
  nodes : List (ℕ × R × R × R)
  elements : List (ℕ × ℕ × ℕ × ℕ × ℕ)
  NOPE : ℕ
  NETA : ℕ
  NBDV : List (List ℕ)
  NBOU : ℕ
  NVEL : ℕ
  IBTYPE : List ℕ
  NBVV : List (List ℕ)
  BAR : List (ℕ × List (Bar R))
  gen : Option (ℕ × ℕ)
  NBGN : List (List ℕ)
deriving DecidableEq

/-! ### Classification of boundary edges -/

/-- `adcirc_format.cpp` lines 312-336 (`has_edge`). The recursion on the tail restarts with `cbegin = it + 1`, so that the
element before the new `cbegin` is not inspected: `prev` is the element before the current one *within the range*. -/
def hasEdge (p0 p1 : ℕ) : Option ℕ → List ℕ → Bool
  | _, [] => false
  | prev, x :: xs =>
    if x = p0 then (xs.head? == some p1) || (prev == some p1) || hasEdge p0 p1 none xs
    else hasEdge p0 p1 (some x) xs

/-- `IBCONN.at(segment_id)` as a vector of nodes. -/
def ibconnOf {R : Type} (bar : List (ℕ × List (Bar R))) (seg : ℕ) : Res (List ℕ) :=
  (atKey bar seg).map (·.map Bar.ibconn)

/-- `adcirc_format.cpp` lines 221-244: the loop over land boundary segments from `seg` on; `fuel` = number of segments
left. -/
def segmentType {R : Type} (IBTYPE : List ℕ) (NBVV : List (List ℕ)) (bar : List (ℕ × List (Bar R))) (p0 p1 : ℕ) :
    ℕ → ℕ → Res (Option ℕ)
  | 0, _ => .ok none
  | fuel + 1, seg => do
    let ty ← idx IBTYPE seg
    let nb ← idx NBVV seg
    if ty % 10 = 0 then
      if hasEdge p0 p1 none nb then return some land
    else if ty % 10 = 2 then
      if hasEdge p0 p1 none nb then return some flow
    else if ty % 10 = 4 then
      if hasEdge p0 p1 none nb then return some levee
      let ib ← ibconnOf bar seg
      if hasEdge p0 p1 none ib then return some levee
    else if ty = 77 then
      if hasEdge p0 p1 none nb then return some function
    else if ty = 88 then
      if hasEdge p0 p1 none nb then return some outflow
    segmentType IBTYPE NBVV bar p0 p1 fuel (seg + 1)

/-- `*cbegin()`, `*(cend() - 1)`: undefined on an empty vector. -/
def firstOf (l : List ℕ) : Res ℕ := idx l 0
def lastOf (l : List ℕ) : Res ℕ := match l.getLast? with | some x => .ok x | none => .error .ub

/-- `adcirc_format.cpp` lines 338-354 (`is_levee_end`). -/
def leveeEnd {R : Type} (IBTYPE : List ℕ) (NBVV : List (List ℕ)) (bar : List (ℕ × List (Bar R))) (p0 p1 : ℕ) :
    ℕ → ℕ → Res Bool
  | 0, _ => .ok false
  | fuel + 1, seg => do
    let ty ← idx IBTYPE seg
    if ty % 10 = 4 then
      let nb ← idx NBVV seg
      let ib ← ibconnOf bar seg
      let a ← firstOf nb
      let b ← firstOf ib
      if min p0 p1 = min a b ∧ max p0 p1 = max a b then return true
      let c ← lastOf nb
      let d ← lastOf ib
      if min p0 p1 = min c d ∧ max p0 p1 = max c d then return true
    leveeEnd IBTYPE NBVV bar p0 p1 fuel (seg + 1)

/-- `adcirc_format.cpp` lines 214-258 (`get_ibtype`). -/
def getIbtype {W R : Type} (m : Fort14 W R) (p0 p1 : ℕ) : Res ℕ := do
  if m.NBDV.any (hasEdge p0 p1 none) then return tide
  match ← segmentType m.IBTYPE m.NBVV m.BAR p0 p1 m.NBOU 0 with
  | some t => return t
  | none =>
    if m.NBGN.any (hasEdge p0 p1 none) then return land
    if ← leveeEnd m.IBTYPE m.NBVV m.BAR p0 p1 m.NBOU 0 then return land
    .error .exc

/-- `adcirc_format.cpp` lines 274-282 (= 293-301): the loop over the inner nodes; `fuel` = iterations left. -/
def innerPair (a b : List ℕ) (p0 p1 : ℕ) : ℕ → ℕ → Res (Option (ℕ × ℕ))
  | 0, _ => .ok none
  | fuel + 1, node => do
    let x ← idx a node
    if x = p0 then
      let y ← idx a (node + 1)
      if y = p1 then
        return some (← idx b (node + 1), ← idx b node)
      let z ← idx a (node - 1)
      if z = p1 then
        return some (← idx b (node - 1), ← idx b node)
    innerPair a b p0 p1 fuel (node + 1)

/-- `adcirc_format.cpp` lines 270-286 (= 289-305 with the roles exchanged): look for the pair on one side `a` of a barrier
with `n` nodes, return the opposite pair on `b`. The `uint` subtractions `n - 1`, `n - 2` wrap for `n < 2`; the index is
then out of range. -/
def sidePair (n : ℕ) (a b : List ℕ) (p0 p1 : ℕ) : Res (Option (ℕ × ℕ)) := do
  let a0 ← idx a 0
  if a0 = p0 then
    let a1 ← idx a 1
    if a1 = p1 then
      return some (← idx b 1, ← idx b 0)
  match ← innerPair a b p0 p1 (n - 2) 1 with
  | some r => return some r
  | none =>
    let al ← idx a ((n + 2 ^ 32 - 1) % 2 ^ 32)
    if al = p0 then
      let am ← idx a ((n + 2 ^ 32 - 2) % 2 ^ 32)
      if am = p1 then
        return some (← idx b ((n + 2 ^ 32 - 2) % 2 ^ 32), ← idx b ((n + 2 ^ 32 - 1) % 2 ^ 32))
    return none

/-- `adcirc_format.cpp` lines 260-310 (`get_internal_node_pair`): loop over the barriers in map order. -/
def internalPair (NBVV : List (List ℕ)) (p0 p1 : ℕ) : List (ℕ × List ℕ) → Res (ℕ × ℕ)
  | [] => .error .exc
  | (seg, ib) :: rest => do
    let nb ← idx NBVV seg
    match ← sidePair nb.length nb ib p0 p1 with
    | some r => return r
    | none =>
      match ← sidePair nb.length ib nb p0 p1 with
      | some r => return r
      | none => internalPair NBVV p0 p1 rest

/-- `get_internal_node_pair` on the file. -/
def getInternalNodePair {W R : Type} (m : Fort14 W R) (p0 p1 : ℕ) : Res (ℕ × ℕ) :=
  internalPair m.NBVV p0 p1 (m.BAR.map fun b => (b.1, b.2.map Bar.ibconn))

/-! ### Files -/

/-- A token of a file: unsigned number, real number, word. -/
inductive Tok (W R : Type) where
  | nat (n : ℕ)
  | real (x : R)
  | word (w : W)
deriving DecidableEq

/-- A stream: the rest of the current line followed by the remaining lines. -/
abbrev Stream (W R : Type) := List (List (Tok W R))

section io
variable {W R : Type}

/-- `ifs >> x`: next token, skipping line ends. -/
def nextTok : Stream W R → Option (Tok W R × Stream W R)
  | [] => none
  | [] :: ls => nextTok ls
  | (t :: ts) :: ls => some (t, ts :: ls)

/-- `ifs.ignore(1000, '\n')`: drop the rest of the current line. -/
def ignoreLine : Stream W R → Stream W R
  | [] => []
  | _ :: ls => ls

/-- `ifs >> uint`. -/
def rdNat (s : Stream W R) : Option (ℕ × Stream W R) :=
  match nextTok s with
  | some (.nat n, s) => some (n, s)
  | _ => none

/-- `ifs >> double`. -/
def rdReal (s : Stream W R) : Option (R × Stream W R) :=
  match nextTok s with
  | some (.real n, s) => some (n, s)
  | _ => none

/-- `ifs >> std::string`. -/
def rdWord (s : Stream W R) : Option (W × Stream W R) :=
  match nextTok s with
  | some (.word n, s) => some (n, s)
  | _ => none

/-- `n` repetitions of a record reader (`for` loop). -/
def rdMany {α : Type} (rd : Stream W R → Option (α × Stream W R)) : ℕ → Stream W R → Option (List α × Stream W R)
  | 0, s => some ([], s)
  | n + 1, s => do
    let (x, s) ← rd s
    let (xs, s) ← rdMany rd n s
    pure (x :: xs, s)

/-- `adcirc_format.cpp` lines 24-29: a node record. -/
def rdNode (s : Stream W R) : Option ((ℕ × R × R × R) × Stream W R) := do
  let (i, s) ← rdNat s
  let (x, s) ← rdReal s
  let (y, s) ← rdReal s
  let (z, s) ← rdReal s
  pure ((i, x, y, z), ignoreLine s)

/-- `adcirc_format.cpp` lines 38-43: an element record. -/
def rdElement (s : Stream W R) : Option ((ℕ × ℕ × ℕ × ℕ × ℕ) × Stream W R) := do
  let (i, s) ← rdNat s
  let (a, s) ← rdNat s
  let (b, s) ← rdNat s
  let (c, s) ← rdNat s
  let (d, s) ← rdNat s
  pure ((i, a, b, c, d), ignoreLine s)

/-- `ifs >> n; ifs.ignore(1000, '\n')`. -/
def rdNatLine (s : Stream W R) : Option (ℕ × Stream W R) := do
  let (n, s) ← rdNat s
  pure (n, ignoreLine s)

/-- `adcirc_format.cpp` lines 56-62 (= 138-144): a list of nodes with its length. -/
def rdNodeList (s : Stream W R) : Option (List ℕ × Stream W R) := do
  let (n, s) ← rdNatLine s
  rdMany rdNatLine n s

/-- `adcirc_format.cpp` lines 96-101: a line of an internal barrier. -/
def rdBarLine (s : Stream W R) : Option ((ℕ × Bar R) × Stream W R) := do
  let (n, s) ← rdNat s
  let (c, s) ← rdNat s
  let (h, s) ← rdReal s
  let (sb, s) ← rdReal s
  let (sp, s) ← rdReal s
  pure ((n, ⟨c, h, sb, sp⟩), ignoreLine s)

/-- `adcirc_format.cpp` lines 80-119: which codes the reader accepts. -/
def accepted (ty : ℕ) : Bool :=
  ty % 10 == 0 || ty % 10 == 1 || ty % 10 == 2 || ty % 10 == 4 || ty == 77 || ty == 88

/-- A land boundary segment: code, nodes, barrier data (only for codes `≡ 4 (mod 10)`). -/
structure Seg (R : Type) where
  ty : ℕ
  nodes : List ℕ
  bar : Option (List (Bar R))
deriving DecidableEq

/-- `adcirc_format.cpp` lines 76-118. `none` also for the `std::logic_error` of line 116. -/
def rdSeg (s : Stream W R) : Option (Seg R × Stream W R) := do
  let (n, s) ← rdNat s
  let (ty, s) ← rdNat s
  let s := ignoreLine s
  if ty % 10 = 0 ∨ ty % 10 = 1 ∨ ty % 10 = 2 then
    let (l, s) ← rdMany rdNatLine n s
    pure (⟨ty, l, none⟩, s)
  else if ty % 10 = 4 then
    let (l, s) ← rdMany rdBarLine n s
    pure (⟨ty, l.map Prod.fst, some (l.map Prod.snd)⟩, s)
  else if ty = 77 then
    let (l, s) ← rdMany rdNatLine n s
    pure (⟨ty, l, none⟩, s)
  else if ty = 88 then
    let (l, s) ← rdMany rdNatLine n s
    pure (⟨ty, l, none⟩, s)
  else none

/-- The barrier maps filled by the loop of lines 75-119 (keys are the segment numbers). -/
def barMap (segs : List (Seg R)) (start : ℕ) : List (ℕ × List (Bar R)) :=
  match segs with
  | [] => []
  | sg :: rest => (match sg.bar with | some b => [(start, b)] | none => []) ++ barMap rest (start + 1)

/-- `adcirc_format.cpp` lines 122-146: the optional generic boundaries; a blank line or the end of the file means there
are none and leaves `NGEN`, `NNGN` uninitialised. -/
def rdGeneric (s : Stream W R) : Option (Option (ℕ × ℕ) × List (List ℕ)) :=
  match s with
  | [] => some (none, [])
  | [] :: _ => some (none, [])
  | (.nat ngen :: _) :: s => do
    let (nngn, s) ← rdNatLine s
    let (l, _) ← rdMany rdNodeList ngen s
    pure (some (ngen, nngn), l)
  | _ :: _ => none

/-- `std::unordered_map::insert` of lines 28 and 42, in sequence: an id that is already present keeps its first record
(the `assert`s of lines 27 and 41, which abort a debug build, are not modelled). -/
def insertAll {β : Type} (acc : List (ℕ × β)) : List (ℕ × β) → List (ℕ × β)
  | [] => acc
  | x :: xs => if x.1 ∈ acc.map Prod.fst then insertAll acc xs else insertAll (acc ++ [x]) xs

/-- `adcirc_format.cpp` lines 3-149: the reading constructor. -/
def read (s : Stream W R) : Option (Fort14 W R) := do
  let (name, s) ← rdWord s
  let s := ignoreLine s
  let (nel, s) ← rdNat s
  let (nno, s) ← rdNat s
  let s := ignoreLine s
  let (nodes, s) ← rdMany rdNode nno s
  let (elements, s) ← rdMany rdElement nel s
  let (nope, s) ← rdNatLine s
  let (neta, s) ← rdNatLine s
  let (nbdv, s) ← rdMany rdNodeList nope s
  let (nbou, s) ← rdNatLine s
  let (nvel, s) ← rdNatLine s
  let (segs, s) ← rdMany rdSeg nbou s
  let (gen, nbgn) ← rdGeneric s
  pure { name := name, nodes := insertAll [] nodes, elements := insertAll [] elements, NOPE := nope, NETA := neta, NBDV := nbdv, NBOU := nbou,
         NVEL := nvel, IBTYPE := segs.map Seg.ty, NBVV := segs.map Seg.nodes, BAR := barMap segs 0, gen := gen, NBGN := nbgn }

/-- `adcirc_format.cpp` lines 188-201: lines of one segment, from its `i`-th node on. An unknown code writes nothing. -/
def wrSegLines (ty seg : ℕ) (nb : List ℕ) (bar : List (ℕ × List (Bar R))) : ℕ → ℕ → Res (List (List (Tok W R)))
  | 0, _ => .ok []
  | fuel + 1, i => do
    let n ← idx nb i
    let rest ← wrSegLines ty seg nb bar fuel (i + 1)
    if ty % 10 = 0 ∨ ty % 10 = 1 ∨ ty % 10 = 2 then return [.nat n] :: rest
    else if ty % 10 = 4 then
      let b ← atKey bar seg
      let x ← idx b i
      return [.nat n, .nat x.ibconn, .real x.h, .real x.csb, .real x.csp] :: rest
    else if ty = 77 then return [.nat n] :: rest
    else if ty = 88 then return [.nat n] :: rest
    else return rest

/-- `adcirc_format.cpp` lines 185-202: all segments from number `seg` on. Trailing comments (words) of the lines are left
out: the reader ignores the rest of these lines. -/
def wrSegs (IBTYPE : List ℕ) (NBVV : List (List ℕ)) (bar : List (ℕ × List (Bar R))) : ℕ → ℕ → Res (List (List (Tok W R)))
  | 0, _ => .ok []
  | fuel + 1, seg => do
    let ty ← idx IBTYPE seg
    let nb ← idx NBVV seg
    let ls ← wrSegLines ty seg nb bar nb.length 0
    let rest ← wrSegs IBTYPE NBVV bar fuel (seg + 1)
    return ([.nat nb.length, .nat ty] :: ls) ++ rest

/-- `adcirc_format.cpp` lines 176-181 (= 206-211): node lists `n`, `n+1`, … -/
def wrNodeLists (l : List (List ℕ)) : ℕ → ℕ → Res (List (List (Tok W R)))
  | 0, _ => .ok []
  | fuel + 1, n => do
    let x ← idx l n
    let rest ← wrNodeLists l fuel (n + 1)
    return ([.nat x.length] :: x.map fun i => [.nat i]) ++ rest

/-- `adcirc_format.cpp` lines 151-212 (`write_to`). Printing the uninitialised `NGEN` is undefined behaviour. -/
def write (m : Fort14 W R) : Res (Stream W R) := do
  let open_ ← wrNodeLists m.NBDV m.NOPE 0
  let segs ← wrSegs m.IBTYPE m.NBVV m.BAR m.NBOU 0
  match m.gen with
  | none => .error .ub
  | some (ngen, nngn) =>
    let gen ← wrNodeLists m.NBGN ngen 0
    return [[.word m.name], [.nat m.elements.length, .nat m.nodes.length]] ++
      (m.nodes.map fun (i, x, y, z) => [.nat i, .real x, .real y, .real z]) ++
      (m.elements.map fun (i, a, b, c, d) => [.nat i, .nat a, .nat b, .nat c, .nat d]) ++
      [[.nat m.NOPE], [.nat m.NETA]] ++ open_ ++ [[.nat m.NBOU], [.nat m.NVEL]] ++ segs ++
      [[.nat ngen], [.nat nngn]] ++ gen

end io

end Verif.Adcirc
