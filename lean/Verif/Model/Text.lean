import Verif.Model.Util
import Verif.Model.MeshMeta

/-!
# Model of formatted text input and of the metadata files

Models the parts of `std::istream` / `std::ostream` that `mesh_metadata.{hpp,cpp}` and
`write_distributed_interfaces.cpp` rely on, at the level of characters (one `Char` per byte), the `.meta` file and the
`.dbmd` file.

Simplifications: a failed extraction is the outcome `none` (`Fail.ub` in `readDbmd`), since the code then goes on with
unspecified values; signs before unsigned numbers are failures; a `double` is read from a whole whitespace-delimited word by
an abstract parser and written by an abstract printer (`Codec`).
-/

namespace Verif.Text
open Verif Verif.Util

/-- `std::isspace` in the "C" locale: tab, newline, vertical tab, form feed, carriage return, space. -/
def isWs (c : Char) : Bool := c.toNat == 32 || (decide (9 ≤ c.toNat) && decide (c.toNat ≤ 13))

/-- Decimal digit. -/
def isDig (c : Char) : Bool := decide (48 ≤ c.toNat) && decide (c.toNat ≤ 57)

/-- `is >> x` for a `uint`: skip white space, take digits; fails without a digit or on overflow. -/
def rdUint (s : List Char) : Option (ℕ × List Char) :=
  let s := s.dropWhile isWs
  let ds := s.takeWhile isDig
  let v := ds.foldl (fun a c => 10 * a + (c.toNat - 48)) 0
  if ds = [] then none else if v < 2 ^ 32 then some (v, s.dropWhile isDig) else none

/-- `is >> c` for an `uchar`: skip white space, take one byte. -/
def rdChar (s : List Char) : Option (Char × List Char) :=
  match s.dropWhile isWs with
  | [] => none
  | c :: t => some (c, t)

/-- `is >> str`. -/
def rdWord (s : List Char) : Option (List Char × List Char) :=
  let s := s.dropWhile isWs
  let w := s.takeWhile (fun c => !isWs c)
  if w = [] then none else some (w, s.dropWhile (fun c => !isWs c))

/-- `is.ignore(n, '\n')`. -/
def ignore : ℕ → List Char → List Char
  | 0, s => s
  | _, [] => []
  | n + 1, c :: t => if c = '\n' then t else ignore n t

/-- `std::getline(is, line)`; `none` = the stream is at its end. -/
def getline (s : List Char) : Option (List Char × List Char) :=
  if s = [] then none else some (s.takeWhile (· ≠ '\n'), (s.dropWhile (· ≠ '\n')).tail)

/-- `n` reads in a row (`for` loops around `>>`). -/
def rdMany {α : Type} (r : List Char → Option (α × List Char)) : ℕ → List Char → Option (List α × List Char)
  | 0, s => some ([], s)
  | n + 1, s => do
    let (x, s) ← r s
    let (xs, s) ← rdMany r n s
    pure (x :: xs, s)

/-- Printing and parsing of `double`s (`setprecision(15)`, `operator>>`). -/
structure Codec (D : Type) where
  pr : D → List Char
  parse : List Char → Option D

/-- `is >> x` for a `double`. -/
def rdDouble {D : Type} (C : Codec D) (s : List Char) : Option (D × List Char) := do
  let (w, s) ← rdWord s
  let x ← C.parse w
  pure (x, s)

/-! ### The `.meta` file -/

/-- `m[k] = v` for a map. -/
def upsert {α β : Type} [BEq α] (m : List (α × β)) (k : α) (v : β) : List (α × β) :=
  if (m.lookup k).isSome then m.map fun x => if x.1 == k then (x.1, v) else x else m ++ [(k, v)]

/-- `mesh_metadata.hpp` lines 80-92. -/
structure Meta (D : Type) where
  name : List Char
  elements : MeshMeta.Elts
  nodes : List (ℕ × (D × D × D))

/-- A space and a number. -/
def spDec (n : ℕ) : List Char := ' ' :: dec n

/-- A space and a byte. -/
def spByte (b : ℕ) : List Char := [' ', Char.ofNat b]

/-- `mesh_metadata.hpp` lines 34-49: `operator<<(ElementMetaData)`; boundary types are written as raw bytes. -/
def wrElt (e : MeshMeta.Elt) : List Char :=
  dec e.nodes.length ++ e.nodes.flatMap spDec ++ e.nbr.flatMap spDec ++ e.btype.flatMap spByte

/-- `mesh_metadata.hpp` lines 51-72. -/
def rdElt (s : List Char) : Option (MeshMeta.Elt × List Char) := do
  let (n, s) ← rdUint s
  let (nodes, s) ← rdMany rdUint n s
  let (nbr, s) ← rdMany rdUint n s
  let (bt, s) ← rdMany rdChar n s
  pure (⟨nodes, nbr, bt.map Char.toNat⟩, s)

/-- `mesh_metadata.hpp` lines 11-14. -/
def wrNode {D : Type} (C : Codec D) (p : D × D × D) : List Char :=
  C.pr p.1 ++ ' ' :: C.pr p.2.1 ++ ' ' :: C.pr p.2.2

/-- `mesh_metadata.hpp` lines 16-18. -/
def rdNode {D : Type} (C : Codec D) (s : List Char) : Option ((D × D × D) × List Char) := do
  let (x, s) ← rdDouble C s
  let (y, s) ← rdDouble C s
  let (z, s) ← rdDouble C s
  pure ((x, y, z), s)

/-- `ofs << k << " " << v << '\n'` (`mesh_metadata.cpp` lines 126, 131). -/
def wrLine {β : Type} (wr : β → List Char) (x : ℕ × β) : List Char := dec x.1 ++ ' ' :: wr x.2 ++ ['\n']

/-- `ifs >> k; ifs >> map[k]; ifs.ignore(1000, '\n')` (`mesh_metadata.cpp` lines 101-103, 111-113). -/
def rdLine {β : Type} (rd : List Char → Option (β × List Char)) (s : List Char) : Option ((ℕ × β) × List Char) := do
  let (k, s) ← rdUint s
  let (v, s) ← rd s
  pure ((k, v), ignore 1000 s)

/-- `mesh_metadata.cpp` lines 119-135: `write_to`. -/
def wrMeta {D : Type} (C : Codec D) (m : Meta D) : List Char :=
  m.name ++ '\n' ::
  (dec m.elements.length ++ " = number of elements\n".toList ++ m.elements.flatMap (wrLine wrElt) ++
  (dec m.nodes.length ++ " = number of nodes\n".toList ++ m.nodes.flatMap (wrLine (wrNode C))))

/-- `mesh_metadata.cpp` lines 87-117. -/
def rdMeta {D : Type} (C : Codec D) (s : List Char) : Option (Meta D) := do
  let (name, s) ← rdWord s
  let s := ignore 1000 s
  let (ne, s) ← rdUint s
  let s := ignore 1000 s
  let (els, s) ← rdMany (rdLine rdElt) ne s
  let (nn, s) ← rdUint s
  let s := ignore 1000 s
  let (nds, _) ← rdMany (rdLine (rdNode C)) nn s
  pure ⟨name, els.foldl (fun m x => upsert m x.1 x.2) [], nds.foldl (fun m x => upsert m x.1 x.2) []⟩

/-! ### The `.dbmd` file -/

/-- `mesh_metadata.hpp` lines 94-97 (`DBPairMetaData`). -/
structure DBPair where
  elA : ℕ
  elB : ℕ
  bdA : ℕ
  bdB : ℕ
  p : ℕ
deriving DecidableEq, Repr

/-- One block of the file: the two submeshes (locality, submesh) and the shared faces. -/
structure Block where
  A : ℕ × ℕ
  B : ℕ × ℕ
  pairs : List DBPair
deriving DecidableEq, Repr

/-- `mesh_metadata.hpp` lines 99-102. -/
def wrPair (x : DBPair) : List Char :=
  dec x.elA ++ spDec x.elB ++ spDec x.bdA ++ spDec x.bdB ++ spDec x.p ++ ['\n']

/-- `write_distributed_interfaces.cpp`: header line and the pairs. -/
def wrBlock (b : Block) : List Char :=
  dec b.A.1 ++ spDec b.A.2 ++ spDec b.B.1 ++ spDec b.B.2 ++ spDec b.pairs.length ++ ['\n'] ++ b.pairs.flatMap wrPair

/-- `mesh_metadata.hpp` lines 110-124 (`RankBoundaryMetaData`). -/
structure RankBoundary where
  locIn : ℕ
  locEx : ℕ
  subIn : ℕ
  subEx : ℕ
  elIn : List ℕ
  elEx : List ℕ
  bdIn : List ℕ
  bdEx : List ℕ
  p : List ℕ
deriving DecidableEq, Repr

/-- `mesh_metadata.hpp` lines 104-107 and `mesh_metadata.cpp` lines 198-200. -/
def rdPair (s : List Char) : Option (DBPair × List Char) := do
  let (e1, s) ← rdUint s
  let (e2, s) ← rdUint s
  let (b1, s) ← rdUint s
  let (b2, s) ← rdUint s
  let (p, s) ← rdUint s
  pure (⟨e1, e2, b1, b2, p⟩, ignore 1000 s)

/-- `mesh_metadata.cpp` lines 163-165: the header. -/
def rdHeader (line : List Char) : Option ((ℕ × ℕ) × (ℕ × ℕ) × ℕ) := do
  let (la, s) ← rdUint line
  let (sa, s) ← rdUint s
  let (lb, s) ← rdUint s
  let (sb, s) ← rdUint s
  let (n, _) ← rdUint s
  pure ((la, sa), (lb, sb), n)

/-- `mesh_metadata.cpp` lines 169-184: which side the reader is on. -/
def pickSide (me A B : ℕ × ℕ) : Res ((ℕ × ℕ) × (ℕ × ℕ)) :=
  if A.1 = me.1 ∧ A.2 = me.2 then .ok (A, B)
  else if B.1 = me.1 ∧ B.2 = me.2 then .ok (B, A)
  else .error .exc

/-- `mesh_metadata.cpp` lines 195-218: one iteration of the loop over the pairs. -/
def pushPair (me A : ℕ × ℕ) (r : RankBoundary) (x : DBPair) : RankBoundary :=
  if A.1 = me.1 ∧ A.2 = me.2 then
    { r with elIn := r.elIn ++ [x.elA], elEx := r.elEx ++ [x.elB], bdIn := r.bdIn ++ [x.bdA],
             bdEx := r.bdEx ++ [x.bdB], p := r.p ++ [x.p] }
  else
    { r with elIn := r.elIn ++ [x.elB], elEx := r.elEx ++ [x.elA], bdIn := r.bdIn ++ [x.bdB],
             bdEx := r.bdEx ++ [x.bdA], p := r.p ++ [x.p] }

/-- A failed extraction. -/
def liftUB {α : Type} : Option α → Res α
  | some x => .ok x
  | none => .error .ub

/-- `mesh_metadata.cpp` lines 163-219: the block after its header line. -/
def rdBlock (me : ℕ × ℕ) (line s : List Char) : Res (RankBoundary × List Char) := do
  let (A, B, n) ← liftUB (rdHeader line)
  let (i, e) ← pickSide me A B
  let (xs, s) ← liftUB (rdMany rdPair n s)
  pure (xs.foldl (pushPair me A) ⟨i.1, e.1, i.2, e.2, [], [], [], [], []⟩, s)

/-- `mesh_metadata.cpp` lines 150-223: the constructor of `DistributedBoundaryMetaData`. The first argument bounds the
number of blocks; each block consumes a character, so the length of the text is enough. -/
def readDbmd (me : ℕ × ℕ) : ℕ → List Char → Res (List RankBoundary)
  | 0, s => if s = [] then .ok [] else .error .ub
  | fuel + 1, s =>
    match getline s with
    | none => .ok []
    | some (line, s) => do
      let (r, s) ← rdBlock me line s
      let rs ← readDbmd me fuel s
      pure (r :: rs)

/-- The constructor on a whole file. -/
def readDbmdFile (me : ℕ × ℕ) (s : List Char) : Res (List RankBoundary) := readDbmd me s.length s

end Verif.Text
