import Verif.Model.Adcirc
import Verif.Model.Text

/-!
# The characters of a fort.14 file

Models reading and writing of `source/preprocessor/ADCIRC_reader/adcirc_format.cpp` at the level of characters: white space, field widths, comments at the
ends of lines, the limit of `ignore`, the digits of numbers. `Verif.Model.Adcirc` models the same functions at the level of tokens.

Simplifications: a failed extraction is the outcome `none`, since the code then goes on with unspecified values; numbers are written with 15 digits also if
there is no node, while the code then writes barriers with 6; a double is read from a whole word, so that numbers that follow each other without a space (which
`setw(22)` allows for negative numbers with an exponent of three digits) are not separated; the rest as in `Verif.Model.Adcirc`.
-/

namespace Verif.Fort14
open Verif Verif.Util Verif.Text Verif.Adcirc

variable {D : Type}

/-! ### Reading -/

/-- `ifs >> n; ifs.ignore(1000, '\n')`. -/
def rdNumber (s : List Char) : Option (ℕ × List Char) := do
  let (n, s) ← rdUint s
  pure (n, ignore 1000 s)

/-- `adcirc_format.cpp` lines 24-29: a node. -/
def rdNode (C : Codec D) (s : List Char) : Option ((ℕ × D × D × D) × List Char) := do
  let (i, s) ← rdUint s
  let (x, s) ← rdDouble C s
  let (y, s) ← rdDouble C s
  let (z, s) ← rdDouble C s
  pure ((i, x, y, z), ignore 1000 s)

/-- `adcirc_format.cpp` lines 38-43: an element. -/
def rdElement (s : List Char) : Option ((ℕ × ℕ × ℕ × ℕ × ℕ) × List Char) := do
  let (i, s) ← rdUint s
  let (a, s) ← rdUint s
  let (b, s) ← rdUint s
  let (c, s) ← rdUint s
  let (d, s) ← rdUint s
  pure ((i, a, b, c, d), ignore 1000 s)

/-- `adcirc_format.cpp` lines 56-62 (= 137-144): a list of nodes with its length. -/
def rdList (s : List Char) : Option (List ℕ × List Char) := do
  let (n, s) ← rdNumber s
  Text.rdMany rdNumber n s

/-- `adcirc_format.cpp` lines 95-102: a line of an internal barrier. -/
def rdBar (C : Codec D) (s : List Char) : Option ((ℕ × Bar D) × List Char) := do
  let (n, s) ← rdUint s
  let (c, s) ← rdUint s
  let (h, s) ← rdDouble C s
  let (sb, s) ← rdDouble C s
  let (sp, s) ← rdDouble C s
  pure ((n, ⟨c, h, sb, sp⟩), ignore 1000 s)

/-- `adcirc_format.cpp` lines 81-119: the nodes of a segment of type `ty`; `none` also for the `std::logic_error` of line 117. -/
def rdSegment (C : Codec D) (n ty : ℕ) (s : List Char) : Option (Seg D × List Char) :=
  if ty % 10 = 0 ∨ ty % 10 = 1 ∨ ty % 10 = 2 then (Text.rdMany rdNumber n s).map fun r => (⟨ty, r.1, none⟩, r.2)
  else if ty % 10 = 4 then (Text.rdMany (rdBar C) n s).map fun r => (⟨ty, r.1.map Prod.fst, some (r.1.map Prod.snd)⟩, r.2)
  else if ty = 77 then (Text.rdMany rdNumber n s).map fun r => (⟨ty, r.1, none⟩, r.2)
  else if ty = 88 then (Text.rdMany rdNumber n s).map fun r => (⟨ty, r.1, none⟩, r.2)
  else none

/-- `adcirc_format.cpp` lines 77-119. -/
def rdSeg (C : Codec D) (s : List Char) : Option (Seg D × List Char) := do
  let (n, s) ← rdUint s
  let (ty, s) ← rdUint s
  rdSegment C n ty (ignore 1000 s)

/-- `adcirc_format.cpp` lines 131-144, after the line with `NGEN` has been read. -/
def rdGenLists (line s : List Char) : Option (Option (ℕ × ℕ) × List (List ℕ)) := do
  let (ngen, _) ← rdUint line
  let (nngn, s) ← rdNumber s
  let (l, _) ← Text.rdMany rdList ngen s
  pure (some (ngen, nngn), l)

/-- `adcirc_format.cpp` lines 122-146: a line without anything but spaces, or the end of the file, means that there are no generic boundaries. -/
def rdGen (s : List Char) : Option (Option (ℕ × ℕ) × List (List ℕ)) :=
  match getline s with
  | none => some (none, [])
  | some (line, s) => if line.all (· == ' ') then some (none, []) else rdGenLists line s

/-- `adcirc_format.cpp` lines 3-149: the reading constructor. -/
def readText (C : Codec D) (s : List Char) : Option (Fort14 (List Char) D) := do
  let (name, s) ← Text.rdWord s
  let s := ignore 1000 s
  let (nel, s) ← rdUint s
  let (nno, s) ← rdUint s
  let s := ignore 1000 s
  let (nodes, s) ← Text.rdMany (rdNode C) nno s
  let (elements, s) ← Text.rdMany rdElement nel s
  let (nope, s) ← rdNumber s
  let (neta, s) ← rdNumber s
  let (nbdv, s) ← Text.rdMany rdList nope s
  let (nbou, s) ← rdNumber s
  let (nvel, s) ← rdNumber s
  let (segs, s) ← Text.rdMany (rdSeg C) nbou s
  let (gen, nbgn) ← rdGen s
  pure { name := name, nodes := insertAll [] nodes, elements := insertAll [] elements, NOPE := nope, NETA := neta, NBDV := nbdv, NBOU := nbou,
         NVEL := nvel, IBTYPE := segs.map Seg.ty, NBVV := segs.map Seg.nodes, BAR := barMap segs 0, gen := gen, NBGN := nbgn }

/-! ### Writing -/

/-- `file << std::setw(w) << x`. -/
def setw (w : ℕ) (s : List Char) : List Char := List.replicate (w - s.length) ' ' ++ s

/-- `adcirc_format.cpp` lines 158-164. -/
def wrNode (C : Codec D) (x : ℕ × D × D × D) : List Char :=
  dec x.1 ++ (setw 22 (C.pr x.2.1) ++ (setw 22 (C.pr x.2.2.1) ++ (setw 22 (C.pr x.2.2.2) ++ ['\n'])))

/-- `adcirc_format.cpp` lines 166-172. -/
def wrElement (x : ℕ × ℕ × ℕ × ℕ × ℕ) : List Char :=
  dec x.1 ++ (setw 12 (dec x.2.1) ++ (setw 12 (dec x.2.2.1) ++ (setw 12 (dec x.2.2.2.1) ++ (setw 12 (dec x.2.2.2.2) ++ ['\n']))))

/-- A number and a comment, which ends the line. -/
def noted (n : ℕ) (comment : String) : List Char := dec n ++ comment.toList

/-- A line with a number only. -/
def wrNumber (n : ℕ) : List Char := dec n ++ ['\n']

/-- `adcirc_format.cpp` lines 176-181 (= 206-211): the node lists `n`, `n + 1`, …; the comment of line 177 or 207. -/
def wrLists (comment : String) (l : List (List ℕ)) : ℕ → ℕ → Res (List Char)
  | 0, _ => .ok []
  | fuel + 1, n => do
    let x ← idx l n
    let rest ← wrLists comment l fuel (n + 1)
    return noted x.length comment ++ (dec (n + 1) ++ " \n".toList) ++ x.flatMap wrNumber ++ rest

/-- `adcirc_format.cpp` lines 194-195. -/
def wrBar (C : Codec D) (n : ℕ) (x : Bar D) : List Char :=
  dec n ++ (' ' :: (dec x.ibconn ++ (' ' :: (C.pr x.h ++ (' ' :: (C.pr x.csb ++ (' ' :: (C.pr x.csp ++ ['\n']))))))))

/-- `adcirc_format.cpp` lines 188-201: the `i`-th line of a segment. -/
def wrSegLine (C : Codec D) (ty seg : ℕ) (nb : List ℕ) (bar : List (ℕ × List (Bar D))) (i : ℕ) : Res (List Char) := do
  let n ← idx nb i
  if ty % 10 = 0 ∨ ty % 10 = 1 ∨ ty % 10 = 2 then return wrNumber n
  else if ty % 10 = 4 then
    let b ← atKey bar seg
    let x ← idx b i
    return wrBar C n x
  else if ty = 77 then return wrNumber n
  else if ty = 88 then return wrNumber n
  else return []

/-- `adcirc_format.cpp` lines 185-202. -/
def wrSegs (C : Codec D) (IBTYPE : List ℕ) (NBVV : List (List ℕ)) (bar : List (ℕ × List (Bar D))) : ℕ → ℕ → Res (List Char)
  | 0, _ => .ok []
  | fuel + 1, seg => do
    let ty ← idx IBTYPE seg
    let nb ← idx NBVV seg
    let ls ← (List.range nb.length).mapM (wrSegLine C ty seg nb bar)
    let rest ← wrSegs C IBTYPE NBVV bar fuel (seg + 1)
    return dec nb.length ++ (' ' :: noted ty " = Number of nodes for land boundary ") ++ (dec (seg + 1) ++ ['\n']) ++ ls.flatten ++ rest

/-- `adcirc_format.cpp` lines 151-212: `write_to`. Printing the uninitialised `NGEN` is undefined behaviour. -/
def writeText (C : Codec D) (m : Fort14 (List Char) D) : Res (List Char) := do
  let open_ ← wrLists " = Number of nodes for open boundary " m.NBDV m.NOPE 0
  let segs ← wrSegs C m.IBTYPE m.NBVV m.BAR m.NBOU 0
  match m.gen with
  | none => .error .ub
  | some (ngen, nngn) =>
    let gen ← wrLists " = Number of nodes for generic boundary " m.NBGN ngen 0
    return m.name ++ ('\n' :: (dec m.elements.length ++ ("    ".toList ++ (dec m.nodes.length ++ ('\n' :: (
      m.nodes.flatMap (wrNode C) ++ (m.elements.flatMap wrElement ++ (
      noted m.NOPE " = Number of open boundaries\n" ++ (noted m.NETA " = Total number of open boundary nodes\n" ++ (open_ ++ (
      noted m.NBOU " = Number of land Boundaries\n" ++ (noted m.NVEL " = Total number of open boundary nodes\n" ++ (segs ++ (
      noted ngen " = Number of generic boundaries\n" ++ (noted nngn " = Total number of generic boundary nodes\n" ++ gen)))))))))))))))

end Verif.Fort14
