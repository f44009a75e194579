import Verif.Model.Output
import Verif.Props.Geometry

/-!
# C110: output files are pictures of the state

Readers for the two formats, written from the description of the formats, and what they get from the files of the program.
-/

namespace Verif.Output.Props
open Verif.Geometry Verif.Geometry.Props Verif.Element Verif.Swe

/-! ### Readers -/

/-- What a visualisation program has in memory. -/
structure Picture (W : Type) where
  points : List (W × W × W)
  cells : List (List ℕ)
  types : List ℕ
  cellData : List (String × List (Tok W))
  pointData : List (String × List (Tok W))
deriving DecidableEq, Repr

variable {K W : Type}

/-- Words that can be values. -/
def isVal : Tok W → Bool
  | .n _ => true
  | .x _ => true
  | _ => false

def toNum : Tok W → Option W
  | .x v => some v
  | _ => none

def toNat : Tok W → Option ℕ
  | .n k => some k
  | _ => none

/-- The next `k` words, which must be values. -/
def takeVals (k : ℕ) (l : List (Tok W)) : Option (List (Tok W) × List (Tok W)) :=
  if k ≤ l.length ∧ (l.take k).all isVal = true then some (l.take k, l.drop k) else none

def triples : List W → List (W × W × W)
  | x :: y :: z :: l => (x, y, z) :: triples l
  | _ => []

/-- Cells, each with its number of points first. -/
def splitCells : ℕ → List ℕ → Option (List (List ℕ))
  | 0, [] => some []
  | 0, _ => none
  | _ + 1, [] => none
  | c + 1, k :: l => if k ≤ l.length then (splitCells c (l.drop k)).map (l.take k :: ·) else none

/-- Arrays of `n` values as long as there are any. -/
def readArrays (n : ℕ) : ℕ → List (Tok W) → Option (List (String × List (Tok W)) × List (Tok W))
  | fuel + 1, .w "SCALARS" :: .w name :: .w _ :: .n 1 :: .w "LOOKUP_TABLE" :: .w "default" :: l =>
    (takeVals n l).bind fun r => (readArrays n fuel r.2).map fun s => ((name, r.1) :: s.1, s.2)
  | _, l => some ([], l)

/-- The part after the geometry. -/
def readData (pts : List (W × W × W)) (cells : List (List ℕ)) (types : List ℕ) : List (Tok W) → Option (Picture W)
  | .w "CELL_DATA" :: .n c :: l =>
    if c = cells.length then
      (readArrays c 64 l).bind fun r =>
        match r.2 with
        | .w "POINT_DATA" :: .n n :: l =>
          if n = pts.length then
            (readArrays n 64 l).bind fun s => if s.2 = [] then some ⟨pts, cells, types, r.1, s.1⟩ else none
          else none
        | _ => none
    else none
  | _ => none

/-- Types of cells. -/
def readTypes (pts : List (W × W × W)) (cells : List (List ℕ)) : List (Tok W) → Option (Picture W)
  | .w "CELL_TYPES" :: .n c :: l =>
    if c = cells.length then
      (takeVals c l).bind fun r => (r.1.mapM toNat).bind fun t => readData pts cells t r.2
    else none
  | _ => none

/-- Cells. -/
def readCells (pts : List (W × W × W)) : List (Tok W) → Option (Picture W)
  | .w "CELLS" :: .n c :: .n s :: l =>
    (takeVals s l).bind fun r => (r.1.mapM toNat).bind fun k => (splitCells c k).bind fun cells => readTypes pts cells r.2
  | _ => none

/-- The legacy format: `# vtk DataFile Version 3.0`, a title (here two words), `ASCII`, and the sections. -/
def readVtk : List (Tok W) → Option (Picture W)
  | .w "#" :: .w "vtk" :: .w "DataFile" :: .w "Version" :: .w "3.0" :: .w _ :: .w _ :: .w "ASCII" :: .w "DATASET" :: .w "UNSTRUCTURED_GRID" ::
      .w "POINTS" :: .n n :: .w "double" :: l =>
    (takeVals (3 * n) l).bind fun r => (r.1.mapM toNum).bind fun xs => readCells (triples xs) r.2
  | _ => none

/-- `DataArray`s of the XML format as long as there are any; `ok` is the test of the number of values. -/
def readXml (ok : ℕ → Bool) : ℕ → List (Tok W) → Option (List (String × List (Tok W)) × List (Tok W))
  | fuel + 1, .w "<DataArray" :: .w name :: .w ">" :: l =>
    match l.dropWhile isVal with
    | .w "</DataArray>" :: rest =>
      if ok (l.takeWhile isVal).length then (readXml ok fuel rest).map fun s => ((name, l.takeWhile isVal) :: s.1, s.2) else none
    | _ => none
  | _, l => some ([], l)

/-- Cells from `connectivity` and `offsets`, the ends of the cells. -/
def cutCells (conn : List ℕ) (start : ℕ) : List ℕ → List (List ℕ)
  | [] => []
  | o :: l => ((conn.drop start).take (o - start)) :: cutCells conn o l

/-- The end of the file. -/
def vtuEnd : List (Tok W) → Bool
  | [.w "</Cells>", .w "</Piece>", .w "</UnstructuredGrid>", .w "</VTKFile>"] => true
  | _ => false

/-- The three arrays of the cells. -/
def readTopology (n c : ℕ) (pd cd : List (String × List (Tok W))) (pts : List (W × W × W)) (l : List (Tok W)) : Option (Picture W) :=
  (readXml (fun _ => true) 64 l).bind fun r =>
    if vtuEnd r.2 then
      ((r.1.lookup "connectivity").bind (·.mapM toNat)).bind fun conn =>
      ((r.1.lookup "offsets").bind (·.mapM toNat)).bind fun offs =>
      ((r.1.lookup "types").bind (·.mapM toNat)).bind fun types =>
      if offs.length = c ∧ types.length = c ∧ pts.length = n then some ⟨pts, cutCells conn 0 offs, types, cd, pd⟩ else none
    else none

/-- Points, then cells. -/
def readPoints (n c : ℕ) (pd cd : List (String × List (Tok W))) : List (Tok W) → Option (Picture W)
  | .w "<Points>" :: l =>
    (readXml (fun _ => true) 1 l).bind fun r =>
      match r.1, r.2 with
      | [a], .w "</Points>" :: .w "<Cells>" :: rest => (a.2.mapM toNum).bind fun xs => readTopology n c pd cd (triples xs) rest
      | _, _ => none
  | _ => none

/-- Data of points, of cells, then points. -/
def readVtu : List (Tok W) → Option (Picture W)
  | .w "<VTKFile" :: .w "<UnstructuredGrid>" :: .w "<Piece" :: .n n :: .n c :: .w ">" :: .w "<PointData>" :: l =>
    (readXml (· == n) 64 l).bind fun r =>
      match r.2 with
      | .w "</PointData>" :: .w "<CellData>" :: l =>
        (readXml (· == c) 64 l).bind fun s =>
          match s.2 with
          | .w "</CellData>" :: l => readPoints n c r.1 s.1 l
          | _ => none
      | _ => none
  | _ => none

/-! ### What the readers do with well-formed pieces -/

theorem takeVals_append {l r : List (Tok W)} (h : l.all isVal = true) : takeVals l.length (l ++ r) = some (l, r) := by
  unfold takeVals
  rw [List.take_left, List.drop_left, if_pos ⟨by simp, h⟩]

theorem readArrays_append (n : ℕ) (ls : List (String × String × List (Tok W))) (m : ℕ) (rest : List (Tok W)) (h : ∀ a ∈ ls, a.2.2.length = n ∧ a.2.2.all isVal = true)
    (hrest : ∀ l, rest ≠ .w "SCALARS" :: l) :
    readArrays n (ls.length + m) (ls.flatMap (fun a => scalars a.1 a.2.1 a.2.2) ++ rest) = some (ls.map fun a => (a.1, a.2.2), rest) := by
  induction ls with
  | nil =>
    simp only [List.length_nil, List.flatMap_nil, List.nil_append, List.map_nil]
    unfold readArrays
    split
    · exact absurd rfl (hrest _)
    · rfl
  | cons a ls ih =>
    obtain ⟨h1, h2⟩ := h a (by simp)
    rw [List.length_cons, Nat.add_right_comm, List.flatMap_cons, scalars]
    simp only [List.cons_append, List.nil_append, List.append_assoc]
    rw [readArrays, ← h1, takeVals_append h2, Option.bind_some, h1, ih fun b hb => h b (by simp [hb])]
    rfl

theorem readXml_append (ok : ℕ → Bool) (ls : List (String × List (Tok W))) (m : ℕ) (rest : List (Tok W)) (h : ∀ a ∈ ls, ok a.2.length = true ∧ a.2.all isVal = true)
    (hrest : ∀ l, rest ≠ .w "<DataArray" :: l) :
    readXml ok (ls.length + m) (ls.flatMap (fun a => dataArray a.1 a.2) ++ rest) = some (ls, rest) := by
  induction ls with
  | nil =>
    simp only [List.length_nil, List.flatMap_nil, List.nil_append]
    unfold readXml
    split
    · exact absurd rfl (hrest _)
    · rfl
  | cons a ls ih =>
    obtain ⟨h1, h2⟩ := h a (by simp)
    rw [List.length_cons, Nat.add_right_comm, List.flatMap_cons, dataArray]
    simp only [List.cons_append, List.nil_append, List.append_assoc]
    have h3 : ∀ r : List (Tok W), (a.2 ++ .w "</DataArray>" :: r).takeWhile isVal = a.2 ∧ (a.2 ++ .w "</DataArray>" :: r).dropWhile isVal = .w "</DataArray>" :: r := by
      intro r
      rw [List.all_eq_true] at h2
      rw [List.takeWhile_append_of_pos h2, List.dropWhile_append_of_pos h2]
      simp [isVal]
    rw [readXml]
    simp only [(h3 _).1, (h3 _).2, h1, if_true, ih fun b hb => h b (by simp [hb])]
    rfl

/-- A word that is no value inside an array makes the file unreadable. -/
theorem readXml_bad (ok : ℕ → Bool) (ls : List (String × List (Tok W))) (m : ℕ) (a : String × List (Tok W)) (rest : List (Tok W))
    (h : ∀ a ∈ ls, ok a.2.length = true ∧ a.2.all isVal = true) (ha : .bad ∈ a.2) (hw : ∀ s, .w s ∉ a.2) :
    readXml ok (ls.length + (m + 1)) (ls.flatMap (fun a => dataArray a.1 a.2) ++ (dataArray a.1 a.2 ++ rest)) = none := by
  induction ls with
  | nil =>
    simp only [List.length_nil, List.flatMap_nil, List.nil_append, Nat.zero_add, dataArray, List.cons_append, List.append_assoc]
    rw [readXml]
    have h3 : ∀ (l r : List (Tok W)), .bad ∈ l → (∀ s, .w s ∉ l) → ∃ r', (l ++ r).dropWhile isVal = .bad :: r' := by
      intro l r
      induction l with
      | nil => intro h; cases h
      | cons t l ih =>
        intro h1 h2
        rw [List.cons_append, List.dropWhile_cons]
        cases t with
        | w s => exact absurd (by simp) (h2 s)
        | bad => exact ⟨_, rfl⟩
        | n k => exact ih (by simpa using h1) fun s hs => h2 s (by simp [hs])
        | x v => exact ih (by simpa using h1) fun s hs => h2 s (by simp [hs])
    obtain ⟨r', hr⟩ := h3 a.2 (.w "</DataArray>" :: rest) ha hw
    simp only [hr]
  | cons b ls ih =>
    obtain ⟨h1, h2⟩ := h b (by simp)
    rw [List.length_cons, Nat.add_right_comm, List.flatMap_cons, dataArray]
    simp only [List.cons_append, List.nil_append, List.append_assoc]
    have h3 : ∀ r : List (Tok W), (b.2 ++ .w "</DataArray>" :: r).takeWhile isVal = b.2 ∧ (b.2 ++ .w "</DataArray>" :: r).dropWhile isVal = .w "</DataArray>" :: r := by
      intro r
      rw [List.all_eq_true] at h2
      rw [List.takeWhile_append_of_pos h2, List.dropWhile_append_of_pos h2]
      simp [isVal]
    rw [readXml]
    simp only [(h3 _).1, (h3 _).2, h1, if_true, ih fun c hc => h c (by simp [hc])]
    rfl

/-! ### Blocks of equal length -/

theorem block_get {α β : Type} (f : α → List β) (c : ℕ) : ∀ (l : List α), (∀ a ∈ l, (f a).length = c) → ∀ {i : ℕ} {a : α}, l[i]? = some a → ∀ {j : ℕ}, j < c →
    (l.flatMap f)[c * i + j]? = (f a)[j]? := by
  intro l
  induction l with
  | nil => intro _ i a h; simp at h
  | cons b l ih =>
    intro hl i a h j hj
    have hb := hl b (by simp)
    rw [List.flatMap_cons]
    cases i with
    | zero =>
      simp only [List.getElem?_cons_zero, Option.some.injEq] at h
      subst h
      rw [Nat.mul_zero, Nat.zero_add, List.getElem?_append_left (by omega)]
    | succ i =>
      rw [List.getElem?_cons_succ] at h
      rw [List.getElem?_append_right (by rw [hb, Nat.mul_succ]; omega), hb, show c * (i + 1) + j - c = c * i + j by rw [Nat.mul_succ]; omega]
      exact ih (fun a ha => hl a (by simp [ha])) h hj

theorem block_length {α β : Type} (f : α → List β) (c : ℕ) (l : List α) (h : ∀ a ∈ l, (f a).length = c) : (l.flatMap f).length = c * l.length := by
  induction l with
  | nil => simp
  | cons b l ih => rw [List.flatMap_cons, List.length_append, h b (by simp), ih fun a ha => h a (by simp [ha]), List.length_cons, Nat.mul_succ, Nat.add_comm]

/-! ### Geometry -/

variable [Field K] [LinearOrder K] [IsStrictOrderedRing K]

/-- Number of points of an element. -/
def np (div : ℕ) : ℕ := (pairs (List.range (div + 1)) fun i => div - i + 1).length

omit [LinearOrder K] [IsStrictOrderedRing K] in
theorem post_length (div : ℕ) : (vtkPostPoint div : List (P2 K)).length = np div := by simp [vtkPostPoint, np]

omit [LinearOrder K] [IsStrictOrderedRing K] in
theorem global_length (t : Tri K) (div : ℕ) : (vtkGlobal t div).length = np div := by simp [vtkGlobal, np]

/-- Cells of elements one after the other. -/
def cellsFrom (div first : ℕ) : List ℕ → List (ℕ × ℕ × ℕ)
  | [] => []
  | _ :: l => vtkCells div first ++ cellsFrom div (first + np div) l

omit [LinearOrder K] [IsStrictOrderedRing K] in
theorem init_fold (div : ℕ) (dat : ℕ → EltData K) (l : List ℕ) (s : List (P2 K) × List (ℕ × ℕ × ℕ)) :
    l.foldl (initOne div dat) s = (s.1 ++ l.flatMap (fun e => vtkGlobal (dat e).elt.tri div), s.2 ++ cellsFrom div s.1.length l) := by
  induction l generalizing s with
  | nil => simp [cellsFrom]
  | cons e l ih =>
    rw [List.foldl_cons, ih]
    simp [initOne, cellsFrom, global_length]

omit [LinearOrder K] [IsStrictOrderedRing K] in
theorem init_all (div : ℕ) (S : Scene K) :
    initAll div S = (S.elts.flatMap (fun e => vtkGlobal (S.dat e).elt.tri div), cellsFrom div 0 S.elts) := by
  rw [initAll, init_fold]
  simp

theorem cells_get (div : ℕ) (hd : 0 < div) : ∀ (l : List ℕ) (first i : ℕ), i < l.length → ∀ j < div * div,
    (cellsFrom div first l)[div * div * i + j]? = (vtkCells div (first + np div * i))[j]? := by
  intro l
  induction l with
  | nil => intro _ i h; simp at h
  | cons b l ih =>
    intro first i hi j hj
    have hc := (tessellation_counts (K := ℚ) div first hd).1
    rw [cellsFrom]
    cases i with
    | zero => rw [Nat.mul_zero, Nat.zero_add, List.getElem?_append_left (by omega), Nat.mul_zero, Nat.add_zero]
    | succ i =>
      rw [List.getElem?_append_right (by rw [hc, Nat.mul_succ]; omega), hc, show div * div * (i + 1) + j - div * div = div * div * i + j by rw [Nat.mul_succ]; omega,
        ih _ _ (by simpa using hi) _ hj, Nat.mul_succ, Nat.add_assoc, Nat.add_comm (np div)]

theorem cells_length (div : ℕ) (hd : 0 < div) (l : List ℕ) (first : ℕ) : (cellsFrom div first l).length = div * div * l.length := by
  induction l generalizing first with
  | nil => simp [cellsFrom]
  | cons b l ih => rw [cellsFrom, List.length_append, (tessellation_counts (K := ℚ) div first hd).1, ih, List.length_cons, Nat.mul_succ, Nat.add_comm]

/-- In the master triangle. -/
def InMaster (z : P2 K) : Prop := -1 ≤ z.x ∧ -1 ≤ z.y ∧ z.x + z.y ≤ 0

theorem post_inside {div : ℕ} (hd : 0 < div) {z : P2 K} (h : z ∈ (vtkPostPoint div : List (P2 K))) : InMaster z := by
  simp only [vtkPostPoint, pairs, List.mem_map, List.mem_flatMap, List.mem_range] at h
  obtain ⟨p, ⟨i, hi, j, hj, rfl⟩, rfl⟩ := h
  have hn : (0 : K) < div := by exact_mod_cast hd
  have hp : (0 : K) ≤ 2 / div := by positivity
  have hi' : (0 : K) ≤ i := Nat.cast_nonneg _
  have hj' : (0 : K) ≤ j := Nat.cast_nonneg _
  have hij : (j : K) + i ≤ div := by exact_mod_cast (by omega : j + i ≤ div)
  refine ⟨?_, ?_, ?_⟩
  · have := mul_nonneg hp hj'; simp only; linarith
  · have := mul_nonneg hp hi'; simp only; linarith
  · have h1 : 2 / (div : K) * (j + i) ≤ 2 / div * div := mul_le_mul_of_nonneg_left hij hp
    rw [div_mul_cancel₀ _ hn.ne'] at h1
    simp only
    linarith

/-! ### The picture -/

/-- The value of an array. -/
def value (arrs : List (String × List (Tok W))) (name : String) (k : ℕ) : Option (Tok W) := (arrs.lookup name).bind (·[k]?)

/-- Point number `k` of the picture is the point `A` of element `e`, with position and values. -/
structure Corner (P : Printer K W) (S : Scene K) (pic : Picture W) (e k : ℕ) (A : P2 K) : Prop where
  inside : InMaster A
  place : pic.points[k]? = some (P.pt (localToGlobal (S.dat e).elt.tri A).x, P.pt (localToGlobal (S.dat e).elt.tri A).y, P.pt 0)
  ze : value pic.pointData "ze_point" k = some (.x (P.fl ((S.dat e).elt.value S.N (S.q e 0) A)))
  qx : value pic.pointData "qx_point" k = some (.x (P.fl ((S.dat e).elt.value S.N (S.q e 1) A)))
  qy : value pic.pointData "qy_point" k = some (.x (P.fl ((S.dat e).elt.value S.N (S.q e 2) A)))
  bath : value pic.pointData "bath_point" k = some (.x (P.fl ((S.dat e).elt.value S.N (S.dat e).bath A)))

/-- Cell number `k` of the picture belongs to element `e` and has the values at the point `A`. -/
structure Centre (P : Printer K W) (S : Scene K) (pic : Picture W) (e k : ℕ) (A : P2 K) : Prop where
  ze : value pic.cellData "ze_cell" k = some (.x (P.fl ((S.dat e).elt.value S.N (S.q e 0) A)))
  qx : value pic.cellData "qx_cell" k = some (.x (P.fl ((S.dat e).elt.value S.N (S.q e 1) A)))
  qy : value pic.cellData "qy_cell" k = some (.x (P.fl ((S.dat e).elt.value S.N (S.q e 2) A)))
  bath : value pic.cellData "bath_cell" k = some (.x (P.fl ((S.dat e).elt.value S.N (S.dat e).bath A)))
  id : value pic.cellData "ID" k = some (.n e)
  wet : value pic.cellData "wet_dry" k = some (.n (if S.wet e then 1 else 0))
  dry : value pic.cellData "went_completely_dry" k = some (.n (if S.dry e then 1 else 0))

/-- Point number `k` has the magnitude of the velocity. -/
def Speed (P : Printer K W) (S : Scene K) (pic : Picture W) (e k : ℕ) (A : P2 K) : Prop :=
  value pic.pointData "velocity_point" k = some (.x (P.fl (S.sq ((S.dat e).elt.value S.N (S.q e 1) A ^ 2 + (S.dat e).elt.value S.N (S.q e 2) A ^ 2) /
    ((S.dat e).elt.value S.N (S.q e 0) A + (S.dat e).elt.value S.N (S.dat e).bath A))))

/-- The picture shows the state: for each element in turn there are `div`² cells, triangles of equal size within the element whose corners have the positions and
values of the element there, and which have the values at their centre of gravity. `V` is what else is true of the corners. -/
structure Shows (P : Printer K W) (div : ℕ) (S : Scene K) (pic : Picture W) (V : ℕ → ℕ → P2 K → Prop) : Prop where
  npoints : 2 * pic.points.length = (div + 1) * (div + 2) * S.elts.length
  ncells : pic.cells.length = div * div * S.elts.length
  types : pic.types = List.replicate pic.cells.length 5
  cells : ∀ i e, S.elts[i]? = some e → ∀ c < div * div, ∃ (a b d : ℕ) (A B C : P2 K), pic.cells[div * div * i + c]? = some [a, b, d] ∧
    |cross A B C| = 4 / (div : K) ^ 2 ∧ Corner P S pic e a A ∧ Corner P S pic e b B ∧ Corner P S pic e d C ∧ V e a A ∧ V e b B ∧ V e d C ∧
    Centre P S pic e (div * div * i + c) ⟨(A.x + B.x + C.x) / 3, (A.y + B.y + C.y) / 3⟩

/-- The arrays as they are written. -/
def pointArrays (P : Printer K W) (div : ℕ) (S : Scene K) : List (String × List (Tok W)) :=
  [("ze_point", (sample S (vtkPostPoint div) S.at).map fun q => .x (P.fl q.ze)), ("qx_point", (sample S (vtkPostPoint div) S.at).map fun q => .x (P.fl q.qx)),
    ("qy_point", (sample S (vtkPostPoint div) S.at).map fun q => .x (P.fl q.qy)), ("bath_point", (sample S (vtkPostPoint div) S.bathAt).map fun b => .x (P.fl b))]

def cellArrays (P : Printer K W) (div : ℕ) (S : Scene K) : List (String × List (Tok W)) :=
  [("ze_cell", (sample S (vtkPostCell div) S.at).map fun q => .x (P.fl q.ze)), ("qx_cell", (sample S (vtkPostCell div) S.at).map fun q => .x (P.fl q.qx)),
    ("qy_cell", (sample S (vtkPostCell div) S.at).map fun q => .x (P.fl q.qy)), ("bath_cell", (sample S (vtkPostCell div) S.bathAt).map fun b => .x (P.fl b)),
    ("ID", perCell div S fun e => .n e), ("wet_dry", perCell div S fun e => bit (S.wet e)), ("went_completely_dry", perCell div S fun e => bit (S.dry e))]

omit [LinearOrder K] [IsStrictOrderedRing K] in
theorem sample_get {α : Type} (S : Scene K) (pts : List (P2 K)) (f : ℕ → P2 K → α) {i e : ℕ} (h : S.elts[i]? = some e) {j : ℕ} {z : P2 K} (hj : pts[j]? = some z) :
    (sample S pts f)[pts.length * i + j]? = some (f e z) := by
  have hlt := (List.getElem?_eq_some_iff.mp hj).1
  rw [sample, block_get _ pts.length _ (fun a _ => by simp) h hlt, List.getElem?_map, hj]
  rfl

omit [Field K] [LinearOrder K] [IsStrictOrderedRing K] in
theorem perCell_get {α : Type} (div : ℕ) (S : Scene K) (f : ℕ → α) {i e : ℕ} (h : S.elts[i]? = some e) {j : ℕ} (hj : j < div * div) :
    (perCell div S f)[div * div * i + j]? = some (f e) := by
  rw [perCell, block_get _ (div * div) _ (fun a _ => by simp) h hj]
  simp [hj]

/-- A picture with these points, cells and arrays shows the state. -/
theorem shows_of (P : Printer K W) {div : ℕ} (hd : 0 < div) (S : Scene K) (pic : Picture W)
    (h1 : pic.points = (initAll div S).1.map fun p => (P.pt p.x, P.pt p.y, P.pt 0)) (h2 : pic.cells = (initAll div S).2.map fun c => [c.1, c.2.1, c.2.2])
    (h3 : pic.types = List.replicate pic.cells.length 5) (h4 : ∀ a ∈ pointArrays P div S, pic.pointData.lookup a.1 = some a.2)
    (h5 : ∀ a ∈ cellArrays P div S, pic.cellData.lookup a.1 = some a.2) {V : ℕ → ℕ → P2 K → Prop}
    (hV : ∀ {i e : ℕ}, S.elts[i]? = some e → ∀ {j : ℕ} {z : P2 K}, (vtkPostPoint div)[j]? = some z → V e (np div * i + j) z) : Shows P div S pic V := by
  have hnp := (tessellation_counts (K := K) div 0 hd).2
  rw [post_length] at hnp
  rw [init_all] at h1 h2
  simp only [pointArrays, cellArrays, List.mem_cons, List.not_mem_nil, or_false, forall_eq_or_imp, forall_eq] at h4 h5
  obtain ⟨p1, p2, p3, p4⟩ := h4
  obtain ⟨c1, c2, c3, c4, c5, c6, c7⟩ := h5
  have hcorner : ∀ {i e : ℕ}, S.elts[i]? = some e → ∀ {j : ℕ} {z : P2 K}, (vtkPostPoint div)[j]? = some z → Corner P S pic e (np div * i + j) z := by
    intro i e he j z hz
    have hlt := (List.getElem?_eq_some_iff.mp hz).1
    rw [post_length] at hlt
    have s1 := sample_get S (vtkPostPoint div) S.at he hz
    have s2 := sample_get S (vtkPostPoint div) S.bathAt he hz
    rw [post_length] at s1 s2
    refine ⟨post_inside hd (List.mem_of_getElem? hz), ?_, ?_, ?_, ?_, ?_⟩
    · rw [h1, List.getElem?_map, block_get _ (np div) _ (fun a _ => global_length _ _) he hlt, vtk_points, List.getElem?_map, hz]
      rfl
    · simp only [value, p1, Option.bind_some, List.getElem?_map, s1, Option.map_some]; rfl
    · simp only [value, p2, Option.bind_some, List.getElem?_map, s1, Option.map_some]; rfl
    · simp only [value, p3, Option.bind_some, List.getElem?_map, s1, Option.map_some]; rfl
    · simp only [value, p4, Option.bind_some, List.getElem?_map, s2, Option.map_some]; rfl
  refine ⟨?_, ?_, h3, ?_⟩
  · rw [h1, List.length_map, block_length _ (np div) _ (fun a _ => global_length _ _), ← Nat.mul_assoc, hnp]
  · rw [h2, List.length_map, cells_length div hd]
  · intro i e he c hc
    have hlen := (List.getElem?_eq_some_iff.mp he).1
    have ht := tessellation (K := K) div (0 + np div * i) hd
    have hl1 := (tessellation_counts (K := K) div (0 + np div * i) hd).1
    have hl2 := ht.length_eq
    obtain ⟨x, hx⟩ : ∃ x, (vtkCells div (0 + np div * i))[c]? = some x := ⟨_, List.getElem?_eq_getElem (by omega)⟩
    obtain ⟨z, hz⟩ : ∃ z, (vtkPostCell div : List (P2 K))[c]? = some z := ⟨_, List.getElem?_eq_getElem (by omega)⟩
    have hrel := ht.get (i := c) (by omega) (by omega)
    rw [List.getElem?_eq_some_iff] at hx hz
    obtain ⟨_, hx⟩ := hx
    obtain ⟨hzl, hz⟩ := hz
    simp only [List.get_eq_getElem, hx, hz] at hrel
    obtain ⟨A, B, C, a1, b1, d1, a2, b2, d2, zx, zy, har⟩ := hrel
    simp only [Nat.zero_add] at a1 b1 d1 a2 b2 d2
    have e1 := hcorner he a2
    have e2 := hcorner he b2
    have e3 := hcorner he d2
    have v1 := hV he a2
    have v2 := hV he b2
    have v3 := hV he d2
    rw [Nat.add_sub_cancel' a1] at e1 v1
    rw [Nat.add_sub_cancel' b1] at e2 v2
    rw [Nat.add_sub_cancel' d1] at e3 v3
    have hz' : z = ⟨(A.x + B.x + C.x) / 3, (A.y + B.y + C.y) / 3⟩ := by cases z; simp only at zx zy; rw [zx, zy]
    have hzg : (vtkPostCell div : List (P2 K))[c]? = some z := List.getElem?_eq_some_iff.mpr ⟨hzl, hz⟩
    have s1 := sample_get S (vtkPostCell div) S.at he hzg
    have s2 := sample_get S (vtkPostCell div) S.bathAt he hzg
    have hpc : (vtkPostCell div : List (P2 K)).length = div * div := by omega
    rw [hpc, hz'] at s1 s2
    refine ⟨x.1, x.2.1, x.2.2, A, B, C, ?_, har, e1, e2, e3, v1, v2, v3, ?_, ?_, ?_, ?_, ?_, ?_, ?_⟩
    · rw [h2, List.getElem?_map, cells_get div hd _ _ _ hlen _ hc, List.getElem?_eq_getElem (by omega), hx]
      rfl
    · simp only [value, c1, Option.bind_some, List.getElem?_map, s1, Option.map_some]; rfl
    · simp only [value, c2, Option.bind_some, List.getElem?_map, s1, Option.map_some]; rfl
    · simp only [value, c3, Option.bind_some, List.getElem?_map, s1, Option.map_some]; rfl
    · simp only [value, c4, Option.bind_some, List.getElem?_map, s2, Option.map_some]; rfl
    · simp only [value, c5, Option.bind_some, perCell_get div S _ he hc]
    · simp only [value, c6, Option.bind_some, perCell_get div S _ he hc]; rfl
    · simp only [value, c7, Option.bind_some, perCell_get div S _ he hc]; rfl

/-! ### The files -/

omit [LinearOrder K] [IsStrictOrderedRing K] in
theorem points_words (P : Printer K W) (l : List (P2 K)) :
    (l.flatMap fun p => [Tok.x (P.pt p.x), Tok.x (P.pt p.y), Tok.x (P.pt 0)]).length = 3 * l.length ∧
    (l.flatMap fun p => [Tok.x (P.pt p.x), Tok.x (P.pt p.y), Tok.x (P.pt 0)]).all isVal = true ∧
    ∃ xs, (l.flatMap fun p => [Tok.x (P.pt p.x), Tok.x (P.pt p.y), Tok.x (P.pt 0)]).mapM toNum = some xs ∧ triples xs = l.map fun p => (P.pt p.x, P.pt p.y, P.pt 0) := by
  induction l with
  | nil => exact ⟨rfl, rfl, [], rfl, rfl⟩
  | cons p l ih =>
    obtain ⟨h1, h2, xs, h3, h4⟩ := ih
    refine ⟨?_, ?_, P.pt p.x :: P.pt p.y :: P.pt 0 :: xs, ?_, ?_⟩
    · rw [List.flatMap_cons, List.length_append, h1]; simp only [List.length_cons, List.length_nil]; omega
    · rw [List.flatMap_cons, List.all_append, h2]; rfl
    · simp [List.flatMap_cons, toNum, h3]
    · simp [triples, h4]

theorem cells_words (l : List (ℕ × ℕ × ℕ)) :
    (l.flatMap fun c => [(Tok.n 3 : Tok W), .n c.1, .n c.2.1, .n c.2.2]).length = (l.map fun _ => 4).sum ∧
    (l.flatMap fun c => [(Tok.n 3 : Tok W), .n c.1, .n c.2.1, .n c.2.2]).all isVal = true ∧
    ∃ ks, (l.flatMap fun c => [(Tok.n 3 : Tok W), .n c.1, .n c.2.1, .n c.2.2]).mapM toNat = some ks ∧ splitCells l.length ks = some (l.map fun c => [c.1, c.2.1, c.2.2]) := by
  induction l with
  | nil => exact ⟨rfl, rfl, [], rfl, rfl⟩
  | cons c l ih =>
    obtain ⟨h1, h2, ks, h3, h4⟩ := ih
    refine ⟨?_, ?_, 3 :: c.1 :: c.2.1 :: c.2.2 :: ks, ?_, ?_⟩
    · rw [List.flatMap_cons, List.length_append, h1]; simp only [List.length_cons, List.length_nil, List.map_cons, List.sum_cons]
    · rw [List.flatMap_cons, List.all_append, h2]; rfl
    · simp [List.flatMap_cons, toNat, h3]
    · simp [splitCells, h4]

theorem types_words {α : Type} (l : List α) : (l.map fun _ => (Tok.n 5 : Tok W)).all isVal = true ∧ (l.map fun _ => (Tok.n 5 : Tok W)).mapM toNat = some (List.replicate l.length 5) := by
  induction l with
  | nil => exact ⟨rfl, rfl⟩
  | cons c l ih =>
    refine ⟨by rw [List.map_cons, List.all_cons, ih.1]; rfl, ?_⟩
    rw [List.map_cons, List.mapM_cons, ih.2]
    rfl

theorem all_map {α : Type} (l : List α) (f : α → Tok W) (h : ∀ a, isVal (f a) = true) : (l.map f).all isVal = true := by
  rw [List.all_eq_true]
  intro t ht
  obtain ⟨a, _, rfl⟩ := List.mem_map.mp ht
  exact h a

omit [Field K] [LinearOrder K] [IsStrictOrderedRing K] in
theorem all_perCell (div : ℕ) (S : Scene K) (f : ℕ → Tok W) (h : ∀ a, isVal (f a) = true) : (perCell div S f).all isVal = true := by
  rw [List.all_eq_true]
  intro t ht
  obtain ⟨e, _, h1⟩ := List.mem_flatMap.mp ht
  rw [(List.mem_replicate.mp h1).2]
  exact h e

omit [Field K] [LinearOrder K] [IsStrictOrderedRing K] in
theorem perCell_length {α : Type} (div : ℕ) (S : Scene K) (f : ℕ → α) : (perCell div S f).length = div * div * S.elts.length :=
  block_length _ _ _ fun _ _ => by simp

omit [Field K] [LinearOrder K] [IsStrictOrderedRing K] in
theorem sample_length {α : Type} (S : Scene K) (pts : List (P2 K)) (f : ℕ → P2 K → α) : (sample S pts f).length = pts.length * S.elts.length :=
  block_length _ _ _ fun _ _ => by simp

theorem postCell_length {div : ℕ} (hd : 0 < div) : (vtkPostCell div : List (P2 K)).length = div * div := by
  have h := (tessellation (K := K) div 0 hd).length_eq
  rw [← h, (tessellation_counts (K := K) div 0 hd).1]

omit [LinearOrder K] [IsStrictOrderedRing K] in
theorem pointArrays_ok (P : Printer K W) (div : ℕ) (S : Scene K) : ∀ a ∈ pointArrays P div S, a.2.length = np div * S.elts.length ∧ a.2.all isVal = true := by
  intro a ha
  simp only [pointArrays, List.mem_cons, List.not_mem_nil, or_false] at ha
  rcases ha with rfl | rfl | rfl | rfl <;>
    exact ⟨by rw [List.length_map, sample_length, post_length], all_map _ _ fun _ => rfl⟩

theorem cellArrays_ok (P : Printer K W) {div : ℕ} (hd : 0 < div) (S : Scene K) :
    ∀ a ∈ cellArrays P div S, a.2.length = div * div * S.elts.length ∧ a.2.all isVal = true := by
  intro a ha
  simp only [cellArrays, List.mem_cons, List.not_mem_nil, or_false] at ha
  rcases ha with rfl | rfl | rfl | rfl | rfl | rfl | rfl
  · exact ⟨by rw [List.length_map, sample_length, postCell_length hd], all_map _ _ fun _ => rfl⟩
  · exact ⟨by rw [List.length_map, sample_length, postCell_length hd], all_map _ _ fun _ => rfl⟩
  · exact ⟨by rw [List.length_map, sample_length, postCell_length hd], all_map _ _ fun _ => rfl⟩
  · exact ⟨by rw [List.length_map, sample_length, postCell_length hd], all_map _ _ fun _ => rfl⟩
  · exact ⟨perCell_length _ _ _, all_perCell _ _ _ fun _ => rfl⟩
  · exact ⟨perCell_length _ _ _, all_perCell _ _ _ fun _ => rfl⟩
  · exact ⟨perCell_length _ _ _, all_perCell _ _ _ fun _ => rfl⟩

omit [LinearOrder K] [IsStrictOrderedRing K] in
theorem init_points (div : ℕ) (S : Scene K) : (initAll div S).1.length = np div * S.elts.length := by
  rw [init_all]
  exact block_length _ _ _ fun _ _ => global_length _ _

omit [LinearOrder K] [IsStrictOrderedRing K] in
theorem init_cells {div : ℕ} (hd : 0 < div) (S : Scene K) : (initAll div S).2.length = div * div * S.elts.length := by
  rw [init_all]
  exact cells_length div hd _ _

/-- The data with the arrays as they are written. -/
theorem readData_eq (P : Printer K W) {div : ℕ} (hd : 0 < div) (S : Scene K) (pts : List (W × W × W)) (cells : List (List ℕ)) (types : List ℕ)
    (h1 : pts.length = np div * S.elts.length) (h2 : cells.length = div * div * S.elts.length) :
    readData pts cells types (vtkData P div S) = some ⟨pts, cells, types, cellArrays P div S, pointArrays P div S⟩ := by
  have hcell := readArrays_append (div * div * S.elts.length)
    [("ze_cell", "double", (sample S (vtkPostCell div) S.at).map fun q => .x (P.fl q.ze)), ("qx_cell", "double", (sample S (vtkPostCell div) S.at).map fun q => .x (P.fl q.qx)),
      ("qy_cell", "double", (sample S (vtkPostCell div) S.at).map fun q => .x (P.fl q.qy)), ("bath_cell", "double", (sample S (vtkPostCell div) S.bathAt).map fun b => .x (P.fl b)),
      ("ID", "unsigned_int", perCell div S fun e => .n e), ("wet_dry", "bit", perCell div S fun e => bit (S.wet e)),
      ("went_completely_dry", "bit", perCell div S fun e => bit (S.dry e))] 57
    (.w "POINT_DATA" :: .n (np div * S.elts.length) :: [("ze_point", "double", (sample S (vtkPostPoint div) S.at).map fun q => Tok.x (P.fl q.ze)),
      ("qx_point", "double", (sample S (vtkPostPoint div) S.at).map fun q => .x (P.fl q.qx)), ("qy_point", "double", (sample S (vtkPostPoint div) S.at).map fun q => .x (P.fl q.qy)),
      ("bath_point", "double", (sample S (vtkPostPoint div) S.bathAt).map fun b => .x (P.fl b))].flatMap fun a => scalars a.1 a.2.1 a.2.2)
    (by
      intro a ha
      simp only [List.mem_cons, List.not_mem_nil, or_false] at ha
      have h := cellArrays_ok P hd S
      simp only [cellArrays, List.mem_cons, List.not_mem_nil, or_false, forall_eq_or_imp, forall_eq] at h
      obtain ⟨c1, c2, c3, c4, c5, c6, c7⟩ := h
      rcases ha with rfl | rfl | rfl | rfl | rfl | rfl | rfl <;> assumption)
    (by intro l h; simp at h)
  have hpoint := readArrays_append (np div * S.elts.length)
    [("ze_point", "double", (sample S (vtkPostPoint div) S.at).map fun q => Tok.x (P.fl q.ze)),
      ("qx_point", "double", (sample S (vtkPostPoint div) S.at).map fun q => .x (P.fl q.qx)), ("qy_point", "double", (sample S (vtkPostPoint div) S.at).map fun q => .x (P.fl q.qy)),
      ("bath_point", "double", (sample S (vtkPostPoint div) S.bathAt).map fun b => .x (P.fl b))] 60 []
    (by
      intro a ha
      simp only [List.mem_cons, List.not_mem_nil, or_false] at ha
      have h := pointArrays_ok P div S
      simp only [pointArrays, List.mem_cons, List.not_mem_nil, or_false, forall_eq_or_imp, forall_eq] at h
      obtain ⟨c1, c2, c3, c4⟩ := h
      rcases ha with rfl | rfl | rfl | rfl <;> assumption)
    (by intro l h; simp at h)
  rw [List.append_nil] at hpoint
  have e1 : (sample S (vtkPostCell div) S.at).length = div * div * S.elts.length := by rw [sample_length, postCell_length hd]
  have e2 : (sample S (vtkPostPoint div) S.at).length = np div * S.elts.length := by rw [sample_length, post_length]
  simp only [vtkData, e1, e2, List.cons_append, List.nil_append, List.append_assoc]
  simp only [readData, h2, h1, if_true]
  simp only [List.flatMap_cons, List.flatMap_nil, List.append_nil, List.append_assoc, List.length_cons, List.length_nil, Nat.zero_add, Nat.reduceAdd] at hcell hpoint
  rw [hcell]
  simp only [Option.bind_some, if_true]
  rw [hpoint]
  rfl

/-- The file of a step in the legacy format is a picture of the state. -/
theorem vtk_picture (P : Printer K W) {div : ℕ} (hd : 0 < div) (S : Scene K) : ∃ pic, readVtk (vtkFile P div S) = some pic ∧ Shows P div S pic fun _ _ _ => True := by
  obtain ⟨p1, p2, xs, p3, p4⟩ := points_words P (initAll div S).1
  obtain ⟨c1, c2, ks, c3, c4⟩ := cells_words (W := W) (initAll div S).2
  obtain ⟨t1, t2⟩ := types_words (W := W) (initAll div S).2
  refine ⟨⟨(initAll div S).1.map fun p => (P.pt p.x, P.pt p.y, P.pt 0), (initAll div S).2.map fun c => [c.1, c.2.1, c.2.2], List.replicate (initAll div S).2.length 5,
    cellArrays P div S, pointArrays P div S⟩, ?_, ?_⟩
  · simp only [vtkFile, vtkGeom, List.cons_append, List.nil_append, List.append_assoc]
    simp only [readVtk]
    rw [← p1, takeVals_append p2, Option.bind_some]
    simp only [p3, Option.bind_some, p4, readCells]
    rw [← c1, takeVals_append c2, Option.bind_some]
    simp only [c3, c4, Option.bind_some, readTypes, List.length_map, if_true]
    have ht : (initAll div S).2.length = ((initAll div S).2.map fun _ => (Tok.n 5 : Tok W)).length := by simp
    conv_lhs => rw [ht]
    rw [takeVals_append t1, Option.bind_some]
    simp only [t2, Option.bind_some]
    rw [readData_eq P hd S _ _ _ (by rw [List.length_map, init_points]) (by rw [List.length_map, init_cells hd])]
  · refine shows_of P hd S _ rfl rfl (by simp) ?_ ?_ fun _ _ _ _ => trivial
    · intro a ha
      simp only [pointArrays, List.mem_cons, List.not_mem_nil, or_false] at ha
      rcases ha with rfl | rfl | rfl | rfl <;> rfl
    · intro a ha
      simp only [cellArrays, List.mem_cons, List.not_mem_nil, or_false] at ha
      rcases ha with rfl | rfl | rfl | rfl | rfl | rfl | rfl <;> rfl

theorem offsets_cut (l : List (ℕ × ℕ × ℕ)) : ∀ pre : List ℕ, cutCells (pre ++ l.flatMap fun c => [c.1, c.2.1, c.2.2]) pre.length (offsets pre.length l) = l.map fun c => [c.1, c.2.1, c.2.2] := by
  induction l with
  | nil => intro pre; rfl
  | cons c l ih =>
    intro pre
    have h := ih (pre ++ [c.1, c.2.1, c.2.2])
    simp only [List.length_append, List.length_cons, List.length_nil, Nat.zero_add, List.append_assoc] at h
    rw [offsets, cutCells, List.flatMap_cons, h, List.drop_left, Nat.add_sub_cancel_left]
    rfl

theorem offsets_length (l : List (ℕ × ℕ × ℕ)) : ∀ k, (offsets k l).length = l.length := by
  induction l with
  | nil => intro k; rfl
  | cons c l ih => intro k; simp [offsets, ih]

theorem nat_words (l : List ℕ) : (l.map (Tok.n : ℕ → Tok W)).mapM toNat = some l := by
  induction l with
  | nil => rfl
  | cons c l ih => rw [List.map_cons, List.mapM_cons, ih]; rfl

theorem conn_words (l : List (ℕ × ℕ × ℕ)) : (l.flatMap fun c => [(Tok.n c.1 : Tok W), .n c.2.1, .n c.2.2]) = (l.flatMap fun c => [c.1, c.2.1, c.2.2]).map .n := by
  rw [List.map_flatMap]
  rfl

/-- The arrays of the points in the XML format. -/
def vtuPointArrays (P : Printer K W) (div : ℕ) (S : Scene K) : List (String × List (Tok W)) :=
  pointArrays P div S ++ [("velocity_point", List.zipWith (speedTok P S.sq) (sample S (vtkPostPoint div) S.at) (sample S (vtkPostPoint div) S.bathAt))]

/-- Points and cells of the XML format. -/
theorem readPoints_eq (P : Printer K W) {div : ℕ} (hd : 0 < div) (S : Scene K) (pd cd : List (String × List (Tok W))) :
    readPoints (np div * S.elts.length) (div * div * S.elts.length) pd cd (vtuFoot P div S) =
      some ⟨(initAll div S).1.map fun p => (P.pt p.x, P.pt p.y, P.pt 0), (initAll div S).2.map fun c => [c.1, c.2.1, c.2.2], List.replicate (initAll div S).2.length 5, cd, pd⟩ := by
  obtain ⟨p1, p2, xs, p3, p4⟩ := points_words P (initAll div S).1
  obtain ⟨t1, t2⟩ := types_words (W := W) (initAll div S).2
  have htop := readXml_append (fun _ => true)
    [("connectivity", (initAll div S).2.flatMap fun c => [(Tok.n c.1 : Tok W), .n c.2.1, .n c.2.2]), ("offsets", (offsets 0 (initAll div S).2).map .n),
      ("types", (initAll div S).2.map fun _ => .n 5)] 61
    [.w "</Cells>", .w "</Piece>", .w "</UnstructuredGrid>", .w "</VTKFile>"]
    (by
      intro a ha
      simp only [List.mem_cons, List.not_mem_nil, or_false] at ha
      rcases ha with rfl | rfl | rfl
      · exact ⟨rfl, by simp only; rw [conn_words]; exact all_map _ _ fun _ => rfl⟩
      · exact ⟨rfl, all_map _ _ fun _ => rfl⟩
      · exact ⟨rfl, t1⟩)
    (by intro l h; simp at h)
  have hpts := readXml_append (fun _ => true) [("", (initAll div S).1.flatMap fun p => [Tok.x (P.pt p.x), Tok.x (P.pt p.y), Tok.x (P.pt 0)])] 0
    (.w "</Points>" :: .w "<Cells>" :: ([("connectivity", (initAll div S).2.flatMap fun c => [(Tok.n c.1 : Tok W), .n c.2.1, .n c.2.2]), ("offsets", (offsets 0 (initAll div S).2).map .n),
      ("types", (initAll div S).2.map fun _ => .n 5)].flatMap (fun a => dataArray a.1 a.2) ++ [.w "</Cells>", .w "</Piece>", .w "</UnstructuredGrid>", .w "</VTKFile>"]))
    (by
      intro a ha
      simp only [List.mem_cons, List.not_mem_nil, or_false] at ha
      subst ha
      exact ⟨rfl, p2⟩)
    (by intro l h; simp at h)
  simp only [List.flatMap_cons, List.flatMap_nil, List.append_nil, List.append_assoc, List.length_cons, List.length_nil, Nat.zero_add, Nat.reduceAdd, Nat.add_zero] at htop hpts
  simp only [vtuFoot, List.cons_append, List.nil_append, List.append_assoc]
  simp only [readPoints]
  rw [hpts]
  simp only [Option.bind_some, p3, p4, readTopology]
  rw [htop]
  have hc := offsets_cut (initAll div S).2 []
  simp only [List.nil_append, List.length_nil] at hc
  simp only [Option.bind_some, vtuEnd, if_true, List.lookup, conn_words, String.reduceBEq, nat_words, t2, offsets_length, init_cells hd, init_points, List.length_map, List.length_replicate, and_self, hc]

omit [IsStrictOrderedRing K] in
theorem vtu_flat (P : Printer K W) (div : ℕ) (S : Scene K) : vtuFile P div S = vtuHead div S ++ .w "<PointData>" ::
    ((vtuPointArrays P div S).flatMap (fun a => dataArray a.1 a.2) ++ .w "</PointData>" :: .w "<CellData>" ::
      ((cellArrays P div S).flatMap (fun a => dataArray a.1 a.2) ++ .w "</CellData>" :: vtuFoot P div S)) := by
  simp only [vtuFile, vtuData, vtuPointArrays, pointArrays, cellArrays, List.flatMap_cons, List.flatMap_nil, List.append_nil, List.cons_append, List.nil_append, List.append_assoc]

/-- No output point is without water or has water of depth zero. -/
def NoZeroDepth (div : ℕ) (S : Scene K) : Prop := ∀ e ∈ S.elts, ∀ i j : ℕ, i + j ≤ div →
  (S.dat e).elt.value S.N (S.q e 0) ⟨-1 + 2 / div * j, -1 + 2 / div * i⟩ + (S.dat e).elt.value S.N (S.dat e).bath ⟨-1 + 2 / div * j, -1 + 2 / div * i⟩ ≠ 0

omit [LinearOrder K] [IsStrictOrderedRing K] in
theorem mem_post {div : ℕ} {z : P2 K} : z ∈ (vtkPostPoint div : List (P2 K)) ↔ ∃ i j : ℕ, i + j ≤ div ∧ z = ⟨-1 + 2 / div * j, -1 + 2 / div * i⟩ := by
  simp only [vtkPostPoint, pairs, List.mem_map, List.mem_flatMap, List.mem_range]
  constructor
  · rintro ⟨p, ⟨i, hi, j, hj, rfl⟩, rfl⟩
    exact ⟨i, j, by omega, rfl⟩
  · rintro ⟨i, j, h, rfl⟩
    exact ⟨(i, j), ⟨i, by omega, j, by omega, rfl⟩, rfl⟩

omit [IsStrictOrderedRing K] in
/-- The words of the velocities, element by element. -/
theorem speeds_flat (P : Printer K W) (S : Scene K) (pts : List (P2 K)) : List.zipWith (speedTok P S.sq) (sample S pts S.at) (sample S pts S.bathAt) =
    sample S pts fun e z => speedTok P S.sq (S.at e z) (S.bathAt e z) := by
  simp only [sample]
  induction S.elts with
  | nil => rfl
  | cons e l ih =>
    simp only [List.flatMap_cons]
    rw [List.zipWith_append (by simp), ih, List.zipWith_map_left, List.zipWith_map_right]
    congr 1
    rw [List.zipWith_self]

omit [IsStrictOrderedRing K] in
theorem speeds_mem (P : Printer K W) (div : ℕ) (S : Scene K) {t : Tok W}
    (h : t ∈ List.zipWith (speedTok P S.sq) (sample S (vtkPostPoint div) S.at) (sample S (vtkPostPoint div) S.bathAt)) :
    ∃ e ∈ S.elts, ∃ i j : ℕ, i + j ≤ div ∧ t = speedTok P S.sq (S.at e ⟨-1 + 2 / div * j, -1 + 2 / div * i⟩) (S.bathAt e ⟨-1 + 2 / div * j, -1 + 2 / div * i⟩) := by
  rw [speeds_flat] at h
  obtain ⟨e, he, h1⟩ := List.mem_flatMap.mp h
  obtain ⟨z, hz, rfl⟩ := List.mem_map.mp h1
  obtain ⟨i, j, hij, rfl⟩ := mem_post.mp hz
  exact ⟨e, he, i, j, hij, rfl⟩

/-- The XML file of a step is a picture of the state if no output point has depth zero. -/
theorem vtu_picture (P : Printer K W) {div : ℕ} (hd : 0 < div) (S : Scene K) (hz : NoZeroDepth div S) :
    ∃ pic, readVtu (vtuFile P div S) = some pic ∧ Shows P div S pic (Speed P S pic) := by
  have hpoint := readXml_append (· == np div * S.elts.length) (vtuPointArrays P div S) 59
    (.w "</PointData>" :: .w "<CellData>" :: ((cellArrays P div S).flatMap (fun a => dataArray a.1 a.2) ++ .w "</CellData>" :: vtuFoot P div S))
    (by
      intro a ha
      rcases List.mem_append.mp ha with h | h
      · obtain ⟨h1, h2⟩ := pointArrays_ok P div S a h
        exact ⟨by simp [h1], h2⟩
      · rw [List.mem_singleton] at h
        subst h
        refine ⟨?_, ?_⟩
        · simp only [speeds_flat, sample_length, post_length, beq_self_eq_true]
        · rw [List.all_eq_true]
          intro t ht
          obtain ⟨e, he, i, j, hij, rfl⟩ := speeds_mem P div S ht
          rw [speedTok, if_neg]
          · rfl
          · exact hz e he i j hij)
    (by intro l h; simp at h)
  have hcell := readXml_append (· == div * div * S.elts.length) (cellArrays P div S) 57 (.w "</CellData>" :: vtuFoot P div S)
    (by
      intro a ha
      obtain ⟨h1, h2⟩ := cellArrays_ok P hd S a ha
      exact ⟨by simp [h1], h2⟩)
    (by intro l h; simp at h)
  refine ⟨⟨(initAll div S).1.map fun p => (P.pt p.x, P.pt p.y, P.pt 0), (initAll div S).2.map fun c => [c.1, c.2.1, c.2.2], List.replicate (initAll div S).2.length 5,
    cellArrays P div S, vtuPointArrays P div S⟩, ?_, ?_⟩
  · rw [vtu_flat]
    simp only [vtuHead, init_points, init_cells hd, List.cons_append, List.nil_append]
    simp only [readVtu]
    rw [show (64 : ℕ) = (vtuPointArrays P div S).length + 59 from rfl, hpoint]
    simp only [Option.bind_some]
    rw [show (vtuPointArrays P div S).length + 59 = (cellArrays P div S).length + 57 from rfl, hcell]
    simp only [Option.bind_some]
    rw [readPoints_eq P hd, init_cells hd]
  · refine shows_of P hd S _ rfl rfl (by simp) ?_ ?_ ?_
    · intro a ha
      simp only [pointArrays, List.mem_cons, List.not_mem_nil, or_false] at ha
      rcases ha with rfl | rfl | rfl | rfl <;> rfl
    · intro a ha
      simp only [cellArrays, List.mem_cons, List.not_mem_nil, or_false] at ha
      rcases ha with rfl | rfl | rfl | rfl | rfl | rfl | rfl <;> rfl
    · intro i e he j z hj
      have h1 : (vtuPointArrays P div S).lookup "velocity_point" =
        some (List.zipWith (speedTok P S.sq) (sample S (vtkPostPoint div) S.at) (sample S (vtkPostPoint div) S.bathAt)) := rfl
      have h2 := sample_get S (vtkPostPoint div) (fun e z => speedTok P S.sq (S.at e z) (S.bathAt e z)) he hj
      rw [post_length] at h2
      simp only [Speed, value, h1, Option.bind_some, speeds_flat, h2]
      obtain ⟨a, b, hab, rfl⟩ := mem_post.mp (List.mem_of_getElem? hj)
      rw [speedTok, if_neg]
      · simp only [pow_two]
        rfl
      · exact hz e (List.mem_of_getElem? he) a b hab

omit [IsStrictOrderedRing K] in
/-- Otherwise the file cannot be read. -/
theorem vtu_unreadable (P : Printer K W) {div : ℕ} (S : Scene K) (hz : ¬ NoZeroDepth div S) : readVtu (vtuFile P div S) = none := by
  have hbad : Tok.bad ∈ List.zipWith (speedTok P S.sq) (sample S (vtkPostPoint div) S.at) (sample S (vtkPostPoint div) S.bathAt) := by
    simp only [NoZeroDepth] at hz
    push Not at hz
    obtain ⟨e, he, i, j, hij, h0⟩ := hz
    rw [speeds_flat]
    refine List.mem_flatMap.mpr ⟨e, he, List.mem_map.mpr ⟨_, mem_post.mpr ⟨i, j, hij, rfl⟩, ?_⟩⟩
    simp only [speedTok]
    rw [if_pos]
    exact h0
  have h := readXml_bad (· == np div * S.elts.length) (pointArrays P div S) 59
    ("velocity_point", List.zipWith (speedTok P S.sq) (sample S (vtkPostPoint div) S.at) (sample S (vtkPostPoint div) S.bathAt))
    (.w "</PointData>" :: .w "<CellData>" :: ((cellArrays P div S).flatMap (fun a => dataArray a.1 a.2) ++ .w "</CellData>" :: vtuFoot P div S))
    (by
      intro a ha
      obtain ⟨h1, h2⟩ := pointArrays_ok P div S a ha
      exact ⟨by simp [h1], h2⟩)
    hbad
    (by
      intro s hs
      obtain ⟨e, he, i, j, hij, h1⟩ := speeds_mem P div S hs
      rw [speedTok] at h1
      split at h1 <;> cases h1)
  rw [vtu_flat]
  simp only [vtuHead, init_points, List.cons_append, List.nil_append, vtuPointArrays, List.flatMap_append, List.flatMap_cons, List.flatMap_nil, List.append_nil, List.append_assoc]
  simp only [readVtu]
  rw [show (64 : ℕ) = (pointArrays P div S).length + (59 + 1) from rfl, h]
  rfl

end Verif.Output.Props
