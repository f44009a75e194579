import Verif.Model.InputFile
import Verif.Props.SweInputs
import Verif.Props.Names

/-!
# C71: the input file of the parallel run

The partitioner reads an input file and writes another one, from which the parallel program is started. Everything but the mesh is the same in
both, and the mesh files are those of the partitioner.
-/

namespace Verif.Input.Props

open Verif.Input

variable {V Tm P Q : Type}

/-- Times that have been read survive being written. -/
def TimeLaw (L : Lib V Tm) : Prop := ∀ s, L.readTime (L.writeTime (L.readTime s)) = L.readTime s

/-! ## What reading can produce -/

/-- A kind of output whose number of steps belongs to its frequency. -/
def EveryOk (L : Lib V Tm) (dt : V) (o : Option (Every V)) : Prop := ∀ e, o = some e → e.step = L.steps e.frequency dt

/-- Input as the constructor leaves it. -/
structure Wf (L : Lib V Tm) (f : File V Tm P) : Prop where
  format : f.mesh.format = "Adcirc" ∨ f.mesh.format = "Meta"
  bcis : f.mesh.bcis = withEnding f.mesh.file ".bcis"
  dbmd : f.mesh.dbmd = withEnding f.mesh.file ".dbmd"
  start : L.readTime (L.writeTime f.stepper.start) = f.stepper.start
  stop : L.readTime (L.writeTime f.stepper.stop) = f.stepper.stop
  run : f.stepper.runTime = L.seconds f.stepper.stop f.stepper.start
  writer : ∀ w, f.writer = some w →
    slashed w.path = .ok w.path ∧ EveryOk L f.stepper.dt w.vtk ∧ EveryOk L f.stepper.dt w.vtu ∧ EveryOk L f.stepper.dt w.modal

theorem slashed_again {s t : String} (h : slashed s = .ok t) : slashed t = .ok t := by
  rw [slashed] at h
  cases hs : s.toList.getLast? with
  | none => rw [hs] at h; cases h
  | some c =>
    rw [hs] at h
    by_cases hc : c ≠ '/'
    · simp only [if_pos hc] at h
      cases h
      simp [slashed]
    · simp only [if_neg hc] at h
      cases h
      rw [slashed, hs]
      simp only [if_neg hc]

theorem optional_cases {α : Type} {n : Yaml} {k : String} {f : Yaml → Res α} {r : Option α} (h : optional n k f = .ok r) :
    ∀ x, r = some x → ∃ y, f y = .ok x := by
  obtain ⟨o, _, h⟩ := bindOk h
  intro x hx
  subst hx
  cases o with
  | none => cases h
  | some y =>
    obtain ⟨z, hz, h⟩ := bindOk h
    cases h
    exact ⟨y, hz⟩

theorem guard_ok {α : Type} {c : Res Bool} {r : α} {f : Res α} (h : (c >>= fun b => if b then f else throw .exc) = .ok r) : f = .ok r := by
  obtain ⟨b, _, h⟩ := bindOk h
  cases b with
  | false => cases h
  | true => exact h

theorem every_read {S : Scalars V} {L : Lib V Tm} {dt : V} {y : Yaml} {e : Every V} (h : readEvery S L dt y = .ok e) :
    e.step = L.steps e.frequency dt := by
  obtain ⟨f, _, h⟩ := bindOk (guard_ok h)
  cases h; rfl

theorem writer_read {S : Scalars V} {L : Lib V Tm} {dt : V} {y : Yaml} {w : WriterIn V} (h : readWriter S L dt y = .ok w) :
    slashed w.path = .ok w.path ∧ EveryOk L dt w.vtk ∧ EveryOk L dt w.vtu ∧ EveryOk L dt w.modal := by
  obtain ⟨_, _, h⟩ := bindOk h
  obtain ⟨_, _, h⟩ := bindOk h
  obtain ⟨p, hp, h⟩ := bindOk h
  obtain ⟨l, _, h⟩ := bindOk h
  obtain ⟨a, ha, h⟩ := bindOk h
  obtain ⟨b, hb, h⟩ := bindOk h
  obtain ⟨c, hc, h⟩ := bindOk h
  cases h
  refine ⟨slashed_again hp, ?_, ?_, ?_⟩ <;> intro e he
  · obtain ⟨y, hy⟩ := optional_cases ha e he; exact every_read hy
  · obtain ⟨y, hy⟩ := optional_cases hb e he; exact every_read hy
  · obtain ⟨y, hy⟩ := optional_cases hc e he; exact every_read hy

/-- The constructor leaves well-formed input. -/
theorem read_wf {S : Scalars V} {L : Lib V Tm} (hL : TimeLaw L) {pr : Yaml → Res P} {n : Yaml} {f : File V Tm P} (h : readFile S L pr n = .ok f) :
    Wf L f := by
  obtain ⟨_, _, h⟩ := bindOk h
  obtain ⟨o, _, h⟩ := bindOk h
  obtain ⟨_, _, h⟩ := bindOk h
  obtain ⟨m, hm, h⟩ := bindOk h
  obtain ⟨_, _, h⟩ := bindOk h
  obtain ⟨t, ht, h⟩ := bindOk h
  obtain ⟨_, _, h⟩ := bindOk h
  obtain ⟨p, _, h⟩ := bindOk h
  obtain ⟨b, _, h⟩ := bindOk h
  obtain ⟨w, hw, h⟩ := bindOk h
  cases h
  have hm := guard_ok hm
  obtain ⟨fm, _, hm⟩ := bindOk hm
  by_cases hf : fm = "Adcirc" ∨ fm = "Meta"
  · rw [if_pos hf] at hm
    obtain ⟨_, _, hm⟩ := bindOk hm
    obtain ⟨_, _, hm⟩ := bindOk hm
    obtain ⟨_, _, hm⟩ := bindOk hm
    cases hm
    have ht := guard_ok ht
    obtain ⟨_, _, ht⟩ := bindOk ht
    obtain ⟨_, _, ht⟩ := bindOk ht
    obtain ⟨_, _, ht⟩ := bindOk ht
    obtain ⟨_, _, ht⟩ := bindOk ht
    obtain ⟨_, _, ht⟩ := bindOk ht
    obtain ⟨_, _, ht⟩ := bindOk ht
    cases ht
    refine ⟨hf, rfl, rfl, hL _, hL _, rfl, fun v hv => ?_⟩
    obtain ⟨y, hy⟩ := optional_cases hw v hv
    exact writer_read hy
  · rw [if_neg hf] at hm
    cases hm

/-! ## Reading what has been written -/

theorem need_map {l : List (String × Yaml)} {k : String} {y : Yaml} (h : l.lookup k = some y) : need (.map l) k = .ok y := by
  have : need (.map l) k = (match l.lookup k with | some y => .ok y | none => .error .exc) := rfl
  rw [this, h]

theorem optional_map {α : Type} {l : List (String × Yaml)} {k : String} {f : Yaml → Res α} {w : α → Yaml} {o : Option α}
    (h : l.lookup k = o.map w) (hf : ∀ x, o = some x → f (w x) = .ok x) : optional (.map l) k f = .ok o := by
  have : optional (.map l) k f = (match l.lookup k with | some y => (f y >>= fun x => .ok (some x)) | none => .ok none) := rfl
  rw [this, h]
  cases o with
  | none => rfl
  | some x => simp only [Option.map_some]; rw [hf x rfl]; rfl

theorem mesh_written (S : Scalars V) (m : MeshIn) (hf : m.format = "Adcirc" ∨ m.format = "Meta") (hb : m.bcis = withEnding m.file ".bcis")
    (hd : m.dbmd = withEnding m.file ".dbmd") : readMesh S (writeMesh m) = .ok m := by
  have hc : readCoord (writeCoord m.coord) = .ok m.coord := by cases m.coord <;> rfl
  simp [readMesh, writeMesh, Yaml.hasAll, Yaml.get, Yaml.stringAt, Yaml.asString, Yaml.at, List.lookup_cons, bind, Except.bind, pure, Except.pure]
  rw [if_pos hf, hc]
  simp only
  rw [← hb, ← hd]

theorem step_written {S : Scalars V} (hS : Lawful S) (L : Lib V Tm) (t : StepIn V Tm) (ha : L.readTime (L.writeTime t.start) = t.start)
    (hb : L.readTime (L.writeTime t.stop) = t.stop) (hr : t.runTime = L.seconds t.stop t.start) : readStep S L (writeStep S L t) = .ok t := by
  simp [readStep, writeStep, readRamp, Yaml.hasAll, Yaml.get, Yaml.stringAt, Yaml.doubleAt, Yaml.uintAt, Yaml.asString, Yaml.asDouble, Yaml.asUint,
    Yaml.at, List.lookup_cons, bind, Except.bind, pure, Except.pure, hS.double, hS.uint, orThrow, ha, hb]
  rw [← hr]

theorem every_written {S : Scalars V} (hS : Lawful S) (L : Lib V Tm) (dt : V) (e : Every V) (he : e.step = L.steps e.frequency dt) :
    readEvery S L dt (writeEvery S e) = .ok e := by
  simp [readEvery, writeEvery, Yaml.hasAll, Yaml.get, Yaml.doubleAt, Yaml.asDouble, Yaml.at, List.lookup_cons, bind, Except.bind, pure, Except.pure,
    hS.double, orThrow]
  rw [← he]

theorem log_written {S : Scalars V} (hS : Lawful S) (l : Bool × String) : readLog S (writeLog S l) = .ok l := by
  simp [readLog, writeLog, Yaml.hasAll, Yaml.get, Yaml.boolAt, Yaml.asBool, Yaml.stringAt, Yaml.asString, Yaml.at, List.lookup_cons, bind, Except.bind,
    pure, Except.pure, hS.bool, orThrow]

theorem balance_written {S : Scalars V} (hS : Lawful S) (b : BalanceIn V) : readBalance S (writeBalance S b) = .ok b := by
  simp [readBalance, writeBalance, Yaml.hasAll, Yaml.get, Yaml.doubleAt, Yaml.asDouble, Yaml.stringAt, Yaml.asString, Yaml.at, List.lookup_cons, bind,
    Except.bind, pure, Except.pure, hS.double, orThrow]

theorem lookup_last (k : String) (o : Option Yaml) : (entryOf k o).lookup k = o := by
  cases o with
  | none => rfl
  | some y => simp [entryOf]

theorem lookup_or (k : String) (o : Option Yaml) (l : List (String × Yaml)) (h : l.lookup k = none) : (entryOf k o ++ l).lookup k = o := by
  cases o with
  | none => exact h
  | some y => exact lookup_here k y l

theorem lookup_other (k j : String) (o : Option Yaml) (h : k ≠ j) : (entryOf j o).lookup k = none := by
  have := lookup_skip k j o [] h
  rwa [List.append_nil] at this

theorem writer_written {S : Scalars V} (hS : Lawful S) (L : Lib V Tm) (dt : V) (w : WriterIn V) (hp : slashed w.path = .ok w.path)
    (ha : EveryOk L dt w.vtk) (hb : EveryOk L dt w.vtu) (hc : EveryOk L dt w.modal) : readWriter S L dt (writeWriter S w) = .ok w := by
  rw [readWriter, writeWriter, need_map (lookup_here _ _ _), okBind]
  simp only [Yaml.asString]
  rw [okBind, hp, okBind]
  rw [optional_map (o := w.log) (w := writeLog S) (by
      rw [lookup_skip _ _ _ _ (by decide)]
      refine lookup_or _ _ _ ?_
      repeat rw [lookup_skip _ _ _ _ (by decide)]
      exact lookup_other _ _ _ (by decide)) (fun x _ => log_written hS x), okBind]
  rw [optional_map (o := w.vtk) (w := writeEvery S) (by
      repeat rw [lookup_skip _ _ _ _ (by decide)]
      refine lookup_or _ _ _ ?_
      repeat rw [lookup_skip _ _ _ _ (by decide)]
      exact lookup_other _ _ _ (by decide)) (fun x hx => every_written hS L dt x (ha x hx)), okBind]
  rw [optional_map (o := w.vtu) (w := writeEvery S) (by
      repeat rw [lookup_skip _ _ _ _ (by decide)]
      refine lookup_or _ _ _ ?_
      exact lookup_other _ _ _ (by decide)) (fun x hx => every_written hS L dt x (hb x hx)), okBind]
  rw [optional_map (o := w.modal) (w := writeEvery S) (by
      repeat rw [lookup_skip _ _ _ _ (by decide)]
      exact lookup_last _ _) (fun x hx => every_written hS L dt x (hc x hx)), okBind]
  rfl

/-- Reading what has been written: everything general as before, the problem as its own reader takes it. -/
theorem written_read {S : Scalars V} (hS : Lawful S) (L : Lib V Tm) (pw : P → Yaml) (pr : Yaml → Res Q) (f : File V Tm P) (hf : Wf L f) :
    readFile S L pr (writeFile S L pw f) = (pr (pw f.problem) >>= fun q => .ok ⟨f.order, f.mesh, f.stepper, q, f.balance, f.writer⟩) := by
  rw [readFile, writeFile, need_map (lookup_here _ _ _), okBind]
  have ho : Yaml.asUint S (.scalar (S.ofUint f.order)) = .ok f.order := by simp [Yaml.asUint, hS.uint, orThrow]
  rw [ho, okBind]
  rw [need_map (y := writeMesh f.mesh) (by rw [lookup_skip _ _ _ _ (by decide), lookup_here]), okBind,
    mesh_written S f.mesh hf.format hf.bcis hf.dbmd, okBind]
  rw [need_map (y := writeStep S L f.stepper) (by repeat rw [lookup_skip _ _ _ _ (by decide)]
                                                  rw [lookup_here]), okBind,
    step_written hS L f.stepper hf.start hf.stop hf.run, okBind]
  rw [need_map (y := pw f.problem) (by repeat rw [lookup_skip _ _ _ _ (by decide)]
                                       rw [lookup_here]), okBind]
  congr 1
  funext q
  rw [optional_map (o := f.balance) (w := writeBalance S) (by
      repeat rw [lookup_skip _ _ _ _ (by decide)]
      exact lookup_last _ _) (fun x _ => balance_written hS x), okBind]
  rw [optional_map (o := f.writer) (w := writeWriter S) (by
      repeat rw [lookup_skip _ _ _ _ (by decide)]
      refine lookup_or _ _ _ ?_
      exact lookup_other _ _ _ (by decide))
    (fun w hw => by obtain ⟨a, b, c, d⟩ := hf.writer w hw; exact writer_written hS L _ w a b c d), okBind]
  rfl

/-- The problem is read from its own node only, and nothing else depends on it. -/
theorem problem_apart {S : Scalars V} {L : Lib V Tm} {pr : Yaml → Res P} {n : Yaml} {f : File V Tm P} (h : readFile S L pr n = .ok f) :
    ∃ y, pr y = .ok f.problem ∧ ∀ (Q : Type) (pr' : Yaml → Res Q),
      readFile S L pr' n = (pr' y >>= fun q => .ok ⟨f.order, f.mesh, f.stepper, q, f.balance, f.writer⟩) := by
  obtain ⟨y1, h1, h⟩ := bindOk h
  obtain ⟨o, h2, h⟩ := bindOk h
  obtain ⟨y2, h3, h⟩ := bindOk h
  obtain ⟨m, h4, h⟩ := bindOk h
  obtain ⟨y3, h5, h⟩ := bindOk h
  obtain ⟨t, h6, h⟩ := bindOk h
  obtain ⟨y, h7, h⟩ := bindOk h
  obtain ⟨p, h8, h⟩ := bindOk h
  obtain ⟨b, h9, h⟩ := bindOk h
  obtain ⟨w, h10, h⟩ := bindOk h
  cases h
  refine ⟨y, h8, fun Q pr' => ?_⟩
  rw [readFile, h1, okBind, h2, okBind, h3, okBind, h4, okBind, h5, okBind, h6, okBind, h7, okBind]
  congr 1
  funext q
  rw [h9, okBind, h10, okBind]
  rfl

theorem meta_stem (s : String) : Partition.stem (withEnding s ".meta").toList = Partition.stem s.toList := by
  rw [withEnding, String.toList_ofList, Partition.Props.meta_lit]
  exact Partition.Props.stem_dot _ _ (by decide)

/-- The names derived from the mesh name do not change when the mesh is replaced by its `.meta` file. -/
theorem meta_ending (s e : String) : withEnding (withEnding s ".meta") e = withEnding s e := by
  rw [withEnding, meta_stem, ← withEnding]

theorem toMeta_wf {L : Lib V Tm} {f : File V Tm P} (h : Wf L f) : Wf L (toMeta f) :=
  ⟨.inr rfl, by rw [show (toMeta f).mesh.bcis = f.mesh.bcis from rfl, h.bcis]; exact (meta_ending _ _).symm,
    by rw [show (toMeta f).mesh.dbmd = f.mesh.dbmd from rfl, h.dbmd]; exact (meta_ending _ _).symm, h.start, h.stop, h.run, h.writer⟩

variable [LinearOrder V]

/-- Settings keep the accepted name. -/
theorem problem_round_trip (S : Scalars V) (hS : Lawful S) (D : Defaults V) (names : List String) (y : Yaml) (s : Settings V)
    (h : readProblem S D names y = .ok s) : readProblem S D names (writeSwe S s) = .ok s := by
  obtain ⟨name, hn, h⟩ := bindOk h
  by_cases hm : name ∈ names
  · rw [if_pos hm] at h
    have hname : s.name = name := by
      obtain ⟨name', hn', h'⟩ := bindOk h
      rw [hn] at hn'
      cases hn'
      obtain ⟨_, _, h'⟩ := bindOk h'
      obtain ⟨_, _, h'⟩ := bindOk h'
      obtain ⟨_, _, h'⟩ := bindOk h'
      obtain ⟨_, _, h'⟩ := bindOk h'
      obtain ⟨_, _, h'⟩ := bindOk h'
      obtain ⟨_, _, h'⟩ := bindOk h'
      obtain ⟨_, _, h'⟩ := bindOk h'
      obtain ⟨_, _, h'⟩ := bindOk h'
      obtain ⟨_, _, h'⟩ := bindOk h'
      obtain ⟨_, _, h'⟩ := bindOk h'
      obtain ⟨_, _, h'⟩ := bindOk h'
      obtain ⟨_, _, h'⟩ := bindOk h'
      cases h'; rfl
    have hw : Yaml.stringAt S (writeSwe S s) "name" = .ok name := by
      rw [← hname]
      simp [writeSwe, Yaml.stringAt, Yaml.at, Yaml.get, entryOf, Yaml.asString, bind, Except.bind]
    rw [readProblem, hw, okBind, if_pos hm]
    exact settings_round_trip S hS D y s h
  · rw [if_neg hm] at h; cases h

/-- **C71** Input that has been read is unchanged after being written with `write_to` and read once more. -/
theorem file_round_trip (S : Scalars V) (hS : Lawful S) (D : Defaults V) (L : Lib V Tm) (hL : TimeLaw L) (names : List String) (n : Yaml)
    (f : File V Tm (Settings V)) (h : readFile S L (readProblem S D names) n = .ok f) :
    readFile S L (readProblem S D names) (writeFile S L (writeSwe S) f) = .ok f := by
  obtain ⟨y, hy, _⟩ := problem_apart h
  rw [written_read hS L (writeSwe S) (readProblem S D names) f (read_wf hL h), problem_round_trip S hS D names y _ hy]
  rfl

/-- **C71** Whenever the program accepts an input file, the partitioner accepts it too, and the file it writes is read by the parallel program as
the same input with the mesh replaced by the `.meta` file; the files of submesh `(loc, sub)` derived from it are those which the partitioner writes. -/
theorem parallel_input (S : Scalars V) (hS : Lawful S) (D : Defaults V) (L : Lib V Tm) (hL : TimeLaw L) (names : List String) (n : Yaml)
    (g : File V Tm (Settings V)) (h : readFile S L (readProblem S D names) n = .ok g) :
    ∃ f : File V Tm Yaml, readFile S L keepNode n = .ok f ∧
      readFile S L (readProblem S D names) (writeFile S L id (toMeta f)) = .ok (toMeta g) ∧
      ∀ loc sub, forSubmesh (toMeta g) loc sub = .ok { g with mesh := { g.mesh with
        format := "Meta"
        file := String.ofList (Partition.metaName g.mesh.file.toList loc sub)
        dbmd := String.ofList (Partition.dbmdName g.mesh.file.toList loc sub) } } := by
  obtain ⟨y, hy, hall⟩ := problem_apart h
  have hf := hall Yaml keepNode
  rw [keepNode, okBind] at hf
  refine ⟨_, hf, ?_, ?_⟩
  · rw [written_read hS L id (readProblem S D names) _ (toMeta_wf (read_wf hL hf))]
    show (readProblem S D names y >>= _) = _
    rw [hy]
    rfl
  · intro loc sub
    have hn := Partition.Props.names_agree g.mesh.file.toList loc sub
    have ha : Partition.insertBeforeDot (toMeta g).mesh.file.toList (Partition.suffix loc sub) = .ok (Partition.metaName g.mesh.file.toList loc sub) := by
      rw [← hn.2.1]
      show Partition.insertBeforeDot (withEnding g.mesh.file ".meta").toList _ = _
      rw [withEnding, String.toList_ofList]
      rfl
    have hb : Partition.insertBeforeDot (toMeta g).mesh.dbmd.toList (Partition.suffix loc sub) = .ok (Partition.dbmdName g.mesh.file.toList loc sub) := by
      rw [← hn.2.2]
      rw [show (toMeta g).mesh.dbmd = g.mesh.dbmd from rfl, (read_wf hL h).dbmd, ← meta_ending, withEnding, String.toList_ofList, withEnding,
        String.toList_ofList]
      rfl
    rw [forSubmesh, ha, okBind, hb, okBind]
    rfl

/-! ## Examples -/

/-- A library in which times are their text. -/
def textLib : Lib (Fin 8) String := ⟨id, id, fun _ _ => 5, fun f dt => if dt = 2 then 0 else f.val, 2⟩

theorem text_time : TimeLaw textLib := fun _ => rfl

/-- An input file. -/
def inputFile : Yaml :=
  .map [("polynomial_order", .scalar "II"), ("problem", sampleFile),
    ("mesh", .map [("format", .scalar "Adcirc"), ("file_name", .scalar "a.b/c.14"), ("coordinate_system", .scalar "polar")]),
    ("timestepping", .map [("start_time", .scalar "t0"), ("end_time", .scalar "t1"), ("dt", .scalar "1"), ("order", .scalar "I"),
      ("nstages", .scalar "II")]),
    ("output", .map [("path", .scalar "out"), ("vtu", .map [("frequency", .scalar "4")])])]

def inputRead : File (Fin 8) String (Settings (Fin 8)) :=
  ⟨2, ⟨"Adcirc", "a.b/c.14", "a.b/c.bcis", "a.b/c.dbmd", .polar⟩, ⟨"t0", "t1", 5, 3, 2, 1, 2⟩, sampleSettings, none,
    some ⟨"out/", none, none, some ⟨6, 6⟩, none⟩⟩

theorem input_read : readFile digitScalars textLib (readProblem digitScalars someDefaults sweNames) inputFile = .ok inputRead := by
  decide +kernel

example : readFile digitScalars textLib (readProblem digitScalars someDefaults sweNames)
    (writeFile digitScalars textLib (writeSwe digitScalars) inputRead) = .ok inputRead :=
  file_round_trip digitScalars digit_lawful someDefaults textLib text_time sweNames inputFile inputRead input_read

/-- The names of the parallel run. -/
example : (toMeta inputRead).mesh = ⟨"Meta", "a.b/c.meta", "a.b/c.bcis", "a.b/c.dbmd", .polar⟩ ∧
    (forSubmesh (toMeta inputRead) 3 0).map (fun f => (f.mesh.file, f.mesh.dbmd, f.mesh.bcis)) =
      .ok ("a.b/c_3_0.meta", "a.b/c_3_0.dbmd", "a.b/c.bcis") := by decide +kernel

/-- An empty output path is undefined behaviour; an unknown problem name and a missing section are exceptions. -/
example : readFile digitScalars textLib keepNode (.map [("polynomial_order", .scalar "II"), ("problem", sampleFile),
    ("mesh", .map [("format", .scalar "Adcirc"), ("file_name", .scalar "c.14"), ("coordinate_system", .scalar "polar")]),
    ("timestepping", .map [("start_time", .scalar "t0"), ("end_time", .scalar "t1"), ("dt", .scalar "1"), ("order", .scalar "I"),
      ("nstages", .scalar "II")]), ("output", .map [("path", .scalar "")])]) |>.map (fun _ => ()) |> (· = .error .ub) := by decide +kernel

example : readFile digitScalars textLib (readProblem digitScalars someDefaults gnNames) inputFile = .error .exc := by decide +kernel

end Verif.Input.Props
