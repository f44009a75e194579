import Verif.Model.SweInputs
import Mathlib.Order.Fin.Basic
import Mathlib.Tactic

/-!
# C55: settings of the shallow water problem survive being rewritten
-/

namespace Verif.Input.Props

open Verif.Input

variable {V : Type} [LinearOrder V]

/-- What is required of conversions between numbers and text: a number is read back as itself. -/
structure Lawful (S : Scalars V) : Prop where
  double : ∀ x, S.toDouble (S.ofDouble x) = some x
  uint : ∀ n, S.toUint (S.ofUint n) = some n
  bool : ∀ b, S.toBool (S.ofBool b) = some b

theorem bindOk {α β : Type} {a : Res α} {f : α → Res β} {b : β} (h : (a >>= f) = .ok b) : ∃ x, a = .ok x ∧ f x = .ok b := by
  cases a with
  | error e => cases h
  | ok x => exact ⟨x, rfl, h⟩

theorem okBind {α β : Type} (a : α) (f : α → Res β) : ((Except.ok a : Res α) >>= f) = f a := rfl

theorem lookup_skip (k j : String) (o : Option Yaml) (l : List (String × Yaml)) (h : k ≠ j) :
    (entryOf j o ++ l).lookup k = l.lookup k := by
  cases o with
  | none => rfl
  | some y =>
    have : (k == j) = false := by simpa using h
    simp [entryOf, List.lookup_cons, this]

theorem lookup_here (k : String) (y : Yaml) (l : List (String × Yaml)) : (entryOf k (some y) ++ l).lookup k = some y := by
  simp [entryOf]

theorem lookup_none (k : String) (l : List (String × Yaml)) : (entryOf k none ++ l).lookup k = l.lookup k := rfl

/-! ## What reading can produce -/

/-- Settings as the constructor leaves them. -/
structure Canonical (D : Defaults V) (s : Settings V) : Prop where
  sp : s.sp.enable = false → s.sp = defSpherical D
  ic : (s.ic.type = .default → s.ic = defInitial D) ∧ (s.ic.type = .function → s.ic = { defInitial D with type := .function })
  bf : (s.bf.type = .none → s.bf = defFriction D) ∧ (s.bf.type = .chezy → s.bf.file = "") ∧ (s.bf.type ≠ .none → ¬ s.bf.coefficient < D.zero)
  meteo : (s.meteo.enable = false → s.meteo = defMeteo) ∧ (s.meteo.enable = true → ∃ x, s.meteo.frequency = some x)
  wd : s.wd.enable = false → s.wd = defWetDry D
  sl : (s.sl.enable = false → s.sl = defSlope D) ∧ (s.sl.enable = true → s.sl.name = "Cockburn-Shu")

theorem section_cases {α : Type} {n : Yaml} {k : String} {d r : α} {f : α → Yaml → Res α} (h : section_ n k d f = .ok r) :
    r = d ∨ ∃ y, f d y = .ok r := by
  obtain ⟨o, _, h⟩ := bindOk h
  cases o with
  | none => exact .inl (by cases h; rfl)
  | some y => exact .inr ⟨y, h⟩

/-- A conditional section: either the default or the value read. -/
theorem guard_cases {α : Type} {c : Res Bool} {d r : α} {f : Res α} (h : (c >>= fun b => if b then f else pure d) = .ok r) :
    r = d ∨ f = .ok r := by
  obtain ⟨b, _, h⟩ := bindOk h
  cases b with
  | false => exact .inl (by cases h; rfl)
  | true => exact .inr h

omit [LinearOrder V] in
theorem spherical_read {S : Scalars V} {d r : Spherical V} {y : Yaml} (h : readSpherical S d y = .ok r) : r = d ∨ r.enable = true := by
  rcases guard_cases h with h | h
  · exact .inl h
  · obtain ⟨_, _, h⟩ := bindOk h
    obtain ⟨_, _, h⟩ := bindOk h
    obtain ⟨_, _, h⟩ := bindOk h
    cases h; exact .inr rfl

omit [LinearOrder V] in
theorem initial_read {S : Scalars V} {d r : Initial V} {y : Yaml} (h : readInitial S d y = .ok r) :
    r = d ∨ r.type = .constant ∨ r = { d with type := .function } := by
  rcases guard_cases h with h | h
  · exact .inl h
  obtain ⟨t, _, h⟩ := bindOk h
  by_cases ht : t = "Constant"
  · rw [if_pos ht] at h
    rcases guard_cases h with h | h
    · exact .inl h
    · obtain ⟨_, _, h⟩ := bindOk h
      obtain ⟨_, _, h⟩ := bindOk h
      obtain ⟨_, _, h⟩ := bindOk h
      cases h; exact .inr (.inl rfl)
  · rw [if_neg ht] at h
    by_cases ht : t = "Function"
    · rw [if_pos ht] at h; cases h; exact .inr (.inr rfl)
    · rw [if_neg ht] at h; cases h; exact .inl rfl

theorem friction_read {z : V} {S : Scalars V} {d r : Friction V} {y : Yaml} (h : readFriction z S d y = .ok r) :
    r = d ∨ (r.type = .chezy ∧ r.file = d.file ∧ ¬ r.coefficient < z) ∨ (r.type = .manning ∧ ¬ r.coefficient < z) := by
  rcases guard_cases h with h | h
  · exact .inl h
  obtain ⟨t, _, h⟩ := bindOk h
  by_cases ht : t = "Chezy"
  · rw [if_pos ht] at h
    rcases guard_cases h with h | h
    · exact .inl h
    · obtain ⟨c, _, h⟩ := bindOk h
      by_cases hc : c < z
      · rw [if_pos hc] at h; cases h
      · rw [if_neg hc] at h; cases h; exact .inr (.inl ⟨rfl, rfl, hc⟩)
  · rw [if_neg ht] at h
    by_cases ht : t = "Manning"
    · rw [if_pos ht] at h
      rcases guard_cases h with h | h
      · exact .inl h
      · obtain ⟨c, _, h⟩ := bindOk h
        obtain ⟨f, _, h⟩ := bindOk h
        by_cases hc : c < z
        · rw [if_pos hc] at h; cases h
        · rw [if_neg hc] at h; cases h; exact .inr (.inr ⟨rfl, hc⟩)
    · rw [if_neg ht] at h; cases h; exact .inl rfl

omit [LinearOrder V] in
theorem meteo_read {S : Scalars V} {d r : Meteo V} {y : Yaml} (h : readMeteo S d y = .ok r) :
    r = d ∨ (r.enable = true ∧ ∃ x, r.frequency = some x) := by
  rcases guard_cases h with h | h
  · exact .inl h
  · obtain ⟨_, _, h⟩ := bindOk h
    obtain ⟨_, _, h⟩ := bindOk h
    obtain ⟨_, _, h⟩ := bindOk h
    obtain ⟨q, _, h⟩ := bindOk h
    cases h; exact .inr ⟨rfl, q, rfl⟩

omit [LinearOrder V] in
theorem wetdry_read {S : Scalars V} {d r : WetDry V} {y : Yaml} (h : readWetDry S d y = .ok r) : r = d ∨ r.enable = true := by
  rcases guard_cases h with h | h
  · exact .inl h
  · obtain ⟨_, _, h⟩ := bindOk h
    cases h; exact .inr rfl

omit [LinearOrder V] in
theorem slope_read {S : Scalars V} {d r : Slope V} {y : Yaml} (h : readSlope S d y = .ok r) :
    r = d ∨ (r.enable = true ∧ r.name = "Cockburn-Shu") := by
  rcases guard_cases h with h | h
  · exact .inl h
  obtain ⟨t, _, h⟩ := bindOk h
  by_cases ht : t = "Cockburn-Shu"
  · rw [if_pos ht] at h
    rcases guard_cases h with h | h
    · exact .inl h
    · obtain ⟨_, _, h⟩ := bindOk h
      obtain ⟨_, _, h⟩ := bindOk h
      cases h; exact .inr ⟨rfl, rfl⟩
  · rw [if_neg ht] at h; cases h; exact .inl rfl

theorem section_or {α : Type} {n : Yaml} {k : String} {d r : α} {f : α → Yaml → Res α} {P : Prop} (h : section_ n k d f = .ok r)
    (hf : ∀ y, f d y = .ok r → r = d ∨ P) : r = d ∨ P := by
  rcases section_cases h with h | ⟨y, h⟩
  · exact .inl h
  · exact hf y h

/-- The constructor leaves canonical settings. -/
theorem read_canonical (S : Scalars V) (D : Defaults V) (n : Yaml) (s : Settings V) (h : readSwe S D n = .ok s) : Canonical D s := by
  obtain ⟨name, _, h⟩ := bindOk h
  obtain ⟨g, _, h⟩ := bindOk h
  obtain ⟨ra, _, h⟩ := bindOk h
  obtain ⟨rw, _, h⟩ := bindOk h
  obtain ⟨sp, hsp, h⟩ := bindOk h
  obtain ⟨ic, hic, h⟩ := bindOk h
  obtain ⟨fs, _, h⟩ := bindOk h
  obtain ⟨bf, hbf, h⟩ := bindOk h
  obtain ⟨me, hme, h⟩ := bindOk h
  obtain ⟨ti, _, h⟩ := bindOk h
  obtain ⟨co, _, h⟩ := bindOk h
  obtain ⟨wd, hwd, h⟩ := bindOk h
  obtain ⟨sl, hsl, h⟩ := bindOk h
  cases h
  refine ⟨?_, ?_, ?_, ?_, ?_, ?_⟩
  · rcases section_or hsp (fun _ => spherical_read) with e | e
    · exact fun _ => e
    · intro h; rw [show sp.enable = false from h] at e; cases e
  · rcases section_or hic (fun _ => initial_read) with rfl | e | rfl
    · exact ⟨fun _ => rfl, (fun h => by cases h)⟩
    · constructor <;> intro h <;> rw [show ic.type = _ from h] at e <;> cases e
    · exact ⟨(fun h => by cases h), fun _ => rfl⟩
  · rcases section_or hbf (fun _ => friction_read) with rfl | ⟨e, f, c⟩ | ⟨e, c⟩
    · exact ⟨fun _ => rfl, (fun h => by cases h), fun h => absurd rfl h⟩
    · refine ⟨?_, fun _ => f, fun _ => c⟩
      intro h; rw [show bf.type = _ from h] at e; cases e
    · refine ⟨?_, ?_, fun _ => c⟩ <;> intro h <;> rw [show bf.type = _ from h] at e <;> cases e
  · rcases section_or hme (fun _ => meteo_read) with rfl | ⟨e, f⟩
    · exact ⟨fun _ => rfl, (fun h => by cases h)⟩
    · exact ⟨(fun h => by rw [show me.enable = _ from h] at e; cases e), fun _ => f⟩
  · rcases section_or hwd (fun _ => wetdry_read) with e | e
    · exact fun _ => e
    · intro h; rw [show wd.enable = false from h] at e; cases e
  · rcases section_or hsl (fun _ => slope_read) with rfl | ⟨e, f⟩
    · exact ⟨fun _ => rfl, (fun h => by cases h)⟩
    · exact ⟨(fun h => by rw [show sl.enable = _ from h] at e; cases e), fun _ => f⟩

/-! ## Reading what has been written -/

theorem section_map {α : Type} {l : List (String × Yaml)} {k : String} {d r : α} {f : α → Yaml → Res α} (o : Option Yaml) (hl : l.lookup k = o)
    (hn : o = none → r = d) (hs : ∀ y, o = some y → f d y = .ok r) : section_ (.map l) k d f = .ok r := by
  subst hl
  have : section_ (.map l) k d f = (match l.lookup k with | some y => f d y | none => .ok d) := rfl
  rw [this]
  cases h : l.lookup k with
  | none => rw [hn h]
  | some y => exact hs y h

omit [LinearOrder V] in
theorem number_map {S : Scalars V} (hS : Lawful S) {l : List (String × Yaml)} {k : String} {d x : V}
    (hl : l.lookup k = some (.scalar (S.ofDouble x))) : readNumber S (.map l) k d = .ok x := by
  have : readNumber S (.map l) k d = (match l.lookup k with | some y => y.asDouble S | none => .ok d) := rfl
  rw [this, hl]
  show orThrow (S.toDouble _) = _
  rw [hS.double]; rfl

omit [LinearOrder V] in
theorem spherical_written {S : Scalars V} (hS : Lawful S) (d s : Spherical V) (y : Yaml) (he : s.enable = true) (h : writeSpherical S s = some y) :
    readSpherical S d y = .ok s := by
  rw [writeSpherical, if_pos he] at h
  cases h
  simp [readSpherical, Yaml.hasAll, Yaml.get, Yaml.doubleAt, Yaml.at, Yaml.asDouble, List.lookup_cons, hS.double, orThrow, okBind, bind, Except.bind,
    pure, Except.pure]
  rw [← he]

omit [LinearOrder V] in
theorem initial_written {S : Scalars V} (hS : Lawful S) (d s : Initial V) (y : Yaml) (hc : s.type = .function → s = { d with type := .function })
    (h : writeInitial S s = some y) : readInitial S d y = .ok s := by
  rw [writeInitial] at h
  cases ht : s.type with
  | default => rw [ht] at h; cases h
  | constant =>
    rw [ht] at h; cases h
    simp [readInitial, readConstant, Yaml.hasAll, Yaml.get, Yaml.doubleAt, Yaml.stringAt, Yaml.asString, Yaml.at, Yaml.asDouble, List.lookup_cons,
      hS.double, orThrow, bind, Except.bind, pure, Except.pure]
    rw [← ht]
  | function =>
    rw [ht] at h; cases h
    simp [readInitial, Yaml.hasAll, Yaml.get, Yaml.stringAt, Yaml.asString, Yaml.at, List.lookup_cons, bind, Except.bind, pure, Except.pure]
    exact (hc ht).symm

theorem friction_written {z : V} {S : Scalars V} (hS : Lawful S) (d s : Friction V) (y : Yaml) (hf : s.type = .chezy → s.file = d.file)
    (hc : s.type ≠ .none → ¬ s.coefficient < z) (h : writeFriction S s = some y) : readFriction z S d y = .ok s := by
  rw [writeFriction] at h
  cases ht : s.type with
  | none => rw [ht] at h; cases h
  | chezy =>
    have hc := hc (by rw [ht]; decide)
    rw [ht] at h; cases h
    simp [readFriction, readChezy, Yaml.hasAll, Yaml.get, Yaml.doubleAt, Yaml.stringAt, Yaml.asString, Yaml.at, Yaml.asDouble, List.lookup_cons,
      hS.double, orThrow, bind, Except.bind, pure, Except.pure, hc]
    rw [← hf ht, ← ht]
  | manning =>
    have hc := hc (by rw [ht]; decide)
    rw [ht] at h; cases h
    simp [readFriction, readManning, Yaml.hasAll, Yaml.get, Yaml.doubleAt, Yaml.stringAt, Yaml.asString, Yaml.at, Yaml.asDouble, List.lookup_cons,
      hS.double, orThrow, bind, Except.bind, pure, Except.pure, hc]
    rw [← ht]

omit [LinearOrder V] in
theorem meteo_written {S : Scalars V} (hS : Lawful S) (d s : Meteo V) (y : Yaml) (he : s.enable = true) (x : V) (hx : s.frequency = some x)
    (h : writeMeteo S s = some y) : readMeteo S d y = .ok s := by
  rw [writeMeteo, if_pos he, hx] at h
  cases h
  simp [readMeteo, freqText, Yaml.hasAll, Yaml.get, Yaml.doubleAt, Yaml.stringAt, Yaml.asString, Yaml.at, Yaml.asDouble, List.lookup_cons, hS.double,
    orThrow, bind, Except.bind, pure, Except.pure]
  rw [← he, ← hx]

omit [LinearOrder V] in
theorem wetdry_written {S : Scalars V} (hS : Lawful S) (d s : WetDry V) (y : Yaml) (he : s.enable = true) (h : writeWetDry S s = some y) :
    readWetDry S d y = .ok s := by
  rw [writeWetDry, if_pos he] at h
  cases h
  simp [readWetDry, Yaml.hasAll, Yaml.get, Yaml.doubleAt, Yaml.at, Yaml.asDouble, List.lookup_cons, hS.double, orThrow, bind, Except.bind, pure,
    Except.pure]
  rw [← he]

omit [LinearOrder V] in
theorem slope_written {S : Scalars V} (hS : Lawful S) (d s : Slope V) (y : Yaml) (he : s.enable = true) (hn : s.name = "Cockburn-Shu")
    (h : writeSlope S s = some y) : readSlope S d y = .ok s := by
  rw [writeSlope, if_pos he, hn] at h
  cases h
  simp [readSlope, readCockburn, Yaml.hasAll, Yaml.get, Yaml.doubleAt, Yaml.stringAt, Yaml.asString, Yaml.at, Yaml.asDouble, List.lookup_cons, hS.double,
    orThrow, bind, Except.bind, pure, Except.pure]
  rw [← he, ← hn]

omit [LinearOrder V] in
theorem switch_written (S : Scalars V) (b : Bool) (y : Yaml) (h : writeSwitch b = some y) : readSwitch S false y = .ok b := by
  cases b with
  | false => cases h
  | true => cases h; rfl

omit [LinearOrder V] in
theorem tide_written (S : Scalars V) (b : Bool) (y : Yaml) (h : writeTide b = some y) : readTide S false y = .ok b := by
  cases b with
  | false => cases h
  | true => cases h; rfl

theorem switch_none {b : Bool} (h : writeSwitch b = none) : b = false := by cases b <;> [rfl; cases h]
theorem tide_none {b : Bool} (h : writeTide b = none) : b = false := by cases b <;> [rfl; cases h]

/-- What is written for canonical settings is read as these settings. -/
theorem canonical_round_trip (S : Scalars V) (hS : Lawful S) (D : Defaults V) (s : Settings V) (hc : Canonical D s) :
    readSwe S D (writeSwe S s) = .ok s := by
  rw [readSwe, writeSwe]
  have hname : ∀ l, Yaml.stringAt S (.map (entryOf "name" (some (.scalar s.name)) ++ l)) "name" = .ok s.name := fun l => by
    simp [Yaml.stringAt, Yaml.at, Yaml.get, lookup_here, Yaml.asString, bind, Except.bind]
  rw [hname, okBind]
  rw [number_map hS (x := s.g) (by rw [lookup_skip _ _ _ _ (by decide), lookup_here]), okBind]
  rw [number_map hS (x := s.rhoAir) (by repeat rw [lookup_skip _ _ _ _ (by decide)]
                                        rw [lookup_here]), okBind]
  rw [number_map hS (x := s.rhoWater) (by repeat rw [lookup_skip _ _ _ _ (by decide)]
                                          rw [lookup_here]), okBind]
  have tail : ∀ (k : String) (o : Option Yaml) (l : List (String × Yaml)), l.lookup k = none → (entryOf k o ++ l).lookup k = o := by
    intro k o l hl
    cases o with
    | none => exact hl
    | some y => exact lookup_here k y l
  have last : ∀ (k j : String) (o : Option Yaml), k ≠ j → (entryOf j o).lookup k = none := by
    intro k j o h
    have := lookup_skip k j o [] h
    rwa [List.append_nil] at this
  rw [section_map (r := s.sp) (writeSpherical S s.sp)
    (by repeat rw [lookup_skip _ _ _ _ (by decide)]
        refine tail _ _ _ ?_
        repeat rw [lookup_skip _ _ _ _ (by decide)]
        exact last _ _ _ (by decide))
    (fun h => hc.sp (by by_contra he; rw [writeSpherical, if_pos (by simpa using he)] at h; cases h))
    (fun y h => spherical_written hS _ _ y (by by_contra he; rw [writeSpherical, if_neg he] at h; cases h) h), okBind]
  rw [section_map (r := s.ic) (writeInitial S s.ic)
    (by repeat rw [lookup_skip _ _ _ _ (by decide)]
        refine tail _ _ _ ?_
        repeat rw [lookup_skip _ _ _ _ (by decide)]
        exact last _ _ _ (by decide))
    (fun h => hc.ic.1 (by rw [writeInitial] at h; cases ht : s.ic.type <;> rw [ht] at h <;> first | rfl | cases h))
    (fun y h => initial_written hS _ _ y hc.ic.2 h), okBind]
  rw [section_map (r := s.functionSource) (writeSwitch s.functionSource)
    (by repeat rw [lookup_skip _ _ _ _ (by decide)]
        refine tail _ _ _ ?_
        repeat rw [lookup_skip _ _ _ _ (by decide)]
        exact last _ _ _ (by decide))
    switch_none (fun y h => switch_written S _ y h), okBind]
  rw [section_map (r := s.bf) (writeFriction S s.bf)
    (by repeat rw [lookup_skip _ _ _ _ (by decide)]
        refine tail _ _ _ ?_
        repeat rw [lookup_skip _ _ _ _ (by decide)]
        exact last _ _ _ (by decide))
    (fun h => hc.bf.1 (by rw [writeFriction] at h; cases ht : s.bf.type <;> rw [ht] at h <;> first | rfl | cases h))
    (fun y h => friction_written hS _ _ y hc.bf.2.1 hc.bf.2.2 h), okBind]
  rw [section_map (r := s.meteo) (writeMeteo S s.meteo)
    (by repeat rw [lookup_skip _ _ _ _ (by decide)]
        refine tail _ _ _ ?_
        repeat rw [lookup_skip _ _ _ _ (by decide)]
        exact last _ _ _ (by decide))
    (fun h => hc.meteo.1 (by by_contra he; rw [writeMeteo, if_pos (by simpa using he)] at h; cases h))
    (fun y h => by
      have he : s.meteo.enable = true := by by_contra he; rw [writeMeteo, if_neg he] at h; cases h
      obtain ⟨x, hx⟩ := hc.meteo.2 he
      exact meteo_written hS _ _ y he x hx h), okBind]
  rw [section_map (r := s.tide) (writeTide s.tide)
    (by repeat rw [lookup_skip _ _ _ _ (by decide)]
        refine tail _ _ _ ?_
        repeat rw [lookup_skip _ _ _ _ (by decide)]
        exact last _ _ _ (by decide))
    tide_none (fun y h => tide_written S _ y h), okBind]
  rw [section_map (r := s.coriolis) (writeSwitch s.coriolis)
    (by repeat rw [lookup_skip _ _ _ _ (by decide)]
        refine tail _ _ _ ?_
        repeat rw [lookup_skip _ _ _ _ (by decide)]
        exact last _ _ _ (by decide))
    switch_none (fun y h => switch_written S _ y h), okBind]
  rw [section_map (r := s.wd) (writeWetDry S s.wd)
    (by repeat rw [lookup_skip _ _ _ _ (by decide)]
        refine tail _ _ _ ?_
        exact last _ _ _ (by decide))
    (fun h => hc.wd (by by_contra he; rw [writeWetDry, if_pos (by simpa using he)] at h; cases h))
    (fun y h => wetdry_written hS _ _ y (by by_contra he; rw [writeWetDry, if_neg he] at h; cases h) h), okBind]
  rw [section_map (r := s.sl) (writeSlope S s.sl)
    (by repeat rw [lookup_skip _ _ _ _ (by decide)]
        have := tail "slope_limiting" (writeSlope S s.sl) [] rfl
        rwa [List.append_nil] at this)
    (fun h => hc.sl.1 (by by_contra he; rw [writeSlope, if_pos (by simpa using he)] at h; cases h))
    (fun y h => by
      have he : s.sl.enable = true := by by_contra he; rw [writeSlope, if_neg he] at h; cases h
      exact slope_written hS _ _ y he (hc.sl.2 he) h), okBind]
  rfl

/-- C55: whatever the constructor reads is unchanged after being written and read once more. -/
theorem settings_round_trip (S : Scalars V) (hS : Lawful S) (D : Defaults V) (n : Yaml) (s : Settings V) (h : readSwe S D n = .ok s) :
    readSwe S D (writeSwe S s) = .ok s :=
  canonical_round_trip S hS D s (read_canonical S D n s h)

/-! ## Examples -/

/-- Numbers -2 to 5 (represented by 0 to 7) and their texts. -/
def digits : List (String × Fin 8) := [("-2", 0), ("-1", 1), ("0", 2), ("1", 3), ("2", 4), ("3", 5), ("4", 6), ("5", 7)]

def digitScalars : Scalars (Fin 8) where
  toDouble s := digits.lookup s
  ofDouble v := ((digits.map Prod.fst)[v.val]?).getD ""
  toUint s := some s.length
  ofUint n := String.ofList (List.replicate n 'I')
  toBool s := some (s == "true")
  ofBool b := if b then "true" else "false"
  nullText := some "null"

theorem digit_lawful : Lawful digitScalars where
  double := by decide +kernel
  uint := by intro n; simp [digitScalars]
  bool := by intro b; cases b <;> rfl

def someDefaults : Defaults (Fin 8) := ⟨2, 3, 4, 5, 6, 7, 4, 5⟩

/-- A file with several sections, one of them incomplete. -/
def sampleFile : Yaml :=
  .map [("coriolis", .scalar "Enable"), ("name", .scalar "rkdg_swe"), ("density_air", .scalar "2"),
    ("bottom_friction", .map [("input_file", .scalar "m.txt"), ("coefficient", .scalar "3"), ("type", .scalar "Manning")]),
    ("wetting_drying", .map [("h_o", .scalar "5")]), ("slope_limiting", .map [("type", .scalar "Cockburn-Shu"), ("M", .scalar "1")]),
    ("function_source", .null)]

def sampleSettings : Settings (Fin 8) :=
  ⟨"rkdg_swe", 3, 4, 5, ⟨false, 2, 2, 6⟩, ⟨.default, 2, 2, 2⟩, false, ⟨.manning, 5, "m.txt"⟩, ⟨false, "", "", "", none⟩, false, true, ⟨true, 7⟩,
    ⟨false, "", 4, 5⟩⟩

/-- It is read: the incomplete limiter section leaves the defaults. -/
theorem sample_read : readSwe digitScalars someDefaults sampleFile = .ok sampleSettings := by decide +kernel

/-- So the hypotheses of the round trip are met. -/
example : readSwe digitScalars someDefaults (writeSwe digitScalars sampleSettings) = .ok sampleSettings :=
  settings_round_trip digitScalars digit_lawful someDefaults sampleFile _ sample_read

/-- All sections in use. -/
def fullSettings : Settings (Fin 8) :=
  ⟨"ehdg_swe", 1, 2, 3, ⟨true, 4, 5, 6⟩, ⟨.constant, 7, 6, 5⟩, true, ⟨.chezy, 3, ""⟩, ⟨true, "owi", "raw", "in", some 2⟩, true, true, ⟨true, 7⟩,
    ⟨true, "Cockburn-Shu", 0, 1⟩⟩

example : readSwe digitScalars someDefaults (writeSwe digitScalars fullSettings) = .ok fullSettings := by decide +kernel

/-- A negative friction coefficient is refused; so is a section that is a scalar instead of a map. -/
example : readSwe digitScalars someDefaults (.map [("name", .scalar "swe"),
    ("bottom_friction", .map [("type", .scalar "Chezy"), ("coefficient", .scalar "-1")])]) = .error .exc := by decide +kernel

example : readSwe digitScalars someDefaults (.map [("name", .scalar "swe"), ("wetting_drying", .scalar "Enable")]) = .error .exc := by
  decide +kernel

/-- Settings that no file produces need not survive: a disabled limiter with another constant. -/
example : readSwe digitScalars someDefaults (writeSwe digitScalars { sampleSettings with sl := ⟨false, "", 1, 5⟩ }) = .ok sampleSettings := by
  decide +kernel

end Verif.Input.Props
