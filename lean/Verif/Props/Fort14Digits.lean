import Verif.Props.Fort14Text

/-!
# Property C17: mesh files as texts with decimal numbers
-/

namespace Verif.Fort14.Props
open Verif Verif.Util Verif.Text Verif.Adcirc Verif.Fort14 Verif.Text.Props Verif.Decimal Verif.Decimal.Props
open Verif.Adcirc.Props (Valid SegOK insertAll_keys)

variable {D : Type}

/-! ### What has been read fits -/

theorem many_length {α : Type} (rd : List Char → Option (α × List Char)) (n : ℕ) {s : List Char} {r : List α × List Char} (h : Text.rdMany rd n s = some r) :
    r.1.length = n := by
  induction n generalizing s r with
  | zero => simp [Text.rdMany] at h; subst h; rfl
  | succ n ih =>
    simp only [Text.rdMany, Option.bind_eq_bind, Option.bind_eq_some_iff] at h
    obtain ⟨⟨x, s1⟩, _, ⟨xs, s2⟩, h1, h⟩ := h
    cases h
    simp [ih h1]

theorem many_all {α : Type} {P : α → Prop} {rd : List Char → Option (α × List Char)} (hP : ∀ s r, rd s = some r → P r.1) (n : ℕ) {s : List Char}
    {r : List α × List Char} (h : Text.rdMany rd n s = some r) : ∀ x ∈ r.1, P x := by
  induction n generalizing s r with
  | zero => simp [Text.rdMany] at h; subst h; simp
  | succ n ih =>
    simp only [Text.rdMany, Option.bind_eq_bind, Option.bind_eq_some_iff] at h
    obtain ⟨⟨x, s1⟩, h0, ⟨xs, s2⟩, h1, h⟩ := h
    cases h
    intro y hy
    rcases List.mem_cons.mp hy with rfl | hy
    · exact hP _ _ h0
    · exact ih h1 y hy

theorem uint_lt {s : List Char} {r : ℕ × List Char} (h : rdUint s = some r) : r.1 < 2 ^ 32 := by
  unfold rdUint at h
  simp only at h
  split_ifs at h with h1 h2
  cases h
  exact h2

theorem number_lt {s : List Char} {r : ℕ × List Char} (h : rdNumber s = some r) : r.1 < 2 ^ 32 := by
  simp only [rdNumber, Option.bind_eq_bind, Option.bind_eq_some_iff] at h
  obtain ⟨x, h1, h⟩ := h
  cases h
  have := uint_lt h1
  exact this

theorem list_lt {s : List Char} {r : List ℕ × List Char} (h : rdList s = some r) : r.1.length < 2 ^ 32 ∧ ∀ i ∈ r.1, i < 2 ^ 32 := by
  simp only [rdList, Option.bind_eq_bind, Option.bind_eq_some_iff] at h
  obtain ⟨x, h1, h⟩ := h
  exact ⟨many_length _ _ h ▸ number_lt h1, many_all (fun _ _ => number_lt) _ h⟩

theorem node_lt {C : Codec D} {s : List Char} {r : (ℕ × D × D × D) × List Char} (h : rdNode C s = some r) : r.1.1 < 2 ^ 32 := by
  simp only [rdNode, Option.bind_eq_bind, Option.bind_eq_some_iff] at h
  obtain ⟨a, h1, b, _, c, _, d, _, h⟩ := h
  cases h
  exact uint_lt h1

theorem element_lt {s : List Char} {r : (ℕ × ℕ × ℕ × ℕ × ℕ) × List Char} (h : rdElement s = some r) :
    ∀ n ∈ [r.1.1, r.1.2.1, r.1.2.2.1, r.1.2.2.2.1, r.1.2.2.2.2], n < 2 ^ 32 := by
  simp only [rdElement, Option.bind_eq_bind, Option.bind_eq_some_iff] at h
  obtain ⟨a, h1, b, h2, c, h3, d, h4, e, h5, h⟩ := h
  cases h
  simp only [List.mem_cons, List.not_mem_nil, or_false, forall_eq_or_imp, forall_eq]
  exact ⟨uint_lt h1, uint_lt h2, uint_lt h3, uint_lt h4, uint_lt h5⟩

theorem bar_lt {C : Codec D} {s : List Char} {r : (ℕ × Bar D) × List Char} (h : rdBar C s = some r) : r.1.1 < 2 ^ 32 ∧ r.1.2.ibconn < 2 ^ 32 := by
  simp only [rdBar, Option.bind_eq_bind, Option.bind_eq_some_iff] at h
  obtain ⟨a, h1, b, h2, c, _, d, _, e, _, h⟩ := h
  cases h
  exact ⟨uint_lt h1, uint_lt h2⟩

/-- A segment as the reader leaves it. -/
structure SegRead (sg : Seg D) : Prop where
  ok : SegOK sg
  ty : sg.ty < 2 ^ 32
  len : sg.nodes.length < 2 ^ 32
  nodes : ∀ i ∈ sg.nodes, i < 2 ^ 32
  bars : ∀ b, sg.bar = some b → ∀ x ∈ b, x.ibconn < 2 ^ 32

theorem seg_read {C : Codec D} {s : List Char} {r : Seg D × List Char} (h : rdSeg C s = some r) : SegRead r.1 := by
  simp only [rdSeg, Option.bind_eq_bind, Option.bind_eq_some_iff] at h
  obtain ⟨⟨n, s1⟩, h1, ⟨ty, s2⟩, h2, h⟩ := h
  have hn := uint_lt h1
  have hty := uint_lt h2
  simp only at h hn hty
  have plain : (Text.rdMany rdNumber n (ignore 1000 s2)).map (fun r => ((⟨ty, r.1, none⟩ : Seg D), r.2)) = some r → accepted ty = true → ty % 10 ≠ 4 → SegRead r.1 := by
    intro h hacc ht
    rw [Option.map_eq_some_iff] at h
    obtain ⟨l, hl, rfl⟩ := h
    exact ⟨⟨hacc, fun h' => absurd h' ht, fun _ => rfl⟩, hty, many_length _ _ hl ▸ hn, many_all (fun _ _ => number_lt) _ hl, fun b hb => by cases hb⟩
  delta rdSegment at h
  by_cases h0 : ty % 10 = 0 ∨ ty % 10 = 1 ∨ ty % 10 = 2
  · rw [if_pos h0] at h
    exact plain h (by simp only [accepted, Bool.or_eq_true, beq_iff_eq]; omega) (by omega)
  · rw [if_neg h0] at h
    by_cases h4 : ty % 10 = 4
    · rw [if_pos h4, Option.map_eq_some_iff] at h
      obtain ⟨l, hl, rfl⟩ := h
      have hb := many_all (P := fun p : ℕ × Bar D => p.1 < 2 ^ 32 ∧ p.2.ibconn < 2 ^ 32) (fun _ _ => bar_lt) _ hl
      have hlen := many_length _ _ hl
      refine ⟨⟨?_, fun _ => ⟨_, rfl, by simp⟩, fun h' => absurd h4 h'⟩, hty, ?_, ?_, ?_⟩
      · simp only [accepted, Bool.or_eq_true, beq_iff_eq]; omega
      · simp only [List.length_map]; omega
      · intro i hi
        obtain ⟨p, hp, rfl⟩ := List.mem_map.1 hi
        exact (hb p hp).1
      · intro b hb' x hx
        cases hb'
        obtain ⟨p, hp, rfl⟩ := List.mem_map.1 hx
        exact (hb p hp).2
    · rw [if_neg h4] at h
      by_cases h7 : ty = 77
      · rw [if_pos h7] at h
        exact plain h (by simp [accepted, h7]) (by omega)
      · rw [if_neg h7] at h
        by_cases h8 : ty = 88
        · rw [if_pos h8] at h
          exact plain h (by simp [accepted, h8]) (by omega)
        · rw [if_neg h8] at h; simp at h

theorem insertAll_length {β : Type} (l acc : List (ℕ × β)) : (insertAll acc l).length ≤ acc.length + l.length := by
  induction l generalizing acc with
  | nil => simp [insertAll]
  | cons x l ih =>
    rw [insertAll]
    split_ifs
    · have := ih acc; simp only [List.length_cons]; omega
    · have := ih (acc ++ [x]); simp only [List.length_cons, List.length_append, List.length_nil] at this ⊢; omega

theorem insertAll_mem {β : Type} {l acc : List (ℕ × β)} {x : ℕ × β} (h : x ∈ insertAll acc l) : x ∈ acc ∨ x ∈ l := by
  induction l generalizing acc with
  | nil => exact Or.inl h
  | cons y l ih =>
    rw [insertAll] at h
    split_ifs at h
    · rcases ih h with h | h
      · exact Or.inl h
      · exact Or.inr (List.mem_cons_of_mem _ h)
    · rcases ih h with h | h
      · rcases List.mem_append.1 h with h | h
        · exact Or.inl h
        · rw [List.mem_singleton] at h; rw [h]; exact Or.inr List.mem_cons_self
      · exact Or.inr (List.mem_cons_of_mem _ h)

theorem word_letters {s : List Char} {r : List Char × List Char} (h : Text.rdWord s = some r) : r.1 ≠ [] ∧ ∀ c ∈ r.1, isWs c = false := by
  unfold Text.rdWord at h
  simp only at h
  split_ifs at h with h1
  cases h
  refine ⟨h1, fun c hc => ?_⟩
  have := List.all_eq_true.1 (List.all_takeWhile (l := s.dropWhile isWs) (p := fun c => !isWs c)) c hc
  simpa using this

theorem barMap_out {segs : List (Seg D)} {n : ℕ} {b : ℕ × List (Bar D)} (h : b ∈ barMap segs n) : ∃ sg ∈ segs, sg.bar = some b.2 := by
  induction segs generalizing n with
  | nil => cases h
  | cons s segs ih =>
    rw [barMap] at h
    rcases List.mem_append.1 h with h | h
    · cases hb : s.bar with
      | none => rw [hb] at h; simp at h
      | some x =>
        rw [hb, List.mem_singleton] at h
        exact ⟨s, List.mem_cons_self, by rw [h, hb]⟩
    · obtain ⟨sg, h1, h2⟩ := ih h
      exact ⟨sg, List.mem_cons_of_mem _ h1, h2⟩

/-- Whatever is read from a text with a generic boundary section can be written, if its numbers print as `q` says. -/
theorem read_fits {C : Codec D} {q : D → D} {s : List Char} {m : Fort14 (List Char) D} (h : readText C s = some m) (hg : m.gen ≠ none)
    (hp : ∀ v, Prints C q v) (hs : ∀ x ∈ m.nodes, ∀ v ∈ [x.2.1, x.2.2.1, x.2.2.2], (C.pr v).length < 22) : Valid m ∧ Fits C q m := by
  delta readText at h
  rw [Option.bind_eq_bind, Option.bind_eq_some_iff] at h
  obtain ⟨name, h1, h⟩ := h
  rw [Option.bind_eq_bind, Option.bind_eq_some_iff] at h
  obtain ⟨nel, h2, h⟩ := h
  rw [Option.bind_eq_bind, Option.bind_eq_some_iff] at h
  obtain ⟨nno, h3, h⟩ := h
  rw [Option.bind_eq_bind, Option.bind_eq_some_iff] at h
  obtain ⟨nodes, h4, h⟩ := h
  rw [Option.bind_eq_bind, Option.bind_eq_some_iff] at h
  obtain ⟨els, h5, h⟩ := h
  rw [Option.bind_eq_bind, Option.bind_eq_some_iff] at h
  obtain ⟨nope, h6, h⟩ := h
  rw [Option.bind_eq_bind, Option.bind_eq_some_iff] at h
  obtain ⟨neta, h7, h⟩ := h
  rw [Option.bind_eq_some_iff] at h
  obtain ⟨nbdv, h8, h⟩ := h
  rw [Option.bind_eq_some_iff] at h
  obtain ⟨nbou, h9, h⟩ := h
  rw [Option.bind_eq_some_iff] at h
  obtain ⟨nvel, h10, h⟩ := h
  rw [Option.bind_eq_some_iff] at h
  obtain ⟨segs, h11, h⟩ := h
  rw [Option.bind_eq_some_iff] at h
  obtain ⟨gen, h12, h⟩ := h
  cases h
  have hw := word_letters h1
  have hseg := many_all (P := SegRead) (fun _ _ => seg_read) _ h11
  have hlen := many_length _ _ h11
  have hgen : ∃ g, gen.1 = some g ∧ gen.2.length = g.1 ∧ g.1 < 2 ^ 32 ∧ g.2 < 2 ^ 32 ∧ ∀ x ∈ gen.2, x.length < 2 ^ 32 ∧ ∀ i ∈ x, i < 2 ^ 32 := by
    unfold rdGen at h12
    split at h12
    · cases h12; exact absurd rfl hg
    · rename_i line t _
      by_cases hb : line.all (· == ' ') = true
      · rw [if_pos hb] at h12; cases h12; exact absurd rfl hg
      · rw [if_neg hb] at h12
        simp only [rdGenLists, Option.bind_eq_bind, Option.bind_eq_some_iff] at h12
        obtain ⟨a, g1, b, g2, c, g3, h12⟩ := h12
        cases h12
        exact ⟨_, rfl, many_length _ _ g3, uint_lt g1, number_lt g2, many_all (fun _ _ => list_lt) _ g3⟩
  obtain ⟨g, e, hgl, hg1, hg2, hgx⟩ := hgen
  constructor
  · refine ⟨insertAll_keys _ _ (by simp), insertAll_keys _ _ (by simp), many_length _ _ h8, ⟨segs.1, fun sg hsg => (hseg sg hsg).ok, hlen, rfl, rfl, rfl⟩, ⟨g, e, hgl⟩⟩
  · refine ⟨hw.1, ?_, ?_, ?_, ?_, ?_, ?_, ?_, ?_⟩
    · intro c hc
      have := hw.2 c hc
      simp only [isWs, Bool.or_eq_false_iff, beq_eq_false_iff_ne, Bool.and_eq_false_iff, decide_eq_false_iff_not] at this
      omega
    · simp only [List.mem_cons, List.not_mem_nil, or_false, forall_eq_or_imp, forall_eq]
      have a1 := insertAll_length els.1 []
      have a2 := insertAll_length nodes.1 []
      rw [many_length _ _ h5, List.length_nil] at a1
      rw [many_length _ _ h4, List.length_nil] at a2
      have b1 := uint_lt h2
      have b2 := uint_lt h3
      exact ⟨by omega, by omega, number_lt h6, number_lt h7, number_lt h9, number_lt h10⟩
    · intro x hx
      rcases insertAll_mem hx with hx' | hx'
      · cases hx'
      · exact ⟨many_all (P := fun x : ℕ × D × D × D => x.1 < 2 ^ 32) (fun _ _ => node_lt) _ h4 x hx', fun v hv => ⟨hp v, hs x hx v hv⟩⟩
    · intro x hx
      rcases insertAll_mem hx with hx | hx
      · cases hx
      · exact many_all (P := fun x : ℕ × ℕ × ℕ × ℕ × ℕ => ∀ n ∈ [x.1, x.2.1, x.2.2.1, x.2.2.2.1, x.2.2.2.2], n < 2 ^ 32) (fun _ _ => element_lt) _ h5 x hx
    · intro x hx
      rcases List.mem_append.1 hx with hx | hx
      · rcases List.mem_append.1 hx with hx | hx
        · exact many_all (P := fun x : List ℕ => x.length < 2 ^ 32 ∧ ∀ i ∈ x, i < 2 ^ 32) (fun _ _ => list_lt) _ h8 x hx
        · obtain ⟨sg, hsg, rfl⟩ := List.mem_map.1 hx
          exact ⟨(hseg sg hsg).len, (hseg sg hsg).nodes⟩
      · exact hgx x hx
    · intro t ht
      obtain ⟨sg, hsg, rfl⟩ := List.mem_map.1 ht
      exact (hseg sg hsg).ty
    · intro b hb x hx
      obtain ⟨sg, hsg, hsb⟩ := barMap_out hb
      exact ⟨(hseg sg hsg).bars _ hsb x hx, fun v _ => hp v⟩
    · intro g' hg'
      rw [e] at hg'
      cases hg'
      exact ⟨hg1, hg2⟩

/-! ### The length of printed numbers -/

theorem dec_le {n k : ℕ} (hk : 0 < k) (h : n < 10 ^ k) : (dec n).length ≤ k := by
  unfold dec
  by_cases h0 : n = 0
  · rw [if_pos h0]; simp; omega
  · rw [if_neg h0, List.length_map, List.length_reverse]
    exact (Nat.digits_length_le_iff (by norm_num) n).2 h

theorem strip_length (s : List Char) : (strip s).length ≤ s.length := by
  obtain ⟨k, hk⟩ := strip_spec s
  conv_rhs => rw [hk]
  simp

theorem joined_length (A F : List Char) : (joined A F).length ≤ A.length + F.length + 1 := by
  unfold joined
  split_ifs with h
  · simp; omega
  · simp; omega

theorem expo_length {E : ℤ} (h : E.natAbs < 100) : (expo E).length ≤ 4 := by
  have hd := dec_le (n := E.natAbs) (k := 2) (by omega) (by omega)
  have h1 : E.natAbs < 10 → (dec E.natAbs).length ≤ 1 := fun h => dec_le (by omega) (by omega)
  unfold expo
  simp only [List.length_cons]
  split_ifs with h2
  · have := h1 h2
    simp only [List.length_cons]; omega
  · omega

theorem body_length {r : ℚ} (hr : 0 < r) (hlo : 1 / 10 ^ 99 ≤ r) (hhi : r < 10 ^ 100) : (body r).length ≤ 20 := by
  set E := Int.log 10 r with hE
  have h1 : (10 : ℚ) ^ E ≤ r := by
    have := Int.zpow_log_le_self (b := 10) (by norm_num) hr
    simpa using this
  have h2 : r < (10 : ℚ) ^ (E + 1) := by
    have := Int.lt_zpow_succ_log_self (b := 10) (by norm_num) r
    simpa using this
  have hE1 : E < 100 := by
    have : (10 : ℚ) ^ E < (10 : ℚ) ^ (100 : ℤ) := lt_of_le_of_lt h1 (by simpa using hhi)
    exact (zpow_lt_zpow_iff_right₀ (by norm_num)).1 this
  have hE2 : -100 < E := by
    have : (10 : ℚ) ^ (-99 : ℤ) < (10 : ℚ) ^ (E + 1) := lt_of_le_of_lt (by rw [zpow_neg]; simpa using hlo) h2
    have := (zpow_lt_zpow_iff_right₀ (by norm_num)).1 this
    omega
  have hs : (strip (dec (r / 10 ^ (E - 14)).floor.toNat)).length ≤ 15 := by
    refine le_trans (strip_length _) (dec_le (by norm_num) ?_)
    have hu : (0 : ℚ) < 10 ^ (E - 14) := zpow_pos (by norm_num) _
    have hlt : r / 10 ^ (E - 14) < 10 ^ 15 := by
      rw [div_lt_iff₀ hu]
      calc r < (10 : ℚ) ^ (E + 1) := h2
        _ = 10 ^ (15 : ℤ) * 10 ^ (E - 14) := by rw [← zpow_add₀ (by norm_num)]; congr 1; ring
        _ = _ := by norm_num
    have hf : (r / 10 ^ (E - 14)).floor < 10 ^ 15 := by
      have h : ((r / 10 ^ (E - 14)).floor : ℚ) ≤ r / 10 ^ (E - 14) := Rat.floor_le _
      have : (((r / 10 ^ (E - 14)).floor : ℤ) : ℚ) < ((10 ^ 15 : ℤ) : ℚ) := by push_cast; linarith
      exact_mod_cast this
    omega
  unfold body
  simp only
  rw [← hE]
  generalize strip (dec (r / 10 ^ (E - 14)).floor.toNat) = t at hs ⊢
  split_ifs with c1 c2
  · refine le_trans (joined_length _ _) ?_
    simp only [List.length_cons, List.length_nil, List.length_append, List.length_replicate]
    omega
  · refine le_trans (joined_length _ _) ?_
    simp only [List.length_append, List.length_take, List.length_replicate, List.length_drop]
    omega
  · rw [List.length_append]
    have := joined_length (t.take 1) (t.drop 1)
    have := expo_length (E := E) (by omega)
    simp only [List.length_take, List.length_drop] at *
    omega

variable {near near' : ℚ → ℤ}

/-- A number of ordinary size. -/
def Ordinary (x : ℚ) : Prop := x = 0 ∨ 1 / 10 ^ 98 ≤ |x| ∧ |x| < 10 ^ 99

theorem print_length (h : Nearest near) {x : ℚ} (hx : Ordinary x) : (printDouble near x).length < 22 := by
  unfold printDouble
  simp only
  split_ifs with h0 h1
  · simp
  all_goals
    have hx0 : x ≠ 0 := by
      rintro rfl
      exact h0 (by unfold toDigits; exact round_zero h 10 14)
    have hb : 1 / 10 ^ 98 ≤ |x| ∧ |x| < 10 ^ 99 := hx.resolve_left hx0
    have h3 := round_err h (b := 10) (by norm_num) 14 x
    have h2 := unit_le (b := 10) (by norm_num) 14 hx0
    have e : |x| / ((10 : ℕ) : ℚ) ^ (14 : ℤ) = |x| * (1 / 10 ^ 14) := by norm_num; ring
    rw [e] at h2
    have h4 : |toDigits near x - x| ≤ |x| * (1 / 10 ^ 14) / 2 := by unfold toDigits; linarith
    have h5 := abs_sub_abs_le_abs_sub (toDigits near x) x
    have h6 := abs_sub_abs_le_abs_sub x (toDigits near x)
    rw [abs_sub_comm x] at h6
    have hlo : 1 / 10 ^ 99 ≤ |toDigits near x| := by
      have : (1 : ℚ) / 10 ^ 99 = 1 / 10 ^ 98 * (1 / 10) := by norm_num
      rw [this]
      linarith [hb.1]
    have hhi : |toDigits near x| < 10 ^ 100 := by
      have : (10 : ℚ) ^ 100 = 10 ^ 99 * 10 := by norm_num
      rw [this]
      linarith [hb.2, abs_nonneg x]
    have := body_length (abs_pos.2 h0) hlo hhi
    simp only [List.length_append, List.length_cons, List.length_nil]
    omega

/-- **C17** as texts: whatever a file with a generic boundary section has been read into is written, and reading the text again gives the object with its
numbers rounded to fifteen digits. Partial: files without that section, see `text_undefined`; numbers with more digits, see `text_digits_lost`. -/
theorem text_file_partial (h : Nearest near) {s : List Char} {m : Fort14 (List Char) ℚ} (hr : readText (codec near near') s = some m)
    (hg : m.gen ≠ none) (ho : ∀ x ∈ m.nodes, ∀ v ∈ [x.2.1, x.2.2.1, x.2.2.2], Ordinary v) :
    ∃ s', writeText (codec near near') m = .ok s' ∧ readText (codec near near') s' = some (mapMesh (trip near near') m) := by
  obtain ⟨hv, hf⟩ := read_fits hr hg (q := trip near near') (prints h near') fun x hx v hv => print_length h (ho x hx v hv)
  exact text_round_trip_partial hv hf

theorem map_id_of {α : Type} {f : α → α} {l : List α} (h : ∀ x ∈ l, f x = x) : l.map f = l := by
  conv_rhs => rw [← List.map_id l]
  exact List.map_congr_left h

/-- The object itself if its numbers have been read from texts with fifteen digits at most. -/
theorem text_exact_partial (h : Nearest near) (h' : Nearest near') {s : List Char} {m : Fort14 (List Char) ℚ}
    (hr : readText (codec near near') s = some m) (hg : m.gen ≠ none) (ho : ∀ x ∈ m.nodes, ∀ v ∈ [x.2.1, x.2.2.1, x.2.2.2], Ordinary v ∧ Short near' v)
    (hb : ∀ b ∈ m.BAR, ∀ x ∈ b.2, ∀ v ∈ [x.h, x.csb, x.csp], Short near' v) :
    ∃ s', writeText (codec near near') m = .ok s' ∧ readText (codec near near') s' = some m := by
  obtain ⟨s', h1, h2⟩ := text_file_partial h hr hg fun x hx v hv => (ho x hx v hv).1
  refine ⟨s', h1, ?_⟩
  rw [h2]
  unfold mapMesh
  rw [map_id_of fun x hx => ?_, map_id_of fun b hb' => ?_]
  · have hs := hb b hb'
    refine Prod.ext rfl (map_id_of fun x hx => ?_)
    have := hs x hx
    simp only [List.mem_cons, List.not_mem_nil, or_false, forall_eq_or_imp, forall_eq] at this
    unfold mapBar
    rw [trip_short h h' this.1, trip_short h h' this.2.1, trip_short h h' this.2.2]
  · have := ho x hx
    simp only [List.mem_cons, List.not_mem_nil, or_false, forall_eq_or_imp, forall_eq] at this
    rw [trip_short h h' this.1.2, trip_short h h' this.2.1.2, trip_short h h' this.2.2.2]

/-- And from then on: what has been written and read once more does not change any more. -/
theorem text_settles (h : Nearest near) (h' : Nearest near') (m : Fort14 (List Char) ℚ) :
    mapMesh (trip near near') (mapMesh (trip near near') m) = mapMesh (trip near near') m := by
  simp only [mapMesh, List.map_map, Fort14.mk.injEq, true_and, and_true]
  refine ⟨List.map_congr_left fun x _ => ?_, List.map_congr_left fun b _ => ?_⟩
  · simp only [Function.comp, trip_trip h h']
  · simp only [Function.comp, List.map_map]
    refine Prod.ext rfl (List.map_congr_left fun x _ => ?_)
    simp only [Function.comp, mapBar, trip_trip h h']

/-- The object of a file without generic boundaries is not written. -/
theorem text_undefined {C : Codec D} {m : Fort14 (List Char) D} (hg : m.gen = none) (s : List Char) : writeText C m ≠ .ok s := by
  delta writeText
  rw [hg]
  simp only
  cases wrLists " = Number of nodes for open boundary " m.NBDV m.NOPE 0 with
  | error e => exact fun h => nomatch h
  | ok a =>
    rw [Adcirc.Props.ok_bind]
    cases wrSegs C m.IBTYPE m.NBVV m.BAR m.NBOU 0 with
    | error e => exact fun h => nomatch h
    | ok b => exact fun h => nomatch h

/-- A mesh of one node whose first coordinate is a double with more than fifteen digits. -/
def fineMesh : Fort14 (List Char) ℚ := ⟨['m'], [(1, (1 + 1 / 2 ^ 52, 0, 0))], [], 0, 0, [], 0, 0, [], [], [], some (0, 0), []⟩

/-- **C17** is false for such doubles: the mesh is written and read back with another coordinate. -/
theorem text_digits_lost (h : Nearest near) (h' : Nearest near') : IsDouble (1 + 1 / 2 ^ 52) ∧
    ∃ s m, writeText (codec near near') fineMesh = .ok s ∧ readText (codec near near') s = some m ∧ m ≠ fineMesh := by
  have hl := digits_lost h h'
  have hv : Valid fineMesh := ⟨by simp [fineMesh], by simp [fineMesh], rfl, ⟨[], by simp, rfl, rfl, rfl, rfl⟩, ⟨_, rfl, rfl⟩⟩
  have hp : ∀ v ∈ [(1 + 1 / 2 ^ 52 : ℚ), 0, 0], Ordinary v := by
    intro v hv
    simp only [List.mem_cons, List.not_mem_nil, or_false] at hv
    rcases hv with rfl | rfl | rfl
    · refine Or.inr ?_
      rw [abs_of_pos (by norm_num)]
      norm_num
    · exact Or.inl rfl
    · exact Or.inl rfl
  have hf : Fits (codec near near') (trip near near') fineMesh := by
    refine ⟨by simp [fineMesh], by simp [fineMesh], by simp [fineMesh], ?_, by simp [fineMesh], by simp [fineMesh], by simp [fineMesh], by simp [fineMesh], ?_⟩
    · intro x hx
      simp only [fineMesh, List.mem_singleton] at hx
      subst hx
      exact ⟨by norm_num, fun v hv => ⟨prints h near' v, print_length h (hp v hv)⟩⟩
    · intro g hg
      cases hg
      simp
  obtain ⟨s, h1, h2⟩ := text_round_trip_partial hv hf
  refine ⟨hl.1, s, _, h1, h2, fun e => hl.2 ?_⟩
  have e' := congrArg Fort14.nodes e
  simp only [mapMesh, fineMesh, List.map_cons, List.map_nil, List.cons.injEq, Prod.mk.injEq, true_and, and_true] at e'
  exact e'.1

/-- A file as a text, with a title of several words, a barrier, comments, and a generic boundary. -/
def fileText : String :=
  "a mesh\n1 3\n 1  0.0 -0.25 1\n 2 1e1 0.0 10. \n3 0 1.5E+0 1\n1 3 1 2 3\n1 = open\n2\n2\n1\n2\n2\n4\n2 0\n2\n3\n2 24\n5 7 1 0.1 3\n6 8 1 2 3\n 1 generic\n2\n2\n3\n1\n"

/-- The same without the generic boundary. -/
def shortText : String := "a mesh\n0 1\n 1  0.0 -0.25 1\n0\n0\n0\n0\n   \n"

example : ∃ m, readText (codec _root_.round _root_.round) fileText.toList = some m ∧ m.name = ['a'] ∧ m.nodes = [(1, 0, -1 / 4, 1), (2, 10, 0, 10), (3, 0, 3 / 2, 1)] ∧
    m.NBVV = [[2, 3], [5, 6]] ∧ m.BAR.length = 1 ∧ m.gen = some (1, 2) := by
  refine ⟨((readText (codec _root_.round _root_.round) fileText.toList).get (by decide +kernel)), by simp, ?_⟩
  decide +kernel

/-- Reading succeeds without a generic boundary, and the object cannot be written. -/
theorem text_undefined_witness : ∃ m, readText (codec _root_.round _root_.round) shortText.toList = some m ∧ m.gen = none := by
  refine ⟨((readText (codec _root_.round _root_.round) shortText.toList).get (by decide +kernel)), by simp, ?_⟩
  decide +kernel

example : writeText (codec _root_.round _root_.round)
    ⟨"m".toList, [(7, (-1 / 4, 1000, 1 / 3))], [(5, (3, 7, 8, 9))], 1, 2, [[7]], 0, 0, [], [], [], some (0, 0), []⟩ =
    .ok ("m\n1    1\n7                 -0.25                  1000     0.333333333333333\n5           3           7           8           9\n" ++
      "1 = Number of open boundaries\n2 = Total number of open boundary nodes\n1 = Number of nodes for open boundary 1 \n7\n" ++
      "0 = Number of land Boundaries\n0 = Total number of open boundary nodes\n0 = Number of generic boundaries\n0 = Total number of generic boundary nodes\n").toList := by
  decide +kernel

end Verif.Fort14.Props
