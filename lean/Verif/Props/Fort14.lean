import Verif.Props.Adcirc

/-!
# Property C17: writing a mesh file and reading it back
-/

namespace Verif.Adcirc.Props
open Verif Verif.Adcirc

variable {W R : Type}

theorem insertAll_nodup {β : Type} (l acc : List (ℕ × β)) (h : ((acc ++ l).map Prod.fst).Nodup) :
    insertAll acc l = acc ++ l := by
  induction l generalizing acc with
  | nil => simp [insertAll]
  | cons x xs ih =>
    rw [insertAll, if_neg, ih]
    · simp
    · simpa using h
    · intro hx
      rw [List.map_append, List.nodup_append] at h
      exact h.2.2 _ hx _ (by simp) rfl

theorem insertAll_keys {β : Type} (l acc : List (ℕ × β)) (h : (acc.map Prod.fst).Nodup) :
    ((insertAll acc l).map Prod.fst).Nodup := by
  induction l generalizing acc with
  | nil => exact h
  | cons x xs ih =>
    rw [insertAll]
    split_ifs with hx
    · exact ih acc h
    · apply ih
      rw [List.map_append, List.nodup_append]
      refine ⟨h, by simp, ?_⟩
      intro a ha b hb hab
      simp at hb
      subst hb; subst hab; exact hx ha

/-- The segments of a file are what the reader can produce. -/
def SegOK (sg : Seg R) : Prop :=
  accepted sg.ty = true ∧ (sg.ty % 10 = 4 → ∃ b, sg.bar = some b ∧ b.length = sg.nodes.length) ∧ (sg.ty % 10 ≠ 4 → sg.bar = none)

/-- The state of a mesh object as it is after reading a file with a generic boundary section. -/
structure Valid (m : Fort14 W R) : Prop where
  nodes : (m.nodes.map Prod.fst).Nodup
  elements : (m.elements.map Prod.fst).Nodup
  open_ : m.NBDV.length = m.NOPE
  segs : ∃ segs : List (Seg R), (∀ sg ∈ segs, SegOK sg) ∧ segs.length = m.NBOU ∧ m.IBTYPE = segs.map Seg.ty ∧
    m.NBVV = segs.map Seg.nodes ∧ m.BAR = barMap segs 0
  gen : ∃ g, m.gen = some g ∧ m.NBGN.length = g.1

theorem some_bind {α β : Type} (x : α) (f : α → Option β) : (some x >>= f) = f x := rfl

/-- Reading back a list of records. -/
theorem rdMany_lines {α : Type} (rd : Stream W R → Option (α × Stream W R)) (wr : α → List (List (Tok W R)))
    (l : List α) (h : ∀ x ∈ l, ∀ s, rd (wr x ++ s) = some (x, s)) (s : Stream W R) :
    rdMany rd l.length (l.flatMap wr ++ s) = some (l, s) := by
  induction l with
  | nil => rfl
  | cons x xs ih =>
    simp only [List.length_cons, rdMany, List.flatMap_cons, List.append_assoc]
    rw [h x (by simp), some_bind]
    simp only
    rw [ih (fun y hy => h y (by simp [hy]))]
    rfl

theorem rdMany_line {α : Type} (rd : Stream W R → Option (α × Stream W R)) (wr : α → List (Tok W R))
    (l : List α) (h : ∀ x ∈ l, ∀ s, rd (wr x :: s) = some (x, s)) (s : Stream W R) :
    rdMany rd l.length (l.map wr ++ s) = some (l, s) := by
  have := rdMany_lines rd (fun x => [wr x]) l (fun x hx s => h x hx s) s
  rwa [← List.map_eq_flatMap] at this

theorem rdNatLine_line (n : ℕ) (s : Stream W R) : rdNatLine ([.nat n] :: s) = some (n, s) := rfl

theorem rdNats (l : List ℕ) (s : Stream W R) :
    rdMany rdNatLine l.length ((l.map fun i => [Tok.nat i]) ++ s) = some (l, s) :=
  rdMany_line rdNatLine (fun i => [Tok.nat i]) l (fun _ _ _ => rfl) s

/-- The lines of a node list. -/
def nodeListLines (x : List ℕ) : List (List (Tok W R)) := [.nat x.length] :: x.map fun i => [.nat i]

theorem rdNodeList_lines (x : List ℕ) (s : Stream W R) : rdNodeList (nodeListLines x ++ s) = some (x, s) := by
  unfold rdNodeList nodeListLines
  rw [List.cons_append, rdNatLine_line, some_bind]
  exact rdNats x s

theorem wrNodeLists_eq (l : List (List ℕ)) (fuel n : ℕ) (h : n + fuel = l.length) :
    wrNodeLists (W := W) (R := R) l fuel n = .ok ((l.drop n).flatMap nodeListLines) := by
  induction fuel generalizing n with
  | zero => rw [List.drop_of_length_le (by omega)]; rfl
  | succ fuel ih =>
    have hn : n < l.length := by omega
    rw [wrNodeLists, idx_ok (List.getElem?_eq_getElem hn), ok_bind, ih (n + 1) (by omega), ok_bind,
      List.drop_eq_getElem_cons hn, List.flatMap_cons]
    rfl

/-- The lines of a segment. -/
def segLines (sg : Seg R) : List (List (Tok W R)) :=
  [.nat sg.nodes.length, .nat sg.ty] ::
    match sg.bar with
    | none => sg.nodes.map fun i => [.nat i]
    | some b => (sg.nodes.zip b).map fun (i, x) => [.nat i, .nat x.ibconn, .real x.h, .real x.csb, .real x.csp]

theorem rdSeg_lines (sg : Seg R) (hsg : SegOK sg) (s : Stream W R) : rdSeg (segLines sg ++ s) = some (sg, s) := by
  obtain ⟨ty, nodes, bar⟩ := sg
  obtain ⟨hacc, h4, h5⟩ := hsg
  simp only at hacc h4 h5
  by_cases ht : ty % 10 = 4
  · obtain ⟨b, rfl, hb⟩ := h4 ht
    have hlen : (nodes.zip b).length = nodes.length := by simp [hb]
    have hrd := rdMany_line (W := W) rdBarLine
      (fun p : ℕ × Bar R => [.nat p.1, .nat p.2.ibconn, .real p.2.h, .real p.2.csb, .real p.2.csp]) (nodes.zip b)
      (fun _ _ _ => rfl) s
    rw [hlen] at hrd
    have h0 : ¬ (ty % 10 = 0 ∨ ty % 10 = 1 ∨ ty % 10 = 2) := by omega
    show (do
      if ty % 10 = 0 ∨ ty % 10 = 1 ∨ ty % 10 = 2 then
        let (l, s) ← rdMany rdNatLine nodes.length _
        pure ((⟨ty, l, none⟩ : Seg R), s)
      else if ty % 10 = 4 then
        let (l, s) ← rdMany rdBarLine nodes.length ((nodes.zip b).map
          (fun p : ℕ × Bar R => [Tok.nat p.1, .nat p.2.ibconn, .real p.2.h, .real p.2.csb, .real p.2.csp]) ++ s)
        pure ((⟨ty, l.map Prod.fst, some (l.map Prod.snd)⟩ : Seg R), s)
      else if ty = 77 then
        let (l, s) ← rdMany rdNatLine nodes.length _
        pure ((⟨ty, l, none⟩ : Seg R), s)
      else if ty = 88 then
        let (l, s) ← rdMany rdNatLine nodes.length _
        pure ((⟨ty, l, none⟩ : Seg R), s)
      else none : Option (Seg R × Stream W R)) = _
    rw [if_neg h0, if_pos ht, hrd, some_bind]
    simp [List.map_fst_zip, List.map_snd_zip, hb]
  · have hbar := h5 ht
    subst hbar
    have hrd := rdNats (W := W) (R := R) nodes s
    show (do
      if ty % 10 = 0 ∨ ty % 10 = 1 ∨ ty % 10 = 2 then
        let (l, s) ← rdMany rdNatLine nodes.length ((nodes.map fun i => [Tok.nat i]) ++ s)
        pure ((⟨ty, l, none⟩ : Seg R), s)
      else if ty % 10 = 4 then
        let (l, s) ← rdMany rdBarLine nodes.length ((nodes.map fun i => [Tok.nat i]) ++ s)
        pure ((⟨ty, l.map Prod.fst, some (l.map Prod.snd)⟩ : Seg R), s)
      else if ty = 77 then
        let (l, s) ← rdMany rdNatLine nodes.length ((nodes.map fun i => [Tok.nat i]) ++ s)
        pure ((⟨ty, l, none⟩ : Seg R), s)
      else if ty = 88 then
        let (l, s) ← rdMany rdNatLine nodes.length ((nodes.map fun i => [Tok.nat i]) ++ s)
        pure ((⟨ty, l, none⟩ : Seg R), s)
      else none : Option (Seg R × Stream W R)) = _
    rw [hrd]
    simp only [accepted, Bool.or_eq_true, beq_iff_eq] at hacc
    by_cases h0 : ty % 10 = 0 ∨ ty % 10 = 1 ∨ ty % 10 = 2
    · rw [if_pos h0]; rfl
    · rw [if_neg h0, if_neg ht]
      by_cases h7 : ty = 77
      · rw [if_pos h7]; rfl
      · have h8 : ty = 88 := by clear h4; omega
        rw [if_neg h7, if_pos h8]; rfl

theorem barMap_lookup (segs : List (Seg R)) (start k : ℕ) :
    (barMap segs start).lookup (start + k) = (segs[k]?).bind Seg.bar := by
  induction segs generalizing start k with
  | nil => rfl
  | cons sg rest ih =>
    rw [barMap]
    cases k with
    | zero =>
      cases hb : sg.bar with
      | some b => simp [hb]
      | none =>
        simp only [List.nil_append, List.getElem?_cons_zero, Option.bind_some, hb]
        have hlo : ∀ (l : List (Seg R)) (t : ℕ), start < t → (barMap l t).lookup (start + 0) = none := by
          intro l
          induction l with
          | nil => intros; rfl
          | cons a l ih2 =>
            intro t ht
            rw [barMap, List.lookup_append, ih2 (t + 1) (by omega)]
            cases a.bar with
            | none => rfl
            | some b =>
              have : (start + 0 == t) = false := by rw [beq_eq_false_iff_ne]; omega
              simp only [List.lookup, this]
              rfl
        exact hlo rest (start + 1) (by omega)
    | succ k =>
      have e : start + (k + 1) = (start + 1) + k := by omega
      rw [List.lookup_append, List.getElem?_cons_succ, e, ih (start + 1) k]
      cases sg.bar with
      | none => rfl
      | some b =>
        have : (start + 1 + k == start) = false := by rw [beq_eq_false_iff_ne]; omega
        simp only [List.lookup, this]
        rfl

theorem wrSegLines_eq (sg : Seg R) (hsg : SegOK sg) (seg : ℕ) (bar : List (ℕ × List (Bar R)))
    (hb : bar.lookup seg = sg.bar) (fuel i : ℕ) (h : i + fuel = sg.nodes.length) :
    wrSegLines (W := W) sg.ty seg sg.nodes bar fuel i = .ok ((segLines sg).tail.drop i) := by
  obtain ⟨ty, nodes, bb⟩ := sg
  obtain ⟨hacc, h4, h5⟩ := hsg
  simp only at hacc h4 h5 h hb
  induction fuel generalizing i with
  | zero =>
    rw [List.drop_of_length_le]
    · rfl
    · simp only [segLines, List.tail_cons]
      cases hbb : bb with
      | none => simp; omega
      | some b =>
        have hi : i = nodes.length := by omega
        simp [hi]
  | succ fuel ih =>
    have hi : i < nodes.length := by omega
    rw [wrSegLines, idx_ok (List.getElem?_eq_getElem hi), ok_bind, ih (i + 1) (by omega), ok_bind]
    by_cases ht : ty % 10 = 4
    · obtain ⟨b, rfl, hlen⟩ := h4 ht
      clear ih h4 h5
      have hib : i < b.length := by omega
      have hn0 : ¬ (ty % 10 = 0 ∨ ty % 10 = 1 ∨ ty % 10 = 2) := by omega
      simp only
      rw [if_neg hn0, if_pos ht]
      have : atKey bar seg = .ok b := by simp [atKey, hb]
      rw [this, ok_bind, idx_ok (List.getElem?_eq_getElem hib), ok_bind]
      simp only [segLines, List.tail_cons]
      rw [List.drop_eq_getElem_cons (l := List.map _ (nodes.zip b)) (i := i) (by simp; omega)]
      simp
      rfl
    · have hbar := h5 ht
      subst hbar
      simp only [accepted, Bool.or_eq_true, beq_iff_eq] at hacc
      have key : (Except.ok ([Tok.nat nodes[i]] :: (segLines (W := W) (⟨ty, nodes, none⟩ : Seg R)).tail.drop (i + 1)) : Res _) =
          .ok ((segLines (W := W) (⟨ty, nodes, none⟩ : Seg R)).tail.drop i) := by
        simp only [segLines, List.tail_cons]
        rw [List.drop_eq_getElem_cons (l := List.map _ nodes) (i := i) (by simp; omega)]
        simp
      by_cases h0 : ty % 10 = 0 ∨ ty % 10 = 1 ∨ ty % 10 = 2
      · rw [if_pos h0]; exact key
      · rw [if_neg h0, if_neg ht]
        by_cases h7 : ty = 77
        · rw [if_pos h7]; exact key
        · have h8 : ty = 88 := by clear h4; omega
          rw [if_neg h7, if_pos h8]; exact key

theorem wrSegs_eq (segs : List (Seg R)) (hs : ∀ sg ∈ segs, SegOK sg) (fuel n : ℕ) (h : n + fuel = segs.length) :
    wrSegs (W := W) (segs.map Seg.ty) (segs.map Seg.nodes) (barMap segs 0) fuel n = .ok ((segs.drop n).flatMap segLines) := by
  induction fuel generalizing n with
  | zero => rw [List.drop_of_length_le (by omega)]; rfl
  | succ fuel ih =>
    have hn : n < segs.length := by omega
    have hty : (segs.map Seg.ty)[n]? = some segs[n].ty := by simp [hn]
    have hnb : (segs.map Seg.nodes)[n]? = some segs[n].nodes := by simp [hn]
    have hlk : (barMap segs 0).lookup n = segs[n].bar := by
      have := barMap_lookup segs 0 n
      rw [Nat.zero_add, List.getElem?_eq_getElem hn] at this; exact this
    rw [wrSegs, idx_ok hty, ok_bind, idx_ok hnb, ok_bind,
      wrSegLines_eq segs[n] (hs _ (List.getElem_mem hn)) n _ hlk _ 0 (by omega), ok_bind, ih (n + 1) (by omega), ok_bind,
      List.drop_eq_getElem_cons hn, List.flatMap_cons]
    rfl

/-- **C17**, the part that holds: a mesh object with a generic boundary section is written without failure, and reading the
file gives back an equal object; the iteration order of the hash maps (the order of `nodes`, `elements`) is arbitrary. -/
theorem write_read_partial (m : Fort14 W R) (hm : Valid m) : ∃ s, write m = .ok s ∧ read s = some m := by
  obtain ⟨segs, hsegs, hl, e1, e2, e3⟩ := hm.segs
  obtain ⟨⟨ngen, nngn⟩, hg, hgl⟩ := hm.gen
  obtain ⟨name, nodes, elements, NOPE, NETA, NBDV, NBOU, NVEL, IBTYPE, NBVV, BAR, gen, NBGN⟩ := m
  have hno := hm.open_
  have hn := insertAll_nodup nodes [] (by simpa using hm.nodes)
  have he := insertAll_nodup elements [] (by simpa using hm.elements)
  simp only [List.nil_append] at hn he
  simp only at hl e1 e2 e3 hg hgl hno
  subst e1 e2 e3 hg hl hgl hno
  refine ⟨[[.word name], [.nat elements.length, .nat nodes.length]] ++
      (nodes.map fun (i, x, y, z) => [.nat i, .real x, .real y, .real z]) ++
      (elements.map fun (i, a, b, c, d) => [.nat i, .nat a, .nat b, .nat c, .nat d]) ++
      [[.nat NBDV.length], [.nat NETA]] ++ (NBDV.drop 0).flatMap nodeListLines ++ [[.nat segs.length], [.nat NVEL]] ++
      (segs.drop 0).flatMap segLines ++ [[.nat NBGN.length], [.nat nngn]] ++ (NBGN.drop 0).flatMap nodeListLines, ?_, ?_⟩
  · unfold write
    simp only
    rw [wrNodeLists_eq NBDV _ 0 (by omega), ok_bind, wrSegs_eq segs hsegs _ 0 (by omega), ok_bind,
      wrNodeLists_eq NBGN _ 0 (by omega), ok_bind]
    rfl
  · simp only [List.drop_zero, List.append_assoc, List.cons_append, List.nil_append]
    unfold read
    have r1 : ∀ s : Stream W R, rdWord ([Tok.word name] :: s) = some (name, [] :: s) := fun _ => rfl
    rw [r1, some_bind]
    simp only [ignoreLine]
    have r2 : ∀ (a b : ℕ) (s : Stream W R), rdNat ([Tok.nat a, .nat b] :: s) = some (a, [.nat b] :: s) := fun _ _ _ => rfl
    rw [r2, some_bind]
    simp only
    have r3 : ∀ (a : ℕ) (s : Stream W R), rdNat ([Tok.nat a] :: s) = some (a, [] :: s) := fun _ _ => rfl
    rw [r3, some_bind]
    simp only
    rw [rdMany_line rdNode (fun (i, x, y, z) => [.nat i, .real x, .real y, .real z]) nodes (fun _ _ _ => rfl), some_bind]
    simp only
    rw [rdMany_line rdElement (fun (i, a, b, c, d) => [.nat i, .nat a, .nat b, .nat c, .nat d]) elements (fun _ _ _ => rfl),
      some_bind]
    simp only
    rw [rdNatLine_line, some_bind]
    simp only
    rw [rdNatLine_line, some_bind]
    simp only
    rw [rdMany_lines rdNodeList nodeListLines NBDV (fun x _ s => rdNodeList_lines x s), some_bind]
    simp only
    rw [rdNatLine_line, some_bind]
    simp only
    rw [rdNatLine_line, some_bind]
    simp only
    rw [rdMany_lines rdSeg segLines segs (fun x hx s => rdSeg_lines x (hsegs x hx) s), some_bind]
    simp only [rdGeneric]
    have hlast := rdMany_lines (W := W) (R := R) rdNodeList nodeListLines NBGN (fun x _ s => rdNodeList_lines x s) []
    rw [List.append_nil] at hlast
    rw [rdNatLine_line, some_bind]
    simp only
    rw [hlast]
    simp only [some_bind, hn, he]
    rfl

theorem rdMany_length {α : Type} (rd : Stream W R → Option (α × Stream W R)) (n : ℕ) (s : Stream W R) (r : List α × Stream W R)
    (h : rdMany rd n s = some r) : r.1.length = n := by
  induction n generalizing s r with
  | zero => simp [rdMany] at h; subst h; rfl
  | succ n ih =>
    rw [rdMany, Option.bind_eq_bind, Option.bind_eq_some_iff] at h
    obtain ⟨⟨x, s1⟩, _, h⟩ := h
    simp only at h
    rw [Option.bind_eq_bind, Option.bind_eq_some_iff] at h
    obtain ⟨⟨xs, s2⟩, h1, h⟩ := h
    cases h
    simp [ih _ _ h1]

theorem rdMany_all {α : Type} (P : α → Prop) (rd : Stream W R → Option (α × Stream W R))
    (hP : ∀ s r, rd s = some r → P r.1) (n : ℕ) (s : Stream W R) (r : List α × Stream W R)
    (h : rdMany rd n s = some r) : ∀ x ∈ r.1, P x := by
  induction n generalizing s r with
  | zero => simp [rdMany] at h; subst h; simp
  | succ n ih =>
    rw [rdMany, Option.bind_eq_bind, Option.bind_eq_some_iff] at h
    obtain ⟨⟨x, s1⟩, h0, h⟩ := h
    simp only at h
    rw [Option.bind_eq_bind, Option.bind_eq_some_iff] at h
    obtain ⟨⟨xs, s2⟩, h1, h⟩ := h
    cases h
    intro y hy
    rcases List.mem_cons.mp hy with rfl | hy
    · exact hP _ _ h0
    · exact ih _ _ h1 y hy

theorem rdSeg_ok (s : Stream W R) (r : Seg R × Stream W R) (h : rdSeg s = some r) : SegOK r.1 := by
  unfold rdSeg at h
  rw [Option.bind_eq_bind, Option.bind_eq_some_iff] at h
  obtain ⟨⟨n, s1⟩, _, h⟩ := h
  simp only at h
  rw [Option.bind_eq_bind, Option.bind_eq_some_iff] at h
  obtain ⟨⟨ty, s2⟩, _, h⟩ := h
  simp only at h
  have plain : ∀ s', (rdMany rdNatLine n s' >>= fun x => pure ((⟨ty, x.1, none⟩ : Seg R), x.2)) = some r →
      accepted ty = true → ty % 10 ≠ 4 → SegOK r.1 := by
    intro s' h hacc ht
    rw [Option.bind_eq_bind, Option.bind_eq_some_iff] at h
    obtain ⟨⟨l, s3⟩, _, h⟩ := h
    cases h
    exact ⟨hacc, fun h' => absurd h' ht, fun _ => rfl⟩
  by_cases h0 : ty % 10 = 0 ∨ ty % 10 = 1 ∨ ty % 10 = 2
  · rw [if_pos h0] at h
    refine plain _ h ?_ (by omega)
    simp only [accepted, Bool.or_eq_true, beq_iff_eq]; omega
  · rw [if_neg h0] at h
    by_cases h4 : ty % 10 = 4
    · rw [if_pos h4, Option.bind_eq_bind, Option.bind_eq_some_iff] at h
      obtain ⟨⟨l, s3⟩, hl, h⟩ := h
      cases h
      refine ⟨?_, fun _ => ⟨_, rfl, by simp⟩, fun h' => absurd h4 h'⟩
      simp only [accepted, Bool.or_eq_true, beq_iff_eq]; omega
    · rw [if_neg h4] at h
      by_cases h7 : ty = 77
      · rw [if_pos h7] at h
        exact plain _ h (by simp [accepted, h7]) (by omega)
      · rw [if_neg h7] at h
        by_cases h8 : ty = 88
        · rw [if_pos h8] at h
          exact plain _ h (by simp [accepted, h8]) (by omega)
        · rw [if_neg h8] at h; simp at h

/-- What every object obtained by reading a file satisfies. -/
theorem read_shape (s : Stream W R) (m : Fort14 W R) (h : read s = some m) :
    ((m.nodes.map Prod.fst).Nodup ∧ (m.elements.map Prod.fst).Nodup ∧ m.NBDV.length = m.NOPE) ∧
    (∃ segs : List (Seg R), (∀ sg ∈ segs, SegOK sg) ∧ segs.length = m.NBOU ∧ m.IBTYPE = segs.map Seg.ty ∧
      m.NBVV = segs.map Seg.nodes ∧ m.BAR = barMap segs 0) ∧
    (m.gen ≠ none → ∃ g, m.gen = some g ∧ m.NBGN.length = g.1) := by
  unfold read at h
  rw [Option.bind_eq_bind, Option.bind_eq_some_iff] at h
  obtain ⟨⟨name, s1⟩, _, h⟩ := h
  simp only at h
  rw [Option.bind_eq_bind, Option.bind_eq_some_iff] at h
  obtain ⟨⟨nel, s2⟩, _, h⟩ := h
  simp only at h
  rw [Option.bind_eq_bind, Option.bind_eq_some_iff] at h
  obtain ⟨⟨nno, s3⟩, _, h⟩ := h
  simp only at h
  rw [Option.bind_eq_bind, Option.bind_eq_some_iff] at h
  obtain ⟨⟨nodes, s4⟩, _, h⟩ := h
  simp only at h
  rw [Option.bind_eq_bind, Option.bind_eq_some_iff] at h
  obtain ⟨⟨elements, s5⟩, _, h⟩ := h
  simp only at h
  rw [Option.bind_eq_bind, Option.bind_eq_some_iff] at h
  obtain ⟨⟨nope, s6⟩, _, h⟩ := h
  simp only at h
  rw [Option.bind_eq_bind, Option.bind_eq_some_iff] at h
  obtain ⟨⟨neta, s7⟩, _, h⟩ := h
  simp only at h
  rw [Option.bind_eq_some_iff] at h
  obtain ⟨⟨nbdv, s8⟩, hnbdv, h⟩ := h
  simp only at h
  rw [Option.bind_eq_some_iff] at h
  obtain ⟨⟨nbou, s9⟩, _, h⟩ := h
  simp only at h
  rw [Option.bind_eq_some_iff] at h
  obtain ⟨⟨nvel, s10⟩, _, h⟩ := h
  simp only at h
  rw [Option.bind_eq_some_iff] at h
  obtain ⟨⟨segs, s11⟩, hsegs, h⟩ := h
  simp only at h
  rw [Option.bind_eq_some_iff] at h
  obtain ⟨⟨gen, nbgn⟩, hgen, h⟩ := h
  cases h
  refine ⟨⟨insertAll_keys _ _ (by simp), insertAll_keys _ _ (by simp), rdMany_length _ _ _ _ hnbdv⟩,
    ⟨segs, rdMany_all SegOK rdSeg rdSeg_ok _ _ _ hsegs, rdMany_length _ _ _ _ hsegs, rfl, rfl, rfl⟩, ?_⟩
  intro hg
  simp only at hg ⊢
  unfold rdGeneric at hgen
  split at hgen
  · cases hgen; exact absurd rfl hg
  · cases hgen; exact absurd rfl hg
  · rw [Option.bind_eq_bind, Option.bind_eq_some_iff] at hgen
    obtain ⟨⟨nngn, s12⟩, _, hgen⟩ := hgen
    simp only at hgen
    rw [Option.bind_eq_bind, Option.bind_eq_some_iff] at hgen
    obtain ⟨⟨l, s13⟩, hl, hgen⟩ := hgen
    cases hgen
    exact ⟨_, rfl, rdMany_length _ _ _ _ hl⟩
  · cases hgen

/-- Every object obtained by reading a file that has a generic boundary section is valid. -/
theorem read_valid (s : Stream W R) (m : Fort14 W R) (h : read s = some m) (hg : m.gen ≠ none) : Valid m := by
  obtain ⟨⟨h1, h2, h3⟩, h4, h5⟩ := read_shape s m h
  exact ⟨h1, h2, h3, h4, h5 hg⟩

/-- Every object obtained by reading a file without empty barriers meets the hypothesis of the classification theorems. -/
theorem read_wf (s : Stream W R) (m : Fort14 W R) (h : read s = some m)
    (hne : ∀ seg ty : ℕ, m.IBTYPE[seg]? = some ty → ty % 10 = 4 → m.NBVV[seg]? ≠ some []) : WF m := by
  obtain ⟨_, ⟨segs, hok, hl, e1, e2, e3⟩, _⟩ := read_shape s m h
  refine ⟨by rw [e1, List.length_map, hl], by rw [e2, List.length_map, hl], ?_⟩
  intro seg ty nb h1 h2 h3
  have hseg : seg < segs.length := by
    have := (List.getElem?_eq_some_iff.mp h1).1
    rwa [e1, List.length_map] at this
  have hnb := h3
  rw [e1] at h1
  rw [e2] at h3
  simp [hseg] at h1 h3
  obtain ⟨_, hb, _⟩ := hok segs[seg] (List.getElem_mem hseg)
  obtain ⟨b, hb1, hb2⟩ := hb (by rw [h1]; exact h2)
  refine ⟨b, ?_, by rw [hb2, h3], ?_⟩
  · have := barMap_lookup segs 0 seg
    rw [Nat.zero_add, List.getElem?_eq_getElem hseg, Option.bind_some, hb1] at this
    rw [e3]; exact this
  · rintro rfl
    have h0 : nb = [] := by
      rw [← h3]; exact List.length_eq_zero_iff.mp hb2.symm
    have ht : m.IBTYPE[seg]? = some ty := by rw [e1]; simp [hseg, h1]
    exact hne seg ty ht h2 (h0 ▸ hnb)

/-- **C17** is false without that section: reading succeeds and leaves the number of generic boundaries uninitialised;
writing the object back is undefined behaviour. This holds of every such file. -/
theorem write_undefined (m : Fort14 W R) (hg : m.gen = none) (s : Stream W R) : write m ≠ .ok s := by
  unfold write
  rw [hg]
  simp only
  cases wrNodeLists (W := W) (R := R) m.NBDV m.NOPE 0 with
  | error e => exact fun h => nomatch h
  | ok a =>
    rw [ok_bind]
    cases wrSegs (W := W) (R := R) m.IBTYPE m.NBVV m.BAR m.NBOU 0 with
    | error e => exact fun h => nomatch h
    | ok b => exact fun h => nomatch h

/-- Such a file exists: the island file above ends without generic boundaries. -/
theorem write_undefined_witness : ∃ m, read islandFile = some m ∧ m.gen = none ∧ write m = .error .ub :=
  ⟨_, rfl, rfl, rfl⟩

/-- A file with all sections. -/
def fullFile : Stream String ℕ :=
  [[.word "m"], [.nat 1, .nat 3], [.nat 1, .real 0, .real 0, .real 1], [.nat 2, .real 1, .real 0, .real 1],
   [.nat 3, .real 0, .real 1, .real 1], [.nat 1, .nat 3, .nat 1, .nat 2, .nat 3], [.nat 1], [.nat 2], [.nat 2], [.nat 1],
   [.nat 2], [.nat 2], [.nat 4], [.nat 2, .nat 0], [.nat 2], [.nat 3],
   [.nat 2, .nat 24], [.nat 5, .nat 7, .real 1, .real 2, .real 3], [.nat 6, .nat 8, .real 1, .real 2, .real 3],
   [.nat 1], [.nat 2], [.nat 2], [.nat 3], [.nat 1]]

/-- **C17** combined, for files: whatever a file with a generic section was read into is written and read back unchanged. -/
theorem file_round_trip_partial (s : Stream W R) (m : Fort14 W R) (h : read s = some m) (hg : m.gen ≠ none) :
    ∃ s', write m = .ok s' ∧ read s' = some m := write_read_partial m (read_valid s m h hg)

example : ∃ m, read fullFile = some m ∧ m.gen ≠ none ∧ m.NBVV = [[2, 3], [5, 6]] ∧ m.BAR.length = 1 :=
  ⟨_, rfl, by decide, rfl, rfl⟩

end Verif.Adcirc.Props
