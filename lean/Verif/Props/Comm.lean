import Verif.Model.Comm
import Verif.Lemmas.MeshMeta
import Mathlib.Data.List.Nodup
import Mathlib.Data.List.Basic
import Mathlib.Tactic.Ring
import Mathlib.Tactic.Linarith
import Mathlib.Tactic.IntervalCases

/-!
# MPI tags (C25) and exchange buffers (C26)
-/

namespace Verif.Comm.Props
open Verif Verif.MeshMeta Verif.Comm

/-! ### C25 -/

theorem sendTag_eq (b : RB) (h1 : b.subIn < 256) (h2 : b.subEx < 256) : sendTag b = 256 * b.subIn + b.subEx := by
  unfold sendTag ushort
  rw [Nat.mod_eq_of_lt (by omega), Nat.mod_eq_of_lt (by omega), ← Nat.shiftLeft_add_eq_or_of_lt (by simpa using h2),
    Nat.shiftLeft_eq]
  omega

/-- C25: what one side sends is what the other side expects, for all ids. -/
theorem tags_pair (lA sA lB sB : ℕ) :
    sendTag ⟨lA, sA, lB, sB⟩ = recvTag ⟨lB, sB, lA, sA⟩ ∧ recvTag ⟨lA, sA, lB, sB⟩ = sendTag ⟨lB, sB, lA, sA⟩ ∧
      sendChan ⟨lA, sA, lB, sB⟩ = recvChan ⟨lB, sB, lA, sA⟩ := ⟨rfl, rfl, rfl⟩

/-- C25 for submesh ids below 256: distinct channels have distinct tags. -/
theorem tags_unique_partial (a b : RB) (ha : a.subIn < 256 ∧ a.subEx < 256) (hb : b.subIn < 256 ∧ b.subEx < 256)
    (hin : a.locIn = b.locIn) (hex : a.locEx = b.locEx) :
    (sendTag a = sendTag b → a = b) ∧ (recvTag a = recvTag b → a = b) := by
  have hr : ∀ x : RB, recvTag x = sendTag ⟨x.locEx, x.subEx, x.locIn, x.subIn⟩ := fun x => rfl
  constructor
  · intro h
    rw [sendTag_eq _ ha.1 ha.2, sendTag_eq _ hb.1 hb.2] at h
    cases a; cases b; simp only [RB.mk.injEq] at *; omega
  · intro h
    rw [hr, hr, sendTag_eq _ ha.2 ha.1, sendTag_eq _ hb.2 hb.1] at h
    cases a; cases b; simp only [RB.mk.injEq] at *; omega

/-- The ids for which uniqueness fails: between two ranks, the channels of submeshes (0, 256) and (1, 0) share a tag. -/
theorem tag_collision : ∃ a b : RB, a.locIn = b.locIn ∧ a.locEx = b.locEx ∧ a ≠ b ∧ sendChan a = sendChan b :=
  ⟨⟨0, 0, 1, 256⟩, ⟨0, 1, 1, 0⟩, by decide +kernel⟩

theorem sendChan_inj (a b : RB) (ha : a.subIn < 256 ∧ a.subEx < 256) (hb : b.subIn < 256 ∧ b.subEx < 256)
    (h : sendChan a = sendChan b) : a = b := by
  simp only [sendChan, sendRank, Prod.mk.injEq] at h
  exact (tags_unique_partial a b ha hb h.1 h.2.1).1 h.2.2

/-- C25, what the tags are for: all submeshes run the same sequence `prog` of communication types; each boundary starts its sends
and receives in this order, interleaved in any way with those of other boundaries. With submesh ids below 256,
every message of boundary `a` is received by the opposite side of `a`, for the same communication type, and none is missed. -/
theorem delivery_partial (sends recvs : List (RB × ℕ)) (prog : List ℕ) (a : RB)
    (hs : ∀ x ∈ sends, x.1.subIn < 256 ∧ x.1.subEx < 256) (hr : ∀ x ∈ recvs, x.1.subIn < 256 ∧ x.1.subEx < 256)
    (ha : a.subIn < 256 ∧ a.subEx < 256)
    (hsa : (sends.filter fun x => x.1 = a).map Prod.snd = prog)
    (hra : (recvs.filter fun x => x.1 = ⟨a.locEx, a.subEx, a.locIn, a.subIn⟩).map Prod.snd = prog) :
    matched sends recvs (sendChan a) = prog.map fun c => ((a, c), (⟨a.locEx, a.subEx, a.locIn, a.subIn⟩, c)) := by
  have e1 : (sends.filter fun s => sendChan s.1 = sendChan a) = sends.filter fun x => x.1 = a := by
    apply List.filter_congr
    intro x hx
    simp only [decide_eq_decide]
    exact ⟨fun h => sendChan_inj _ _ (hs x hx) ha h, fun h => by rw [h]⟩
  have e2 : (recvs.filter fun r => recvChan r.1 = sendChan a) =
      recvs.filter fun x => x.1 = ⟨a.locEx, a.subEx, a.locIn, a.subIn⟩ := by
    apply List.filter_congr
    intro x hx
    simp only [decide_eq_decide]
    constructor
    · intro h
      have h' : sendChan ⟨x.1.locEx, x.1.subEx, x.1.locIn, x.1.subIn⟩ = sendChan a := h
      have := sendChan_inj ⟨x.1.locEx, x.1.subEx, x.1.locIn, x.1.subIn⟩ a ⟨(hr x hx).2, (hr x hx).1⟩ ha h'
      rw [← this]
    · intro h; rw [h]; rfl
  have e3 : ∀ (l : List (RB × ℕ)) (y : RB), (l.filter fun x => x.1 = y) =
      ((l.filter fun x => x.1 = y).map Prod.snd).map fun c => (y, c) := by
    intro l y
    rw [List.map_map]
    conv_lhs => rw [← List.map_id (l.filter fun x => x.1 = y)]
    apply List.map_congr_left
    intro x hx
    have := (List.mem_filter.mp hx).2
    simp only [decide_eq_true_eq] at this
    simp [← this]
  unfold matched
  rw [e1, e2, e3 sends, e3 recvs, hsa, hra]
  clear hsa hra
  induction prog with
  | nil => rfl
  | cons c prog ih => simpa using ih

/-- Three submeshes on two ranks, messages interleaved. -/
example :
    let ab : RB := ⟨0, 0, 1, 0⟩
    let ba : RB := ⟨1, 0, 0, 0⟩
    let cb : RB := ⟨0, 1, 1, 0⟩
    let bc : RB := ⟨1, 0, 0, 1⟩
    matched [(ab, 0), (cb, 0), (ba, 0), (cb, 1), (bc, 0), (ab, 1), (ba, 1), (bc, 1)]
      [(bc, 0), (ba, 0), (ab, 0), (ba, 1), (cb, 0), (ab, 1), (bc, 1), (cb, 1)] (sendChan cb)
      = [((cb, 0), (bc, 0)), ((cb, 1), (bc, 1))] := by decide +kernel

/-! ### C26: layout -/

/-- Size reserved for communication type `c` by a boundary with polynomial order `p` (`p + 1` Gauss points). -/
def res (P : Problem) (c p : ℕ) : ℕ := (reserve P (p + 1)).getD c 0

theorem reserve_length (P : Problem) (n : ℕ) : (reserve P n).length = nComm P := by cases P <;> rfl

theorem ngp_eq (p : ℕ) : numGP (2 * p + 1) = p + 1 := by unfold numGP; omega

theorem createOne_ok {L : Type} {P : Problem} {data : List ((ℕ × ℕ) × L)} {raw : List ((ℕ × ℕ) × Raw)} {beg : List ℕ}
    {e : (ℕ × ℕ) × ℕ} {x : DBound L × List ((ℕ × ℕ) × Raw) × List ℕ} (h : createOne P data raw beg e = .ok x) :
    x.1.key = e.1 ∧ x.1.ngp = e.2 + 1 ∧ x.1.offset = beg ∧ x.2.2 = List.zipWith (· + ·) beg (reserve P (e.2 + 1)) ∧
      x.2.1 = raw.filter (fun y => y.1 ≠ e.1) := by
  delta createOne at h
  obtain ⟨r, hr, h⟩ := bind_ok h
  obtain ⟨lv, hlv, h⟩ := bind_ok h
  simp only [pure, Except.pure, Except.ok.injEq] at h
  subst h
  simp [commBufferOffsets, ngp_eq]

theorem zipWith_get (a b : List ℕ) (c : ℕ) (h : a.length = b.length) :
    (List.zipWith (· + ·) a b).getD c 0 = a.getD c 0 + b.getD c 0 := by
  by_cases hc : c < a.length
  · simp [List.getD_eq_getElem?_getD, List.getElem?_zipWith, hc, h ▸ hc]
  · have : b.length ≤ c := by omega
    simp [List.getD_eq_getElem?_getD, List.getElem?_zipWith, hc, this, not_lt.mp hc]

theorem createAll_ok {L : Type} {P : Problem} {data : List ((ℕ × ℕ) × L)} {raw : List ((ℕ × ℕ) × Raw)} {beg : List ℕ}
    {es : List ((ℕ × ℕ) × ℕ)} {x : List (DBound L) × List ((ℕ × ℕ) × Raw) × List ℕ} (hb : beg.length = nComm P)
    (h : createAll P data raw beg es = .ok x) :
    x.1.length = es.length ∧ x.2.2.length = nComm P ∧
      (∀ c, x.2.2.getD c 0 = beg.getD c 0 + ((es.map Prod.snd).map (res P c)).sum) ∧
      ∀ (i : ℕ) (b : DBound L), x.1[i]? = some b → ∃ e : (ℕ × ℕ) × ℕ, es[i]? = some e ∧ b.key = e.1 ∧ b.ngp = e.2 + 1 ∧
        b.offset.length = nComm P ∧
        ∀ c, b.offset.getD c 0 = beg.getD c 0 + (((es.map Prod.snd).take i).map (res P c)).sum := by
  induction es generalizing raw beg x with
  | nil =>
    simp only [createAll, Except.ok.injEq] at h
    subst h
    simp [hb]
  | cons e es ih =>
    rw [createAll] at h
    obtain ⟨y, hy, h⟩ := bind_ok h
    obtain ⟨z, hz, h⟩ := bind_ok h
    simp only [pure, Except.pure, Except.ok.injEq] at h
    subst h
    obtain ⟨k1, k2, k3, k4, k5⟩ := createOne_ok hy
    have hl : (List.zipWith (· + ·) beg (reserve P (e.2 + 1))).length = nComm P := by
      simp [reserve_length, hb]
    have hg : ∀ c, y.2.2.getD c 0 = beg.getD c 0 + res P c e.2 := by
      intro c
      rw [k4, zipWith_get _ _ _ (by rw [reserve_length, hb])]
      rfl
    obtain ⟨m1, m2, m3, m4⟩ := ih (by rw [k4]; exact hl) hz
    refine ⟨by simp [m1], m2, ?_, ?_⟩
    · intro c
      show z.2.2.getD c 0 = _
      rw [m3, hg]
      simp only [List.map_cons, List.sum_cons]; omega
    · intro i b hi
      cases i with
      | zero =>
        simp only [List.getElem?_cons_zero, Option.some.injEq] at hi
        subst hi
        exact ⟨e, by simp, k1, k2, by rw [k3]; exact hb, fun c => by rw [k3]; simp⟩
      | succ i =>
        rw [List.getElem?_cons_succ] at hi
        obtain ⟨e', g1, g2, g3, g4, g5⟩ := m4 i b hi
        refine ⟨e', by simpa using g1, g2, g3, g4, ?_⟩
        intro c
        rw [g5, hg]
        simp only [List.map_cons, List.take_succ_cons, List.sum_cons]; omega

theorem replicate_getD (n c : ℕ) : (List.replicate n (0 : ℕ)).getD c 0 = 0 := by
  simp only [List.getD_eq_getElem?_getD, List.getElem?_replicate]
  split <;> rfl

/-- Segments laid end to end: every position lies in exactly one. -/
theorem segments (l : List ℕ) (k : ℕ) (hk : k < l.sum) :
    ∃! i, i < l.length ∧ (l.take i).sum ≤ k ∧ k < (l.take i).sum + l.getD i 0 := by
  induction l generalizing k with
  | nil => simp at hk
  | cons x l ih =>
    rw [List.sum_cons] at hk
    by_cases h : k < x
    · refine ⟨0, by simp [h], ?_⟩
      intro j hj
      cases j with
      | zero => rfl
      | succ j =>
        obtain ⟨_, h2, _⟩ := hj
        rw [List.take_succ_cons, List.sum_cons] at h2
        omega
    · obtain ⟨i, ⟨h1, h2, h3⟩, hu⟩ := ih (k - x) (by omega)
      refine ⟨i + 1, ⟨by simpa using h1, ?_, ?_⟩, ?_⟩
      · rw [List.take_succ_cons, List.sum_cons]; omega
      · rw [List.take_succ_cons, List.sum_cons, List.getD_cons_succ]; omega
      · intro j hj
        cases j with
        | zero =>
          obtain ⟨_, _, h6⟩ := hj
          simp at h6; omega
        | succ j =>
          obtain ⟨h4, h5, h6⟩ := hj
          rw [List.take_succ_cons, List.sum_cons] at h5 h6
          rw [List.getD_cons_succ] at h6
          rw [hu j ⟨by simpa using h4, by omega, by omega⟩]

theorem take_sum_le (l : List ℕ) (i : ℕ) (hi : i < l.length) : (l.take i).sum + l.getD i 0 ≤ l.sum := by
  have : l.sum = (l.take i).sum + (l.drop i).sum := by rw [← List.sum_append, List.take_append_drop]
  rw [this, List.drop_eq_getElem_cons hi, List.sum_cons, List.getD_eq_getElem _ _ hi]
  omega

/-- C26, layout: in every communication buffer the segments reserved by the boundaries lie inside the buffer,
are disjoint and cover it: every position belongs to exactly one boundary. -/
theorem layout {L : Type} {P : Problem} {data : List ((ℕ × ℕ) × L)} {raw raw' : List ((ℕ × ℕ) × Raw)}
    {es : List ((ℕ × ℕ) × ℕ)} {bs : List (DBound L)} {sizes : List ℕ}
    (h : createRankBoundary P data raw es = .ok (bs, raw', sizes)) :
    bs.map DBound.key = es.map Prod.fst ∧ sizes.length = nComm P ∧
    ∀ (c size : ℕ), sizes[c]? = some size →
      (∀ b ∈ bs, ∃ o r, b.offset[c]? = some o ∧ (reserve P b.ngp)[c]? = some r ∧ o + r ≤ size) ∧
      ∀ k < size, ∃! i : ℕ, ∃ (b : DBound L) (o r : ℕ), bs[i]? = some b ∧ b.offset[c]? = some o ∧ (reserve P b.ngp)[c]? = some r ∧
        o ≤ k ∧ k < o + r := by
  obtain ⟨h1, h2, h3, h4⟩ := createAll_ok (by simp) h
  simp only [replicate_getD, zero_add] at h3 h4
  simp only at h1 h2 h3 h4
  refine ⟨?_, h2, ?_⟩
  · apply List.ext_getElem?
    intro i
    rw [List.getElem?_map, List.getElem?_map]
    by_cases hi : i < bs.length
    · obtain ⟨e, g1, g2, _⟩ := h4 i bs[i] (List.getElem?_eq_getElem hi)
      rw [g1, List.getElem?_eq_getElem hi]; simp [g2]
    · rw [List.getElem?_eq_none (by omega), List.getElem?_eq_none (by omega)]; rfl
  intro c size hc
  have hcn : c < nComm P := by rw [← h2]; exact (List.getElem?_eq_some_iff.mp hc).1
  have hsize : size = ((es.map Prod.snd).map (res P c)).sum := by
    rw [← h3 c, List.getD_eq_getElem?_getD, hc]; rfl
  have key : ∀ (i : ℕ) (b : DBound L), bs[i]? = some b → ∃ o r, b.offset[c]? = some o ∧ (reserve P b.ngp)[c]? = some r ∧
      o = (((es.map Prod.snd).map (res P c)).take i).sum ∧ r = ((es.map Prod.snd).map (res P c)).getD i 0 := by
    intro i b hb
    obtain ⟨e, g1, g2, g3, g4, g5⟩ := h4 i b hb
    refine ⟨b.offset.getD c 0, res P c e.2, ?_, ?_, ?_, ?_⟩
    · rw [List.getD_eq_getElem _ _ (by omega), List.getElem?_eq_getElem (by omega)]
    · rw [g3, res, List.getD_eq_getElem _ _ (by rw [reserve_length]; omega), List.getElem?_eq_getElem]
    · rw [g5 c, List.map_take]
    · rw [List.getD_eq_getElem?_getD, List.getElem?_map, List.getElem?_map, g1]; rfl
  constructor
  · intro b hb
    obtain ⟨i, hi⟩ := List.mem_iff_getElem?.mp hb
    obtain ⟨o, r, a1, a2, a3, a4⟩ := key i b hi
    refine ⟨o, r, a1, a2, ?_⟩
    rw [a3, a4, hsize]
    apply take_sum_le
    have := (List.getElem?_eq_some_iff.mp hi).1
    simp; omega
  · intro k hk
    rw [hsize] at hk
    obtain ⟨i, ⟨s1, s2, s3⟩, hu⟩ := segments _ k hk
    have hi : i < bs.length := by simpa [h1] using s1
    refine ⟨i, ?_, ?_⟩
    · obtain ⟨o, r, a1, a2, a3, a4⟩ := key i bs[i] (List.getElem?_eq_getElem hi)
      exact ⟨bs[i], o, r, List.getElem?_eq_getElem hi, a1, a2, by omega, by omega⟩
    · rintro j ⟨b, o, r, b1, b2, b3, b4, b5⟩
      obtain ⟨o', r', a1, a2, a3, a4⟩ := key j b b1
      rw [b2] at a1; rw [b3] at a2
      simp only [Option.some.injEq] at a1 a2
      apply hu
      have := (List.getElem?_eq_some_iff.mp b1).1
      refine ⟨by simp; omega, by omega, by omega⟩

/-- Every message of every kernel fits into the segment reserved for it, and no more is read than was sent. -/
theorem messages_fit (P : Problem) (ngp c s n : ℕ) (hn : 1 ≤ ngp) (h : (c, s, n) ∈ messages P ngp) :
    ∃ r, (reserve P ngp)[c]? = some r ∧ s ≤ r ∧ n ≤ s := by
  have : ∀ m ∈ messages P ngp, ∃ r, (reserve P ngp)[m.1]? = some r ∧ m.2.1 ≤ r ∧ m.2.2 ≤ m.2.1 := by
    cases P <;> simp [messages, reserve] <;> omega
  exact this _ h

/-! ### C26: exchange -/

/-- The double at position `k` of buffer `c`. -/
def at2 {D : Type} (buf : List (List D)) (c k : ℕ) : Option D := (buf[c]?).bind (·[k]?)

theorem splice_get {D : Type} (b msg : List D) (o k : ℕ) (h : o + msg.length ≤ b.length) :
    (b.take o ++ msg ++ b.drop (o + msg.length))[k]? =
      if o ≤ k ∧ k < o + msg.length then msg[k - o]? else b[k]? := by
  have ht : (b.take o).length = o := by rw [List.length_take]; omega
  rw [List.append_assoc]
  by_cases h1 : k < o
  · rw [List.getElem?_append_left (by omega), List.getElem?_take_of_lt h1, if_neg (by omega)]
  · rw [List.getElem?_append_right (by omega), ht]
    by_cases h2 : k < o + msg.length
    · rw [List.getElem?_append_left (by omega), if_pos (by omega)]
    · rw [List.getElem?_append_right (by omega), List.getElem?_drop, if_neg (by omega)]
      congr 1; omega

theorem setToSend_ok {D : Type} (buf : List (List D)) (offset : List ℕ) (c o : ℕ) (b msg : List D)
    (hb : buf[c]? = some b) (ho : offset[c]? = some o) (h : o + msg.length ≤ b.length) :
    ∃ buf', setToSend buf offset c msg = .ok buf' ∧ buf'.map List.length = buf.map List.length ∧
      ∀ c' k, at2 buf' c' k = if c' = c ∧ o ≤ k ∧ k < o + msg.length then msg[k - o]? else at2 buf c' k := by
  refine ⟨buf.set c (b.take o ++ msg ++ b.drop (o + msg.length)), ?_, ?_, ?_⟩
  · unfold setToSend idx
    rw [hb, ho]
    show (if o + msg.length ≤ b.length then _ else _) = _
    rw [if_pos h]; rfl
  · apply List.ext_getElem?
    intro i
    rw [List.getElem?_map, List.getElem?_map, List.getElem?_set]
    have hc := (List.getElem?_eq_some_iff.mp hb).1
    by_cases hi : c = i
    · subst hi
      rw [if_pos rfl, if_pos hc, hb]
      simp; omega
    · rw [if_neg hi]
  · intro c' k
    have hc := (List.getElem?_eq_some_iff.mp hb).1
    unfold at2
    rw [List.getElem?_set]
    by_cases hi : c = c'
    · subst hi
      rw [if_pos rfl, if_pos hc, hb, Option.bind_some, Option.bind_some, splice_get _ _ _ _ h]
      simp
    · rw [if_neg hi, if_neg (fun hh => hi hh.1.symm)]

theorem getFromReceive_ok {D : Type} (buf : List (List D)) (offset : List ℕ) (c o n : ℕ) (b : List D)
    (hb : buf[c]? = some b) (ho : offset[c]? = some o) (h : o + n ≤ b.length) :
    ∃ r, getFromReceive buf offset c n = .ok r ∧ r.length = n ∧ ∀ k < n, r[k]? = at2 buf c (o + k) := by
  refine ⟨(b.drop o).take n, ?_, ?_, ?_⟩
  · unfold getFromReceive idx
    rw [hb, ho]
    show (if o + n ≤ b.length then _ else _) = _
    rw [if_pos h]; rfl
  · rw [List.length_take, List.length_drop]; omega
  · intro k hk
    rw [List.getElem?_take_of_lt hk, List.getElem?_drop, at2, hb]; rfl

/-- Offsets and sizes of two sides agree. -/
theorem sides_agree {L : Type} {P : Problem} {dataA dataB : List ((ℕ × ℕ) × L)} {rawA rawA' rawB rawB' : List ((ℕ × ℕ) × Raw)}
    {esA esB : List ((ℕ × ℕ) × ℕ)} {bsA bsB : List (DBound L)} {szA szB : List ℕ}
    (hp : esA.map Prod.snd = esB.map Prod.snd)
    (hA : createRankBoundary P dataA rawA esA = .ok (bsA, rawA', szA))
    (hB : createRankBoundary P dataB rawB esB = .ok (bsB, rawB', szB)) :
    szA = szB ∧ bsA.map DBound.offset = bsB.map DBound.offset ∧ bsA.map DBound.ngp = bsB.map DBound.ngp := by
  obtain ⟨a1, a2, a3, a4⟩ := createAll_ok (by simp) hA
  obtain ⟨b1, b2, b3, b4⟩ := createAll_ok (by simp) hB
  simp only at a1 a2 a3 a4 b1 b2 b3 b4
  have hlen : esA.length = esB.length := by simpa using congrArg List.length hp
  have ext0 : ∀ l l' : List ℕ, l.length = l'.length → (∀ c, l.getD c 0 = l'.getD c 0) → l = l' := by
    intro l l' h1 h2
    apply List.ext_getElem h1
    intro i h3 h4
    have := h2 i
    rwa [List.getD_eq_getElem _ _ h3, List.getD_eq_getElem _ _ h4] at this
  refine ⟨ext0 _ _ (by omega) (fun c => by rw [a3, b3, hp]), ?_, ?_⟩
  all_goals
    apply List.ext_getElem?
    intro i
    rw [List.getElem?_map, List.getElem?_map]
    by_cases hi : i < bsA.length
    · have hi' : i < bsB.length := by omega
      obtain ⟨e, g1, g2, g3, g4, g5⟩ := a4 i bsA[i] (List.getElem?_eq_getElem hi)
      obtain ⟨e', g1', g2', g3', g4', g5'⟩ := b4 i bsB[i] (List.getElem?_eq_getElem hi')
      have he : e.2 = e'.2 := by
        have := congrArg (·[i]?) hp
        simpa [g1, g1'] using this
      rw [List.getElem?_eq_getElem hi, List.getElem?_eq_getElem hi', Option.map_some, Option.map_some]
      first
        | rw [g3, g3', he]
        | exact congrArg some (ext0 bsA[i].offset bsB[i].offset (by omega) (fun c => by rw [g5, g5', hp]))
    · rw [List.getElem?_eq_none (by omega), List.getElem?_eq_none (by omega)]
      try rfl

/-- C26: two sides of a rank boundary that list the same polynomial orders in the same order (which is what the `.dbmd` files
contain) reserve equal buffers. Whatever was in the send buffers, and in whatever order (and however often) the boundaries on
one side write messages no longer than their reserved segments, no write goes out of range; after the buffers were copied to
the other side, the i-th boundary there reads back the last message written by the i-th boundary on this side.
A write is (boundary number, communication type, message). -/
theorem exchange {D L : Type} {P : Problem} {dataA dataB : List ((ℕ × ℕ) × L)} {rawA rawA' rawB rawB' : List ((ℕ × ℕ) × Raw)}
    {esA esB : List ((ℕ × ℕ) × ℕ)} {bsA bsB : List (DBound L)} {szA szB : List ℕ}
    (hp : esA.map Prod.snd = esB.map Prod.snd)
    (hA : createRankBoundary P dataA rawA esA = .ok (bsA, rawA', szA))
    (hB : createRankBoundary P dataB rawB esB = .ok (bsB, rawB', szB))
    (buf : List (List D)) (hbuf : buf.map List.length = szA)
    (ws : List (ℕ × ℕ × List D))
    (hws : ∀ w ∈ ws, ∃ (a : DBound L) (r : ℕ), bsA[w.1]? = some a ∧ (reserve P a.ngp)[w.2.1]? = some r ∧ w.2.2.length ≤ r) :
    szA = szB ∧ ∃ buf', setAll buf (ws.map fun w => (((bsA.map DBound.offset)[w.1]?).getD [], w.2.1, w.2.2)) = .ok buf' ∧
      buf'.map List.length = szB ∧
      ∀ (i c : ℕ) (b : DBound L) (m : List D) (before after : List (ℕ × ℕ × List D)),
        bsB[i]? = some b → ws = before ++ (i, c, m) :: after → (∀ w ∈ after, ¬ (w.1 = i ∧ w.2.1 = c)) →
        ∀ n r, (reserve P b.ngp)[c]? = some r → n ≤ r →
          ∃ res, getFromReceive buf' b.offset c n = .ok res ∧ res.length = n ∧ ∀ k < n, k < m.length → res[k]? = m[k]? := by
  obtain ⟨s1, s2, s3⟩ := sides_agree hp hA hB
  refine ⟨s1, ?_⟩
  obtain ⟨_, l2, l3⟩ := layout hA
  -- every write is in range
  have rng : ∀ (i c r : ℕ) (a : DBound L), bsA[i]? = some a → (reserve P a.ngp)[c]? = some r →
      ∃ o size, a.offset[c]? = some o ∧ szA[c]? = some size ∧ o + r ≤ size := by
    intro i c r a ha hr
    have hc : c < szA.length := by
      rw [l2, ← reserve_length P a.ngp]; exact (List.getElem?_eq_some_iff.mp hr).1
    obtain ⟨o, r', h1, h2, h3⟩ := (l3 c szA[c] (List.getElem?_eq_getElem hc)).1 a (List.mem_of_getElem? ha)
    rw [hr, Option.some.injEq] at h2
    exact ⟨o, szA[c], h1, List.getElem?_eq_getElem hc, by omega⟩
  have bufc : ∀ (bf : List (List D)), bf.map List.length = szA → ∀ (c size : ℕ), szA[c]? = some size →
      ∃ b : List D, bf[c]? = some b ∧ b.length = size := by
    intro bf hbf c size hs
    rw [← hbf, List.getElem?_map] at hs
    cases hb : bf[c]? with
    | none => rw [hb] at hs; simp at hs
    | some b => rw [hb] at hs; exact ⟨b, rfl, by simpa using hs⟩
  -- distinct boundaries do not share positions
  have disj : ∀ (i j c oi oj ri rj k : ℕ) (a a' : DBound L), bsA[i]? = some a → bsA[j]? = some a' →
      a.offset[c]? = some oi → a'.offset[c]? = some oj → (reserve P a.ngp)[c]? = some ri → (reserve P a'.ngp)[c]? = some rj →
      oi ≤ k → k < oi + ri → oj ≤ k → k < oj + rj → i = j := by
    intro i j c oi oj ri rj k a a' h1 h2 h3 h4 h5 h6 h7 h8 h9 h10
    obtain ⟨o, size, g1, g2, g3⟩ := rng i c ri a h1 h5
    rw [h3, Option.some.injEq] at g1
    obtain ⟨x, _, hx⟩ := (l3 c size g2).2 k (by omega)
    rw [hx i ⟨a, oi, ri, h1, h3, h5, h7, h8⟩, hx j ⟨a', oj, rj, h2, h4, h6, h9, h10⟩]
  have main : ∀ (ws : List (ℕ × ℕ × List D)) (buf : List (List D)), buf.map List.length = szA →
      (∀ w ∈ ws, ∃ (a : DBound L) (r : ℕ), bsA[w.1]? = some a ∧ (reserve P a.ngp)[w.2.1]? = some r ∧ w.2.2.length ≤ r) →
      ∃ buf', setAll buf (ws.map fun w => (((bsA.map DBound.offset)[w.1]?).getD [], w.2.1, w.2.2)) = .ok buf' ∧
        buf'.map List.length = szA ∧
        (∀ (i c o r : ℕ) (a : DBound L), bsA[i]? = some a → a.offset[c]? = some o → (reserve P a.ngp)[c]? = some r →
          (∀ w ∈ ws, ¬ (w.1 = i ∧ w.2.1 = c)) → ∀ k, o ≤ k → k < o + r → at2 buf' c k = at2 buf c k) ∧
        ∀ (i c o : ℕ) (a : DBound L) (m : List D) (before after : List (ℕ × ℕ × List D)),
          bsA[i]? = some a → a.offset[c]? = some o →
          ws = before ++ (i, c, m) :: after → (∀ w ∈ after, ¬ (w.1 = i ∧ w.2.1 = c)) →
          ∀ k < m.length, at2 buf' c (o + k) = m[k]? := by
    intro ws
    induction ws with
    | nil => intro buf hbuf _; exact ⟨buf, rfl, hbuf, fun _ _ _ _ _ _ _ _ _ _ _ _ => rfl, by simp⟩
    | cons w ws ih =>
      intro buf hbuf hws
      obtain ⟨a, r, ha, hr, hm⟩ := hws w (by simp)
      obtain ⟨o, size, ho, hs, hle⟩ := rng _ _ _ _ ha hr
      obtain ⟨b, hb, hbl⟩ := bufc buf hbuf _ _ hs
      obtain ⟨buf1, e1, e2, e3⟩ := setToSend_ok buf a.offset w.2.1 o b w.2.2 hb ho (by omega)
      obtain ⟨buf2, f1, f2, f3, f4⟩ := ih buf1 (by rw [e2, hbuf]) (fun w' hw' => hws w' (by simp [hw']))
      refine ⟨buf2, ?_, f2, ?_, ?_⟩
      · rw [List.map_cons, setAll]
        simp only [List.getElem?_map, ha, Option.map_some, Option.getD_some]
        rw [e1, ok_bind]
        simpa only [List.getElem?_map] using f1
      · intro i c o' r' a' h1 h2 h3 h4 k h5 h6
        rw [f3 i c o' r' a' h1 h2 h3 (fun w' hw' => h4 w' (by simp [hw'])) k h5 h6, e3, if_neg]
        rintro ⟨rfl, h7, h8⟩
        exact h4 w (by simp) ⟨disj _ _ _ _ _ _ _ k _ _ ha h1 ho h2 hr h3 h7 (by omega) h5 h6, rfl⟩
      · intro i c o' a' m before after h1 h2 h3 h4 k hk
        cases before with
        | nil =>
          rw [List.nil_append, List.cons.injEq] at h3
          obtain ⟨rfl, rfl⟩ := h3
          simp only at ha hr ho e3 hm
          rw [h1, Option.some.injEq] at ha
          subst ha
          rw [h2, Option.some.injEq] at ho
          subst ho
          rw [f3 i c o' r a' h1 h2 hr h4 (o' + k) (by omega) (by omega), e3, if_pos ⟨rfl, by omega, by omega⟩]
          congr 1; omega
        | cons w0 before =>
          rw [List.cons_append, List.cons.injEq] at h3
          exact f4 i c o' a' m before after h1 h2 h3.2 h4 k hk
  obtain ⟨buf', m1, m2, m3, m4⟩ := main ws buf hbuf hws
  refine ⟨buf', m1, by rw [m2, s1], ?_⟩
  intro i c b m before after hb hsp haf n r hr hn
  -- the counterpart
  have hiB := (List.getElem?_eq_some_iff.mp hb).1
  have hlen : bsA.length = bsB.length := by simpa using congrArg List.length s2
  have hiA : i < bsA.length := by omega
  have ho : bsA[i].offset = b.offset := by
    have := congrArg (·[i]?) s2
    simpa [hb, List.getElem?_eq_getElem hiA] using this
  have hg : bsA[i].ngp = b.ngp := by
    have := congrArg (·[i]?) s3
    simpa [hb, List.getElem?_eq_getElem hiA] using this
  obtain ⟨o, size, h1, h2, h3⟩ := rng i c r bsA[i] (List.getElem?_eq_getElem hiA) (by rw [hg]; exact hr)
  obtain ⟨bb, hbb, hbl⟩ := bufc buf' m2 c size h2
  obtain ⟨res, r1, r2, r3⟩ := getFromReceive_ok buf' b.offset c o n bb hbb (by rw [← ho]; exact h1) (by omega)
  refine ⟨res, r1, r2, ?_⟩
  intro k hk hkm
  rw [r3 k hk]
  exact m4 i c o bsA[i] m before after (List.getElem?_eq_getElem hiA) h1 hsp haf k hkm

/-- C26: creation succeeds whenever the entries are distinct and name plain raw boundaries, and removes exactly these. -/
theorem create_succeeds {L : Type} (P : Problem) (data : List ((ℕ × ℕ) × L)) (raw : List ((ℕ × ℕ) × Raw)) (beg : List ℕ)
    (es : List ((ℕ × ℕ) × ℕ)) (hn : (es.map Prod.fst).Nodup) (hr : ∀ e ∈ es, raw.lookup e.1 = some .plain) :
    ∃ bs sizes, createAll P data raw beg es = .ok (bs, raw.filter (fun x => x.1 ∉ es.map Prod.fst), sizes) := by
  induction es generalizing raw beg with
  | nil => exact ⟨[], beg, by simp [createAll]⟩
  | cons e es ih =>
    rw [List.map_cons, List.nodup_cons] at hn
    have h1 : createOne P data raw beg e = .ok (⟨e.1, numGP (2 * e.2 + 1), [], beg⟩, raw.filter (fun x => x.1 ≠ e.1),
        List.zipWith (· + ·) beg (reserve P (numGP (2 * e.2 + 1)))) := by
      unfold createOne atKey
      rw [hr e (by simp)]
      rfl
    have hlk : ∀ (l : List ((ℕ × ℕ) × Raw)) (k k' : ℕ × ℕ), k ≠ k' → (l.filter fun x => x.1 ≠ k').lookup k = l.lookup k := by
      intro l k k' hk
      induction l with
      | nil => rfl
      | cons y l ih =>
        rw [List.filter_cons]
        by_cases hy : y.1 = k'
        · have : (k == y.1) = false := by simpa [hy] using hk
          rw [if_neg (by simp [hy]), ih, List.lookup, this]
        · rw [if_pos (by simp [hy]), List.lookup, List.lookup, ih]
    obtain ⟨bs, sizes, h2⟩ := ih (raw.filter (fun x => x.1 ≠ e.1)) (List.zipWith (· + ·) beg (reserve P (numGP (2 * e.2 + 1))))
      hn.2 (fun e' he' => by
        rw [hlk raw e'.1 e.1 (fun hh => hn.1 (hh ▸ List.mem_map_of_mem (f := Prod.fst) he')), hr e' (by simp [he'])])
    refine ⟨⟨e.1, numGP (2 * e.2 + 1), [], beg⟩ :: bs, sizes, ?_⟩
    rw [createAll, h1, ok_bind]
    simp only
    rw [h2, ok_bind]
    simp only [pure, Except.pure, List.filter_filter, List.map_cons, List.mem_cons, not_or, Bool.decide_and, ne_eq]
    congr 3
    apply List.filter_congr
    intro x _
    rw [Bool.and_comm]

/-- Two boundaries of orders 1 and 2 (RKDG): segments and a round trip, boundary 1 writing before boundary 0. -/
example : (createRankBoundary (L := ℕ) .rkdg [] [((5, 0), .plain), ((7, 2), .plain)] [((7, 2), 1), ((5, 0), 2)]).toOption.map
    (fun x => (x.1.map DBound.offset, x.2.2)) = some ([[0, 0, 0], [2, 7, 6]], [4, 17, 13]) := by decide +kernel

example : (do
    let s ← setAll [[0, 0, 0, 0], [], []] [([2, 7, 6], 0, [3, 4]), ([0, 0, 0], 0, [1, 2])]
    getFromReceive s [2, 7, 6] 0 2 : Res (List ℕ)).toOption = some [3, 4] := by decide +kernel

/-- A boundary listed twice, or not present in the mesh, is refused. -/
example : createRankBoundary (L := ℕ) .rkdg [] [((5, 0), .plain)] [((5, 0), 1), ((5, 0), 1)] = .error .exc := by decide +kernel

/-- Finding (not part of C26): a levee node occurring in two levee entries contributes twice to the list of levee data, so that
the data of the following node are shifted. -/
theorem levee_data_shifted : leveeOf (L := ℕ) [((1, 11), 100), ((1, 21), 101), ((2, 12), 200)] (.levee [1, 2]) =
    .ok [100, 101, 200] := by decide +kernel

/-- With exactly one entry per node, every node gets its own data, in order. -/
theorem levee_data {L : Type} (data : List ((ℕ × ℕ) × L)) (nodes : List ℕ) (f : ℕ → L)
    (h : ∀ n ∈ nodes, (data.filter fun d => d.1.1 = n ∨ d.1.2 = n).map Prod.snd = [f n]) :
    leveeOf data (.levee nodes) = .ok (nodes.map f) := by
  have : nodes.mapM (leveeAt data) = .ok (nodes.map fun n => [f n]) := by
    induction nodes with
    | nil => rfl
    | cons n nodes ih =>
      have h1 : leveeAt data n = .ok [f n] := by
        unfold leveeAt
        have h2 := h n (by simp)
        simp only
        rw [if_neg (by intro h3; rw [h3] at h2; simp at h2), h2]
      rw [List.mapM_cons, h1, ok_bind, ih (fun m hm => h m (by simp [hm])), ok_bind]
      rfl
  simp only [leveeOf]
  rw [this, ok_bind]
  show Except.ok _ = _
  congr 1
  clear h this
  induction nodes with
  | nil => rfl
  | cons n nodes ih => simp [ih]

end Verif.Comm.Props
