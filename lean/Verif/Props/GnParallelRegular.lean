import Verif.Props.GnParallel
import Verif.Props.GnRegular

/-!
# C97: the libraries of several ranks

If libraries handle regular matrices and the equations of the whole mesh have one solution, several ranks find it (`parallel_regular`).
-/

namespace Verif.Gn.Props
open Verif.Gn Verif.Ihdg Verif.Ehdg Verif.Ihdg.Props

variable {K : Type} [Field K] [LinearOrder K] {P : PSkel} {s : Skel} {wet : ℕ → Bool}

theorem own_sublist (l : List PEdge) : (l.map PEdge.own).Sublist (l.flatMap PEdge.faces) := by
  induction l with
  | nil => exact List.Sublist.slnil
  | cons x l ih =>
    rw [List.map_cons, List.flatMap_cons]
    cases x with
    | int c c' => exact (ih.cons c').cons_cons c
    | bnd c => exact ih.cons_cons c
    | dist c ex => exact ih.cons_cons c

/-- All numbers are used. -/
theorem renumberP_onto (hP : Shared P s) (wet : ℕ → Bool) (t : PIndex) {n : ℕ} (hn : n < (renumberP P wet t).total) :
    ∃ y ∈ P.edges, (renumberP P wet t).face y.own.e y.own.f = n := by
  rw [renumberP_total] at hn
  obtain ⟨k, hk, h1, h2⟩ := countP_onto _ _ hn
  refine ⟨P.edges[k], List.getElem_mem hk, ?_⟩
  obtain ⟨E1, E2, hE, hc⟩ := number_takes hP.nodup t (List.getElem_mem hk) h1
  rw [hc _ (own_mem _), ← h2]
  have hnd : P.edges.Nodup := ((own_sublist P.edges).nodup hP.nodup).of_map
  have hl : E1.length < P.edges.length := by
    have := congrArg List.length hE
    simp only [List.length_append, List.length_cons] at this
    omega
  have hk' : P.edges[E1.length] = P.edges[k] := by
    have : P.edges[E1.length]? = some P.edges[k] := by
      conv_lhs => rw [hE]
      simp
    rw [List.getElem?_eq_getElem hl] at this
    exact Option.some.inj this
  have hek : E1.length = k := (hnd.getElem_inj_iff).1 hk'
  have : P.edges.take k = E1 := by
    rw [← hek]
    conv_lhs => rw [hE]
    simp
  rw [this]

theorem rhsP_hom {t : PIndex} {b : DcBlocks K} {l : Local K} (hr : ∀ e i, l.rhs e i = 0) (es : List PEdge) (v : ℕ → K) (hv : ∀ i, v i = 0) (i : ℕ) :
    es.foldl (rhsP P t wet b l) v i = 0 := by
  induction es generalizing v with
  | nil => exact hv i
  | cons x es ih =>
    refine ih _ fun i => ?_
    have he : ∀ j, edgeRhs P wet b l x j = 0 := by
      intro j
      unfold edgeRhs
      generalize x.faces.filter _ = cs
      have : ∀ v : K, v = 0 → cs.foldl (fun v c => v - mulV (2 * P.ndof c.e) (hatSchur P.sizes b l c) (l.rhs c.e) j) v = 0 := by
        induction cs with
        | nil => intro v hv; exact hv
        | cons c cs ih =>
          intro v hv
          refine ih _ ?_
          simp only [hv, zero_sub, neg_eq_zero]
          exact Finset.sum_eq_zero fun k _ => by rw [hr, mul_zero]
      exact this 0 rfl
    unfold rhsP
    by_cases hw : wetEdge wet x.faces = true
    · rw [if_pos hw]
      unfold addBlock
      split
      · rw [hv, he, add_zero]
      · exact hv i
    · rw [if_neg hw]; exact hv i

theorem backP_some {t : PIndex} {l : Local K} {x : ℕ → K} : ∀ (rs : List (List PEdge × List ℕ)) (v : ℕ → ℕ → K),
    (∀ p ∈ rs, ∀ y ∈ p.1, t.loc y.own.e y.own.f < p.2.length) → (rs.foldlM (fun w (r : List PEdge × List ℕ) => r.1.foldlM (backP P t wet l r.2 x) w) v).isSome := by
  have h1 : ∀ (gs : List ℕ) (r : List PEdge) (v : ℕ → ℕ → K), (∀ y ∈ r, t.loc y.own.e y.own.f < gs.length) → (r.foldlM (backP P t wet l gs x) v).isSome := by
    intro gs r
    induction r with
    | nil => intro v _; rfl
    | cons y r ih =>
      intro v h
      rw [List.foldlM_cons]
      have : backP P t wet l gs x v y = some ((y.faces.filter fun c => wet c.e).foldl (fun (r : ℕ → ℕ → K) c => Function.update r c.e fun i =>
          r c.e i - mulV P.m (l.hat c.e c.f) (fun j => scattered P gs x (t.loc y.own.e y.own.f * P.m + j)) i) v) := by
        unfold backP
        refine if_pos ?_
        rw [← Nat.succ_mul]
        exact Nat.mul_le_mul_right _ (h y (by simp))
      rw [this]
      exact ih _ fun z hz => h z (by simp [hz])
  intro rs
  induction rs with
  | nil => intro v _; rfl
  | cons p rs ih =>
    intro v h
    rw [List.foldlM_cons]
    obtain ⟨w, hw⟩ := Option.isSome_iff_exists.1 (h1 p.2 p.1 v (h p (by simp)))
    rw [hw]
    exact ih w fun q hq => h q (by simp [hq])

/-- **C97** If the libraries handle every regular matrix, every element's equations are regular and those of the whole mesh have no other solution than zero
without source, the correction comes to its end on several ranks, all of whose edges are wet. -/
theorem parallel_regular {I : Inverse K} {slv : Solver K} (hc : Complete I slv) (hP : Shared P s) (hs : Whole s) (hm : 0 < s.m) {wd : Bool} {t0 : PIndex} {b : DcBlocks K}
    {hh : ℕ → ℕ → ℕ → ℕ → K} (hw : ∀ e ∈ s.elts, wet e) (h0 : wd = false → t0 = initialP P)
    (hhh : ∀ (k : ℕ) (hk : k < s.edges.length), (∃ c ∈ s.edges[k], wet c.e) → ∀ i < s.m, ∀ j < s.m, b.ahh k i j =
      ((P.edges.filter fun y => wetEdge wet y.faces && decide (y.own ∈ s.edges[k])).map fun y => hh y.own.e y.own.f i j).sum)
    (hl : ∀ e ∈ s.elts, LocalRegular s b e)
    (hg : ∀ w1 w2 y, W1Eq s wet (hom b) w1 w2 y → W2Eq s wet (hom b) w1 w2 y → HatEq s wet (hom b) w1 w2 y →
      ∀ (k : ℕ) (hk : k < s.edges.length), wetEdge wet s.edges[k] → ∀ i < s.m, y k i = 0) :
    (solveP I slv P wd wet t0 b hh).isSome := by
  have hwy : ∀ y ∈ P.edges, wetEdge wet y.faces := by
    intro y hy
    refine wetEdge_of (own_mem y) (hw _ (hs.elt _ ((face_mem hP).1 (List.mem_flatMap.2 ⟨y, hy, own_mem y⟩))).1)
  have ht : PNumbered P wet (if wd then renumberP P wet t0 else t0) ∧
      ∀ n < (if wd then renumberP P wet t0 else t0).total, ∃ y ∈ P.edges, (if wd then renumberP P wet t0 else t0).face y.own.e y.own.f = n := by
    by_cases hwd : wd = true
    · rw [if_pos hwd]; exact ⟨renumberP_numbered hP wet t0, fun n hn => renumberP_onto hP wet t0 hn⟩
    · rw [if_neg hwd, h0 (by simpa using hwd)]; exact ⟨initialP_numbered hP wet, fun n hn => renumberP_onto hP _ _ hn⟩
  unfold solveP
  generalize (if wd = true then renumberP P wet t0 else t0) = t at *
  obtain ⟨ht, ho⟩ := ht
  have hn : P.sizes.ndof = s.ndof := hP.ndof
  have hmm : P.sizes.m = s.m := hP.size
  have hlP : ∀ e ∈ P.elts, wet e → LocalRegular P.sizes b e := by
    intro e he _
    obtain ⟨l1, l2⟩ := hl e ((hP.elts e).1 he)
    refine ⟨?_, ?_⟩
    · rw [hn]; exact l1
    · rw [hn]; exact l2
  obtain ⟨l, hlo⟩ := Option.isSome_iff_exists.1 (elimAll_some hc P.elts hlP)
  have hel : ∀ e ∈ s.elts, wet e → Eliminated s b l e := by
    intro e he hwe
    obtain ⟨h1, h2, h3⟩ := elimAll_spec hc.right hc.solves P.elts l hlo e ((hP.elts e).2 he) hwe
    unfold schur schurHat at *
    rw [hn] at h1 h2 h3
    rw [hmm] at h2
    exact ⟨h1, h2, h3⟩
  have hreg : Regular (t.total * P.m) (assembleP P t wet b hh l).1 := by
    intro x hx
    set l0 : Local K := { l with rhs := fun _ _ => 0 } with hl0
    have hT := whole_numbered hP hs ht
    have hrow := parallel_rows (b := hom b) (l := l0) (x := x) hP hs ht hhh (fun r hr => by
      refine Eq.trans (hx r hr) ?_
      exact (rhsP_hom (fun _ _ => rfl) _ _ (fun _ => rfl) r).symm)
    obtain ⟨w2, h1, h2, h3⟩ := dc_rows (b := hom b) (l := l0) (x := x) (w1 := fun e i => l0.rhs e i - traces s l0.hat (trace s (whole s wet t) x) e i) hs hT
      (fun e he hwe => ⟨(hel e he hwe).inv, (hel e he hwe).hat, fun i _ => Finset.sum_eq_zero fun k _ => mul_zero _⟩) hrow (fun _ _ _ _ => rfl)
    intro i hi
    have hm' : 0 < P.m := hP.size ▸ hm
    obtain ⟨y, hy, hyn⟩ := ho (i / P.m) (by rwa [Nat.div_lt_iff_lt_mul hm'])
    obtain ⟨k, hk, hmem⟩ := edge_of hP hy
    have hwk : wetEdge wet s.edges[k] := wetEdge_of (hmem _ (own_mem y)) (hw _ (hs.elt _ (List.mem_flatten.2 ⟨_, List.getElem_mem hk, hmem _ (own_mem y)⟩)).1)
    have hnum := (num_iff hP hs ht hk hwk hy (hwy y hy)).2 (hmem _ (own_mem y))
    have := hg _ _ _ h1 h2 h3 k hk hwk (i % s.m) (Nat.mod_lt _ hm)
    unfold trace at this
    rwa [← hnum, hyn, ← hP.size, Nat.div_add_mod'] at this
  obtain ⟨x, hx⟩ := Option.isSome_iff_exists.1 (hc.slv _ _ (assembleP P t wet b hh l).2 hreg)
  obtain ⟨w, hwb⟩ := Option.isSome_iff_exists.1 (backP_some (P := P) (wet := wet) (t := t) (l := l) (x := x) (P.ranks.zip t.globals) l.rhs fun p hp y hy =>
    (ht.loc p hp y hy (hwy y (List.mem_flatten.2 ⟨p.1, (List.of_mem_zip hp).1, hy⟩))).1)
  simp only [hlo, Option.bind_eq_bind, Option.bind_some, hx]
  rw [hwb]; rfl

end Verif.Gn.Props
