import Verif.Lemmas.IhdgUnit
import Verif.Props.IhdgParallelCase
import Verif.Props.Rounds

/-!
# C137: the threaded implicit program computes, in every schedule, what one thread computes

`Rounds` proves that all schedules end with the same memory; here the kernels of the implicit discretization are put in, and the memory is compared with the
solution of `IhdgParallel` and, through C101, with that of the serial program.
-/

namespace Verif.Ihdg.Props
open Verif.Geometry Verif.Element Verif.Swe Verif.Swe.Props Verif.Edge Verif.Edge.Props Verif.Ehdg Verif.Ehdg.Props Verif.Ihdg
open Verif.Gn (PEdge PEdg edgesP byFaceP byOwnP)
open Verif.Gn.Props (gauss_rules gauss_orthogonal gauss_minv exact_complete)
open Verif.Rounds (Crew St start Ctl newtonRound)
open Verif.Rounds.Props (iteration newtonLoop newtonStage newtonRun)

section
variable {K : Type} [Field K] [LinearOrder K] {S : Scheme K} {W : Cluster K}

/-- A submesh holds its part of an iterate and of what was there at the start of the stage. -/
structure Holds (m : Mesh K) (it : PIter K) (q0 : State K) (prev : ℕ → ℕ → K) (x : SubMem K) : Prop where
  it : Own m it x.it
  q0 : ∀ e ∈ m.elts, q0 e = x.q0 e
  prev : ∀ e ∈ m.elts, prev e = x.prev e

/-- The place of a submesh. -/
def posOf (W : Cluster K) (u : Sub W) : Pos W (subMesh W u) where
  R1 := W.ranks.take u.1
  M1 := (W.ranks.get u.1).take u.2
  M2 := (W.ranks.get u.1).drop (u.2 + 1)
  R2 := W.ranks.drop (u.1 + 1)
  eq := by
    have h1 : (W.ranks.get u.1).take u.2 ++ subMesh W u :: (W.ranks.get u.1).drop (u.2 + 1) = W.ranks.get u.1 := by
      unfold subMesh
      rw [show (W.ranks.get u.1).get u.2 = (W.ranks.get u.1)[u.2.val] from rfl, ← List.drop_eq_getElem_cons u.2.isLt, List.take_append_drop]
    rw [h1, List.get_eq_getElem, ← List.drop_eq_getElem_cons u.1.isLt, List.take_append_drop]

theorem posOf_rank (u : Sub W) : (posOf W u).R1.length = u.1 := by simp [posOf, u.1.isLt.le]

theorem elts_mem (u : Sub W) {e : ℕ} (he : e ∈ (subMesh W u).elts) : e ∈ (skelP S W).elts := by
  show e ∈ W.meshes.flatMap Mesh.elts
  rw [(posOf W u).meshes]
  simp only [List.flatMap_append, List.flatMap_singleton, List.mem_append]
  exact .inl (.inr he)

theorem kernels_sub (h : Apart W) (u : Sub W) {it : PIter K} {q0 : State K} {prev : ℕ → ℕ → K} {x : SubMem K} (hx : Holds (subMesh W u) it q0 prev x)
    (hf : finiteP S W it.q = true) {inv : ℕ → ℕ → ℕ → K} (hi : inverses S.I (blocksP S W q0 prev it).elt (skelP S W).sizes (skelP S W).elts = some inv) :
    ∃ x', subKernels S W (subMesh W u) x = some x' ∧ Holds (subMesh W u) it q0 prev x' ∧ OwnBlocks (subMesh W u) (blocksP S W q0 prev it) x'.blk ∧
      ∀ e ∈ (subMesh W u).elts, inv e = x'.inv e := by
  have hb := blocks_sub S W h (posOf W u).meshes hx.it hx.q0 hx.prev
  have h1 : subFinite S x.it.q (subMesh W u) = true := by
    rw [subFinite, List.all_eq_true]
    intro e he
    have := List.all_eq_true.1 hf e (elts_mem (S := S) u he)
    rw [hx.it.q e he] at this
    exact this
  obtain ⟨t', h2, h3⟩ := inverses_sub (I := S.I) (s := (skelP S W).sizes) (b := (subBlocks S W x.q0 x.prev x.it (subMesh W u)).elt) (l := (subMesh W u).elts) (t := inv) fun e he => by
    have := inverses_get hi e (elts_mem (S := S) u he)
    rw [show (blocksP S W q0 prev it).elt.dl e = _ from hb.dl e he] at this
    exact this
  refine ⟨{ x with blk := subBlocks S W x.q0 x.prev x.it (subMesh W u), inv := t' }, by rw [subKernels, if_pos h1, h2]; rfl, ⟨hx.it, hx.q0, hx.prev⟩, hb, fun e he => (h3 e he).symm⟩

theorem edges_fin : (skelP S W).edges = (List.finRange W.ranks.length).flatMap fun r => (List.finRange (W.ranks.get r).length).flatMap fun i => subEdges (subMesh W ⟨r, i⟩) := by
  have h1 : ∀ {α β : Type} (l : List α) (F : α → List β), l.flatMap F = (List.finRange l.length).flatMap fun i => F (l.get i) := by
    intro α β l F
    conv_lhs => rw [← List.map_get_finRange l, List.flatMap_map]
  show (W.ranks.map fun r => r.map subEdges).flatten.flatten = _
  have h2 : (W.ranks.map fun r => r.map subEdges).flatten.flatten = W.ranks.flatMap fun r => r.flatMap subEdges := by
    induction W.ranks with
    | nil => rfl
    | cons r R ih => simp only [List.map_cons, List.flatten_cons, List.flatten_append, ih, List.flatMap_cons]; rfl
  rw [h2, h1]
  refine List.flatMap_congr fun r _ => ?_
  rw [h1]
  rfl

theorem faces_own (h : Apart W) (u : Sub W) {y : PEdge} (hy : y ∈ subEdges (subMesh W u)) : ∀ c ∈ y.faces, c.e ∈ (subMesh W u).elts := by
  intro c hc
  obtain ⟨x, hx, hxc⟩ := subEdges_faces hy hc
  exact edges_own h (posOf W u).meshes x hx _ hxc

/-- The contributions of all submeshes make up the system. -/
theorem system_sub (h : Apart W) {b : PBlocks K} {inv : ℕ → ℕ → ℕ → K} {x : Sub W → SubMem K} (hb : ∀ u, OwnBlocks (subMesh W u) b (x u).blk)
    (hi : ∀ u, ∀ e ∈ (subMesh W u).elts, inv e = (x u).inv e) :
    ((List.finRange W.ranks.length).flatMap fun r => (List.finRange (W.ranks.get r).length).flatMap fun i => (subPart S W (subMesh W ⟨r, i⟩) (x ⟨r, i⟩)).1) =
      (skelP S W).edges.flatMap (tripletsP (skelP S W) (numberP (skelP S W)) b inv) ∧
    ((List.finRange W.ranks.length).foldl (fun v r => (List.finRange (W.ranks.get r).length).foldl (fun v i => (subPart S W (subMesh W ⟨r, i⟩) (x ⟨r, i⟩)).2 v) v) fun _ => 0) =
      (skelP S W).edges.foldl (addP (skelP S W) (numberP (skelP S W)) b inv) fun _ => 0 := by
  constructor
  · rw [edges_fin, List.flatMap_assoc]
    refine List.flatMap_congr fun r _ => ?_
    rw [List.flatMap_assoc]
    exact List.flatMap_congr fun i _ => List.flatMap_congr fun y hy => (triplets_sub (hb _) (hi _) (faces_own h ⟨r, i⟩ hy)).symm
  · rw [edges_fin, List.foldl_flatMap]
    refine fold_same _ _ _ id _ _ (fun r _ v v' hv => ?_) rfl
    simp only [id] at hv ⊢
    subst hv
    rw [List.foldl_flatMap]
    refine fold_same _ _ _ id _ _ (fun i _ v v' hv => ?_) rfl
    simp only [id] at hv ⊢
    subst hv
    exact fold_same _ _ _ id _ _ (fun y hy v v' hv => by
      simp only [id] at hv ⊢
      subst hv
      exact (add_sub (hb _) (hi _) (faces_own h ⟨r, i⟩ hy) v).symm) rfl

theorem update_sub (h : Apart W) (u : Sub W) {it : PIter K} {q0 : State K} {prev : ℕ → ℕ → K} {x : SubMem K} (hx : Holds (subMesh W u) it q0 prev x) {b : PBlocks K}
    (hb : OwnBlocks (subMesh W u) b x.blk) {inv : ℕ → ℕ → ℕ → K} (hi : ∀ e ∈ (subMesh W u).elts, inv e = x.inv e) {v : ℕ → K} {w : (ℕ → ℕ → K) × (ℕ → ℕ → ℕ → K)}
    (hw : ((skelP S W).ranks.zip (numberP (skelP S W)).globals).foldlM (fun w r => r.1.flatten.foldlM (backP (skelP S W) (numberP (skelP S W)) b r.2 v) w)
      (b.rl, fun _ _ _ => 0) = some w) :
    ∃ x', subUpdate S W ((numberP (skelP S W)).globals.getD u.1 []) v (subMesh W u) x = some x' ∧
      Holds (subMesh W u) (advanceP S W it (fun e => mulV ((skelP S W).size e) (inv e) (w.1 e), w.2)) q0 prev x' := by
  obtain ⟨w', h1, h2⟩ := back_sub S W h (posOf W u) hb hw
  rw [posOf_rank] at h1
  have e1 := only_iff.1 (congrArg Prod.fst h2)
  have e2 := only_iff.1 (congrArg Prod.snd h2)
  have h3 : subUpdate S W ((numberP (skelP S W)).globals.getD u.1 []) v (subMesh W u) x = some { x with it :=
      ⟨fun e var dof => if e ∈ (subMesh W u).elts ∧ 3 * dof < (skelP S W).size e then
          x.it.q e var dof + reshapeCol 3 (mulV ((skelP S W).size e) (x.inv e) (w'.1 e)) var.val dof else x.it.q e var dof,
        fun e f var dof => if 3 * dof < (skelP S W).esize e f then x.it.hat e f var dof + reshapeCol 3 (w'.2 e f) var.val dof else x.it.hat e f var dof⟩ } := by
    unfold subUpdate
    simp only [h1]
    rfl
  refine ⟨_, h3, ⟨fun e he => ?_, fun e he => ?_⟩, hx.q0, hx.prev⟩
  · funext var dof
    simp only [advanceP, elts_mem (S := S) u he, he, true_and, hi e he, e1 e he, hx.it.q e he]
  · funext f var dof
    simp only [advanceP, e2 e he, hx.it.hat e he]

variable {T : Type} [DecidableEq T] [Fintype T] {tm : Crew (Sub W) (Fin W.ranks.length) T} {time ramp : ℕ → K} {n : ℕ}

theorem iteration_sub (h : Apart W) (hr : ∀ u, tm.rank (tm.own u) = u.1) {it : PIter K} {q0 : State K} {prev : ℕ → ℕ → K} {mem : Sub W → Option (SubMem K)}
    (hm : ∀ u, ∃ x, mem u = some x ∧ Holds (subMesh W u) it q0 prev x) {d : PIter K × (ℕ → K)} (hd : newtonP (S.inStep time ramp n) W q0 prev it = some d) :
    (iteration tm (subNewton S W time ramp) n mem).2 = convergedP (S.inStep time ramp n) W d.2 ∧
      ∀ u, ∃ x, (iteration tm (subNewton S W time ramp) n mem).1 u = some x ∧ Holds (subMesh W u) d.1 q0 prev x := by
  unfold newtonP at hd
  split at hd
  swap
  · cases hd
  rename_i hf
  unfold condenseP at hd
  simp only [Option.bind_eq_bind, Option.map_eq_some_iff, Option.bind_eq_some_iff, Option.pure_def, Option.some.injEq] at hd
  obtain ⟨_, ⟨inv, hi, v, hv, w, hw, rfl⟩, rfl⟩ := hd
  choose x hx hx' using hm
  choose y hy hy' hb hi' using fun u => kernels_sub h u (hx' u) hf hi
  have hk : (fun u => (subNewton S W time ramp).kernels n u (mem u)) = fun u => some (y u) := by
    funext u
    show (mem u).bind _ = _
    rw [hx]
    exact hy u
  obtain ⟨s1, s2⟩ := system_sub (S := S.inStep time ramp n) h hb hi'
  have hs : (subNewton S W time ramp).solve (fun r => some ((subNewton S W time ramp).assemble r fun u => if tm.rank (tm.own u) = r then some (some (y u)) else none)) = some v := by
    rw [← hv]
    have hp : ∀ r, ((subNewton S W time ramp).assemble r fun u => if tm.rank (tm.own u) = r then some (some (y u)) else none) =
        (((List.finRange (W.ranks.get r).length).flatMap fun i => (subPart (S.inStep time ramp n) W (subMesh W ⟨r, i⟩) (y ⟨r, i⟩)).1),
          fun v => (List.finRange (W.ranks.get r).length).foldl (fun v i => (subPart (S.inStep time ramp n) W (subMesh W ⟨r, i⟩) (y ⟨r, i⟩)).2 v) v) := by
      intro r
      simp only [subNewton, hr, if_true, List.flatMap_map, List.foldl_map]
      rfl
    simp only [hp]
    unfold assembleP
    rw [← s1, ← s2]
    simp only [subNewton, Option.getD_some, List.flatMap_map, List.foldl_map]
    rfl
  unfold iteration
  simp only [congrFun hk]
  rw [hs]
  refine ⟨rfl, fun u => ?_⟩
  obtain ⟨z, hz, hz'⟩ := update_sub h u (hy' u) (hb u) (hi' u) hw
  refine ⟨z, ?_, hz'⟩
  rw [hr, ← hz]
  rfl

theorem loop_sub (h : Apart W) (hr : ∀ u, tm.rank (tm.own u) = u.1) {q0 : State K} {prev : ℕ → ℕ → K} (fuel : ℕ) {it it' : PIter K} {mem : Sub W → Option (SubMem K)}
    (hm : ∀ u, ∃ x, mem u = some x ∧ Holds (subMesh W u) it q0 prev x) (hd : iterateP (S.inStep time ramp n) W q0 prev fuel it = some it') :
    ∀ u, ∃ x, newtonLoop tm (subNewton S W time ramp) n fuel mem u = some x ∧ Holds (subMesh W u) it' q0 prev x := by
  induction fuel generalizing it mem with
  | zero => cases hd; exact hm
  | succ fuel ih =>
    rw [iterateP, Option.bind_eq_some_iff] at hd
    obtain ⟨d, hd, h2⟩ := hd
    obtain ⟨h3, h4⟩ := iteration_sub h hr hm hd
    rw [newtonLoop, h3]
    split at h2
    · rename_i hc
      rw [if_pos hc]
      cases h2
      exact h4
    · rename_i hc
      rw [if_neg hc]
      exact ih h4 h2

/-- A submesh holds its part of an iterate. -/
def Keeps (W : Cluster K) (it : PIter K) (mem : Sub W → Option (SubMem K)) : Prop := ∀ u, ∃ x, mem u = some x ∧ Own (subMesh W u) it x.it

theorem run_sub (h : Apart W) (hr : ∀ u, tm.rank (tm.own u) = u.1) {it : PIter K} {mem : Sub W → Option (SubMem K)} (hm : Keeps W it mem) (n : ℕ) {it' : PIter K}
    (hd : stepsP S W time ramp n it = some it') : Keeps W it' (newtonRun tm (subNewton S W time ramp) n mem) := by
  induction n generalizing it' with
  | zero => cases hd; exact hm
  | succ n ih =>
    rw [stepsP, Option.bind_eq_some_iff] at hd
    obtain ⟨d, hd, h2⟩ := hd
    have h3 := ih hd
    have := loop_sub (tm := tm) (n := n) (mem := fun u => (subNewton S W time ramp).init n u (newtonRun tm (subNewton S W time ramp) n mem u)) h hr 100 (fun u => by
      obtain ⟨x, hx, ho⟩ := h3 u
      exact ⟨{ x with q0 := x.it.q, prev := subPrev (S.inStep time ramp n) W x.it (subMesh W u) }, by rw [hx]; rfl, ho, ho.q,
        prev_sub (S.inStep time ramp n) W h (posOf W u).meshes ho⟩) h2
    exact fun u => by
      obtain ⟨x, hx, hx'⟩ := this u
      exact ⟨x, hx, hx'.it⟩

/-- **C137.** Whatever the schedule of the threads, the implicit program ends with the solution of all submeshes together. -/
theorem threads_ranks (h : Apart W) (hg : Rounds.Good tm) (hr : ∀ u, tm.rank (tm.own u) = u.1) [Nonempty (Fin W.ranks.length)] {it it' : PIter K}
    {mem : Sub W → Option (SubMem K)} (hm : Keeps W it mem) (hn : 0 < n) (hd : stepsP S W time ramp n it = some it')
    {glob : Fin W.ranks.length → Rounds.Shared (Option (List ℕ × (ℕ → K)))} (hcl : ∀ r, (glob r).clock = 0)
    {k : ℕ} {s : St (Sub W) (Fin W.ranks.length) T Ctl (Option (SubMem K)) (Rounds.Shared (Option (List ℕ × (ℕ → K)))) (List (ℕ × ℕ × K) × ((ℕ → K) → ℕ → K))}
    (hrun : Rounds.Run tm (newtonRound (subNewton S W time ramp) n) k (start (.iter 0 0) mem glob) s) (hend : ∀ t, s.ctl t = none) : Keeps W it' s.mem := by
  have e := Rounds.Props.newton_schedules (k := subNewton S W time ramp) hg n hn hcl hrun hend
  rw [e.1]
  exact run_sub h hr hm n hd

end

section
variable {K : Type} [Field K] [LinearOrder K] [IsStrictOrderedRing K] {S : Scheme K} {W : Cluster K} {cut : List (Iface K)} {T : Type} [DecidableEq T] [Fintype T]
  {tm : Crew (Sub W) (Fin W.ranks.length) T} {time ramp : ℕ → K} {n : ℕ}

theorem clustered_apart (h : Clustered S W cut) : Apart W :=
  ⟨h.part.elts.nodup_iff.2 h.part.nodup, h.part.ownInts, h.part.ownBnds, h.part.ownDist⟩

/-- **C137.** Whatever the schedule of the threads, the implicit program ends with the states of the serial program on the whole mesh, in the elements of every
submesh. -/
theorem threads_serial (h : Clustered S W cut) (hw : WellFormed (skel S)) (hc : Gn.Props.Complete S.I S.slv) (hg : Rounds.Good tm) (hr : ∀ u, tm.rank (tm.own u) = u.1)
    [Nonempty (Fin W.ranks.length)] {it it' : Iter K} {pit : PIter K} (ha : Agree S cut it pit) {mem : Sub W → Option (SubMem K)} (hm : Keeps W pit mem) (hn : 0 < n)
    (hd : ∀ k < n, ∀ it', steps S time ramp k it = some it' → Determined (S.inStep time ramp k) it'.q (rhsPrev (S.inStep time ramp k) it') 100 it')
    (hs : steps S time ramp n it = some it') {glob : Fin W.ranks.length → Rounds.Shared (Option (List ℕ × (ℕ → K)))} (hcl : ∀ r, (glob r).clock = 0)
    {k : ℕ} {s : St (Sub W) (Fin W.ranks.length) T Ctl (Option (SubMem K)) (Rounds.Shared (Option (List ℕ × (ℕ → K)))) (List (ℕ × ℕ × K) × ((ℕ → K) → ℕ → K))}
    (hrun : Rounds.Run tm (newtonRound (subNewton S W time ramp) n) k (start (.iter 0 0) mem glob) s) (hend : ∀ t, s.ctl t = none) (u : Sub W) :
    ∃ x, s.mem u = some x ∧ ∀ e ∈ (subMesh W u).elts, x.it.q e = it'.q e := by
  have hp := steps_ranks h hw hc time ramp ha n hd
  rw [hs] at hp
  rcases h2 : stepsP S W time ramp n pit with - | p <;> rw [h2] at hp
  · cases hp
  have hag : Agree S cut it' p := by cases hp; assumption
  obtain ⟨x, hx, ho⟩ := threads_ranks (clustered_apart h) hg hr hm hn h2 hcl hrun hend u
  exact ⟨x, hx, fun e he => by rw [← ho.q e he, hag.q]⟩

end

section
variable {S : Scheme ℝ} {W : Cluster ℝ} {cut : List (Iface ℝ)} {F : ℕ → MvPolynomial (Fin 2) ℝ} {P : ℕ} {it : Iter ℝ} {pit : PIter ℝ} {T : Type} [DecidableEq T] [Fintype T]
  {tm : Crew (Sub W) (Fin W.ranks.length) T} {time ramp : ℕ → ℝ} {n : ℕ}

/-- **C137.** A lake at rest over a flat bed: every schedule ends with the lake at rest in all submeshes, and none has failed. -/
theorem lake_threads {L b : ℝ} (hW : Clustered S W cut) (hR : Rules S.v.N F P 0) (hO : Orthogonal S.v.N F P) (hp : ∀ d < ndof P, 0 < S.v.N.basis.minv d)
    (hm : FlowMesh S P) (hb : Closed S) (hf : FlatBed S ⟨L, 0, 0⟩ b) (hg : 0 < S.v.src.g) (hdt : 0 < S.dt) (hth : S.theta ≤ 1) (hc : Gn.Props.Complete S.I S.slv)
    (hz : ZeroOnZero S.slv) (h : Everywhere S ⟨L, 0, 0⟩ it) (ha : Agree S cut it pit) (ht : Rounds.Good tm) (hr : ∀ u, tm.rank (tm.own u) = u.1)
    [Nonempty (Fin W.ranks.length)] {mem : Sub W → Option (SubMem ℝ)} (hk : Keeps W pit mem) (hn : 0 < n)
    {glob : Fin W.ranks.length → Rounds.Shared (Option (List ℕ × (ℕ → ℝ)))} (hcl : ∀ r, (glob r).clock = 0)
    {k : ℕ} {s : St (Sub W) (Fin W.ranks.length) T Ctl (Option (SubMem ℝ)) (Rounds.Shared (Option (List ℕ × (ℕ → ℝ)))) (List (ℕ × ℕ × ℝ) × ((ℕ → ℝ) → ℕ → ℝ))}
    (hrun : Rounds.Run tm (newtonRound (subNewton S W time ramp) n) k (start (.iter 0 0) mem glob) s) (hend : ∀ t, s.ctl t = none) :
    ∃ it', Everywhere S ⟨L, 0, 0⟩ it' ∧ ∀ u, ∃ x, s.mem u = some x ∧ ∀ e ∈ (subMesh W u).elts, x.it.q e = it'.q e := by
  obtain ⟨it', pit', _, h2, h3, h4⟩ := lake_ranks hW hR hO hp hm hb hf hg hdt hth hc hz time ramp h ha n
  refine ⟨it', h4, fun u => ?_⟩
  obtain ⟨x, hx, ho⟩ := threads_ranks (clustered_apart hW) ht hr hk hn h2 hcl hrun hend u
  exact ⟨x, hx, fun e he => by rw [← ho.q e he, h3.q]⟩

end

/-! ### Two triangles, two ranks with a thread each -/

/-- One thread for all submeshes of a rank. -/
def rankCrew {K : Type} (W : Cluster K) : Crew (Sub W) (Fin W.ranks.length) (Fin W.ranks.length) where
  rank t := t
  master r := r
  units t := (List.finRange _).map fun i => ⟨t, i⟩
  own u := u.1

theorem rankCrew_good {K : Type} (W : Cluster K) : Rounds.Good (rankCrew W) where
  master _ := rfl
  mem t u := by
    constructor
    · intro h
      obtain ⟨i, _, rfl⟩ := List.mem_map.1 h
      rfl
    · rintro rfl
      exact List.mem_map.2 ⟨u.2, List.mem_finRange _, rfl⟩
  nodup t := List.Nodup.map (fun i j h => by cases h; rfl) (List.nodup_finRange _)

/-- The hypotheses hold: a lake on two ranks. There is a schedule which ends, and it ends with the lake at rest. -/
example {L : ℝ} (hL : -3 < L) (first : State ℝ) (time ramp : ℕ → ℝ) (n : ℕ) (hn : 0 < n) (x0 : SubMem ℝ)
    (hx0 : x0.it = ⟨(sameIter ⟨L, 0, 0⟩).q, fun _ _ => (sameIter ⟨L, 0, 0⟩).hat 0⟩) :
    ∃ (k : ℕ) (s : St (Sub (twoCluster first)) (Fin (twoCluster first).ranks.length) (Fin (twoCluster first).ranks.length) Ctl (Option (SubMem ℝ))
        (Rounds.Shared (Option (List ℕ × (ℕ → ℝ)))) (List (ℕ × ℕ × ℝ) × ((ℕ → ℝ) → ℕ → ℝ))),
      Rounds.Run (rankCrew (twoCluster first)) (newtonRound (subNewton (lakeOn twoMesh) (twoCluster first) time ramp) n) k
        (start (.iter 0 0) (fun _ => some x0) fun _ => ⟨none, false, 0⟩) s ∧ (∀ t, s.ctl t = none) ∧
      ∃ it', Everywhere (lakeOn twoMesh) ⟨L, 0, 0⟩ it' ∧ ∀ u, ∃ x, s.mem u = some x ∧ ∀ e ∈ (subMesh (twoCluster first) u).elts, x.it.q e = it'.q e := by
  haveI : Nonempty (Fin (twoCluster first).ranks.length) := ⟨⟨0, by simp [twoCluster]⟩⟩
  obtain ⟨k, s, h1, h2⟩ := (Rounds.Props.newton_ends (k := subNewton (lakeOn twoMesh) (twoCluster first) time ramp) (mem := fun _ => some x0)
    (rankCrew_good (twoCluster first)) n hn (glob := fun _ => ⟨none, false, 0⟩) fun _ => rfl).2 0 _ (.refl _)
  rw [Nat.zero_add] at h1
  exact ⟨k, s, h1, h2, lake_threads (S := lakeOn twoMesh) (b := 3) (it := sameIter ⟨L, 0, 0⟩) (pit := ⟨(sameIter ⟨L, 0, 0⟩).q, fun _ _ => (sameIter ⟨L, 0, 0⟩).hat 0⟩)
    (two_clustered first) gauss_rules gauss_orthogonal (fun d _ => gauss_minv d) lake_mesh lake_closed ⟨rfl, fun _ _ _ _ => rfl, by linarith⟩
    (by norm_num [lakeOn, plainEnv]) one_pos zero_le_one exact_complete exactSlv_zero (lake_same _ _) ⟨rfl, fun _ _ _ => rfl, fun _ _ => rfl⟩
    (rankCrew_good _) (fun _ => rfl) (fun u => ⟨x0, rfl, by rw [hx0]; exact ⟨fun _ _ => rfl, fun _ _ => rfl⟩⟩) hn (fun _ => rfl) h1 h2⟩

end Verif.Ihdg.Props
