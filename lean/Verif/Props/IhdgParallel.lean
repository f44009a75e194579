import Verif.Lemmas.IhdgParallel
import Verif.Props.CondenseP
import Verif.Props.IhdgExists
import Verif.Props.GnRanks
import Verif.Props.CondenseRegular

/-!
# C101: the implicit scheme on several ranks computes what it computes on one
-/

namespace Verif.Ihdg.Props
open Verif.Geometry Verif.Geometry.Props Verif.Element Verif.Swe Verif.Swe.Props Verif.Edge Verif.Edge.Props Verif.Ehdg Verif.Ehdg.Props Verif.Ihdg
open Verif.Gn (PEdge PEdg edgesP before ruleD byFaceP byOwnP cells cellsP edgCells halfIn halfEx assign assign_mem assign_perm cells_perm byFace_assign byFaceP_assign
  byOwnP_assign meshes_sum meshes_perm ownCells)
open Verif.Gn.Props (before_iff before_asymm joined)

variable {K : Type} [Field K] [LinearOrder K] [IsStrictOrderedRing K]

/-- The ranks share out the mesh of `S`, the interfaces `cut` have become pairs of distributed boundaries; every face of an element has an edge. -/
structure Clustered (S : Scheme K) (W : Cluster K) (cut : List (Iface K)) : Prop where
  part : Partitioned (fun i => (i.rule S.v S.dat).length) S.m W.meshes cut
  cuts : ∀ i ∈ cut, CutOk S W i
  cover : ∀ e ∈ S.m.elts, ∀ f < 3, (⟨e, f⟩ : Face) ∈ (skel S).edges.flatten

/-- The iterates of one and of several ranks: the same states, the same traces, on both sides of a cut. -/
structure Agree (S : Scheme K) (cut : List (Iface K)) (it : Iter K) (pit : PIter K) : Prop where
  q : pit.q = it.q
  hat : ∀ k ed, (edgesOf S.m)[k]? = some ed → pit.at ed = it.hat k
  both : ∀ i ∈ cut, pit.hat i.eex i.fex = pit.hat i.ein i.fin

section
variable {S : Scheme K} {W : Cluster K} {cut : List (Iface K)}

/-! ### Arrays of faces -/

omit [IsStrictOrderedRing K] in
theorem skel_keys {α : Type} (g : Edg K → Sd → α) : (cells S.m g).map (fun c => (c.1, c.2.1)) = (skel S).edges.flatten.map fun c => (c.e, c.f) := by
  unfold cells skel
  rw [List.map_flatMap, List.map_flatten, List.map_map, List.flatMap]
  congr 1
  refine List.map_congr_left fun ed _ => ?_
  simp [edgCells]

omit [IsStrictOrderedRing K] in
theorem skel_cells_nodup {α : Type} (hn : (skel S).edges.flatten.Nodup) (g : Edg K → Sd → α) : ((cells S.m g).map fun c => (c.1, c.2.1)).Nodup := by
  rw [skel_keys]
  exact hn.map fun c d h => by cases c; cases d; simpa using h

omit [IsStrictOrderedRing K] in
theorem faces_ranks {α : Type} (h : Clustered S W cut) (hn : (skel S).edges.flatten.Nodup) (g : Edg K → Sd → α) (gd : Dbnd K → α) (z : α)
    (hg : ∀ i ∈ cut, ∀ n, gd (halfIn i) = g (.int i) ⟨i.ein, i.fin, false⟩ ∧ gd (halfEx n i) = g (.int i) ⟨i.eex, i.fex, true⟩) :
    byFaceP W.meshes g gd z = byFace S (fun ed _ s => g ed s) z := by
  rw [byFaceP_assign, byFace_assign]
  have hp := cells_perm h.part g gd fun i hi => hg i hi _
  exact assign_perm hp ((hp.map _).nodup_iff.2 (skel_cells_nodup hn g)) _

omit [IsStrictOrderedRing K] in
theorem zip_agree {β : Type} {l : List (Edg K)} (f g : β → Edg K × ℕ → β) (hfg : ∀ b k ed, l[k]? = some ed → f b (ed, k) = g b (ed, k)) (b : β) :
    l.zipIdx.foldl f b = l.zipIdx.foldl g b := by
  refine List.foldl_ext _ _ _ fun r x hx => ?_
  obtain ⟨ed, k⟩ := x
  exact hfg r k ed (List.mk_mem_zipIdx_iff_getElem?.1 hx)

omit [IsStrictOrderedRing K] in
theorem byFace_agree {α : Type} {it : Iter K} {pit : PIter K} (ha : Agree S cut it pit) (g : Edg K → Coef K → Sd → α) (z : α) :
    byFace S (fun ed k s => g ed (it.hat k) s) z = byFace S (fun ed _ s => g ed (pit.at ed) s) z := by
  unfold byFace
  refine zip_agree _ _ (fun b k ed hk => ?_) _
  simp only
  rw [ha.hat k ed hk]

omit [IsStrictOrderedRing K] in
theorem zip_forget {β : Type} (l : List (Edg K)) (f : β → Edg K → β) (b : β) (n : ℕ) : (l.zipIdx n).foldl (fun b x => f b x.1) b = l.foldl f b := by
  induction l generalizing b n with
  | nil => rfl
  | cons a l ih => rw [List.zipIdx_cons, List.foldl_cons, List.foldl_cons, ih]

/-! ### Edges -/

omit [IsStrictOrderedRing K] in
theorem skelP_edges (S : Scheme K) (W : Cluster K) : (skelP S W).edges = (W.meshes.flatMap edgesP).map PEdg.skel := by
  unfold PSkeleton.edges PSkeleton.subs skelP Cluster.meshes
  simp only
  induction W.ranks with
  | nil => rfl
  | cons r l ih =>
    rw [List.map_cons, List.flatten_cons, List.flatten_append, ih, List.flatten_cons, List.flatMap_append, List.map_append]
    congr 1
    rw [List.map_flatMap, List.flatMap]

omit [IsStrictOrderedRing K] in
theorem skelP_flatMap {β : Type} (S : Scheme K) (W : Cluster K) (F : PEdge → List β) : (skelP S W).edges.flatMap F =
    W.meshes.flatMap fun m => m.ints.flatMap (fun i => F (.int ⟨i.ein, i.fin⟩ ⟨i.eex, i.fex⟩)) ++ m.bnds.flatMap (fun b => F (.bnd ⟨b.e, b.f⟩)) ++
      m.dist.flatMap fun b => F (.dist ⟨b.e, b.f⟩ ⟨b.e', b.f'⟩) := by
  rw [skelP_edges, List.flatMap_map, List.flatMap_assoc]
  refine List.flatMap_congr fun m _ => ?_
  unfold edgesP edgesOf
  simp only [List.flatMap_append, List.map_append, List.flatMap_map]
  rfl

theorem cut_edges (h : Clustered S W cut) : ∀ i ∈ cut, PEdge.dist ⟨i.ein, i.fin⟩ ⟨i.eex, i.fex⟩ ∈ (skelP S W).edges ∧ PEdge.dist ⟨i.eex, i.fex⟩ ⟨i.ein, i.fin⟩ ∈ (skelP S W).edges := by
  intro i hi
  have hb : ∀ b ∈ halves (i.rule S.v S.dat).length i, PEdge.dist ⟨b.e, b.f⟩ ⟨b.e', b.f'⟩ ∈ (skelP S W).edges := by
    intro b hb
    obtain ⟨m, hm, hb⟩ := List.mem_flatMap.1 (h.part.dist.mem_iff.2 (List.mem_flatMap.2 ⟨i, hi, hb⟩))
    rw [skelP_edges]
    exact List.mem_map.2 ⟨.dist b, List.mem_flatMap.2 ⟨m, hm, by simpa [edgesP] using hb⟩, rfl⟩
  exact ⟨hb (halfIn i) (by simp [halves, halfIn]), hb (halfEx (i.rule S.v S.dat).length i) (by simp [halves, halfEx])⟩

omit [IsStrictOrderedRing K] in
theorem skel_get {k : ℕ} (hk : k < (skel S).edges.length) : ∃ ed, (edgesOf S.m)[k]? = some ed ∧ (skel S).edges[k] = ed.sides.map (fun s => (⟨s.e, s.f⟩ : Face)) ∧
    (skel S).esize k = 3 * (tab S ed).ndof := by
  have hk' : k < (edgesOf S.m).length := by simpa [skel] using hk
  have hg : (edgesOf S.m)[k]? = some ((edgesOf S.m)[k]) := List.getElem?_eq_getElem hk'
  refine ⟨_, hg, by simp [skel], ?_⟩
  simp only [skel, hg]

/-- **C101** The edges of the ranks are those of the whole mesh, with the same numbers of unknowns. -/
theorem cluster_shared (h : Clustered S W cut) (hw : WellFormed (skel S)) : Shared (skelP S W) (skel S) := by
  have hn := hw.nodup
  have hd : ∀ c ex, PEdge.dist c ex ∈ (skelP S W).edges → ∃ i ∈ cut, (c = ⟨i.ein, i.fin⟩ ∧ ex = ⟨i.eex, i.fex⟩) ∨ (c = ⟨i.eex, i.fex⟩ ∧ ex = ⟨i.ein, i.fin⟩) := by
    intro c ex hm
    rw [skelP_edges] at hm
    obtain ⟨x, hx, he⟩ := List.mem_map.1 hm
    obtain ⟨m, hms, hx⟩ := List.mem_flatMap.1 hx
    cases x with
    | loc ed => cases ed <;> cases he
    | dist b =>
      cases he
      have hb : b ∈ m.dist := by simpa [edgesP] using hx
      obtain ⟨i, hi, hb⟩ := List.mem_flatMap.1 (h.part.dist.mem_iff.1 (List.mem_flatMap.2 ⟨m, hms, hb⟩))
      refine ⟨i, hi, ?_⟩
      simp only [halves, List.mem_cons, List.not_mem_nil, or_false] at hb
      rcases hb with rfl | rfl
      · exact .inl ⟨rfl, rfl⟩
      · exact .inr ⟨rfl, rfl⟩
  have hm := cut_edges h
  refine ⟨fun e => h.part.elts.mem_iff, rfl, ?_, ?_, ?_, ?_, ?_, h.cover⟩
  · intro k hk c hc
    obtain ⟨ed, hed, hes, hz⟩ := skel_get hk
    rw [hz]
    rw [hes] at hc
    obtain ⟨s, hs, rfl⟩ := List.mem_map.1 hc
    show byFaceP W.meshes (fun ed _ => 3 * (tab S ed).ndof) (fun b => 3 * (cutTab S W b).ndof) 0 s.e s.f = _
    rw [faces_ranks h hn (fun ed _ => 3 * (tab S ed).ndof) _ _ fun i hi n => ⟨by rw [cutTab_in (h.cuts i hi)], by rw [(cutTab_ex (h.cuts i hi) n).2.1]; rfl⟩,
      byFace_assign S fun ed _ => 3 * (tab S ed).ndof]
    exact assign_mem (cells S.m fun ed _ => 3 * (tab S ed).ndof) _ (skel_cells_nodup hn _) (c := (s.e, s.f, 3 * (tab S ed).ndof))
      (List.mem_flatMap.2 ⟨ed, List.mem_of_getElem? hed, List.mem_map.2 ⟨s, hs, rfl⟩⟩)
  · rw [skelP_flatMap]
    have hp := meshes_perm h.part (fun i => [⟨i.ein, i.fin⟩, ⟨i.eex, i.fex⟩]) (fun b => [(⟨b.e, b.f⟩ : Face)]) (fun b => [⟨b.e, b.f⟩]) fun i _ => rfl
    refine hp.nodup_iff.2 ?_
    convert hn using 1
    unfold skel edgesOf
    simp only [List.map_append, List.flatten_append, List.map_map, List.flatMap]
    rfl
  · intro c ex hx
    obtain ⟨i, hi, ⟨rfl, rfl⟩ | ⟨rfl, rfl⟩⟩ := hd c ex hx
    · exact (hm i hi).2
    · exact (hm i hi).1
  · intro c ex hx he
    obtain ⟨i, hi, ⟨rfl, rfl⟩ | ⟨rfl, rfl⟩⟩ := hd c ex hx <;>
    · have he : W.home _ = W.home _ := he
      have := (h.cuts i hi).order
      simp only at he
      rw [he] at this
      omega
  · rw [show (skelP S W).edges.filterMap (joined (skelP S W).home) = (skelP S W).edges.flatMap fun x => (joined W.home x).toList from
      List.filterMap_eq_flatMap_toList _ _, skelP_flatMap]
    have hp := meshes_perm h.part (fun i => [[⟨i.ein, i.fin⟩, ⟨i.eex, i.fex⟩]]) (fun b => [[(⟨b.e, b.f⟩ : Face)]])
      (fun b => (joined W.home (.dist ⟨b.e, b.f⟩ ⟨b.e', b.f'⟩)).toList) fun i hi => by
        have ho := (h.cuts i hi).order
        have h2 : ¬ ((W.home i.eex).1 < (W.home i.ein).1 ∨ ((W.home i.eex).1 = (W.home i.ein).1 ∧ (W.home i.eex).2 < (W.home i.ein).2)) := by omega
        have e1 : joined W.home (.dist ⟨(halfIn i).e, (halfIn i).f⟩ ⟨(halfIn i).e', (halfIn i).f'⟩) = some [⟨i.ein, i.fin⟩, ⟨i.eex, i.fex⟩] := if_pos ho
        have e2 : joined W.home (.dist ⟨(halfEx (i.rule S.v S.dat).length i).e, (halfEx (i.rule S.v S.dat).length i).f⟩
          ⟨(halfEx (i.rule S.v S.dat).length i).e', (halfEx (i.rule S.v S.dat).length i).f'⟩) = none := if_neg h2
        rw [e1, e2]
        rfl
    refine List.Perm.symm (hp.trans (List.Perm.of_eq ?_))
    unfold skel edgesOf
    simp only [List.map_append, List.map_map]
    rw [List.map_eq_flatMap, List.map_eq_flatMap]
    rfl

/-! ### Elements -/

omit [IsStrictOrderedRing K] in
theorem fold_add {A β T : Type} [AddCommMonoid A] (π : T → ℕ → A) (f : T → β → T) (c : β → List (ℕ × ℕ × A)) (h : ∀ t x, π (f t x) = addCells (c x) (π t)) (l : List β) (t : T) :
    π (l.foldl f t) = addCells (l.flatMap c) (π t) := by
  induction l generalizing t with
  | nil => rfl
  | cons x l ih =>
    rw [List.foldl_cons, ih, h, List.flatMap_cons]
    unfold addCells
    rw [List.foldl_append]

omit [IsStrictOrderedRing K] in
theorem fold_set {A T : Type} [AddCommMonoid A] (π : T → ℕ → A) (f : T → ℕ → T) (V : ℕ → A) (h : ∀ t e, π (f t e) = Function.update (π t) e (V e)) (l : List ℕ) (t : T) :
    π (l.foldl f t) = setAll V l (π t) := by
  unfold setAll
  induction l generalizing t with
  | nil => rfl
  | cons x l ih => rw [List.foldl_cons, ih, h, List.foldl_cons]

/-- The cells of an edge of a submesh. -/
def pCells {A : Type} (g : Edg K → Sd → A) (gd : Dbnd K → A) : PEdg K → List (ℕ × ℕ × A)
  | .loc ed => edgCells g ed
  | .dist b => [(b.e, b.f, gd b)]

omit [Field K] [LinearOrder K] [IsStrictOrderedRing K] in
theorem pCells_all {A : Type} (g : Edg K → Sd → A) (gd : Dbnd K → A) (m : Mesh K) : (edgesP m).flatMap (pCells g gd) = cellsP g gd m := by
  unfold edgesP cellsP cells
  rw [List.flatMap_append, List.flatMap_map, List.flatMap_map]
  congr 1
  simp only [pCells]
  exact List.flatMap_pure_eq_map _ _

/-- Kernels that set the entry of every element and add to it at every face: the ranks have what the whole mesh has. -/
theorem elements_ranks {A T : Type} [AddCommMonoid A] (h : Clustered S W cut) (π : T → ℕ → A) (fe : T → ℕ → T) (V : ℕ → A) (hV : ∀ t e, π (fe t e) = Function.update (π t) e (V e))
    (fs : T → Edg K → T) (fp : T → PEdg K → T) (g : Edg K → Sd → A) (gd : Dbnd K → A) (hs : ∀ t ed, π (fs t ed) = addCells (edgCells g ed) (π t))
    (hp : ∀ t x, π (fp t x) = addCells (pCells g gd x) (π t))
    (hg : ∀ i ∈ cut, ∀ n, gd (halfIn i) = g (.int i) ⟨i.ein, i.fin, false⟩ ∧ gd (halfEx n i) = g (.int i) ⟨i.eex, i.fex, true⟩) (t : T) :
    π (W.meshes.foldl (fun t m => (edgesP m).foldl fp (m.elts.foldl fe t)) t) = π ((edgesOf S.m).foldl fs (S.m.elts.foldl fe t)) := by
  have h1 : ∀ (ms : List (Mesh K)) (t : T), π (ms.foldl (fun t m => (edgesP m).foldl fp (m.elts.foldl fe t)) t) =
      ms.foldl (fun L m => addCells (cellsP g gd m) (setAll V m.elts L)) (π t) := by
    intro ms
    induction ms with
    | nil => intro t; rfl
    | cons m ms ih =>
      intro t
      rw [List.foldl_cons, ih, fold_add π fp _ hp, fold_set π fe V hV, pCells_all, List.foldl_cons]
  funext e
  rw [h1, fold_add π fs _ hs, fold_set π fe V hV, addCells_at, setAll_at,
    meshes_at V (cellsP g gd) e W.meshes (h.part.elts.nodup_iff.2 h.part.nodup) fun m hm =>
      cells_own (h.part.ownInts m hm) (h.part.ownBnds m hm) (h.part.ownDist m hm) g gd]
  simp only [h.part.elts.mem_iff]
  congr 1
  exact cellAdd_perm (cells_perm h.part g gd fun i hi => hg i hi _) e

omit [IsStrictOrderedRing K] in
theorem addCells_cons {A : Type} [AddCommMonoid A] (c : ℕ × ℕ × A) (l : List (ℕ × ℕ × A)) (L : ℕ → A) :
    addCells (c :: l) L = addCells l (Function.update L c.1 (L c.1 + c.2.2)) := rfl

omit [IsStrictOrderedRing K] in
theorem sides_add {A T : Type} [AddCommMonoid A] (π : T → ℕ → A) (f : T → Sd → T) (g : Edg K → Sd → A) (ed : Edg K) (h : ∀ t s, π (f t s) = Function.update (π t) s.e (π t s.e + g ed s)) (t : T) :
    π (ed.sides.foldl f t) = addCells (edgCells g ed) (π t) := by
  unfold edgCells
  generalize ed.sides = l
  induction l generalizing t with
  | nil => rfl
  | cons s l ih => rw [List.foldl_cons, ih, h]; rfl

section
variable {it : Iter K} {pit : PIter K}

omit [IsStrictOrderedRing K] in
theorem dist_hat (ha : Agree S cut it pit) {i : Iface K} (hi : i ∈ cut) (n : ℕ) :
    pit.hat (halfIn i).e (halfIn i).f = pit.at (.int i) ∧ pit.hat (halfEx n i).e (halfEx n i).f = pit.at (.int i) := ⟨rfl, ha.both i hi⟩

/-- The right-hand sides of the former time, in all elements. -/
theorem prev_ranks (h : Clustered S W cut) (ha : Agree S cut it pit) : rhsPrevP S W pit = rhsPrev S it := by
  unfold rhsPrevP rhsPrev
  by_cases ho : S.order2 = true
  · rw [if_pos ho, if_pos ho, zip_agree (prevEdge S it) (fun P x => x.1.sides.foldl (prevSide S it.q x.1 (pit.at x.1)) P) (fun P k ed hk => by
      unfold prevEdge; rw [ha.hat k ed hk]), zip_forget _ fun P ed => ed.sides.foldl (prevSide S it.q ed (pit.at ed)) P, ← ha.q]
    refine elements_ranks h (fun P => P) (prevElt S pit.q)
      (fun e r => (fluxR S (S.dat e) (pit.q e) r).1 + (fluxR S (S.dat e) (pit.q e) r).2 + srcR S (S.dat e) S.t (pit.q e) r) (fun t e => rfl) _ (prevEdgeP S W pit)
      (fun ed s r => -faceR S pit.q ed (pit.at ed) s r) (fun b r => -cutR S W pit.q (pit.hat b.e b.f) b r) (fun t ed => ?_) (fun t x => ?_) (fun i hi n => ?_) _
    · exact sides_add (fun P : ℕ → ℕ → K => P) _ (fun ed s r => -faceR S pit.q ed (pit.at ed) s r) ed (fun t s => rfl) t
    · cases x with
      | loc ed => exact sides_add (fun P : ℕ → ℕ → K => P) _ (fun ed s r => -faceR S pit.q ed (pit.at ed) s r) ed (fun t s => rfl) t
      | dist b => rfl
    · rw [(dist_hat ha hi n).1, (dist_hat ha hi n).2, (cutR_half (h.cuts i hi) _ _ n).1, (cutR_half (h.cuts i hi) _ _ n).2]
      exact ⟨rfl, rfl⟩
  · rw [if_neg ho, if_neg ho]

/-- Matrices and right-hand sides of the elements. -/
theorem local_ranks (h : Clustered S W cut) (ha : Agree S cut it pit) (q0 : State K) (prev : ℕ → ℕ → K) :
    (localAllP S W q0 prev pit).D = (localAll S q0 prev it).D ∧ (localAllP S W q0 prev pit).R = (localAll S q0 prev it).R := by
  have hz : localAll S q0 prev it = (edgesOf S.m).foldl (fun L ed => ed.sides.foldl (localSide S pit.q ed (pit.at ed)) L)
      (S.m.elts.foldl (localElt S q0 pit.q prev) ⟨fun _ _ _ => 0, fun _ _ => 0⟩) := by
    unfold localAll
    rw [zip_agree (localEdge S it) (fun L x => x.1.sides.foldl (localSide S it.q x.1 (pit.at x.1)) L) (fun L k ed hk => by
      unfold localEdge; rw [ha.hat k ed hk]), zip_forget _ fun L ed => ed.sides.foldl (localSide S it.q ed (pit.at ed)) L, ← ha.q]
  rw [hz]
  constructor
  · refine elements_ranks h (fun L : Local K => L.D) (localElt S q0 pit.q prev) (fun e r s => volD S (S.dat e) (pit.q e) r s - srcD S (S.dat e) (pit.q e) r s) (fun t e => rfl) _
      (localEdgeP S W pit) (fun ed s r k => (1 - S.theta) * faceD S ed (pit.at ed) s r k) (fun b r k => (1 - S.theta) * cutD S W (pit.hat b.e b.f) b r k)
      (fun t ed => ?_) (fun t x => ?_) (fun i hi n => ?_) _
    · exact sides_add (fun L : Local K => L.D) _ _ ed (fun t s => rfl) t
    · cases x with
      | loc ed => exact sides_add (fun L : Local K => L.D) _ (fun ed s r k => (1 - S.theta) * faceD S ed (pit.at ed) s r k) ed (fun t s => rfl) t
      | dist b => rfl
    · rw [(dist_hat ha hi n).1, (dist_hat ha hi n).2, (cutD_half (h.cuts i hi) _ n).1, (cutD_half (h.cuts i hi) _ n).2]
      exact ⟨rfl, rfl⟩
  · refine elements_ranks h (fun L : Local K => L.R) (localElt S q0 pit.q prev)
      (fun e r => volR S (S.dat e) (q0 e) (pit.q e) (prev e) r + (1 - S.theta) * srcR S (S.dat e) S.tn (pit.q e) r) (fun t e => rfl) _
      (localEdgeP S W pit) (fun ed s r => -(1 - S.theta) * faceR S pit.q ed (pit.at ed) s r) (fun b r => -(1 - S.theta) * cutR S W pit.q (pit.hat b.e b.f) b r)
      (fun t ed => ?_) (fun t x => ?_) (fun i hi n => ?_) _
    · exact sides_add (fun L : Local K => L.R) _ _ ed (fun t s => rfl) t
    · cases x with
      | loc ed => exact sides_add (fun L : Local K => L.R) _ (fun ed s r => -(1 - S.theta) * faceR S pit.q ed (pit.at ed) s r) ed (fun t s => rfl) t
      | dist b => rfl
    · rw [(dist_hat ha hi n).1, (dist_hat ha hi n).2, (cutR_half (h.cuts i hi) _ _ n).1, (cutR_half (h.cuts i hi) _ _ n).2]
      exact ⟨rfl, rfl⟩

/-! ### Edges of their own -/

/-- What an edge of a submesh has. -/
def ownVal {A : Type} (g : Edg K → A) (gd : Dbnd K → A) : PEdg K → A
  | .loc ed => g ed
  | .dist b => gd b

omit [IsStrictOrderedRing K] in
theorem own_at {A : Type} (hn : ((skelP S W).edges.flatMap PEdge.faces).Nodup) (g : Edg K → A) (gd : Dbnd K → A) (z : A) {x : PEdg K} (hx : x ∈ W.meshes.flatMap edgesP) :
    byOwnP W.meshes g gd z x.skel.own.e x.skel.own.f = ownVal g gd x := by
  rw [byOwnP_assign]
  have hk : ∀ y : PEdg K, ownCells g gd y = (y.skel.own.e, y.skel.own.f, ownVal g gd y) := by
    intro y
    cases y with
    | loc ed => cases ed <;> rfl
    | dist b => rfl
  have hm : (x.skel.own.e, x.skel.own.f, ownVal g gd x) ∈ (W.meshes.flatMap edgesP).map (ownCells g gd) := List.mem_map.2 ⟨x, hx, hk x⟩
  refine assign_mem _ _ ?_ hm
  have h2 : ((W.meshes.flatMap edgesP).map (ownCells g gd)).map (fun c => (c.1, c.2.1)) = ((skelP S W).edges.map PEdge.own).map fun c => (c.e, c.f) := by
    rw [skelP_edges, List.map_map, List.map_map, List.map_map]
    exact List.map_congr_left fun y _ => by simp only [Function.comp, hk]
  rw [h2]
  exact ((Gn.Props.own_sublist _).nodup hn).map fun c d h => by cases c; cases d; simpa using h

/-- What the ranks add up for an edge of the whole mesh. -/
theorem own_sum {A : Type} (h : Clustered S W cut) (hw : WellFormed (skel S)) (g : Edg K → A) (gd : Dbnd K → A) (z : A) (φ : A → K) {k : ℕ} (hk : k < (skel S).edges.length)
    {ed : Edg K} (hed : (edgesOf S.m)[k]? = some ed) (hg : ∀ i ∈ cut, .int i = ed → φ (gd (halfIn i)) + φ (gd (halfEx (i.rule S.v S.dat).length i)) = φ (g (.int i))) :
    (((skelP S W).edges.filter fun y => decide (y.own ∈ (skel S).edges[k])).map fun y => φ (byOwnP W.meshes g gd z y.own.e y.own.f)).sum = φ (g ed) := by
  have hP := cluster_shared h hw
  have hlen : (skel S).edges.length = (edgesOf S.m).length := by simp [skel]
  have hget : ∀ (n : ℕ) (hn : n < (edgesOf S.m).length), (skel S).edges[n]'(hlen ▸ hn) = (edgesOf S.m)[n].sides.map fun s => ⟨s.e, s.f⟩ := by
    intro n hn; simp [skel]
  let ψ : PEdg K → K := fun x => if decide (x.skel.own ∈ (skel S).edges[k]) then φ (ownVal g gd x) else 0
  have h1 : (((skelP S W).edges.filter fun y => decide (y.own ∈ (skel S).edges[k])).map fun y => φ (byOwnP W.meshes g gd z y.own.e y.own.f)).sum =
      ((W.meshes.flatMap edgesP).map ψ).sum := by
    rw [Gn.Props.filter_ite, skelP_edges, List.map_map]
    congr 1
    refine List.map_congr_left fun x hx => ?_
    simp only [Function.comp, ψ]
    rw [own_at hP.nodup g gd z hx]
  have h2 : (W.meshes.flatMap edgesP).map ψ = W.meshes.flatMap fun m => m.ints.map (fun i => ψ (.loc (.int i))) ++ m.bnds.map (fun b => ψ (.loc (.bnd b))) ++ m.dist.map fun b => ψ (.dist b) := by
    rw [List.map_flatMap]
    refine List.flatMap_congr fun m _ => ?_
    simp only [edgesP, edgesOf, List.map_append, List.map_map]
    rfl
  have hown : ∀ ed : Edg K, (PEdg.skel (.loc ed)).own ∈ ed.sides.map fun s => (⟨s.e, s.f⟩ : Face) := by
    intro ed; cases ed <;> simp [PEdg.skel, PEdge.own, Edg.sides]
  have hke : ∀ hk', (edgesOf S.m)[k]'hk' = ed := fun hk' => Option.some.inj ((List.getElem?_eq_getElem hk').symm.trans hed)
  rw [h1, h2, meshes_sum h.part (fun i => ψ (.loc (.int i))) (fun b => ψ (.loc (.bnd b))) (fun b => ψ (.dist b))]
  · have h3 : (S.m.ints.map fun i => ψ (.loc (.int i))).sum + (S.m.bnds.map fun b => ψ (.loc (.bnd b))).sum = ((edgesOf S.m).map fun ed => ψ (.loc ed)).sum := by
      simp only [edgesOf, List.map_append, List.map_map, List.sum_append]
      rfl
    rw [h3, ← Fin.sum_univ_getElem]
    have hkl : k < ((edgesOf S.m).map fun ed => ψ (.loc ed)).length := by rw [List.length_map]; omega
    rw [Finset.sum_eq_single (⟨k, hkl⟩ : Fin _)]
    · simp only [List.getElem_map, ψ]
      have hc : decide ((PEdg.skel (.loc ((edgesOf S.m)[k]'(by omega)))).own ∈ (skel S).edges[k]) = true := by
        rw [decide_eq_true_eq, hget k (by omega)]
        exact hown _
      rw [if_pos hc, hke]
      rfl
    · rintro ⟨n, hn⟩ - hne
      have hn' : n < (edgesOf S.m).length := by simpa using hn
      simp only [List.getElem_map, ψ]
      refine if_neg fun hc => hne ?_
      rw [decide_eq_true_eq] at hc
      have := hown ((edgesOf S.m)[n]'hn')
      rw [← hget n hn'] at this
      exact Fin.ext (edge_unique' hw (hlen ▸ hn') hk this hc)
    · intro hc; exact absurd (Finset.mem_univ _) hc
  · intro c hc
    have hm : c ∈ S.m.ints := h.part.ints.mem_iff.1 (List.mem_append_right _ hc)
    have hme : (Edg.int c) ∈ edgesOf S.m := List.mem_append_left _ (List.mem_map.2 ⟨c, hm, rfl⟩)
    obtain ⟨n, hn, hne⟩ := List.getElem_of_mem hme
    have hen : (skel S).edges[n]'(hlen ▸ hn) = [⟨c.ein, c.fin⟩, ⟨c.eex, c.fex⟩] := by rw [hget n hn, hne]; rfl
    have hiff : ((⟨c.ein, c.fin⟩ : Face) ∈ (skel S).edges[k]) ↔ ((⟨c.eex, c.fex⟩ : Face) ∈ (skel S).edges[k]) := by
      constructor
      · intro hx
        have := edge_unique' hw (hlen ▸ hn) hk (by rw [hen]; simp) hx
        subst this
        rw [hen]; simp
      · intro hx
        have := edge_unique' hw (hlen ▸ hn) hk (by rw [hen]; simp) hx
        subst this
        rw [hen]; simp
    by_cases hin : (⟨c.ein, c.fin⟩ : Face) ∈ (skel S).edges[k]
    · have hex := hiff.1 hin
      have hnk : n = k := edge_unique' hw (hlen ▸ hn) hk (by rw [hen]; simp) hin
      subst hnk
      have a1 : ψ (.dist (halfIn c)) = φ (gd (halfIn c)) := if_pos (decide_eq_true hin)
      have a2 : ψ (.dist (halfEx (c.rule S.v S.dat).length c)) = φ (gd (halfEx (c.rule S.v S.dat).length c)) := if_pos (decide_eq_true hex)
      have a3 : ψ (.loc (.int c)) = φ (g (.int c)) := if_pos (decide_eq_true hin)
      rw [a1, a2, a3]
      exact hg c hc (hne.symm.trans (hke hn))
    · have hex : (⟨c.eex, c.fex⟩ : Face) ∉ (skel S).edges[k] := fun hx => hin (hiff.2 hx)
      have a1 : ψ (.dist (halfIn c)) = 0 := if_neg fun hd => hin (of_decide_eq_true hd)
      have a2 : ψ (.dist (halfEx (c.rule S.v S.dat).length c)) = 0 := if_neg fun hd => hex (of_decide_eq_true hd)
      have a3 : ψ (.loc (.int c)) = 0 := if_neg fun hd => hin (of_decide_eq_true hd)
      rw [a1, a2, a3, add_zero]

/-- **C101** The blocks of the ranks are those of the whole mesh; those of a cut edge add up. -/
theorem blocks_gathered (h : Clustered S W cut) (hw : WellFormed (skel S)) (ha : Agree S cut it pit) (q0 : State K) (prev : ℕ → ℕ → K) :
    Gathers (skelP S W) (skel S) (blocksP S W q0 prev pit) (blocks S q0 prev it) := by
  obtain ⟨hD, hR⟩ := local_ranks h ha q0 prev
  have hdh : (blocksP S W q0 prev pit).dh = (blocks S q0 prev it).dh := by
    show byFaceP W.meshes _ _ _ = byFace S (fun ed k s => sideDh S it.q ed (it.hat k) s) _
    rw [byFace_agree ha (fun ed c s => sideDh S it.q ed c s), ← ha.q]
    refine faces_ranks h hw.nodup (fun ed s => sideDh S pit.q ed (pit.at ed) s) _ _ fun i hi n => ?_
    rw [(dist_hat ha hi n).1, (dist_hat ha hi n).2]
    exact cutDh_half (h.cuts i hi) _ _ n
  have hdg : (blocksP S W q0 prev pit).dg = (blocks S q0 prev it).dg := by
    show byFaceP W.meshes _ _ _ = byFace S (fun ed k s => sideDg S it.q ed (it.hat k) s) _
    rw [byFace_agree ha (fun ed c s => sideDg S it.q ed c s), ← ha.q]
    refine faces_ranks h hw.nodup (fun ed s => sideDg S pit.q ed (pit.at ed) s) _ _ fun i hi n => ?_
    rw [(dist_hat ha hi n).1, (dist_hat ha hi n).2]
    exact cutDg_half (h.cuts i hi) _ _ n
  refine ⟨fun e _ i _ j _ => ?_, fun e _ i _ => ?_, fun k hk c hc i _ j _ => by rw [hdh], fun k hk c hc i _ j _ => by rw [hdg], fun k hk i hi j hj => ?_, fun k hk i hi => ?_⟩
  · show (localAll S q0 prev it).D e i j = (localAllP S W q0 prev pit).D e i j
    rw [hD]
  · show (localAll S q0 prev it).R e i = (localAllP S W q0 prev pit).R e i
    rw [hR]
  · obtain ⟨ed, hed, hes, hz⟩ := skel_get hk
    refine Eq.trans ?_ (own_sum h hw _ _ _ (fun M : ℕ → ℕ → K => M i j) hk hed fun c hc hce => ?_).symm
    · simp only [blocks, hed]
      rw [ha.hat k ed hed, ha.q]
    · rw [hz, ← hce] at hi hj
      rw [(dist_hat ha hc (c.rule S.v S.dat).length).1, (dist_hat ha hc (c.rule S.v S.dat).length).2]
      exact cutHg_half (h.cuts c hc) _ _ _ hi hj
  · obtain ⟨ed, hed, hes, hz⟩ := skel_get hk
    refine Eq.trans ?_ (own_sum h hw _ _ _ (fun M : ℕ → K => M i) hk hed fun c hc hce => ?_).symm
    · simp only [blocks, hed]
      rw [ha.hat k ed hed, ha.q]
    · rw [(dist_hat ha hc (c.rule S.v S.dat).length).1, (dist_hat ha hc (c.rule S.v S.dat).length).2]
      exact cutHr_half (h.cuts c hc) _ _ _ _

/-! ### Newton's method -/

theorem finite_ranks (h : Clustered S W cut) (q : State K) : finiteP S W q = finite S q := by
  unfold finiteP finite
  rw [Bool.eq_iff_iff, List.all_eq_true, List.all_eq_true]
  simp only [h.part.elts.mem_iff]

/-- The trace of an edge after a step is the same on one rank and on several. -/
theorem advance_edge (h : Clustered S W cut) (hw : WellFormed (skel S)) {d : ℕ → ℕ → K} {dP : ℕ → ℕ → K} {dh : ℕ → ℕ → ℕ → K} {x : ℕ → K} {k : ℕ} (hk : k < (skel S).edges.length) {c : Face}
    (hc : c ∈ (skel S).edges[k]) (hd : ∀ j < (skel S).esize k, dh c.e c.f j = edgePart (number (skel S)) x k j) (hh : pit.hat c.e c.f = it.hat k) :
    (advanceP S W pit (dP, dh)).hat c.e c.f = (advance S it (d, x)).hat k := by
  obtain ⟨ed, hed, hes, hz⟩ := skel_get hk
  funext var dof
  simp only [advanceP, advance]
  rw [(cluster_shared h hw).esize k hk c hc, hh]
  by_cases hb : 3 * dof < (skel S).esize k
  · rw [if_pos hb, if_pos hb]
    unfold reshapeCol
    rw [hd _ (by rw [hz] at hb ⊢; have := var.2; omega)]
  · rw [if_neg hb, if_neg hb]

/-- Two results of a step of Newton's method: iterates that agree, and the same verdict on convergence. -/
def SameStep (S : Scheme K) (W : Cluster K) (cut : List (Iface K)) (d : Iter K × (ℕ → K)) (p : PIter K × (ℕ → K)) : Prop :=
  Agree S cut d.1 p.1 ∧ convergedP S W p.2 = converged S d.2

theorem converged_ranks (h : Clustered S W cut) (hw : WellFormed (skel S)) {x y : ℕ → K}
    (hxy : ∀ k < (skel S).edges.length, ∀ j < (skel S).esize k, wholeTrace (skel S) (numberP (skelP S W)) x k j = edgePart (number (skel S)) y k j) :
    convergedP S W x = converged S y := by
  have hP := cluster_shared h hw
  have hs : ∑ r ∈ Finset.range (numberP (skelP S W)).total, x r * x r = ∑ r ∈ Finset.range (number (skel S)).off, y r * y r := by
    rw [sum_whole hP fun a => a * a, sum_serial (skel S) hw.pos fun a => a * a]
    exact Finset.sum_congr rfl fun k hk => Finset.sum_congr rfl fun j hj => by rw [hxy k (Finset.mem_range.1 hk) j (Finset.mem_range.1 hj)]
  unfold convergedP converged
  simp only
  rw [hs, total_eq hP hw.pos]

/-- **C101** One step of Newton's method: where the linearized equations have one solution, several ranks fail exactly where one fails, and otherwise compute
the same states, the same traces on both sides of a cut, and the same verdict on convergence. -/
theorem newton_ranks (h : Clustered S W cut) (hw : WellFormed (skel S)) (hc : Gn.Props.Complete S.I S.slv) (ha : Agree S cut it pit) (q0 : State K) (prev : ℕ → ℕ → K)
    (hu : finite S it.q = true → Sole (skel S) (blocks S q0 prev it)) : Option.Rel (SameStep S W cut) (newton S q0 prev it) (newtonP S W q0 prev pit) := by
  have hP := cluster_shared h hw
  have hb := blocks_gathered h hw ha q0 prev
  unfold newton newtonP
  rw [finite_ranks h, ha.q]
  by_cases hf : finite S it.q = true
  swap
  · rw [if_neg hf, if_neg hf]
    exact .none
  rw [if_pos hf, if_pos hf]
  have hu := hu hf
  have hD := (local_ranks h ha q0 prev).1
  have hinv : (inverses S.I (blocks S q0 prev it) (skel S) (skel S).elts).isSome ↔ (inverses S.I (blocksP S W q0 prev pit).elt (skelP S W).sizes (skelP S W).elts).isSome := by
    rw [inverses_isSome, inverses_isSome]
    refine forall_congr' fun e => ?_
    rw [hP.elts e]
    show (e ∈ (skel S).elts → (S.I ((skel S).size e) ((localAll S q0 prev it).D e)).isSome) ↔ (e ∈ (skel S).elts → (S.I ((skelP S W).size e) ((localAllP S W q0 prev pit).D e)).isSome)
    rw [hP.size, hD]
  rcases hs : inverses S.I (blocks S q0 prev it) (skel S) (skel S).elts with - | inv
  · have hs' : inverses S.I (blocksP S W q0 prev pit).elt (skelP S W).sizes (skelP S W).elts = none := by
      rw [hs] at hinv
      exact Option.not_isSome_iff_eq_none.1 fun hx => Option.isSome_none.symm.trans (hinv.2 hx) |> Bool.false_ne_true
    have h1 : condense S.I S.slv (skel S) (blocks S q0 prev it) = none := by unfold condense; rw [hs]; rfl
    have h2 : condenseP S.I S.slv (skelP S W) (blocksP S W q0 prev pit) = none := by unfold condenseP; rw [hs']; rfl
    rw [h1, h2]
    exact .none
  · obtain ⟨invP, hs'⟩ := Option.isSome_iff_exists.1 (hinv.1 (by rw [hs]; rfl))
    obtain ⟨x, hx⟩ := Option.isSome_iff_exists.1 (hc.slv _ _ (assembleRhs (skel S) (number (skel S)) (blocks S q0 prev it) inv) (serial_regular hc.right hw hu hs))
    obtain ⟨xP, hxP⟩ := Option.isSome_iff_exists.1 (hc.slv _ _ (assembleP (skelP S W) (numberP (skelP S W)) (blocksP S W q0 prev pit) invP).2 (ranks_regular hc.right hP hw hb hu hs'))
    obtain ⟨dP, dh, h2⟩ := parallel_total hP hs' hxP
    obtain ⟨d, h1⟩ : ∃ d, condense S.I S.slv (skel S) (blocks S q0 prev it) = some (d, x) := by
      unfold condense
      rw [hs]
      simp only [Option.bind_eq_bind, Option.bind_some, hx]
      exact ⟨_, rfl⟩
    rw [h1, h2]
    obtain ⟨e1, e2, e3⟩ := parallel_serial hc.right hc.right hc.solves hc.solves hP hw hb (sole_unique hu) h2 h1
    refine .some ⟨⟨?_, fun k ed hed => ?_, fun i hi => ?_⟩, converged_ranks h hw e3⟩
    · funext e var dof
      simp only [advanceP, advance]
      have hm : (e ∈ (skelP S W).elts ∧ 3 * dof < (skelP S W).size e) ↔ (e ∈ S.m.elts ∧ 3 * dof < (skel S).size e) := by
        rw [hP.elts e, hP.size]; rfl
      by_cases he : e ∈ S.m.elts ∧ 3 * dof < (skel S).size e
      · rw [if_pos he, if_pos (hm.2 he), ha.q]
        unfold reshapeCol
        rw [e1 e he.1 _ (by have := he.2; have := var.2; simp only [skel] at *; omega)]
      · rw [if_neg he, if_neg fun hx => he (hm.1 hx), ha.q]
    · have hk : k < (skel S).edges.length := by
        have := (List.getElem?_eq_some_iff.1 hed).1
        simpa [skel] using this
      obtain ⟨ed', hed', hes, hz⟩ := skel_get hk
      rw [hed] at hed'
      cases hed'
      obtain ⟨y, hy, hj⟩ := shared_edge hP hk
      have hown : y.own = ⟨ed.own.e, ed.own.f⟩ := by
        rw [hes] at hj
        cases y with
        | int a a' => cases ed <;> simp [joined, Edg.sides] at hj <;> simp [PEdge.own, Edg.own, hj]
        | bnd a => cases ed <;> simp [joined, Edg.sides] at hj <;> simp [PEdge.own, Edg.own, hj]
        | dist a a' => cases ed <;> simp [joined, Edg.sides] at hj <;> simp [PEdge.own, Edg.own, hj]
      have hmem : (⟨ed.own.e, ed.own.f⟩ : Face) ∈ (skel S).edges[k] := by rw [hes]; cases ed <;> simp [Edg.own, Edg.sides]
      refine advance_edge h hw hk hmem (fun j hj => ?_) (ha.hat k ed hed)
      have := e2 y hy k hk (hown ▸ hmem) j hj
      rw [hown] at this
      exact this
    · have hm : i ∈ S.m.ints := h.part.ints.mem_iff.1 (List.mem_append_right _ hi)
      obtain ⟨k, hk', hke⟩ := List.getElem_of_mem (List.mem_append_left (S.m.bnds.map Edg.bnd) (List.mem_map_of_mem (f := Edg.int) hm))
      have hed : (edgesOf S.m)[k]? = some (.int i) := by rw [← hke]; exact List.getElem?_eq_getElem hk'
      have hk : k < (skel S).edges.length := by
        have := (List.getElem?_eq_some_iff.1 hed).1
        simpa [skel] using this
      obtain ⟨ed', hed', hes, hz⟩ := skel_get hk
      rw [hed] at hed'
      cases hed'
      have hhat : pit.hat i.ein i.fin = it.hat k := ha.hat k _ hed
      have m1 : (⟨i.ein, i.fin⟩ : Face) ∈ (skel S).edges[k] := by rw [hes]; simp [Edg.sides]
      have m2 : (⟨i.eex, i.fex⟩ : Face) ∈ (skel S).edges[k] := by rw [hes]; simp [Edg.sides]
      obtain ⟨c1, c2⟩ := cut_edges h i hi
      rw [advance_edge (d := d) h hw hk m1 (fun j hj => e2 _ c1 k hk m1 j hj) hhat, advance_edge (d := d) h hw hk m2 (fun j hj => e2 _ c2 k hk m2 j hj) ((ha.both i hi).trans hhat)]

/-- Along the iteration, the linearized equations have one solution. -/
def Determined (S : Scheme K) (q0 : State K) (prev : ℕ → ℕ → K) : ℕ → Iter K → Prop
  | 0, _ => True
  | n + 1, it => (finite S it.q = true → Sole (skel S) (blocks S q0 prev it)) ∧
      ∀ d, newton S q0 prev it = some d → converged S d.2 = false → Determined S q0 prev n d.1

theorem iterate_ranks (h : Clustered S W cut) (hw : WellFormed (skel S)) (hc : Gn.Props.Complete S.I S.slv) (q0 : State K) (prev : ℕ → ℕ → K) (n : ℕ) :
    ∀ {it : Iter K} {pit : PIter K}, Agree S cut it pit → Determined S q0 prev n it → Option.Rel (Agree S cut) (iterate S q0 prev n it) (iterateP S W q0 prev n pit) := by
  induction n with
  | zero => intro it pit ha _; exact .some ha
  | succ n ih =>
    intro it pit ha hd
    have hr := newton_ranks h hw hc ha q0 prev hd.1
    rw [iterate, iterateP]
    rcases h1 : newton S q0 prev it with - | d <;> rcases h2 : newtonP S W q0 prev pit with - | p <;> rw [h1, h2] at hr
    · exact .none
    · cases hr
    · cases hr
    · obtain ⟨hag, hcv⟩ : SameStep S W cut d p := by cases hr; assumption
      simp only [Option.bind_some, hcv]
      by_cases hv : converged S d.2 = true
      · rw [if_pos hv, if_pos hv]
        exact .some hag
      · rw [if_neg hv, if_neg hv]
        exact ih hag (hd.2 d h1 (by simpa using hv))

/-- **C101** A stage of the implicit scheme on several ranks: it succeeds exactly where that on one rank does, with the same states and traces. -/
theorem stage_ranks (h : Clustered S W cut) (hw : WellFormed (skel S)) (hc : Gn.Props.Complete S.I S.slv) (ha : Agree S cut it pit)
    (hd : Determined S it.q (rhsPrev S it) 100 it) : Option.Rel (Agree S cut) (stage S it) (stageP S W pit) := by
  unfold stage stageP
  rw [prev_ranks h ha, ha.q]
  exact iterate_ranks h hw hc _ _ 100 ha hd

theorem clustered_time (h : Clustered S W cut) (t tn r : K) : Clustered { S with t := t, tn := tn, rampn := r } W cut :=
  ⟨h.part, fun i hi => ⟨(h.cuts i hi).meets, (h.cuts i hi).order, (h.cuts i hi).weights⟩, h.cover⟩

theorem agree_time {t tn r : K} : Agree { S with t := t, tn := tn, rampn := r } cut it pit ↔ Agree S cut it pit :=
  ⟨fun h => ⟨h.q, h.hat, h.both⟩, fun h => ⟨h.q, h.hat, h.both⟩⟩

/-- **C101** The whole run: any number of steps, whatever the times and ramps. -/
theorem steps_ranks (h : Clustered S W cut) (hw : WellFormed (skel S)) (hc : Gn.Props.Complete S.I S.slv) (time ramp : ℕ → K) (ha : Agree S cut it pit) (n : ℕ)
    (hd : ∀ k < n, ∀ it', steps S time ramp k it = some it' →
      Determined { S with t := time k, tn := time (k + 1), rampn := ramp (k + 1) } it'.q (rhsPrev { S with t := time k, tn := time (k + 1), rampn := ramp (k + 1) } it') 100 it') :
    Option.Rel (Agree S cut) (steps S time ramp n it) (stepsP S W time ramp n pit) := by
  induction n with
  | zero => exact .some ha
  | succ n ih =>
    have hr := ih fun k hk => hd k (by omega)
    rw [steps, stepsP]
    rcases h1 : steps S time ramp n it with - | d <;> rcases h2 : stepsP S W time ramp n pit with - | p <;> rw [h1, h2] at hr
    · exact .none
    · cases hr
    · cases hr
    · have hag : Agree S cut d p := by cases hr; assumption
      simp only [Option.bind_some]
      have := stage_ranks (clustered_time h (time n) (time (n + 1)) (ramp (n + 1))) hw hc (agree_time.2 hag) (hd n (by omega) d h1)
      revert this
      rcases stage { S with t := time n, tn := time (n + 1), rampn := ramp (n + 1) } d with - | a <;>
        rcases stageP { S with t := time n, tn := time (n + 1), rampn := ramp (n + 1) } W p with - | b <;> intro hx
      · exact .none
      · cases hx
      · cases hx
      · exact .some (agree_time.1 (by cases hx; assumption))

end

end

end Verif.Ihdg.Props
