import Verif.Model.IhdgUnit
import Verif.Props.CondenseP

/-!
# Submeshes of the implicit discretization: what a submesh computes is its part of what all compute
-/

namespace Verif.Ihdg.Props
open Verif.Geometry Verif.Element Verif.Swe Verif.Edge Verif.Ehdg Verif.Ihdg
open Verif.Gn (PEdge PEdg edgesP byFaceP byOwnP)

variable {K : Type} [Field K] [LinearOrder K]

/-! ### Folds -/

theorem fold_const {α σ β : Type} (l : List α) (f : σ → α → σ) (π : σ → β) (s : σ) (h : ∀ x ∈ l, ∀ s, π (f s x) = π s) : π (l.foldl f s) = π s := by
  induction l generalizing s with
  | nil => rfl
  | cons a l ih => rw [List.foldl_cons, ih _ fun x hx => h x (by simp [hx]), h a (by simp)]

theorem fold_same {α σ β : Type} (l : List α) (f g : σ → α → σ) (π : σ → β) (s s' : σ) (h : ∀ x ∈ l, ∀ s s', π s = π s' → π (f s x) = π (g s' x))
    (h0 : π s = π s') : π (l.foldl f s) = π (l.foldl g s') := by
  induction l generalizing s s' with
  | nil => exact h0
  | cons a l ih => exact ih _ _ (fun x hx => h x (by simp [hx])) (h a (by simp) _ _ h0)

theorem fold_mid {α σ β : Type} (A M B : List α) (f g : σ → α → σ) (π : σ → β) (s s' : σ) (hA : ∀ x ∈ A, ∀ s, π (f s x) = π s)
    (hM : ∀ x ∈ M, ∀ s s', π s = π s' → π (f s x) = π (g s' x)) (hB : ∀ x ∈ B, ∀ s, π (f s x) = π s) (h0 : π s = π s') :
    π ((A ++ M ++ B).foldl f s) = π (M.foldl g s') := by
  rw [List.foldl_append, List.foldl_append, fold_const B f π _ hB]
  exact fold_same M f g π _ _ hM (by rw [fold_const A f π _ hA, h0])

theorem foldM_if {α σ : Type} (l : List α) (c : α → Prop) [DecidablePred c] (st : σ → α → σ) (s : σ) :
    l.foldlM (fun s y => if c y then some (st s y) else none) s = if ∀ y ∈ l, c y then some (l.foldl st s) else none := by
  induction l generalizing s with
  | nil => simp
  | cons a l ih =>
    rw [List.foldlM_cons]
    by_cases ha : c a
    · simp only [ha, if_true, Option.bind_eq_bind, Option.bind_some, ih, List.mem_cons, forall_eq_or_imp, true_and, List.foldl_cons]
    · simp [ha]

/-! ### Elements of edges -/

/-- The elements of an edge. -/
def touch : PEdg K → List ℕ
  | .loc ed => ed.sides.map Sd.e
  | .dist b => [b.e]

/-- No element is shared; edges belong to elements of their submesh. -/
structure Apart (W : Cluster K) : Prop where
  nodup : (W.meshes.flatMap Mesh.elts).Nodup
  ownInts : ∀ s ∈ W.meshes, ∀ i ∈ s.ints, i.ein ∈ s.elts ∧ i.eex ∈ s.elts
  ownBnds : ∀ s ∈ W.meshes, ∀ b ∈ s.bnds, b.e ∈ s.elts
  ownDist : ∀ s ∈ W.meshes, ∀ b ∈ s.dist, b.e ∈ s.elts

theorem touch_own {W : Cluster K} (h : Apart W) {s : Mesh K} (hs : s ∈ W.meshes) {x : PEdg K} (hx : x ∈ edgesP s) {e : ℕ} (he : e ∈ touch x) : e ∈ s.elts := by
  simp only [edgesP, edgesOf, List.map_append, List.map_map, List.mem_append, List.mem_map, Function.comp] at hx
  rcases hx with (⟨i, hi, rfl⟩ | ⟨b, hb, rfl⟩) | ⟨b, hb, rfl⟩
  · simp only [touch, Edg.sides, List.map_cons, List.map_nil, List.mem_cons, List.not_mem_nil, or_false] at he
    rcases he with rfl | rfl
    exacts [(h.ownInts s hs i hi).1, (h.ownInts s hs i hi).2]
  · simp only [touch, Edg.sides, List.map_cons, List.map_nil, List.mem_cons, List.not_mem_nil, or_false] at he
    exact he ▸ h.ownBnds s hs b hb
  · simp only [touch, List.mem_singleton] at he
    exact he ▸ h.ownDist s hs b hb

theorem own_touch (ed : Edg K) : ed.own.e ∈ touch (.loc ed) := by cases ed <;> simp [touch, Edg.sides, Edg.own]

theorem skel_touch {x : PEdg K} {c : Face} (hc : c ∈ x.skel.faces) : c.e ∈ touch x := by
  rcases x with (i | b) | b
  · simp only [PEdg.skel, PEdge.faces, List.mem_cons, List.not_mem_nil, or_false] at hc
    rcases hc with rfl | rfl <;> simp [touch, Edg.sides]
  · simp only [PEdg.skel, PEdge.faces, List.mem_cons, List.not_mem_nil, or_false] at hc
    subst hc; simp [touch, Edg.sides]
  · simp only [PEdg.skel, PEdge.faces, List.mem_cons, List.not_mem_nil, or_false] at hc
    subst hc; simp [touch]

/-- The other submeshes around one, and what is not theirs. -/
theorem apart_split {W : Cluster K} (h : Apart W) {A B : List (Mesh K)} {m : Mesh K} (hw : W.meshes = A ++ [m] ++ B) {e : ℕ} (he : e ∈ m.elts) :
    (∀ s ∈ A, e ∉ s.elts ∧ ∀ x ∈ edgesP s, e ∉ touch x) ∧ ∀ s ∈ B, e ∉ s.elts ∧ ∀ x ∈ edgesP s, e ∉ touch x := by
  have hn := h.nodup
  rw [hw] at hn
  simp only [List.flatMap_append, List.flatMap_singleton, List.append_assoc] at hn
  have h1 := (List.nodup_append.1 hn).2.2
  have h2 := (List.nodup_append.1 (List.nodup_append.1 hn).2.1).2.2
  have hA : ∀ s ∈ A, e ∉ s.elts := fun s hs hc => h1 e (List.mem_flatMap.2 ⟨s, hs, hc⟩) e (by simp [he]) rfl
  have hB : ∀ s ∈ B, e ∉ s.elts := fun s hs hc => h2 e he e (List.mem_flatMap.2 ⟨s, hs, hc⟩) rfl
  exact ⟨fun s hs => ⟨hA s hs, fun x hx hc => hA s hs (touch_own h (by rw [hw]; simp [hs]) hx hc)⟩,
    fun s hs => ⟨hB s hs, fun x hx hc => hB s hs (touch_own h (by rw [hw]; simp [hs]) hx hc)⟩⟩

/-! ### Kernels of edges look at their elements only -/

section
variable (S : Scheme K) (W : Cluster K) {q q' : State K}

theorem sideQ_congr {ed : Edg K} {s : Sd} (h : q s.e = q' s.e) : sideQ S q ed s = sideQ S q' ed s := by funext gp; simp only [sideQ, h]

theorem cutQ_congr {b : Dbnd K} (h : q b.e = q' b.e) : cutQ S q b = cutQ S q' b := by funext gp; simp only [cutQ, h]

theorem fhat_congr {ed : Edg K} {c : Coef K} {s : Sd} (h : q s.e = q' s.e) : fhat S q ed c s = fhat S q' ed c s := by
  funext gp; simp only [fhat, sideQ_congr S h]

theorem dfDhat_congr {ed : Edg K} {c : Coef K} {s : Sd} (h : q s.e = q' s.e) : dfDhat S q ed c s = dfDhat S q' ed c s := by
  funext gp; simp only [dfDhat, dtauDelq, sideQ_congr S h]

theorem openOf_congr {b : Bnd K} (h : q b.e = q' b.e) : openOf S q b = openOf S q' b := by
  have h1 : sideQ S q (.bnd b) ⟨b.e, b.f, false⟩ = sideQ S q' (.bnd b) ⟨b.e, b.f, false⟩ := sideQ_congr S h
  have h2 : exterior S q b = exterior S q' b := by funext gp; simp only [exterior, h1]
  simp only [openOf, h1, h2]

theorem faceR_congr {ed : Edg K} {c : Coef K} {s : Sd} (h : q s.e = q' s.e) : faceR S q ed c s = faceR S q' ed c s := by
  funext r; simp only [faceR, fhat_congr S h]

theorem sideDh_congr {ed : Edg K} {c : Coef K} {s : Sd} (h : q s.e = q' s.e) : sideDh S q ed c s = sideDh S q' ed c s := by
  funext r k; simp only [sideDh, dfDhat_congr S h]

theorem gDelta_congr {ed : Edg K} {c : Coef K} {s : Sd} (h : ∀ e ∈ touch (.loc ed), q e = q' e) : gDelta S q ed c s = gDelta S q' ed c s := by
  funext gp
  cases ed with
  | int i => rfl
  | bnd b => simp only [gDelta, openOf_congr S (h b.e (by simp [touch, Edg.sides]))]

theorem sideDg_congr {ed : Edg K} {c : Coef K} {s : Sd} (h : ∀ e ∈ touch (.loc ed), q e = q' e) : sideDg S q ed c s = sideDg S q' ed c s := by
  funext r k; simp only [sideDg, gDelta_congr S h]

theorem gHat_congr {ed : Edg K} {c : Coef K} (h : ∀ e ∈ touch (.loc ed), q e = q' e) : gHat S q ed c = gHat S q' ed c := by
  funext gp
  cases ed with
  | int i =>
    have h1 : dfDhat S q (.int i) c ⟨i.ein, i.fin, false⟩ = dfDhat S q' (.int i) c ⟨i.ein, i.fin, false⟩ := dfDhat_congr S (h _ (by simp [touch, Edg.sides]))
    have h2 : dfDhat S q (.int i) c ⟨i.eex, i.fex, true⟩ = dfDhat S q' (.int i) c ⟨i.eex, i.fex, true⟩ := dfDhat_congr S (h _ (by simp [touch, Edg.sides]))
    simp only [gHat, h1, h2]
  | bnd b => simp only [gHat, openOf_congr S (h b.e (by simp [touch, Edg.sides]))]

theorem gRhs_congr {ed : Edg K} {c : Coef K} (h : ∀ e ∈ touch (.loc ed), q e = q' e) : gRhs S q ed c = gRhs S q' ed c := by
  funext gp
  cases ed with
  | int i =>
    have h1 : fhat S q (.int i) c ⟨i.ein, i.fin, false⟩ = fhat S q' (.int i) c ⟨i.ein, i.fin, false⟩ := fhat_congr S (h _ (by simp [touch, Edg.sides]))
    have h2 : fhat S q (.int i) c ⟨i.eex, i.fex, true⟩ = fhat S q' (.int i) c ⟨i.eex, i.fex, true⟩ := fhat_congr S (h _ (by simp [touch, Edg.sides]))
    simp only [gRhs, h1, h2]
  | bnd b =>
    have h1 : sideQ S q (.bnd b) ⟨b.e, b.f, false⟩ = sideQ S q' (.bnd b) ⟨b.e, b.f, false⟩ := sideQ_congr S (h _ (by simp [touch, Edg.sides]))
    simp only [gRhs, h1, openOf_congr S (h b.e (by simp [touch, Edg.sides]))]

theorem edgeDhg_congr {ed : Edg K} {c : Coef K} (h : ∀ e ∈ touch (.loc ed), q e = q' e) : edgeDhg S q ed c = edgeDhg S q' ed c := by
  funext r k; cases ed <;> simp only [edgeDhg, gHat_congr S h]

theorem edgeRg_congr {ed : Edg K} {c : Coef K} (h : ∀ e ∈ touch (.loc ed), q e = q' e) : edgeRg S q ed c = edgeRg S q' ed c := by
  funext r; simp only [edgeRg, gRhs_congr S h]

theorem cutF_congr {b : Dbnd K} {c : Coef K} (h : q b.e = q' b.e) : cutF S W q c b = cutF S W q' c b := by
  funext gp; simp only [cutF, cutQ_congr S h]

theorem cutDhat_congr {b : Dbnd K} {c : Coef K} (h : q b.e = q' b.e) : cutDhat S W q c b = cutDhat S W q' c b := by
  funext gp; simp only [cutDhat, cutDtau, cutQ_congr S h]

theorem cutR_congr {b : Dbnd K} {c : Coef K} (h : q b.e = q' b.e) : cutR S W q c b = cutR S W q' c b := by
  funext r; simp only [cutR, cutF_congr S W h]

theorem cutDh_congr {b : Dbnd K} {c : Coef K} (h : q b.e = q' b.e) : cutDh S W q c b = cutDh S W q' c b := by
  funext r k; simp only [cutDh, cutDhat_congr S W h]

theorem cutHg_congr {b : Dbnd K} {c : Coef K} (h : q b.e = q' b.e) : cutHg S W q c b = cutHg S W q' c b := by
  have : cutGHat S W q c b = cutGHat S W q' c b := by funext gp; simp only [cutGHat, cutDhat_congr S W h]
  funext r k; simp only [cutHg, this]

theorem cutHr_congr {b : Dbnd K} {c : Coef K} (h : q b.e = q' b.e) : cutHr S W q c b = cutHr S W q' c b := by
  have : cutGRhs S W q c b = cutGRhs S W q' c b := by funext gp; simp only [cutGRhs, cutF_congr S W h]
  funext r; simp only [cutHr, this]

end



/-! ### A submesh among the others -/

section
variable (S : Scheme K) (W : Cluster K) {m : Mesh K} {it it' : PIter K}

/-- Two iterates agree in a submesh. -/
structure Own (m : Mesh K) (it it' : PIter K) : Prop where
  q : ∀ e ∈ m.elts, it.q e = it'.q e
  hat : ∀ e ∈ m.elts, it.hat e = it'.hat e

/-- Two sets of blocks agree in a submesh. -/
structure OwnBlocks (m : Mesh K) (b b' : PBlocks K) : Prop where
  dl : ∀ e ∈ m.elts, b.dl e = b'.dl e
  rl : ∀ e ∈ m.elts, b.rl e = b'.rl e
  dh : ∀ e ∈ m.elts, b.dh e = b'.dh e
  dg : ∀ e ∈ m.elts, b.dg e = b'.dg e
  hg : ∀ e ∈ m.elts, b.hg e = b'.hg e
  hr : ∀ e ∈ m.elts, b.hr e = b'.hr e

/-- The part of a table in a submesh. -/
def only {α : Type} (m : Mesh K) (t : ℕ → α) : {e // e ∈ m.elts} → α := fun e => t e.1

theorem only_iff {α : Type} {t t' : ℕ → α} : only m t = only m t' ↔ ∀ e ∈ m.elts, t e = t' e :=
  ⟨fun h e he => congrFun h ⟨e, he⟩, fun h => funext fun e => h e.1 e.2⟩

theorem upd_only {α : Type} {t t' : ℕ → α} {k : ℕ} {a a' : α} (h : only m t = only m t') (ha : a = a') : only m (Function.update t k a) = only m (Function.update t' k a') := by
  subst ha
  rw [only_iff] at h ⊢
  intro e he
  by_cases hk : e = k
  · subst hk; simp
  · simp [hk, h e he]

theorem prevEdge_same (ho : Own m it it') {x : PEdg K} (hx : ∀ e ∈ touch x, e ∈ m.elts) {P P' : ℕ → ℕ → K} (h : only m P = only m P') :
    only m (prevEdgeP S W it P x) = only m (prevEdgeP S W it' P' x) := by
  cases x with
  | loc ed =>
    have hat : it.at ed = it'.at ed := congrFun (ho.hat _ (hx _ (own_touch ed))) _
    refine fold_same _ _ _ _ _ _ (fun s hs P P' h => ?_) h
    have hs' : s.e ∈ m.elts := hx _ (List.mem_map.2 ⟨s, hs, rfl⟩)
    exact upd_only h (by rw [only_iff.1 h _ hs', hat, faceR_congr S (ho.q _ hs')])
  | dist b =>
    have hb : b.e ∈ m.elts := hx _ (by simp [touch])
    exact upd_only h (by rw [only_iff.1 h _ hb, ho.hat _ hb, cutR_congr S W (ho.q _ hb)])

theorem prevEdge_other {x : PEdg K} {e : ℕ} (hx : e ∉ touch x) (P : ℕ → ℕ → K) : prevEdgeP S W it P x e = P e := by
  cases x with
  | loc ed =>
    refine fold_const _ _ (fun P : ℕ → ℕ → K => P e) _ fun s hs P => ?_
    exact Function.update_of_ne (fun h => hx (List.mem_map.2 ⟨s, hs, h.symm⟩)) _ _
  | dist b => exact Function.update_of_ne (fun h => hx (by simp [touch, h])) _ _

theorem prevMesh_other {s : Mesh K} {e : ℕ} (he : e ∉ s.elts ∧ ∀ x ∈ edgesP s, e ∉ touch x) (P : ℕ → ℕ → K) : prevMesh S W it P s e = P e := by
  have h1 := fold_const (edgesP s) (prevEdgeP S W it) (fun P : ℕ → ℕ → K => P e) (s.elts.foldl (prevElt S it.q) P) fun x hx P => prevEdge_other S W (he.2 x hx) P
  exact h1.trans (fold_const s.elts (prevElt S it.q) (fun P : ℕ → ℕ → K => P e) P fun x hx P => Function.update_of_ne (show e ≠ x from fun h => he.1 (h ▸ hx)) _ _)

theorem elts_set {α : Type} (l : List ℕ) (v : ℕ → α) (t : ℕ → α) {e : ℕ} (he : e ∈ l) : l.foldl (fun t e => Function.update t e (v e)) t e = v e := by
  induction l generalizing t with
  | nil => simp at he
  | cons a l ih =>
    rw [List.foldl_cons]
    by_cases h : e ∈ l
    · exact ih _ h
    · have : e = a := by simpa [h] using he
      subst this
      exact (fold_const l (fun t e => Function.update t e (v e)) (fun t : ℕ → α => t e) _ fun x hx t => Function.update_of_ne (show e ≠ x from fun h' => h (h' ▸ hx)) _ _).trans (by simp)

theorem prevMesh_same (ho : Own m it it') (hm : ∀ x ∈ edgesP m, ∀ e ∈ touch x, e ∈ m.elts) (P P' : ℕ → ℕ → K) :
    only m (prevMesh S W it P m) = only m (prevMesh S W it' P' m) := by
  refine fold_same _ _ _ _ _ _ (fun x hx P P' h => prevEdge_same S W ho (hm x hx) h) ?_
  rw [only_iff]
  intro e he
  exact (elts_set m.elts (fun e r => (fluxR S (S.dat e) (it.q e) r).1 + (fluxR S (S.dat e) (it.q e) r).2 + srcR S (S.dat e) S.t (it.q e) r) P he).trans
    (by rw [ho.q e he]; exact (elts_set m.elts (fun e r => (fluxR S (S.dat e) (it'.q e) r).1 + (fluxR S (S.dat e) (it'.q e) r).2 + srcR S (S.dat e) S.t (it'.q e) r) P' he).symm)

variable {A B : List (Mesh K)}

theorem edges_own {W : Cluster K} (h : Apart W) (hw : W.meshes = A ++ [m] ++ B) : ∀ x ∈ edgesP m, ∀ e ∈ touch x, e ∈ m.elts :=
  fun _ hx _ he => touch_own h (by rw [hw]; simp) hx he

theorem prev_sub (h : Apart W) (hw : W.meshes = A ++ [m] ++ B) (ho : Own m it it') : ∀ e ∈ m.elts, rhsPrevP S W it e = subPrev S W it' m e := by
  rw [← only_iff]
  unfold rhsPrevP subPrev
  split
  · rw [hw]
    exact fold_mid A [m] B (prevMesh S W it) (prevMesh S W it') (only m) _ (fun _ _ => 0)
      (fun s hs P => only_iff.2 fun e he => prevMesh_other S W ((apart_split h hw he).1 s hs) P)
      (fun s hs P P' _ => by rw [List.mem_singleton.1 hs]; exact prevMesh_same S W ho (edges_own h hw) P P')
      (fun s hs P => only_iff.2 fun e he => prevMesh_other S W ((apart_split h hw he).2 s hs) P) rfl
  · rfl

/-! ### Local blocks -/

/-- The part of the local blocks. -/
def onlyL (m : Mesh K) (L : Local K) : ({e // e ∈ m.elts} → ℕ → ℕ → K) × ({e // e ∈ m.elts} → ℕ → K) := (only m L.D, only m L.R)

theorem localEdge_same (ho : Own m it it') {x : PEdg K} (hx : ∀ e ∈ touch x, e ∈ m.elts) {L L' : Local K} (h : onlyL m L = onlyL m L') :
    onlyL m (localEdgeP S W it L x) = onlyL m (localEdgeP S W it' L' x) := by
  cases x with
  | loc ed =>
    have hat : it.at ed = it'.at ed := congrFun (ho.hat _ (hx _ (own_touch ed))) _
    refine fold_same _ _ _ _ _ _ (fun s hs L L' h => ?_) h
    have hs' : s.e ∈ m.elts := hx _ (List.mem_map.2 ⟨s, hs, rfl⟩)
    obtain ⟨h1, h2⟩ := Prod.mk.injEq _ _ _ _ ▸ h
    exact Prod.ext (upd_only h1 (by rw [only_iff.1 h1 _ hs', hat])) (upd_only h2 (by rw [only_iff.1 h2 _ hs', hat, faceR_congr S (ho.q _ hs')]))
  | dist b =>
    have hb : b.e ∈ m.elts := hx _ (by simp [touch])
    obtain ⟨h1, h2⟩ := Prod.mk.injEq _ _ _ _ ▸ h
    exact Prod.ext (upd_only h1 (by rw [only_iff.1 h1 _ hb, ho.hat _ hb])) (upd_only h2 (by rw [only_iff.1 h2 _ hb, ho.hat _ hb, cutR_congr S W (ho.q _ hb)]))

theorem localEdge_other {x : PEdg K} {e : ℕ} (hx : e ∉ touch x) (L : Local K) : ((localEdgeP S W it L x).D e, (localEdgeP S W it L x).R e) = (L.D e, L.R e) := by
  cases x with
  | loc ed =>
    refine fold_const _ _ (fun L : Local K => (L.D e, L.R e)) _ fun s hs L => ?_
    have hne : e ≠ s.e := fun h => hx (List.mem_map.2 ⟨s, hs, h.symm⟩)
    exact Prod.ext (Function.update_of_ne hne _ _) (Function.update_of_ne hne _ _)
  | dist b =>
    have hne : e ≠ b.e := fun h => hx (by simp [touch, h])
    exact Prod.ext (Function.update_of_ne hne _ _) (Function.update_of_ne hne _ _)

variable {q0 q0' : State K} {prev prev' : ℕ → ℕ → K}

theorem localMesh_other {s : Mesh K} {e : ℕ} (he : e ∉ s.elts ∧ ∀ x ∈ edgesP s, e ∉ touch x) (L : Local K) :
    ((localMesh S W q0 prev it L s).D e, (localMesh S W q0 prev it L s).R e) = (L.D e, L.R e) := by
  have h1 := fold_const (edgesP s) (localEdgeP S W it) (fun L : Local K => (L.D e, L.R e)) (s.elts.foldl (localElt S q0 it.q prev) L) fun x hx P => localEdge_other S W (he.2 x hx) P
  refine h1.trans (fold_const s.elts (localElt S q0 it.q prev) (fun L : Local K => (L.D e, L.R e)) L fun x hx P => ?_)
  have hne : e ≠ x := fun h => he.1 (h ▸ hx)
  exact Prod.ext (Function.update_of_ne hne _ _) (Function.update_of_ne hne _ _)

theorem localElts (q0 q : State K) (prev : ℕ → ℕ → K) (l : List ℕ) (L : Local K) : l.foldl (localElt S q0 q prev) L =
    ⟨l.foldl (fun t e => Function.update t e fun r s => volD S (S.dat e) (q e) r s - srcD S (S.dat e) (q e) r s) L.D,
      l.foldl (fun t e => Function.update t e fun r => volR S (S.dat e) (q0 e) (q e) (prev e) r + (1 - S.theta) * srcR S (S.dat e) S.tn (q e) r) L.R⟩ := by
  induction l generalizing L with
  | nil => rfl
  | cons a l ih => rw [List.foldl_cons, ih]; rfl

theorem localMesh_same (ho : Own m it it') (h0 : ∀ e ∈ m.elts, q0 e = q0' e) (hp : ∀ e ∈ m.elts, prev e = prev' e)
    (hm : ∀ x ∈ edgesP m, ∀ e ∈ touch x, e ∈ m.elts) (L L' : Local K) : onlyL m (localMesh S W q0 prev it L m) = onlyL m (localMesh S W q0' prev' it' L' m) := by
  refine fold_same _ _ _ _ _ _ (fun x hx P P' h => localEdge_same S W ho (hm x hx) h) ?_
  rw [localElts, localElts]
  refine Prod.ext (only_iff.2 fun e he => ?_) (only_iff.2 fun e he => ?_)
  · exact (elts_set m.elts (fun e r s => volD S (S.dat e) (it.q e) r s - srcD S (S.dat e) (it.q e) r s) L.D he).trans
      (by rw [ho.q e he]; exact (elts_set m.elts (fun e r s => volD S (S.dat e) (it'.q e) r s - srcD S (S.dat e) (it'.q e) r s) L'.D he).symm)
  · exact (elts_set m.elts (fun e r => volR S (S.dat e) (q0 e) (it.q e) (prev e) r + (1 - S.theta) * srcR S (S.dat e) S.tn (it.q e) r) L.R he).trans
      (by rw [ho.q e he, h0 e he, hp e he]
          exact (elts_set m.elts (fun e r => volR S (S.dat e) (q0' e) (it'.q e) (prev' e) r + (1 - S.theta) * srcR S (S.dat e) S.tn (it'.q e) r) L'.R he).symm)

theorem local_sub (h : Apart W) (hw : W.meshes = A ++ [m] ++ B) (ho : Own m it it') (h0 : ∀ e ∈ m.elts, q0 e = q0' e) (hp : ∀ e ∈ m.elts, prev e = prev' e) :
    onlyL m (localAllP S W q0 prev it) = onlyL m (localMesh S W q0' prev' it' ⟨fun _ _ _ => 0, fun _ _ => 0⟩ m) := by
  unfold localAllP
  rw [hw]
  exact fold_mid A [m] B (localMesh S W q0 prev it) (localMesh S W q0' prev' it') (onlyL m) _ ⟨fun _ _ _ => 0, fun _ _ => 0⟩
    (fun s hs P => Prod.ext (only_iff.2 fun e he => congrArg Prod.fst (localMesh_other S W ((apart_split h hw he).1 s hs) P))
      (only_iff.2 fun e he => congrArg Prod.snd (localMesh_other S W ((apart_split h hw he).1 s hs) P)))
    (fun s hs P P' _ => by rw [List.mem_singleton.1 hs]; exact localMesh_same S W ho h0 hp (edges_own h hw) P P')
    (fun s hs P => Prod.ext (only_iff.2 fun e he => congrArg Prod.fst (localMesh_other S W ((apart_split h hw he).2 s hs) P))
      (only_iff.2 fun e he => congrArg Prod.snd (localMesh_other S W ((apart_split h hw he).2 s hs) P))) rfl

/-! ### Tables of faces and edges -/

/-- One edge in `byFaceP`. -/
def faceStep {α : Type} (g : Edg K → Sd → α) (gd : Dbnd K → α) (t : ℕ → ℕ → α) (x : PEdg K) : ℕ → ℕ → α :=
  match x with
  | .loc ed => ed.sides.foldl (fun t s e f => if e = s.e ∧ f = s.f then g ed s else t e f) t
  | .dist b => fun e f => if e = b.e ∧ f = b.f then gd b else t e f

/-- One edge in `byOwnP`. -/
def ownStep {α : Type} (g : Edg K → α) (gd : Dbnd K → α) (t : ℕ → ℕ → α) (x : PEdg K) : ℕ → ℕ → α :=
  match x with
  | .loc ed => fun e f => if e = ed.own.e ∧ f = ed.own.f then g ed else t e f
  | .dist b => fun e f => if e = b.e ∧ f = b.f then gd b else t e f

theorem set_same {α : Type} {t t' : ℕ → ℕ → α} {a b : ℕ} {v v' : α} (h : only m t = only m t') (hv : v = v') :
    only m (fun e f => if e = a ∧ f = b then v else t e f) = only m fun e f => if e = a ∧ f = b then v' else t' e f := by
  rw [only_iff] at h ⊢
  intro e he
  funext f
  rw [h e he, hv]

theorem set_other {α : Type} {t : ℕ → ℕ → α} {a b e : ℕ} {v : α} (h : e ≠ a) : (fun e f => if e = a ∧ f = b then v else t e f) e = t e := by
  funext f; exact if_neg fun h' => h h'.1

theorem byFace_sub {α : Type} (h : Apart W) (hw : W.meshes = A ++ [m] ++ B) {g g' : Edg K → Sd → α} {gd gd' : Dbnd K → α} {z : α}
    (hg : ∀ ed, .loc ed ∈ edgesP m → ∀ s ∈ ed.sides, g ed s = g' ed s) (hd : ∀ b, .dist b ∈ edgesP m → gd b = gd' b) :
    ∀ e ∈ m.elts, byFaceP W.meshes g gd z e = byFaceP [m] g' gd' z e := by
  have other : ∀ (x : PEdg K) e, e ∉ touch x → ∀ t : ℕ → ℕ → α, faceStep g gd t x e = t e := by
    intro x e hx t
    cases x with
    | loc ed => exact fold_const _ _ (fun P : ℕ → ℕ → α => P e) _ fun s hs t => set_other fun h => hx (List.mem_map.2 ⟨s, hs, h.symm⟩)
    | dist b => exact set_other fun h => hx (by simp [touch, h])
  rw [← only_iff]
  have := fold_mid (A.flatMap edgesP) (edgesP m) (B.flatMap edgesP) (faceStep g gd) (faceStep g' gd') (only m) (fun _ _ => z) (fun _ _ => z)
    (fun x hx t => only_iff.2 fun e he => by
      obtain ⟨s, hs, hx⟩ := List.mem_flatMap.1 hx
      exact other x e (((apart_split h hw he).1 s hs).2 x hx) t)
    (fun x hx t t' ht => by
      cases x with
      | loc ed => exact fold_same _ _ _ _ _ _ (fun s hs t t' ht => set_same ht (hg ed hx s hs)) ht
      | dist b => exact set_same ht (hd b hx))
    (fun x hx t => only_iff.2 fun e he => by
      obtain ⟨s, hs, hx⟩ := List.mem_flatMap.1 hx
      exact other x e (((apart_split h hw he).2 s hs).2 x hx) t) rfl
  show only m ((W.meshes.flatMap edgesP).foldl (faceStep g gd) fun _ _ => z) = only m (([m].flatMap edgesP).foldl (faceStep g' gd') fun _ _ => z)
  rw [hw]
  simpa only [List.flatMap_append, List.flatMap_singleton] using this

theorem byOwn_sub {α : Type} (h : Apart W) (hw : W.meshes = A ++ [m] ++ B) {g g' : Edg K → α} {gd gd' : Dbnd K → α} {z : α}
    (hg : ∀ ed, .loc ed ∈ edgesP m → g ed = g' ed) (hd : ∀ b, .dist b ∈ edgesP m → gd b = gd' b) :
    ∀ e ∈ m.elts, byOwnP W.meshes g gd z e = byOwnP [m] g' gd' z e := by
  have other : ∀ (x : PEdg K) e, e ∉ touch x → ∀ t : ℕ → ℕ → α, ownStep g gd t x e = t e := by
    intro x e hx t
    cases x with
    | loc ed => exact set_other fun h => hx (h ▸ own_touch ed)
    | dist b => exact set_other fun h => hx (by simp [touch, h])
  rw [← only_iff]
  have := fold_mid (A.flatMap edgesP) (edgesP m) (B.flatMap edgesP) (ownStep g gd) (ownStep g' gd') (only m) (fun _ _ => z) (fun _ _ => z)
    (fun x hx t => only_iff.2 fun e he => by
      obtain ⟨s, hs, hx⟩ := List.mem_flatMap.1 hx
      exact other x e (((apart_split h hw he).1 s hs).2 x hx) t)
    (fun x hx t t' ht => by
      cases x with
      | loc ed => exact set_same ht (hg ed hx)
      | dist b => exact set_same ht (hd b hx))
    (fun x hx t => only_iff.2 fun e he => by
      obtain ⟨s, hs, hx⟩ := List.mem_flatMap.1 hx
      exact other x e (((apart_split h hw he).2 s hs).2 x hx) t) rfl
  show only m ((W.meshes.flatMap edgesP).foldl (ownStep g gd) fun _ _ => z) = only m (([m].flatMap edgesP).foldl (ownStep g' gd') fun _ _ => z)
  rw [hw]
  simpa only [List.flatMap_append, List.flatMap_singleton] using this

/-- The blocks of a submesh are its part of the blocks of all. -/
theorem blocks_sub (h : Apart W) (hw : W.meshes = A ++ [m] ++ B) (ho : Own m it it') (h0 : ∀ e ∈ m.elts, q0 e = q0' e) (hp : ∀ e ∈ m.elts, prev e = prev' e) :
    OwnBlocks m (blocksP S W q0 prev it) (subBlocks S W q0' prev' it' m) := by
  have hl := local_sub S W h hw ho h0 hp
  have he := edges_own h hw
  have hq : ∀ ed : Edg K, .loc ed ∈ edgesP m → ∀ e ∈ touch (.loc ed), it.q e = it'.q e := fun ed hx e h => ho.q e (he _ hx e h)
  have ha : ∀ ed : Edg K, .loc ed ∈ edgesP m → it.at ed = it'.at ed := fun ed hx => congrFun (ho.hat _ (he _ hx _ (own_touch ed))) _
  have hb : ∀ b : Dbnd K, .dist b ∈ edgesP m → b.e ∈ m.elts := fun b hx => he _ hx _ (by simp [touch])
  refine ⟨only_iff.1 (congrArg Prod.fst hl), only_iff.1 (congrArg Prod.snd hl), ?_, ?_, ?_, ?_⟩
  · exact byFace_sub W h hw (fun ed hx s hs => by rw [ha ed hx, sideDh_congr S (hq ed hx _ (List.mem_map.2 ⟨s, hs, rfl⟩))])
      fun b hx => by rw [ho.hat _ (hb b hx), cutDh_congr S W (ho.q _ (hb b hx))]
  · exact byFace_sub W h hw (fun ed hx s hs => by rw [ha ed hx, sideDg_congr S (hq ed hx)]) fun b hx => by rw [ho.hat _ (hb b hx)]
  · exact byOwn_sub W h hw (fun ed hx => by rw [ha ed hx, edgeDhg_congr S (hq ed hx)]) fun b hx => by rw [ho.hat _ (hb b hx), cutHg_congr S W (ho.q _ (hb b hx))]
  · exact byOwn_sub W h hw (fun ed hx => by rw [ha ed hx, edgeRg_congr S (hq ed hx)]) fun b hx => by rw [ho.hat _ (hb b hx), cutHr_congr S W (ho.q _ (hb b hx))]

end

/-! ### The system -/

section
variable {I : Inverse K} {s : Skeleton}

theorem inverses_get {b : Blocks K} {l : List ℕ} {t : ℕ → ℕ → ℕ → K} (h : inverses I b s l = some t) : ∀ e ∈ l, I (s.size e) (b.dl e) = some (t e) := by
  induction l generalizing t with
  | nil => intro e he; simp at he
  | cons a l ih =>
    simp only [inverses, Option.bind_eq_bind, Option.bind_eq_some_iff, Option.pure_def, Option.some.injEq] at h
    obtain ⟨M, hM, t', ht, rfl⟩ := h
    intro e he
    by_cases hea : e = a
    · subst hea; simpa using hM
    · rw [Function.update_of_ne hea]
      exact ih ht e (by simpa [hea] using he)

theorem inverses_sub {b : Blocks K} {l : List ℕ} {t : ℕ → ℕ → ℕ → K} (h : ∀ e ∈ l, I (s.size e) (b.dl e) = some (t e)) :
    ∃ t', inverses I b s l = some t' ∧ ∀ e ∈ l, t' e = t e := by
  induction l with
  | nil => exact ⟨_, rfl, fun e he => by simp at he⟩
  | cons a l ih =>
    obtain ⟨t', h1, h2⟩ := ih fun e he => h e (by simp [he])
    refine ⟨Function.update t' a (t a), by simp [inverses, h a (by simp), h1], fun e he => ?_⟩
    by_cases hea : e = a
    · subst hea; simp
    · rw [Function.update_of_ne hea]
      exact h2 e (by simpa [hea] using he)

end

section
variable {m : Mesh K} {P : PSkeleton} {t : PNumbering} {b b' : PBlocks K} {inv inv' : ℕ → ℕ → ℕ → K} {x : PEdge}

theorem triplets_sub (hb : OwnBlocks m b b') (hi : ∀ e ∈ m.elts, inv e = inv' e) (hx : ∀ c ∈ x.faces, c.e ∈ m.elts) : tripletsP P t b inv x = tripletsP P t b' inv' x := by
  have ho : x.own.e ∈ m.elts := hx _ (Gn.Props.own_mem x)
  have h1 : ownP P b inv x = ownP P b' inv' x := by
    funext i j
    unfold ownP
    rw [hb.hg _ ho]
    congr 2
    exact List.map_congr_left fun c hc => by rw [hb.dg _ (hx c hc), hb.dh _ (hx c hc), hi _ (hx c hc)]
  unfold tripletsP
  rw [h1]
  show triplets _ _ _ ++ _ = triplets _ _ _ ++ _
  refine congrArg₂ _ rfl ?_
  refine List.flatMap_congr fun c hc => List.flatMap_congr fun f _ => ?_
  have h2 : conBlock P.sizes b.elt inv c f = conBlock P.sizes b'.elt inv' c f := by
    funext i j
    simp only [conBlock, PBlocks.elt, hb.dg _ (hx c hc), hb.dh _ (hx c hc), hi _ (hx c hc)]
  rw [h2]

theorem add_sub (hb : OwnBlocks m b b') (hi : ∀ e ∈ m.elts, inv e = inv' e) (hx : ∀ c ∈ x.faces, c.e ∈ m.elts) (v : ℕ → K) : addP P t b inv v x = addP P t b' inv' v x := by
  have ho : x.own.e ∈ m.elts := hx _ (Gn.Props.own_mem x)
  have h1 : ownRhsP P b inv x = ownRhsP P b' inv' x := by
    funext i
    unfold ownRhsP
    rw [hb.hr _ ho]
    congr 2
    exact List.map_congr_left fun c hc => by rw [hb.dg _ (hx c hc), hb.rl _ (hx c hc), hi _ (hx c hc)]
  funext r
  unfold addP
  rw [h1]

/-- One edge of `backP`. -/
def backStep (P : PSkeleton) (t : PNumbering) (b : PBlocks K) (x : ℕ → K) (s : (ℕ → ℕ → K) × (ℕ → ℕ → ℕ → K)) (y : PEdge × List ℕ) :
    (ℕ → ℕ → K) × (ℕ → ℕ → ℕ → K) :=
  (y.1.faces.foldl (fun r c => Function.update r c.e fun i => r c.e i - mulV (P.esz y.1) (b.dh c.e c.f) (partP t y.2 x y.1) i) s.1,
    fun e f => if e = y.1.own.e ∧ f = y.1.own.f then partP t y.2 x y.1 else s.2 e f)

/-- The part in a submesh. -/
def onlyW (m : Mesh K) (w : (ℕ → ℕ → K) × (ℕ → ℕ → ℕ → K)) := (only m w.1, only m w.2)

theorem back_same (hb : OwnBlocks m b b') {y : PEdge × List ℕ} (hy : ∀ c ∈ y.1.faces, c.e ∈ m.elts) (v : ℕ → K) {w w' : (ℕ → ℕ → K) × (ℕ → ℕ → ℕ → K)}
    (h : onlyW m w = onlyW m w') : onlyW m (backStep P t b v w y) = onlyW m (backStep P t b' v w' y) := by
  obtain ⟨h1, h2⟩ := Prod.mk.injEq _ _ _ _ ▸ h
  refine Prod.ext (fold_same _ _ _ (only m) _ _ (fun c hc r r' hr => ?_) h1) (set_same h2 rfl)
  exact upd_only hr (by rw [only_iff.1 hr _ (hy c hc), hb.dh _ (hy c hc)])

theorem back_other {y : PEdge × List ℕ} (hy : ∀ e ∈ m.elts, ∀ c ∈ y.1.faces, e ≠ c.e) (v : ℕ → K) (w : (ℕ → ℕ → K) × (ℕ → ℕ → ℕ → K)) :
    onlyW m (backStep P t b v w y) = onlyW m w := by
  refine Prod.ext (only_iff.2 fun e he => ?_) (only_iff.2 fun e he => set_other (hy e he _ (Gn.Props.own_mem _)))
  exact fold_const _ _ (fun r : ℕ → ℕ → K => r e) _ fun c hc r => Function.update_of_ne (hy e he c hc) _ _

theorem globals_length : (numberP P).globals.length = P.ranks.length := by
  have : ∀ (sent : ℕ → ℕ → ℕ) (R : List (List (List PEdge))) (s), (R.foldl (placeRank P sent) s).2.2.length = s.2.2.length + R.length := by
    intro sent R
    induction R with
    | nil => intro s; rfl
    | cons r R ih => intro s; rw [List.foldl_cons, ih]; simp [placeRank]; omega
  unfold numberP
  exact (this _ _ _).trans (by simp)

/-- A submesh at its place. -/
structure Pos (W : Cluster K) (m : Mesh K) where
  R1 : List (List (Mesh K))
  M1 : List (Mesh K)
  M2 : List (Mesh K)
  R2 : List (List (Mesh K))
  eq : W.ranks = R1 ++ (M1 ++ m :: M2) :: R2

theorem Pos.meshes {W : Cluster K} (p : Pos W m) : W.meshes = (p.R1.flatten ++ p.M1) ++ [m] ++ (p.M2 ++ p.R2.flatten) := by
  simp [Cluster.meshes, p.eq]

theorem withVec_sub (S : Scheme K) (W : Cluster K) (p : Pos W m) : ∃ A B : List (PEdge × List ℕ),
    withVec (skelP S W) (numberP (skelP S W)) = A ++ (subEdges m).map (fun y => (y, (numberP (skelP S W)).globals.getD p.R1.length [])) ++ B ∧
    (∀ y ∈ A, ∃ s ∈ p.R1.flatten ++ p.M1, y.1 ∈ subEdges s) ∧ ∀ y ∈ B, ∃ s ∈ p.M2 ++ p.R2.flatten, y.1 ∈ subEdges s := by
  have hl := globals_length (P := skelP S W)
  have hr : (skelP S W).ranks = p.R1.map (fun r => r.map subEdges) ++ ((p.M1.map subEdges) ++ subEdges m :: p.M2.map subEdges) :: p.R2.map (fun r => r.map subEdges) := by
    show W.ranks.map (fun r => r.map subEdges) = _
    rw [p.eq]; simp
  unfold withVec
  generalize (numberP (skelP S W)).globals = G at hl ⊢
  have hlt : p.R1.length < G.length := by rw [hl, hr]; simp
  have hG : G = G.take p.R1.length ++ G.getD p.R1.length [] :: G.drop (p.R1.length + 1) := by
    have : G.getD p.R1.length [] = G[p.R1.length] := by simp [List.getD, hlt]
    rw [this, ← List.drop_eq_getElem_cons hlt, List.take_append_drop]
  have far : ∀ (R : List (List (Mesh K))) (H : List (List ℕ)), ∀ y ∈ ((R.map fun r => r.map subEdges).zip H).flatMap (fun r => r.1.flatten.map fun y => (y, r.2)),
      ∃ s ∈ R.flatten, y.1 ∈ subEdges s := by
    intro R H y hy
    obtain ⟨a, ha, hy⟩ := List.mem_flatMap.1 hy
    obtain ⟨z, hz, rfl⟩ := List.mem_map.1 hy
    obtain ⟨r, hr, h'⟩ := List.mem_map.1 (List.of_mem_zip (a := a.1) (b := a.2) ha).1
    rw [← h'] at hz
    obtain ⟨l, hl, hz⟩ := List.mem_flatten.1 hz
    obtain ⟨s, hs, rfl⟩ := List.mem_map.1 hl
    exact ⟨s, List.mem_flatten.2 ⟨r, hr, hs⟩, hz⟩
  have near : ∀ (M : List (Mesh K)) (g : List ℕ), ∀ y ∈ (M.map subEdges).flatten.map (fun y => (y, g)), ∃ s ∈ M, y.1 ∈ subEdges s := by
    intro M g y hy
    obtain ⟨z, hz, rfl⟩ := List.mem_map.1 hy
    obtain ⟨l, hl, hz⟩ := List.mem_flatten.1 hz
    obtain ⟨s, hs, rfl⟩ := List.mem_map.1 hl
    exact ⟨s, hs, hz⟩
  generalize G.getD p.R1.length [] = g at hG ⊢
  refine ⟨((p.R1.map fun r => r.map subEdges).zip (G.take p.R1.length)).flatMap (fun r => r.1.flatten.map fun y => (y, r.2)) ++ (p.M1.map subEdges).flatten.map (fun y => (y, g)),
    (p.M2.map subEdges).flatten.map (fun y => (y, g)) ++ ((p.R2.map fun r => r.map subEdges).zip (G.drop (p.R1.length + 1))).flatMap (fun r => r.1.flatten.map fun y => (y, r.2)),
    ?_, ?_, ?_⟩
  · rw [hr]
    conv_lhs => rw [hG]
    rw [List.zip_append (by simp [hlt.le]), List.zip_cons_cons]
    simp
  · intro y hy
    rcases List.mem_append.1 hy with h | h
    · obtain ⟨s, hs, h⟩ := far _ _ y h; exact ⟨s, by simp only [List.mem_append]; exact .inl hs, h⟩
    · obtain ⟨s, hs, h⟩ := near _ _ y h; exact ⟨s, by simp only [List.mem_append]; exact .inr hs, h⟩
  · intro y hy
    rcases List.mem_append.1 hy with h | h
    · obtain ⟨s, hs, h⟩ := near _ _ y h; exact ⟨s, by simp only [List.mem_append]; exact .inl hs, h⟩
    · obtain ⟨s, hs, h⟩ := far _ _ y h; exact ⟨s, by simp only [List.mem_append]; exact .inr hs, h⟩

theorem subEdges_faces {s : Mesh K} {y : PEdge} (hy : y ∈ subEdges s) {c : Face} (hc : c ∈ y.faces) : ∃ x ∈ edgesP s, c.e ∈ touch x := by
  obtain ⟨x, hx, rfl⟩ := List.mem_map.1 hy
  exact ⟨x, hx, skel_touch hc⟩

/-- The changes of a submesh are its part of the changes of all. -/
theorem back_sub (S : Scheme K) (W : Cluster K) (h : Apart W) (p : Pos W m) (hb : OwnBlocks m b b') {v : ℕ → K} {w : (ℕ → ℕ → K) × (ℕ → ℕ → ℕ → K)}
    (hw : ((skelP S W).ranks.zip (numberP (skelP S W)).globals).foldlM (fun w r => r.1.flatten.foldlM (backP (skelP S W) (numberP (skelP S W)) b r.2 v) w)
      (b.rl, fun _ _ _ => 0) = some w) :
    ∃ w', (subEdges m).foldlM (backP (skelP S W) (numberP (skelP S W)) b' ((numberP (skelP S W)).globals.getD p.R1.length []) v) (b'.rl, fun _ _ _ => 0) = some w' ∧
      onlyW m w = onlyW m w' := by
  have he := edges_own h p.meshes
  obtain ⟨A, B, hAB, hA, hB⟩ := withVec_sub S W p
  set P := skelP S W
  set t := numberP P
  set gs := t.globals.getD p.R1.length []
  have h1 : (withVec P t).foldlM (fun w y => backP P t b y.2 v w y.1) (b.rl, fun _ _ _ => 0) = some w :=
    (foldlM_pairs List.flatten (fun gs w y => backP P t b gs v w y) _ _).symm.trans hw
  have h2 : (withVec P t).foldlM (fun w y => if t.sol y.1.own.e y.1.own.f + P.esz y.1 ≤ y.2.length then some (backStep P t b v w y) else none) (b.rl, fun _ _ _ => 0) = some w := h1
  rw [foldM_if] at h2
  split at h2
  swap
  · cases h2
  rename_i hc
  have h3 : (subEdges m).foldlM (backP P t b' gs v) (b'.rl, fun _ _ _ => 0) = ((subEdges m).foldlM
    (fun w y => if t.sol y.own.e y.own.f + P.esz y ≤ gs.length then some (backStep P t b' v w (y, gs)) else none) (b'.rl, fun _ _ _ => 0)) := rfl
  rw [h3, foldM_if, if_pos fun y hy => hc (y, gs) (by rw [hAB]; simp only [List.mem_append, List.mem_map]; exact .inl (.inr ⟨y, hy, rfl⟩))]
  refine ⟨_, rfl, ?_⟩
  rw [← Option.some.inj h2, hAB]
  have hmap : (subEdges m).foldl (fun w y => backStep P t b' v w (y, gs)) (b'.rl, fun _ _ _ => 0) =
      ((subEdges m).map fun y => (y, gs)).foldl (backStep P t b' v) (b'.rl, fun _ _ _ => 0) := by rw [List.foldl_map]
  rw [hmap]
  have far : ∀ L : List (Mesh K), (∀ e ∈ m.elts, ∀ s ∈ L, e ∉ s.elts ∧ ∀ x ∈ edgesP s, e ∉ touch x) → ∀ y : PEdge × List ℕ, (∃ s ∈ L, y.1 ∈ subEdges s) →
      ∀ w, onlyW m (backStep P t b v w y) = onlyW m w := by
    rintro L hL y ⟨s, hs, hy⟩ w
    refine back_other (fun e hem c hcf heq => ?_) v w
    obtain ⟨x, hx, hxc⟩ := subEdges_faces hy hcf
    exact (hL e hem s hs).2 x hx (heq ▸ hxc)
  refine fold_mid A _ B (backStep P t b v) (backStep P t b' v) (onlyW m) _ _ (fun y hy w => far _ (fun e hem => (apart_split h p.meshes hem).1) y (hA y hy) w) ?_
    (fun y hy w => far _ (fun e hem => (apart_split h p.meshes hem).2) y (hB y hy) w) (Prod.ext (only_iff.2 hb.rl) rfl)
  intro y hy w w' hww
  obtain ⟨z, hz, rfl⟩ := List.mem_map.1 hy
  refine back_same hb (fun c hc => ?_) v hww
  obtain ⟨x, hx, hxc⟩ := subEdges_faces hz hc
  exact he x hx _ hxc

end

end Verif.Ihdg.Props
