import Verif.Props.IhdgSteady
import Verif.Props.EhdgRun

/-!
# Lake at rest and uniform stream in the implicit scheme
-/

namespace Verif.Ihdg.Props
open Verif.Swe Verif.Swe.Props Verif.Geometry Verif.Geometry.Props Verif.Element Verif.Edge Verif.Edge.Props Verif.Ehdg Verif.Ehdg.Props Matrix

variable {S : Scheme ℝ} {P : ℕ} {U : Q ℝ} {it : Iter ℝ}

/-- A mesh of counterclockwise triangles without levees, each face of each element covered once; bathymetry continuous at the Gauss points of
interfaces; no projection, no source function. -/
structure FlowMesh (S : Scheme ℝ) (P : ℕ) : Prop where
  sqrt : IsSqrt S.v.sq
  sp : ∀ x, S.v.sp x = 1
  source : S.v.src.functionSource = true → ∀ t x, S.v.fs t x = ⟨0, 0, 0⟩
  nodup : S.m.elts.Nodup
  ccw : ∀ e ∈ S.m.elts, 0 < jdet (S.dat e).elt.tri
  degree : ∀ e ∈ S.m.elts, (S.dat e).elt.p ≤ P
  cover : ∀ e ∈ S.m.elts, (facesOf S.m e).Perm [0, 1, 2]
  ends : ∀ i ∈ S.m.ints, i.ein ∈ S.m.elts ∧ i.eex ∈ S.m.elts
  edges : ∀ i ∈ S.m.ints, Swe.Props.edge (S.dat i.eex).elt.tri i.fex =
    ⟨-(Swe.Props.edge (S.dat i.ein).elt.tri i.fin).x, -(Swe.Props.edge (S.dat i.ein).elt.tri i.fin).y⟩
  internal : ∀ i ∈ S.m.ints, i.kind = .internal
  bath : ∀ i ∈ S.m.ints, ∀ gp < (i.rule S.v S.dat).length,
    (S.dat i.ein).elt.value S.v.N (S.dat i.ein).bath (facePt (i.rule S.v S.dat) i.fin gp) =
      (S.dat i.eex).elt.value S.v.N (S.dat i.eex).bath (facePt (i.rule S.v S.dat) i.fex ((i.rule S.v S.dat).length - gp - 1))
  owner : ∀ b ∈ S.m.bnds, b.e ∈ S.m.elts

/-- The boundary agrees with the state `U`: no flow through land, and the forcing of the next time is that of `U`. -/
def Admits (S : Scheme ℝ) (U : Q ℝ) (b : Bnd ℝ) : Prop :=
  match b.kind with
  | .land => U.qx * (normal S.v.sq (S.dat b.e).elt.tri b.f).x + U.qy * (normal S.v.sq (S.dat b.e).elt.tri b.f).y = 0
  | .tide cs => ∀ gp, forcingIter S.v.cos S.rampn S.tn (cs gp) = U.ze
  | .flow cs => ∀ gp, forcingIter S.v.cos S.rampn S.tn (cs gp) * (normal S.v.sq (S.dat b.e).elt.tri b.f).x = U.qx ∧
      forcingIter S.v.cos S.rampn S.tn (cs gp) * (normal S.v.sq (S.dat b.e).elt.tri b.f).y = U.qy
  | .function => ∀ x, S.v.bcq S.tn x = U

/-- State and traces are `U` everywhere. -/
structure Everywhere (S : Scheme ℝ) (U : Q ℝ) (it : Iter ℝ) : Prop where
  q : Uniform S.dat S.m.elts U it.q
  hat : ∀ (k : ℕ) (hk : k < (edgesOf S.m).length), ∀ gp < (rule S (edgesOf S.m)[k]).length, hat S (edgesOf S.m)[k] (it.hat k) gp = U

theorem everywhere_same {it' : Iter ℝ} (h : Everywhere S U it) (hs : Same S it it') : Everywhere S U it' := by
  refine ⟨fun e he d hd a => by rw [hs.q e he d hd a, h.q e he d hd a], fun k hk gp hgp => ?_⟩
  rw [← h.hat k hk gp hgp]
  unfold Ihdg.hat
  congr 1
  funext a
  unfold ugp
  exact Finset.sum_congr rfl fun d hd => by rw [hs.hat k hk d (Finset.mem_range.1 hd) a]

/-- Constant traces, and the initial traces of the elements' state, are such. -/
theorem everywhere_const (hq : Uniform S.dat S.m.elts U it.q) (hh : ∀ k < (edgesOf S.m).length, it.hat k = constCoef U) : Everywhere S U it :=
  ⟨hq, fun k hk gp hgp => by rw [hh k hk, hat_const hgp]⟩

theorem mulQ_self (M : M3 ℝ) (q : Q ℝ) : mulQ M (q - q) = ⟨0, 0, 0⟩ := by
  have : q - q = ⟨0, 0, 0⟩ := by ext <;> simp [sub_ze, sub_qx, sub_qy]
  rw [this]
  ext <;> simp [mulQ, ofComp, Swe.comp, Matrix.mulVec, dotProduct, Fin.sum_univ_three]

section
variable {F : ℕ → MvPolynomial (Fin 2) ℝ} {ε : ℝ}

theorem side_value (hR : Rules S.v.N F P ε) (h : Everywhere S U it) {ed : Edg ℝ} {s : Sd} (hs : s.e ∈ S.m.elts) (gp : ℕ) : sideQ S it.q ed s gp = U :=
  stream_value (v := S.v) (m := S.m) hR h.q hs _

theorem opp_lt' {ed : Edg ℝ} (s : Sd) {gp : ℕ} (hgp : gp < (rule S ed).length) : opp S ed s gp < (rule S ed).length := by
  unfold opp; split <;> omega

/-- The trace flux of a uniform state. -/
theorem fhat_same (hR : Rules S.v.N F P ε) (h : Everywhere S U it) {k : ℕ} (hk : k < (edgesOf S.m).length) {s : Sd} (hs : s.e ∈ S.m.elts) {gp : ℕ}
    (hgp : gp < (rule S (edgesOf S.m)[k]).length) :
    fhat S it.q (edgesOf S.m)[k] (it.hat k) s gp =
      let B := bathAt S (edgesOf S.m)[k] (opp S (edgesOf S.m)[k] s gp)
      let F := fluxN S.v.src.g U ⟨B, U.ze + B, 1⟩ (nrm S (edgesOf S.m)[k])
      if s.ex then -F else F := by
  have hh := h.hat k hk _ (opp_lt' s hgp)
  unfold fhat hatAux
  simp only [hh, side_value hR h hs, mulQ_self]
  split <;> ext <;> simp [add_ze, add_qx, add_qy]

/-! ### The equations of the edges -/

theorem edge_zero (hR : Rules S.v.N F P ε) (hm : FlowMesh S P) (hb : ∀ b ∈ S.m.bnds, Admits S U b) (h : Everywhere S U it)
    (k : ℕ) (hk : k < (edgesOf S.m).length) (gp : ℕ) (hgp : gp < (rule S (edgesOf S.m)[k]).length) :
    gRhs S it.q (edgesOf S.m)[k] (it.hat k) gp = ⟨0, 0, 0⟩ := by
  have hmem := List.getElem_mem hk
  have hf := fun (s : Sd) (hs : s.e ∈ S.m.elts) (g : ℕ) (hg : g < (rule S (edgesOf S.m)[k]).length) => fhat_same hR h hk hs hg
  have hh := h.hat k hk gp hgp
  generalize hed : (edgesOf S.m)[k] = ed at *
  simp only [edgesOf, List.mem_append, List.mem_map] at hmem
  rcases hmem with ⟨i, hi, rfl⟩ | ⟨b, hbm, rfl⟩
  · simp only [gRhs, hm.internal i hi]
    rw [hf ⟨i.ein, i.fin, false⟩ (hm.ends i hi).1 _ hgp, hf ⟨i.eex, i.fex, true⟩ (hm.ends i hi).2 _ (by omega)]
    simp only [opp, Bool.false_eq_true, if_false, if_true, show (rule S (Edg.int i)).length - ((rule S (Edg.int i)).length - gp - 1) - 1 = gp by omega]
    ext <;> simp [add_ze, add_qx, add_qy]
  · have ha := hb b hbm
    have hq : sideQ S it.q (.bnd b) ⟨b.e, b.f, false⟩ gp = U := side_value hR h (hm.owner b hbm) gp
    have hopen : exterior S it.q b gp = U → b.kind ≠ .land → gRhs S it.q (.bnd b) (it.hat k) gp = ⟨0, 0, 0⟩ := by
      intro he hl
      have ht : traceAt (openOf S it.q b) (it.hat k) gp = U := hh
      have : kernelB S.v.sq S.v.src.g (openOf S it.q b) (it.hat k) gp = ⟨0, 0, 0⟩ := by
        have h1 : (openOf S it.q b).q gp = U := hq
        have h2 : (openOf S it.q b).qinf gp = U := he
        unfold kernelB
        simp only [ht, h1, h2, mulQ_self]
        ext <;> simp [sub_ze, sub_qx, sub_qy]
      cases hkd : b.kind with
      | land => exact absurd hkd hl
      | tide cs => simp only [gRhs, hkd]; exact this
      | flow cs => simp only [gRhs, hkd]; exact this
      | function => simp only [gRhs, hkd]; exact this
    unfold Admits at ha
    cases hkd : b.kind with
    | land =>
      simp only [gRhs, hkd, hq, hh, landRhs] at ha ⊢
      have : U.qx * (nrm S (Edg.bnd b)).x + U.qy * (nrm S (Edg.bnd b)).y = 0 := ha
      rw [this]
      ext <;> simp [sub_ze, sub_qx, sub_qy]
    | tide cs =>
      rw [hkd] at ha
      refine hopen ?_ (by rw [hkd]; simp)
      unfold exterior
      simp only [hkd, hq]
      rw [ha gp]
    | flow cs =>
      rw [hkd] at ha
      refine hopen ?_ (by rw [hkd]; simp)
      unfold exterior
      simp only [hkd, hq]
      have := ha gp
      change (⟨U.ze, forcingIter _ _ _ _ * (normal _ _ _).x, forcingIter _ _ _ _ * (normal _ _ _).y⟩ : Q ℝ) = U
      simp only [Edg.own]
      rw [this.1, this.2]
    | function =>
      rw [hkd] at ha
      refine hopen ?_ (by rw [hkd]; simp)
      unfold exterior
      simp only [hkd]
      exact ha _

/-! ### The equations of the elements, by comparison with the explicit scheme -/

/-- The same surroundings with `U` prescribed on all boundaries. -/
def pinned (S : Scheme ℝ) (U : Q ℝ) : Env ℝ := { S.v with bcq := fun _ _ => U }
def pinnedMesh (m : Mesh ℝ) : Mesh ℝ := { m with bnds := m.bnds.map fun b => ⟨b.e, b.f, .function⟩ }

theorem pinned_faces (m : Mesh ℝ) (e : ℕ) : facesOf (pinnedMesh m) e = facesOf m e := by
  unfold facesOf pinnedMesh
  simp only [List.flatMap_map]

theorem sum_zip {α : Type} (l : List α) (f : α → ℝ) : (l.zipIdx.map fun x => f x.1).sum = (l.map f).sum := by
  rw [show (fun x : α × ℕ => f x.1) = f ∘ Prod.fst from rfl, ← List.map_map, List.zipIdx_map_fst]

/-- If the fluxes of all faces agree, so do the right-hand sides. -/
theorem resid_explicit (hm : FlowMesh S P) (t : ℝ) {e : ℕ} (he : e ∈ S.m.elts) (i : ℕ) (a : Fin 3)
    (hin : ∀ k, ∀ x ∈ S.m.ints, (edgesOf S.m)[k]? = some (.int x) → ∀ gp < (x.rule S.v S.dat).length,
      Swe.comp (fhat S it.q (.int x) (it.hat k) ⟨x.ein, x.fin, false⟩ gp) a = Swe.comp (x.flux (pinned S U) S.dat (fun _ => true) it.q gp).1 a ∧
      Swe.comp (fhat S it.q (.int x) (it.hat k) ⟨x.eex, x.fex, true⟩ gp) a =
        Swe.comp (x.flux (pinned S U) S.dat (fun _ => true) it.q ((x.rule S.v S.dat).length - gp - 1)).2 a)
    (hbn : ∀ k, ∀ b ∈ S.m.bnds, (edgesOf S.m)[k]? = some (.bnd b) → ∀ gp < (faceRule S.v.N (S.dat b.e).elt.p).length,
      Swe.comp (fhat S it.q (.bnd b) (it.hat k) ⟨b.e, b.f, false⟩ gp) a =
        let z := facePt (faceRule S.v.N (S.dat b.e).elt.p) b.f gp
        let x := qAt S.v.N (S.dat b.e).elt (it.q b.e) z
        Swe.comp (llf S.v.sq S.v.src.g x U (Swe.auxAt S.v (S.dat b.e) x z (localToGlobal (S.dat b.e).elt.tri z)) (normal S.v.sq (S.dat b.e).elt.tri b.f)) a) :
    resid S it t e i a = localRhs (pinned S U) S.dat (pinnedMesh S.m) (fun _ => true) t 1 it.q (fun _ _ _ => 0) e a i := by
  rw [localRhs_at _ _ _ (show (pinnedMesh S.m).elts.Nodup from hm.nodup), if_pos (show e ∈ (pinnedMesh S.m).elts from he), if_pos rfl]
  have hv : Swe.volumeTerm (pinned S U) (S.dat e) (it.q e) a i =
      (S.dat e).elt.intDPhi S.v.N 0 (fun z => Swe.comp (fluxX S.v.src.g (inner S (S.dat e) (it.q e) z).1 (inner S (S.dat e) (it.q e) z).2) a) i +
      (S.dat e).elt.intDPhi S.v.N 1 (fun z => Swe.comp (fluxY S.v.src.g (inner S (S.dat e) (it.q e) z).1 (inner S (S.dat e) (it.q e) z).2) a) i := by
    unfold Swe.volumeTerm inner Swe.auxAt
    simp only [show ∀ x, (pinned S U).sp x = 1 from hm.sp, hm.sp, one_mul]
    rfl
  have hsr : Swe.sourceTerm (pinned S U) (S.dat e) t (it.q e) a i = (S.dat e).elt.intPhi S.v.N (fun z => Swe.comp (srcAt S (S.dat e) t (it.q e) z) a) i := rfl
  have hface : ((faceTerms (pinned S U) S.dat (pinnedMesh S.m) (fun _ => true) t 1 it.q e).map Prod.snd).sum a i =
      sideSum (edgesOf S.m).zipIdx e fun ed k s =>
        Elt.intFace S.v.N (rule S ed) s.f (surf S ed) (fun gp => Swe.comp (fhat S it.q ed (it.hat k) s gp) a) i := by
    have hsum : ∀ l : List (Fin 3 → ℕ → ℝ), l.sum a i = (l.map fun x => x a i).sum := by
      intro l; induction l with
      | nil => rfl
      | cons x l ih => simp only [List.sum_cons, List.map_cons, Pi.add_apply, ih]
    let G : Edg ℝ → ℝ := fun ed => match ed with
      | .int x => (((intTerms (pinned S U) S.dat (fun _ => true) it.q e x).map Prod.snd).map fun y => y a i).sum
      | .bnd b => (((bndTerms (pinned S U) S.dat (fun _ => true) t 1 it.q e ⟨b.e, b.f, .function⟩).map Prod.snd).map fun y => y a i).sum
    have hl : ((faceTerms (pinned S U) S.dat (pinnedMesh S.m) (fun _ => true) t 1 it.q e).map Prod.snd).sum a i = ((edgesOf S.m).map G).sum := by
      rw [hsum]
      unfold faceTerms edgesOf
      have hfm : ∀ {α β : Type} (l : List α) (f : α → List β) (g : β → ℝ), ((l.flatMap f).map g).sum = (l.map fun x => ((f x).map g).sum).sum := by
        intro α β l f g
        induction l with
        | nil => rfl
        | cons x l ih => simp [List.flatMap_cons, List.sum_append, ih]
      rw [List.map_map, List.map_append, List.sum_append, hfm, hfm, List.map_append, List.sum_append, List.map_map, List.map_map]
      simp only [pinnedMesh, List.map_map, Function.comp_def, G]
    rw [hl, ← sum_zip, sideSum]
    refine congrArg _ (List.map_congr_left fun x hx => ?_)
    obtain ⟨hk, hed⟩ := edge_get hx
    have hget : (edgesOf S.m)[x.2]? = some x.1 := by rw [List.getElem?_eq_getElem hk, hed]
    have hmem : x.1 ∈ edgesOf S.m := by rw [← hed]; exact List.getElem_mem hk
    obtain ⟨ed, k⟩ := x
    simp only [edgesOf, List.mem_append, List.mem_map] at hmem
    rcases hmem with ⟨x, hxm, rfl⟩ | ⟨b, hbm, rfl⟩
    · have h1 := hin k x hxm hget
      simp only [G, intTerms, Bool.or_true, if_true, Edg.sides]
      have e1 : x.inTerm (pinned S U) S.dat (fun _ => true) it.q a i =
          Elt.intFace S.v.N (rule S (.int x)) x.fin (surf S (.int x)) (fun gp => Swe.comp (fhat S it.q (.int x) (it.hat k) ⟨x.ein, x.fin, false⟩ gp) a) i :=
        face_congr _ _ _ _ (fun gp hgp => (h1 gp hgp).1.symm) i
      have e2 : x.exTerm (pinned S U) S.dat (fun _ => true) it.q a i =
          Elt.intFace S.v.N (rule S (.int x)) x.fex (surf S (.int x)) (fun gp => Swe.comp (fhat S it.q (.int x) (it.hat k) ⟨x.eex, x.fex, true⟩ gp) a) i :=
        face_congr _ _ _ _ (fun gp hgp => (h1 gp hgp).2.symm) i
      by_cases c1 : x.ein = e <;> by_cases c2 : x.eex = e <;> simp [c1, c2, e1, e2]
    · have h1 := hbn k b hbm hget
      simp only [G, bndTerms, if_true, Edg.sides]
      have e1 : (⟨b.e, b.f, .function⟩ : Bnd ℝ).term (pinned S U) S.dat t 1 it.q a i =
          Elt.intFace S.v.N (rule S (.bnd b)) b.f (surf S (.bnd b)) (fun gp => Swe.comp (fhat S it.q (.bnd b) (it.hat k) ⟨b.e, b.f, false⟩ gp) a) i :=
        face_congr _ _ _ _ (fun gp hgp => (h1 gp hgp).symm) i
      by_cases c1 : b.e = e <;> simp [c1]
      all_goals subst_vars; simp_all
  rw [Pi.sub_apply, Pi.sub_apply, Pi.add_apply, Pi.add_apply, hv, hsr, hface, resid]

theorem get_lt {k : ℕ} {ed : Edg ℝ} (h : (edgesOf S.m)[k]? = some ed) : ∃ hk : k < (edgesOf S.m).length, (edgesOf S.m)[k] = ed := by
  obtain ⟨hk, he⟩ := List.getElem?_eq_some_iff.1 h
  exact ⟨hk, he⟩

/-- The trace fluxes of a uniform state: the physical flux with the own bathymetry and the own normal. -/
theorem fhat_in (hR : Rules S.v.N F P ε) (hm : FlowMesh S P) (h : Everywhere S U it) {k : ℕ} {x : Iface ℝ} (hx : x ∈ S.m.ints)
    (hk : (edgesOf S.m)[k]? = some (.int x)) {gp : ℕ} (hgp : gp < (x.rule S.v S.dat).length) :
    (fhat S it.q (.int x) (it.hat k) ⟨x.ein, x.fin, false⟩ gp =
      let B := (S.dat x.ein).elt.value S.v.N (S.dat x.ein).bath (facePt (x.rule S.v S.dat) x.fin gp)
      fluxN S.v.src.g U ⟨B, U.ze + B, 1⟩ (normal S.v.sq (S.dat x.ein).elt.tri x.fin)) ∧
    (fhat S it.q (.int x) (it.hat k) ⟨x.eex, x.fex, true⟩ gp =
      let B := (S.dat x.eex).elt.value S.v.N (S.dat x.eex).bath (facePt (x.rule S.v S.dat) x.fex gp)
      fluxN S.v.src.g U ⟨B, U.ze + B, 1⟩ (normal S.v.sq (S.dat x.eex).elt.tri x.fex)) := by
  obtain ⟨hk', he⟩ := get_lt hk
  obtain ⟨h1, h2⟩ := hm.ends x hx
  have hf := fun (s : Sd) (hs : s.e ∈ S.m.elts) (g : ℕ) (hg : g < (rule S (edgesOf S.m)[k]).length) => fhat_same hR h hk' hs hg
  rw [he] at hf
  have hlen : (rule S (.int x)).length = (x.rule S.v S.dat).length := rfl
  have hb := fun g hg => hm.bath x hx g hg
  have hbath : ∀ g < (x.rule S.v S.dat).length, bathAt S (.int x) g = (S.dat x.ein).elt.value S.v.N (S.dat x.ein).bath (facePt (x.rule S.v S.dat) x.fin g) := by
    intro g hg
    have := hb g hg
    simp only [bathAt, bathHat, sideBath]
    change (_ + (S.dat x.eex).elt.value S.v.N (S.dat x.eex).bath (facePt (x.rule S.v S.dat) x.fex ((x.rule S.v S.dat).length - g - 1))) / 2 = _
    rw [← this]
    change ((S.dat x.ein).elt.value S.v.N (S.dat x.ein).bath (facePt (x.rule S.v S.dat) x.fin g) + _) / 2 = _
    ring
  refine ⟨?_, ?_⟩
  · rw [hf ⟨x.ein, x.fin, false⟩ h1 gp hgp]
    simp only [opp, Bool.false_eq_true, if_false]
    rw [hbath gp hgp]
    rfl
  · have hn := (opposite (v := S.v) (hm.ccw _ h1) (hm.ccw _ h2) (hm.edges x hx)).1
    rw [hf ⟨x.eex, x.fex, true⟩ h2 gp hgp]
    simp only [opp, if_true]
    rw [hlen, hbath _ (by omega), hb _ (by omega), show (x.rule S.v S.dat).length - ((x.rule S.v S.dat).length - gp - 1) - 1 = gp by omega, hn]
    simp only [nrm, Edg.own, fluxN]
    ext <;> simp <;> ring

theorem fhat_bnd (hR : Rules S.v.N F P ε) (hm : FlowMesh S P) (h : Everywhere S U it) {k : ℕ} {b : Bnd ℝ} (hb : b ∈ S.m.bnds)
    (hk : (edgesOf S.m)[k]? = some (.bnd b)) {gp : ℕ} (hgp : gp < (faceRule S.v.N (S.dat b.e).elt.p).length) :
    fhat S it.q (.bnd b) (it.hat k) ⟨b.e, b.f, false⟩ gp =
      let B := (S.dat b.e).elt.value S.v.N (S.dat b.e).bath (facePt (faceRule S.v.N (S.dat b.e).elt.p) b.f gp)
      fluxN S.v.src.g U ⟨B, U.ze + B, 1⟩ (normal S.v.sq (S.dat b.e).elt.tri b.f) := by
  obtain ⟨hk', he⟩ := get_lt hk
  have hf := fun (s : Sd) (hs : s.e ∈ S.m.elts) (g : ℕ) (hg : g < (rule S (edgesOf S.m)[k]).length) => fhat_same hR h hk' hs hg
  rw [he] at hf
  rw [hf ⟨b.e, b.f, false⟩ (hm.owner b hb) gp hgp]
  rfl

/-! ### Lake at rest -/

theorem rest_uniform {dat : ℕ → EltData ℝ} {elts : List ℕ} {L : ℝ} {q : State ℝ} (h : Uniform dat elts ⟨L, 0, 0⟩ q) : AtRest dat elts L q := by
  intro e he d hd
  have := h e he d hd
  refine ⟨by rw [this 0]; simp [Swe.comp], by rw [this 1]; simp [Swe.comp], by rw [this 2]; simp [Swe.comp]⟩

theorem rest_mesh (hm : FlowMesh S P) (L t : ℝ) : RestMesh (pinned S ⟨L, 0, 0⟩) S.dat (pinnedMesh S.m) P L t 1 where
  sqrt := hm.sqrt
  sp := hm.sp
  source h x := hm.source h t x
  nodup := hm.nodup
  ccw := hm.ccw
  degree := hm.degree
  cover e he := by rw [pinned_faces]; exact hm.cover e he
  ends := hm.ends
  edges := hm.edges
  bath i hi _ gp hgp := hm.bath i hi gp hgp
  owner b hb := by
    obtain ⟨b', hb', rfl⟩ := List.mem_map.1 hb
    exact hm.owner b' hb'
  quiet b hb := by
    obtain ⟨b', hb', rfl⟩ := List.mem_map.1 hb
    intro _; rfl

theorem sqrt_zero {sq : ℝ → ℝ} (h : IsSqrt sq) : sq 0 = 0 := mul_self_eq_zero.1 (h 0 le_rfl).2

theorem rest_fluxN (g L B : ℝ) (n : P2 ℝ) : fluxN g ⟨L, 0, 0⟩ ⟨B, L + B, 1⟩ n = ⟨0, g * (L ^ 2 / 2 + L * B) * n.x, g * (L ^ 2 / 2 + L * B) * n.y⟩ := by
  ext <;> simp [fluxN, pe]

theorem rest_resid {L : ℝ} (hR : Rules S.v.N F P 0) (hm : FlowMesh S P) (h : Everywhere S ⟨L, 0, 0⟩ it) (t : ℝ) {e : ℕ} (he : e ∈ S.m.elts) {i : ℕ}
    (hi : i < ndof (S.dat e).elt.p) (a : Fin 3) : resid S it t e i a = 0 := by
  have hq : AtRest S.dat (pinnedMesh S.m).elts L it.q := rest_uniform h.q
  have hM := rest_mesh hm L t
  have hR' : Rules (pinned S ⟨L, 0, 0⟩).N F P 0 := hR
  rw [resid_explicit (U := ⟨L, 0, 0⟩) hm t he i a]
  · exact rest_rhs hR' hM hq (fun _ _ => rfl) _ he hi a
  · intro k x hx hk gp hgp
    obtain ⟨h1, h2⟩ := fhat_in hR hm h hx hk hgp
    rw [h1, h2, rest_flux_in hR' hM hq (show x ∈ (pinnedMesh S.m).ints from hx), show x.rule S.v S.dat = x.rule (pinned S ⟨L, 0, 0⟩) S.dat from rfl,
      rest_flux_ex hR' hM hq (show x ∈ (pinnedMesh S.m).ints from hx) hgp]
    simp only [rest_fluxN]
    exact ⟨rfl, rfl⟩
  · intro k b hb hk gp hgp
    rw [fhat_bnd hR hm h hb hk hgp]
    simp only [rest_fluxN, rest_value (m := pinnedMesh S.m) hR hq (show b.e ∈ (pinnedMesh S.m).elts from hm.owner b hb)]
    rw [rest_llf _ _ _ _ (hm.sp _)]
    rfl

/-- C86: a lake at rest solves the equations of the step, -/
theorem rest_step {L : ℝ} (hR : Rules S.v.N F P 0) (hm : FlowMesh S P) (hb : ∀ b ∈ S.m.bnds, Admits S ⟨L, 0, 0⟩ b) (h : Everywhere S ⟨L, 0, 0⟩ it) :
    StepEq S it it where
  elt e he i hi a := by
    rw [rest_resid hR hm h S.tn he hi a, rest_resid hR hm h S.t he hi a]
    simp [Elt.intPhi]
  edge := edge_zero hR hm hb h

/-- and stays at rest. -/
theorem rest_stage {L : ℝ} (hR : Rules S.v.N F P 0) (hm : FlowMesh S P) (hz : ZeroOnZero S.slv) (hw : WellFormed (skel S))
    (hb : ∀ b ∈ S.m.bnds, Admits S ⟨L, 0, 0⟩ b) (h : Everywhere S ⟨L, 0, 0⟩ it) {it' : Iter ℝ} (hs : stage S it = some it') : Everywhere S ⟨L, 0, 0⟩ it' :=
  everywhere_same h (stage_fixed hz hw (sqrt_zero hm.sqrt) (rest_step hR hm hb h) hs)

/-! ### Uniform stream -/

/-- Flat bed of depth `b`, no friction. -/
structure FlatBed (S : Scheme ℝ) (U : Q ℝ) (b : ℝ) : Prop where
  friction : S.v.src.bottomFriction = false
  bed : ∀ e ∈ S.m.elts, ∀ d < ndof (S.dat e).elt.p, (S.dat e).bath d = if d = 0 then b else 0
  wet : 0 < U.ze + b

theorem stream_mesh (hm : FlowMesh S P) {b : ℝ} (hf : FlatBed S U b) (t : ℝ) : StreamMesh (pinned S U) S.dat (pinnedMesh S.m) P U b t 1 where
  sqrt := hm.sqrt
  sp := hm.sp
  source h x := hm.source h t x
  friction := hf.friction
  nodup := hm.nodup
  ccw := hm.ccw
  degree := hm.degree
  cover e he := by rw [pinned_faces]; exact hm.cover e he
  ends := hm.ends
  edges := hm.edges
  internal := hm.internal
  bed := hf.bed
  wet := hf.wet
  owner b hb := by
    obtain ⟨b', hb', rfl⟩ := List.mem_map.1 hb
    exact hm.owner b' hb'
  follows b hb := by
    obtain ⟨b', hb', rfl⟩ := List.mem_map.1 hb
    intro _; rfl

theorem stream_fluxN (v : Env ℝ) (b : ℝ) (n : P2 ℝ) (a : Fin 3) :
    Swe.comp (fluxN v.src.g U ⟨b, U.ze + b, 1⟩ n) a = sx v U b a * n.x + sy v U b a * n.y := by
  fin_cases a <;> simp [Swe.comp, fluxN, sx, sy, fluxX, fluxY]

theorem stream_resid {b : ℝ} (hR : Rules S.v.N F P 0) (hm : FlowMesh S P) (hf : FlatBed S U b) (h : Everywhere S U it) (t : ℝ) {e : ℕ} (he : e ∈ S.m.elts)
    {i : ℕ} (hi : i < ndof (S.dat e).elt.p) (a : Fin 3) : resid S it t e i a = 0 := by
  have hq : Uniform S.dat (pinnedMesh S.m).elts U it.q := h.q
  have hM := stream_mesh hm hf t
  have hR' : Rules (pinned S U).N F P 0 := hR
  rw [resid_explicit (U := U) hm t he i a]
  · exact stream_rhs hR' hM hq (fun _ _ => rfl) _ he hi a
  · intro k x hx hk gp hgp
    obtain ⟨h1, h2⟩ := fhat_in hR hm h hx hk hgp
    obtain ⟨m1, m2⟩ := hm.ends x hx
    have s1 := stream_flux (wet := fun _ => true) hR' hM hq (fun _ _ => rfl) (show x ∈ (pinnedMesh S.m).ints from hx) gp a
    have s2 := stream_flux (wet := fun _ => true) hR' hM hq (fun _ _ => rfl) (show x ∈ (pinnedMesh S.m).ints from hx) ((x.rule S.v S.dat).length - gp - 1) a
    rw [h1, h2, s1.1, s2.2]
    simp only [const_value hR (hf.bed _ m1), const_value hR (hf.bed _ m2)]
    exact ⟨stream_fluxN S.v b _ a, stream_fluxN S.v b _ a⟩
  · intro k x hx hk gp hgp
    rw [fhat_bnd hR hm h hx hk hgp]
    have ho : x.e ∈ S.m.elts := hm.owner x hx
    simp only [const_value hR (hf.bed _ ho), stream_value (m := S.m) hR h.q ho, Swe.auxAt, hm.sp]
    rw [stream_fluxN, stream_llf]

theorem stream_step {b : ℝ} (hR : Rules S.v.N F P 0) (hm : FlowMesh S P) (hf : FlatBed S U b) (hb : ∀ b ∈ S.m.bnds, Admits S U b) (h : Everywhere S U it) :
    StepEq S it it where
  elt e he i hi a := by
    rw [stream_resid hR hm hf h S.tn he hi a, stream_resid hR hm hf h S.t he hi a]
    simp [Elt.intPhi]
  edge := edge_zero hR hm hb h

theorem stream_stage {b : ℝ} (hR : Rules S.v.N F P 0) (hm : FlowMesh S P) (hf : FlatBed S U b) (hz : ZeroOnZero S.slv) (hw : WellFormed (skel S))
    (hb : ∀ b ∈ S.m.bnds, Admits S U b) (h : Everywhere S U it) {it' : Iter ℝ} (hs : stage S it = some it') : Everywhere S U it' :=
  everywhere_same h (stage_fixed hz hw (sqrt_zero hm.sqrt) (stream_step hR hm hf hb h) hs)

/-! ### Any number of steps -/

/-- The scheme at step `n`. -/
def atStep (S : Scheme ℝ) (time ramp : ℕ → ℝ) (n : ℕ) : Scheme ℝ := { S with t := time n, tn := time (n + 1), rampn := ramp (n + 1) }

theorem everywhere_time (h : Everywhere S U it) (time ramp : ℕ → ℝ) (n : ℕ) : Everywhere (atStep S time ramp n) U it := ⟨h.q, h.hat⟩

theorem everywhere_back {time ramp : ℕ → ℝ} {n : ℕ} (h : Everywhere (atStep S time ramp n) U it) : Everywhere S U it := ⟨h.q, h.hat⟩

theorem flow_time (h : FlowMesh S P) (time ramp : ℕ → ℝ) (n : ℕ) : FlowMesh (atStep S time ramp n) P :=
  ⟨h.sqrt, h.sp, h.source, h.nodup, h.ccw, h.degree, h.cover, h.ends, h.edges, h.internal, h.bath, h.owner⟩

theorem steps_keep {time ramp : ℕ → ℝ}
    (hst : ∀ n (it it' : Iter ℝ), Everywhere S U it → stage (atStep S time ramp n) it = some it' → Everywhere S U it')
    (n : ℕ) (h : Everywhere S U it) {it' : Iter ℝ} (hs : steps S time ramp n it = some it') : Everywhere S U it' := by
  induction n generalizing it' with
  | zero => cases hs; exact h
  | succ n ih =>
    rw [steps] at hs
    obtain ⟨i1, h1, h2⟩ := Option.bind_eq_some_iff.1 hs
    exact hst n i1 it' (ih h1) h2

/-- C86: a lake at rest stays at rest in any number of implicit steps of either order. -/
theorem rest_steps {L : ℝ} (hR : Rules S.v.N F P 0) (hm : FlowMesh S P) (hz : ZeroOnZero S.slv) (hw : WellFormed (skel S)) {time ramp : ℕ → ℝ}
    (hb : ∀ n, ∀ b ∈ S.m.bnds, Admits (atStep S time ramp n) ⟨L, 0, 0⟩ b) (n : ℕ) (h : Everywhere S ⟨L, 0, 0⟩ it) {it' : Iter ℝ}
    (hs : steps S time ramp n it = some it') : Everywhere S ⟨L, 0, 0⟩ it' :=
  steps_keep (fun n _ _ hi h' => everywhere_back (rest_stage (S := atStep S time ramp n) hR (flow_time hm time ramp n) hz hw (hb n)
    (everywhere_time hi time ramp n) h')) n h hs

/-- C86: so does a uniform stream. -/
theorem stream_steps {b : ℝ} (hR : Rules S.v.N F P 0) (hm : FlowMesh S P) (hf : FlatBed S U b) (hz : ZeroOnZero S.slv) (hw : WellFormed (skel S))
    {time ramp : ℕ → ℝ} (hb : ∀ n, ∀ b ∈ S.m.bnds, Admits (atStep S time ramp n) U b) (n : ℕ) (h : Everywhere S U it) {it' : Iter ℝ}
    (hs : steps S time ramp n it = some it') : Everywhere S U it' :=
  steps_keep (fun n _ _ hi h' => everywhere_back (stream_stage (S := atStep S time ramp n) hR (flow_time hm time ramp n)
    ⟨hf.friction, hf.bed, hf.wet⟩ hz hw (hb n) (everywhere_time hi time ramp n) h')) n h hs

/-! ### With bottom friction the step fails at rest -/

/-- C86: with bottom friction the derivative of the source is 0 / 0 in still water, so that the step of a lake at rest does not produce numbers. -/
theorem rest_friction {L : ℝ} (hR : Rules S.v.N F P ε) (hq0 : S.v.sq 0 = 0) (hfr : S.v.src.bottomFriction = true) (hq : Uniform S.dat S.m.elts ⟨L, 0, 0⟩ it.q)
    {e : ℕ} (he : e ∈ S.m.elts) (hg : (S.dat e).elt.gps S.v.N ≠ []) : stage S it = none := by
  have hfin : finite S it.q = false := by
    rw [← Bool.not_eq_true]
    intro h
    unfold finite at h
    have h1 := List.all_eq_true.1 h e he
    obtain ⟨wz, hwz⟩ := List.exists_mem_of_ne_nil _ hg
    have h2 := List.all_eq_true.1 h1 wz hwz
    simp only [inner, stream_value (m := S.m) hR hq he, dsource, hfr, if_true] at h2
    by_cases hh : (Swe.auxAt S.v (S.dat e) ⟨L, 0, 0⟩ wz.2 (localToGlobal (S.dat e).elt.tri wz.2)).h = 0
    · simp [fdiv, hh] at h2
    · simp [fdiv, hh, hypot, hq0] at h2
  unfold stage
  rw [show (100 : ℕ) = 99 + 1 from rfl, iterate, newton, if_neg (by rw [hfin]; simp)]
  rfl

end

end Verif.Ihdg.Props
