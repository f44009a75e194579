import Verif.Model.EhdgParallel
import Verif.Props.Parallel
import Verif.Props.EhdgRun

/-!
# C98: the partitioned program computes what the serial program computes, explicit hybridized discretization

Every partition, state and wet/dry pattern; the bathymetry may jump at the interfaces that are cut, and the projection factor is any function.
-/

namespace Verif.Ehdg.Props
open Verif.Swe Verif.Geometry Verif.Geometry.Props Verif.Element Verif.Ehdg Verif.Swe.Props

variable {K : Type} [Field K] [LinearOrder K] [IsStrictOrderedRing K]

/-- What is required of the elements at a cut: equal degrees, counterclockwise, opposite edge vectors; no levee, for which the code computes nothing (C78). -/
structure Meets (dat : ℕ → EltData K) (i : Iface K) : Prop where
  degree : (dat i.ein).elt.p = (dat i.eex).elt.p
  ccwIn : 0 < jdet (dat i.ein).elt.tri
  ccwEx : 0 < jdet (dat i.eex).elt.tri
  edges : faceVec (dat i.eex).elt.tri i.fex = ⟨-(faceVec (dat i.ein).elt.tri i.fin).x, -(faceVec (dat i.ein).elt.tri i.fin).y⟩
  kind : i.kind = .internal

variable {v : Env K} {dat : ℕ → EltData K} {i : Iface K}

theorem meets_rule (h : Meets dat i) : i.rule v dat = faceRule v.N (dat i.ein).elt.p ∧ i.rule v dat = faceRule v.N (dat i.eex).elt.p := by
  unfold Iface.rule
  rw [h.degree, max_self]
  exact ⟨rfl, rfl⟩

theorem meets_normal (h : Meets dat i) : normal v.sq (dat i.eex).elt.tri i.fex = opp (normal v.sq (dat i.ein).elt.tri i.fin) := by
  rw [normal_vec v.sq h.ccwEx, normal_vec v.sq h.ccwIn, h.edges]
  simp only [opp, hypot, neg_mul_neg, neg_neg, neg_div]

theorem meets_J (h : Meets dat i) : surfaceJ v.sq (dat i.eex).elt.tri i.fex = i.J v dat := by
  unfold Iface.J
  rw [J_vec, J_vec, h.edges]
  simp

theorem decode_state (v : Env K) (dat : ℕ → EltData K) (wet : ℕ → Bool) (q : State K) (e f : ℕ) : decodeWet (stateMessage v dat wet q e f) = .ok (wet e) := by
  unfold decodeWet stateMessage encode idx
  cases wet e <;> simp

/-- The kernel of the interior half. -/
theorem ehdg_kernel_in (h : Meets dat i) (wet : ℕ → Bool) (q : State K) (x : Faces K) (junkD : Dbnd K → ℕ → Q K) (rhs : State K) :
    Ehdg.dboundKernel v dat wet q junkD rhs ⟨i.ein, i.fin, i.eex, i.fex, i.kind⟩ =
      .ok (if wet i.ein || wet i.eex then subAt rhs i.ein (Ehdg.inTerm v dat wet q x i) else rhs) := by
  obtain ⟨r1, r2⟩ := meets_rule (v := v) h
  have key : ∀ gp < (i.rule v dat).length, Ehdg.dbndFlux v dat wet q junkD ⟨i.ein, i.fin, i.eex, i.fex, i.kind⟩ (bathMessage v dat i.eex i.fex)
      (stateMessage v dat wet q i.eex i.fex) gp = .ok (if wet i.ein || wet i.eex then some ((faceFlux v dat wet q x i).1 gp) else none) := by
    intro gp hg
    obtain ⟨⟨b, h1, h2⟩, -⟩ := distributed_messages v.sq v.src.g (i.rule v dat).length (normal v.sq (dat i.ein).elt.tri i.fin) (wet i.ein) (wet i.eex)
      (fun gp => (i.inside v dat wet q gp).q) (fun gp => (i.outside v dat wet q gp).q) (fun gp => (i.inside v dat wet q gp).aux.bath)
      (fun gp => (i.outside v dat wet q gp).aux.bath) (x.junkIn i) (x.junkEx i) hg
    unfold Ehdg.dbndFlux faceFlux
    simp only [h.kind]
    unfold bathMessage stateMessage
    simp only [← r1, ← r2]
    have e1 : bathHatDist (i.rule v dat).length (fun gp => (dat i.ein).elt.value v.N (dat i.ein).bath (facePt (i.rule v dat) i.fin gp))
      ((List.range (i.rule v dat).length).map fun gp => (dat i.eex).elt.value v.N (dat i.eex).bath (facePt (i.rule v dat) i.fex gp)) gp = .ok b := h1
    rw [e1, res_bind]
    exact h2
  unfold Ehdg.dboundKernel
  simp only
  rw [decode_state, ← r1, sequence_ok _ _ _ key]
  simp only [res_bind]
  by_cases hc : (wet i.ein || wet i.eex) = true
  · rw [if_pos hc, if_pos hc]
    show Except.ok _ = Except.ok _
    congr 2
    funext var dof
    unfold Ehdg.inTerm Iface.J
    refine intFace_congr _ _ _ _ (fun gp hg => ?_) dof
    simp [hc, List.getD_eq_getElem?_getD, hg]
  · rw [if_neg hc, if_neg hc]; rfl

/-- The kernel of the exterior half. -/
theorem ehdg_kernel_ex (h : Meets dat i) (wet : ℕ → Bool) (q : State K) (x : Faces K) (junkD : Dbnd K → ℕ → Q K) (rhs : State K) :
    Ehdg.dboundKernel v dat wet q junkD rhs ⟨i.eex, i.fex, i.ein, i.fin, Swe.Props.turned (i.rule v dat).length i.kind⟩ =
      .ok (if wet i.ein || wet i.eex then subAt rhs i.eex (Ehdg.exTerm v dat wet q x i) else rhs) := by
  obtain ⟨r1, r2⟩ := meets_rule (v := v) h
  have key : ∀ gp < (i.rule v dat).length, Ehdg.dbndFlux v dat wet q junkD ⟨i.eex, i.fex, i.ein, i.fin, Swe.Props.turned (i.rule v dat).length i.kind⟩
      (bathMessage v dat i.ein i.fin) (stateMessage v dat wet q i.ein i.fin) gp =
        .ok (if wet i.ein || wet i.eex then some ((faceFlux v dat wet q x i).2 gp) else none) := by
    intro gp hg
    obtain ⟨-, b, h1, h2⟩ := distributed_messages v.sq v.src.g (i.rule v dat).length (normal v.sq (dat i.ein).elt.tri i.fin) (wet i.ein) (wet i.eex)
      (fun gp => (i.inside v dat wet q gp).q) (fun gp => (i.outside v dat wet q gp).q) (fun gp => (i.inside v dat wet q gp).aux.bath)
      (fun gp => (i.outside v dat wet q gp).aux.bath) (x.junkIn i) (x.junkEx i) (gp := (i.rule v dat).length - gp - 1) (by omega)
    rw [show (i.rule v dat).length - ((i.rule v dat).length - gp - 1) - 1 = gp by omega] at h1 h2
    unfold Ehdg.dbndFlux faceFlux
    simp only [h.kind, Swe.Props.turned]
    unfold bathMessage stateMessage
    simp only [← r1, ← r2, meets_normal h]
    have e1 : bathHatDist (i.rule v dat).length (fun gp => (dat i.eex).elt.value v.N (dat i.eex).bath (facePt (i.rule v dat) i.fex gp))
      ((List.range (i.rule v dat).length).map fun gp => (dat i.ein).elt.value v.N (dat i.ein).bath (facePt (i.rule v dat) i.fin gp)) gp = .ok b := h1
    rw [e1, res_bind]
    exact h2
  unfold Ehdg.dboundKernel
  simp only
  rw [decode_state, ← r2, sequence_ok _ _ _ key]
  simp only [res_bind, Bool.or_comm (wet i.eex)]
  by_cases hc : (wet i.ein || wet i.eex) = true
  · rw [if_pos hc, if_pos hc]
    show Except.ok _ = Except.ok _
    congr 2
    funext var dof
    rw [meets_J h]
    unfold Ehdg.exTerm
    refine intFace_congr _ _ _ _ (fun gp hg => ?_) dof
    simp [hc, List.getD_eq_getElem?_getD, hg]
  · rw [if_neg hc, if_neg hc]; rfl

/-! ### The right-hand side -/

/-- What an interface subtracts from element `e`. -/
def eInt (v : Env K) (dat : ℕ → EltData K) (wet : ℕ → Bool) (q : State K) (x : Faces K) (e : ℕ) (i : Iface K) : Fin 3 → ℕ → K :=
  if wet i.ein || wet i.eex then (if i.ein = e then Ehdg.inTerm v dat wet q x i else 0) + if i.eex = e then Ehdg.exTerm v dat wet q x i else 0 else 0

/-- What a boundary subtracts from element `e`. -/
def eBnd (v : Env K) (dat : ℕ → EltData K) (wet : ℕ → Bool) (q : State K) (x : Faces K) (e : ℕ) (b : Bnd K) : Fin 3 → ℕ → K :=
  if wet b.e then (if b.e = e then Ehdg.bndTerm v dat q x b else 0) else 0

omit [IsStrictOrderedRing K] in
theorem fold_at {α : Type} (f : State K → α → State K) (x : α → Fin 3 → ℕ → K) (e : ℕ) (h : ∀ r a, f r a e = r e - x a) (l : List α) (r : State K) :
    l.foldl f r e = r e - (l.map x).sum := by
  induction l generalizing r with
  | nil => simp
  | cons a l ih => rw [List.foldl_cons, ih, h, List.map_cons, List.sum_cons]; abel

omit [IsStrictOrderedRing K] in
/-- The right-hand side of one element. -/
theorem ehdg_rhs_at (v : Env K) (dat : ℕ → EltData K) (m : Mesh K) (hn : m.elts.Nodup) (wet : ℕ → Bool) (t : K) (x : Faces K) (q r : State K) (e : ℕ) :
    Ehdg.localRhs v dat m wet t x q r e =
      (if e ∈ m.elts then (if wet e then Ehdg.volumeTerm v (dat e) (q e) + sourceTerm v (dat e) t (q e) else 0) else r e) -
      ((m.ints.map (eInt v dat wet q x e)).sum + (m.bnds.map (eBnd v dat wet q x e)).sum) := by
  simp only [Ehdg.localRhs]
  rw [fold_at (Ehdg.boundaryKernel v dat wet q x) (eBnd v dat wet q x e) e (fun r b => by
      unfold Ehdg.boundaryKernel eBnd
      split
      · rw [subAt_at]
      · rw [sub_zero]),
    fold_at (Ehdg.interfaceKernel v dat wet q x) (eInt v dat wet q x e) e (fun r i => by
      unfold Ehdg.interfaceKernel eInt
      split
      · rw [subAt_at, subAt_at]; abel
      · rw [sub_zero]),
    source_at v dat wet t q hn, ← sub_sub]
  congr 2
  have hvol : ∀ (l : List ℕ) (r : State K), (l.foldl (Ehdg.volumeKernel v dat wet q) r) e =
      if e ∈ l then (if wet e then Ehdg.volumeTerm v (dat e) (q e) else 0) else r e := by
    intro l
    induction l with
    | nil => simp
    | cons a l ih =>
      intro r
      rw [List.foldl_cons, ih]
      by_cases h : e ∈ l
      · simp [h]
      · by_cases ha : e = a
        · subst ha; simp [h, Ehdg.volumeKernel]
        · simp [h, ha, Ehdg.volumeKernel]
  rw [hvol]
  by_cases he : e ∈ m.elts
  · by_cases hw : wet e <;> simp [he, hw]
  · simp [he]

omit [IsStrictOrderedRing K] in
/-- The right-hand side of one element after all kernels of all submeshes but those of distributed boundaries. -/
theorem ehdg_all_at (v : Env K) (dat : ℕ → EltData K) (wet : ℕ → Bool) (t : K) (x : Faces K) (q : State K) (e : ℕ) (ms : List (Mesh K))
    (hn : (ms.flatMap Mesh.elts).Nodup)
    (hi : ∀ s ∈ ms, ∀ i ∈ s.ints, i.ein ∈ s.elts ∧ i.eex ∈ s.elts) (hb : ∀ s ∈ ms, ∀ b ∈ s.bnds, b.e ∈ s.elts) (r : State K) :
    (ms.foldl (fun r m => Ehdg.localRhs v dat m wet t x q r) r) e =
      (if e ∈ ms.flatMap Mesh.elts then (if wet e then Ehdg.volumeTerm v (dat e) (q e) + sourceTerm v (dat e) t (q e) else 0) else r e) -
      (((ms.flatMap Mesh.ints).map (eInt v dat wet q x e)).sum + ((ms.flatMap Mesh.bnds).map (eBnd v dat wet q x e)).sum) := by
  induction ms generalizing r with
  | nil => simp
  | cons m ms ih =>
    rw [List.flatMap_cons, List.nodup_append] at hn
    obtain ⟨n1, n2, n3⟩ := hn
    rw [List.foldl_cons, ih n2 (fun s hs => hi s (List.mem_cons_of_mem _ hs)) (fun s hs => hb s (List.mem_cons_of_mem _ hs)), ehdg_rhs_at v dat m n1]
    simp only [List.flatMap_cons, List.map_append, List.sum_append, List.mem_append]
    by_cases h : e ∈ ms.flatMap Mesh.elts
    · have hm : e ∉ m.elts := fun hm => n3 e hm e h rfl
      have z1 : (m.ints.map (eInt v dat wet q x e)).sum = 0 := by
        refine List.sum_eq_zero fun y hy => ?_
        obtain ⟨i, hii, rfl⟩ := List.mem_map.1 hy
        have := hi m List.mem_cons_self i hii
        unfold eInt
        rw [if_neg (fun h : i.ein = e => hm (h ▸ this.1)), if_neg (fun h : i.eex = e => hm (h ▸ this.2))]
        simp
      have z2 : (m.bnds.map (eBnd v dat wet q x e)).sum = 0 := by
        refine List.sum_eq_zero fun y hy => ?_
        obtain ⟨b, hbb, rfl⟩ := List.mem_map.1 hy
        have := hb m List.mem_cons_self b hbb
        unfold eBnd
        rw [if_neg (fun h : b.e = e => hm (h ▸ this))]
        simp
      rw [z1, z2]
      simp [h]
    · simp only [h, or_false, if_false]
      abel

/-- The right-hand side of the partitioned program is that of the serial program, on every element and from every former right-hand side. -/
theorem ehdg_parallel_rhs {m : Mesh K} {ms : List (Mesh K)} {cut : List (Iface K)} (hp : Partitioned (fun i => (i.rule v dat).length) m ms cut)
    (hc : ∀ i ∈ cut, Meets dat i) (wet : ℕ → Bool) (t : K) (x : Faces K) (junkD : Dbnd K → ℕ → Q K) (q junk : State K) :
    Ehdg.parallelRhs v dat ms wet t x junkD q junk = .ok (Ehdg.localRhs v dat m wet t x q junk) := by
  unfold Ehdg.parallelRhs
  simp only
  rw [foldlM_flat (Ehdg.dboundKernel v dat wet q junkD) Mesh.dist ms]
  set r := ms.foldl (fun r m => Ehdg.localRhs v dat m wet t x q r) junk with hr
  have hat := fun e => dist_at_with (ker := Ehdg.dboundKernel v dat wet q junkD) (act := fun i => wet i.ein || wet i.eex) (tin := fun i => Ehdg.inTerm v dat wet q x i)
    (tex := fun i => Ehdg.exTerm v dat wet q x i) (npts := fun i => (i.rule v dat).length) (fun i hi rhs => ehdg_kernel_in (hc i hi) wet q x junkD rhs)
    (fun i hi rhs => ehdg_kernel_ex (hc i hi) wet q x junkD rhs) e hp.dist r
  obtain ⟨r', h1, -⟩ := hat 0
  rw [h1]
  congr 1
  funext e
  obtain ⟨r'', h2, h3⟩ := hat e
  rw [h1] at h2
  cases h2
  rw [h3, hr, ehdg_all_at v dat wet t x q e ms (hp.elts.nodup_iff.mpr hp.nodup) hp.ownInts hp.ownBnds, ehdg_rhs_at v dat m hp.nodup,
    ← (hp.ints.map _).sum_eq, ← (hp.bnds.map _).sum_eq, List.map_append, List.sum_append]
  simp only [hp.elts.mem_iff]
  have : (cut.map fun i => if (wet i.ein || wet i.eex) = true then (if i.ein = e then Ehdg.inTerm v dat wet q x i else 0) +
      if i.eex = e then Ehdg.exTerm v dat wet q x i else 0 else 0) = cut.map (eInt v dat wet q x e) := rfl
  rw [this]
  abel

/-- C98: any number of stages of the partitioned program, with wetting and drying and the limiter, have the result of the serial program; one
succeeds if and only if the other does. -/
theorem ehdg_parallel_run {m : Mesh K} {ms : List (Mesh K)} {cut : List (Iface K)} (hp : Partitioned (fun i => (i.rule v dat).length) m ms cut)
    (hc : ∀ i ∈ cut, Meets dat i) (tab : Stepper.Tableau) (ns : ℕ) (dt : K) (pp : PostParams K) (hsl : pp.sl ≠ none → Covered m ∧ ∀ e, 1 ≤ (dat e).elt.p)
    (junk : State K) (time : ℕ → K) (x : ℕ → Faces K) (junkD : Dbnd K → ℕ → Q K) (n : ℕ) (s s' : Run K) :
    Ehdg.runParallel v dat ms tab ns dt pp junk time x junkD n s = .ok s' ↔ Ehdg.run v dat m tab ns dt pp junk time x n s = .ok s' :=
  parallel_run_with hp tab ns dt pp hsl (fun k wet q => ehdg_parallel_rhs hp hc wet (time k) (x k) junkD q junk) n s s'

/-! ### Examples -/

theorem two_meets (p : ℕ) (b : ℕ → ℕ → K) : Meets (twoTris p b) ⟨0, 0, 1, 0, .internal⟩ where
  degree := rfl
  ccwIn := by norm_num [twoTris, jdet, Geometry.det, jac]
  ccwEx := by norm_num [twoTris, jdet, Geometry.det, jac]
  edges := by norm_num [twoTris, faceVec, vertex]
  kind := rfl

/-- The theorem applies: two triangles, any bathymetry, degree, state and flags, both treatments switched on. -/
example (rd : ℝ → ℝ) (p : ℕ) (hp : 1 ≤ p) (b : ℕ → ℕ → ℝ) (wd : WdParams ℝ) (sl : SlParams ℝ) (tab : Stepper.Tableau) (ns : ℕ) (dt : ℝ) (junk : State ℝ)
    (time : ℕ → ℝ) (x : ℕ → Faces ℝ) (junkD : Dbnd ℝ → ℕ → Q ℝ) (n : ℕ) (s s' : Run ℝ) :
    Ehdg.runParallel (plainEnv (codeNumerics rd) Real.sqrt) (twoTris p b) twoParts tab ns dt ⟨some wd, some sl⟩ junk time x junkD n s = .ok s' ↔
    Ehdg.run (plainEnv (codeNumerics rd) Real.sqrt) (twoTris p b) twoMesh tab ns dt ⟨some wd, some sl⟩ junk time x n s = .ok s' := by
  refine ehdg_parallel_run (two_partitioned _) (fun i hi => ?_) tab ns dt _ (fun _ => ⟨two_covered, fun _ => hp⟩) junk time x junkD n s s'
  obtain rfl : i = _ := by simpa using hi
  exact two_meets p b

-- a wave through the cut: one stage on two submeshes
example : ((do
      let s ← Ehdg.runParallel (plainEnv simpleN simpleSq) (twoTris 1 fun _ d => if d = 0 then 1 else 0) twoParts Stepper.tab11 1 (1 / 100) ⟨none, none⟩ 0 (fun _ => 0)
        (fun _ => ⟨fun _ _ => 0, fun _ _ => 0, fun _ _ => 0⟩) (fun _ _ => 0) 1 ⟨[⟨hump, 0⟩, ⟨0, 0⟩], 0, fun _ => true, false⟩
      let c ← slotOr s.slots[s.stage]?
      return decide (c.q 0 0 0 < 1 / 2 ∧ 0 < c.q 1 0 0 ∧ c.q 0 0 0 + c.q 1 0 0 = 1 / 2)) : Res Bool) = .ok true := by decide +kernel

end Verif.Ehdg.Props
