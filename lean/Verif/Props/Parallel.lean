import Verif.Lemmas.Partitioned
import Verif.Lemmas.Stage
import Verif.Props.Water

/-!
# The partitioned program computes what the serial program computes (C70)
-/

namespace Verif.Swe.Props
open Verif.Geometry Verif.Geometry.Props Verif.Element Verif.Swe

variable {K : Type} [Field K] [LinearOrder K] [IsStrictOrderedRing K]

/-! ### Partitioned meshes -/

/-- Vector along a face. -/
def faceVec (t : Tri K) (f : ℕ) : P2 K :=
  ⟨(vertex t ((f + 2) % 3)).x - (vertex t ((f + 1) % 3)).x, (vertex t ((f + 2) % 3)).y - (vertex t ((f + 1) % 3)).y⟩

/-- Levee data as seen from the other side. -/
def turned (n : ℕ) : IntKind K → IntKind K
  | .internal => .internal
  | .levee l => .levee fun gp => l (n - gp - 1)

/-- The two distributed boundaries that take the place of an interface with `n` Gauss points. -/
def halves (n : ℕ) (i : Iface K) : List (Dbnd K) :=
  [⟨i.ein, i.fin, i.eex, i.fex, i.kind⟩, ⟨i.eex, i.fex, i.ein, i.fin, turned n i.kind⟩]

/-- The submeshes `ms` share out the elements, interfaces and boundaries of `m`; the interfaces `cut` have become pairs of distributed boundaries. -/
structure Partitioned (npts : Iface K → ℕ) (m : Mesh K) (ms : List (Mesh K)) (cut : List (Iface K)) : Prop where
  nodup : m.elts.Nodup
  elts : (ms.flatMap Mesh.elts).Perm m.elts
  ints : (ms.flatMap Mesh.ints ++ cut).Perm m.ints
  bnds : (ms.flatMap Mesh.bnds).Perm m.bnds
  dist : (ms.flatMap Mesh.dist).Perm (cut.flatMap fun i => halves (npts i) i)
  ownInts : ∀ s ∈ ms, ∀ i ∈ s.ints, i.ein ∈ s.elts ∧ i.eex ∈ s.elts
  ownBnds : ∀ s ∈ ms, ∀ b ∈ s.bnds, b.e ∈ s.elts
  ownDist : ∀ s ∈ ms, ∀ b ∈ s.dist, b.e ∈ s.elts

/-- What is required of the elements at a cut: equal degrees, counterclockwise, opposite edge vectors, bathymetry continuous at the Gauss points
of an ordinary interface. -/
structure Fits (v : Env K) (dat : ℕ → EltData K) (i : Iface K) : Prop where
  degree : (dat i.ein).elt.p = (dat i.eex).elt.p
  ccwIn : 0 < jdet (dat i.ein).elt.tri
  ccwEx : 0 < jdet (dat i.eex).elt.tri
  edges : faceVec (dat i.eex).elt.tri i.fex = ⟨-(faceVec (dat i.ein).elt.tri i.fin).x, -(faceVec (dat i.ein).elt.tri i.fin).y⟩
  bath : i.kind = .internal → ∀ gp < (i.rule v dat).length,
    (dat i.ein).elt.value v.N (dat i.ein).bath (facePt (i.rule v dat) i.fin gp) =
      (dat i.eex).elt.value v.N (dat i.eex).bath (facePt (i.rule v dat) i.fex ((i.rule v dat).length - gp - 1))

/-! ### Both sides of a cut -/

theorem normal_vec (sq : K → K) {t : Tri K} (ht : 0 < jdet t) (f : ℕ) :
    normal sq t f = ⟨(faceVec t f).y / hypot sq (faceVec t f).x (faceVec t f).y, -(faceVec t f).x / hypot sq (faceVec t f).x (faceVec t f).y⟩ := by
  simp only [normal, faceVec, abs_of_pos ht, div_self ht.ne', one_mul, neg_one_mul]

theorem J_vec (sq : K → K) (t : Tri K) (f : ℕ) : surfaceJ sq t f = sq ((faceVec t f).x ^ 2 + (faceVec t f).y ^ 2) / 2 := rfl

variable {v : Env K} {dat : ℕ → EltData K} {i : Iface K}

theorem rule_eq (h : Fits v dat i) : i.rule v dat = faceRule v.N (dat i.ein).elt.p ∧ i.rule v dat = faceRule v.N (dat i.eex).elt.p := by
  unfold Iface.rule
  rw [← h.degree, max_self]
  exact ⟨rfl, rfl⟩

theorem normal_ex (h : Fits v dat i) : normal v.sq (dat i.eex).elt.tri i.fex =
    ⟨-(normal v.sq (dat i.ein).elt.tri i.fin).x, -(normal v.sq (dat i.ein).elt.tri i.fin).y⟩ := by
  rw [normal_vec v.sq h.ccwIn, normal_vec v.sq h.ccwEx, h.edges]
  simp only [hypot, neg_mul_neg, neg_neg, neg_div]

theorem J_ex (h : Fits v dat i) : surfaceJ v.sq (dat i.eex).elt.tri i.fex = i.J v dat := by
  unfold Iface.J
  rw [J_vec, J_vec, h.edges]
  simp only [neg_sq]

theorem inside_own (h : Fits v dat i) (wet : ℕ → Bool) (q : State K) (gp : ℕ) :
    i.inside v dat wet q gp = ownSide v dat wet q i.ein i.fin gp := by
  simp only [Iface.inside, ownSide, (rule_eq h).1]

theorem outside_own (hsp : ∀ x, v.sp x = 1) (h : Fits v dat i) (wet : ℕ → Bool) (q : State K) (gp : ℕ) :
    i.outside v dat wet q gp = ownSide v dat wet q i.eex i.fex gp := by
  simp only [Iface.outside, ownSide, normal_ex h, Swe.auxAt, hsp]
  rw [(rule_eq h).2]

/-- The flux of the interior side of a cut. -/
theorem cut_in (hsp : ∀ x, v.sp x = 1) (h : Fits v dat i) (wet : ℕ → Bool) (q : State K) {gp : ℕ} (hg : gp < (i.rule v dat).length) :
    dbndFlux v dat wet q ⟨i.ein, i.fin, i.eex, i.fex, i.kind⟩ (message v dat wet q i.eex i.fex) gp =
      .ok (if wet i.ein || wet i.eex then some (i.flux v dat wet q gp).1 else none) := by
  obtain ⟨r1, r2⟩ := rule_eq h
  obtain ⟨d1, d2⟩ := decode_range (wet i.eex) (i.rule v dat).length (fun gp => (ownSide v dat wet q i.eex i.fex gp).q) gp hg
  unfold dbndFlux message
  simp only
  rw [← r1, ← r2]
  have hw : (ownSide v dat wet q i.ein i.fin gp).wet = wet i.ein := rfl
  have hw' : ∀ gp, (ownSide v dat wet q i.eex i.fex gp).wet = wet i.eex := fun _ => rfl
  have hfl : i.flux v dat wet q gp = (match i.kind with
      | .internal => internal v.sq v.src.g (ownSide v dat wet q i.ein i.fin gp) (ownSide v dat wet q i.eex i.fex ((i.rule v dat).length - gp - 1))
      | .levee l => levee v.sq v.src.g (l gp) (ownSide v dat wet q i.ein i.fin gp)
          (ownSide v dat wet q i.eex i.fex ((i.rule v dat).length - gp - 1))) := by
    unfold Iface.flux
    rw [inside_own h, outside_own hsp h]
    cases i.kind <;> rfl
  have hn : (ownSide v dat wet q i.eex i.fex ((i.rule v dat).length - gp - 1)).n = opp (ownSide v dat wet q i.ein i.fin gp).n := normal_ex h
  rw [hfl]
  cases hk : i.kind with
  | internal =>
    simp only
    unfold distributedAt
    rw [d1]
    simp only [res_bind, hw]
    by_cases hc : (wet i.ein || wet i.eex) = true
    · rw [if_pos hc, if_pos hc, d2]
      simp only [res_bind]
      rw [← distributed_in, hw']
      rfl
    · rw [if_neg hc, if_neg hc]; rfl
  | levee l =>
    simp only
    unfold distributedLeveeAt
    rw [d1]
    simp only [res_bind, hw]
    by_cases hc : (wet i.ein || wet i.eex) = true
    · rw [if_pos hc, if_pos hc, d2]
      simp only [res_bind]
      rw [← (distributed_levee_same v.sq v.src.g (l gp) _ _ hn).1]
      rfl
    · rw [if_neg hc, if_neg hc]; rfl

/-- The flux of the exterior side of a cut. -/
theorem cut_ex (hsp : ∀ x, v.sp x = 1) (h : Fits v dat i) (wet : ℕ → Bool) (q : State K) {gp : ℕ} (hg : gp < (i.rule v dat).length) :
    dbndFlux v dat wet q ⟨i.eex, i.fex, i.ein, i.fin, turned (i.rule v dat).length i.kind⟩ (message v dat wet q i.ein i.fin) gp =
      .ok (if wet i.ein || wet i.eex then some (i.flux v dat wet q ((i.rule v dat).length - gp - 1)).2 else none) := by
  obtain ⟨r1, r2⟩ := rule_eq h
  obtain ⟨d1, d2⟩ := decode_range (wet i.ein) (i.rule v dat).length (fun gp => (ownSide v dat wet q i.ein i.fin gp).q) gp hg
  unfold dbndFlux message
  simp only
  rw [← r1, ← r2]
  set n := (i.rule v dat).length with hnn
  have hback : n - (n - gp - 1) - 1 = gp := by omega
  have hw : (ownSide v dat wet q i.eex i.fex gp).wet = wet i.eex := rfl
  have hw' : ∀ gp, (ownSide v dat wet q i.ein i.fin gp).wet = wet i.ein := fun _ => rfl
  have hfl : i.flux v dat wet q (n - gp - 1) = (match i.kind with
      | .internal => internal v.sq v.src.g (ownSide v dat wet q i.ein i.fin (n - gp - 1)) (ownSide v dat wet q i.eex i.fex gp)
      | .levee l => levee v.sq v.src.g (l (n - gp - 1)) (ownSide v dat wet q i.ein i.fin (n - gp - 1)) (ownSide v dat wet q i.eex i.fex gp)) := by
    unfold Iface.flux
    rw [inside_own h, outside_own hsp h, ← hnn, hback]
    cases i.kind <;> rfl
  have hn : (ownSide v dat wet q i.eex i.fex gp).n = opp (ownSide v dat wet q i.ein i.fin (n - gp - 1)).n := normal_ex h
  rw [hfl]
  cases hk : i.kind with
  | internal =>
    simp only [turned]
    unfold distributedAt
    rw [d1]
    simp only [res_bind, hw, Bool.or_comm (wet i.eex)]
    by_cases hc : (wet i.ein || wet i.eex) = true
    · rw [if_pos hc, if_pos hc, d2]
      simp only [res_bind]
      have hb : (ownSide v dat wet q i.ein i.fin (n - gp - 1)).aux.bath = (ownSide v dat wet q i.eex i.fex gp).aux.bath := by
        have := h.bath hk (n - gp - 1) (by omega)
        rw [← hnn, hback] at this
        simp only [ownSide, Swe.auxAt]
        rw [← r1, ← r2]
        exact this
      rw [← distributed_ex v.sq v.src.g _ _ (hsp _) (hsp _) hb hn, hw']
      rfl
    · rw [if_neg hc, if_neg hc]; rfl
  | levee l =>
    simp only [turned]
    unfold distributedLeveeAt
    rw [d1]
    simp only [res_bind, hw, Bool.or_comm (wet i.eex)]
    by_cases hc : (wet i.ein || wet i.eex) = true
    · rw [if_pos hc, if_pos hc, d2]
      simp only [res_bind]
      rw [← (distributed_levee_same v.sq v.src.g (l (n - gp - 1)) _ _ hn).2]
      rfl
    · rw [if_neg hc, if_neg hc]; rfl

theorem intFace_congr (N : Numerics K) (r : List (K × K)) (f : ℕ) (J : K) {F G : ℕ → K} (h : ∀ gp < r.length, F gp = G gp) (d : ℕ) :
    Elt.intFace N r f J F d = Elt.intFace N r f J G d := by
  unfold Elt.intFace
  congr 1
  exact List.map_congr_left fun gp hg => by rw [h gp (List.mem_range.mp hg)]

theorem decode_msg (v : Env K) (dat : ℕ → EltData K) (wet : ℕ → Bool) (q : State K) (e f : ℕ) : decodeWet (message v dat wet q e f) = .ok (wet e) := by
  unfold decodeWet message encode idx
  cases wet e <;> simp

/-- The kernel of the interior half. -/
theorem kernel_in (hsp : ∀ x, v.sp x = 1) (h : Fits v dat i) (wet : ℕ → Bool) (q rhs : State K) :
    dboundKernel v dat wet q rhs ⟨i.ein, i.fin, i.eex, i.fex, i.kind⟩ =
      .ok (if wet i.ein || wet i.eex then subAt rhs i.ein (i.inTerm v dat wet q) else rhs) := by
  obtain ⟨r1, r2⟩ := rule_eq h
  unfold dboundKernel
  simp only
  rw [decode_msg, ← r1, sequence_ok _ (fun gp => if wet i.ein || wet i.eex then some (i.flux v dat wet q gp).1 else none) _ (fun gp hg => cut_in hsp h wet q hg)]
  simp only [res_bind]
  by_cases hc : (wet i.ein || wet i.eex) = true
  · rw [if_pos hc, if_pos hc]
    show Except.ok _ = Except.ok _
    congr 2
    funext var dof
    unfold Iface.inTerm Iface.J
    refine intFace_congr _ _ _ _ (fun gp hg => ?_) dof
    simp [hc, List.getD_eq_getElem?_getD, hg]
  · rw [if_neg hc, if_neg hc]; rfl

/-- The kernel of the exterior half. -/
theorem kernel_ex (hsp : ∀ x, v.sp x = 1) (h : Fits v dat i) (wet : ℕ → Bool) (q rhs : State K) :
    dboundKernel v dat wet q rhs ⟨i.eex, i.fex, i.ein, i.fin, turned (i.rule v dat).length i.kind⟩ =
      .ok (if wet i.ein || wet i.eex then subAt rhs i.eex (i.exTerm v dat wet q) else rhs) := by
  obtain ⟨r1, r2⟩ := rule_eq h
  unfold dboundKernel
  simp only
  rw [decode_msg, ← r2, sequence_ok _ (fun gp => if wet i.ein || wet i.eex then some (i.flux v dat wet q ((i.rule v dat).length - gp - 1)).2 else none) _
    (fun gp hg => cut_ex hsp h wet q hg)]
  simp only [res_bind, Bool.or_comm (wet i.eex)]
  by_cases hc : (wet i.ein || wet i.eex) = true
  · rw [if_pos hc, if_pos hc]
    show Except.ok _ = Except.ok _
    congr 2
    funext var dof
    rw [J_ex h]
    unfold Iface.exTerm
    refine intFace_congr _ _ _ _ (fun gp hg => ?_) dof
    simp [hc, List.getD_eq_getElem?_getD, hg]
  · rw [if_neg hc, if_neg hc]; rfl

/-! ### The right-hand side -/

omit [IsStrictOrderedRing K] in
/-- Kernels of distributed boundaries that subtract, at the two halves of a cut interface, what the interface subtracts. -/
theorem dist_at_with {ker : State K → Dbnd K → Res (State K)} {act : Iface K → Bool} {tin tex : Iface K → Fin 3 → ℕ → K} {npts : Iface K → ℕ}
    {cut : List (Iface K)} (hin : ∀ i ∈ cut, ∀ rhs, ker rhs ⟨i.ein, i.fin, i.eex, i.fex, i.kind⟩ = .ok (if act i then subAt rhs i.ein (tin i) else rhs))
    (hex : ∀ i ∈ cut, ∀ rhs, ker rhs ⟨i.eex, i.fex, i.ein, i.fin, turned (npts i) i.kind⟩ = .ok (if act i then subAt rhs i.eex (tex i) else rhs)) (e : ℕ)
    {ds : List (Dbnd K)} (hd : ds.Perm (cut.flatMap fun i => halves (npts i) i)) (r : State K) :
    ∃ r', ds.foldlM ker r = .ok r' ∧ r' e = r e - (cut.map fun i => if act i then (if i.ein = e then tin i else 0) + if i.eex = e then tex i else 0 else 0).sum := by
  -- what one distributed boundary subtracts
  have key : ∀ b ∈ cut.flatMap (fun i => halves (npts i) i), ∃ x : ℕ → Fin 3 → ℕ → K, (∀ rhs, ∃ r', ker rhs b = .ok r' ∧ ∀ e, r' e = rhs e - x e) := by
    intro b hb
    obtain ⟨i, hi, hb⟩ := List.mem_flatMap.mp hb
    simp only [halves, List.mem_cons, List.not_mem_nil, or_false] at hb
    rcases hb with rfl | rfl
    · refine ⟨fun e => if act i then (if i.ein = e then tin i else 0) else 0, fun rhs => ⟨_, hin i hi rhs, fun e => ?_⟩⟩
      split
      · rw [subAt_at]
      · rw [sub_zero]
    · refine ⟨fun e => if act i then (if i.eex = e then tex i else 0) else 0, fun rhs => ⟨_, hex i hi rhs, fun e => ?_⟩⟩
      split
      · rw [subAt_at]
      · rw [sub_zero]
  classical
  -- the amount as a function
  let amount : Dbnd K → Fin 3 → ℕ → K := fun b =>
    match ker 0 b with
    | .ok r => -r e
    | .error _ => 0
  have hker : ∀ b ∈ cut.flatMap (fun i => halves (npts i) i), ∀ rhs, ∃ r', ker rhs b = .ok r' ∧ r' e = rhs e - amount b := by
    intro b hb rhs
    obtain ⟨x, hx⟩ := key b hb
    obtain ⟨r', h1, h2⟩ := hx rhs
    obtain ⟨r0, h3, h4⟩ := hx 0
    refine ⟨r', h1, ?_⟩
    rw [h2 e]
    have : amount b = x e := by
      simp only [amount, h3]
      rw [h4 e]
      simp
    rw [this]
  have hfold : ∀ (l : List (Dbnd K)), (∀ b ∈ l, b ∈ cut.flatMap fun i => halves (npts i) i) → ∀ r,
      ∃ r', l.foldlM ker r = .ok r' ∧ r' e = r e - (l.map amount).sum := by
    intro l
    induction l with
    | nil => exact fun _ r => ⟨r, rfl, by simp⟩
    | cons b l ih =>
      intro hl r
      obtain ⟨r1, h1, h2⟩ := hker b (hl b List.mem_cons_self) r
      obtain ⟨r2, h3, h4⟩ := ih (fun b hb => hl b (List.mem_cons_of_mem _ hb)) r1
      refine ⟨r2, ?_, ?_⟩
      · rw [List.foldlM_cons, h1]; exact h3
      · rw [h4, h2, List.map_cons, List.sum_cons]; abel
  obtain ⟨r', h1, h2⟩ := hfold ds (fun b hb => hd.mem_iff.mp hb) r
  refine ⟨r', h1, h2.trans ?_⟩
  rw [(hd.map amount).sum_eq]
  congr 1
  have hone : ∀ i ∈ cut, ((halves (npts i) i).map amount).sum = if act i then (if i.ein = e then tin i else 0) + if i.eex = e then tex i else 0 else 0 := by
    intro i hi
    simp only [halves, List.map_cons, List.map_nil, List.sum_cons, List.sum_nil, add_zero, amount]
    rw [hin i hi, hex i hi]
    by_cases hw : act i = true
    · rw [if_pos hw, if_pos hw, if_pos hw]
      simp only
      rw [subAt_at, subAt_at]
      by_cases h1 : i.ein = e <;> by_cases h2 : i.eex = e <;> simp [h1, h2]
    · rw [if_neg hw, if_neg hw, if_neg hw]
      simp
  clear hd hfold hker key h1 h2 hin hex
  induction cut with
  | nil => rfl
  | cons i cut ih =>
    rw [List.flatMap_cons, List.map_append, List.sum_append, List.map_cons, List.sum_cons, hone i List.mem_cons_self,
      ih fun j hj => hone j (List.mem_cons_of_mem _ hj)]

/-- The kernels of all distributed boundaries succeed, and subtract from element `e` what the cut interfaces subtract. -/
theorem dist_at (hsp : ∀ x, v.sp x = 1) (wet : ℕ → Bool) (q : State K) (e : ℕ) {cut : List (Iface K)} (hc : ∀ i ∈ cut, Fits v dat i)
    {ds : List (Dbnd K)} (hd : ds.Perm (cut.flatMap fun i => halves (i.rule v dat).length i)) (r : State K) :
    ∃ r', ds.foldlM (dboundKernel v dat wet q) r = .ok r' ∧ r' e = r e - ((cut.flatMap (intTerms v dat wet q e)).map Prod.snd).sum := by
  obtain ⟨r', h1, h2⟩ := dist_at_with (act := fun i => wet i.ein || wet i.eex) (tin := fun i => i.inTerm v dat wet q) (tex := fun i => i.exTerm v dat wet q)
    (npts := fun i => (i.rule v dat).length) (fun i hi rhs => kernel_in hsp (hc i hi) wet q rhs) (fun i hi rhs => kernel_ex hsp (hc i hi) wet q rhs) e hd r
  refine ⟨r', h1, h2.trans ?_⟩
  congr 1
  clear hd h1 h2
  induction cut with
  | nil => rfl
  | cons i cut ih =>
    rw [List.map_cons, List.sum_cons, List.flatMap_cons, List.map_append, List.sum_append, ih fun j hj => hc j (List.mem_cons_of_mem _ hj)]
    congr 1
    unfold intTerms
    by_cases hw : (wet i.ein || wet i.eex) = true
    · rw [if_pos hw, if_pos hw]
      by_cases h1 : i.ein = e <;> by_cases h2 : i.eex = e <;> simp [h1, h2]
    · rw [if_neg hw, if_neg hw]
      simp

/-- The right-hand side of the partitioned program is that of the serial program, on every element and from every former right-hand side. -/
theorem parallel_rhs (hsp : ∀ x, v.sp x = 1) {m : Mesh K} {ms : List (Mesh K)} {cut : List (Iface K)}
    (hp : Partitioned (fun i => (i.rule v dat).length) m ms cut) (hc : ∀ i ∈ cut, Fits v dat i) (wet : ℕ → Bool) (t ramp : K) (q junk : State K) :
    parallelRhs v dat ms wet t ramp q junk = .ok (localRhs v dat m wet t ramp q junk) := by
  unfold parallelRhs
  simp only
  rw [foldlM_flat (dboundKernel v dat wet q) Mesh.dist ms]
  set r := ms.foldl (fun r m => localRhs v dat m wet t ramp q r) junk with hr
  have hat := fun e => dist_at hsp wet q e hc hp.dist r
  obtain ⟨r', h1, -⟩ := hat 0
  rw [h1]
  congr 1
  funext e
  obtain ⟨r'', h2, h3⟩ := hat e
  rw [h1] at h2
  cases h2
  rw [h3, hr, localAll_at v dat wet t ramp q e ms (hp.elts.nodup_iff.mpr hp.nodup) hp.ownInts hp.ownBnds, localRhs_at v dat m hp.nodup]
  rw [faceTerms, List.map_append, List.sum_append, ← sum_perm hp.ints, ← sum_perm hp.bnds, List.flatMap_append, List.map_append, List.sum_append]
  simp only [hp.elts.mem_iff]
  abel

/-! ### Wetting and drying -/

/-- The outcome for one element. -/
def wdOut (dat : ℕ → EltData K) (w : WdParams K) (s : Flow K) (e : ℕ) : Res (WdOut K) :=
  wetDry w.ho w.thr (ndof (dat e).elt.p) (w.bath e) (w.bathMin e) (w.temp e) (s.wet e) (rowsOf (s.q e))

omit [IsStrictOrderedRing K] in
/-- Elements are treated independently of each other. -/
theorem wdFold_spec (dat : ℕ → EltData K) (w : WdParams K) (l : List ℕ) (hl : l.Nodup) (s s' : Flow K) :
    l.foldlM (wdStep dat w) s = .ok s' ↔ ∃ o : ℕ → WdOut K, (∀ e ∈ l, wdOut dat w s e = .ok (o e)) ∧
      s' = ⟨fun e => if e ∈ l then ofRows (o e).q else s.q e, fun e => if e ∈ l then (o e).wet else s.wet e, s.emptied || l.any fun e => (o e).emptied⟩ := by
  induction l generalizing s with
  | nil =>
    constructor
    · intro h
      cases h
      exact ⟨fun _ => ⟨⟨0, 0, 0⟩, false, false, false⟩, by simp, by simp⟩
    · rintro ⟨o, -, rfl⟩
      simp [List.foldlM, pure, Except.pure]
  | cons a l ih =>
    rw [List.nodup_cons] at hl
    rw [List.foldlM_cons]
    cases ha : wdOut dat w s a with
    | error x =>
      have : wdStep dat w s a = .error x := by
        unfold wdStep
        rw [wdOut] at ha
        rw [ha]; rfl
      rw [this]
      constructor
      · intro h; cases h
      · rintro ⟨o, ho, -⟩
        rw [ho a List.mem_cons_self] at ha
        cases ha
    | ok oa =>
      have hstep : wdStep dat w s a = .ok ⟨Function.update s.q a (ofRows oa.q), Function.update s.wet a oa.wet, s.emptied || oa.emptied⟩ := by
        unfold wdStep
        rw [wdOut] at ha
        rw [ha]; rfl
      rw [hstep]
      have hbind : ∀ (x : Flow K) (f : Flow K → Res (Flow K)), ((Except.ok x : Res (Flow K)) >>= f) = f x := fun _ _ => rfl
      rw [hbind, ih hl.2]
      have hsame : ∀ e ∈ l, wdOut dat w ⟨Function.update s.q a (ofRows oa.q), Function.update s.wet a oa.wet, s.emptied || oa.emptied⟩ e =
          wdOut dat w s e := by
        intro e he
        have hne : e ≠ a := fun h => hl.1 (h ▸ he)
        simp [wdOut, hne]
      constructor
      · rintro ⟨o, ho, rfl⟩
        refine ⟨Function.update o a oa, ?_, ?_⟩
        · intro e he
          rcases List.mem_cons.mp he with rfl | he
          · simpa using ha
          · have hne : e ≠ a := fun h => hl.1 (h ▸ he)
            rw [Function.update_of_ne hne, ← hsame e he, ho e he]
        · have hany : (l.any fun e => (Function.update o a oa e).emptied) = l.any fun e => (o e).emptied := by
            rw [Bool.eq_iff_iff, List.any_eq_true, List.any_eq_true]
            refine exists_congr fun e => and_congr_right fun he => ?_
            rw [Function.update_of_ne (fun h : e = a => hl.1 (h ▸ he))]
          congr 1
          · funext e
            by_cases h1 : e = a
            · subst h1; simp [hl.1]
            · by_cases h2 : e ∈ l <;> simp [h1, h2]
          · funext e
            by_cases h1 : e = a
            · subst h1; simp [hl.1]
            · by_cases h2 : e ∈ l <;> simp [h1, h2]
          · rw [List.any_cons, hany]
            simp [Bool.or_assoc]
      · rintro ⟨o, ho, rfl⟩
        have hoa : o a = oa := by
          have := ho a List.mem_cons_self
          rw [ha] at this
          exact (Except.ok.inj this).symm
        refine ⟨o, fun e he => by rw [hsame e he, ho e (List.mem_cons_of_mem _ he)], ?_⟩
        congr 1
        · funext e
          by_cases h1 : e = a
          · subst h1; simp [hl.1, hoa]
          · by_cases h2 : e ∈ l <;> simp [h1, h2]
        · funext e
          by_cases h1 : e = a
          · subst h1; simp [hl.1, hoa]
          · by_cases h2 : e ∈ l <;> simp [h1, h2]
        · rw [List.any_cons, hoa, Bool.or_assoc]

omit [IsStrictOrderedRing K] in
/-- Wetting and drying of the submeshes. -/
theorem parallel_wd {npts : Iface K → ℕ} {m : Mesh K} {ms : List (Mesh K)} {cut : List (Iface K)} (hp : Partitioned npts m ms cut)
    (w : Option (WdParams K)) (s s' : Flow K) : wdParallel dat ms w s = .ok s' ↔ wdAll dat m w s = .ok s' := by
  unfold wdParallel
  cases w with
  | none =>
    have : ∀ (ms : List (Mesh K)) (s : Flow K), ms.foldlM (fun s m => wdAll dat m none s) s = .ok s := by
      intro ms
      induction ms with
      | nil => exact fun _ => rfl
      | cons a l ih => exact fun s => ih s
    rw [this]; rfl
  | some w =>
    have hflat := foldlM_flat (wdStep dat w) Mesh.elts ms s
    simp only [wdAll]
    rw [hflat, wdFold_spec dat w _ (hp.elts.nodup_iff.mpr hp.nodup), wdFold_spec dat w _ hp.nodup]
    refine exists_congr fun o => ?_
    have h1 : ((ms.flatMap Mesh.elts).any fun e => (o e).emptied) = m.elts.any fun e => (o e).emptied := by
      rw [Bool.eq_iff_iff, List.any_eq_true, List.any_eq_true]
      exact exists_congr fun e => and_congr_left fun _ => hp.elts.mem_iff
    simp only [hp.elts.mem_iff, h1]

/-! ### Limiter -/

/-- The faces of an element. -/
def Covered (m : Mesh K) : Prop := (sides (slMesh m)).Nodup ∧ ∀ e ∈ m.elts, ∀ b : Fin 3, (e, (b : ℕ)) ∈ sides (slMesh m)

omit [IsStrictOrderedRing K] in
theorem mem_sides (s : Mesh K) (v : Env K) (dat : ℕ → EltData K) (p : SlParams K) (f : Flow K) (k : ℕ × ℕ) :
    k ∈ sides (slMeshDist v dat p f s) ↔ (∃ i ∈ s.ints, k = (i.ein, i.fin) ∨ k = (i.eex, i.fex)) ∨ (∃ b ∈ s.bnds, k = (b.e, b.f)) ∨
      ∃ b ∈ s.dist, k = (b.e, b.f) := by
  simp only [sides, slMeshDist, slMesh, List.mem_append, List.mem_flatMap, List.mem_map, List.mem_cons, List.not_mem_nil, or_false]
  constructor
  · rintro (⟨x, ⟨i, hi, rfl⟩, h⟩ | ⟨b, hb, rfl⟩ | ⟨x, ⟨b, hb, rfl⟩, rfl⟩)
    · exact .inl ⟨i, hi, h⟩
    · exact .inr (.inl ⟨b, hb, rfl⟩)
    · exact .inr (.inr ⟨b, hb, rfl⟩)
  · rintro (⟨i, hi, h⟩ | ⟨b, hb, rfl⟩ | ⟨b, hb, rfl⟩)
    · exact .inl ⟨_, ⟨i, hi, rfl⟩, h⟩
    · exact .inr (.inl ⟨b, hb, rfl⟩)
    · exact .inr (.inr ⟨_, ⟨b, hb, rfl⟩, rfl⟩)

/-- The faces of a mesh or submesh, distributed ones included. -/
def allSides (s : Mesh K) : List (ℕ × ℕ) :=
  s.ints.flatMap (fun i => [(i.ein, i.fin), (i.eex, i.fex)]) ++ (s.bnds.map (fun b => (b.e, b.f)) ++ s.dist.map fun b => (b.e, b.f))

omit [IsStrictOrderedRing K] in
theorem sides_dist (s : Mesh K) (v : Env K) (dat : ℕ → EltData K) (p : SlParams K) (f : Flow K) : sides (slMeshDist v dat p f s) = allSides s := by
  simp only [sides, slMeshDist, slMesh, allSides, List.flatMap_map, List.map_map]
  rfl

omit [LinearOrder K] [IsStrictOrderedRing K] [Field K] in
theorem flatMap_append_perm {α β : Type} (l : List α) (f g : α → List β) : (l.flatMap fun a => f a ++ g a).Perm (l.flatMap f ++ l.flatMap g) := by
  induction l with
  | nil => exact List.Perm.refl _
  | cons a l ih =>
    simp only [List.flatMap_cons, List.append_assoc]
    refine List.Perm.append_left _ ?_
    refine (List.Perm.append_left _ ih).trans ?_
    rw [← List.append_assoc, ← List.append_assoc]
    exact List.Perm.append_right _ List.perm_append_comm

omit [Field K] [LinearOrder K] [IsStrictOrderedRing K] in
/-- The faces of all submeshes are those of the mesh. -/
theorem sides_perm {npts : Iface K → ℕ} {m : Mesh K} {ms : List (Mesh K)} {cut : List (Iface K)} (hp : Partitioned npts m ms cut) :
    (ms.flatMap allSides).Perm (sides (slMesh m)) := by
  have e1 : sides (slMesh m) = m.ints.flatMap (fun i => [(i.ein, i.fin), (i.eex, i.fex)]) ++ m.bnds.map (fun b => (b.e, b.f)) := by
    simp only [sides, slMesh, List.flatMap_map, List.map_nil, List.append_nil]
  rw [e1]
  unfold allSides
  refine (flatMap_append_perm ms _ _).trans ?_
  have hb : (ms.flatMap fun s => s.bnds.map (fun b => (b.e, b.f)) ++ s.dist.map fun b => (b.e, b.f)).Perm
      (m.bnds.map (fun b => (b.e, b.f)) ++ cut.flatMap fun i => [(i.ein, i.fin), (i.eex, i.fex)]) := by
    refine (flatMap_append_perm ms _ _).trans (List.Perm.append ?_ ?_)
    · rw [← List.map_flatMap]
      exact hp.bnds.map _
    · rw [← List.map_flatMap]
      refine (hp.dist.map _).trans ?_
      rw [List.map_flatMap]
      exact List.Perm.refl _
  refine (List.Perm.append_left _ hb).trans ?_
  rw [← List.flatMap_assoc]
  refine (List.Perm.append_left _ List.perm_append_comm).trans ?_
  rw [← List.append_assoc, ← List.flatMap_append]
  exact List.Perm.append_right _ (hp.ints.flatMap_right _)

/-- The limiter on the submeshes. -/
theorem parallel_limited {npts : Iface K → ℕ} {m : Mesh K} {ms : List (Mesh K)} {cut : List (Iface K)} (hp : Partitioned npts m ms cut)
    (hcov : Covered m) (hdeg : ∀ e, 1 ≤ (dat e).elt.p) (p : SlParams K) (s : Flow K) :
    limitedParallel v dat ms p s = limited v dat m p s := by
  have hn3 : ∀ e, 3 ≤ ndof (dat e).elt.p := by
    intro e
    have := hdeg e
    unfold ndof
    rw [Nat.le_div_iff_mul_le (by omega)]
    nlinarith
  have hnod : (ms.flatMap Mesh.elts).Nodup := hp.elts.nodup_iff.mpr hp.nodup
  have hsides := sides_perm hp
  funext e
  unfold limitedParallel limited
  cases hf : ms.find? (fun m => decide (e ∈ m.elts)) with
  | none =>
    have : e ∉ m.elts := by
      intro he
      obtain ⟨sm, h1, h2⟩ := List.mem_flatMap.mp (hp.elts.mem_iff.mpr he)
      have := List.find?_eq_none.mp hf sm h1
      simp [h2] at this
    rw [if_neg this]
  | some sm =>
    have hsm : sm ∈ ms := List.mem_of_find?_eq_some hf
    have hes : e ∈ sm.elts := by simpa using List.find?_some hf
    have hem : e ∈ m.elts := hp.elts.mem_iff.mp (List.mem_flatMap.mpr ⟨sm, hsm, hes⟩)
    rw [if_pos hem]
    simp only
    -- only this submesh owns the element
    have huniq : ∀ s' ∈ ms, e ∈ s'.elts → s' = sm := by
      intro s' hs' he'
      by_contra hne
      have hpw := (List.nodup_flatMap.mp hnod).2
      have hsymm : Std.Symm (Function.onFun List.Disjoint (Mesh.elts (K := K))) := ⟨fun a b h => List.Disjoint.symm h⟩
      exact (hpw.forall hs' hsm hne) he' hes
    -- what is across a side of the submesh is across it in the mesh
    have hac : ∀ b : Fin 3, ∃ w x, Across (slMesh m) s.wet s.q (e, (b : ℕ)) w x ∧
        ∃ x', Across (slMeshDist v dat p s sm) s.wet s.q (e, (b : ℕ)) w x' ∧ (w = true → x' = x) := by
      intro b
      obtain ⟨s', hs', hk⟩ := List.mem_flatMap.mp (hsides.mem_iff.mpr (hcov.2 e hem b))
      have hown : e ∈ s'.elts := by
        rw [← sides_dist s' v dat p s, mem_sides] at hk
        rcases hk with ⟨i, hi, h | h⟩ | ⟨b', hb', h⟩ | ⟨b', hb', h⟩
        · rw [show e = _ from congrArg Prod.fst h]; exact (hp.ownInts s' hs' i hi).1
        · rw [show e = _ from congrArg Prod.fst h]; exact (hp.ownInts s' hs' i hi).2
        · rw [show e = _ from congrArg Prod.fst h]; exact hp.ownBnds s' hs' b' hb'
        · rw [show e = _ from congrArg Prod.fst h]; exact hp.ownDist s' hs' b' hb'
      rw [huniq s' hs' hown, ← sides_dist sm v dat p s, mem_sides] at hk
      have hintm : ∀ i ∈ sm.ints, i ∈ m.ints := fun i hi =>
        hp.ints.mem_iff.mp (List.mem_append_left _ (List.mem_flatMap.mpr ⟨sm, hsm, hi⟩))
      rcases hk with ⟨i, hi, h | h⟩ | ⟨b', hb', h⟩ | ⟨b', hb', h⟩
      · rw [h]
        have h1 : ((i.ein, i.fin), (i.eex, i.fex)) ∈ (slMesh m).ints := List.mem_map.mpr ⟨i, hintm i hi, rfl⟩
        have h2 : ((i.ein, i.fin), (i.eex, i.fex)) ∈ (slMeshDist v dat p s sm).ints := List.mem_map.mpr ⟨i, hi, rfl⟩
        exact ⟨_, _, .intIn _ _ h1, _, .intIn _ _ h2, fun _ => rfl⟩
      · rw [h]
        have h1 : ((i.ein, i.fin), (i.eex, i.fex)) ∈ (slMesh m).ints := List.mem_map.mpr ⟨i, hintm i hi, rfl⟩
        have h2 : ((i.ein, i.fin), (i.eex, i.fex)) ∈ (slMeshDist v dat p s sm).ints := List.mem_map.mpr ⟨i, hi, rfl⟩
        exact ⟨_, _, .intEx _ _ h1, _, .intEx _ _ h2, fun _ => rfl⟩
      · rw [h]
        have h1 : (b'.e, b'.f) ∈ (slMesh m).bnds :=
          List.mem_map.mpr ⟨b', hp.bnds.mem_iff.mp (List.mem_flatMap.mpr ⟨sm, hsm, hb'⟩), rfl⟩
        have h2 : (b'.e, b'.f) ∈ (slMeshDist v dat p s sm).bnds := List.mem_map.mpr ⟨b', hb', rfl⟩
        exact ⟨_, _, .bound _ h1, _, .bound _ h2, fun _ => rfl⟩
      · rw [h]
        have h2 : ((b'.e, b'.f), slMessage (s.wet b'.e') (slBary dat p s b'.e')
            ((List.range (faceRule v.N (dat b'.e').elt.p).length).map fun gp => (ownSide v dat s.wet s.q b'.e' b'.f' gp).aux.h)) ∈
            (slMeshDist v dat p s sm).dist := List.mem_map.mpr ⟨b', hb', rfl⟩
        have hb2 := hp.dist.mem_iff.mp (List.mem_flatMap.mpr ⟨sm, hsm, hb'⟩)
        obtain ⟨i, hi, hbi⟩ := List.mem_flatMap.mp hb2
        have him : i ∈ m.ints := hp.ints.mem_iff.mp (List.mem_append_right _ hi)
        have h1 : ((i.ein, i.fin), (i.eex, i.fex)) ∈ (slMesh m).ints := List.mem_map.mpr ⟨i, him, rfl⟩
        have hmean : s.wet b'.e' = true → slBary dat p s b'.e' = means s.q b'.e' := by
          intro hw
          unfold slBary
          rw [if_pos hw]
          funext var
          exact bary_vrtx (hn3 _) _
        simp only [halves, List.mem_cons, List.not_mem_nil, or_false] at hbi
        rcases hbi with rfl | rfl
        · exact ⟨_, _, .intIn _ _ h1, _, .message _ _ _ _ h2, hmean⟩
        · exact ⟨_, _, .intEx _ _ h1, _, .message _ _ _ _ h2, hmean⟩
    choose w x h1 x' h2 h3 using hac
    rw [limiter_current v.sq v.src.g p.M p.nu p.geo (fun e => ndof (dat e).elt.p) hn3 (slMesh m) hcov.1 s.wet p.old p.store s.q e ⟨w, x⟩ h1]
    have hnd : (sides (slMeshDist v dat p s sm)).Nodup := by
      rw [sides_dist]
      exact (List.nodup_flatMap.mp (hsides.nodup_iff.mpr hcov.1)).1 sm hsm
    rw [limiter_current v.sq v.src.g p.M p.nu p.geo (fun e => ndof (dat e).elt.p) hn3 _ hnd s.wet p.old p.store s.q e ⟨w, x'⟩ h2]
    by_cases hall : ∀ b, w b = true
    · have : x' = x := funext fun b => h3 b (hall b)
      rw [this]
    · have hex : ∃ b, w b = false := by
        by_contra hcon
        apply hall
        intro b
        by_contra hb
        exact hcon ⟨b, by simpa using hb⟩
      rw [limit_dry _ _ _ _ _ _ _ ⟨w, x⟩ _ (.inr hex), limit_dry _ _ _ _ _ _ _ ⟨w, x'⟩ _ (.inr hex)]

/-! ### Stages and runs -/

/-- One stage of the partitioned program has the result of one stage of the serial program if the right-hand sides agree. -/
theorem parallel_stage_with {npts : Iface K → ℕ} {m : Mesh K} {ms : List (Mesh K)} {cut : List (Iface K)} (hp : Partitioned npts m ms cut)
    (tab : Stepper.Tableau) (ns : ℕ) (dt : K) (pp : PostParams K) (hsl : pp.sl ≠ none → Covered m ∧ ∀ e, 1 ≤ (dat e).elt.p)
    {P : (ℕ → Bool) → State K → Res (State K)} {R : (ℕ → Bool) → State K → State K} (hR : ∀ wet q, P wet q = .ok (R wet q)) (s s' : Run K) :
    stageParallelWith v dat ms tab ns dt pp P s = .ok s' ↔ stageWith v dat m tab ns dt pp R s = .ok s' := by
  have hslf : ∀ f, slParallel v dat ms pp.sl f = slAll v dat m pp.sl f := by
    intro f
    unfold slParallel slAll
    cases hq : pp.sl with
    | none => rfl
    | some p =>
      obtain ⟨h1, h2⟩ := hsl (by rw [hq]; simp)
      simp only
      rw [parallel_limited hp h1 h2]
  unfold stageParallelWith stageWith
  simp only [hR, okBind]
  have hbind : ∀ {α β : Type} (a : Res α) (f g : α → Res β) (b : β), (∀ x, f x = .ok b ↔ g x = .ok b) → ((a >>= f) = .ok b ↔ (a >>= g) = .ok b) := by
    intro α β a f g b h
    cases a with
    | error e => exact ⟨(fun h => by cases h), (fun h => by cases h)⟩
    | ok x => exact h x
  refine hbind _ _ _ _ fun cur => hbind _ _ _ _ fun sl1 => hbind _ _ _ _ fun sl2 => hbind _ _ _ _ fun new => ?_
  simp only [hslf]
  constructor
  · intro h
    obtain ⟨f, h1, h2⟩ := bindOk h
    rw [(parallel_wd hp pp.wd _ f).mp h1]
    exact h2
  · intro h
    obtain ⟨f, h1, h2⟩ := bindOk h
    rw [(parallel_wd hp pp.wd _ f).mpr h1]
    exact h2

/-- The same for any number of stages. -/
theorem parallel_run_with {npts : Iface K → ℕ} {m : Mesh K} {ms : List (Mesh K)} {cut : List (Iface K)} (hp : Partitioned npts m ms cut)
    (tab : Stepper.Tableau) (ns : ℕ) (dt : K) (pp : PostParams K) (hsl : pp.sl ≠ none → Covered m ∧ ∀ e, 1 ≤ (dat e).elt.p)
    {P : ℕ → (ℕ → Bool) → State K → Res (State K)} {R : ℕ → (ℕ → Bool) → State K → State K} (hR : ∀ k wet q, P k wet q = .ok (R k wet q)) (n : ℕ) (s s' : Run K) :
    runParallelWith v dat ms tab ns dt pp P n s = .ok s' ↔ runWith v dat m tab ns dt pp R n s = .ok s' := by
  induction n generalizing s' with
  | zero => exact Iff.rfl
  | succ n ih =>
    rw [runParallelWith, runWith]
    constructor
    · intro h
      obtain ⟨x, h1, h2⟩ := bindOk h
      rw [(ih x).mp h1]
      exact (parallel_stage_with hp tab ns dt pp hsl (hR n) x s').mp h2
    · intro h
      obtain ⟨x, h1, h2⟩ := bindOk h
      rw [(ih x).mpr h1]
      exact (parallel_stage_with hp tab ns dt pp hsl (hR n) x s').mpr h2

/-- One stage of the partitioned program has the result of one stage of the serial program. -/
theorem parallel_stage (hsp : ∀ x, v.sp x = 1) {m : Mesh K} {ms : List (Mesh K)} {cut : List (Iface K)}
    (hp : Partitioned (fun i => (i.rule v dat).length) m ms cut) (hc : ∀ i ∈ cut, Fits v dat i) (tab : Stepper.Tableau) (ns : ℕ) (dt : K)
    (pp : PostParams K) (hsl : pp.sl ≠ none → Covered m ∧ ∀ e, 1 ≤ (dat e).elt.p) (junk : State K) (t ramp : K) (s s' : Run K) :
    stageParallel v dat ms tab ns dt pp junk t ramp s = .ok s' ↔ stageSerial v dat m tab ns dt pp junk t ramp s = .ok s' :=
  parallel_stage_with hp tab ns dt pp hsl (fun wet q => parallel_rhs hsp hp hc wet t ramp q junk) s s'

/-- C70: any number of stages of the partitioned program, with wetting and drying and the limiter, have the result of the serial program; one
succeeds if and only if the other does. -/
theorem parallel_run (hsp : ∀ x, v.sp x = 1) {m : Mesh K} {ms : List (Mesh K)} {cut : List (Iface K)}
    (hp : Partitioned (fun i => (i.rule v dat).length) m ms cut) (hc : ∀ i ∈ cut, Fits v dat i) (tab : Stepper.Tableau) (ns : ℕ) (dt : K)
    (pp : PostParams K) (hsl : pp.sl ≠ none → Covered m ∧ ∀ e, 1 ≤ (dat e).elt.p) (junk : State K) (time ramp : ℕ → K) (n : ℕ) (s s' : Run K) :
    runParallel v dat ms tab ns dt pp junk time ramp n s = .ok s' ↔ runSerial v dat m tab ns dt pp junk time ramp n s = .ok s' := by
  induction n generalizing s' with
  | zero => exact Iff.rfl
  | succ n ih =>
    rw [runParallel, runSerial_succ]
    constructor
    · intro h
      obtain ⟨x, h1, h2⟩ := bindOk h
      rw [(ih x).mp h1]
      exact (parallel_stage hsp hp hc tab ns dt pp hsl junk _ _ x s').mp h2
    · intro h
      obtain ⟨x, h1, h2⟩ := bindOk h
      rw [(ih x).mpr h1]
      exact (parallel_stage hsp hp hc tab ns dt pp hsl junk _ _ x s').mpr h2

/-! ### Examples -/

/-- The two triangles on two submeshes. -/
def twoParts {K : Type} : List (Mesh K) :=
  [⟨[0], [], [⟨0, 1, .land⟩, ⟨0, 2, .land⟩], [⟨0, 0, 1, 0, .internal⟩]⟩, ⟨[1], [], [⟨1, 1, .land⟩, ⟨1, 2, .land⟩], [⟨1, 0, 0, 0, .internal⟩]⟩]

theorem two_partitioned {K : Type} (n : Iface K → ℕ) : Partitioned n twoMesh twoParts [⟨0, 0, 1, 0, .internal⟩] where
  nodup := by simp [twoMesh]
  elts := List.Perm.refl _
  ints := List.Perm.refl _
  bnds := List.Perm.refl _
  dist := List.Perm.refl _
  ownInts := by simp [twoParts]
  ownBnds := by simp [twoParts]
  ownDist := by simp [twoParts]

theorem two_fits (p : ℕ) (c : ℕ → K) (N : Numerics K) (sq : K → K)
    (hb : ∀ gp < (faceRule N p).length, Elt.value N ⟨p, ⟨⟨0, 0⟩, ⟨4, 0⟩, ⟨0, 3⟩⟩⟩ c (facePt (faceRule N p) 0 gp) =
      Elt.value N ⟨p, ⟨⟨4, 3⟩, ⟨0, 3⟩, ⟨4, 0⟩⟩⟩ c (facePt (faceRule N p) 0 ((faceRule N p).length - gp - 1))) :
    Fits (plainEnv N sq) (twoTris p fun _ => c) ⟨0, 0, 1, 0, .internal⟩ where
  degree := rfl
  ccwIn := by norm_num [twoTris, jdet, Geometry.det, jac]
  ccwEx := by norm_num [twoTris, jdet, Geometry.det, jac]
  edges := by norm_num [twoTris, faceVec, vertex]
  bath := by
    intro _ gp hg
    simp only [Iface.rule, twoTris, plainEnv, max_self] at hg ⊢
    exact hb gp hg

theorem two_covered {K : Type} : Covered (twoMesh : Mesh K) := by
  have h : sides (slMesh (twoMesh : Mesh K)) = [(0, 0), (1, 0), (0, 1), (0, 2), (1, 1), (1, 2)] := rfl
  refine ⟨by rw [h]; decide, fun e he b => ?_⟩
  rw [h]
  rcases (by simpa [twoMesh] using he : e = 0 ∨ e = 1) with rfl | rfl <;> fin_cases b <;> decide

/-- The theorem applies: two triangles over a flat bottom, the tables of the program, any state and flags, both treatments switched on. -/
example (rd : ℝ → ℝ) (wd : WdParams ℝ) (sl : SlParams ℝ) (tab : Stepper.Tableau) (ns : ℕ) (dt : ℝ) (junk : State ℝ) (time ramp : ℕ → ℝ) (n : ℕ) (s s' : Run ℝ) :
    runParallel (plainEnv (codeNumerics rd) Real.sqrt) (twoTris 1 fun _ _ => 0) twoParts tab ns dt ⟨some wd, some sl⟩ junk time ramp n s = .ok s' ↔
    runSerial (plainEnv (codeNumerics rd) Real.sqrt) (twoTris 1 fun _ _ => 0) twoMesh tab ns dt ⟨some wd, some sl⟩ junk time ramp n s = .ok s' := by
  refine parallel_run (fun _ => rfl) (two_partitioned _) (fun i hi => ?_) tab ns dt _ (fun _ => ⟨two_covered, fun _ => Nat.le_refl _⟩) junk time ramp n s s'
  obtain rfl : i = _ := by simpa using hi
  refine two_fits 1 (fun _ => 0) _ _ fun gp _ => ?_
  simp [Elt.value]

-- a wave through the cut: one stage on two submeshes
example : ((do
      let s ← stageParallel (plainEnv simpleN simpleSq) (twoTris 1 fun _ d => if d = 0 then 1 else 0) twoParts Stepper.tab11 1 (1 / 100) ⟨none, none⟩ 0 0 1
        ⟨[⟨hump, 0⟩, ⟨0, 0⟩], 0, fun _ => true, false⟩
      let c ← slotOr s.slots[s.stage]?
      return decide (c.q 0 0 0 < 1 / 2 ∧ 0 < c.q 1 0 0 ∧ c.q 0 0 0 + c.q 1 0 0 = 1 / 2)) : Res Bool) = .ok true := by decide +kernel

-- with one half of the pair missing the wave does not arrive
example : ((do
      let ms : List (Mesh ℚ) := [⟨[0], [], [⟨0, 1, .land⟩, ⟨0, 2, .land⟩], [⟨0, 0, 1, 0, .internal⟩]⟩, ⟨[1], [], [⟨1, 1, .land⟩, ⟨1, 2, .land⟩], []⟩]
      let s ← stageParallel (plainEnv simpleN simpleSq) (twoTris 1 fun _ d => if d = 0 then 1 else 0) ms Stepper.tab11 1 (1 / 100) ⟨none, none⟩ 0 0 1
        ⟨[⟨hump, 0⟩, ⟨0, 0⟩], 0, fun _ => true, false⟩
      let c ← slotOr s.slots[s.stage]?
      return decide (0 < c.q 1 0 0)) : Res Bool) = .ok false := by decide +kernel

end Verif.Swe.Props
