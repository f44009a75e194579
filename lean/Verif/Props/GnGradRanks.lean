import Verif.Lemmas.GnGradRanks
import Verif.Props.GnGrad

/-!
# C104 Derivatives by Green-Gauss and by least squares on several ranks

Partial: the property is false of the code. Proved: with interpolation and least squares as reconstructions the kernels on several ranks see the derivatives of the serial program (`seen_gg`,
`seen_ls`), and so do they in stage 0 with averages at nodes; the derivatives of the bathymetry by least squares are those of the serial program (`bath_ls_ranks`), those by Green-Gauss are the
first derivatives always and all of them with averages at nodes (`bath_gg_ranks_avg`); the data of the preprocessor are those of the serial program if it obtains any (`ready_ranks`).

Where it fails: with averages at nodes, stages after the first read what was in the array of states before the run, because the reconstruction on ranks assigns slot 0 (`avg_stale`,
`avg_never`); an element with three distributed sides has a singular matrix before the messages arrive (`pre_send_singular`); coefficients of interpolation may belong to another pair of neighbours
(`interp_last`, cases in `GnGradRanksCase`); second derivatives of the bathymetry by Green-Gauss (C103).
-/

namespace Verif.Gn.Props
open Verif.Geometry Verif.Element Verif.Swe Verif.Swe.Props Verif.Basis

section
variable {K : Type} [Field K] [LinearOrder K] [IsStrictOrderedRing K]

/-- What is required: the submeshes of all ranks make up the mesh, elements at cuts fit, no face belongs to two edges, each rank numbers all nodes of its elements. -/
structure Split (v : Env K) (dat : ℕ → EltData K) (m : Mesh K) (rs : List (List (Mesh K))) (cut : List (Iface K)) (ids : List (Mesh K) → List ℕ) (node : ℕ → ℕ → ℕ) : Prop where
  part : Partitioned (fun i => (i.rule v dat).length) m rs.flatten cut
  sides : ∀ i ∈ cut, Fits v dat i
  faces : (faceKeys m).Nodup
  once : ∀ r ∈ rs, (ids r).Nodup
  nodes : ∀ r ∈ rs, ∀ e ∈ r.flatMap Mesh.elts, ∀ k < 3, node e k ∈ ids r

variable {v : Env K} {dat : ℕ → EltData K} {m : Mesh K} {rs : List (List (Mesh K))} {cut : List (Iface K)} {ids : List (Mesh K) → List ℕ} {g g' : GradData K}

omit [LinearOrder K] [IsStrictOrderedRing K] [Field K] in
theorem ends_in {npts : Iface K → ℕ} {ms : List (Mesh K)} (hp : Partitioned npts m ms cut) : ∀ i ∈ m.ints, i.ein ∈ m.elts ∧ i.eex ∈ m.elts := by
  intro i hi
  rcases List.mem_append.1 (hp.ints.mem_iff.2 hi) with h | h
  · obtain ⟨s, hs, his⟩ := List.mem_flatMap.1 h
    have := hp.ownInts s hs i his
    exact ⟨hp.elts.mem_iff.1 (List.mem_flatMap.2 ⟨s, hs, this.1⟩), hp.elts.mem_iff.1 (List.mem_flatMap.2 ⟨s, hs, this.2⟩)⟩
  · have hh : ∀ b ∈ halves (npts i) i, b.e ∈ m.elts := by
      intro b hb
      obtain ⟨s, hs, hbs⟩ := List.mem_flatMap.1 (hp.dist.mem_iff.2 (List.mem_flatMap.2 ⟨i, h, hb⟩))
      exact hp.elts.mem_iff.1 (List.mem_flatMap.2 ⟨s, hs, hp.ownDist s hs b hbs⟩)
    exact ⟨hh (halfIn i) (by simp [halves, halfIn]), hh (halfEx (npts i) i) (by simp [halves, halfEx])⟩

omit [LinearOrder K] [IsStrictOrderedRing K] [Field K] in
theorem bnds_in {npts : Iface K → ℕ} {ms : List (Mesh K)} (hp : Partitioned npts m ms cut) : ∀ b ∈ m.bnds, b.e ∈ m.elts := by
  intro b hb
  obtain ⟨s, hs, h⟩ := List.mem_flatMap.1 (hp.bnds.mem_iff.2 hb)
  exact hp.elts.mem_iff.1 (List.mem_flatMap.2 ⟨s, hs, hp.ownBnds s hs b h⟩)

/-! ### Averages at nodes -/

omit [LinearOrder K] [IsStrictOrderedRing K] [Field K] in
theorem addLocal_at {M : Type} [AddCommMonoid M] (ids : List ℕ) (hn : ids.Nodup) (loc x : ℕ → M) (n : ℕ) :
    addLocal ids loc x n = x n + if n ∈ ids then loc (ids.idxOf n) else 0 := by
  have h : ∀ (l : List ℕ) (k : ℕ) (x : ℕ → M), l.Nodup →
      (l.zipIdx k).foldl (fun x p => Function.update x p.1 (x p.1 + loc p.2)) x n = x n + if n ∈ l then loc (k + l.idxOf n) else 0 := by
    intro l
    induction l with
    | nil => intro k x _; simp
    | cons a l ih =>
      intro k x hl
      rw [List.nodup_cons] at hl
      rw [List.zipIdx_cons, List.foldl_cons, ih (k + 1) _ hl.2]
      by_cases ha : n = a
      · subst ha
        simp [hl.1]
      · have hs : List.idxOf n (a :: l) = List.idxOf n l + 1 := List.idxOf_cons_ne l (Ne.symm ha)
        rw [Function.update_of_ne ha, hs]
        simp only [List.mem_cons, ha, false_or]
        rw [show k + 1 + List.idxOf n l = k + (List.idxOf n l + 1) by omega]
  have := h ids 0 x hn
  rwa [zero_add] at this

omit [LinearOrder K] [IsStrictOrderedRing K] [Field K] in
/-- What a rank adds at a node is the sum over its corners there. -/
theorem addRank {M : Type} [AddCommMonoid M] (node : ℕ → ℕ → ℕ) (ids : List ℕ) (hn : ids.Nodup) (elts : List ℕ) (h : ∀ e ∈ elts, ∀ k < 3, node e k ∈ ids) (y x : ℕ → M) (n : ℕ) :
    addLocal ids (fun j => (elts.map fun e => ((List.range 3).map fun k => if ids.idxOf (node e k) = j then y e else 0).sum).sum) x n =
      x n + (elts.map fun e => ((List.range 3).map fun k => if node e k = n then y e else 0).sum).sum := by
  rw [addLocal_at ids hn]
  congr 1
  split
  · next hm =>
    congr 1
    refine List.map_congr_left fun e he => ?_
    congr 1
    refine List.map_congr_left fun k hk => ?_
    have := h e he k (List.mem_range.1 hk)
    simp only [List.idxOf_inj this]
  · next hm =>
    symm
    refine List.sum_eq_zero fun z hz => ?_
    obtain ⟨e, he, rfl⟩ := List.mem_map.1 hz
    refine List.sum_eq_zero fun z hz => ?_
    obtain ⟨k, hk, rfl⟩ := List.mem_map.1 hz
    refine if_neg fun (hk' : node e k = n) => hm ?_
    rw [← hk']
    exact h e he k (List.mem_range.1 hk)

omit [LinearOrder K] [IsStrictOrderedRing K] in
theorem sums_ranks (node : ℕ → ℕ → ℕ) (h1 : ∀ r ∈ rs, (ids r).Nodup) (h2 : ∀ r ∈ rs, ∀ e ∈ r.flatMap Mesh.elts, ∀ k < 3, node e k ∈ ids r)
    (hp : (rs.flatten.flatMap Mesh.elts).Perm m.elts) (c : ℕ → K) (n : ℕ) : globalSums node ids rs c n = nodeSums node m c n := by
  have hg : ∀ (l : List (List (Mesh K))), (∀ r ∈ l, r ∈ rs) → ∀ x : ℕ → K, l.foldl (fun x r => addLocal (ids r) (localSums node (ids r) r c) x) x n =
      x n + ((l.flatten.flatMap Mesh.elts).map fun e => ((List.range 3).map fun k => if node e k = n then c e else 0).sum).sum := by
    intro l
    induction l with
    | nil => intro _ x; simp
    | cons r l ih =>
      intro hl x
      rw [List.foldl_cons, ih fun s hs => hl s (List.mem_cons_of_mem _ hs), List.flatten_cons, List.flatMap_append, List.map_append, List.sum_append]
      have hr := hl r List.mem_cons_self
      have e1 : localSums node (ids r) r c = fun j => ((r.flatMap Mesh.elts).map fun e => ((List.range 3).map fun k => if (ids r).idxOf (node e k) = j then c e else 0).sum).sum :=
        funext fun j => nodeSums_eq (fun e k => (ids r).idxOf (node e k)) (⟨r.flatMap Mesh.elts, [], [], []⟩ : Mesh K) c j
      rw [e1, addRank node (ids r) (h1 r hr) _ (h2 r hr), add_assoc]
  unfold globalSums
  rw [hg rs (fun _ h => h), zero_add, nodeSums_eq]
  exact (hp.map _).sum_eq

omit [IsStrictOrderedRing K] in
theorem mult_ranks (node : ℕ → ℕ → ℕ) (h1 : ∀ r ∈ rs, (ids r).Nodup) (h2 : ∀ r ∈ rs, ∀ e ∈ r.flatMap Mesh.elts, ∀ k < 3, node e k ∈ ids r)
    (hp : (rs.flatten.flatMap Mesh.elts).Perm m.elts) (n : ℕ) : globalMult node ids rs n = nodeMult node m n := by
  have hg : ∀ (l : List (List (Mesh K))), (∀ r ∈ l, r ∈ rs) → ∀ x : ℕ → ℕ, l.foldl (fun x r => addLocal (ids r) (localMult node (ids r) r) x) x n =
      x n + ((l.flatten.flatMap Mesh.elts).map fun e => ((List.range 3).map fun k => if node e k = n then 1 else 0).sum).sum := by
    intro l
    induction l with
    | nil => intro _ x; simp
    | cons r l ih =>
      intro hl x
      rw [List.foldl_cons, ih fun s hs => hl s (List.mem_cons_of_mem _ hs), List.flatten_cons, List.flatMap_append, List.map_append, List.sum_append]
      have hr := hl r List.mem_cons_self
      have e1 : localMult node (ids r) r = fun j => ((r.flatMap Mesh.elts).map fun e => ((List.range 3).map fun k => if (ids r).idxOf (node e k) = j then 1 else 0).sum).sum :=
        funext fun j => nodeMult_eq (fun e k => (ids r).idxOf (node e k)) (⟨r.flatMap Mesh.elts, [], [], []⟩ : Mesh K) j
      rw [e1, addRank node (ids r) (h1 r hr) _ (h2 r hr) (fun _ => 1), add_assoc]
  unfold globalMult
  rw [hg rs (fun _ h => h), zero_add, nodeMult_eq]
  exact (hp.map _).sum_eq

omit [Field K] [LinearOrder K] [IsStrictOrderedRing K] in
theorem rank_of {e : ℕ} (he : e ∈ rs.flatten.flatMap Mesh.elts) : rankOf rs e ∈ rs ∧ e ∈ (rankOf rs e).flatMap Mesh.elts := by
  unfold rankOf
  cases h : rs.find? fun r => (r.flatMap Mesh.elts).contains e with
  | some r => exact ⟨List.mem_of_find?_eq_some h, by simpa using List.find?_some h⟩
  | none =>
    exfalso
    rw [List.find?_eq_none] at h
    obtain ⟨s, hs, hes⟩ := List.mem_flatMap.1 he
    obtain ⟨r, hr, hsr⟩ := List.mem_flatten.1 hs
    exact h r hr (by simpa using ⟨s, hsr, hes⟩)

omit [IsStrictOrderedRing K] in
/-- Averages at nodes are those of the whole mesh. -/
theorem avg_ranks {node : ℕ → ℕ → ℕ} (h : Split v dat m rs cut ids node) (c : ℕ → K) {e k : ℕ} (he : e ∈ m.elts) (hk : k < 3) :
    reconAvgP node ids rs c (rankOf rs e) e k = reconAvg node m c e k := by
  obtain ⟨hr, her⟩ := rank_of (h.part.elts.mem_iff.2 he)
  have hid := h.nodes _ hr e her k hk
  have hj : (ids (rankOf rs e)).getD ((ids (rankOf rs e)).idxOf (node e k)) 0 = node e k := by
    rw [List.getD_eq_getElem?_getD, List.getElem?_eq_getElem (List.idxOf_lt_length_iff.2 hid)]
    exact List.getElem_idxOf (List.idxOf_lt_length_iff.2 hid)
  unfold reconAvgP reconAvg
  simp only [hj]
  rw [sums_ranks node h.once h.nodes h.part.elts, mult_ranks node h.once h.nodes h.part.elts]

/-! ### Reconstructions -/

/-- Coefficients of interpolation that give the same values: a neighbour with coefficient zero does not matter. -/
def SameUse (x y : Interp K) : Prop := x.a0 = y.a0 ∧ x.e0 = y.e0 ∧ x.a1 = y.a1 ∧ (x.a1 = 0 ∨ x.e1 = y.e1)

/-- Data of the preprocessor that agree in the elements of the mesh; `g'` are those on several ranks. -/
structure SameData (m : Mesh K) (g' g : GradData K) : Prop where
  P : ∀ e ∈ m.elts, g'.P e = g.P e
  a : ∀ e ∈ m.elts, ∀ f < 3, SameUse (g'.a e f) (g.a e f)
  node : g'.node = g.node

omit [LinearOrder K] [IsStrictOrderedRing K] in
theorem SameData.refl (m : Mesh K) (g : GradData K) : SameData m g g := ⟨fun _ _ => rfl, fun _ _ _ _ => ⟨rfl, rfl, rfl, .inr rfl⟩, rfl⟩

/-- Two arrays of vertex values agree in the elements of the mesh. -/
def Same (m : Mesh K) (lin lin' : ℕ → ℕ → K) : Prop := ∀ e ∈ m.elts, ∀ k < 3, lin e k = lin' e k

omit [LinearOrder K] [IsStrictOrderedRing K] in
theorem nodeSums_congr (node : ℕ → ℕ → ℕ) {c c' : ℕ → K} (hc : ∀ e ∈ m.elts, c e = c' e) : nodeSums node m c = nodeSums node m c' := by
  funext n
  rw [nodeSums_eq, nodeSums_eq]
  congr 1
  exact List.map_congr_left fun e he => by rw [hc e he]

omit [IsStrictOrderedRing K] in
/-- **C104** Each reconstruction on several ranks is the one of the whole mesh. -/
theorem recon_ranks (h : Split v dat m rs cut ids g.node) (hg : SameData m g' g) (k : Recon) {c c' : ℕ → K} (hc : ∀ e ∈ m.elts, c e = c' e) : Same m (reconP dat ids rs g' k c) (recon dat m g k c') := by
  intro e he w hw
  cases k with
  | avg =>
    change reconAvgP g'.node ids rs c (rankOf rs e) e w = reconAvg g.node m c' e w
    rw [hg.node, avg_ranks h c he hw]
    unfold reconAvg
    rw [nodeSums_congr g.node hc]
  | int =>
    change reconIntP rs.flatten g'.a c e w = reconInt m g.a c' e w
    unfold reconIntP reconInt fromMids
    rw [nbsP_eq h.part h.faces, nbs_congr_on (ends_in h.part) (bnds_in h.part) hc (fun e he _ => hc e he), hc e he]
    congr 1
    refine List.map_congr_left fun f hf => ?_
    obtain ⟨h0, h1, h2, h3⟩ := hg.a e he f (List.mem_range.1 hf)
    beta_reduce
    congr 1
    rcases h3 with h3 | h3
    · rw [← h2, h3, h0, h1]
      ring
    · rw [h0, h1, h2, h3]
  | ls =>
    change reconLsP dat rs.flatten g'.P c e w = reconLs dat m g.P c' e w
    unfold reconLsP reconLs
    rw [hg.P e he, nbsP_eq h.part h.faces, nbs_congr_on (ends_in h.part) (bnds_in h.part) hc (fun e he _ => hc e he), hc e he]

omit [LinearOrder K] [IsStrictOrderedRing K] in
theorem atBary_same {lin lin' : ℕ → K} (h : ∀ k < 3, lin k = lin' k) : atBary lin = atBary lin' := by
  unfold atBary
  rw [h 0 (by omega), h 1 (by omega), h 2 (by omega)]

omit [LinearOrder K] [IsStrictOrderedRing K] in
theorem atMid_same {lin lin' : ℕ → K} (h : ∀ k < 3, lin k = lin' k) (f : ℕ) : atMid lin f = atMid lin' f := by
  unfold atMid
  rw [h 0 (by omega), h 1 (by omega), h 2 (by omega)]

omit [IsStrictOrderedRing K] in
/-- **C104** Least squares on several ranks. -/
theorem lsq_ranks (h : Split v dat m rs cut ids g.node) (hg : SameData m g' g) {lin lin' : ℕ → ℕ → K} (hl : Same m lin lin') (dir : ℕ) {e : ℕ} (he : e ∈ m.elts) :
    lsqLinP rs.flatten g'.P lin dir e = lsqLin m g.P lin' dir e := by
  unfold lsqLinP lsqLin lsqP lsq
  rw [nbsP_eq h.part h.faces, nbs_congr_on (ends_in h.part) (bnds_in h.part) (fun e he => atBary_same (hl e he)) (fun e he f => atMid_same (hl e he) f)]
  beta_reduce
  rw [atBary_same (hl e he), hg.P e he]

theorem lsLin_ranks (h : Split v dat m rs cut ids g.node) (hg : SameData m g' g) (k : Recon) {lin lin' : ℕ → ℕ → K} (hl : Same m lin lin') (dir : ℕ) :
    Same m (lsLinP dat ids rs g' k lin dir) (lsLin dat m g k lin' dir) := recon_ranks h hg k fun _ he => lsq_ranks h hg hl dir he

/-! ### Green-Gauss -/

omit [IsStrictOrderedRing K] in
/-- Rows that agree in the elements of the mesh. -/
theorem ggWith_same {npts : Iface K → ℕ} {ms : List (Mesh K)} (hp : Partitioned npts m ms cut) {fi fe fi' fe' : Iface K → ℕ → K} {F F' : Row K} (h : ∀ i ∈ m.ints, fi i = fi' i ∧ fe i = fe' i)
    (hF : ∀ e ∈ m.elts, F e = F' e) (dir : ℕ) : ggWith v dat m fi fe F dir = ggWith v dat m fi' fe' F' dir := by
  funext e
  rw [ggWith_sum, ggWith_sum]
  congr 2
  · refine List.map_congr_left fun i hi => ?_
    unfold ggI
    rw [(h i hi).1, (h i hi).2]
  · refine List.map_congr_left fun b hb => ?_
    unfold ggB
    rw [hF _ (bnds_in hp b hb)]

/-- **C104** Green-Gauss from own values on several ranks is that of the whole mesh. -/
theorem gg_ranks (h : Split v dat m rs cut ids g.node) {F F' : Row K} (hF : ∀ e ∈ m.elts, F e = F' e) (dir : ℕ) : ggP v dat rs.flatten F dir = gg v dat m F' dir := by
  funext e
  unfold ggP
  rw [ggWithP_eq (fi' := ownIn v dat F) (fe' := ownEx v dat F) h.part h.sides (fun _ _ _ _ => ⟨rfl, rfl⟩) (fun _ _ _ _ => ⟨rfl, rfl⟩)]
  refine congrFun (ggWith_same h.part (fun i hi => ?_) hF dir) e
  unfold ownIn ownEx
  rw [hF _ (ends_in h.part i hi).1, hF _ (ends_in h.part i hi).2]
  exact ⟨rfl, rfl⟩

/-- **C104** With averages at interfaces: own values at the cut ones. -/
theorem ggHat_ranks (h : Split v dat m rs cut ids g.node) {isc : Iface K → Bool} (h1 : ∀ i ∈ cut, isc i = true) (h2 : ∀ s ∈ rs.flatten, ∀ i ∈ s.ints, isc i = false) {F F' : Row K}
    (hF : ∀ e ∈ m.elts, F e = F' e) (dir : ℕ) : ggHatP v dat rs.flatten F dir = ggCut v dat m isc F' dir := by
  funext e
  unfold ggHatP ggCut
  rw [ggWithP_eq (fi' := fun i => if isc i then ownIn v dat F i else hatIn v dat F i) (fe' := fun i => if isc i then ownEx v dat F i else hatEx v dat F i) h.part h.sides
    (fun s hs i hi => by rw [h2 s hs i hi]; exact ⟨rfl, rfl⟩) (fun i hi gp _ => by rw [if_pos (h1 i hi), if_pos (h1 i hi)]; exact ⟨rfl, rfl⟩)]
  refine congrFun (ggWith_same h.part (fun i hi => ?_) hF dir) e
  obtain ⟨e1, e2⟩ := ends_in h.part i hi
  have : ownIn v dat F i = ownIn v dat F' i ∧ ownEx v dat F i = ownEx v dat F' i ∧ hatIn v dat F i = hatIn v dat F' i ∧ hatEx v dat F i = hatEx v dat F' i := by
    refine ⟨?_, ?_, ?_, ?_⟩
    · unfold ownIn; rw [hF _ e1]
    · unfold ownEx; rw [hF _ e2]
    · unfold hatIn; rw [hF _ e1, hF _ e2]
    · unfold hatEx hatIn; rw [hF _ e1, hF _ e2]
  rw [this.1, this.2.1, this.2.2.1, this.2.2.2]
  exact ⟨rfl, rfl⟩

theorem ggLin_ranks (h : Split v dat m rs cut ids g.node) (hg : SameData m g' g) (k : Recon) {F F' : Row K} (hF : ∀ e ∈ m.elts, F e = F' e) (dir : ℕ) :
    Same m (ggLinP v dat ids rs g' k F dir) (ggLin v dat m g k F' dir) := by
  refine recon_ranks h hg k fun e _ => ?_
  rw [gg_ranks h hF]

omit [LinearOrder K] [IsStrictOrderedRing K] in
theorem toBasis_same {w w' : ℕ → K} (h : ∀ k < 3, w k = w' k) : linearToBasis w = linearToBasis w' := by
  funext d
  unfold linearToBasis
  congr 1
  exact List.map_congr_left fun k hk => by rw [h k (List.mem_range.1 hk)]

omit [LinearOrder K] [IsStrictOrderedRing K] in
theorem linRow_same {lin lin' : ℕ → ℕ → K} (h : Same m lin lin') : ∀ e ∈ m.elts, linRow v dat lin e = linRow v dat lin' e := by
  intro e he
  funext z
  unfold linRow rowOf
  beta_reduce
  rw [toBasis_same (h e he)]

/-! ### The bathymetry -/

/-- **C104** All derivatives of the bathymetry by least squares, with any reconstruction. -/
theorem bath_ls_ranks (h : Split v dat m rs cut ids g.node) (hg : SameData m g' g) (k : Recon) (r : ℕ) : Same m (dbathLsR dat ids rs g' k r) (dbathLs dat m g k r) ∧
    Same m (ddbathLsR dat ids rs g' k r) (ddbathLs dat m g k r) ∧ Same m (dddbathLsR dat ids rs g' k r) (dddbathLs dat m g k r) := by
  have h1 : ∀ r, Same m (dbathLsR dat ids rs g' k r) (dbathLs dat m g k r) := fun r => lsLin_ranks h hg k (fun _ _ _ _ => rfl) r
  have h2 : ∀ r, Same m (ddbathLsR dat ids rs g' k r) (ddbathLs dat m g k r) := fun r => lsLin_ranks h hg k (h1 (r / 2)) (r % 2)
  exact ⟨h1 r, h2 r, lsLin_ranks h hg k (h2 (r / 2)) (r % 2)⟩

/-- **C104** First derivatives by Green-Gauss; second ones are those with own values at the cut interfaces. -/
theorem bath_gg_ranks (h : Split v dat m rs cut ids g.node) (hg : SameData m g' g) (k : Recon) {isc : Iface K → Bool} (h1 : ∀ i ∈ cut, isc i = true) (h2 : ∀ s ∈ rs.flatten, ∀ i ∈ s.ints, isc i = false) (r : ℕ) :
    Same m (dbathGgR v dat ids rs g' k r) (dbathGg v dat m g k r) ∧ Same m (ddbathGgR v dat ids rs g' k r) (ddbathGgP v dat m g k isc r) := by
  have hd : ∀ r, Same m (dbathGgR v dat ids rs g' k r) (dbathGg v dat m g k r) := fun r => ggLin_ranks h hg k (fun _ _ => rfl) r
  refine ⟨hd r, recon_ranks h hg k fun e _ => ?_⟩
  rw [ggHat_ranks h h1 h2 (linRow_same (hd (r / 2)))]

/-! ### What the kernels see -/

/-- Coefficients that agree in the elements. -/
structure SeenSame (m : Mesh K) (s s' : Seen K) : Prop where
  dze : ∀ r, ∀ e ∈ m.elts, s.dze r e = s'.dze r e
  du : ∀ r, ∀ e ∈ m.elts, s.du r e = s'.du r e
  ddu : ∀ r, ∀ e ∈ m.elts, s.ddu r e = s'.ddu r e

omit [LinearOrder K] [IsStrictOrderedRing K] in
theorem coefs_same {lin lin' : ℕ → ℕ → ℕ → K} (h : ∀ r, Same m (lin r) (lin' r)) : ∀ r, ∀ e ∈ m.elts, coefs lin r e = coefs lin' r e :=
  fun r e he => toBasis_same (h r e he)

/-- **C104** With Green-Gauss the kernels see the derivatives of the serial program if the slot of the stage is assigned. -/
theorem seen_gg (h : Split v dat m rs cut ids g.node) (hg : SameData m g' g) {k : Recon} {stage : ℕ} (hs : k ≠ .avg ∨ stage = 0) (q : State K) (s : Slots K) :
    SeenSame m (stageGg v dat ids rs g' k stage q s).2 (seenGg v dat g k m q) := by
  have hk : slotOf stage k = stage := by
    cases k with
    | avg => rcases hs with hs | rfl; exacts [absurd rfl hs, rfl]
    | int => rfl
    | ls => rfl
  have hu : ∀ r, Same m (ggLinP v dat ids rs g' k (uRow v dat q (r / 2)) (r % 2)) (duGg v dat m g k q r) := fun r => ggLin_ranks h hg k (fun _ _ => rfl) _
  refine ⟨?_, coefs_same hu, ?_⟩
  · intro r e he
    simp only [stageGg, hk, Function.update_self]
    exact coefs_same (fun dir => ggLin_ranks h hg k (fun _ _ => rfl) dir) r e he
  · intro r e he
    simp only [stageGg, hk, Function.update_self]
    refine coefs_same (lin' := dduGg v dat m g k q) (fun r => ggLin_ranks h hg k (fun e he => ?_) (r % 2)) r e he
    funext z
    change rowOf v dat (coefs _ (r / 2)) e z = rowOf v dat (fun e => linearToBasis (duGg v dat m g k q (r / 2) e)) e z
    unfold rowOf
    rw [coefs_same hu _ e he]
    rfl

/-- **C104** The same with least squares. -/
theorem seen_ls (h : Split v dat m rs cut ids g.node) (hg : SameData m g' g) {k : Recon} {stage : ℕ} (hs : k ≠ .avg ∨ stage = 0) (q : State K) (s : Slots K) :
    SeenSame m (stageLs v dat ids rs g' k stage q s).2 (seenLs v dat g k m q) := by
  have hk : slotOf stage k = stage := by
    cases k with
    | avg => rcases hs with hs | rfl; exacts [absurd rfl hs, rfl]
    | int => rfl
    | ls => rfl
  have hu : ∀ r, Same m (lsLinP dat ids rs g' k (uLin v dat q (r / 2)) (r % 2)) (duLs v dat m g k q r) := fun r => lsLin_ranks h hg k (fun _ _ _ _ => rfl) _
  refine ⟨?_, coefs_same hu, ?_⟩
  · intro r e he
    simp only [stageLs, hk, Function.update_self]
    exact coefs_same (fun dir => lsLin_ranks h hg k (fun _ _ _ _ => rfl) dir) r e he
  · intro r e he
    exact coefs_same (lin' := dduLs v dat m g k q) (fun r => lsLin_ranks h hg k (hu (r / 2)) (r % 2)) r e he

/-- **C104** With averages at nodes first derivatives of the velocity are those of the serial program in every stage, with least squares second ones too. -/
theorem seen_avg (h : Split v dat m rs cut ids g.node) (hg : SameData m g' g) (stage : ℕ) (q : State K) (s : Slots K) : (∀ r, ∀ e ∈ m.elts, (stageGg v dat ids rs g' .avg stage q s).2.du r e = (seenGg v dat g .avg m q).du r e) ∧
    (∀ r, ∀ e ∈ m.elts, (stageLs v dat ids rs g' .avg stage q s).2.du r e = (seenLs v dat g .avg m q).du r e) ∧
      ∀ r, ∀ e ∈ m.elts, (stageLs v dat ids rs g' .avg stage q s).2.ddu r e = (seenLs v dat g .avg m q).ddu r e := by
  have h1 := (seen_gg h hg (.inr rfl) q s (k := .avg)).du
  have h2 := seen_ls h hg (.inr rfl) q s (k := .avg)
  exact ⟨h1, h2.du, h2.ddu⟩

omit [IsStrictOrderedRing K] in
/-- **C104** But the derivatives of the level that kernels of later stages read, and with Green-Gauss the derivatives of the velocity from which second ones are computed, are what the slot held
before: the current state does not matter. -/
theorem avg_stale {stage : ℕ} (hs : stage ≠ 0) (q : State K) (s : Slots K) : (stageGg v dat ids rs g' .avg stage q s).2.dze = s.dze stage ∧ (stageLs v dat ids rs g' .avg stage q s).2.dze = s.dze stage ∧
    (stageGg v dat ids rs g' .avg stage q s).2.ddu = coefs fun r => ggLinP v dat ids rs g' .avg (rowOf v dat (s.du stage (r / 2))) (r % 2) := by
  refine ⟨?_, ?_, ?_⟩
  · simp only [stageGg, slotOf]; rw [Function.update_of_ne hs]
  · simp only [stageLs, slotOf]; rw [Function.update_of_ne hs]
  · simp only [stageGg, slotOf]; rw [Function.update_of_ne hs]

/-- The states after a sequence of stages. -/
def slotsAfter (f : ℕ → State K → Slots K → Slots K × Seen K) (l : List (ℕ × State K)) (s : Slots K) : Slots K := l.foldl (fun s x => (f x.1 x.2 s).1) s

omit [IsStrictOrderedRing K] in
/-- **C104** Whatever stages run, with averages at nodes no slot but the first is ever assigned. -/
theorem avg_never (l : List (ℕ × State K)) (s : Slots K) {stage : ℕ} (hs : stage ≠ 0) :
    (slotsAfter (stageGg v dat ids rs g' .avg) l s).dze stage = s.dze stage ∧ (slotsAfter (stageGg v dat ids rs g' .avg) l s).du stage = s.du stage ∧
      (slotsAfter (stageLs v dat ids rs g' .avg) l s).dze stage = s.dze stage ∧ (slotsAfter (stageLs v dat ids rs g' .avg) l s).du stage = s.du stage := by
  have hg : ∀ (l : List (ℕ × State K)) (s : Slots K), (slotsAfter (stageGg v dat ids rs g' .avg) l s).dze stage = s.dze stage ∧ (slotsAfter (stageGg v dat ids rs g' .avg) l s).du stage = s.du stage := by
    intro l
    induction l with
    | nil => intro s; exact ⟨rfl, rfl⟩
    | cons x l ih =>
      intro s
      obtain ⟨i1, i2⟩ := ih (stageGg v dat ids rs g' .avg x.1 x.2 s).1
      refine ⟨i1.trans ?_, i2.trans ?_⟩ <;> simp only [stageGg, slotOf] <;> rw [Function.update_of_ne hs]
  have hl : ∀ (l : List (ℕ × State K)) (s : Slots K), (slotsAfter (stageLs v dat ids rs g' .avg) l s).dze stage = s.dze stage ∧ (slotsAfter (stageLs v dat ids rs g' .avg) l s).du stage = s.du stage := by
    intro l
    induction l with
    | nil => intro s; exact ⟨rfl, rfl⟩
    | cons x l ih =>
      intro s
      obtain ⟨i1, i2⟩ := ih (stageLs v dat ids rs g' .avg x.1 x.2 s).1
      refine ⟨i1.trans ?_, i2.trans ?_⟩ <;> simp only [stageLs, slotOf] <;> rw [Function.update_of_ne hs]
  exact ⟨(hg l s).1, (hg l s).2, (hl l s).1, (hl l s).2⟩

/-! ### The data of the preprocessor -/

omit [Field K] [LinearOrder K] [IsStrictOrderedRing K] in
theorem isCut_iff (ms : List (Mesh K)) (e f : ℕ) : isCut ms e f = true ↔ (e, f) ∈ (ms.flatMap Mesh.dist).map fun b => (b.e, b.f) := by
  unfold isCut
  rw [List.any_eq_true, List.mem_map]
  simp

omit [IsStrictOrderedRing K] in
/-- Before the messages: the coordinates of the serial program at faces that are not cut, zeros at the others. -/
theorem coordPre_at {npts : Iface K → ℕ} {ms : List (Mesh K)} (hp : Partitioned npts m ms cut) (hf : (faceKeys m).Nodup) (e f : ℕ) :
    coordPre dat ms e f = if isCut ms e f then ⟨0, 0⟩ else nbCoord dat m e f := by
  rw [← coordPost_eq dat hp hf]
  have hpre : coordPre dat ms = assign (ms.flatMap fun m => m.ints.flatMap (nbI fun e => barycentre (dat e).elt.tri) ++ m.bnds.flatMap (nbB fun e f => Geometry.midpoint (dat e).elt.tri f)) fun _ _ => ⟨0, 0⟩ := by
    unfold coordPre
    rw [← assign_flat]
    refine List.foldl_ext _ _ _ fun r m _ => ?_
    rw [nbs_assign]
  have hk : ((ms.flatMap fun m => m.dist.flatMap (nbD fun e => barycentre (dat e).elt.tri)).map fun c => (c.1, c.2.1)) = (ms.flatMap Mesh.dist).map fun b => (b.e, b.f) := by
    rw [List.map_flatMap, List.map_flatMap]
    refine List.flatMap_congr fun s _ => ?_
    rw [List.map_flatMap, List.map_eq_flatMap]
    rfl
  split
  · next hc =>
    rw [hpre]
    refine assign_none _ _ _ _ fun hm => ?_
    have h := ((List.flatMap_append_perm ms (fun m => m.ints.flatMap (nbI fun e => barycentre (dat e).elt.tri) ++ m.bnds.flatMap (nbB fun e f => Geometry.midpoint (dat e).elt.tri f))
      fun m => m.dist.flatMap (nbD fun e => barycentre (dat e).elt.tri)).trans
        (meshes_perm hp (nbI fun e => barycentre (dat e).elt.tri) (nbB fun e f => Geometry.midpoint (dat e).elt.tri f) (nbD fun e => barycentre (dat e).elt.tri) fun _ _ => rfl)).map fun c => (c.1, c.2.1)
    rw [nb_keys, List.map_append, hk] at h
    exact (List.nodup_append.1 (h.nodup_iff.2 hf)).2.2 _ hm _ ((isCut_iff ms e f).1 hc) rfl
  · next hc =>
    rw [coordPost_assign, assign_append, ← hpre, assign_none]
    rw [hk]
    exact fun hm => hc ((isCut_iff ms e f).2 hm)

omit [IsStrictOrderedRing K] in
/-- Three neighbours in one direction. -/
theorem pCols_line {D : ℕ → P2 K} {d : P2 K} (h : ∀ f < 3, D f = d) : pCols D = none := by
  unfold pCols
  rw [if_pos]
  unfold normalM Geometry.det
  simp only [List.range_succ, List.range_zero, List.nil_append, List.cons_append, List.map_cons, List.map_nil, List.sum_cons, List.sum_nil, h 0 (by omega), h 1 (by omega), h 2 (by omega)]
  ring

omit [IsStrictOrderedRing K] in
/-- **C104** If all sides of an element are cut, the matrix that is inverted before the messages is singular, whatever the element: the preprocessor has no result. -/
theorem pre_send_singular {npts : Iface K → ℕ} {ms : List (Mesh K)} (hp : Partitioned npts m ms cut) (hf : (faceKeys m).Nodup) {e : ℕ} (he : e ∈ m.elts)
    (hc : ∀ f < 3, isCut ms e f = true) : ¬∃ g, ReadyP dat ms g := by
  rintro ⟨g, hg⟩
  refine hg.pre e (hp.elts.mem_iff.2 he) (pCols_line (d := ⟨-(barycentre (dat e).elt.tri).x, -(barycentre (dat e).elt.tri).y⟩) fun f hf3 => ?_)
  unfold dColOf
  rw [coordPre_at hp hf, if_pos (hc f hf3)]
  simp

/-- A pair of neighbours whose coefficients are accepted. -/
def Accepted (t : Tri K) (nb : ℕ → P2 K) (f perm : ℕ) : Prop :=
  ∃ a, solveAlpha (Geometry.midpoint t f) (barycentre t) (nb f) (nb ((f + perm + 1) % 3)) = some a ∧ 0 ≤ snap a.1 ∧ 0 ≤ snap a.2

omit [IsStrictOrderedRing K] in
/-- Only pairs that are tried matter. -/
theorem findIf_congr {tryIt : ℕ → Bool} {t : Tri K} {nb nb' : ℕ → P2 K} {f : ℕ} (h : ∀ perm, tryIt perm = true → nb f = nb' f ∧ nb ((f + perm + 1) % 3) = nb' ((f + perm + 1) % 3)) (l : List ℕ) :
    findIf tryIt t nb f l = findIf tryIt t nb' f l := by
  induction l with
  | nil => rfl
  | cons perm l ih =>
    simp only [findIf]
    rw [ih]
    by_cases hp : tryIt perm = true
    · rw [if_pos hp, if_pos hp, (h perm hp).1, (h perm hp).2]
    · rw [if_neg hp, if_neg hp]

section
variable {t : Tri K} {pre nb : ℕ → P2 K} {c : ℕ → Bool} {f : ℕ}

omit [IsStrictOrderedRing K] in
theorem pre_nb (hpre : ∀ f, c f = false → pre f = nb f) (l : List ℕ) :
    findIf (fun perm => !pairCut c f perm) t pre f l = findIf (fun perm => !pairCut c f perm) t nb f l := by
  refine findIf_congr (fun perm h => ?_) l
  have : c f = false ∧ c ((f + perm + 1) % 3) = false := by simpa [pairCut] using h
  exact ⟨hpre _ this.1, hpre _ this.2⟩

omit [IsStrictOrderedRing K] in
/-- **C104** The coefficients of interpolation are those of the serial program unless the first pair has no cut side, the second one has, and both are accepted. -/
theorem interp_ranks (hpre : ∀ f, c f = false → pre f = nb f) (hs : ∀ perm < 2, solveAlpha (Geometry.midpoint t f) (barycentre t) (nb f) (nb ((f + perm + 1) % 3)) ≠ none)
    (hno : ¬(pairCut c f 0 = false ∧ pairCut c f 1 = true ∧ Accepted t nb f 0 ∧ Accepted t nb f 1)) : interpP t pre nb c f = interp t nb f := by
  obtain ⟨a, ha⟩ := Option.ne_none_iff_exists'.1 (hs 0 (by omega))
  obtain ⟨b, hb⟩ := Option.ne_none_iff_exists'.1 (hs 1 (by omega))
  have A0 : Accepted t nb f 0 ↔ 0 ≤ snap a.1 ∧ 0 ≤ snap a.2 := ⟨fun ⟨x, hx, h⟩ => by rw [ha] at hx; cases hx; exact h, fun h => ⟨a, ha, h⟩⟩
  have A1 : Accepted t nb f 1 ↔ 0 ≤ snap b.1 ∧ 0 ≤ snap b.2 := ⟨fun ⟨x, hx, h⟩ => by rw [hb] at hx; cases hx; exact h, fun h => ⟨b, hb, h⟩⟩
  rw [A0, A1] at hno
  unfold interpP interp
  rw [pre_nb hpre]
  simp only [findIf, findInterp, ha, hb]
  by_cases h0 : 0 ≤ snap a.1 ∧ 0 ≤ snap a.2 <;> by_cases h1 : 0 ≤ snap b.1 ∧ 0 ≤ snap b.2 <;> rcases Bool.eq_false_or_eq_true (pairCut c f 0) with hc0 | hc0 <;>
    rcases Bool.eq_false_or_eq_true (pairCut c f 1) with hc1 | hc1 <;> simp [h0, h1, hc0, hc1] <;> exact (hno ⟨hc0, hc1, h0, h1⟩).elim

omit [IsStrictOrderedRing K] in
/-- **C104** In that case the second pair is used, the serial program uses the first one. -/
theorem interp_last (hpre : ∀ f, c f = false → pre f = nb f) (h0 : pairCut c f 0 = false) (h1 : pairCut c f 1 = true) (a0 : Accepted t nb f 0) (a1 : Accepted t nb f 1) :
    ∃ x y, interpP t pre nb c f = some x ∧ interp t nb f = some y ∧ x.e1 = (f + 2) % 3 ∧ y.e1 = (f + 1) % 3 := by
  obtain ⟨a, ha, hA⟩ := a0
  obtain ⟨b, hb, hB⟩ := a1
  refine ⟨⟨snap b.1, snap b.2, f, (f + 1 + 1) % 3⟩, ⟨snap a.1, snap a.2, f, (f + 0 + 1) % 3⟩, ?_, ?_, rfl, rfl⟩
  · unfold interpP
    rw [pre_nb hpre]
    simp only [findIf, ha, hb, h0, h1]
    simp [hA, hB]
  · unfold interp
    simp only [findInterp, ha]
    rw [if_pos hA]

end

/-- The midpoint of the side is on the line from the barycentre to the neighbour. At a boundary it is the neighbour itself. -/
def Aligned (t : Tri K) (n : P2 K) (f : ℕ) : Prop :=
  ∃ s, (Geometry.midpoint t f).x - (barycentre t).x = s * (n.x - (barycentre t).x) ∧ (Geometry.midpoint t f).y - (barycentre t).y = s * (n.y - (barycentre t).y)

omit [LinearOrder K] [IsStrictOrderedRing K] in
/-- Then the other neighbour does not matter. -/
theorem slAlpha_line {mid bary n1 n2 : P2 K} {s : K} (h : Geometry.det (⟨n1.x - bary.x, n2.x - bary.x, n1.y - bary.y, n2.y - bary.y⟩ : M2 K) ≠ 0)
    (h1 : mid.x - bary.x = s * (n1.x - bary.x)) (h2 : mid.y - bary.y = s * (n1.y - bary.y)) : slAlpha mid bary n1 n2 = (s, 0) := by
  unfold slAlpha inv
  simp only [h1, h2]
  generalize hD : Geometry.det (⟨n1.x - bary.x, n2.x - bary.x, n1.y - bary.y, n2.y - bary.y⟩ : M2 K) = D at *
  unfold Geometry.det at hD
  ext
  · field_simp
    rw [← hD]
    ring
  · field_simp
    ring

omit [IsStrictOrderedRing K] in
/-- **C104** If the exceptional pairs occur only at sides whose midpoint is in line with the neighbour, as at the boundary, the coefficients on several ranks give the same values. -/
theorem interp_use {t : Tri K} {pre nb : ℕ → P2 K} {c : ℕ → Bool} {f : ℕ} (hpre : ∀ f, c f = false → pre f = nb f)
    (hs : ∀ perm < 2, solveAlpha (Geometry.midpoint t f) (barycentre t) (nb f) (nb ((f + perm + 1) % 3)) ≠ none)
    (hno : ¬Aligned t (nb f) f → ¬(pairCut c f 0 = false ∧ pairCut c f 1 = true ∧ Accepted t nb f 0 ∧ Accepted t nb f 1)) :
    ∃ x y, interpP t pre nb c f = some x ∧ interp t nb f = some y ∧ SameUse x y := by
  by_cases hx : pairCut c f 0 = false ∧ pairCut c f 1 = true ∧ Accepted t nb f 0 ∧ Accepted t nb f 1
  · have hm : Aligned t (nb f) f := by
      by_contra h
      exact hno h hx
    obtain ⟨s, hl1, hl2⟩ := hm
    obtain ⟨h0, h1, ⟨a, ha, hA⟩, ⟨b, hb, hB⟩⟩ := hx
    have one : ∀ n a, solveAlpha (Geometry.midpoint t f) (barycentre t) (nb f) n = some a → a = (s, 0) := by
      intro n a h
      unfold solveAlpha at h
      by_cases hd : Geometry.det (⟨(nb f).x - (barycentre t).x, n.x - (barycentre t).x, (nb f).y - (barycentre t).y, n.y - (barycentre t).y⟩ : M2 K) = 0
      · rw [if_pos hd] at h; cases h
      · rw [if_neg hd, slAlpha_line hd hl1 hl2] at h
        exact (Option.some.inj h).symm
    have ea := one _ a ha
    have eb := one _ b hb
    subst ea eb
    refine ⟨⟨snap s, snap 0, f, (f + 1 + 1) % 3⟩, ⟨snap s, snap 0, f, (f + 0 + 1) % 3⟩, ?_, ?_, rfl, rfl, rfl, .inl ?_⟩
    · unfold interpP
      rw [pre_nb hpre]
      simp only [findIf, ha, hb, h0, h1]
      simp only [hA]
      simp
    · unfold interp
      simp only [findInterp, ha]
      rw [if_pos hA]
    · change snap (0 : K) = 0
      unfold snap
      split <;> rfl
  · have h := interp_ranks hpre hs hx
    obtain ⟨a, ha⟩ := Option.ne_none_iff_exists'.1 (hs 0 (by omega))
    obtain ⟨b, hb⟩ := Option.ne_none_iff_exists'.1 (hs 1 (by omega))
    have hy : ∃ y, interp t nb f = some y := by
      simp only [interp, findInterp, ha, hb]
      split
      · exact ⟨_, rfl⟩
      · split <;> exact ⟨_, rfl⟩
    obtain ⟨y, hy⟩ := hy
    exact ⟨y, y, h.trans hy, hy, rfl, rfl, rfl, .inr rfl⟩

omit [IsStrictOrderedRing K] in
/-- **C104** If the matrices before the messages can be inverted and no side that is not in line with its neighbour has the exceptional pairs, there are data on several ranks, and all such data give what those of the serial program
give. -/
theorem ready_ranks {npts : Iface K → ℕ} {ms : List (Mesh K)} (hp : Partitioned npts m ms cut) (hf : (faceKeys m).Nodup) (hg : Gn.Ready dat m g)
    (hpre : ∀ e ∈ m.elts, pCols (dColOf dat (coordPre dat ms) e) ≠ none)
    (hs : ∀ e ∈ m.elts, ∀ f < 3, ∀ perm < 2, solveAlpha (Geometry.midpoint (dat e).elt.tri f) (barycentre (dat e).elt.tri) (nbCoord dat m e f) (nbCoord dat m e ((f + perm + 1) % 3)) ≠ none)
    (hno : ∀ e ∈ m.elts, ∀ f < 3, ¬Aligned (dat e).elt.tri (nbCoord dat m e f) f →
      ¬(pairCut (isCut ms e) f 0 = false ∧ pairCut (isCut ms e) f 1 = true ∧ Accepted (dat e).elt.tri (nbCoord dat m e) f 0 ∧ Accepted (dat e).elt.tri (nbCoord dat m e) f 1)) :
    (∃ g', ReadyP dat ms g' ∧ g'.node = g.node) ∧ ∀ g', ReadyP dat ms g' → g'.node = g.node → SameData m g' g := by
  have hP : ∀ e ∈ m.elts, pCols (dColOf dat (coordPost dat ms) e) = some (g.P e) := by
    intro e he
    rw [coordPost_eq dat hp hf]
    exact hg.P e he
  have ha : ∀ e ∈ m.elts, ∀ f < 3, ∃ x, interpP (dat e).elt.tri (coordPre dat ms e) (coordPost dat ms e) (isCut ms e) f = some x ∧ SameUse x (g.a e f) := by
    intro e he f hf3
    rw [coordPost_eq dat hp hf]
    obtain ⟨x, y, h1, h2, h3⟩ := interp_use (t := (dat e).elt.tri) (pre := coordPre dat ms e) (nb := nbCoord dat m e) (c := isCut ms e) (f := f) (fun f hc => by rw [coordPre_at hp hf, hc]; rfl) (hs e he f hf3)
      (hno e he f hf3)
    rw [hg.a e he f hf3] at h2
    cases h2
    exact ⟨x, h1, h3⟩
  constructor
  · have h : ∀ e f, ∃ x, e ∈ m.elts → f < 3 → interpP (dat e).elt.tri (coordPre dat ms e) (coordPost dat ms e) (isCut ms e) f = some x := by
      intro e f
      by_cases hc : e ∈ m.elts ∧ f < 3
      · obtain ⟨x, hx, -⟩ := ha e hc.1 f hc.2
        exact ⟨x, fun _ _ => hx⟩
      · exact ⟨⟨0, 0, 0, 0⟩, fun h1 h2 => absurd ⟨h1, h2⟩ hc⟩
    choose a h using h
    exact ⟨⟨g.P, a, g.node⟩, ⟨fun e he => hpre e (hp.elts.mem_iff.1 he), fun e he => hP e (hp.elts.mem_iff.1 he), fun e he f hf3 => h e f (hp.elts.mem_iff.1 he) hf3⟩, rfl⟩
  · intro g' h hn
    refine ⟨fun e he => ?_, fun e he f hf3 => ?_, hn⟩
    · have h1 := h.P e (hp.elts.mem_iff.2 he)
      rw [hP e he] at h1
      exact (Option.some.inj h1).symm
    · have h1 := h.a e (hp.elts.mem_iff.2 he) f hf3
      obtain ⟨x, hx, hu⟩ := ha e he f hf3
      rw [hx] at h1
      cases h1
      exact hu

end

section
open MvPolynomial Verif.Geometry.Props
variable {v : Env ℝ} {dat : ℕ → EltData ℝ} {m : Mesh ℝ} {rs : List (List (Mesh ℝ))} {cut : List (Iface ℝ)} {ids : List (Mesh ℝ) → List ℕ} {g g' : GradData ℝ}

/-- **C104** All derivatives of the bathymetry by Green-Gauss with averages at nodes. -/
theorem bath_gg_ranks_avg {F : ℕ → MvPolynomial (Fin 2) ℝ} {P : ℕ} {ε : ℝ} (h : Split v dat m rs cut ids g.node) (hg : SameData m g' g) (hR : Rules v.N F P ε) (hL : LinearBasis v.N) (hS : SymRules v.N P) (hm : GradMesh dat m P) (hp : ∀ e ∈ m.elts, 1 ≤ (dat e).elt.p)
    (hn : ∀ i ∈ m.ints, g.node i.eex ((i.fex + 1) % 3) = g.node i.ein ((i.fin + 2) % 3) ∧ g.node i.eex ((i.fex + 2) % 3) = g.node i.ein ((i.fin + 1) % 3))
    {isc : Iface ℝ → Bool} (h1 : ∀ i ∈ cut, isc i = true) (h2 : ∀ s ∈ rs.flatten, ∀ i ∈ s.ints, isc i = false) (r : ℕ) :
    Same m (dbathGgR v dat ids rs g' .avg r) (dbathGg v dat m g .avg r) ∧ Same m (ddbathGgR v dat ids rs g' .avg r) (ddbathGg v dat m g .avg r) ∧
      Same m (dddbathGgR v dat ids rs g' .avg r) (dddbathGg v dat m g .avg r) := by
  have h2' : ∀ r, Same m (ddbathGgR v dat ids rs g' .avg r) (ddbathGg v dat m g .avg r) := by
    intro r
    rw [← ddbath_ranks_avg hR hL hS hm hp hn isc r]
    exact (bath_gg_ranks h hg .avg h1 h2 r).2
  exact ⟨(bath_gg_ranks h hg .avg h1 h2 r).1, h2' r, ggLin_ranks h hg .avg (linRow_same (h2' (r / 2))) (r % 2)⟩

end

end Verif.Gn.Props
