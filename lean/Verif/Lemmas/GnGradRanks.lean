import Verif.Model.GnGradRanks
import Verif.Lemmas.GnGrad
import Verif.Lemmas.GnRanks

/-!
Helper lemmas for the derivatives by Green-Gauss and by least squares on several ranks.
-/

namespace Verif.Gn
open Verif.Geometry Verif.Element Verif.Swe Verif.Swe.Props Verif.Basis

/-! ### Green-Gauss -/

section
variable {K : Type} [Field K] [LinearOrder K] (v : Env K) (dat : ℕ → EltData K)

/-- What an interface, a boundary, a distributed boundary add to an element. -/
def ggI (fi fe : Iface K → ℕ → K) (dir e : ℕ) (i : Iface K) : K :=
  (if i.ein = e then 1 / area (dat i.ein).elt.tri * faceSum (i.rule v dat) (i.J v dat) fun gp => fi i gp * nd (normal v.sq (dat i.ein).elt.tri i.fin) dir else 0) +
    (if i.eex = e then 1 / area (dat i.eex).elt.tri * faceSum (i.rule v dat) (i.J v dat) fun gp =>
      fe i gp * nd ⟨-(normal v.sq (dat i.ein).elt.tri i.fin).x, -(normal v.sq (dat i.ein).elt.tri i.fin).y⟩ dir else 0)

def ggB (F : Row K) (dir e : ℕ) (b : Bnd K) : K :=
  if b.e = e then 1 / area (dat b.e).elt.tri * faceSum (faceRule v.N (dat b.e).elt.p) (surfaceJ v.sq (dat b.e).elt.tri b.f) fun gp =>
    F b.e (facePt (faceRule v.N (dat b.e).elt.p) b.f gp) * nd (normal v.sq (dat b.e).elt.tri b.f) dir else 0

def ggD (F : Row K) (dir e : ℕ) (b : Dbnd K) : K :=
  if b.e = e then 1 / area (dat b.e).elt.tri * faceSum (ruleD v dat b) (surfaceJ v.sq (dat b.e).elt.tri b.f) fun gp =>
    F b.e (facePt (ruleD v dat b) b.f gp) * nd (normal v.sq (dat b.e).elt.tri b.f) dir else 0

theorem ggInt_sum (fi fe : Iface K → ℕ → K) (dir e : ℕ) (l : List (Iface K)) (r : ℕ → K) :
    l.foldl (ggInt v dat fi fe dir) r e = r e + (l.map (ggI v dat fi fe dir e)).sum := by
  induction l generalizing r with
  | nil => simp
  | cons i l ih =>
    rw [List.foldl_cons, ih, List.map_cons, List.sum_cons]
    unfold ggInt ggI
    simp only [addCell_at]
    ring

theorem ggBnd_sum (F : Row K) (dir e : ℕ) (l : List (Bnd K)) (r : ℕ → K) : l.foldl (ggBnd v dat F dir) r e = r e + (l.map (ggB v dat F dir e)).sum := by
  induction l generalizing r with
  | nil => simp
  | cons i l ih =>
    rw [List.foldl_cons, ih, List.map_cons, List.sum_cons]
    unfold ggBnd ggB
    simp only [addCell_at]
    ring

theorem ggDist_sum (F : Row K) (dir e : ℕ) (l : List (Dbnd K)) (r : ℕ → K) : l.foldl (ggDist v dat F dir) r e = r e + (l.map (ggD v dat F dir e)).sum := by
  induction l generalizing r with
  | nil => simp
  | cons i l ih =>
    rw [List.foldl_cons, ih, List.map_cons, List.sum_cons]
    unfold ggDist ggD
    simp only [addCell_at]
    ring

omit [LinearOrder K] in
theorem zeros_at (l : List ℕ) (r : ℕ → K) (e : ℕ) : l.foldl (fun (r : ℕ → K) e => Function.update r e 0) r e = if e ∈ l then 0 else r e := by
  induction l generalizing r with
  | nil => simp
  | cons a l ih =>
    rw [List.foldl_cons, ih]
    by_cases h : e ∈ l
    · simp [h]
    · by_cases ha : e = a
      · subst ha; simp [h]
      · simp [h, ha]

/-- What the faces of a submesh add. -/
def ggAdds (fi fe : Iface K → ℕ → K) (F : Row K) (dir e : ℕ) (m : Mesh K) : List K :=
  m.ints.map (ggI v dat fi fe dir e) ++ m.bnds.map (ggB v dat F dir e) ++ m.dist.map (ggD v dat F dir e)

theorem ggLocal_at (fi fe : Iface K → ℕ → K) (F : Row K) (dir : ℕ) (r : ℕ → K) (m : Mesh K) (e : ℕ) :
    ggLocal v dat fi fe F dir r m e = (if e ∈ m.elts then 0 else r e) + (ggAdds v dat fi fe F dir e m).sum := by
  unfold ggLocal ggAdds
  rw [ggDist_sum, ggBnd_sum, ggInt_sum, zeros_at, List.sum_append, List.sum_append]
  ring

theorem ggWith_sum (m : Mesh K) (fi fe : Iface K → ℕ → K) (F : Row K) (dir e : ℕ) :
    ggWith v dat m fi fe F dir e = (m.ints.map (ggI v dat fi fe dir e)).sum + (m.bnds.map (ggB v dat F dir e)).sum := by
  unfold ggWith
  rw [ggBnd_sum, ggInt_sum, zeros_at]
  simp

theorem ggAll_at (fi fe : Iface K → ℕ → K) (F : Row K) (dir e : ℕ) (ms : List (Mesh K)) (hn : (ms.flatMap Mesh.elts).Nodup)
    (hi : ∀ s ∈ ms, ∀ i ∈ s.ints, i.ein ∈ s.elts ∧ i.eex ∈ s.elts) (hb : ∀ s ∈ ms, ∀ b ∈ s.bnds, b.e ∈ s.elts) (hd : ∀ s ∈ ms, ∀ b ∈ s.dist, b.e ∈ s.elts) (r : ℕ → K) :
    ms.foldl (ggLocal v dat fi fe F dir) r e = (if e ∈ ms.flatMap Mesh.elts then 0 else r e) + (ms.flatMap (ggAdds v dat fi fe F dir e)).sum := by
  induction ms generalizing r with
  | nil => simp
  | cons m ms ih =>
    rw [List.flatMap_cons, List.nodup_append] at hn
    obtain ⟨n1, n2, n3⟩ := hn
    rw [List.foldl_cons, ih n2 (fun s hs => hi s (List.mem_cons_of_mem _ hs)) (fun s hs => hb s (List.mem_cons_of_mem _ hs)) (fun s hs => hd s (List.mem_cons_of_mem _ hs)),
      ggLocal_at, List.flatMap_cons, List.flatMap_cons, List.sum_append]
    simp only [List.mem_append]
    by_cases h : e ∈ ms.flatMap Mesh.elts
    · have hm : e ∉ m.elts := fun hm => n3 e hm e h rfl
      have z : (ggAdds v dat fi fe F dir e m).sum = 0 := by
        refine List.sum_eq_zero fun x hx => ?_
        rcases List.mem_append.1 hx with hx1 | hx1
        · rcases List.mem_append.1 hx1 with hx2 | hx2
          · obtain ⟨i, hii, rfl⟩ := List.mem_map.1 hx2
            have := hi m List.mem_cons_self i hii
            unfold ggI
            rw [if_neg (fun h : i.ein = e => hm (h ▸ this.1)), if_neg (fun h : i.eex = e => hm (h ▸ this.2)), add_zero]
          · obtain ⟨b, hbb, rfl⟩ := List.mem_map.1 hx2
            exact if_neg fun h : b.e = e => hm (h ▸ hb m List.mem_cons_self b hbb)
        · obtain ⟨b, hbb, rfl⟩ := List.mem_map.1 hx1
          exact if_neg fun h : b.e = e => hm (h ▸ hd m List.mem_cons_self b hbb)
      rw [z]
      simp [h]
    · simp only [h, or_false, if_false]
      ring

theorem faceSum_congr (r : List (K × K)) (J : K) {F G : ℕ → K} (h : ∀ gp < r.length, F gp = G gp) : faceSum r J F = faceSum r J G := by
  unfold faceSum
  congr 1
  exact List.map_congr_left fun gp hgp => by rw [h gp (List.mem_range.1 hgp)]
end

section
variable {K : Type} [Field K] [LinearOrder K] [IsStrictOrderedRing K] {v : Env K} {dat : ℕ → EltData K}

/-- The halves of a cut interface add what its sides add from own values. -/
theorem ggD_halves {i : Iface K} (h : Fits v dat i) (n : ℕ) {fi fe : Iface K → ℕ → K} (F : Row K) (dir e : ℕ)
    (h1 : ∀ gp < (i.rule v dat).length, fi i gp = ownIn v dat F i gp) (h2 : ∀ gp < (i.rule v dat).length, fe i gp = ownEx v dat F i gp) :
    ggD v dat F dir e (halfIn i) + ggD v dat F dir e (halfEx n i) = ggI v dat fi fe dir e i := by
  obtain ⟨r1, r2⟩ := rule_eq h
  unfold ggD ggI halfIn halfEx ruleD
  simp only
  congr 1
  · rw [← r1]
    congr 2
    exact faceSum_congr _ _ fun gp hgp => by rw [h1 gp hgp]; rfl
  · rw [← r2, normal_ex h, J_ex h]
    congr 2
    exact faceSum_congr _ _ fun gp hgp => by rw [h2 gp hgp]; rfl

/-- Green-Gauss on several submeshes, with values given at both sides of interfaces: what the whole mesh gives with own values at the cut interfaces. -/
theorem ggWithP_eq {m : Mesh K} {ms : List (Mesh K)} {cut : List (Iface K)} (hp : Partitioned (fun i => (i.rule v dat).length) m ms cut) (hc : ∀ i ∈ cut, Fits v dat i)
    {fi fe fi' fe' : Iface K → ℕ → K} {F : Row K} (h : ∀ s ∈ ms, ∀ i ∈ s.ints, fi i = fi' i ∧ fe i = fe' i)
    (h' : ∀ i ∈ cut, ∀ gp < (i.rule v dat).length, fi' i gp = ownIn v dat F i gp ∧ fe' i gp = ownEx v dat F i gp) (dir e : ℕ) :
    ggWithP v dat ms fi fe F dir e = ggWith v dat m fi' fe' F dir e := by
  unfold ggWithP
  rw [ggAll_at v dat fi fe F dir e ms (hp.elts.nodup_iff.mpr hp.nodup) hp.ownInts hp.ownBnds hp.ownDist, ite_self, zero_add, ggWith_sum,
    ← meshes_sum hp (ggI v dat fi' fe' dir e) (ggB v dat F dir e) (ggD v dat F dir e)
      fun i hi => ggD_halves (hc i hi) _ F dir e (fun gp hgp => (h' i hi gp hgp).1) fun gp hgp => (h' i hi gp hgp).2]
  congr 1
  refine List.flatMap_congr fun s hs => ?_
  unfold ggAdds
  congr 2
  refine List.map_congr_left fun i hi => ?_
  unfold ggI
  rw [(h s hs i hi).1, (h s hs i hi).2]

end

/-! ### Neighbours -/

section
variable {K α : Type}

/-- Entries of the faces. -/
def nbI (c : ℕ → α) (i : Iface K) : List (ℕ × ℕ × α) := [(i.ein, i.fin, c i.eex), (i.eex, i.fex, c i.ein)]
def nbB (w : ℕ → ℕ → α) (b : Bnd K) : List (ℕ × ℕ × α) := [(b.e, b.f, w b.e b.f)]
def nbD (c : ℕ → α) (b : Dbnd K) : List (ℕ × ℕ × α) := [(b.e, b.f, c b.e')]

theorem assign_append (l l' : List (ℕ × ℕ × α)) (t : ℕ → ℕ → α) : assign (l ++ l') t = assign l' (assign l t) := List.foldl_append

theorem assign_one (e f : ℕ) (x : α) (t : ℕ → ℕ → α) : assign [(e, f, x)] t = setFace t e f x := by
  funext e' f'
  rw [setFace_at]; rfl

theorem nbInts_assign (c : ℕ → α) (l : List (Iface K)) (r : ℕ → ℕ → α) : l.foldl (nbInt c) r = assign (l.flatMap (nbI c)) r := by
  induction l generalizing r with
  | nil => rfl
  | cons i l ih =>
    rw [List.foldl_cons, ih, List.flatMap_cons, assign_append]
    congr 1
    unfold nbInt nbI
    rw [← assign_one, ← assign_one]; rfl

theorem nbBnds_assign (w : ℕ → ℕ → α) (l : List (Bnd K)) (r : ℕ → ℕ → α) : l.foldl (nbBnd w) r = assign (l.flatMap (nbB w)) r := by
  induction l generalizing r with
  | nil => rfl
  | cons i l ih =>
    rw [List.foldl_cons, ih, List.flatMap_cons, assign_append]
    congr 1
    unfold nbBnd nbB
    rw [← assign_one]

theorem nbDists_assign (c : ℕ → α) (l : List (Dbnd K)) (r : ℕ → ℕ → α) : l.foldl (nbDist c) r = assign (l.flatMap (nbD c)) r := by
  induction l generalizing r with
  | nil => rfl
  | cons i l ih =>
    rw [List.foldl_cons, ih, List.flatMap_cons, assign_append]
    congr 1
    unfold nbDist nbD
    rw [← assign_one]

theorem nbs_assign (m : Mesh K) (c : ℕ → α) (w init : ℕ → ℕ → α) : nbs m c w init = assign (m.ints.flatMap (nbI c) ++ m.bnds.flatMap (nbB w)) init := by
  unfold nbs
  rw [nbBnds_assign, nbInts_assign, assign_append]

theorem assign_flat {β : Type} (l : List β) (F : β → List (ℕ × ℕ × α)) (t : ℕ → ℕ → α) : l.foldl (fun t b => assign (F b) t) t = assign (l.flatMap F) t := by
  induction l generalizing t with
  | nil => rfl
  | cons b l ih => rw [List.foldl_cons, ih, List.flatMap_cons, assign_append]

theorem nbsP_assign (ms : List (Mesh K)) (c : ℕ → α) (w init : ℕ → ℕ → α) :
    nbsP ms c w init = assign (ms.flatMap fun m => m.ints.flatMap (nbI c) ++ m.bnds.flatMap (nbB w) ++ m.dist.flatMap (nbD c)) init := by
  unfold nbsP
  rw [← assign_flat]
  refine List.foldl_ext _ _ _ fun r m _ => ?_
  rw [nbDists_assign, nbBnds_assign, nbInts_assign, assign_append, assign_append]

/-- The faces of a mesh. -/
def faceKeys (m : Mesh K) : List (ℕ × ℕ) := m.ints.flatMap (fun i => [(i.ein, i.fin), (i.eex, i.fex)]) ++ m.bnds.map fun b => (b.e, b.f)

theorem nb_keys (m : Mesh K) (c : ℕ → α) (w : ℕ → ℕ → α) : (m.ints.flatMap (nbI c) ++ m.bnds.flatMap (nbB w)).map (fun x => (x.1, x.2.1)) = faceKeys m := by
  unfold faceKeys
  rw [List.map_append, List.map_flatMap, List.map_flatMap, List.map_eq_flatMap]
  rfl

/-- Arrays of neighbours on several submeshes. -/
theorem nbsP_eq {npts : Iface K → ℕ} {m : Mesh K} {ms : List (Mesh K)} {cut : List (Iface K)} (hp : Partitioned npts m ms cut) (hf : (faceKeys m).Nodup)
    (c : ℕ → α) (w init : ℕ → ℕ → α) : nbsP ms c w init = nbs m c w init := by
  rw [nbsP_assign, nbs_assign]
  have h := meshes_perm hp (nbI c) (nbB w) (nbD c) fun _ _ => rfl
  exact assign_perm h ((h.map _).nodup_iff.2 (by rw [nb_keys]; exact hf)) init

/-- Entries depend only on values in elements of the mesh. -/
theorem nbs_congr_on {m : Mesh K} (hi : ∀ i ∈ m.ints, i.ein ∈ m.elts ∧ i.eex ∈ m.elts) (hb : ∀ b ∈ m.bnds, b.e ∈ m.elts) {c c' : ℕ → α} {w w' : ℕ → ℕ → α}
    (hc : ∀ e ∈ m.elts, c e = c' e) (hw : ∀ e ∈ m.elts, ∀ f, w e f = w' e f) (init : ℕ → ℕ → α) : nbs m c w init = nbs m c' w' init := by
  rw [nbs_assign, nbs_assign]
  congr 2
  · refine List.flatMap_congr fun i h => ?_
    unfold nbI
    rw [hc _ (hi i h).1, hc _ (hi i h).2]
  · refine List.flatMap_congr fun b h => ?_
    unfold nbB
    rw [hw _ (hb b h)]

end

section
variable {K : Type} [Field K] [LinearOrder K]

/-- The coordinates after the messages are those of the serial program. -/
theorem coordPost_assign (dat : ℕ → EltData K) (ms : List (Mesh K)) : coordPost dat ms =
    assign ((ms.flatMap fun m => m.ints.flatMap (nbI fun e => barycentre (dat e).elt.tri) ++ m.bnds.flatMap (nbB fun e f => midpoint (dat e).elt.tri f)) ++
      ms.flatMap fun m => m.dist.flatMap (nbD fun e => barycentre (dat e).elt.tri)) fun _ _ => ⟨0, 0⟩ := by
  unfold coordPost coordPre
  rw [assign_append, ← assign_flat, ← assign_flat]
  have h1 : (fun (r : ℕ → ℕ → P2 K) (m : Mesh K) => m.dist.foldl (nbDist fun e => barycentre (dat e).elt.tri) r) =
      fun t m => assign (m.dist.flatMap (nbD fun e => barycentre (dat e).elt.tri)) t := by
    funext r m; rw [nbDists_assign]
  have h2 : (fun (r : ℕ → ℕ → P2 K) (m : Mesh K) => nbs m (fun e => barycentre (dat e).elt.tri) (fun e f => midpoint (dat e).elt.tri f) r) =
      fun t m => assign (m.ints.flatMap (nbI fun e => barycentre (dat e).elt.tri) ++ m.bnds.flatMap (nbB fun e f => midpoint (dat e).elt.tri f)) t := by
    funext r m; rw [nbs_assign]
  rw [h1, h2]

theorem coordPost_eq (dat : ℕ → EltData K) {npts : Iface K → ℕ} {m : Mesh K} {ms : List (Mesh K)} {cut : List (Iface K)} (hp : Partitioned npts m ms cut)
    (hf : (faceKeys m).Nodup) : coordPost dat ms = nbCoord dat m := by
  rw [coordPost_assign]
  unfold nbCoord
  rw [nbs_assign]
  have h := (List.flatMap_append_perm ms (fun m => m.ints.flatMap (nbI fun e => barycentre (dat e).elt.tri) ++ m.bnds.flatMap (nbB fun e f => midpoint (dat e).elt.tri f))
    fun m => m.dist.flatMap (nbD fun e => barycentre (dat e).elt.tri)).trans
      (meshes_perm hp (nbI fun e => barycentre (dat e).elt.tri) (nbB fun e f => midpoint (dat e).elt.tri f) (nbD fun e => barycentre (dat e).elt.tri) fun _ _ => rfl)
  exact assign_perm h ((h.map _).nodup_iff.2 (by rw [nb_keys]; exact hf)) _

end

end Verif.Gn
