import Verif.Model.IhdgParallel
import Verif.Lemmas.GnRanks
import Verif.Props.EhdgParallel
import Verif.Props.GnParallel

/-!
# Lemmas on the implicit scheme on several ranks: sums over faces, kernels at a cut
-/

namespace Verif.Ihdg.Props
open Verif.Geometry Verif.Geometry.Props Verif.Element Verif.Swe Verif.Swe.Props Verif.Edge Verif.Edge.Props Verif.Ehdg Verif.Ehdg.Props Verif.Ihdg
open Verif.Gn (PEdge PEdg edgesP before ruleD byFaceP byOwnP cells cellsP edgCells halfIn halfEx)
open Verif.Gn.Props (before_iff before_asymm)

/-! ### Sums over faces -/

section
variable {A : Type} [AddCommMonoid A]

/-- Additions one after another. -/
def addCells (l : List (ℕ × ℕ × A)) (L : ℕ → A) : ℕ → A := l.foldl (fun L c => Function.update L c.1 (L c.1 + c.2.2)) L

/-- What faces add to an element. -/
def cellAdd (l : List (ℕ × ℕ × A)) (e : ℕ) : A := (l.map fun c => if c.1 = e then c.2.2 else 0).sum

/-- Entries of elements set one after another. -/
def setAll (V : ℕ → A) (l : List ℕ) (L : ℕ → A) : ℕ → A := l.foldl (fun L e => Function.update L e (V e)) L

theorem addCells_at (l : List (ℕ × ℕ × A)) (L : ℕ → A) (e : ℕ) : addCells l L e = L e + cellAdd l e := by
  induction l generalizing L with
  | nil => simp [addCells, cellAdd]
  | cons c l ih =>
    change addCells l (Function.update L c.1 (L c.1 + c.2.2)) e = _
    rw [ih]
    unfold cellAdd
    rw [List.map_cons, List.sum_cons, ← add_assoc]
    congr 1
    by_cases h : c.1 = e
    · subst h; simp
    · rw [Function.update_of_ne (Ne.symm h), if_neg h, add_zero]

omit [AddCommMonoid A] in
theorem setAll_at (V : ℕ → A) (l : List ℕ) (L : ℕ → A) (e : ℕ) : setAll V l L e = if e ∈ l then V e else L e := by
  unfold setAll
  induction l generalizing L with
  | nil => simp
  | cons a l ih =>
    rw [List.foldl_cons, ih]
    by_cases h : e ∈ l
    · simp [h]
    · by_cases ha : e = a
      · subst ha; simp [h]
      · simp [h, ha]

theorem cellAdd_append (l l' : List (ℕ × ℕ × A)) (e : ℕ) : cellAdd (l ++ l') e = cellAdd l e + cellAdd l' e := by
  unfold cellAdd
  rw [List.map_append, List.sum_append]

theorem cellAdd_perm {l l' : List (ℕ × ℕ × A)} (h : l.Perm l') (e : ℕ) : cellAdd l e = cellAdd l' e := (h.map _).sum_eq

theorem cellAdd_zero {l : List (ℕ × ℕ × A)} {e : ℕ} (h : ∀ c ∈ l, c.1 ≠ e) : cellAdd l e = 0 := by
  unfold cellAdd
  refine List.sum_eq_zero fun x hx => ?_
  obtain ⟨c, hc, rfl⟩ := List.mem_map.1 hx
  exact if_neg (h c hc)

/-- The submeshes one after another: they write elements of their own only. -/
theorem meshes_at {K : Type} (V : ℕ → A) (X : Mesh K → List (ℕ × ℕ × A)) (e : ℕ) (ms : List (Mesh K)) (hn : (ms.flatMap Mesh.elts).Nodup) (ho : ∀ m ∈ ms, ∀ c ∈ X m, c.1 ∈ m.elts)
    (L : ℕ → A) : ms.foldl (fun L m => addCells (X m) (setAll V m.elts L)) L e = (if e ∈ ms.flatMap Mesh.elts then V e else L e) + cellAdd (ms.flatMap X) e := by
  induction ms generalizing L with
  | nil => simp [cellAdd]
  | cons m ms ih =>
    rw [List.flatMap_cons, List.nodup_append] at hn
    obtain ⟨n1, n2, n3⟩ := hn
    rw [List.foldl_cons, ih n2 (fun s hs => ho s (List.mem_cons_of_mem _ hs)), addCells_at, setAll_at, List.flatMap_cons, List.flatMap_cons, cellAdd_append]
    simp only [List.mem_append]
    by_cases h : e ∈ ms.flatMap Mesh.elts
    · have hm : e ∉ m.elts := fun hm => n3 e hm e h rfl
      rw [cellAdd_zero (l := X m) fun c hc he => hm (by rw [← he]; exact ho m List.mem_cons_self c hc)]
      simp [h]
    · simp only [h, if_false, or_false, add_assoc]

end

variable {K : Type} [Field K] [LinearOrder K]

omit [Field K] [LinearOrder K] in
theorem cells_own {α : Type} {m : Mesh K} (hi : ∀ i ∈ m.ints, i.ein ∈ m.elts ∧ i.eex ∈ m.elts) (hb : ∀ b ∈ m.bnds, b.e ∈ m.elts) (hd : ∀ b ∈ m.dist, b.e ∈ m.elts)
    (g : Edg K → Sd → α) (gd : Dbnd K → α) : ∀ c ∈ cellsP g gd m, c.1 ∈ m.elts := by
  intro c hc
  unfold cellsP cells edgesOf at hc
  rcases List.mem_append.1 hc with hc | hc
  · obtain ⟨ed, hed, hc⟩ := List.mem_flatMap.1 hc
    obtain ⟨s, hs, rfl⟩ := List.mem_map.1 hc
    rcases List.mem_append.1 hed with hed | hed
    · obtain ⟨i, hii, rfl⟩ := List.mem_map.1 hed
      simp only [Edg.sides, List.mem_cons, List.not_mem_nil, or_false] at hs
      rcases hs with rfl | rfl
      · exact (hi i hii).1
      · exact (hi i hii).2
    · obtain ⟨b, hbb, rfl⟩ := List.mem_map.1 hed
      simp only [Edg.sides, List.mem_cons, List.not_mem_nil, or_false] at hs
      subst hs
      exact hb b hbb
  · obtain ⟨b, hbb, rfl⟩ := List.mem_map.1 hc
    exact hd b hbb

/-! ### Reversed normals -/

section
variable [IsStrictOrderedRing K]

omit [LinearOrder K] [IsStrictOrderedRing K] in
theorem q_neg (a : Q K) : -a = ⟨-a.ze, -a.qx, -a.qy⟩ := rfl

omit [LinearOrder K] [IsStrictOrderedRing K] in
theorem comp_plus (q r : Q K) (var : Fin 3) : Swe.comp (q + r) var = Swe.comp q var + Swe.comp r var := by
  rcases (by fin_cases var <;> simp : var = 0 ∨ var = 1 ∨ var = 2) with rfl | rfl | rfl <;> rfl

omit [LinearOrder K] [IsStrictOrderedRing K] in
theorem fluxN_opp (g : K) (q : Q K) (a : Aux K) (n : P2 K) : fluxN g q a (Swe.Props.opp n) = -fluxN g q a n := by
  unfold fluxN Swe.Props.opp
  refine Eq.trans ?_ (q_neg _).symm
  simp only [Q.mk.injEq]
  exact ⟨by ring, by ring, by ring⟩

omit [LinearOrder K] [IsStrictOrderedRing K] in
theorem dFnDq_opp (g : K) (q : Q K) (a : Aux K) (n : P2 K) : dFnDq g q a (Swe.Props.opp n) = -dFnDq g q a n := by
  unfold dFnDq Swe.Props.opp
  ext i j
  fin_cases i <;> fin_cases j <;> simp <;> ring

omit [LinearOrder K] [IsStrictOrderedRing K] in
theorem vn_opp (u v : K) (n : P2 K) : vn u v (Swe.Props.opp n) = -vn u v n := by
  unfold vn Swe.Props.opp
  simp only
  ring

theorem sgn_neg (x : K) : sgn (-x) = -sgn x := by
  unfold sgn
  simp only [Left.neg_pos_iff, Left.neg_neg_iff]
  ring

theorem tauLF_opp (sq : K → K) (g : K) (q : Q K) (a : Aux K) (n : P2 K) : tauLF sq g q a (Swe.Props.opp n) = tauLF sq g q a n := by
  unfold tauLF
  simp only [vn_opp, abs_neg]

theorem dtauZe_opp (sq : K → K) (g : K) (q : Q K) (a : Aux K) (n : P2 K) : dtauZe sq g q a (Swe.Props.opp n) = dtauZe sq g q a n := by
  unfold dtauZe
  simp only [vn_opp, sgn_neg]
  congr 1
  ring

theorem dtauQx_opp (q : Q K) (a : Aux K) (n : P2 K) : dtauQx q a (Swe.Props.opp n) = dtauQx q a n := by
  unfold dtauQx
  simp only [vn_opp, sgn_neg]
  congr 1
  simp only [Swe.Props.opp]
  ring

theorem dtauQy_opp (q : Q K) (a : Aux K) (n : P2 K) : dtauQy q a (Swe.Props.opp n) = dtauQy q a n := by
  unfold dtauQy
  simp only [vn_opp, sgn_neg]
  congr 1
  simp only [Swe.Props.opp]
  ring

end

/-! ### Messages -/

omit [Field K] [LinearOrder K] in
theorem flat3 (a b c : ℕ → K) (n : ℕ) : ((List.range n).flatMap fun g => [a g, b g, c g]).length = 3 * n ∧
    ∀ g < n, ((List.range n).flatMap fun g => [a g, b g, c g])[3 * g]? = some (a g) ∧ ((List.range n).flatMap fun g => [a g, b g, c g])[3 * g + 1]? = some (b g) ∧
      ((List.range n).flatMap fun g => [a g, b g, c g])[3 * g + 2]? = some (c g) := by
  induction n with
  | zero => exact ⟨rfl, fun g hg => absurd hg (Nat.not_lt_zero g)⟩
  | succ n ih =>
    obtain ⟨h1, h2⟩ := ih
    rw [List.range_succ, List.flatMap_append, List.flatMap_singleton]
    refine ⟨by rw [List.length_append, h1]; simp; omega, fun g hg => ?_⟩
    rcases Nat.lt_succ_iff_lt_or_eq.1 hg with hg | rfl
    · obtain ⟨x, y, z⟩ := h2 g hg
      rw [List.getElem?_append_left (by omega), List.getElem?_append_left (by omega), List.getElem?_append_left (by omega)]
      exact ⟨x, y, z⟩
    · rw [List.getElem?_append_right (by omega), List.getElem?_append_right (by omega), List.getElem?_append_right (by omega), h1]
      simp

variable {S : Scheme K} {W : Cluster K}

/-- **C101** What the receiver reads are the values at the same point of the other side. -/
theorem message_decodes (e f e' : ℕ) {gp : ℕ} (hg : gp < (faceRule S.v.N (S.dat e).elt.p).length) :
    let r := faceRule S.v.N (S.dat e).elt.p
    messageQ (initMessage S W e f e') r.length gp = qAt S.v.N (S.dat e).elt (W.start e) (facePt r f (r.length - gp - 1)) ∧
    messageBath (initMessage S W e f e') r.length gp = (S.dat e).elt.value S.v.N (S.dat e).bath (facePt r f (r.length - gp - 1)) := by
  intro r
  let q := fun gp => qAt S.v.N (S.dat e).elt (W.start e) (facePt r f gp)
  obtain ⟨h1, h2⟩ := flat3 (fun g => (q g).ze) (fun g => (q g).qx) (fun g => (q g).qy) r.length
  have hg' : r.length - gp - 1 < r.length := by have : gp < r.length := hg; omega
  obtain ⟨x, y, z⟩ := h2 _ hg'
  constructor
  · unfold messageQ initMessage
    simp only [List.getD_eq_getElem?_getD, List.append_assoc]
    rw [List.getElem?_append_left (by rw [h1]; omega), List.getElem?_append_left (by rw [h1]; omega), List.getElem?_append_left (by rw [h1]; omega), x, y, z]
    rfl
  · unfold messageBath initMessage
    simp only [List.getD_eq_getElem?_getD, List.append_assoc]
    rw [List.getElem?_append_right (by rw [h1]; omega), h1, Nat.add_sub_cancel_left, List.getElem?_append_left (by simpa using hg')]
    simp only [List.getElem?_map]
    rw [List.getElem?_range hg']
    rfl

/-- **C101** The last entry is the number, if there is one. -/
theorem message_number (e f e' : ℕ) (hb : before (W.home e) (W.home e')) :
    messageIndex (initMessage S W e f e') (faceRule S.v.N (S.dat e).elt.p).length = ((numberP (skelP S W)).face e f : K) := by
  obtain ⟨h1, -⟩ := flat3 (fun g => (qAt S.v.N (S.dat e).elt (W.start e) (facePt (faceRule S.v.N (S.dat e).elt.p) f g)).ze)
    (fun g => (qAt S.v.N (S.dat e).elt (W.start e) (facePt (faceRule S.v.N (S.dat e).elt.p) f g)).qx)
    (fun g => (qAt S.v.N (S.dat e).elt (W.start e) (facePt (faceRule S.v.N (S.dat e).elt.p) f g)).qy) (faceRule S.v.N (S.dat e).elt.p).length
  unfold messageIndex initMessage
  simp only [List.getD_eq_getElem?_getD, if_pos hb]
  rw [List.getElem?_append_right (by rw [List.length_append, h1]; simp; omega), List.length_append, h1]
  simp only [List.length_map, List.length_range]
  rw [show 4 * (faceRule S.v.N (S.dat e).elt.p).length - (3 * (faceRule S.v.N (S.dat e).elt.p).length + (faceRule S.v.N (S.dat e).elt.p).length) = 0 by omega]
  rfl

/-! ### Kernels at a cut -/

/-- What is required of a cut: elements that meet, no levee, the interior side first in the order of localities and submeshes, symmetric weights. -/
structure CutOk (S : Scheme K) (W : Cluster K) (i : Iface K) : Prop where
  meets : Meets S.dat i
  order : (W.home i.ein).1 < (W.home i.eex).1 ∨ ((W.home i.ein).1 = (W.home i.eex).1 ∧ (W.home i.ein).2 < (W.home i.eex).2)
  weights : ∀ gp < (i.rule S.v S.dat).length, weight (i.rule S.v S.dat) gp = weight (i.rule S.v S.dat) ((i.rule S.v S.dat).length - gp - 1)

section
variable [IsStrictOrderedRing K] {i : Iface K} (h : CutOk S W i)
include h

theorem cut_before : before (W.home i.ein) (W.home i.eex) = true := (before_iff _ _).2 h.order

theorem cut_ruleIn : ruleD S.v S.dat (halfIn i) = rule S (.int i) := (meets_rule h.meets).1.symm

theorem cut_ruleEx (n : ℕ) : ruleD S.v S.dat (halfEx n i) = rule S (.int i) := (meets_rule h.meets).2.symm

theorem cut_surfEx (n : ℕ) : surfaceJ S.v.sq (S.dat (halfEx n i).e).elt.tri (halfEx n i).f = surf S (.int i) := meets_J h.meets

theorem cut_nrmEx (n : ℕ) : cutNrm S (halfEx n i) = Swe.Props.opp (nrm S (.int i)) := meets_normal h.meets

theorem cut_kind (n : ℕ) : (halfIn i).kind = .internal ∧ (halfEx n i).kind = .internal := by
  unfold halfIn halfEx
  simp [h.meets.kind, Swe.Props.turned]

theorem cutTab_in : cutTab S W (halfIn i) = tab S (.int i) := by
  unfold cutTab tab
  rw [cut_ruleIn h]
  simp only [halfIn]
  rw [cut_before h]
  simp only [Edg.p]
  rw [← h.meets.degree, max_self]
  rfl

theorem cutTab_ex (n : ℕ) : (cutTab S W (halfEx n i)).ngp = (rule S (.int i)).length ∧ (cutTab S W (halfEx n i)).ndof = (rule S (.int i)).length ∧
    (cutTab S W (halfEx n i)).J = surf S (.int i) := by
  unfold cutTab
  rw [cut_ruleEx h]
  exact ⟨rfl, rfl, cut_surfEx h n⟩

/-- At a point the exterior half has the values of the interface at the same point. -/
theorem cutLam_ex (n : ℕ) {gp : ℕ} (hg : gp < (rule S (.int i)).length) (j : ℕ) :
    intLam (cutTab S W (halfEx n i)) gp j = intLam (tab S (.int i)) ((rule S (.int i)).length - gp - 1) j ∧
      (cutTab S W (halfEx n i)).lam j gp = (tab S (.int i)).lam j ((rule S (.int i)).length - gp - 1) := by
  have hl : (cutTab S W (halfEx n i)).lam j gp = (tab S (.int i)).lam j ((rule S (.int i)).length - gp - 1) := by
    have hb : before (W.home (halfEx n i).e) (W.home (halfEx n i).e') = false := before_asymm (cut_before h)
    unfold cutTab tab
    rw [cut_ruleEx h, hb]
    simp only [tables, Bool.false_eq_true, if_false, if_true]
    rw [turned_eq _ _ _ hg]
  refine ⟨?_, hl⟩
  unfold intLam
  rw [hl]
  congr 1
  have hw := h.weights gp hg
  unfold cutTab tab
  rw [cut_ruleEx h]
  simp only [tables]
  rw [cut_surfEx h]
  congr 1

theorem cutBath_in {gp : ℕ} (hg : gp < (rule S (.int i)).length) : cutBath S W (halfIn i) gp = bathAt S (.int i) gp := by
  unfold cutBath bathAt bathHat
  rw [cut_ruleIn h]
  have hr : faceRule S.v.N (S.dat i.eex).elt.p = rule S (.int i) := (meets_rule h.meets).2.symm
  have := (message_decodes (S := S) (W := W) i.eex i.fex i.ein (gp := gp) (by rw [hr]; exact hg)).2
  simp only [hr] at this
  simp only [halfIn]
  rw [this]
  rfl

theorem cutBath_ex (n : ℕ) {gp : ℕ} (hg : gp < (rule S (.int i)).length) :
    cutBath S W (halfEx n i) gp = bathAt S (.int i) ((rule S (.int i)).length - gp - 1) := by
  unfold cutBath bathAt bathHat
  rw [cut_ruleEx h]
  have hr : faceRule S.v.N (S.dat i.ein).elt.p = rule S (.int i) := (meets_rule h.meets).1.symm
  have := (message_decodes (S := S) (W := W) i.ein i.fin i.eex (gp := gp) (by rw [hr]; exact hg)).2
  simp only [hr] at this
  simp only [halfEx]
  rw [this, show (rule S (.int i)).length - ((rule S (.int i)).length - gp - 1) - 1 = gp by omega, add_comm]
  rfl

theorem cutHat_in (c : Coef K) (gp : ℕ) : cutHat S W c (halfIn i) gp = hat S (.int i) c gp := by
  unfold cutHat hat
  rw [cutTab_in h]

theorem cutHat_ex (c : Coef K) (n : ℕ) {gp : ℕ} (hg : gp < (rule S (.int i)).length) :
    cutHat S W c (halfEx n i) gp = hat S (.int i) c ((rule S (.int i)).length - gp - 1) := by
  unfold cutHat hat ugp
  rw [(cutTab_ex h n).2.1]
  simp only [fun j => (cutLam_ex h n hg j).2]
  rfl

theorem cutAux_in (c : Coef K) {gp : ℕ} (hg : gp < (rule S (.int i)).length) : cutAux S W c (halfIn i) gp = hatAux S (.int i) c gp := by
  unfold cutAux hatAux
  rw [cutHat_in h, cutBath_in h hg]

theorem cutAux_ex (c : Coef K) (n : ℕ) {gp : ℕ} (hg : gp < (rule S (.int i)).length) :
    cutAux S W c (halfEx n i) gp = hatAux S (.int i) c ((rule S (.int i)).length - gp - 1) := by
  unfold cutAux hatAux
  rw [cutHat_ex h c n hg, cutBath_ex h n hg]

theorem cutTau_in (c : Coef K) {gp : ℕ} (hg : gp < (rule S (.int i)).length) : cutTau S W c (halfIn i) gp = dfDq S (.int i) c ⟨i.ein, i.fin, false⟩ gp := by
  unfold cutTau dfDq tauAt
  rw [cutHat_in h, cutAux_in h c hg]
  rfl

theorem cutTau_ex (c : Coef K) (n : ℕ) {gp : ℕ} (hg : gp < (rule S (.int i)).length) :
    cutTau S W c (halfEx n i) gp = dfDq S (.int i) c ⟨i.eex, i.fex, true⟩ gp := by
  unfold cutTau dfDq tauAt
  rw [cutHat_ex h c n hg, cutAux_ex h c n hg, cut_nrmEx h, tauLF_opp]
  rfl

theorem cutQ_in (q : State K) (gp : ℕ) : cutQ S q (halfIn i) gp = sideQ S q (.int i) ⟨i.ein, i.fin, false⟩ gp := by
  unfold cutQ sideQ
  rw [cut_ruleIn h]; rfl

theorem cutQ_ex (q : State K) (n gp : ℕ) : cutQ S q (halfEx n i) gp = sideQ S q (.int i) ⟨i.eex, i.fex, true⟩ gp := by
  unfold cutQ sideQ
  rw [cut_ruleEx h]; rfl

theorem cutF_in (q : State K) (c : Coef K) {gp : ℕ} (hg : gp < (rule S (.int i)).length) :
    cutF S W q c (halfIn i) gp = fhat S q (.int i) c ⟨i.ein, i.fin, false⟩ gp := by
  unfold cutF fhat
  rw [cutHat_in h, cutAux_in h c hg, cutTau_in h c hg, cutQ_in h]
  rfl

theorem cutF_ex (q : State K) (c : Coef K) (n : ℕ) {gp : ℕ} (hg : gp < (rule S (.int i)).length) :
    cutF S W q c (halfEx n i) gp = fhat S q (.int i) c ⟨i.eex, i.fex, true⟩ gp := by
  unfold cutF fhat
  rw [cutHat_ex h c n hg, cutAux_ex h c n hg, cutTau_ex h c n hg, cutQ_ex h, cut_nrmEx h, fluxN_opp]
  rfl

theorem cutDhat_in (q : State K) (c : Coef K) {gp : ℕ} (hg : gp < (rule S (.int i)).length) :
    cutDhat S W q c (halfIn i) gp = dfDhat S q (.int i) c ⟨i.ein, i.fin, false⟩ gp := by
  unfold cutDhat dfDhat cutDtau dtauDelq
  rw [cutHat_in h, cutAux_in h c hg, cutTau_in h c hg, cutQ_in h]
  rfl

theorem cutDhat_ex (q : State K) (c : Coef K) (n : ℕ) {gp : ℕ} (hg : gp < (rule S (.int i)).length) :
    cutDhat S W q c (halfEx n i) gp = dfDhat S q (.int i) c ⟨i.eex, i.fex, true⟩ gp := by
  unfold cutDhat dfDhat cutDtau dtauDelq
  rw [cutHat_ex h c n hg, cutAux_ex h c n hg, cutTau_ex h c n hg, cutQ_ex h, cut_nrmEx h, dFnDq_opp]
  simp only [dtauZe_opp, dtauQx_opp, dtauQy_opp]
  rfl

omit h in
theorem block_congr {n : ℕ} {I I' : (ℕ → K) → K} {M M' : ℕ → M3 K} (hI : ∀ F G : ℕ → K, (∀ gp < n, F gp = G gp) → I F = I' G) (hM : ∀ gp < n, M gp = M' gp) (r s : ℕ) :
    block I M r s = block I' M' r s := by
  unfold block reshape
  exact hI _ _ fun gp hg => by unfold flatten; rw [hM gp hg]

omit h in
theorem intFace_congr {N : Numerics K} {r : List (K × K)} {f : ℕ} {J : K} {F G : ℕ → K} (hF : ∀ gp < r.length, F gp = G gp) (d : ℕ) :
    Elt.intFace N r f J F d = Elt.intFace N r f J G d := by
  unfold Elt.intFace
  congr 1
  exact List.map_congr_left fun gp hg => by rw [hF gp (List.mem_range.1 hg)]

omit h in
theorem intFace2_congr {N : Numerics K} {r : List (K × K)} {f : ℕ} {J : K} {F G : ℕ → K} (hF : ∀ gp < r.length, F gp = G gp) (a b : ℕ) :
    intFace2 N r f J a b F = intFace2 N r f J b a G := by
  unfold intFace2
  congr 1
  exact List.map_congr_left fun gp hg => by rw [hF gp (List.mem_range.1 hg)]; ring

theorem cutR_half (q : State K) (c : Coef K) (n : ℕ) : cutR S W q c (halfIn i) = faceR S q (.int i) c ⟨i.ein, i.fin, false⟩ ∧
    cutR S W q c (halfEx n i) = faceR S q (.int i) c ⟨i.eex, i.fex, true⟩ := by
  constructor
  · funext r
    unfold cutR faceR
    rw [cut_ruleIn h]
    exact intFace_congr (fun gp hg => by rw [cutF_in h q c hg]) _
  · funext r
    unfold cutR faceR
    rw [cut_ruleEx h, cut_surfEx h]
    exact intFace_congr (fun gp hg => by rw [cutF_ex h q c n hg]) _

theorem cutD_half (c : Coef K) (n : ℕ) : cutD S W c (halfIn i) = faceD S (.int i) c ⟨i.ein, i.fin, false⟩ ∧
    cutD S W c (halfEx n i) = faceD S (.int i) c ⟨i.eex, i.fex, true⟩ := by
  constructor
  · funext r k
    unfold cutD faceD
    rw [cut_ruleIn h]
    exact block_congr (fun F G hF => intFace2_congr hF _ _) (fun gp hg => cutTau_in h c hg) r k
  · funext r k
    unfold cutD faceD
    rw [cut_ruleEx h, cut_surfEx h]
    exact block_congr (fun F G hF => intFace2_congr hF _ _) (fun gp hg => cutTau_ex h c n hg) r k

theorem cutPhiLam_in (a b : ℕ) {F G : ℕ → K} (hF : ∀ gp < (rule S (.int i)).length, F gp = G gp) :
    cutPhiLam S W (halfIn i) a b F = intPhiLam S (.int i) ⟨i.ein, i.fin, false⟩ a b G := by
  unfold cutPhiLam intPhiLam
  rw [cutTab_in h, cut_ruleIn h]
  refine Finset.sum_congr rfl fun gp hgp => ?_
  rw [hF gp (Finset.mem_range.1 hgp)]
  rfl

theorem cutPhiLam_ex (n a b : ℕ) {F G : ℕ → K} (hF : ∀ gp < (rule S (.int i)).length, F gp = G gp) :
    cutPhiLam S W (halfEx n i) a b F = intPhiLam S (.int i) ⟨i.eex, i.fex, true⟩ a b G := by
  unfold cutPhiLam intPhiLam
  simp only [(cutTab_ex h n).1, (cutTab_ex h n).2.1, cut_ruleEx h]
  refine Finset.sum_congr rfl fun gp hgp => ?_
  have hg := Finset.mem_range.1 hgp
  rw [hF gp hg]
  congr 1
  unfold flatten
  beta_reduce
  rw [(cutLam_ex h n hg _).1]
  rfl

theorem cutDh_half (q : State K) (c : Coef K) (n : ℕ) : cutDh S W q c (halfIn i) = sideDh S q (.int i) c ⟨i.ein, i.fin, false⟩ ∧
    cutDh S W q c (halfEx n i) = sideDh S q (.int i) c ⟨i.eex, i.fex, true⟩ := by
  constructor
  · funext r k
    unfold cutDh sideDh
    rw [block_congr (fun F G hF => cutPhiLam_in h _ _ hF) (fun gp hg => cutDhat_in h q c hg) r k]
  · funext r k
    unfold cutDh sideDh
    rw [block_congr (fun F G hF => cutPhiLam_ex h n _ _ hF) (fun gp hg => cutDhat_ex h q c n hg) r k]

theorem cutDg_half (q : State K) (c : Coef K) (n : ℕ) : cutDg S W c (halfIn i) = sideDg S q (.int i) c ⟨i.ein, i.fin, false⟩ ∧
    cutDg S W c (halfEx n i) = sideDg S q (.int i) c ⟨i.eex, i.fex, true⟩ := by
  constructor
  · funext r k
    unfold cutDg sideDg
    refine block_congr (fun F G hF => cutPhiLam_in h _ _ hF) (fun gp hg => ?_) r k
    unfold cutGDelta gDelta
    simp only [(cut_kind h n).1, h.meets.kind]
    exact cutTau_in h c hg
  · funext r k
    unfold cutDg sideDg
    refine block_congr (fun F G hF => cutPhiLam_ex h n _ _ hF) (fun gp hg => ?_) r k
    unfold cutGDelta gDelta
    simp only [(cut_kind h n).2, h.meets.kind]
    exact cutTau_ex h c n hg

/-- The halves of the edge's own block add up. -/
theorem cutHg_half (q : State K) (c : Coef K) (n : ℕ) {r k : ℕ} (hr : r < 3 * (rule S (.int i)).length) (hk : k < 3 * (rule S (.int i)).length) :
    cutHg S W q c (halfIn i) r k + cutHg S W q c (halfEx n i) r k = edgeDhg S q (.int i) c r k := by
  have hr' : r / 3 < (rule S (.int i)).length := by omega
  have hk' : k / 3 < (rule S (.int i)).length := by omega
  have hd : ∀ a b : ℕ, b < (rule S (.int i)).length → ((rule S (.int i)).length * a + b) / (rule S (.int i)).length = a ∧
      ((rule S (.int i)).length * a + b) % (rule S (.int i)).length = b := fun a b hb => by
    rw [Nat.mul_add_div (by omega), Nat.div_eq_of_lt hb, Nat.mul_add_mod, Nat.mod_eq_of_lt hb]
    exact ⟨rfl, rfl⟩
  unfold cutHg edgeDhg block reshape integral2 intLamLam
  rw [cutTab_in h, (cutTab_ex h n).1, (cutTab_ex h n).2.1]
  beta_reduce
  change (∑ gp ∈ Finset.range (rule S (.int i)).length, _) + _ = ∑ gp ∈ Finset.range (rule S (.int i)).length, _
  rw [← Finset.sum_range_reflect (fun gp => (flatten 3 (fun i_1 j => cutGHat S W q c (halfEx n i) gp (varOf i_1) (varOf j)) (r % 3 * 3 + k % 3)) *
    flatten (rule S (.int i)).length (fun a b => (cutTab S W (halfEx n i)).lam a gp * intLam (cutTab S W (halfEx n i)) gp b)
      ((rule S (.int i)).length * (k / 3) + r / 3)), ← Finset.sum_add_distrib]
  refine Finset.sum_congr rfl fun gp hgp => ?_
  have hg := Finset.mem_range.1 hgp
  have hg' : (rule S (.int i)).length - 1 - gp < (rule S (.int i)).length := by omega
  have hgg : (rule S (.int i)).length - ((rule S (.int i)).length - 1 - gp) - 1 = gp := by omega
  unfold flatten
  beta_reduce
  rw [show (tab S (.int i)).ndof = (rule S (.int i)).length from rfl, (hd _ _ hr').1, (hd _ _ hr').2, (hd _ _ hk').1, (hd _ _ hk').2, (cutLam_ex h n hg' _).1,
    (cutLam_ex h n hg' _).2, hgg]
  unfold cutGHat gHat
  simp only [(cut_kind h n).1, (cut_kind h n).2, h.meets.kind]
  rw [cutDhat_in h q c hg, cutDhat_ex h q c n hg', show (rule S (.int i)).length - 1 - gp = (rule S (.int i)).length - gp - 1 by omega]
  simp only [Matrix.add_apply, intLam]
  ring

/-- The halves of the edge's right-hand side add up. -/
theorem cutHr_half (q : State K) (c : Coef K) (n r : ℕ) : cutHr S W q c (halfIn i) r + cutHr S W q c (halfEx n i) r = edgeRg S q (.int i) c r := by
  unfold cutHr edgeRg integral
  rw [cutTab_in h, (cutTab_ex h n).1, ← neg_add]
  congr 1
  change (∑ gp ∈ Finset.range (rule S (.int i)).length, _) + _ = ∑ gp ∈ Finset.range (rule S (.int i)).length, _
  rw [← Finset.sum_range_reflect (fun gp => Swe.comp (cutGRhs S W q c (halfEx n i) gp) (varOf (r % 3)) * intLam (cutTab S W (halfEx n i)) gp (r / 3)),
    ← Finset.sum_add_distrib]
  refine Finset.sum_congr rfl fun gp hgp => ?_
  have hg := Finset.mem_range.1 hgp
  have hg' : (rule S (.int i)).length - 1 - gp < (rule S (.int i)).length := by omega
  have hgg : (rule S (.int i)).length - ((rule S (.int i)).length - 1 - gp) - 1 = gp := by omega
  rw [(cutLam_ex h n hg' _).1, hgg]
  unfold cutGRhs gRhs
  simp only [(cut_kind h n).1, (cut_kind h n).2, h.meets.kind]
  rw [cutF_in h q c hg, cutF_ex h q c n hg', show (rule S (.int i)).length - 1 - gp = (rule S (.int i)).length - gp - 1 by omega, comp_plus]
  ring

/-- **C101** Both halves of a cut interface start from the trace of the interface. -/
theorem initCut_half (n : ℕ) : initCut S W (halfIn i) = initTrace S W.start (.int i) ∧ initCut S W (halfEx n i) = initTrace S W.start (.int i) := by
  have hrI : faceRule S.v.N (S.dat i.ein).elt.p = rule S (.int i) := (meets_rule h.meets).1.symm
  have hrE : faceRule S.v.N (S.dat i.eex).elt.p = rule S (.int i) := (meets_rule h.meets).2.symm
  constructor
  · unfold initCut initTrace
    simp only [(cut_kind h n).1, h.meets.kind, cut_ruleIn h, cutTab_in h]
    congr 1
    funext var dof
    unfold Edge.project integral
    refine Finset.sum_congr rfl fun k _ => ?_
    congr 1
    refine Finset.sum_congr rfl fun gp hgp => ?_
    have hg : gp < (rule S (.int i)).length := Finset.mem_range.1 hgp
    beta_reduce
    have := (message_decodes (S := S) (W := W) i.eex i.fex i.ein (gp := gp) (by rw [hrE]; exact hg)).1
    simp only [hrE] at this
    rw [cutQ_in h]
    simp only [halfIn]
    rw [this]
    rfl
  · unfold initCut initTrace
    simp only [(cut_kind h n).2, h.meets.kind, cut_ruleEx h]
    congr 1
    funext var dof
    unfold Edge.project integral
    rw [(cutTab_ex h n).1, (cutTab_ex h n).2.1]
    refine Finset.sum_congr rfl fun k _ => ?_
    unfold minv
    rw [(cutTab_ex h n).2.2]
    congr 1
    change _ = ∑ gp ∈ Finset.range (rule S (.int i)).length, _
    rw [← Finset.sum_range_reflect]
    refine Finset.sum_congr rfl fun gp hgp => ?_
    have hg : gp < (rule S (.int i)).length := Finset.mem_range.1 hgp
    have hg' : (rule S (.int i)).length - 1 - gp < (rule S (.int i)).length := by omega
    have hgg : (rule S (.int i)).length - ((rule S (.int i)).length - 1 - gp) - 1 = gp := by omega
    have := (message_decodes (S := S) (W := W) i.ein i.fin i.eex (gp := (rule S (.int i)).length - 1 - gp) (by rw [hrI]; exact hg')).1
    simp only [hrI] at this
    beta_reduce
    rw [cutQ_ex h, (cutLam_ex h n hg' _).1, hgg]
    simp only [halfEx]
    rw [this, hgg, show (rule S (.int i)).length - 1 - gp = (rule S (.int i)).length - gp - 1 by omega, comp_plus, comp_plus, add_comm]
    rfl

end

end Verif.Ihdg.Props
