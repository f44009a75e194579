import Verif.Model.GnRanks
import Verif.Lemmas.GnDeriv
import Verif.Props.Parallel
import Verif.Props.Edge
import Mathlib.Data.List.Perm.Basic

/-!
Helper lemmas for the dispersive correction on several ranks.
-/

namespace Verif.Gn
open Verif.Geometry Verif.Element Verif.Swe Verif.Swe.Props Verif.Edge Verif.Ehdg Verif.Ihdg

section
variable {K : Type} [Field K] [LinearOrder K]

/-- Sides of an interface at an element. -/
def gInts (v : Env K) (dat : ℕ → EltData K) (F : Row K) (dir e : ℕ) (i : Iface K) : List (ℕ × (ℕ → K)) :=
  (if i.ein = e then [(i.fin, gIn v dat F dir i)] else []) ++ (if i.eex = e then [(i.fex, gEx v dat F dir i)] else [])

def gBnds (v : Env K) (dat : ℕ → EltData K) (F : Row K) (dir e : ℕ) (b : Bnd K) : List (ℕ × (ℕ → K)) := if b.e = e then [(b.f, gBd v dat F dir b)] else []

/-- What a distributed boundary adds. -/
def gDist (v : Env K) (dat : ℕ → EltData K) (F : Row K) (dir : ℕ) (b : Dbnd K) : ℕ → K :=
  Elt.intFace v.N (ruleD v dat b) b.f (surfaceJ v.sq (dat b.e).elt.tri b.f) fun gp => hatD v dat F b gp * nd (normal v.sq (dat b.e).elt.tri b.f) dir

theorem gradLocal_at (v : Env K) (dat : ℕ → EltData K) (F : Row K) (dir : ℕ) (r : ℕ → ℕ → K) (m : Mesh K) (e : ℕ) :
    gradLocal v dat F dir r m e = (if e ∈ m.elts then fun d => -(dat e).elt.intDPhi v.N dir (F e) d else r e) +
      (((m.ints.flatMap (gInts v dat F dir e)).map Prod.snd).sum + ((m.bnds.flatMap (gBnds v dat F dir e)).map Prod.snd).sum) := by
  unfold gradLocal
  rw [gradBnd_at, gradInt_at, gradElt_at, add_assoc]
  rfl

theorem gradAll_at (v : Env K) (dat : ℕ → EltData K) (F : Row K) (dir e : ℕ) (ms : List (Mesh K)) (hn : (ms.flatMap Mesh.elts).Nodup)
    (hi : ∀ s ∈ ms, ∀ i ∈ s.ints, i.ein ∈ s.elts ∧ i.eex ∈ s.elts) (hb : ∀ s ∈ ms, ∀ b ∈ s.bnds, b.e ∈ s.elts) (r : ℕ → ℕ → K) :
    (ms.foldl (gradLocal v dat F dir) r) e = (if e ∈ ms.flatMap Mesh.elts then fun d => -(dat e).elt.intDPhi v.N dir (F e) d else r e) +
      ((((ms.flatMap Mesh.ints).flatMap (gInts v dat F dir e)).map Prod.snd).sum +
        (((ms.flatMap Mesh.bnds).flatMap (gBnds v dat F dir e)).map Prod.snd).sum) := by
  induction ms generalizing r with
  | nil => simp
  | cons m ms ih =>
    rw [List.flatMap_cons, List.nodup_append] at hn
    obtain ⟨n1, n2, n3⟩ := hn
    rw [List.foldl_cons, ih n2 (fun s hs => hi s (List.mem_cons_of_mem _ hs)) (fun s hs => hb s (List.mem_cons_of_mem _ hs)), gradLocal_at]
    simp only [List.flatMap_cons, List.flatMap_append, List.map_append, List.sum_append, List.mem_append]
    by_cases h : e ∈ ms.flatMap Mesh.elts
    · have hm : e ∉ m.elts := fun hm => n3 e hm e h rfl
      have z1 : m.ints.flatMap (gInts v dat F dir e) = [] := by
        rw [List.flatMap_eq_nil_iff]
        intro i hii
        have := hi m List.mem_cons_self i hii
        unfold gInts
        rw [if_neg (fun h : i.ein = e => hm (h ▸ this.1)), if_neg (fun h : i.eex = e => hm (h ▸ this.2))]
        simp
      have z2 : m.bnds.flatMap (gBnds v dat F dir e) = [] := by
        rw [List.flatMap_eq_nil_iff]
        intro b hbb
        have := hb m List.mem_cons_self b hbb
        unfold gBnds
        rw [if_neg (fun h : b.e = e => hm (h ▸ this))]
      rw [z1, z2]
      simp [h]
    · simp only [h, or_false, if_false]
      abel

theorem gradDist_at (v : Env K) (dat : ℕ → EltData K) (F : Row K) (dir : ℕ) (l : List (Dbnd K)) (r : ℕ → ℕ → K) (e : ℕ) :
    (l.foldl (gradDist v dat F dir) r) e = r e + (l.map fun b => if b.e = e then gDist v dat F dir b else 0).sum := by
  induction l generalizing r with
  | nil => simp
  | cons b l ih =>
    rw [List.foldl_cons, ih, List.map_cons, List.sum_cons]
    have : gradDist v dat F dir r b e = r e + if b.e = e then gDist v dat F dir b else 0 := by
      unfold gradDist
      rw [addAt_at]
      rfl
    rw [this, add_assoc]

theorem foldl_flat {α β S : Type} (f : S → β → S) (k : α → List β) (l : List α) (s : S) :
    l.foldl (fun s a => (k a).foldl f s) s = (l.flatMap k).foldl f s := by
  induction l generalizing s with
  | nil => rfl
  | cons a l ih => rw [List.foldl_cons, List.flatMap_cons, List.foldl_append, ih]

end

section
variable {K : Type} [Field K] [LinearOrder K] [IsStrictOrderedRing K] {v : Env K} {dat : ℕ → EltData K} {i : Iface K}

theorem hatD_in (h : Fits v dat i) (F : Row K) (k : IntKind K) (gp : ℕ) : hatD v dat F ⟨i.ein, i.fin, i.eex, i.fex, k⟩ gp = hatIn v dat F i gp := by
  obtain ⟨r1, r2⟩ := rule_eq h
  unfold hatD hatIn ruleD
  simp only
  rw [← r1, ← r2]

theorem hatD_ex (h : Fits v dat i) (F : Row K) (k : IntKind K) {gp : ℕ} (hg : gp < (i.rule v dat).length) :
    hatD v dat F ⟨i.eex, i.fex, i.ein, i.fin, k⟩ gp = hatEx v dat F i gp := by
  obtain ⟨r1, r2⟩ := rule_eq h
  unfold hatEx hatD hatIn ruleD
  simp only
  rw [← r1, ← r2, show (i.rule v dat).length - ((i.rule v dat).length - gp - 1) - 1 = gp by omega, add_comm]

/-- The interior half adds what the interior side of the interface adds. -/
theorem gDist_in (h : Fits v dat i) (F : Row K) (dir : ℕ) (k : IntKind K) : gDist v dat F dir ⟨i.ein, i.fin, i.eex, i.fex, k⟩ = gIn v dat F dir i := by
  funext d
  unfold gDist gIn
  simp only [hatD_in h]
  unfold ruleD
  rw [← (rule_eq h).1]
  rfl

/-- The exterior half adds what the exterior side of the interface adds. -/
theorem gDist_ex (h : Fits v dat i) (F : Row K) (dir : ℕ) (k : IntKind K) : gDist v dat F dir ⟨i.eex, i.fex, i.ein, i.fin, k⟩ = gEx v dat F dir i := by
  funext d
  unfold gDist gEx
  have hr : ruleD v dat ⟨i.eex, i.fex, i.ein, i.fin, k⟩ = i.rule v dat := (rule_eq h).2.symm
  rw [hr]
  simp only
  rw [J_ex h, normal_ex h]
  exact intFace_congr _ _ _ _ (fun gp hg => by rw [hatD_ex h F k hg]) d

/-- The distributed boundaries add what the cut interfaces add. -/
theorem gDist_cut {cut : List (Iface K)} (hc : ∀ i ∈ cut, Fits v dat i) (F : Row K) (dir e : ℕ) :
    ((cut.flatMap fun i => halves (i.rule v dat).length i).map fun b => if b.e = e then gDist v dat F dir b else 0).sum =
      ((cut.flatMap (gInts v dat F dir e)).map Prod.snd).sum := by
  induction cut with
  | nil => rfl
  | cons i cut ih =>
    rw [List.flatMap_cons, List.map_append, List.sum_append, List.flatMap_cons, List.map_append, List.sum_append, ih fun j hj => hc j (List.mem_cons_of_mem _ hj)]
    congr 1
    simp only [halves, List.map_cons, List.map_nil, List.sum_cons, List.sum_nil, add_zero]
    rw [gDist_in (hc i List.mem_cons_self), gDist_ex (hc i List.mem_cons_self)]
    unfold gInts
    by_cases h1 : i.ein = e <;> by_cases h2 : i.eex = e <;> simp [h1, h2]

/-- **C96** One round of derivatives on several submeshes gives the derivatives of the whole mesh. -/
theorem gradP_eq {m : Mesh K} {ms : List (Mesh K)} {cut : List (Iface K)} (hp : Partitioned (fun i => (i.rule v dat).length) m ms cut)
    (hc : ∀ i ∈ cut, Fits v dat i) (F : Row K) (dir e : ℕ) : gradP v dat ms F dir e = grad v dat m F dir e := by
  unfold gradP grad
  congr 1
  rw [foldl_flat (gradDist v dat F dir) Mesh.dist, gradDist_at, gradAll_at v dat F dir e ms (hp.elts.nodup_iff.mpr hp.nodup) hp.ownInts hp.ownBnds,
    (hp.dist.map fun b => if b.e = e then gDist v dat F dir b else 0).sum_eq, gDist_cut hc]
  change _ = gradLocal v dat F dir (fun _ _ => 0) m e
  rw [gradLocal_at, ← sum_perm hp.ints, ← sum_perm hp.bnds, List.flatMap_append, List.map_append, List.sum_append]
  simp only [hp.elts.mem_iff]
  abel
end

/-! ### Arrays of faces -/

section
variable {α : Type}

/-- Entries written one after another. -/
def assign (l : List (ℕ × ℕ × α)) (t : ℕ → ℕ → α) : ℕ → ℕ → α := l.foldl (fun t c e f => if e = c.1 ∧ f = c.2.1 then c.2.2 else t e f) t

theorem assign_none (l : List (ℕ × ℕ × α)) (t : ℕ → ℕ → α) (e f : ℕ) (h : (e, f) ∉ l.map fun c => (c.1, c.2.1)) : assign l t e f = t e f := by
  induction l generalizing t with
  | nil => rfl
  | cons c l ih =>
    rw [List.map_cons, List.mem_cons, not_or] at h
    unfold assign at ih ⊢
    rw [List.foldl_cons, ih _ h.2, if_neg]
    rintro ⟨rfl, rfl⟩
    exact h.1 rfl

theorem assign_mem (l : List (ℕ × ℕ × α)) (t : ℕ → ℕ → α) (hn : (l.map fun c => (c.1, c.2.1)).Nodup) {c : ℕ × ℕ × α} (hc : c ∈ l) : assign l t c.1 c.2.1 = c.2.2 := by
  induction l generalizing t with
  | nil => cases hc
  | cons a l ih =>
    rw [List.map_cons, List.nodup_cons] at hn
    rcases List.mem_cons.1 hc with rfl | hc
    · change assign l _ _ _ = _
      rw [assign_none l _ _ _ hn.1]
      exact if_pos ⟨rfl, rfl⟩
    · change assign l _ _ _ = _
      exact ih _ hn.2 hc

/-- The order does not matter if no entry is written twice. -/
theorem assign_perm {l l' : List (ℕ × ℕ × α)} (h : l.Perm l') (hn : (l.map fun c => (c.1, c.2.1)).Nodup) (t : ℕ → ℕ → α) : assign l t = assign l' t := by
  funext e f
  by_cases hm : (e, f) ∈ l.map fun c => (c.1, c.2.1)
  · obtain ⟨c, hc, he⟩ := List.mem_map.1 hm
    cases he
    rw [assign_mem l t hn hc, assign_mem l' t ((h.map _).nodup_iff.1 hn) (h.mem_iff.1 hc)]
  · rw [assign_none l t e f hm, assign_none l' t e f fun hm' => hm ((h.map _).mem_iff.2 hm')]

variable {K : Type} [Field K] [LinearOrder K]

/-- Faces of an edge with their entries. -/
def edgCells (g : Edg K → Sd → α) (ed : Edg K) : List (ℕ × ℕ × α) := ed.sides.map fun s => (s.e, s.f, g ed s)

def cells (m : Mesh K) (g : Edg K → Sd → α) : List (ℕ × ℕ × α) := (edgesOf m).flatMap (edgCells g)

def cellsP (g : Edg K → Sd → α) (gd : Dbnd K → α) (m : Mesh K) : List (ℕ × ℕ × α) := cells m g ++ m.dist.map fun b => (b.e, b.f, gd b)

/-- The interior and the exterior half of a cut interface. -/
def halfIn (i : Iface K) : Dbnd K := ⟨i.ein, i.fin, i.eex, i.fex, i.kind⟩

def halfEx (n : ℕ) (i : Iface K) : Dbnd K := ⟨i.eex, i.fex, i.ein, i.fin, Swe.Props.turned n i.kind⟩

omit [Field K] [LinearOrder K] in
/-- Lists of the submeshes in the order of the whole mesh. -/
theorem meshes_perm {β : Type} {npts : Iface K → ℕ} {m : Mesh K} {ms : List (Mesh K)} {cut : List (Iface K)} (hp : Partitioned npts m ms cut)
    (X : Iface K → List β) (Y : Bnd K → List β) (Z : Dbnd K → List β) (h : ∀ i ∈ cut, Z (halfIn i) ++ Z (halfEx (npts i) i) = X i) :
    (ms.flatMap fun m => m.ints.flatMap X ++ m.bnds.flatMap Y ++ m.dist.flatMap Z).Perm (m.ints.flatMap X ++ m.bnds.flatMap Y) := by
  have h1 : (ms.flatMap fun m => m.ints.flatMap X ++ m.bnds.flatMap Y ++ m.dist.flatMap Z).Perm
      ((ms.flatMap Mesh.ints).flatMap X ++ (ms.flatMap Mesh.bnds).flatMap Y ++ (ms.flatMap Mesh.dist).flatMap Z) := by
    rw [List.flatMap_assoc, List.flatMap_assoc, List.flatMap_assoc]
    exact ((List.flatMap_append_perm ms _ _).symm).trans ((List.flatMap_append_perm ms (fun m => m.ints.flatMap X) fun m => m.bnds.flatMap Y).symm.append_right _)
  have h2 : ((ms.flatMap Mesh.dist).flatMap Z).Perm (cut.flatMap X) := by
    refine (hp.dist.flatMap_right Z).trans (List.Perm.of_eq ?_)
    rw [List.flatMap_assoc]
    refine List.flatMap_congr fun i hi => ?_
    rw [← h i hi]
    simp [halves, halfIn, halfEx]
  have h3 : ((ms.flatMap Mesh.ints).flatMap X ++ cut.flatMap X).Perm (m.ints.flatMap X) := by
    rw [← List.flatMap_append]
    exact hp.ints.flatMap_right X
  have h4 : ((ms.flatMap Mesh.bnds).flatMap Y).Perm (m.bnds.flatMap Y) := hp.bnds.flatMap_right Y
  refine h1.trans (((h4.append_left _).append h2).trans ?_)
  refine (List.Perm.of_eq (List.append_assoc _ _ _)).trans ((List.perm_append_comm.append_left _).trans ?_)
  rw [← List.append_assoc]
  exact h3.append_right _

/-- The halves of the cut interfaces write the entries that the interfaces write. -/
theorem cells_perm {npts : Iface K → ℕ} {m : Mesh K} {ms : List (Mesh K)} {cut : List (Iface K)} (hp : Partitioned npts m ms cut) (g : Edg K → Sd → α)
    (gd : Dbnd K → α) (h : ∀ i ∈ cut, gd (halfIn i) = g (.int i) ⟨i.ein, i.fin, false⟩ ∧ gd (halfEx (npts i) i) = g (.int i) ⟨i.eex, i.fex, true⟩) :
    (ms.flatMap (cellsP g gd)).Perm (cells m g) := by
  have := meshes_perm hp (fun i => edgCells g (.int i)) (fun b => edgCells g (.bnd b)) (fun b => [(b.e, b.f, gd b)]) (by
    intro i hi
    rw [(h i hi).1, (h i hi).2]; rfl)
  have e : ∀ m : Mesh K, cells m g = m.ints.flatMap (fun i => edgCells g (.int i)) ++ m.bnds.flatMap (fun b => edgCells g (.bnd b)) := by
    intro m
    unfold cells edgesOf
    rw [List.flatMap_append, List.flatMap_map, List.flatMap_map]
  have e' : ∀ m : Mesh K, cellsP g gd m = m.ints.flatMap (fun i => edgCells g (.int i)) ++ m.bnds.flatMap (fun b => edgCells g (.bnd b)) ++
      m.dist.flatMap fun b => [(b.e, b.f, gd b)] := by
    intro m
    unfold cellsP
    rw [e, List.map_eq_flatMap]
  rw [e, show cellsP g gd = _ from funext e']
  exact this

theorem byFace_assign (S : Scheme K) (g : Edg K → Sd → α) (z : α) : byFace S (fun ed _ s => g ed s) z = assign (cells S.m g) fun _ _ => z := by
  unfold byFace assign cells
  rw [← foldl_flat]
  conv_rhs => rw [← List.zipIdx_map_fst 0 (edgesOf S.m), List.foldl_map]
  refine List.foldl_ext _ _ _ fun t x _ => ?_
  unfold edgCells
  rw [List.foldl_map]

theorem byFaceP_assign (ms : List (Mesh K)) (g : Edg K → Sd → α) (gd : Dbnd K → α) (z : α) :
    byFaceP ms g gd z = assign (ms.flatMap (cellsP g gd)) fun _ _ => z := by
  have e : ∀ m : Mesh K, cellsP g gd m = (edgesP m).flatMap fun x => match x with
      | .loc ed => edgCells g ed
      | .dist b => [(b.e, b.f, gd b)] := by
    intro m
    unfold cellsP cells edgesP
    rw [List.flatMap_append, List.flatMap_map, List.flatMap_map, List.map_eq_flatMap]
  unfold byFaceP assign
  rw [show cellsP g gd = _ from funext e, ← List.flatMap_assoc]
  conv_rhs => rw [← foldl_flat]
  refine List.foldl_ext _ _ _ fun t x _ => ?_
  cases x with
  | loc ed => simp only [edgCells]; rw [List.foldl_map]
  | dist b => rfl

/-- Entries kept at the own face. -/
def ownCells (g : Edg K → α) (gd : Dbnd K → α) : PEdg K → ℕ × ℕ × α
  | .loc ed => (ed.own.e, ed.own.f, g ed)
  | .dist b => (b.e, b.f, gd b)

theorem byOwnP_assign (ms : List (Mesh K)) (g : Edg K → α) (gd : Dbnd K → α) (z : α) :
    byOwnP ms g gd z = assign ((ms.flatMap edgesP).map (ownCells g gd)) fun _ _ => z := by
  unfold byOwnP assign
  rw [List.foldl_map]
  refine List.foldl_ext _ _ _ fun t x _ => ?_
  cases x <;> rfl

/-- Entries changed by a function of the element. -/
theorem assign_map {β : Type} (φ : ℕ → α → β) (l : List (ℕ × ℕ × α)) (t : ℕ → ℕ → α) (u : ℕ → ℕ → β) (h : ∀ e f, u e f = φ e (t e f)) (e f : ℕ) :
    assign (l.map fun c => (c.1, c.2.1, φ c.1 c.2.2)) u e f = φ e (assign l t e f) := by
  induction l generalizing t u with
  | nil => exact h e f
  | cons c l ih =>
    refine ih _ _ fun e f => ?_
    by_cases hc : e = c.1 ∧ f = c.2.1
    · obtain ⟨rfl, rfl⟩ := hc
      simp
    · simp only [if_neg hc, h]

/-! ### Sums over faces -/

omit [Field K] [LinearOrder K] in
/-- As `meshes_perm`, for sums. -/
theorem meshes_sum {β : Type} [AddCommMonoid β] {npts : Iface K → ℕ} {m : Mesh K} {ms : List (Mesh K)} {cut : List (Iface K)} (hp : Partitioned npts m ms cut)
    (X : Iface K → β) (Y : Bnd K → β) (Z : Dbnd K → β) (h : ∀ i ∈ cut, Z (halfIn i) + Z (halfEx (npts i) i) = X i) :
    (ms.flatMap fun m => m.ints.map X ++ m.bnds.map Y ++ m.dist.map Z).sum = (m.ints.map X).sum + (m.bnds.map Y).sum := by
  have h1 : (ms.flatMap fun m => m.ints.map X ++ m.bnds.map Y ++ m.dist.map Z).Perm
      ((ms.flatMap Mesh.ints).map X ++ (ms.flatMap Mesh.bnds).map Y ++ (ms.flatMap Mesh.dist).map Z) := by
    rw [List.map_flatMap, List.map_flatMap, List.map_flatMap]
    exact ((List.flatMap_append_perm ms _ _).symm).trans ((List.flatMap_append_perm ms (fun m => m.ints.map X) fun m => m.bnds.map Y).symm.append_right _)
  have h2 : ((cut.flatMap fun i => halves (npts i) i).map Z).sum = (cut.map X).sum := by
    clear hp h1
    induction cut with
    | nil => rfl
    | cons i cut ih =>
      rw [List.flatMap_cons, List.map_append, List.sum_append, ih fun j hj => h j (List.mem_cons_of_mem _ hj), List.map_cons, List.sum_cons, ← h i List.mem_cons_self]
      simp [halves, halfIn, halfEx]
  rw [h1.sum_eq, List.sum_append, List.sum_append, (hp.dist.map Z).sum_eq, h2, (hp.bnds.map Y).sum_eq, ← (hp.ints.map X).sum_eq, List.map_append, List.sum_append]
  abel

/-- What faces add to an element. -/
def cellSum (l : List (ℕ × ℕ × (ℕ → ℕ → K))) (e : ℕ) : ℕ → ℕ → K := (l.map fun c => if c.1 = e then c.2.2 else 0).sum

omit [LinearOrder K] in
theorem cellSum_append (l l' : List (ℕ × ℕ × (ℕ → ℕ → K))) (e : ℕ) : cellSum (l ++ l') e = cellSum l e + cellSum l' e := by
  unfold cellSum
  rw [List.map_append, List.sum_append]

/-- What a face adds to `w1_w1`. -/
def wetSide11 (D : Dc K) (wet : ℕ → Bool) (ed : Edg K) (s : Sd) : ℕ → ℕ → K := if wet s.e then side11 D ed s else 0

def wetDist11 (D : Dc K) (wet : ℕ → Bool) (b : Dbnd K) : ℕ → ℕ → K := if wet b.e then dist11 D b else 0

theorem addSide_at (D : Dc K) (wet : ℕ → Bool) (ed : Edg K) (l : List Sd) (L : ℕ → ℕ → ℕ → K) (e : ℕ) :
    l.foldl (local11Side D wet ed) L e = L e + cellSum (l.map fun s => (s.e, s.f, wetSide11 D wet ed s)) e := by
  induction l generalizing L with
  | nil => simp [cellSum]
  | cons s l ih =>
    rw [List.foldl_cons, ih]
    unfold cellSum
    rw [List.map_cons, List.map_cons, List.sum_cons, ← add_assoc]
    congr 1
    unfold local11Side wetSide11
    by_cases hw : wet s.e = true
    · rw [if_pos hw, if_pos hw]
      by_cases he : s.e = e
      · subst he
        simp only [Function.update_self, if_true]
        rfl
      · rw [Function.update_of_ne (Ne.symm he), if_neg he, add_zero]
    · rw [if_neg hw, if_neg hw, ite_self, add_zero]

theorem addEdg_at (D : Dc K) (wet : ℕ → Bool) (l : List (Edg K)) (L : ℕ → ℕ → ℕ → K) (e : ℕ) :
    l.foldl (fun L ed => ed.sides.foldl (local11Side D wet ed) L) L e = L e + cellSum (l.flatMap (edgCells (wetSide11 D wet))) e := by
  induction l generalizing L with
  | nil => simp [cellSum]
  | cons ed l ih => rw [List.foldl_cons, ih, addSide_at, List.flatMap_cons, cellSum_append, add_assoc]; rfl

theorem addDist_at (D : Dc K) (wet : ℕ → Bool) (l : List (Dbnd K)) (L : ℕ → ℕ → ℕ → K) (e : ℕ) :
    (l.map PEdg.dist).foldl (addP D wet) L e = L e + cellSum (l.map fun b => (b.e, b.f, wetDist11 D wet b)) e := by
  induction l generalizing L with
  | nil => simp [cellSum]
  | cons b l ih =>
    rw [List.map_cons, List.foldl_cons, ih]
    unfold cellSum
    rw [List.map_cons, List.map_cons, List.sum_cons, ← add_assoc]
    congr 1
    unfold wetDist11
    simp only [addP]
    by_cases hw : wet b.e = true
    · rw [if_pos hw, if_pos hw]
      by_cases he : b.e = e
      · subst he
        simp only [Function.update_self, if_true]
        rfl
      · rw [Function.update_of_ne (Ne.symm he), if_neg he, add_zero]
    · rw [if_neg hw, if_neg hw, ite_self, add_zero]

omit [LinearOrder K] in
theorem setElts_at (V : ℕ → ℕ → ℕ → K) (l : List ℕ) (L : ℕ → ℕ → ℕ → K) (e : ℕ) :
    l.foldl (fun L e => Function.update L e (V e)) L e = if e ∈ l then V e else L e := by
  induction l generalizing L with
  | nil => simp
  | cons a l ih =>
    rw [List.foldl_cons, ih]
    by_cases h : e ∈ l
    · simp [h]
    · by_cases ha : e = a
      · subst ha; simp [h]
      · simp [h, ha]

theorem local11_cells (D : Dc K) (wet : ℕ → Bool) (q : State K) (e : ℕ) :
    local11 D wet q e = (if e ∈ D.m.elts then vol11 D q e else 0) + cellSum (cells D.m (wetSide11 D wet)) e := by
  unfold local11
  rw [addEdg_at]
  congr 1
  exact setElts_at (vol11 D q) _ _ e

theorem local11P_at (D : Dc K) (R : Derivs K) (wet : ℕ → Bool) (q : State K) (L : ℕ → ℕ → ℕ → K) (m : Mesh K) (e : ℕ) :
    local11P D R wet q L m e = (if e ∈ m.elts then vol11R D R q e else L e) + cellSum (cellsP (wetSide11 D wet) (wetDist11 D wet) m) e := by
  unfold local11P edgesP cellsP
  rw [List.foldl_append, addDist_at, List.foldl_map, cellSum_append, ← add_assoc]
  congr 1
  change (edgesOf m).foldl (fun L ed => ed.sides.foldl (local11Side D wet ed) L) _ e = _
  rw [addEdg_at, setElts_at (vol11R D R q)]
  rfl

omit [LinearOrder K] in
theorem cellSum_zero {l : List (ℕ × ℕ × (ℕ → ℕ → K))} {e : ℕ} (h : ∀ c ∈ l, c.1 ≠ e) : cellSum l e = 0 := by
  unfold cellSum
  refine List.sum_eq_zero fun x hx => ?_
  obtain ⟨c, hc, rfl⟩ := List.mem_map.1 hx
  exact if_neg (h c hc)

theorem local11All_at (D : Dc K) (R : Derivs K) (wet : ℕ → Bool) (q : State K) (e : ℕ) (ms : List (Mesh K)) (hn : (ms.flatMap Mesh.elts).Nodup)
    (hi : ∀ s ∈ ms, ∀ i ∈ s.ints, i.ein ∈ s.elts ∧ i.eex ∈ s.elts) (hb : ∀ s ∈ ms, ∀ b ∈ s.bnds, b.e ∈ s.elts) (hd : ∀ s ∈ ms, ∀ b ∈ s.dist, b.e ∈ s.elts)
    (L : ℕ → ℕ → ℕ → K) : ms.foldl (local11P D R wet q) L e =
      (if e ∈ ms.flatMap Mesh.elts then vol11R D R q e else L e) + cellSum (ms.flatMap (cellsP (wetSide11 D wet) (wetDist11 D wet))) e := by
  induction ms generalizing L with
  | nil => simp [cellSum]
  | cons m ms ih =>
    rw [List.flatMap_cons, List.nodup_append] at hn
    obtain ⟨n1, n2, n3⟩ := hn
    rw [List.foldl_cons, ih n2 (fun s hs => hi s (List.mem_cons_of_mem _ hs)) (fun s hs => hb s (List.mem_cons_of_mem _ hs))
      (fun s hs => hd s (List.mem_cons_of_mem _ hs)), local11P_at, List.flatMap_cons, List.flatMap_cons, cellSum_append]
    simp only [List.mem_append]
    by_cases h : e ∈ ms.flatMap Mesh.elts
    · have hm : e ∉ m.elts := fun hm => n3 e hm e h rfl
      rw [cellSum_zero (l := cellsP (wetSide11 D wet) (wetDist11 D wet) m)]
      · simp [h]
      · intro c hc he
        refine hm (he ▸ ?_)
        unfold cellsP cells edgesOf at hc
        rcases List.mem_append.1 hc with hc | hc
        · obtain ⟨ed, hed, hc⟩ := List.mem_flatMap.1 hc
          rcases List.mem_append.1 hed with hed | hed
          · obtain ⟨i, hii, rfl⟩ := List.mem_map.1 hed
            simp only [edgCells, Edg.sides, List.map_cons, List.map_nil, List.mem_cons, List.not_mem_nil, or_false] at hc
            rcases hc with rfl | rfl
            · exact (hi m List.mem_cons_self i hii).1
            · exact (hi m List.mem_cons_self i hii).2
          · obtain ⟨b, hbb, rfl⟩ := List.mem_map.1 hed
            simp only [edgCells, Edg.sides, List.map_cons, List.map_nil, List.mem_cons, List.not_mem_nil, or_false] at hc
            cases hc
            exact hb m List.mem_cons_self b hbb
        · obtain ⟨b, hbb, rfl⟩ := List.mem_map.1 hc
          exact hd m List.mem_cons_self b hbb
    · simp only [h, or_false, if_false, add_assoc]

end

end Verif.Gn
