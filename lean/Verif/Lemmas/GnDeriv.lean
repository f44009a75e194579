import Verif.Model.GnDeriv
import Verif.Lemmas.PolySpan

/-!
Helper lemmas: the right-hand side of a derivative as a sum over the faces of an element.
-/

namespace Verif.Gn
open Verif.Geometry Verif.Element Verif.Swe Verif.Swe.Props

section
variable {K : Type} [Field K] [LinearOrder K]

/-- What the interior side of an interface adds. -/
def gIn (v : Env K) (dat : ℕ → EltData K) (F : Row K) (dir : ℕ) (i : Iface K) : ℕ → K :=
  Elt.intFace v.N (i.rule v dat) i.fin (i.J v dat) fun gp => hatIn v dat F i gp * nd (normal v.sq (dat i.ein).elt.tri i.fin) dir

/-- What the exterior side of an interface adds. -/
def gEx (v : Env K) (dat : ℕ → EltData K) (F : Row K) (dir : ℕ) (i : Iface K) : ℕ → K :=
  Elt.intFace v.N (i.rule v dat) i.fex (i.J v dat) fun gp =>
    hatEx v dat F i gp * nd ⟨-(normal v.sq (dat i.ein).elt.tri i.fin).x, -(normal v.sq (dat i.ein).elt.tri i.fin).y⟩ dir

/-- What a boundary adds. -/
def gBd (v : Env K) (dat : ℕ → EltData K) (F : Row K) (dir : ℕ) (b : Bnd K) : ℕ → K :=
  Elt.intFace v.N (faceRule v.N (dat b.e).elt.p) b.f (surfaceJ v.sq (dat b.e).elt.tri b.f) fun gp =>
    F b.e (facePt (faceRule v.N (dat b.e).elt.p) b.f gp) * nd (normal v.sq (dat b.e).elt.tri b.f) dir

/-- All faces of an element. -/
def gTerms (v : Env K) (dat : ℕ → EltData K) (m : Mesh K) (F : Row K) (dir e : ℕ) : List (ℕ × (ℕ → K)) :=
  m.ints.flatMap (fun i => (if i.ein = e then [(i.fin, gIn v dat F dir i)] else []) ++ (if i.eex = e then [(i.fex, gEx v dat F dir i)] else [])) ++
    m.bnds.flatMap fun b => if b.e = e then [(b.f, gBd v dat F dir b)] else []

omit [LinearOrder K] in
theorem addAt_at (r : ℕ → ℕ → K) (a e : ℕ) (x : ℕ → K) : addAt r a x e = r e + if a = e then x else 0 := by
  unfold addAt
  by_cases h : a = e
  · subst h; funext d; simp
  · rw [Function.update_of_ne (Ne.symm h), if_neg h, add_zero]

theorem gradInt_at (v : Env K) (dat : ℕ → EltData K) (F : Row K) (dir : ℕ) (l : List (Iface K)) (r : ℕ → ℕ → K) (e : ℕ) :
    (l.foldl (gradInt v dat F dir) r) e = r e + ((l.flatMap fun i => (if i.ein = e then [(i.fin, gIn v dat F dir i)] else []) ++
      (if i.eex = e then [(i.fex, gEx v dat F dir i)] else [])).map Prod.snd).sum := by
  induction l generalizing r with
  | nil => simp
  | cons i l ih =>
    rw [List.foldl_cons, ih, List.flatMap_cons, List.map_append, List.sum_append]
    have : gradInt v dat F dir r i e = r e + (((if i.ein = e then [(i.fin, gIn v dat F dir i)] else []) ++
        (if i.eex = e then [(i.fex, gEx v dat F dir i)] else [])).map Prod.snd).sum := by
      unfold gradInt
      rw [addAt_at, addAt_at]
      change r e + (if i.ein = e then gIn v dat F dir i else 0) + (if i.eex = e then gEx v dat F dir i else 0) = _
      split <;> split <;> simp [add_assoc]
    rw [this]; abel

theorem gradBnd_at (v : Env K) (dat : ℕ → EltData K) (F : Row K) (dir : ℕ) (l : List (Bnd K)) (r : ℕ → ℕ → K) (e : ℕ) :
    (l.foldl (gradBnd v dat F dir) r) e = r e + ((l.flatMap fun b => if b.e = e then [(b.f, gBd v dat F dir b)] else []).map Prod.snd).sum := by
  induction l generalizing r with
  | nil => simp
  | cons b l ih =>
    rw [List.foldl_cons, ih, List.flatMap_cons, List.map_append, List.sum_append]
    have : gradBnd v dat F dir r b e = r e + ((if b.e = e then [(b.f, gBd v dat F dir b)] else []).map Prod.snd).sum := by
      unfold gradBnd
      rw [addAt_at]
      change r e + (if b.e = e then gBd v dat F dir b else 0) = _
      split <;> simp
    rw [this]; abel

theorem gradElt_at (v : Env K) (dat : ℕ → EltData K) (F : Row K) (dir : ℕ) (l : List ℕ) (r : ℕ → ℕ → K) (e : ℕ) :
    (l.foldl (gradElt v dat F dir) r) e = if e ∈ l then fun d => -(dat e).elt.intDPhi v.N dir (F e) d else r e := by
  induction l generalizing r with
  | nil => simp
  | cons a l ih =>
    rw [List.foldl_cons, ih]
    by_cases h : e ∈ l
    · simp [h]
    · by_cases ha : e = a
      · subst ha; simp [h, gradElt]
      · simp [h, ha, gradElt]

theorem gradRhs_at (v : Env K) (dat : ℕ → EltData K) (m : Mesh K) (F : Row K) (dir : ℕ) {e : ℕ} (he : e ∈ m.elts) (d : ℕ) :
    gradRhs v dat m F dir e d = -(dat e).elt.intDPhi v.N dir (F e) d + ((gTerms v dat m F dir e).map fun x => x.2 d).sum := by
  unfold gradRhs
  rw [gradBnd_at, gradInt_at, gradElt_at, if_pos he, add_assoc, ← List.sum_append, ← List.map_append]
  change (_ + ((gTerms v dat m F dir e).map Prod.snd).sum) d = _
  rw [Pi.add_apply]
  congr 1
  generalize gTerms v dat m F dir e = l
  induction l with
  | nil => rfl
  | cons a l ih => simp only [List.map_cons, List.sum_cons, Pi.add_apply, ih]

end

theorem gTerms_faces (v : Env ℝ) (dat : ℕ → EltData ℝ) (m : Mesh ℝ) (F : Row ℝ) (dir e : ℕ) : (gTerms v dat m F dir e).map Prod.fst = facesOf m e := by
  unfold gTerms facesOf
  rw [List.map_append, List.map_flatMap, List.map_flatMap]
  congr 1
  · apply List.flatMap_congr
    intro i _
    split <;> split <;> simp
  · apply List.flatMap_congr
    intro b _
    split <;> simp

end Verif.Gn
