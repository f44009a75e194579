import Verif.Model.Ihdg
import Verif.Props.Condense
import Verif.Props.EhdgTrace

/-! # Lemmas on the implicit hybridized discretization: entries of the assembled vectors and matrices -/

namespace Verif.Ihdg
open Verif.Swe Verif.Geometry Verif.Element Verif.Edge Verif.Ehdg

variable {K : Type} [Field K]

/-- Sum over all sides at element `e`. -/
def sideSum (l : List (Edg K × ℕ)) (e : ℕ) (g : Edg K → ℕ → Sd → K) : K :=
  (l.map fun x => ((x.1.sides.filter fun s => s.e = e).map (g x.1 x.2)).sum).sum

theorem update_sides (g : Sd → ℕ → K) (e : ℕ) (l : List Sd) (P : ℕ → ℕ → K) (r : ℕ) :
    (l.foldl (fun (P : ℕ → ℕ → K) s => Function.update P s.e fun r => P s.e r + g s r) P) e r = P e r + ((l.filter fun s => s.e = e).map fun s => g s r).sum := by
  induction l generalizing P with
  | nil => simp
  | cons a l ih =>
    rw [List.foldl_cons, ih]
    by_cases h : a.e = e
    · subst h
      rw [Function.update_self, List.filter_cons_of_pos (by simp), List.map_cons, List.sum_cons]
      ring
    · rw [Function.update_of_ne (Ne.symm h), List.filter_cons_of_neg (by simpa using h)]

theorem update_edges (g : Edg K → ℕ → Sd → ℕ → K) (e : ℕ) (l : List (Edg K × ℕ)) (P : ℕ → ℕ → K) (r : ℕ) :
    (l.foldl (fun (P : ℕ → ℕ → K) x => x.1.sides.foldl (fun (P : ℕ → ℕ → K) s => Function.update P s.e fun r => P s.e r + g x.1 x.2 s r) P) P) e r =
      P e r + sideSum l e fun ed k s => g ed k s r := by
  induction l generalizing P with
  | nil => simp [sideSum]
  | cons a l ih =>
    rw [List.foldl_cons, ih, update_sides]
    simp only [sideSum, List.map_cons, List.sum_cons]
    ring

theorem update_elts {α : Type} (g : ℕ → α) (l : List ℕ) (P : ℕ → α) (e : ℕ) (he : e ∈ l) :
    (l.foldl (fun P e => Function.update P e (g e)) P) e = g e := by
  induction l generalizing P with
  | nil => simp at he
  | cons a l ih =>
    rw [List.foldl_cons]
    by_cases h : e ∈ l
    · exact ih _ h
    · obtain rfl : e = a := by simpa [h] using he
      have : ∀ (l : List ℕ) (P : ℕ → α), e ∉ l → (l.foldl (fun P e => Function.update P e (g e)) P) e = P e := by
        intro l
        induction l with
        | nil => simp
        | cons b l ih =>
          intro P hb
          simp only [List.mem_cons, not_or] at hb
          rw [List.foldl_cons, ih _ hb.2, Function.update_of_ne hb.1]
      rw [this _ _ h, Function.update_self]

variable [LinearOrder K] (S : Scheme K)

theorem localR_at (q0 : State K) (prev : ℕ → ℕ → K) (it : Iter K) {e : ℕ} (he : e ∈ S.m.elts) (r : ℕ) :
    (localAll S q0 prev it).R e r = volR S (S.dat e) (q0 e) (it.q e) (prev e) r + (1 - S.theta) * srcR S (S.dat e) S.tn (it.q e) r +
      sideSum (edgesOf S.m).zipIdx e fun ed k s => -(1 - S.theta) * faceR S it.q ed (it.hat k) s r := by
  have h1 : ∀ (l : List (Edg K × ℕ)) (L : Local K), (l.foldl (localEdge S it) L).R =
      l.foldl (fun P x => x.1.sides.foldl (fun P s => Function.update P s.e fun r =>
        P s.e r + -(1 - S.theta) * faceR S it.q x.1 (it.hat x.2) s r) P) L.R := by
    intro l
    induction l with
    | nil => intro L; rfl
    | cons a l ih =>
      intro L
      rw [List.foldl_cons, ih, List.foldl_cons]
      congr 1
      unfold localEdge
      generalize a.1.sides = sd
      induction sd generalizing L with
      | nil => rfl
      | cons b sd ih2 => rw [List.foldl_cons, ih2, List.foldl_cons]; rfl
  have h2 : ∀ (l : List ℕ) (L : Local K), (l.foldl (localElt S q0 it.q prev) L).R =
      l.foldl (fun P e => Function.update P e fun r => volR S (S.dat e) (q0 e) (it.q e) (prev e) r + (1 - S.theta) * srcR S (S.dat e) S.tn (it.q e) r) L.R := by
    intro l
    induction l with
    | nil => intro L; rfl
    | cons a l ih => intro L; rw [List.foldl_cons, ih, List.foldl_cons]; rfl
  unfold localAll
  rw [h1, update_edges (fun ed k s r => -(1 - S.theta) * faceR S it.q ed (it.hat k) s r), h2,
    update_elts (fun e r => volR S (S.dat e) (q0 e) (it.q e) (prev e) r + (1 - S.theta) * srcR S (S.dat e) S.tn (it.q e) r) _ _ e he]

theorem localD_at (q0 : State K) (prev : ℕ → ℕ → K) (it : Iter K) {e : ℕ} (he : e ∈ S.m.elts) (r c : ℕ) :
    (localAll S q0 prev it).D e r c = volD S (S.dat e) (it.q e) r c - srcD S (S.dat e) (it.q e) r c +
      sideSum (edgesOf S.m).zipIdx e fun ed k s => (1 - S.theta) * faceD S ed (it.hat k) s r c := by
  have h1 : ∀ (l : List (Edg K × ℕ)) (L : Local K) (P : ℕ → ℕ → K), (∀ e r, P e r = L.D e r c) → ∀ e r, (l.foldl (localEdge S it) L).D e r c =
      (l.foldl (fun P x => x.1.sides.foldl (fun P s => Function.update P s.e fun r =>
        P s.e r + (1 - S.theta) * faceD S x.1 (it.hat x.2) s r c) P) P) e r := by
    intro l
    induction l with
    | nil => intro L P h e r; exact (h e r).symm
    | cons a l ih =>
      intro L P h
      rw [List.foldl_cons, List.foldl_cons]
      refine ih _ _ ?_
      unfold localEdge
      generalize a.1.sides = sd
      induction sd generalizing L P with
      | nil => exact h
      | cons b sd ih2 =>
        rw [List.foldl_cons, List.foldl_cons]
        refine ih2 _ _ fun e r => ?_
        unfold localSide
        simp only [Function.update_apply]
        split_ifs with hb
        · exact congrArg (· + _) (h b.e r)
        · exact h e r
  have h2 : ∀ (l : List ℕ) (L : Local K), (l.foldl (localElt S q0 it.q prev) L).D =
      l.foldl (fun P e => Function.update P e fun r s => volD S (S.dat e) (it.q e) r s - srcD S (S.dat e) (it.q e) r s) L.D := by
    intro l
    induction l with
    | nil => intro L; rfl
    | cons a l ih => intro L; rw [List.foldl_cons, ih, List.foldl_cons]; rfl
  unfold localAll
  rw [h1 _ _ (fun e r => (S.m.elts.foldl (localElt S q0 it.q prev) ⟨fun _ _ _ => 0, fun _ _ => 0⟩).D e r c) (fun _ _ => rfl),
    update_edges (fun ed k s r => (1 - S.theta) * faceD S ed (it.hat k) s r c), h2,
    update_elts (fun e r s => volD S (S.dat e) (it.q e) r s - srcD S (S.dat e) (it.q e) r s) _ _ e he]

/-- `rhs_prev`, order 2. -/
theorem rhsPrev_at (h2 : S.order2 = true) (it : Iter K) {e : ℕ} (he : e ∈ S.m.elts) (r : ℕ) :
    rhsPrev S it e r = (fluxR S (S.dat e) (it.q e) r).1 + (fluxR S (S.dat e) (it.q e) r).2 + srcR S (S.dat e) S.t (it.q e) r +
      sideSum (edgesOf S.m).zipIdx e fun ed k s => -faceR S it.q ed (it.hat k) s r := by
  unfold rhsPrev
  rw [if_pos h2]
  have := update_edges (fun ed k s r => -faceR S it.q ed (it.hat k) s r) e (edgesOf S.m).zipIdx (S.m.elts.foldl (prevElt S it.q) fun _ _ => 0) r
  unfold prevElt at this
  rw [update_elts (fun e r => (fluxR S (S.dat e) (it.q e) r).1 + (fluxR S (S.dat e) (it.q e) r).2 + srcR S (S.dat e) S.t (it.q e) r) _ _ e he] at this
  exact this

/-! ### Tables by face -/

/-- The faces of the sides of all edges. -/
theorem skel_edges : (skel S).edges = (edgesOf S.m).map fun ed => ed.sides.map fun s => (⟨s.e, s.f⟩ : Face) := rfl

theorem sides_e {ed : Edg K} {s s' : Sd} (hs : s ∈ ed.sides) (hs' : s' ∈ ed.sides) (hn : (ed.sides.map fun s => (⟨s.e, s.f⟩ : Face)).Nodup)
    (he : s.e = s'.e) (hf : s.f = s'.f) : s = s' := by
  have := List.inj_on_of_nodup_map hn hs hs' (by simp [he, hf])
  exact this

theorem byFace_at {α : Type} (g : Edg K → ℕ → Sd → α) (z : α) (hn : (skel S).edges.flatten.Nodup) {k : ℕ} (hk : k < (edgesOf S.m).length)
    {s : Sd} (hs : s ∈ (edgesOf S.m)[k].sides) : byFace S g z s.e s.f = g (edgesOf S.m)[k] k s := by
  have hside : ∀ (x : Edg K × ℕ) (l : List Sd) (t : ℕ → ℕ → α), (l.map fun s => (⟨s.e, s.f⟩ : Face)).Nodup → ∀ e f,
      ((∀ s ∈ l, ¬(e = s.e ∧ f = s.f)) → (l.foldl (fun t s e f => if e = s.e ∧ f = s.f then g x.1 x.2 s else t e f) t) e f = t e f) ∧
      ∀ s ∈ l, e = s.e → f = s.f → (l.foldl (fun t s e f => if e = s.e ∧ f = s.f then g x.1 x.2 s else t e f) t) e f = g x.1 x.2 s := by
    intro x l
    induction l with
    | nil => simp
    | cons a l ih =>
      intro t hl e f
      rw [List.map_cons, List.nodup_cons] at hl
      rw [List.foldl_cons]
      obtain ⟨h1, h2⟩ := ih (fun e f => if e = a.e ∧ f = a.f then g x.1 x.2 a else t e f) hl.2 e f
      constructor
      · intro h
        rw [h1 fun s hs => h s (by simp [hs]), if_neg (h a (by simp))]
      · intro s hs he hf
        rcases List.mem_cons.1 hs with rfl | hs
        · rw [h1, if_pos ⟨he, hf⟩]
          intro s' hs' hc
          refine hl.1 (List.mem_map.2 ⟨s', hs', ?_⟩)
          rw [← hc.1, ← hc.2, he, hf]
        · exact h2 s hs he hf
  have hedge : ∀ (l : List (Edg K)) (n : ℕ) (t : ℕ → ℕ → α), ((l.map fun ed => ed.sides.map fun s => (⟨s.e, s.f⟩ : Face)).flatten).Nodup → ∀ e f,
      ((∀ ed ∈ l, ∀ s ∈ ed.sides, ¬(e = s.e ∧ f = s.f)) →
        ((l.zipIdx n).foldl (fun t x => x.1.sides.foldl (fun t s e f => if e = s.e ∧ f = s.f then g x.1 x.2 s else t e f) t) t) e f = t e f) ∧
      ∀ i (hi : i < l.length), ∀ s ∈ l[i].sides, e = s.e → f = s.f →
        ((l.zipIdx n).foldl (fun t x => x.1.sides.foldl (fun t s e f => if e = s.e ∧ f = s.f then g x.1 x.2 s else t e f) t) t) e f =
          g l[i] (n + i) s := by
    intro l
    induction l with
    | nil => simp
    | cons a l ih =>
      intro n t hl e f
      rw [List.map_cons, List.flatten_cons, List.nodup_append] at hl
      rw [List.zipIdx_cons, List.foldl_cons]
      obtain ⟨h1, h2⟩ := ih (n + 1) (a.sides.foldl (fun t s e f => if e = s.e ∧ f = s.f then g a n s else t e f) t) hl.2.1 e f
      obtain ⟨h3, h4⟩ := hside (a, n) a.sides t hl.1 e f
      constructor
      · intro h
        rw [h1 fun ed hed => h ed (by simp [hed]), h3 (h a (by simp))]
      · rintro (_ | i) hi s hs he hf
        · rw [h1, h4 s (by simpa using hs) he hf]
          · simp
          · intro ed hed s' hs' hc
            refine hl.2.2 ⟨e, f⟩ (List.mem_map.2 ⟨s, by simpa using hs, by rw [he, hf]⟩) ⟨e, f⟩
              (List.mem_flatten.2 ⟨_, List.mem_map.2 ⟨ed, hed, rfl⟩, List.mem_map.2 ⟨s', hs', by rw [hc.1, hc.2]⟩⟩) rfl
        · rw [h2 i (by simpa using hi) s (by simpa using hs) he hf]
          simp only [List.getElem_cons_succ]
          congr 1
          omega
  have := (hedge (edgesOf S.m) 0 (fun _ _ => z) hn s.e s.f).2 k hk s hs rfl rfl
  rw [zero_add] at this
  exact this

/-! ### Blocks -/

theorem varOf_val (a : Fin 3) : varOf a.val = a := by fin_cases a <;> rfl

theorem row_div (i : ℕ) (a : Fin 3) : (3 * i + a.val) / 3 = i := by omega
theorem row_mod (i : ℕ) (a : Fin 3) : (3 * i + a.val) % 3 = a.val := by omega

omit [LinearOrder K] in
theorem block_entry {α : Type} (I : (α → K) → K) (M : α → M3 K) (i j : ℕ) (a b : Fin 3) :
    block I M (3 * i + a.val) (3 * j + b.val) = I fun x => M x a b := by
  simp only [block, reshape, flatten, row_mod]
  rw [show (a.val * 3 + b.val) / 3 = a.val by omega, show (a.val * 3 + b.val) % 3 = b.val by omega, varOf_val, varOf_val]

end Verif.Ihdg
