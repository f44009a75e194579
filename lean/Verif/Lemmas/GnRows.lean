import Verif.Lemmas.GnForm

/-!
# The rows of the dispersive correction
-/

namespace Verif.Gn.Props
open Verif.Swe Verif.Swe.Props Verif.Geometry Verif.Geometry.Props Verif.Element Verif.Edge Verif.Edge.Props Verif.Ehdg Verif.Ihdg Verif.Ihdg.Props

variable {D : Dc ℝ}

/-! ### Sums over the sides of an element -/

theorem sideSum_congr {l : List (Edg ℝ × ℕ)} {e : ℕ} {f g : Edg ℝ → ℕ → Sd → ℝ} (h : ∀ x ∈ l, ∀ s ∈ x.1.sides, s.e = e → f x.1 x.2 s = g x.1 x.2 s) :
    sideSum l e f = sideSum l e g := by
  unfold sideSum
  refine congrArg _ (List.map_congr_left fun x hx => congrArg _ (List.map_congr_left fun s hs => ?_))
  obtain ⟨h1, h2⟩ := List.mem_filter.1 hs
  exact h x hx s h1 (by simpa using h2)

theorem sideSum_add (l : List (Edg ℝ × ℕ)) (e : ℕ) (f g : Edg ℝ → ℕ → Sd → ℝ) :
    sideSum l e f + sideSum l e g = sideSum l e fun ed k s => f ed k s + g ed k s := by
  simp only [sideSum, map_add']

theorem sideSum_mul (l : List (Edg ℝ × ℕ)) (e : ℕ) (c : ℝ) (f : Edg ℝ → ℕ → Sd → ℝ) :
    c * sideSum l e f = sideSum l e fun ed k s => c * f ed k s := by
  simp only [sideSum, map_mul']

theorem sideSum_sum (l : List (Edg ℝ × ℕ)) (e n : ℕ) (f : ℕ → Edg ℝ → ℕ → Sd → ℝ) :
    ∑ i ∈ Finset.range n, sideSum l e (f i) = sideSum l e fun ed k s => ∑ i ∈ Finset.range n, f i ed k s := by
  induction n with
  | zero => simp [sideSum]
  | succ n ih => rw [Finset.sum_range_succ, ih, sideSum_add]; simp only [Finset.sum_range_succ]

theorem update_wet (wet : ℕ → Bool) (g : Edg ℝ → Sd → ℕ → ℕ → ℝ) {e : ℕ} (hw : wet e) (l : List (Edg ℝ)) (n : ℕ) (P : ℕ → ℕ → ℕ → ℝ) (r k : ℕ) :
    (l.foldl (fun L ed => ed.sides.foldl (fun (L : ℕ → ℕ → ℕ → ℝ) s => if wet s.e then Function.update L s.e fun r k => L s.e r k + g ed s r k else L) L) P) e r k =
      P e r k + sideSum (l.zipIdx n) e fun ed _ s => g ed s r k := by
  have hs : ∀ (ed : Edg ℝ) (l : List Sd) (P : ℕ → ℕ → ℕ → ℝ),
      (l.foldl (fun (L : ℕ → ℕ → ℕ → ℝ) s => if wet s.e then Function.update L s.e fun r k => L s.e r k + g ed s r k else L) P) e r k =
        P e r k + ((l.filter fun s => s.e = e).map fun s => g ed s r k).sum := by
    intro ed l
    induction l with
    | nil => simp
    | cons a l ih =>
      intro P
      rw [List.foldl_cons, ih]
      by_cases h : a.e = e
      · rw [List.filter_cons_of_pos (by simpa using h), List.map_cons, List.sum_cons, if_pos (by rw [h]; exact hw)]
        subst h
        rw [Function.update_self]
        ring
      · rw [List.filter_cons_of_neg (by simpa using h)]
        split_ifs
        · rw [Function.update_of_ne (Ne.symm h)]
        · rfl
  induction l generalizing P n with
  | nil => simp [sideSum]
  | cons a l ih =>
    rw [List.foldl_cons, ih (n + 1), hs, List.zipIdx_cons]
    simp only [sideSum, List.map_cons, List.sum_cons]
    ring

theorem local11_at {wet : ℕ → Bool} (q : State ℝ) {e : ℕ} (he : e ∈ D.m.elts) (hw : wet e) (r k : ℕ) :
    local11 D wet q e r k = vol11 D q e r k + sideSum (edgesOf D.m).zipIdx e fun ed _ s => side11 D ed s r k := by
  have := update_wet wet (side11 D) hw (edgesOf D.m) 0 (D.m.elts.foldl (local11Elt D q) fun _ _ _ => 0) r k
  unfold local11 local11Side
  rw [this]
  unfold local11Elt
  rw [update_elts (vol11 D q) _ _ e he]

theorem sideSum_own (e n : ℕ) (A : Edg ℝ → Sd → ℕ → ℝ) (x : ℕ → ℝ) :
    ∑ k ∈ Finset.range n, (sideSum (edgesOf D.m).zipIdx e fun ed _ s => A ed s k) * x k =
      sideSum (edgesOf D.m).zipIdx e fun ed _ s => ∑ k ∈ Finset.range n, A ed s k * x k := by
  rw [← sideSum_sum]
  refine Finset.sum_congr rfl fun k _ => ?_
  rw [mul_comm, sideSum_mul]
  exact sideSum_congr fun _ _ _ _ _ => by ring

theorem dcSkel_edges : (dcSkel D).edges = (skel D.geo).edges := rfl

theorem zip_edge {x : Edg ℝ × ℕ} (hx : x ∈ (edgesOf D.m).zipIdx) : ∃ hk : x.2 < (edgesOf D.m).length, (edgesOf D.m)[x.2] = x.1 := by
  obtain ⟨ed, k⟩ := x
  have hk : k < (edgesOf D.m).length := by have := List.snd_lt_of_mem_zipIdx hx; simpa using this
  have := List.mem_zipIdx hx
  simp only [Nat.sub_zero] at this
  exact ⟨hk, this.2.2.symm⟩

theorem traces_eq (hn : (dcSkel D).edges.flatten.Nodup) (g : Edg ℝ → Sd → ℕ → ℕ → ℝ) (y : ℕ → ℕ → ℝ) (e i : ℕ) :
    traces (dcSkel D) (byFace D.geo (fun ed _ s => g ed s) fun _ _ => 0) y e i =
      sideSum (edgesOf D.m).zipIdx e fun ed k s => ∑ j ∈ Finset.range (2 * D.nlam), g ed s i j * y k j := by
  unfold traces
  rw [dcSkel_edges, skel_edges, List.zipIdx_map, List.map_map]
  unfold sideSum
  refine congrArg _ (List.map_congr_left fun x hx => ?_)
  obtain ⟨hk, hed⟩ := zip_edge hx
  obtain ⟨ed, k⟩ := x
  simp only at hed hk
  simp only [Function.comp_apply, Prod.map_apply, id_eq, List.filter_map, List.map_map]
  refine congrArg _ (List.map_congr_left fun s hs => ?_)
  obtain ⟨hs1, hs2⟩ := List.mem_filter.1 hs
  have hs2 : s.e = e := by simpa using hs2
  have hb : byFace D.geo (fun ed _ s => g ed s) (fun _ _ => 0) s.e s.f = g (edgesOf D.m)[k] s :=
    byFace_at D.geo (fun ed _ s => g ed s) (fun _ _ => 0) hn hk (s := s) (show s ∈ (edgesOf D.m)[k].sides by rw [hed]; exact hs1)
  rw [hs2, hed] at hb
  simp only [Function.comp_apply, hb]
  rfl

/-! ### Rows -/

/-- What a side adds to the equation of `w1` in direction `a`. -/
noncomputable def flux1 (D : Dc ℝ) (q : State ℝ) (w1 y : ℕ → ℕ → ℝ) (ed : Edg ℝ) (k : ℕ) (s : Sd) (gp a : ℕ) : ℝ :=
  -D.al / 3 * D.tau * (vec D w1 s.e a (facePt (rule D.geo ed) s.f gp) - trc D y ed k a (Ihdg.opp D.geo ed s gp)) +
    D.al / 2 * hHat D q ed (Ihdg.opp D.geo ed s gp) *
      (bedHat D ed s gp 0 * trc D y ed k 0 (Ihdg.opp D.geo ed s gp) + bedHat D ed s gp 1 * trc D y ed k 1 (Ihdg.opp D.geo ed s gp)) * nd (nrmOf D ed s) a

/-- The edges have as many unknowns as Gauss points and symmetric weights. -/
structure EdgeOk (D : Dc ℝ) : Prop where
  nodup : (dcSkel D).edges.flatten.Nodup
  sym : SymLine D.geo
  size : ∀ ed ∈ edgesOf D.m, (tab D.geo ed).ndof = D.nlam

theorem w1_row (hE : EdgeOk D) {wet : ℕ → Bool} (q : State ℝ) {e : ℕ} (he : e ∈ D.m.elts) (hw : wet e) (w1 w2 y : ℕ → ℕ → ℝ) (r : ℕ) :
    ∑ j ∈ Finset.range (2 * (dcSkel D).ndof e), (dcBlocks D wet q).a11 e r j * w1 e j +
      ∑ j ∈ Finset.range ((dcSkel D).ndof e), (dcBlocks D wet q).a12 e r j * w2 e j + traces (dcSkel D) (dcBlocks D wet q).a1h y e r =
    (area D e fun z => D.v.N.basis.phi (r / 2) z * (vec D w1 e (r % 2) z + D.al * bed D e z (r % 2) * (bed D e z 0 * vec D w1 e 0 z + bed D e z 1 * vec D w1 e 1 z) -
        D.al / 3 * dscl D w2 e (r % 2) z - D.al / 2 * (bed D e z (r % 2) / depth D.v D.dat q e z) * scl D w2 e z)) -
      (area D e fun z => (D.dat e).elt.dphi D.v.N (r % 2) (r / 2) z *
        (D.al / 2 * depth D.v D.dat q e z * (bed D e z 0 * vec D w1 e 0 z + bed D e z 1 * vec D w1 e 1 z))) +
      sideSum (edgesOf D.m).zipIdx e fun ed k s => along D ed fun gp => D.v.N.basis.phi (r / 2) (facePt (rule D.geo ed) s.f gp) * flux1 D q w1 y ed k s gp (r % 2) := by
  simp only [dcBlocks, local11_at q he hw, add_mul, Finset.sum_add_distrib]
  rw [sideSum_own, traces_eq hE.nodup, show (dcSkel D).ndof e = ndof (D.dat e).elt.p from rfl, vol11_sum q e r _ rfl, vol12_sum q e r _ rfl]
  have h1 : (sideSum (edgesOf D.m).zipIdx e fun ed _ s => ∑ k ∈ Finset.range (2 * ndof (D.dat e).elt.p), side11 D ed s r k * w1 e k) =
      sideSum (edgesOf D.m).zipIdx e fun ed _ s => along D ed fun gp => D.v.N.basis.phi (r / 2) (facePt (rule D.geo ed) s.f gp) *
        (-D.al / 3 * D.tau * vec D w1 s.e (r % 2) (facePt (rule D.geo ed) s.f gp)) :=
    sideSum_congr fun x _ s _ hs => by subst hs; exact side11_sum x.1 s r _ rfl w1
  have h2 : (sideSum (edgesOf D.m).zipIdx e fun ed k s => ∑ j ∈ Finset.range (2 * D.nlam), side1h D q ed s r j * y k j) =
      sideSum (edgesOf D.m).zipIdx e fun ed k s => along D ed fun gp => D.v.N.basis.phi (r / 2) (facePt (rule D.geo ed) s.f gp) *
        (D.al / 3 * D.tau * trc D y ed k (r % 2) (Ihdg.opp D.geo ed s gp) + D.al / 2 * hHat D q ed (Ihdg.opp D.geo ed s gp) *
          (bedHat D ed s gp 0 * trc D y ed k 0 (Ihdg.opp D.geo ed s gp) + bedHat D ed s gp 1 * trc D y ed k 1 (Ihdg.opp D.geo ed s gp)) * nd (nrmOf D ed s) (r % 2)) :=
    sideSum_congr fun x hx s _ _ => by
      obtain ⟨hk, hed⟩ := zip_edge hx
      have hm : x.1 ∈ edgesOf D.m := by rw [← hed]; exact List.getElem_mem hk
      exact side1h_sum q x.1 s (hE.sym x.1 hm) (hE.size x.1 hm) r x.2 y
  rw [h1, h2]
  have h3 : ∀ a b c s t : ℝ, a + b + s + c + t = (a + c) + b + (s + t) := by intros; ring
  rw [h3, area_add, sideSum_add]
  have h4 : ∀ f : P2 ℝ → ℝ, -area D e f = area D e fun z => -f z := by
    intro f
    have := area_mul (D := D) e (-1) f
    simpa using this
  rw [sub_eq_add_neg, h4]
  congr 1
  · congr 1
    · exact area_congr fun _ _ => by ring
    · exact area_congr fun _ _ => by ring
  · refine sideSum_congr fun x _ s _ _ => ?_
    rw [along_add]
    exact along_congr fun gp _ => by simp only [flux1]; ring

theorem w2_row (hE : EdgeOk D) {wet : ℕ → Bool} (q : State ℝ) (e : ℕ) (w1 w2 y : ℕ → ℕ → ℝ) (i : ℕ) :
    ∑ j ∈ Finset.range (2 * (dcSkel D).ndof e), (dcBlocks D wet q).a21 e i j * w1 e j +
      ∑ j ∈ Finset.range ((dcSkel D).ndof e), (dcBlocks D wet q).a22 e i j * w2 e j + traces (dcSkel D) (dcBlocks D wet q).a2h y e i =
    (area D e fun z => D.v.N.basis.phi i z * (scl D w2 e z / depth D.v D.dat q e z ^ 3)) +
      (area D e fun z => (D.dat e).elt.dphi D.v.N 0 i z * (vec D w1 e 0 z / depth D.v D.dat q e z) + (D.dat e).elt.dphi D.v.N 1 i z * (vec D w1 e 1 z / depth D.v D.dat q e z)) -
      sideSum (edgesOf D.m).zipIdx e fun ed k s => along D ed fun gp => D.v.N.basis.phi i (facePt (rule D.geo ed) s.f gp) *
        ((nd (nrmOf D ed s) 0 * trc D y ed k 0 (Ihdg.opp D.geo ed s gp) + nd (nrmOf D ed s) 1 * trc D y ed k 1 (Ihdg.opp D.geo ed s gp)) / hHat D q ed (Ihdg.opp D.geo ed s gp)) := by
  simp only [dcBlocks]
  rw [traces_eq hE.nodup, show (dcSkel D).ndof e = ndof (D.dat e).elt.p from rfl, vol21_sum q e i _ rfl, vol22_sum q e i _ rfl]
  have h2 : (sideSum (edgesOf D.m).zipIdx e fun ed k s => ∑ j ∈ Finset.range (2 * D.nlam), side2h D q ed s i j * y k j) =
      sideSum (edgesOf D.m).zipIdx e fun ed k s => -1 * along D ed fun gp => D.v.N.basis.phi i (facePt (rule D.geo ed) s.f gp) *
        ((nd (nrmOf D ed s) 0 * trc D y ed k 0 (Ihdg.opp D.geo ed s gp) + nd (nrmOf D ed s) 1 * trc D y ed k 1 (Ihdg.opp D.geo ed s gp)) / hHat D q ed (Ihdg.opp D.geo ed s gp)) :=
    sideSum_congr fun x hx s _ _ => by
      obtain ⟨hk, hed⟩ := zip_edge hx
      have hm : x.1 ∈ edgesOf D.m := by rw [← hed]; exact List.getElem_mem hk
      rw [side2h_sum q x.1 s (hE.sym x.1 hm) (hE.size x.1 hm) i x.2 y, along_mul]
      exact along_congr fun gp _ => by ring
  rw [h2, ← sideSum_mul]
  ring

/-- The equation of edge `k` at one of its points. -/
noncomputable def hatAt (D : Dc ℝ) (wet : ℕ → Bool) (w1 w2 y : ℕ → ℕ → ℝ) (ed : Edg ℝ) (k gp a : ℕ) : ℝ :=
  ((ed.sides.filter fun s => wet s.e).map fun s => hat1Of D wet ed s (Ihdg.opp D.geo ed s gp) a 0 * vec D w1 s.e 0 (facePt (rule D.geo ed) s.f (Ihdg.opp D.geo ed s gp)) +
      hat1Of D wet ed s (Ihdg.opp D.geo ed s gp) a 1 * vec D w1 s.e 1 (facePt (rule D.geo ed) s.f (Ihdg.opp D.geo ed s gp)) +
      hat2Of D wet ed s (Ihdg.opp D.geo ed s gp) a * scl D w2 s.e (facePt (rule D.geo ed) s.f (Ihdg.opp D.geo ed s gp))).sum +
    (hatHatKernel D wet ed gp a 0 * trc D y ed k 0 gp + hatHatKernel D wet ed gp a 1 * trc D y ed k 1 gp)

theorem along_list (ed : Edg ℝ) (l : List Sd) (f : Sd → ℕ → ℝ) : (l.map fun s => along D ed (f s)).sum = along D ed fun gp => (l.map fun s => f s gp).sum := by
  induction l with
  | nil => simp [along]
  | cons a l ih => simp only [List.map_cons, List.sum_cons, ih, along_add]

theorem mul_list (l : List Sd) (c : ℝ) (f : Sd → ℝ) : c * (l.map f).sum = (l.map fun s => c * f s).sum := map_mul' l f c

theorem hat_row (hE : EdgeOk D) {wet : ℕ → Bool} (q : State ℝ) {k : ℕ} (hk : k < (edgesOf D.m).length) (hk' : k < (dcSkel D).edges.length) (w1 w2 y : ℕ → ℕ → ℝ) {r : ℕ}
    (hr : r < 2 * D.nlam) :
    (((dcSkel D).edges[k].filter fun c => wet c.e).map fun c => ∑ j ∈ Finset.range (2 * (dcSkel D).ndof c.e), (dcBlocks D wet q).ah1 c.e c.f r j * w1 c.e j +
      ∑ j ∈ Finset.range ((dcSkel D).ndof c.e), (dcBlocks D wet q).ah2 c.e c.f r j * w2 c.e j).sum + ∑ j ∈ Finset.range (dcSkel D).m, (dcBlocks D wet q).ahh k r j * y k j =
    along D (edgesOf D.m)[k] fun gp => (tab D.geo (edgesOf D.m)[k]).lam (r / 2) gp * hatAt D wet w1 w2 y (edgesOf D.m)[k] k gp (r % 2) := by
  have hm := List.getElem_mem hk
  have hl := hE.size _ hm
  have hr2 : r / 2 < (tab D.geo (edgesOf D.m)[k]).ndof := by rw [hl]; omega
  have h1 : (((dcSkel D).edges[k].filter fun c => wet c.e).map fun c => ∑ j ∈ Finset.range (2 * (dcSkel D).ndof c.e), (dcBlocks D wet q).ah1 c.e c.f r j * w1 c.e j +
      ∑ j ∈ Finset.range ((dcSkel D).ndof c.e), (dcBlocks D wet q).ah2 c.e c.f r j * w2 c.e j) =
      (((edgesOf D.m)[k].sides.filter fun s => wet s.e).map fun s => along D (edgesOf D.m)[k] fun gp => (tab D.geo (edgesOf D.m)[k]).lam (r / 2) gp *
        (hat1Of D wet (edgesOf D.m)[k] s (Ihdg.opp D.geo (edgesOf D.m)[k] s gp) (r % 2) 0 * vec D w1 s.e 0 (facePt (rule D.geo (edgesOf D.m)[k]) s.f (Ihdg.opp D.geo (edgesOf D.m)[k] s gp)) +
        hat1Of D wet (edgesOf D.m)[k] s (Ihdg.opp D.geo (edgesOf D.m)[k] s gp) (r % 2) 1 * vec D w1 s.e 1 (facePt (rule D.geo (edgesOf D.m)[k]) s.f (Ihdg.opp D.geo (edgesOf D.m)[k] s gp)) +
        hat2Of D wet (edgesOf D.m)[k] s (Ihdg.opp D.geo (edgesOf D.m)[k] s gp) (r % 2) * scl D w2 s.e (facePt (rule D.geo (edgesOf D.m)[k]) s.f (Ihdg.opp D.geo (edgesOf D.m)[k] s gp)))) := by
    simp only [dcSkel, List.getElem_map, List.filter_map, List.map_map]
    refine List.map_congr_left fun s hs => ?_
    have hs' := (List.mem_filter.1 hs).1
    have hb1 := byFace_at D.geo (fun ed _ s => sideh1 D wet ed s) (fun _ _ => 0) hE.nodup hk hs'
    have hb2 := byFace_at D.geo (fun ed _ s => sideh2 D wet ed s) (fun _ _ => 0) hE.nodup hk hs'
    simp only [Function.comp_apply, dcBlocks, hb1, hb2]
    refine (congrArg₂ (· + ·) (sideh1_sum wet (edgesOf D.m)[k] s hr2 _ rfl w1) (sideh2_sum wet (edgesOf D.m)[k] s hr2 _ rfl w2)).trans ?_
    rw [along_add]
    exact along_congr fun gp _ => by ring
  have h2 : ∑ j ∈ Finset.range (dcSkel D).m, (dcBlocks D wet q).ahh k r j * y k j = along D (edgesOf D.m)[k] fun gp => (tab D.geo (edgesOf D.m)[k]).lam (r / 2) gp *
      (hatHatKernel D wet (edgesOf D.m)[k] gp (r % 2) 0 * trc D y (edgesOf D.m)[k] k 0 gp + hatHatKernel D wet (edgesOf D.m)[k] gp (r % 2) 1 * trc D y (edgesOf D.m)[k] k 1 gp) := by
    simp only [dcBlocks, List.getElem?_eq_getElem hk]
    exact edgehh_sum wet _ hl k y
  rw [h1, h2, along_list, along_add]
  refine along_congr fun gp _ => ?_
  rw [hatAt, mul_add (_ : ℝ) (List.sum _), mul_list]

theorem hat_points (hE : EdgeOk D) {wet : ℕ → Bool} (q : State ℝ) {w1 w2 y : ℕ → ℕ → ℝ} (hF : ∀ ed ∈ edgesOf D.m, Fits (tab D.geo ed)) :
    HatEq (dcSkel D) wet (dcBlocks D wet q) w1 w2 y ↔ ∀ (k : ℕ) (hk : k < (edgesOf D.m).length), (∃ s ∈ (edgesOf D.m)[k].sides, wet s.e) →
      ∀ gp < (rule D.geo (edgesOf D.m)[k]).length, ∀ a < 2, hatAt D wet w1 w2 y (edgesOf D.m)[k] k gp a = 0 := by
  have hlen : (dcSkel D).edges.length = (edgesOf D.m).length := by simp [dcSkel]
  have hwet : ∀ (k : ℕ) (hk : k < (edgesOf D.m).length) (hk' : k < (dcSkel D).edges.length), (∃ c ∈ (dcSkel D).edges[k], wet c.e) ↔ ∃ s ∈ (edgesOf D.m)[k].sides, wet s.e := by
    intro k hk hk'
    simp only [dcSkel, List.getElem_map, List.mem_map]
    constructor
    · rintro ⟨_, ⟨s, hs, rfl⟩, h⟩; exact ⟨s, hs, h⟩
    · rintro ⟨s, hs, h⟩; exact ⟨_, ⟨s, hs, rfl⟩, h⟩
  constructor
  · intro h k hk hw gp hgp a ha
    have hm := List.getElem_mem hk
    have hf := hF _ hm
    have hk' : k < (dcSkel D).edges.length := by omega
    have hp := hf.points (fun gp => hatAt D wet w1 w2 y (edgesOf D.m)[k] k gp a * ((tab D.geo (edgesOf D.m)[k]).w gp * (tab D.geo (edgesOf D.m)[k]).J)) ?_ gp hgp
    · exact (mul_eq_zero.1 hp).resolve_right (hf.pos gp hgp).ne'
    intro i hi
    rw [hE.size _ hm] at hi
    have := h k hk' ((hwet k hk hk').2 hw) (2 * i + a) (by simp only [dcSkel]; omega)
    rw [hat_row hE q hk hk' w1 w2 y (by omega), show (2 * i + a) / 2 = i by omega, show (2 * i + a) % 2 = a by omega] at this
    rw [← this, along]
    exact Finset.sum_congr rfl fun gp _ => by
      rw [show (tab D.geo (edgesOf D.m)[k]).J = surf D.geo (edgesOf D.m)[k] from rfl, show (tab D.geo (edgesOf D.m)[k]).w gp = weight (rule D.geo (edgesOf D.m)[k]) gp from rfl]
      ring
  · intro h k hk' hw r hr
    have hk : k < (edgesOf D.m).length := by omega
    rw [hat_row hE q hk hk' w1 w2 y hr, along]
    refine Finset.sum_eq_zero fun gp hgp => ?_
    rw [h k hk ((hwet k hk hk').1 hw) gp (Finset.mem_range.1 hgp) _ (by omega)]
    ring

end Verif.Gn.Props
