import Verif.Model.Gn
import Verif.Lemmas.IhdgLinear
import Verif.Props.GnCondense

/-!
# The matrices of the dispersive correction, applied to unknowns: integrals of values at the Gauss points
-/

namespace Verif.Gn.Props
open Verif.Swe Verif.Swe.Props Verif.Geometry Verif.Geometry.Props Verif.Element Verif.Edge Verif.Edge.Props Verif.Ehdg Verif.Ihdg Verif.Ihdg.Props

variable (D : Dc ℝ)

/-- Integral over an element by its rule. -/
noncomputable def area (e : ℕ) (f : P2 ℝ → ℝ) : ℝ := (((D.dat e).elt.gps D.v.N).map fun wz => f wz.2 * (wz.1 * |jdet (D.dat e).elt.tri|)).sum

/-- Integral over an edge by its rule; the argument is the number of the Gauss point. -/
noncomputable def along (ed : Edg ℝ) (f : ℕ → ℝ) : ℝ := ∑ gp ∈ Finset.range (rule D.geo ed).length, f gp * (weight (rule D.geo ed) gp * surf D.geo ed)

/-- Component `c` of the vector field with coefficients `w`. -/
noncomputable def vec (w : ℕ → ℕ → ℝ) (e c : ℕ) (z : P2 ℝ) : ℝ := (D.dat e).elt.value D.v.N (fun d => w e (2 * d + c)) z

/-- The scalar field with coefficients `w`. -/
noncomputable def scl (w : ℕ → ℕ → ℝ) (e : ℕ) (z : P2 ℝ) : ℝ := (D.dat e).elt.value D.v.N (w e) z

/-- Its derivative. -/
noncomputable def dscl (w : ℕ → ℕ → ℝ) (e dir : ℕ) (z : P2 ℝ) : ℝ := (D.dat e).elt.deriv D.v.N dir (w e) z

/-- Component `c` of the trace with coefficients `y` on the edge of number `k`. -/
noncomputable def trc (y : ℕ → ℕ → ℝ) (ed : Edg ℝ) (k c gp : ℕ) : ℝ := ugp (tab D.geo ed) (fun j => y k (2 * j + c)) gp

variable {D}

/-! ### Sums -/

theorem sum_two (n : ℕ) (A : ℕ → ℝ) : ∑ k ∈ Finset.range (2 * n), A k = ∑ j ∈ Finset.range n, A (2 * j + 0) + ∑ j ∈ Finset.range n, A (2 * j + 1) := by
  induction n with
  | zero => simp
  | succ n ih =>
    rw [show 2 * (n + 1) = 2 * n + 1 + 1 by ring, Finset.sum_range_succ, Finset.sum_range_succ, ih, Finset.sum_range_succ (n := n), Finset.sum_range_succ (n := n)]
    ring_nf

theorem sum_list {α : Type} (l : List α) (M : α → ℝ) (φ : ℕ → α → ℝ) (x : ℕ → ℝ) (n : ℕ) :
    ∑ j ∈ Finset.range n, (l.map fun g => M g * φ j g).sum * x j = (l.map fun g => M g * ∑ j ∈ Finset.range n, x j * φ j g).sum := by
  induction l with
  | nil => simp
  | cons b l ih =>
    simp only [List.map_cons, List.sum_cons, add_mul, Finset.sum_add_distrib, ih]
    congr 1
    rw [Finset.mul_sum]
    exact Finset.sum_congr rfl fun j _ => by ring

theorem sum_list' {α : Type} {l : List α} {M : α → ℝ} {φ : ℕ → α → ℝ} {A : ℕ → ℝ} (x : ℕ → ℝ) (n : ℕ) (h : ∀ j, A j = (l.map fun g => M g * φ j g).sum) :
    ∑ j ∈ Finset.range n, A j * x j = (l.map fun g => M g * ∑ j ∈ Finset.range n, x j * φ j g).sum := by
  rw [← sum_list]
  exact Finset.sum_congr rfl fun j _ => by rw [h]

theorem dv0 (j : ℕ) : (2 * j + 0) / 2 = j := by omega
theorem dv1 (j : ℕ) : (2 * j + 1) / 2 = j := by omega
theorem md0 (j : ℕ) : (2 * j + 0) % 2 = 0 := by omega
theorem md1 (j : ℕ) : (2 * j + 1) % 2 = 1 := by omega

theorem block2_eq {α : Type} (I : (α → ℝ) → ℝ) (M : α → ℕ → ℕ → ℝ) (r s : ℕ) : block2 I M r s = I fun x => M x (r % 2) (s % 2) := by
  simp only [block2, reshape, flatten]
  rw [show (r % 2 * 2 + s % 2) / 2 = r % 2 by omega, show (r % 2 * 2 + s % 2) % 2 = s % 2 by omega]

theorem diag_pick (c : ℝ) (r : ℕ) (f : ℕ → ℝ) : diag2 c (r % 2) 0 * f 0 + diag2 c (r % 2) 1 * f 1 = c * f (r % 2) := by
  rcases (by omega : r % 2 = 0 ∨ r % 2 = 1) with h | h <;> simp [h, diag2]

theorem area_add (e : ℕ) (f g : P2 ℝ → ℝ) : area D e f + area D e g = area D e fun z => f z + g z := by
  unfold area
  rw [map_add']
  exact congrArg _ (List.map_congr_left fun _ _ => by ring)

theorem area_mul (e : ℕ) (c : ℝ) (f : P2 ℝ → ℝ) : c * area D e f = area D e fun z => c * f z := by
  unfold area
  rw [map_mul']
  exact congrArg _ (List.map_congr_left fun _ _ => by ring)

theorem area_sum (e n : ℕ) (f : ℕ → P2 ℝ → ℝ) : ∑ i ∈ Finset.range n, area D e (f i) = area D e fun z => ∑ i ∈ Finset.range n, f i z := by
  induction n with
  | zero => simp [area]
  | succ n ih => rw [Finset.sum_range_succ, ih, area_add]; simp only [Finset.sum_range_succ]

theorem area_congr {e : ℕ} {f g : P2 ℝ → ℝ} (h : ∀ wz ∈ (D.dat e).elt.gps D.v.N, f wz.2 = g wz.2) : area D e f = area D e g := by
  unfold area
  exact congrArg _ (List.map_congr_left fun wz hwz => by rw [h wz hwz])

theorem along_add (ed : Edg ℝ) (f g : ℕ → ℝ) : along D ed f + along D ed g = along D ed fun gp => f gp + g gp := by
  unfold along
  rw [← Finset.sum_add_distrib]
  exact Finset.sum_congr rfl fun _ _ => by ring

theorem along_mul (ed : Edg ℝ) (c : ℝ) (f : ℕ → ℝ) : c * along D ed f = along D ed fun gp => c * f gp := by
  unfold along
  rw [Finset.mul_sum]
  exact Finset.sum_congr rfl fun _ _ => by ring

theorem along_sum (ed : Edg ℝ) (n : ℕ) (f : ℕ → ℕ → ℝ) : ∑ i ∈ Finset.range n, along D ed (f i) = along D ed fun gp => ∑ i ∈ Finset.range n, f i gp := by
  unfold along
  rw [Finset.sum_comm]
  exact Finset.sum_congr rfl fun _ _ => by rw [Finset.sum_mul]

theorem along_congr {ed : Edg ℝ} {f g : ℕ → ℝ} (h : ∀ gp < (rule D.geo ed).length, f gp = g gp) : along D ed f = along D ed g :=
  Finset.sum_congr rfl fun gp hgp => by rw [h gp (Finset.mem_range.1 hgp)]

/-! ### Elements -/

theorem phiphi_sum (e i n : ℕ) (hn : n = ndof (D.dat e).elt.p) (f : P2 ℝ → ℝ) (x : ℕ → ℝ) :
    ∑ j ∈ Finset.range n, intPhiPhi D.v.N (D.dat e).elt i j f * x j =
      area D e fun z => D.v.N.basis.phi i z * (f z * (D.dat e).elt.value D.v.N x z) := by
  rw [sum_list' (A := fun j => intPhiPhi D.v.N (D.dat e).elt i j f) (l := ((D.dat e).elt.gps D.v.N)) (M := fun wz => f wz.2 * D.v.N.basis.phi i wz.2 * (wz.1 * |jdet (D.dat e).elt.tri|)) (φ := fun j wz => D.v.N.basis.phi j wz.2) x n fun j => congrArg List.sum (List.map_congr_left fun wz _ => by ring)]
  unfold area
  refine congrArg _ (List.map_congr_left fun wz _ => ?_)
  simp only [Elt.value, sum_range_list, hn]
  ring

theorem phidphi_sum (e i dir n : ℕ) (hn : n = ndof (D.dat e).elt.p) (f : P2 ℝ → ℝ) (x : ℕ → ℝ) :
    ∑ j ∈ Finset.range n, intPhiDPhi D.v.N (D.dat e).elt i dir j f * x j =
      area D e fun z => D.v.N.basis.phi i z * (f z * (D.dat e).elt.deriv D.v.N dir x z) := by
  rw [sum_list' (A := fun j => intPhiDPhi D.v.N (D.dat e).elt i dir j f) (l := ((D.dat e).elt.gps D.v.N)) (M := fun wz => f wz.2 * D.v.N.basis.phi i wz.2 * (wz.1 * |jdet (D.dat e).elt.tri|)) (φ := fun j wz => (D.dat e).elt.dphi D.v.N dir j wz.2) x n fun j => congrArg List.sum (List.map_congr_left fun wz _ => by simp only [Elt.dphi]; ring)]
  unfold area
  refine congrArg _ (List.map_congr_left fun wz _ => ?_)
  simp only [Elt.deriv, sum_range_list, hn]
  ring

theorem dphiphi_sum (e i dir n : ℕ) (hn : n = ndof (D.dat e).elt.p) (f : P2 ℝ → ℝ) (x : ℕ → ℝ) :
    ∑ j ∈ Finset.range n, intPhiDPhi D.v.N (D.dat e).elt j dir i f * x j =
      area D e fun z => (D.dat e).elt.dphi D.v.N dir i z * (f z * (D.dat e).elt.value D.v.N x z) := by
  rw [sum_list' (A := fun j => intPhiDPhi D.v.N (D.dat e).elt j dir i f) (l := ((D.dat e).elt.gps D.v.N)) (M := fun wz => f wz.2 * (D.dat e).elt.dphi D.v.N dir i wz.2 * (wz.1 * |jdet (D.dat e).elt.tri|)) (φ := fun j wz => D.v.N.basis.phi j wz.2) x n fun j => congrArg List.sum (List.map_congr_left fun wz _ => by simp only [Elt.dphi]; ring)]
  unfold area
  refine congrArg _ (List.map_congr_left fun wz _ => ?_)
  simp only [Elt.value, sum_range_list, hn]
  ring

theorem vol11_sum (q : State ℝ) (e r n : ℕ) (hn : n = ndof (D.dat e).elt.p) (w : ℕ → ℕ → ℝ) :
    ∑ k ∈ Finset.range (2 * n), vol11 D q e r k * w e k =
      (area D e fun z => D.v.N.basis.phi (r / 2) z * (vec D w e (r % 2) z +
        D.al * bed D e z (r % 2) * (bed D e z 0 * vec D w e 0 z + bed D e z 1 * vec D w e 1 z))) +
      area D e fun z => (D.dat e).elt.dphi D.v.N (r % 2) (r / 2) z * (-D.al / 2 * depth D.v D.dat q e z * (bed D e z 0 * vec D w e 0 z + bed D e z 1 * vec D w e 1 z)) := by
  simp only [vol11, block2_eq, add_mul, Finset.sum_add_distrib]
  rw [sum_two, sum_two]
  simp only [dv0, dv1, md0, md1]
  rw [phiphi_sum e _ n hn _ fun j => w e (2 * j + 0), phiphi_sum e _ n hn _ fun j => w e (2 * j + 1), dphiphi_sum e _ _ n hn _ fun j => w e (2 * j + 0),
    dphiphi_sum e _ _ n hn _ fun j => w e (2 * j + 1), area_add, area_add]
  congr 1
  · refine area_congr fun wz _ => ?_
    have := diag_pick 1 r fun c => vec D w e c wz.2
    simp only [vec] at this
    simp only [vec, massKernel]
    linear_combination D.v.N.basis.phi (r / 2) wz.2 * this
  · exact area_congr fun wz _ => by simp only [vec]; ring

theorem vol12_sum (q : State ℝ) (e r n : ℕ) (hn : n = ndof (D.dat e).elt.p) (w : ℕ → ℕ → ℝ) :
    ∑ j ∈ Finset.range n, vol12 D q e r j * w e j =
      area D e fun z => D.v.N.basis.phi (r / 2) z * (-D.al / 3 * dscl D w e (r % 2) z - D.al / 2 * (bed D e z (r % 2) / depth D.v D.dat q e z) * scl D w e z) := by
  simp only [vol12, add_mul, Finset.sum_add_distrib]
  rw [phidphi_sum e _ _ n hn, phiphi_sum e _ n hn, area_add]
  exact area_congr fun wz _ => by simp only [scl, dscl]; ring

theorem vol21_sum (q : State ℝ) (e i n : ℕ) (hn : n = ndof (D.dat e).elt.p) (w : ℕ → ℕ → ℝ) :
    ∑ k ∈ Finset.range (2 * n), vol21 D q e i k * w e k =
      area D e fun z => (D.dat e).elt.dphi D.v.N 0 i z * (vec D w e 0 z / depth D.v D.dat q e z) + (D.dat e).elt.dphi D.v.N 1 i z * (vec D w e 1 z / depth D.v D.dat q e z) := by
  rw [sum_two]
  simp only [vol21, dv0, dv1, md0, md1]
  rw [dphiphi_sum e _ _ n hn _ fun j => w e (2 * j + 0), dphiphi_sum e _ _ n hn _ fun j => w e (2 * j + 1), area_add]
  exact area_congr fun wz _ => by simp only [vec]; ring

theorem vol22_sum (q : State ℝ) (e i n : ℕ) (hn : n = ndof (D.dat e).elt.p) (w : ℕ → ℕ → ℝ) :
    ∑ j ∈ Finset.range n, vol22 D q e i j * w e j = area D e fun z => D.v.N.basis.phi i z * (scl D w e z / depth D.v D.dat q e z ^ 3) := by
  simp only [vol22]
  rw [phiphi_sum e _ n hn]
  exact area_congr fun wz _ => by simp only [scl]; ring

/-! ### Sides -/

theorem face2_sum (ed : Edg ℝ) (s : Sd) (i n : ℕ) (hn : n = ndof (D.dat s.e).elt.p) (F : ℕ → ℝ) (x : ℕ → ℝ) :
    ∑ j ∈ Finset.range n, intFace2 D.v.N (rule D.geo ed) s.f (surf D.geo ed) i j F * x j =
      along D ed fun gp => D.v.N.basis.phi i (facePt (rule D.geo ed) s.f gp) * (F gp * (D.dat s.e).elt.value D.v.N x (facePt (rule D.geo ed) s.f gp)) := by
  rw [sum_list' (A := fun j => intFace2 D.v.N (rule D.geo ed) s.f (surf D.geo ed) i j F) (l := List.range (rule D.geo ed).length) (M := fun gp => F gp * D.v.N.basis.phi i (facePt (rule D.geo ed) s.f gp) * (weight (rule D.geo ed) gp * surf D.geo ed))
    (φ := fun j gp => D.v.N.basis.phi j (facePt (rule D.geo ed) s.f gp)) x n fun j => congrArg List.sum (List.map_congr_left fun gp _ => by ring), sum_range_list, along]
  refine Finset.sum_congr rfl fun gp _ => ?_
  simp only [Elt.value, sum_range_list, hn]
  ring

theorem side11_sum (ed : Edg ℝ) (s : Sd) (r n : ℕ) (hn : n = ndof (D.dat s.e).elt.p) (w : ℕ → ℕ → ℝ) :
    ∑ k ∈ Finset.range (2 * n), side11 D ed s r k * w s.e k =
      along D ed fun gp => D.v.N.basis.phi (r / 2) (facePt (rule D.geo ed) s.f gp) * (-D.al / 3 * D.tau * vec D w s.e (r % 2) (facePt (rule D.geo ed) s.f gp)) := by
  rw [sum_two]
  simp only [side11, block2_eq, dv0, dv1, md0, md1]
  rw [face2_sum ed s _ n hn _ fun j => w s.e (2 * j + 0), face2_sum ed s _ n hn _ fun j => w s.e (2 * j + 1), along_add]
  refine along_congr fun gp _ => ?_
  have := diag_pick (-D.al / 3 * D.tau) r fun c => vec D w s.e c (facePt (rule D.geo ed) s.f gp)
  rw [← this]
  simp only [vec]
  ring

theorem philam_sum (ed : Edg ℝ) (s : Sd) (hsym : ∀ gp < (rule D.geo ed).length, weight (rule D.geo ed) ((rule D.geo ed).length - gp - 1) = weight (rule D.geo ed) gp)
    (i : ℕ) (F : ℕ → ℝ) (x : ℕ → ℝ) :
    ∑ j ∈ Finset.range (tab D.geo ed).ndof, intPhiLam D.geo ed s i j F * x j =
      along D ed fun gp => D.v.N.basis.phi i (facePt (rule D.geo ed) s.f gp) * (F gp * ugp (tab D.geo ed) x (opp D.geo ed s gp)) := by
  have h : ∀ j < (tab D.geo ed).ndof, intPhiLam D.geo ed s i j F = ((List.range (rule D.geo ed).length).map fun gp =>
      F gp * D.v.N.basis.phi i (facePt (rule D.geo ed) s.f gp) * (weight (rule D.geo ed) gp * surf D.geo ed) * (tab D.geo ed).lam j (opp D.geo ed s gp)).sum := by
    intro j hj
    simp only [intPhiLam]
    rw [sum_range_list]
    refine Finset.sum_congr rfl fun gp hgp => ?_
    have hpos : 0 < (tab D.geo ed).ndof := by omega
    have hw : (tab D.geo ed).w (opp D.geo ed s gp) = weight (rule D.geo ed) gp := by
      unfold Ihdg.opp
      split_ifs
      · exact hsym gp (Finset.mem_range.1 hgp)
      · rfl
    simp only [flatten, intLam, Nat.mul_add_div hpos, Nat.div_eq_of_lt hj, Nat.add_zero, Nat.mul_add_mod, Nat.mod_eq_of_lt hj, hw]
    have : (tab D.geo ed).J = surf D.geo ed := rfl
    rw [this, show D.geo.v = D.v from rfl]
    ring
  rw [Finset.sum_congr rfl fun j hj => by rw [h j (Finset.mem_range.1 hj)], sum_list, sum_range_list, along]
  refine Finset.sum_congr rfl fun gp _ => ?_
  simp only [ugp]
  ring

theorem side1h_sum (q : State ℝ) (ed : Edg ℝ) (s : Sd) (hsym : ∀ gp < (rule D.geo ed).length, weight (rule D.geo ed) ((rule D.geo ed).length - gp - 1) = weight (rule D.geo ed) gp)
    (hl : (tab D.geo ed).ndof = D.nlam) (r k : ℕ) (y : ℕ → ℕ → ℝ) :
    ∑ j ∈ Finset.range (2 * D.nlam), side1h D q ed s r j * y k j =
      along D ed fun gp => D.v.N.basis.phi (r / 2) (facePt (rule D.geo ed) s.f gp) * (D.al / 3 * D.tau * trc D y ed k (r % 2) (opp D.geo ed s gp) +
        D.al / 2 * hHat D q ed (opp D.geo ed s gp) * (bedHat D ed s gp 0 * trc D y ed k 0 (opp D.geo ed s gp) + bedHat D ed s gp 1 * trc D y ed k 1 (opp D.geo ed s gp)) *
          nd (nrmOf D ed s) (r % 2)) := by
  rw [sum_two]
  simp only [side1h, block2_eq, dv0, dv1, md0, md1]
  rw [← hl, philam_sum ed s hsym _ _ fun j => y k (2 * j + 0), philam_sum ed s hsym _ _ fun j => y k (2 * j + 1), along_add]
  refine along_congr fun gp _ => ?_
  have := diag_pick (D.al / 3 * D.tau) r fun c => trc D y ed k c (opp D.geo ed s gp)
  rw [← this]
  simp only [trc, hat1Kernel]
  ring

theorem side2h_sum (q : State ℝ) (ed : Edg ℝ) (s : Sd) (hsym : ∀ gp < (rule D.geo ed).length, weight (rule D.geo ed) ((rule D.geo ed).length - gp - 1) = weight (rule D.geo ed) gp)
    (hl : (tab D.geo ed).ndof = D.nlam) (i k : ℕ) (y : ℕ → ℕ → ℝ) :
    ∑ j ∈ Finset.range (2 * D.nlam), side2h D q ed s i j * y k j =
      along D ed fun gp => -(D.v.N.basis.phi i (facePt (rule D.geo ed) s.f gp) *
        ((nd (nrmOf D ed s) 0 * trc D y ed k 0 (opp D.geo ed s gp) + nd (nrmOf D ed s) 1 * trc D y ed k 1 (opp D.geo ed s gp)) / hHat D q ed (opp D.geo ed s gp))) := by
  rw [sum_two]
  simp only [side2h, dv0, dv1, md0, md1]
  rw [← hl, philam_sum ed s hsym _ _ fun j => y k (2 * j + 0), philam_sum ed s hsym _ _ fun j => y k (2 * j + 1), along_add]
  exact along_congr fun gp _ => by simp only [trc]; ring

/-! ### Edges -/

theorem lamphi_sum (ed : Edg ℝ) (s : Sd) {i : ℕ} (hi : i < (tab D.geo ed).ndof) (n : ℕ) (hn : n = ndof (D.dat s.e).elt.p) (F : ℕ → ℝ) (x : ℕ → ℝ) :
    ∑ j ∈ Finset.range n, intPhiLam D.geo ed s j i F * x j =
      along D ed fun gp => (tab D.geo ed).lam i gp * (F (opp D.geo ed s gp) * (D.dat s.e).elt.value D.v.N x (facePt (rule D.geo ed) s.f (opp D.geo ed s gp))) := by
  have h : ∀ j, intPhiLam D.geo ed s j i F = ((List.range (rule D.geo ed).length).map fun gp =>
      F gp * intLam (tab D.geo ed) (opp D.geo ed s gp) i * D.v.N.basis.phi j (facePt (rule D.geo ed) s.f gp)).sum := by
    intro j
    simp only [intPhiLam]
    rw [sum_range_list]
    have hpos : 0 < (tab D.geo ed).ndof := by omega
    refine Finset.sum_congr rfl fun gp _ => ?_
    simp only [flatten]
    rw [Nat.mul_add_div hpos, Nat.div_eq_of_lt hi, Nat.add_zero, Nat.mul_add_mod, Nat.mod_eq_of_lt hi, show D.geo.v = D.v from rfl]
    ring
  rw [Finset.sum_congr rfl fun j _ => by rw [h j], sum_list, sum_range_list, along]
  rw [← sum_opp (S := D.geo) ed s fun g gp => F g * intLam (tab D.geo ed) gp i * ∑ j ∈ Finset.range n, x j * D.v.N.basis.phi j (facePt (rule D.geo ed) s.f g)]
  refine Finset.sum_congr rfl fun gp _ => ?_
  simp only [Elt.value, sum_range_list, hn]
  simp only [intLam]
  rw [show (tab D.geo ed).J = surf D.geo ed from rfl, show (tab D.geo ed).w gp = weight (rule D.geo ed) gp from rfl]
  ring

theorem sideh1_sum (wet : ℕ → Bool) (ed : Edg ℝ) (s : Sd) {r : ℕ} (hr : r / 2 < (tab D.geo ed).ndof) (n : ℕ) (hn : n = ndof (D.dat s.e).elt.p) (w : ℕ → ℕ → ℝ) :
    ∑ k ∈ Finset.range (2 * n), sideh1 D wet ed s r k * w s.e k =
      along D ed fun gp => (tab D.geo ed).lam (r / 2) gp * (hat1Of D wet ed s (opp D.geo ed s gp) (r % 2) 0 * vec D w s.e 0 (facePt (rule D.geo ed) s.f (opp D.geo ed s gp)) +
        hat1Of D wet ed s (opp D.geo ed s gp) (r % 2) 1 * vec D w s.e 1 (facePt (rule D.geo ed) s.f (opp D.geo ed s gp))) := by
  rw [sum_two]
  simp only [sideh1, block2_eq, dv0, dv1, md0, md1]
  rw [lamphi_sum ed s hr n hn _ fun j => w s.e (2 * j + 0), lamphi_sum ed s hr n hn _ fun j => w s.e (2 * j + 1), along_add]
  exact along_congr fun gp _ => by simp only [vec]; ring

theorem sideh2_sum (wet : ℕ → Bool) (ed : Edg ℝ) (s : Sd) {r : ℕ} (hr : r / 2 < (tab D.geo ed).ndof) (n : ℕ) (hn : n = ndof (D.dat s.e).elt.p) (w : ℕ → ℕ → ℝ) :
    ∑ j ∈ Finset.range n, sideh2 D wet ed s r j * w s.e j =
      along D ed fun gp => (tab D.geo ed).lam (r / 2) gp * (hat2Of D wet ed s (opp D.geo ed s gp) (r % 2) * scl D w s.e (facePt (rule D.geo ed) s.f (opp D.geo ed s gp))) := by
  simp only [sideh2]
  rw [lamphi_sum ed s hr n hn]
  rfl

theorem edgehh_sum (wet : ℕ → Bool) (ed : Edg ℝ) {r : ℕ} (hl : (tab D.geo ed).ndof = D.nlam) (k : ℕ) (y : ℕ → ℕ → ℝ) :
    ∑ j ∈ Finset.range (2 * D.nlam), edgehh D wet ed r j * y k j =
      along D ed fun gp => (tab D.geo ed).lam (r / 2) gp * (hatHatKernel D wet ed gp (r % 2) 0 * trc D y ed k 0 gp + hatHatKernel D wet ed gp (r % 2) 1 * trc D y ed k 1 gp) := by
  have h : ∀ (F : ℕ → ℝ) (x : ℕ → ℝ), ∑ j ∈ Finset.range (tab D.geo ed).ndof, integral2 (tab D.geo ed) (r / 2) j F * x j =
      along D ed fun gp => (tab D.geo ed).lam (r / 2) gp * (F gp * ugp (tab D.geo ed) x gp) := by
    intro F x
    have hj : ∀ j < (tab D.geo ed).ndof, integral2 (tab D.geo ed) (r / 2) j F = ((List.range (rule D.geo ed).length).map fun gp =>
        F gp * (tab D.geo ed).lam (r / 2) gp * (weight (rule D.geo ed) gp * surf D.geo ed) * (tab D.geo ed).lam j gp).sum := by
      intro j hj
      have hpos : 0 < (tab D.geo ed).ndof := by omega
      rw [sum_range_list]
      simp only [integral2]
      refine Finset.sum_congr rfl fun gp _ => ?_
      simp only [intLamLam, flatten]
      rw [Nat.mul_add_div hpos, Nat.div_eq_of_lt hj, Nat.add_zero, Nat.mul_add_mod, Nat.mod_eq_of_lt hj]
      simp only [intLam]
      rw [show (tab D.geo ed).J = surf D.geo ed from rfl, show (tab D.geo ed).w gp = weight (rule D.geo ed) gp from rfl]
      ring
    rw [Finset.sum_congr rfl fun j hj' => by rw [hj j (Finset.mem_range.1 hj')], sum_list, sum_range_list, along]
    refine Finset.sum_congr rfl fun gp _ => ?_
    simp only [ugp]
    ring
  rw [sum_two]
  simp only [edgehh, block2_eq, dv0, dv1, md0, md1]
  rw [← hl, h _ fun j => y k (2 * j + 0), h _ fun j => y k (2 * j + 1), along_add]
  exact along_congr fun gp _ => by simp only [trc]; ring

end Verif.Gn.Props
