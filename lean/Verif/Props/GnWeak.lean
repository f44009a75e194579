import Verif.Lemmas.GnRows
import Verif.Props.GnDeriv

/-!
# C92: what the dispersive correction solves

`w1` and the traces which the dispersive correction computes are the solution of the weak form of `(1 + α T) w1 = R`, written as a system of first order with
`w2 = h³ ∇·(w1 / h)`: equations tested with the basis functions in the elements, equations at the Gauss points of the edges (`weak_iff`, `correction_weak`).
With `b` the bottom (`-bathymetry`), `T w = -1/3 ∇(h³ ∇·(w / h)) + 1/2 (∇(h ∇b·w) - h² ∇b ∇·(w / h)) + ∇b (∇b·w)`: fields which satisfy this equation, with
polynomials in the spaces of the elements and with the boundary conditions, are solutions of the system (`consistent`).
-/

namespace Verif.Gn.Props
open Verif.Swe Verif.Swe.Props Verif.Geometry Verif.Geometry.Props Verif.Element Verif.Edge Verif.Edge.Props Verif.Ehdg Verif.Ihdg Verif.Ihdg.Props

/-- `w1` at Gauss point `gp` of a side. -/
noncomputable def at1 (D : Dc ℝ) (w1 : ℕ → ℕ → ℝ) (ed : Edg ℝ) (s : Sd) (gp c : ℕ) : ℝ := vec D w1 s.e c (facePt (rule D.geo ed) s.f gp)

/-- `w2` there. -/
noncomputable def at2 (D : Dc ℝ) (w2 : ℕ → ℕ → ℝ) (ed : Edg ℝ) (s : Sd) (gp : ℕ) : ℝ := scl D w2 s.e (facePt (rule D.geo ed) s.f gp)

/-- The weak form with right-hand side `R`. Gauss points of an edge are numbered from its interior side, `n` is the normal pointing out of it. -/
structure Weak (D : Dc ℝ) (wet : ℕ → Bool) (q : State ℝ) (R : ℕ → ℕ → P2 ℝ → ℝ) (w1 w2 y : ℕ → ℕ → ℝ) : Prop where
  momentum : ∀ e ∈ D.m.elts, wet e → ∀ i < ndof (D.dat e).elt.p, ∀ a < 2,
    (area D e fun z => D.v.N.basis.phi i z * (vec D w1 e a z + D.al * bed D e z a * (bed D e z 0 * vec D w1 e 0 z + bed D e z 1 * vec D w1 e 1 z) -
        D.al / 3 * dscl D w2 e a z - D.al / 2 * (bed D e z a / depth D.v D.dat q e z) * scl D w2 e z)) -
      (area D e fun z => (D.dat e).elt.dphi D.v.N a i z *
        (D.al / 2 * depth D.v D.dat q e z * (bed D e z 0 * vec D w1 e 0 z + bed D e z 1 * vec D w1 e 1 z))) +
      (sideSum (edgesOf D.m).zipIdx e fun ed k s => along D ed fun gp => D.v.N.basis.phi i (facePt (rule D.geo ed) s.f gp) * flux1 D q w1 y ed k s gp a) =
    area D e fun z => D.v.N.basis.phi i z * R e a z
  divergence : ∀ e ∈ D.m.elts, wet e → ∀ i < ndof (D.dat e).elt.p,
    (area D e fun z => D.v.N.basis.phi i z * (scl D w2 e z / depth D.v D.dat q e z ^ 3)) +
      (area D e fun z => (D.dat e).elt.dphi D.v.N 0 i z * (vec D w1 e 0 z / depth D.v D.dat q e z) + (D.dat e).elt.dphi D.v.N 1 i z * (vec D w1 e 1 z / depth D.v D.dat q e z)) -
      (sideSum (edgesOf D.m).zipIdx e fun ed k s => along D ed fun gp => D.v.N.basis.phi i (facePt (rule D.geo ed) s.f gp) *
        ((nd (nrmOf D ed s) 0 * trc D y ed k 0 (Ihdg.opp D.geo ed s gp) + nd (nrmOf D ed s) 1 * trc D y ed k 1 (Ihdg.opp D.geo ed s gp)) / hHat D q ed (Ihdg.opp D.geo ed s gp))) = 0
  /-- both sides wet: the traces of `w2` agree, with stabilization -/
  interior : ∀ (k : ℕ) (i : Iface ℝ), (edgesOf D.m)[k]? = some (.int i) → wet i.ein → wet i.eex → ∀ gp < (rule D.geo (.int i)).length, ∀ a < 2,
    D.tau * (at1 D w1 (.int i) ⟨i.ein, i.fin, false⟩ gp a + at1 D w1 (.int i) ⟨i.eex, i.fex, true⟩ ((rule D.geo (.int i)).length - gp - 1) a - 2 * trc D y (.int i) k a gp) +
      nd (nrm D.geo (.int i)) a * (at2 D w2 (.int i) ⟨i.ein, i.fin, false⟩ gp - at2 D w2 (.int i) ⟨i.eex, i.fex, true⟩ ((rule D.geo (.int i)).length - gp - 1)) = 0
  /-- one side wet: the trace is the tangential part of the wet side's `w1` -/
  shore : ∀ (k : ℕ) (i : Iface ℝ), (edgesOf D.m)[k]? = some (.int i) → ∀ s ∈ (Edg.int i).sides, ∀ s' ∈ (Edg.int i).sides, wet s.e → wet s'.e = false →
    ∀ gp < (rule D.geo (.int i)).length, ∀ a < 2, trc D y (.int i) k a gp = at1 D w1 (.int i) s (Ihdg.opp D.geo (.int i) s gp) a -
      (nd (nrm D.geo (.int i)) 0 * at1 D w1 (.int i) s (Ihdg.opp D.geo (.int i) s gp) 0 + nd (nrm D.geo (.int i)) 1 * at1 D w1 (.int i) s (Ihdg.opp D.geo (.int i) s gp) 1) *
        nd (nrm D.geo (.int i)) a
  land : ∀ (k : ℕ) (b : Bnd ℝ), (edgesOf D.m)[k]? = some (.bnd b) → b.kind = .land → wet b.e → ∀ gp < (rule D.geo (.bnd b)).length, ∀ a < 2,
    trc D y (.bnd b) k a gp = at1 D w1 (.bnd b) ⟨b.e, b.f, false⟩ gp a - (nd (nrm D.geo (.bnd b)) 0 * at1 D w1 (.bnd b) ⟨b.e, b.f, false⟩ gp 0 +
      nd (nrm D.geo (.bnd b)) 1 * at1 D w1 (.bnd b) ⟨b.e, b.f, false⟩ gp 1) * nd (nrm D.geo (.bnd b)) a
  /-- `w2` vanishes, with stabilization -/
  sea : ∀ (k : ℕ) (b : Bnd ℝ), (edgesOf D.m)[k]? = some (.bnd b) → b.kind ≠ .land → wet b.e → ∀ gp < (rule D.geo (.bnd b)).length, ∀ a < 2,
    D.tau * (at1 D w1 (.bnd b) ⟨b.e, b.f, false⟩ gp a - trc D y (.bnd b) k a gp) + nd (nrm D.geo (.bnd b)) a * at2 D w2 (.bnd b) ⟨b.e, b.f, false⟩ gp = 0

section
variable {D : Dc ℝ} {wet : ℕ → Bool} {q : State ℝ} {w1 w2 y : ℕ → ℕ → ℝ}

theorem diag_pick' (c : ℝ) {a : ℕ} (ha : a < 2) (f : ℕ → ℝ) : diag2 c a 0 * f 0 + diag2 c a 1 * f 1 = c * f a := by
  rcases (by omega : a = 0 ∨ a = 1) with rfl | rfl <;> simp [diag2]

theorem tang_pick (n : P2 ℝ) {a : ℕ} (ha : a < 2) (f : ℕ → ℝ) :
    tangential n a 0 * f 0 + tangential n a 1 * f 1 = f a - (nd n 0 * f 0 + nd n 1 * f 1) * nd n a := by
  have := diag_pick' 1 ha f
  simp only [tangential]
  linear_combination this

theorem nd_neg (n : P2 ℝ) (a : ℕ) : nd (⟨-n.x, -n.y⟩ : P2 ℝ) a = -nd n a := by unfold nd; split <;> rfl

theorem nrm_ex (ed : Edg ℝ) (e f : ℕ) : nrmOf D ed ⟨e, f, true⟩ = ⟨-(nrm D.geo ed).x, -(nrm D.geo ed).y⟩ := rfl
theorem nrm_in (ed : Edg ℝ) (e f : ℕ) : nrmOf D ed ⟨e, f, false⟩ = nrm D.geo ed := rfl
theorem opp_ex (ed : Edg ℝ) (e f gp : ℕ) : Ihdg.opp D.geo ed ⟨e, f, true⟩ gp = (rule D.geo ed).length - gp - 1 := rfl
theorem opp_in (ed : Edg ℝ) (e f gp : ℕ) : Ihdg.opp D.geo ed ⟨e, f, false⟩ gp = gp := rfl

theorem hat_interior {i : Iface ℝ} (hi : i.kind = .internal) (h1 : wet i.ein) (h2 : wet i.eex) (k gp : ℕ) {a : ℕ} (ha : a < 2) :
    hatAt D wet w1 w2 y (.int i) k gp a =
      D.tau * (at1 D w1 (.int i) ⟨i.ein, i.fin, false⟩ gp a + at1 D w1 (.int i) ⟨i.eex, i.fex, true⟩ ((rule D.geo (.int i)).length - gp - 1) a - 2 * trc D y (.int i) k a gp) +
      nd (nrm D.geo (.int i)) a * (at2 D w2 (.int i) ⟨i.ein, i.fin, false⟩ gp - at2 D w2 (.int i) ⟨i.eex, i.fex, true⟩ ((rule D.geo (.int i)).length - gp - 1)) := by
  have e1 := diag_pick' D.tau ha fun c => at1 D w1 (.int i) ⟨i.ein, i.fin, false⟩ gp c
  have e2 := diag_pick' D.tau ha fun c => at1 D w1 (.int i) ⟨i.eex, i.fex, true⟩ ((rule D.geo (.int i)).length - gp - 1) c
  have e3 := diag_pick' (-2 * D.tau) ha fun c => trc D y (.int i) k c gp
  simp only [at1] at e1 e2
  simp only [hatAt, Edg.sides, List.filter_cons, h1, h2, if_true, List.filter_nil, List.map_cons, List.map_nil, List.sum_cons, List.sum_nil, add_zero, hat1Of, hat2Of, hatHatKernel,
    hi, Bool.and_self, opp_in, opp_ex, nrm_in, nrm_ex, nd_neg, e1, e2, e3, at1, at2]
  ring

theorem hat_shore {i : Iface ℝ} (hi : i.kind = .internal) {s s' : Sd} (hs : s ∈ (Edg.int i).sides) (hs' : s' ∈ (Edg.int i).sides) (h1 : wet s.e) (h2 : wet s'.e = false)
    (k gp : ℕ) {a : ℕ} (ha : a < 2) :
    hatAt D wet w1 w2 y (.int i) k gp a = at1 D w1 (.int i) s (Ihdg.opp D.geo (.int i) s gp) a -
      (nd (nrm D.geo (.int i)) 0 * at1 D w1 (.int i) s (Ihdg.opp D.geo (.int i) s gp) 0 + nd (nrm D.geo (.int i)) 1 * at1 D w1 (.int i) s (Ihdg.opp D.geo (.int i) s gp) 1) *
        nd (nrm D.geo (.int i)) a - trc D y (.int i) k a gp := by
  have e3 := diag_pick' (-1) ha fun c => trc D y (.int i) k c gp
  simp only [Edg.sides, List.mem_cons, List.not_mem_nil, or_false] at hs hs'
  rcases hs with rfl | rfl <;> rcases hs' with rfl | rfl <;> simp only at h1 h2
  · rw [h1] at h2; cases h2
  · have e1 := tang_pick (nrm D.geo (.int i)) ha fun c => at1 D w1 (.int i) ⟨i.ein, i.fin, false⟩ gp c
    simp only [at1] at e1
    simp only [hatAt, Edg.sides, List.filter_cons, h1, h2, if_true, if_false, Bool.false_eq_true, List.filter_nil, List.map_cons, List.map_nil, List.sum_cons, List.sum_nil, add_zero,
      hat1Of, hat2Of, hatHatKernel, hi, Bool.and_false, zero_mul, opp_in, nrm_in, e1, e3, at1]
    ring
  · have e1 := tang_pick ⟨-(nrm D.geo (.int i)).x, -(nrm D.geo (.int i)).y⟩ ha fun c => at1 D w1 (.int i) ⟨i.eex, i.fex, true⟩ ((rule D.geo (.int i)).length - gp - 1) c
    simp only [at1, nd_neg] at e1
    simp only [hatAt, Edg.sides, List.filter_cons, h1, h2, if_true, if_false, Bool.false_eq_true, List.filter_nil, List.map_cons, List.map_nil, List.sum_cons, List.sum_nil, add_zero,
      hat1Of, hat2Of, hatHatKernel, hi, Bool.false_and, zero_mul, opp_ex, nrm_ex, e1, e3, at1]
    ring
  · rw [h1] at h2; cases h2

theorem hat_land {b : Bnd ℝ} (hb : b.kind = .land) (h1 : wet b.e) (k gp : ℕ) {a : ℕ} (ha : a < 2) :
    hatAt D wet w1 w2 y (.bnd b) k gp a = at1 D w1 (.bnd b) ⟨b.e, b.f, false⟩ gp a - (nd (nrm D.geo (.bnd b)) 0 * at1 D w1 (.bnd b) ⟨b.e, b.f, false⟩ gp 0 +
      nd (nrm D.geo (.bnd b)) 1 * at1 D w1 (.bnd b) ⟨b.e, b.f, false⟩ gp 1) * nd (nrm D.geo (.bnd b)) a - trc D y (.bnd b) k a gp := by
  have e3 := diag_pick' (-1) ha fun c => trc D y (.bnd b) k c gp
  have e1 := tang_pick (nrm D.geo (.bnd b)) ha fun c => at1 D w1 (.bnd b) ⟨b.e, b.f, false⟩ gp c
  simp only [at1] at e1
  simp only [hatAt, Edg.sides, List.filter_cons, h1, if_true, List.filter_nil, List.map_cons, List.map_nil, List.sum_cons, List.sum_nil, add_zero, hat1Of, hat2Of, hatHatKernel, hb,
    zero_mul, opp_in, nrm_in, e1, e3, at1]
  ring

theorem hat_sea {b : Bnd ℝ} (hb : b.kind ≠ .land) (h1 : wet b.e) (k gp : ℕ) {a : ℕ} (ha : a < 2) :
    hatAt D wet w1 w2 y (.bnd b) k gp a = D.tau * (at1 D w1 (.bnd b) ⟨b.e, b.f, false⟩ gp a - trc D y (.bnd b) k a gp) +
      nd (nrm D.geo (.bnd b)) a * at2 D w2 (.bnd b) ⟨b.e, b.f, false⟩ gp := by
  have e3 := diag_pick' (-D.tau) ha fun c => trc D y (.bnd b) k c gp
  have e1 := diag_pick' D.tau ha fun c => at1 D w1 (.bnd b) ⟨b.e, b.f, false⟩ gp c
  simp only [at1] at e1
  have h : hat1Of D wet (.bnd b) ⟨b.e, b.f, false⟩ gp = diag2 D.tau ∧ hat2Of D wet (.bnd b) ⟨b.e, b.f, false⟩ gp = nd (nrm D.geo (.bnd b)) ∧
      hatHatKernel D wet (.bnd b) gp = diag2 (-D.tau) := by
    unfold hat1Of hat2Of hatHatKernel
    cases hk : b.kind <;> first | exact absurd hk hb | simp [hk, nrm_in]
  simp only [hatAt, Edg.sides, List.filter_cons, h1, if_true, List.filter_nil, List.map_cons, List.map_nil, List.sum_cons, List.sum_nil, add_zero, opp_in, h.1, h.2.1, h.2.2, e1, e3, at1, at2]
  ring

theorem intPhi_area (e : ℕ) (f : P2 ℝ → ℝ) (i : ℕ) : (D.dat e).elt.intPhi D.v.N f i = area D e fun z => D.v.N.basis.phi i z * f z := by
  unfold Elt.intPhi area
  exact congrArg _ (List.map_congr_left fun _ _ => by ring)

/-- The matrices of the correction with the integrals of `R` as right-hand side. -/
noncomputable def withSource (D : Dc ℝ) (wet : ℕ → Bool) (q : State ℝ) (R : ℕ → ℕ → P2 ℝ → ℝ) : DcBlocks ℝ :=
  { dcBlocks D wet q with r1 := fun e r => area D e fun z => D.v.N.basis.phi (r / 2) z * R e (r % 2) z }

/-- Without levees the equations of the three kinds of unknowns are the weak form, for every right-hand side. -/
theorem weak_rows (hE : EdgeOk D) (hF : ∀ ed ∈ edgesOf D.m, Fits (tab D.geo ed)) (hl : ∀ i ∈ D.m.ints, i.kind = .internal) (R : ℕ → ℕ → P2 ℝ → ℝ) :
    (W1Eq (dcSkel D) wet (withSource D wet q R) w1 w2 y ∧ W2Eq (dcSkel D) wet (withSource D wet q R) w1 w2 y ∧ HatEq (dcSkel D) wet (withSource D wet q R) w1 w2 y) ↔
      Weak D wet q R w1 w2 y := by
  rw [show HatEq (dcSkel D) wet (withSource D wet q R) w1 w2 y = HatEq (dcSkel D) wet (dcBlocks D wet q) w1 w2 y from rfl]
  rw [hat_points hE q hF]
  have hin : ∀ {k : ℕ} {i : Iface ℝ}, (edgesOf D.m)[k]? = some (.int i) → i.kind = .internal := by
    intro k i h
    have hm := List.mem_of_getElem? h
    simp only [edgesOf, List.mem_append, List.mem_map] at hm
    rcases hm with ⟨j, hj, h⟩ | ⟨j, _, h⟩
    · cases h; exact hl _ hj
    · cases h
  have hget : ∀ {k : ℕ} {ed : Edg ℝ}, (edgesOf D.m)[k]? = some ed → ∃ hk : k < (edgesOf D.m).length, (edgesOf D.m)[k] = ed := fun h => List.getElem?_eq_some_iff.1 h
  constructor
  · rintro ⟨h1, h2, h3⟩
    have h3' : ∀ {k : ℕ} {ed : Edg ℝ}, (edgesOf D.m)[k]? = some ed → (∃ s ∈ ed.sides, wet s.e) → ∀ gp < (rule D.geo ed).length, ∀ a < 2, hatAt D wet w1 w2 y ed k gp a = 0 := by
      intro k ed h hw gp hgp a ha
      obtain ⟨hk, rfl⟩ := hget h
      exact h3 k hk hw gp hgp a ha
    refine ⟨fun e he hw i hi a ha => ?_, fun e he hw i hi => ?_, fun k i hk hw1 hw2 gp hgp a ha => ?_, fun k i hk s hs s' hs' hw1 hw2 gp hgp a ha => ?_,
      fun k b hk hb hw gp hgp a ha => ?_, fun k b hk hb hw gp hgp a ha => ?_⟩
    · have := h1 e he hw (2 * i + a) (by simp only [dcSkel]; omega)
      simp only [withSource] at this
      rwa [w1_row hE q he hw, show (2 * i + a) / 2 = i by omega, show (2 * i + a) % 2 = a by omega] at this
    · have := h2 e he hw i hi
      simp only [withSource] at this
      rwa [w2_row hE q e] at this
    · rw [← hat_interior (hin hk) hw1 hw2 k gp ha]
      exact h3' hk ⟨⟨i.ein, i.fin, false⟩, by simp [Edg.sides], hw1⟩ gp hgp a ha
    · have := h3' hk ⟨s, hs, hw1⟩ gp hgp a ha
      rw [hat_shore (hin hk) hs hs' hw1 hw2 k gp ha] at this
      linarith
    · have := h3' hk ⟨⟨b.e, b.f, false⟩, by simp [Edg.sides], hw⟩ gp hgp a ha
      rw [hat_land hb hw k gp ha] at this
      linarith
    · rw [← hat_sea hb hw k gp ha]
      exact h3' hk ⟨⟨b.e, b.f, false⟩, by simp [Edg.sides], hw⟩ gp hgp a ha
  · intro h
    refine ⟨fun e he hw r hr => ?_, fun e he hw i hi => ?_, fun k hk hw gp hgp a ha => ?_⟩
    · simp only [dcSkel] at hr
      simp only [withSource]
      rw [w1_row hE q he hw, h.momentum e he hw (r / 2) (by omega) (r % 2) (by omega)]
    · simp only [withSource]
      rw [w2_row hE q e, h.divergence e he hw i hi]
    · have hk' : (edgesOf D.m)[k]? = some (edgesOf D.m)[k] := List.getElem?_eq_getElem hk
      generalize (edgesOf D.m)[k] = ed at *
      cases ed with
      | int i =>
        by_cases h1 : wet i.ein = true
        · by_cases h2 : wet i.eex = true
          · rw [hat_interior (hin hk') h1 h2 k gp ha]
            exact h.interior k i hk' h1 h2 gp hgp a ha
          · have h2 : wet i.eex = false := by simpa using h2
            rw [hat_shore (s := ⟨i.ein, i.fin, false⟩) (s' := ⟨i.eex, i.fex, true⟩) (hin hk') (by simp [Edg.sides]) (by simp [Edg.sides]) h1 h2 k gp ha,
              h.shore k i hk' ⟨i.ein, i.fin, false⟩ (by simp [Edg.sides]) ⟨i.eex, i.fex, true⟩ (by simp [Edg.sides]) h1 h2 gp hgp a ha]
            ring
        · have h1 : wet i.ein = false := by simpa using h1
          have h2 : wet i.eex = true := by
            obtain ⟨s, hs, hw⟩ := hw
            simp only [Edg.sides, List.mem_cons, List.not_mem_nil, or_false] at hs
            rcases hs with rfl | rfl
            · rw [h1] at hw; cases hw
            · exact hw
          rw [hat_shore (s := ⟨i.eex, i.fex, true⟩) (s' := ⟨i.ein, i.fin, false⟩) (hin hk') (by simp [Edg.sides]) (by simp [Edg.sides]) h2 h1 k gp ha,
            h.shore k i hk' ⟨i.eex, i.fex, true⟩ (by simp [Edg.sides]) ⟨i.ein, i.fin, false⟩ (by simp [Edg.sides]) h2 h1 gp hgp a ha]
          ring
      | bnd b =>
        have h1 : wet b.e = true := by
          obtain ⟨s, hs, hw⟩ := hw
          simp only [Edg.sides, List.mem_cons, List.not_mem_nil, or_false] at hs
          rcases hs with rfl
          exact hw
        by_cases hb : b.kind = .land
        · rw [hat_land hb h1 k gp ha, h.land k b hk' hb h1 gp hgp a ha]
          ring
        · rw [hat_sea hb h1 k gp ha]
          exact h.sea k b hk' hb h1 gp hgp a ha

/-- **C92** Without levees: the equations of the three kinds of unknowns are the weak form, with the source at the Gauss points as right-hand side. -/
theorem weak_iff (hE : EdgeOk D) (hF : ∀ ed ∈ edgesOf D.m, Fits (tab D.geo ed)) (hl : ∀ i ∈ D.m.ints, i.kind = .internal) :
    (W1Eq (dcSkel D) wet (dcBlocks D wet q) w1 w2 y ∧ W2Eq (dcSkel D) wet (dcBlocks D wet q) w1 w2 y ∧ HatEq (dcSkel D) wet (dcBlocks D wet q) w1 w2 y) ↔
      Weak D wet q (fun e a z => dcSource D.v.src.g D.al (ptAt D q e z) a) w1 w2 y := by
  have : dcBlocks D wet q = withSource D wet q fun e a z => dcSource D.v.src.g D.al (ptAt D q e z) a := by
    have hr : (dcBlocks D wet q).r1 = (withSource D wet q fun e a z => dcSource D.v.src.g D.al (ptAt D q e z) a).r1 := by
      funext e r
      simp only [dcBlocks, withSource, srcDc]
      rw [intPhi_area]
    unfold withSource
    rw [show (fun e r => area D e fun z => D.v.N.basis.phi (r / 2) z * dcSource D.v.src.g D.al (ptAt D q e z) (r % 2)) = (dcBlocks D wet q).r1 from hr.symm]
  rw [this]
  exact weak_rows hE hF hl _

/-- **C92** What the dispersive correction computes solves the weak form. -/
theorem correction_weak (hI : ∀ n M N, D.I n M = some N → RightInv n M N) (hS : Solves D.slv) (hs : Whole (dcSkel D)) (hE : EdgeOk D)
    (hF : ∀ ed ∈ edgesOf D.m, Fits (tab D.geo ed)) (hl : ∀ i ∈ D.m.ints, i.kind = .internal) {t0 t : Index} (h0 : D.wd = false → Numbered (dcSkel D) wet t0) {x : ℕ → ℝ}
    (h : solveDc D.I D.slv (dcSkel D) D.wd wet t0 (dcBlocks D wet q) = some (t, x, w1)) :
    ∃ w2, Weak D wet q (fun e a z => dcSource D.v.src.g D.al (ptAt D q e z) a) w1 w2 (trace (dcSkel D) t x) := by
  obtain ⟨w2, h⟩ := dc_solved hI hS hs h0 h
  exact ⟨w2, (weak_iff hE hF hl).1 h⟩

end

end Verif.Gn.Props
