import Verif.Props.WeakForm
import Mathlib.RingTheory.MvPolynomial.Basic
import Mathlib.LinearAlgebra.Dimension.Constructions
import Mathlib.LinearAlgebra.FiniteDimensional.Basic

/-!
Helper lemmas: an orthogonal basis of the right number of polynomials spans all polynomials of the degree.
-/

namespace Verif.Swe.Props
open Verif.Geometry Verif.Element Verif.Tri MvPolynomial

/-- The exponents of degree at most `p`. -/
noncomputable def monos (p : ℕ) : Finset (MvPolynomial (Fin 2) ℝ) :=
  ((Finset.range (p + 1)).sigma fun k => Finset.range (k + 1)).image fun x => X 0 ^ x.2 * X 1 ^ (x.1 - x.2)

theorem monos_card (p : ℕ) : (monos p).card ≤ ndof p := by
  refine Finset.card_image_le.trans ?_
  rw [Finset.card_sigma]
  simp only [Finset.card_range]
  unfold ndof
  rw [Nat.le_div_iff_mul_le (by omega)]
  refine le_of_eq ?_
  induction p with
  | zero => simp
  | succ p ih => rw [Finset.sum_range_succ, add_mul, ih]; ring

theorem monos_span (p : ℕ) : restrictTotalDegree (Fin 2) ℝ p ≤ Submodule.span ℝ (monos p : Set (MvPolynomial (Fin 2) ℝ)) := by
  intro G hG
  rw [mem_restrictTotalDegree] at hG
  rw [G.as_sum]
  refine Submodule.sum_mem _ fun s hs => ?_
  have hd : s 0 + s 1 ≤ p := by
    have := (le_totalDegree hs).trans hG
    rwa [Finsupp.sum_fintype _ _ (fun _ => rfl), Fin.sum_univ_two] at this
  have h1 : monomial s (coeff s G) = coeff s G • (X 0 ^ s 0 * X 1 ^ s 1 : MvPolynomial (Fin 2) ℝ) := by
    rw [monomial_eq, Finsupp.prod_fintype _ _ (fun _ => by simp), Fin.prod_univ_two, C_mul']
  rw [h1]
  refine Submodule.smul_mem _ _ (Submodule.subset_span ?_)
  simp only [monos, Finset.coe_image, Set.mem_image, Finset.mem_coe, Finset.mem_sigma, Finset.mem_range]
  refine ⟨⟨s 0 + s 1, s 0⟩, ⟨by simpa using Nat.lt_succ_of_le hd, by simp⟩, ?_⟩
  simp

theorem I2L_sum (n : ℕ) (c : ℕ → ℝ) (F : ℕ → MvPolynomial (Fin 2) ℝ) (G : MvPolynomial (Fin 2) ℝ) :
    I2L ((∑ d ∈ Finset.range n, C (c d) * F d) * G) = ∑ d ∈ Finset.range n, c d * I2L (F d * G) := by
  rw [Finset.sum_mul, map_sum]
  refine Finset.sum_congr rfl fun d _ => ?_
  rw [mul_assoc, C_mul', map_smul, smul_eq_mul]

theorem I2L_eq {N : Numerics ℝ} {F : ℕ → MvPolynomial (Fin 2) ℝ} {P : ℕ} (hO : Orthogonal N F P) {d d' : ℕ} (h : d < ndof P) (h' : d' < ndof P) :
    I2L (F d * F d') = if d = d' then (N.basis.minv d)⁻¹ else 0 := by
  have := (hO d h).2 d' h'
  simpa only [I2L, LinearMap.coe_mk, AddHom.coe_mk, map_mul] using this

/-- The coefficients of a polynomial of degree at most `p`. -/
theorem expansion {N : Numerics ℝ} {F : ℕ → MvPolynomial (Fin 2) ℝ} {P : ℕ} (hO : Orthogonal N F P)
    (hdeg : ∀ p ≤ P, ∀ d < ndof p, (F d).totalDegree ≤ p) {p : ℕ} (hp : p ≤ P) {G : MvPolynomial (Fin 2) ℝ} (hG : G.totalDegree ≤ p) :
    G = ∑ d ∈ Finset.range (ndof p), C (N.basis.minv d * I2L (G * F d)) * F d := by
  have hn := ndof_mono hp
  have hli : LinearIndependent ℝ fun d : Fin (ndof p) => F d := by
    rw [Fintype.linearIndependent_iff]
    intro g hg i
    have h0 : I2L ((∑ d ∈ Finset.range (ndof p), C (if h : d < ndof p then g ⟨d, h⟩ else 0) * F d) * F i) = 0 := by
      have : ∑ d ∈ Finset.range (ndof p), C (if h : d < ndof p then g ⟨d, h⟩ else 0) * F d = ∑ d : Fin (ndof p), g d • F d := by
        rw [Finset.sum_range]
        refine Finset.sum_congr rfl fun d _ => ?_
        rw [dif_pos d.2, C_mul']
      rw [this, hg, zero_mul, map_zero]
    rw [I2L_sum, Finset.sum_eq_single i.1] at h0
    · rw [dif_pos i.2, I2L_eq hO (lt_of_lt_of_le i.2 hn) (lt_of_lt_of_le i.2 hn), if_pos rfl] at h0
      exact (mul_eq_zero.mp h0).resolve_right (inv_ne_zero (hO _ (lt_of_lt_of_le i.2 hn)).1)
    · intro d hd hne
      rw [I2L_eq hO (lt_of_lt_of_le (Finset.mem_range.mp hd) hn) (lt_of_lt_of_le i.2 hn), if_neg hne, mul_zero]
    · intro h; exact absurd (Finset.mem_range.mpr i.2) h
  have hle : Submodule.span ℝ (Set.range fun d : Fin (ndof p) => F d) ≤ restrictTotalDegree (Fin 2) ℝ p := by
    rw [Submodule.span_le]
    rintro _ ⟨d, rfl⟩
    exact (mem_restrictTotalDegree _ _ _).mpr (hdeg p hp d d.2)
  have hfin : Module.finrank ℝ (restrictTotalDegree (Fin 2) ℝ p) ≤ ndof p := by
    have h1 := finrank_span_finset_le_card (R := ℝ) (monos p)
    exact (Submodule.finrank_mono (monos_span p)).trans (h1.trans (monos_card p))
  have heq := Submodule.eq_of_le_of_finrank_le hle (by rw [finrank_span_eq_card hli, Fintype.card_fin]; exact hfin)
  have hmem : G ∈ Submodule.span ℝ (Set.range fun d : Fin (ndof p) => F d) := by rw [heq]; exact (mem_restrictTotalDegree _ _ _).mpr hG
  obtain ⟨c, hc⟩ := (Submodule.mem_span_range_iff_exists_fun ℝ).mp hmem
  have hc' : ∑ d ∈ Finset.range (ndof p), C (if h : d < ndof p then c ⟨d, h⟩ else 0) * F d = G := by
    rw [Finset.sum_range, ← hc]
    refine Finset.sum_congr rfl fun d _ => ?_
    rw [dif_pos d.2, C_mul']
  conv_lhs => rw [← hc']
  refine Finset.sum_congr rfl fun d hd => ?_
  congr 2
  have hd' := lt_of_lt_of_le (Finset.mem_range.mp hd) hn
  conv_rhs => rw [← hc']
  rw [I2L_sum, Finset.sum_eq_single d]
  · rw [I2L_eq hO hd' hd', if_pos rfl, mul_comm, mul_assoc, inv_mul_cancel₀ (hO d hd').1, mul_one]
  · intro b hb hne
    rw [I2L_eq hO (lt_of_lt_of_le (Finset.mem_range.mp hb) hn) hd', if_neg hne, mul_zero]
  · intro h; exact absurd hd h

end Verif.Swe.Props
