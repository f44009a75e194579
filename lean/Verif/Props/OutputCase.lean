import Verif.Props.Output
import Verif.Props.Water

/-!
# C110: pictures of two triangles, and what six digits do to coordinates
-/

namespace Verif.Output.Props
open Verif.Geometry Verif.Geometry.Props Verif.Element Verif.Swe Verif.Swe.Props

/-- Numbers as they are. -/
def asIs : Printer ℚ ℚ := ⟨id, id, id, id⟩

/-- Two triangles with water at level `z`, flowing in the first one. -/
def twoScene (z : ℚ) : Scene ℚ :=
  ⟨simpleN, simpleSq, [0, 1], twoTris 1 fun _ d => if d = 0 then 5 else 0, fun e c d => if d = 0 then (if c = 0 then z else if e = 0 then 3 else 0) else 0, fun _ => true, fun e => e == 1⟩

example : ((readVtk (vtkFile asIs 1 (twoScene 1))).map fun p => (p.points, p.cells)) =
    some ([(0, 0, 0), (4, 0, 0), (0, 3, 0), (4, 3, 0), (0, 3, 0), (4, 0, 0)], [[0, 1, 2], [3, 4, 5]]) := by decide +kernel
example : ((readVtk (vtkFile asIs 1 (twoScene 1))).bind fun p => value p.cellData "went_completely_dry" 1) = some (.n 1) := by decide +kernel
example : ((readVtk (vtkFile asIs 2 (twoScene 1))).map fun p => (p.points.length, p.cells.length)) = some (12, 8) := by decide +kernel
example : ((readVtu (vtuFile asIs 1 (twoScene 1))).map fun p => (p.points, p.cells)) =
    some ([(0, 0, 0), (4, 0, 0), (0, 3, 0), (4, 3, 0), (0, 3, 0), (4, 0, 0)], [[0, 1, 2], [3, 4, 5]]) := by decide +kernel
example : ((readVtu (vtuFile asIs 1 (twoScene 1))).bind fun p => value p.pointData "qx_point" 1) = some (.x 3) := by decide +kernel

/-- A bed that is just dry at a corner: the file in the legacy format is a picture, the XML file cannot be read. -/
theorem dry_unreadable : (readVtk (vtkFile asIs 1 (twoScene (-5)))).isSome = true ∧ readVtu (vtuFile asIs 1 (twoScene (-5))) = none := by decide +kernel

/-! ### Six digits -/

/-- A printer with six significant digits, as that of `operator<<(double)` by default: of a number with `k` + 1 digits before the point it gives a multiple of the sixth digit
that is next to it. -/
def SixDigits (pt : ℚ → ℚ) : Prop :=
  ∀ (x : ℚ) (k : ℕ), 10 ^ k ≤ |x| → |x| < 10 ^ (k + 1) → (∃ m : ℤ, pt x * 10 ^ 5 = m * 10 ^ k) ∧ 2 * |pt x - x| * 10 ^ 5 ≤ 10 ^ k

/-- One. -/
def sixDigits (x : ℚ) : ℚ := round (x * 10 ^ 5 / 10 ^ Nat.log 10 ⌊|x|⌋₊) * 10 ^ Nat.log 10 ⌊|x|⌋₊ / 10 ^ 5

theorem sixDigits_ok : SixDigits sixDigits := by
  intro x k h1 h2
  have hk : Nat.log 10 ⌊|x|⌋₊ = k := by
    rw [Nat.log_eq_iff (Or.inr ⟨by norm_num, ?_⟩)]
    · constructor
      · exact Nat.le_floor (by exact_mod_cast h1)
      · exact (Nat.floor_lt (abs_nonneg x)).mpr (by exact_mod_cast h2)
    · have h3 : (1 : ℚ) ≤ 10 ^ k := one_le_pow₀ (by norm_num)
      have : 1 ≤ ⌊|x|⌋₊ := Nat.le_floor (by push_cast; linarith)
      omega
  have h10 : (0 : ℚ) < 10 ^ k := by positivity
  refine ⟨⟨round (x * 10 ^ 5 / 10 ^ k), ?_⟩, ?_⟩
  · rw [sixDigits, hk]; ring
  · have h3 := abs_sub_round (x * 10 ^ 5 / 10 ^ k)
    have h4 : sixDigits x - x = -(x * 10 ^ 5 / 10 ^ k - round (x * 10 ^ 5 / 10 ^ k)) * (10 ^ k / 10 ^ 5) := by
      rw [sixDigits, hk]; field_simp; ring
    rw [h4, abs_mul, abs_neg, abs_of_pos (by positivity : (0 : ℚ) < 10 ^ k / 10 ^ 5)]
    calc 2 * (|x * 10 ^ 5 / 10 ^ k - round (x * 10 ^ 5 / 10 ^ k)| * (10 ^ k / 10 ^ 5)) * 10 ^ 5
        = 2 * |x * 10 ^ 5 / 10 ^ k - round (x * 10 ^ 5 / 10 ^ k)| * 10 ^ k := by field_simp
      _ ≤ 2 * (1 / 2) * 10 ^ k := by gcongr
      _ = 10 ^ k := by ring

example : sixDigits 1000004 = 1000000 ∧ sixDigits (4 + 1 / 3) = 433333 / 100000 := by decide +kernel

theorem six_of {pt : ℚ → ℚ} (h : SixDigits pt) {x : ℚ} (h1 : 1000001 ≤ x) (h2 : x ≤ 1000004) : pt x = 1000000 := by
  obtain ⟨⟨m, hm⟩, h3⟩ := h x 6 (by rw [abs_of_pos (by linarith)]; norm_num; linarith) (by rw [abs_of_pos (by linarith)]; norm_num; linarith)
  have h4 : |pt x - x| ≤ 5 := by norm_num at h3 ⊢; linarith
  obtain ⟨h5, h6⟩ := abs_le.mp h4
  have h7 : pt x = 10 * m := by norm_num at hm; linarith
  have h8 : (99999 : ℚ) < m := by linarith
  have h9 : (m : ℚ) < 100001 := by linarith
  have h8' : (99999 : ℤ) < m := by exact_mod_cast h8
  have h9' : m < (100001 : ℤ) := by exact_mod_cast h9
  have : m = 100000 := by omega
  rw [h7, this]; norm_num

/-- Violation: coordinates are written with six digits. Of triangles whose corners are between 1000001 and 1000004 m from the origin to the east all corners of the picture are
on one line, whatever the state. -/
theorem six_digits_collapse (P : Printer ℚ ℚ) (h6 : SixDigits P.pt) (S : Scene ℚ) {div : ℕ} (hd : 0 < div)
    (hS : ∀ e ∈ S.elts, ∀ k, 1000001 ≤ (vertex (S.dat e).elt.tri k).x ∧ (vertex (S.dat e).elt.tri k).x ≤ 1000004) :
    ∃ pic, readVtk (vtkFile P div S) = some pic ∧ pic.cells.length = div * div * S.elts.length ∧
      ∀ c ∈ pic.cells, ∃ a b d pa pb pd, c = [a, b, d] ∧ pic.points[a]? = some pa ∧ pic.points[b]? = some pb ∧ pic.points[d]? = some pd ∧
        pa.1 = 1000000 ∧ pb.1 = 1000000 ∧ pd.1 = 1000000 := by
  obtain ⟨pic, h1, h2⟩ := vtk_picture P hd S
  refine ⟨pic, h1, h2.ncells, ?_⟩
  intro c hc
  obtain ⟨k, hk⟩ := List.mem_iff_getElem?.mp hc
  have hlt := (List.getElem?_eq_some_iff.mp hk).1
  rw [h2.ncells] at hlt
  have hdd : 0 < div * div := Nat.mul_pos hd hd
  have hi : k / (div * div) < S.elts.length := Nat.div_lt_of_lt_mul hlt
  obtain ⟨a, b, d, A, B, C, e1, _, e2, e3, e4, _⟩ := h2.cells (k / (div * div)) _ (List.getElem?_eq_getElem hi) (k % (div * div)) (Nat.mod_lt _ hdd)
  rw [Nat.div_add_mod, hk] at e1
  have hx : ∀ z : P2 ℚ, InMaster z → P.pt (localToGlobal (S.dat S.elts[k / (div * div)]).elt.tri z).x = 1000000 := by
    intro z ⟨z1, z2, z3⟩
    have h := hS _ (List.getElem_mem hi)
    obtain ⟨a1, a2⟩ := h 0
    obtain ⟨b1, b2⟩ := h 1
    obtain ⟨c1, c2⟩ := h 2
    simp only [vertex, if_true, one_ne_zero, if_false, OfNat.ofNat_ne_zero, OfNat.ofNat_ne_one] at a1 a2 b1 b2 c1 c2
    apply six_of h6
    · simp only [localToGlobal, psi, if_true, one_ne_zero, if_false, OfNat.ofNat_ne_zero, OfNat.ofNat_ne_one]
      nlinarith
    · simp only [localToGlobal, psi, if_true, one_ne_zero, if_false, OfNat.ofNat_ne_zero, OfNat.ofNat_ne_one]
      nlinarith
  exact ⟨a, b, d, _, _, _, by simpa using e1, e2.place, e3.place, e4.place, hx _ e2.inside, hx _ e3.inside, hx _ e4.inside⟩

end Verif.Output.Props
