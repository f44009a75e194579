import Verif.Props.IhdgNewton

/-!
# The Newton system of the implicit scheme, written with the changes of states and traces at the Gauss points
-/

namespace Verif.Ihdg.Props
open Verif.Swe Verif.Swe.Props Verif.Geometry Verif.Geometry.Props Verif.Element Verif.Edge Verif.Edge.Props Verif.Ehdg Verif.Ehdg.Props Matrix

/-- A vector of unknowns as coefficients. -/
def incr (x : ℕ → ℝ) : Fin 3 → ℕ → ℝ := fun v j => x (3 * j + v.val)

/-- Component of a matrix times a state. -/
def lin (M : M3 ℝ) (q : Q ℝ) (a : Fin 3) : ℝ := (M *ᵥ comp q) a

theorem row_sum (n : ℕ) (A : ℕ → ℝ) : ∑ k ∈ Finset.range (3 * n), A k = ∑ j ∈ Finset.range n, ∑ v : Fin 3, A (3 * j + v.val) := by
  induction n with
  | zero => simp
  | succ n ih =>
    rw [show 3 * (n + 1) = 3 * n + 1 + 1 + 1 by ring, Finset.sum_range_succ, Finset.sum_range_succ, Finset.sum_range_succ, ih, Finset.sum_range_succ (n := n), Fin.sum_univ_three]
    simp only [Fin.val_zero, Fin.val_one, Fin.val_two, add_zero]
    ring

theorem row_sum_mul (n : ℕ) (A x : ℕ → ℝ) :
    ∑ k ∈ Finset.range (3 * n), A k * x k = ∑ j ∈ Finset.range n, ∑ v : Fin 3, A (3 * j + v.val) * incr x v j := row_sum n fun k => A k * x k

/-- A block times the unknowns, integral and sum exchanged. -/
theorem sum_block {α : Type} (l : List α) (M : α → M3 ℝ) (φ : ℕ → α → ℝ) (W : α → ℝ) (x : Fin 3 → ℕ → ℝ) (n : ℕ) (a : Fin 3) :
    ∑ j ∈ Finset.range n, ∑ v : Fin 3, (l.map fun g => M g a v * (φ j g * W g)).sum * x v j =
      (l.map fun g => (∑ v : Fin 3, M g a v * ∑ j ∈ Finset.range n, x v j * φ j g) * W g).sum := by
  induction l with
  | nil => simp
  | cons b l ih =>
    simp only [List.map_cons, List.sum_cons, add_mul, Finset.sum_add_distrib, ih]
    congr 1
    rw [Finset.sum_comm, Finset.sum_mul]
    refine Finset.sum_congr rfl fun v _ => ?_
    rw [Finset.mul_sum, Finset.sum_mul]
    exact Finset.sum_congr rfl fun j _ => by ring

theorem lin_qAt (M : M3 ℝ) (N : Numerics ℝ) (e : Elt ℝ) (x : Fin 3 → ℕ → ℝ) (z : P2 ℝ) (a : Fin 3) :
    ∑ v : Fin 3, M a v * ∑ j ∈ Finset.range (ndof e.p), x v j * N.basis.phi j z = lin M (qAt N e x z) a := by
  simp only [lin, mulVec, dotProduct]
  refine Finset.sum_congr rfl fun v _ => ?_
  congr 1
  fin_cases v <;> simp only [Swe.comp, qAt, Elt.value, sum_range_list] <;> rfl

theorem lin_hat (M : M3 ℝ) (S : Scheme ℝ) (ed : Edg ℝ) (c : Coef ℝ) (gp : ℕ) (a : Fin 3) :
    ∑ v : Fin 3, M a v * ∑ j ∈ Finset.range (tab S ed).ndof, c v j * (tab S ed).lam j gp = lin M (hat S ed c gp) a := by
  simp only [lin, mulVec, dotProduct]
  refine Finset.sum_congr rfl fun v _ => ?_
  congr 1
  fin_cases v <;> rfl

variable {S : Scheme ℝ}

theorem map_add' {α : Type} (l : List α) (f g : α → ℝ) : (l.map f).sum + (l.map g).sum = (l.map fun a => f a + g a).sum := by
  induction l with
  | nil => simp
  | cons a l ih => simp only [List.map_cons, List.sum_cons, ← ih]; ring

theorem map_mul' {α : Type} (l : List α) (f : α → ℝ) (x : ℝ) : x * (l.map f).sum = (l.map fun a => x * f a).sum := by
  induction l with
  | nil => simp
  | cons a l ih => simp only [List.map_cons, List.sum_cons, ← ih]; ring

/-! ### Blocks times unknowns -/

theorem faceD_sum (ed : Edg ℝ) (c : Coef ℝ) (s : Sd) (x : ℕ → ℝ) (i : ℕ) (a : Fin 3) :
    ∑ k ∈ Finset.range (3 * ndof (S.dat s.e).elt.p), faceD S ed c s (3 * i + a.val) k * x k =
      ((List.range (rule S ed).length).map fun gp => lin (dfDq S ed c s gp) (qAt S.v.N (S.dat s.e).elt (incr x) (facePt (rule S ed) s.f gp)) a *
        (S.v.N.basis.phi i (facePt (rule S ed) s.f gp) * (weight (rule S ed) gp * surf S ed))).sum := by
  have h : ∀ j (v : Fin 3), faceD S ed c s (3 * i + a.val) (3 * j + v.val) = ((List.range (rule S ed).length).map fun gp => dfDq S ed c s gp a v *
      (S.v.N.basis.phi j (facePt (rule S ed) s.f gp) * (S.v.N.basis.phi i (facePt (rule S ed) s.f gp) * (weight (rule S ed) gp * surf S ed)))).sum := by
    intro j v
    cases ed with
    | int i' =>
      simp only [faceD, block_entry, row_div, intFace2]
      exact congrArg _ (List.map_congr_left fun gp _ => by ring)
    | bnd b =>
      simp only [faceD, block_entry, row_div, intFace2]
  rw [row_sum_mul]
  simp only [h]
  rw [sum_block (List.range (rule S ed).length) (dfDq S ed c s) (fun j gp => S.v.N.basis.phi j (facePt (rule S ed) s.f gp)) _ (incr x)]
  simp only [lin_qAt]

theorem sideDh_sum (q : State ℝ) (ed : Edg ℝ) (c : Coef ℝ) (s : Sd) (x : ℕ → ℝ) (i : ℕ) (a : Fin 3)
    (hsym : ∀ gp < (rule S ed).length, weight (rule S ed) ((rule S ed).length - gp - 1) = weight (rule S ed) gp) :
    ∑ k ∈ Finset.range (3 * (tab S ed).ndof), sideDh S q ed c s (3 * i + a.val) k * x k =
      (1 - S.theta) * ((List.range (rule S ed).length).map fun gp => lin (dfDhat S q ed c s gp) (hat S ed (incr x) (opp S ed s gp)) a *
        (S.v.N.basis.phi i (facePt (rule S ed) s.f gp) * (weight (rule S ed) gp * surf S ed))).sum := by
  have h : ∀ j (v : Fin 3), j < (tab S ed).ndof → sideDh S q ed c s (3 * i + a.val) (3 * j + v.val) * incr x v j = (1 - S.theta) *
      (((List.range (rule S ed).length).map fun gp => dfDhat S q ed c s gp a v *
      ((tab S ed).lam j (opp S ed s gp) * (S.v.N.basis.phi i (facePt (rule S ed) s.f gp) * (weight (rule S ed) gp * surf S ed)))).sum * incr x v j) := by
    intro j v hj
    simp only [sideDh, block_entry, row_div, intPhiLam]
    rw [mul_assoc, sum_range_list]
    congr 2
    refine Finset.sum_congr rfl fun gp hgp => ?_
    have hpos : 0 < (tab S ed).ndof := by omega
    have hw : (tab S ed).w (opp S ed s gp) = weight (rule S ed) gp := by
      unfold opp
      split_ifs
      · exact hsym gp (Finset.mem_range.1 hgp)
      · rfl
    simp only [flatten, intLam, Nat.mul_add_div hpos, Nat.div_eq_of_lt hj, Nat.add_zero, Nat.mul_add_mod, Nat.mod_eq_of_lt hj, hw]
    have : (tab S ed).J = surf S ed := rfl
    rw [this]
    ring
  rw [row_sum_mul, Finset.sum_congr rfl fun j hj => Finset.sum_congr rfl fun v _ => h j v (Finset.mem_range.1 hj)]
  simp only [← Finset.mul_sum]
  rw [sum_block (List.range (rule S ed).length) (dfDhat S q ed c s) (fun j gp => (tab S ed).lam j (opp S ed s gp)) _ (incr x)]
  simp only [lin_hat]

theorem sideDg_sum (q : State ℝ) (ed : Edg ℝ) (c : Coef ℝ) (s : Sd) (x : ℕ → ℝ) {i : ℕ} (hi : i < (tab S ed).ndof) (a : Fin 3) :
    ∑ k ∈ Finset.range (3 * ndof (S.dat s.e).elt.p), sideDg S q ed c s (3 * i + a.val) k * x k =
      ∑ gp ∈ Finset.range (rule S ed).length, lin (gDelta S q ed c s (opp S ed s gp)) (qAt S.v.N (S.dat s.e).elt (incr x) (facePt (rule S ed) s.f (opp S ed s gp))) a *
        intLam (tab S ed) gp i := by
  have h : ∀ j (v : Fin 3), sideDg S q ed c s (3 * i + a.val) (3 * j + v.val) = ((List.range (rule S ed).length).map fun gp => gDelta S q ed c s gp a v *
      (S.v.N.basis.phi j (facePt (rule S ed) s.f gp) * intLam (tab S ed) (opp S ed s gp) i)).sum := by
    intro j v
    simp only [sideDg, block_entry, row_div, intPhiLam]
    rw [sum_range_list]
    have hpos : 0 < (tab S ed).ndof := by omega
    refine Finset.sum_congr rfl fun gp _ => ?_
    simp only [flatten]
    rw [Nat.mul_add_div hpos, Nat.div_eq_of_lt hi, Nat.add_zero, Nat.mul_add_mod, Nat.mod_eq_of_lt hi]
  rw [row_sum_mul]
  simp only [h]
  rw [sum_block (List.range (rule S ed).length) (gDelta S q ed c s) (fun j gp => S.v.N.basis.phi j (facePt (rule S ed) s.f gp)) _ (incr x)]
  simp only [lin_qAt]
  rw [sum_range_list]
  exact (sum_opp ed s fun g gp => lin (gDelta S q ed c s g) (qAt S.v.N (S.dat s.e).elt (incr x) (facePt (rule S ed) s.f g)) a * intLam (tab S ed) gp i).symm

theorem edgeDhg_sum (q : State ℝ) (ed : Edg ℝ) (c : Coef ℝ) (x : ℕ → ℝ) {i : ℕ} (hi : i < (tab S ed).ndof) (a : Fin 3) :
    ∑ k ∈ Finset.range (3 * (tab S ed).ndof), edgeDhg S q ed c (3 * i + a.val) k * x k =
      ∑ gp ∈ Finset.range (rule S ed).length, lin (gHat S q ed c gp) (hat S ed (incr x) gp) a * intLam (tab S ed) gp i := by
  have h : ∀ j (v : Fin 3), j < (tab S ed).ndof → edgeDhg S q ed c (3 * i + a.val) (3 * j + v.val) * incr x v j =
      ((List.range (rule S ed).length).map fun gp => gHat S q ed c gp a v * ((tab S ed).lam j gp * intLam (tab S ed) gp i)).sum * incr x v j := by
    intro j v hj
    have hpos : 0 < (tab S ed).ndof := by omega
    rw [sum_range_list]
    congr 1
    cases ed with
    | int i' =>
      simp only [edgeDhg, block_entry, row_div, integral2]
      refine Finset.sum_congr rfl fun gp _ => ?_
      simp only [intLamLam, flatten]
      rw [Nat.mul_add_div hpos, Nat.div_eq_of_lt hj, Nat.add_zero, Nat.mul_add_mod, Nat.mod_eq_of_lt hj]
      simp only [intLam]
      ring
    | bnd b =>
      simp only [edgeDhg, block_entry, row_div, integral2]
      refine Finset.sum_congr rfl fun gp _ => ?_
      simp only [intLamLam, flatten]
      rw [Nat.mul_add_div hpos, Nat.div_eq_of_lt hi, Nat.add_zero, Nat.mul_add_mod, Nat.mod_eq_of_lt hi]
  rw [row_sum_mul, Finset.sum_congr rfl fun j hj => Finset.sum_congr rfl fun v _ => h j v (Finset.mem_range.1 hj)]
  rw [sum_block (List.range (rule S ed).length) (gHat S q ed c) (fun j gp => (tab S ed).lam j gp) _ (incr x)]
  simp only [lin_hat]
  rw [sum_range_list]

theorem volD_sum (d : EltData ℝ) (u : Fin 3 → ℕ → ℝ) (x : ℕ → ℝ) (i : ℕ) (a : Fin 3) :
    ∑ k ∈ Finset.range (3 * ndof d.elt.p), (volD S d u (3 * i + a.val) k - srcD S d u (3 * i + a.val) k) * x k =
      d.elt.intPhi S.v.N (fun z => comp (qAt S.v.N d.elt (incr x) z) a / S.dt) i -
        (1 - S.theta) * (d.elt.intDPhi S.v.N 0 (fun z => lin (dFxDq S.v.src.g (inner S d u z).1 (inner S d u z).2) (qAt S.v.N d.elt (incr x) z) a) i +
          d.elt.intDPhi S.v.N 1 (fun z => lin (dFyDq S.v.src.g (inner S d u z).1 (inner S d u z).2) (qAt S.v.N d.elt (incr x) z) a) i +
          d.elt.intPhi S.v.N (fun z => lin (dsrcAt S d u z) (qAt S.v.N d.elt (incr x) z) a) i) := by
  have hpp : ∀ M : P2 ℝ → M3 ℝ, ∑ j ∈ Finset.range (ndof d.elt.p), ∑ v : Fin 3, intPhiPhi S.v.N d.elt j i (fun z => M z a v) * incr x v j =
      d.elt.intPhi S.v.N (fun z => lin (M z) (qAt S.v.N d.elt (incr x) z) a) i := by
    intro M
    have := sum_block (d.elt.gps S.v.N) (fun wz => M wz.2) (fun j wz => S.v.N.basis.phi j wz.2) (fun wz => S.v.N.basis.phi i wz.2 * wz.1 * |jdet d.elt.tri|) (incr x)
      (ndof d.elt.p) a
    simp only [lin_qAt] at this
    exact this
  have hpd : ∀ (dir : ℕ) (M : P2 ℝ → M3 ℝ), ∑ j ∈ Finset.range (ndof d.elt.p), ∑ v : Fin 3, intPhiDPhi S.v.N d.elt j dir i (fun z => M z a v) * incr x v j =
      d.elt.intDPhi S.v.N dir (fun z => lin (M z) (qAt S.v.N d.elt (incr x) z) a) i := by
    intro dir M
    have := sum_block (d.elt.gps S.v.N) (fun wz => M wz.2) (fun j wz => S.v.N.basis.phi j wz.2) (fun wz =>
      (0 + S.v.N.basis.dphi1 i wz.2 * wz.1 * Element.entry (jinv d.elt.tri) 0 dir + S.v.N.basis.dphi2 i wz.2 * wz.1 * Element.entry (jinv d.elt.tri) 1 dir) *
        |jdet d.elt.tri|) (incr x) (ndof d.elt.p) a
    simp only [lin_qAt] at this
    exact this
  have hone : d.elt.intPhi S.v.N (fun z => comp (qAt S.v.N d.elt (incr x) z) a / S.dt) i =
      d.elt.intPhi S.v.N (fun z => lin ((1 / S.dt) • (1 : M3 ℝ)) (qAt S.v.N d.elt (incr x) z) a) i := by
    congr 1
    funext z
    simp [lin, Matrix.smul_mulVec, div_eq_inv_mul]
  rw [row_sum_mul, hone, ← hpp (fun _ => (1 / S.dt) • (1 : M3 ℝ)), ← hpd, ← hpd, ← hpp]
  simp only [volD, srcD, block_entry, row_div, ← Finset.sum_add_distrib, Finset.mul_sum, ← Finset.sum_sub_distrib]
  refine Finset.sum_congr rfl fun j _ => Finset.sum_congr rfl fun v _ => ?_
  simp only [incr]
  ring

/-! ### The system -/

/-- The flux of a side after the change, to first order. -/
noncomputable def fhatLin (S : Scheme ℝ) (it : Iter ℝ) (dq dqhat : ℕ → ℕ → ℝ) (ed : Edg ℝ) (k : ℕ) (s : Sd) (gp : ℕ) (a : Fin 3) : ℝ :=
  comp (fhat S it.q ed (it.hat k) s gp) a + lin (dfDq S ed (it.hat k) s gp) (qAt S.v.N (S.dat s.e).elt (incr (dq s.e)) (facePt (rule S ed) s.f gp)) a +
    lin (dfDhat S it.q ed (it.hat k) s gp) (hat S ed (incr (dqhat k)) (opp S ed s gp)) a

/-- The equation of an edge after the change, to first order. -/
noncomputable def gLin (S : Scheme ℝ) (it : Iter ℝ) (dq dqhat : ℕ → ℕ → ℝ) (ed : Edg ℝ) (k gp : ℕ) (a : Fin 3) : ℝ :=
  comp (gRhs S it.q ed (it.hat k) gp) a + (ed.sides.map fun s => lin (gDelta S it.q ed (it.hat k) s (opp S ed s gp))
    (qAt S.v.N (S.dat s.e).elt (incr (dq s.e)) (facePt (rule S ed) s.f (opp S ed s gp))) a).sum + lin (gHat S it.q ed (it.hat k) gp) (hat S ed (incr (dqhat k)) gp) a

/-- The left side of an equation of an element. -/
noncomputable def rowLin (S : Scheme ℝ) (it : Iter ℝ) (dq dqhat : ℕ → ℕ → ℝ) (e i : ℕ) (a : Fin 3) : ℝ :=
  (S.dat e).elt.intPhi S.v.N (fun z => comp (qAt S.v.N (S.dat e).elt (incr (dq e)) z) a / S.dt) i -
    (1 - S.theta) * ((S.dat e).elt.intDPhi S.v.N 0 (fun z => lin (dFxDq S.v.src.g (inner S (S.dat e) (it.q e) z).1 (inner S (S.dat e) (it.q e) z).2)
        (qAt S.v.N (S.dat e).elt (incr (dq e)) z) a) i +
      (S.dat e).elt.intDPhi S.v.N 1 (fun z => lin (dFyDq S.v.src.g (inner S (S.dat e) (it.q e) z).1 (inner S (S.dat e) (it.q e) z).2)
        (qAt S.v.N (S.dat e).elt (incr (dq e)) z) a) i +
      (S.dat e).elt.intPhi S.v.N (fun z => lin (dsrcAt S (S.dat e) (it.q e) z) (qAt S.v.N (S.dat e).elt (incr (dq e)) z) a) i) +
    (sideSum (edgesOf S.m).zipIdx e fun ed k s => (1 - S.theta) * ((List.range (rule S ed).length).map fun gp =>
        lin (dfDq S ed (it.hat k) s gp) (qAt S.v.N (S.dat s.e).elt (incr (dq s.e)) (facePt (rule S ed) s.f gp)) a *
        (S.v.N.basis.phi i (facePt (rule S ed) s.f gp) * (weight (rule S ed) gp * surf S ed))).sum) +
    sideSum (edgesOf S.m).zipIdx e fun ed k s => (1 - S.theta) * ((List.range (rule S ed).length).map fun gp =>
        lin (dfDhat S it.q ed (it.hat k) s gp) (hat S ed (incr (dqhat k)) (opp S ed s gp)) a *
        (S.v.N.basis.phi i (facePt (rule S ed) s.f gp) * (weight (rule S ed) gp * surf S ed))).sum

theorem element_row (q0 : State ℝ) (prev : ℕ → ℕ → ℝ) (it : Iter ℝ) (dq dqhat : ℕ → ℕ → ℝ) (hn : (skel S).edges.flatten.Nodup) (hsym : SymLine S)
    {e : ℕ} (he : e ∈ S.m.elts) (i : ℕ) (a : Fin 3) :
    ∑ j ∈ Finset.range ((skel S).size e), (blocks S q0 prev it).dl e (3 * i + a.val) j * dq e j +
      ((skel S).edges.zipIdx.map fun x => ((x.1.filter fun c => c.e = e).map fun c =>
        ∑ j ∈ Finset.range ((skel S).esize x.2), (blocks S q0 prev it).dh e c.f (3 * i + a.val) j * dqhat x.2 j).sum).sum = rowLin S it dq dqhat e i a := by
  -- own unknowns
  have h1 : ∑ j ∈ Finset.range ((skel S).size e), (blocks S q0 prev it).dl e (3 * i + a.val) j * dq e j =
      ∑ k ∈ Finset.range (3 * ndof (S.dat e).elt.p), (volD S (S.dat e) (it.q e) (3 * i + a.val) k - srcD S (S.dat e) (it.q e) (3 * i + a.val) k) * dq e k +
      sideSum (edgesOf S.m).zipIdx e fun ed k s => (1 - S.theta) * ((List.range (rule S ed).length).map fun gp =>
        lin (dfDq S ed (it.hat k) s gp) (qAt S.v.N (S.dat s.e).elt (incr (dq s.e)) (facePt (rule S ed) s.f gp)) a *
        (S.v.N.basis.phi i (facePt (rule S ed) s.f gp) * (weight (rule S ed) gp * surf S ed))).sum := by
    simp only [blocks, localD_at S _ _ _ he, add_mul, Finset.sum_add_distrib]
    congr 1
    show ∑ j ∈ Finset.range (3 * ndof (S.dat e).elt.p), _ = _
    unfold sideSum
    generalize (edgesOf S.m).zipIdx = l
    induction l with
    | nil => simp
    | cons x l ih =>
      simp only [List.map_cons, List.sum_cons, add_mul, Finset.sum_add_distrib, ih]
      congr 1
      have : ∀ l : List Sd, (∀ s ∈ l, s.e = e) → ∑ j ∈ Finset.range (3 * ndof (S.dat e).elt.p), (l.map fun s => (1 - S.theta) * faceD S x.1 (it.hat x.2) s (3 * i + a.val) j).sum * dq e j =
          (l.map fun s => (1 - S.theta) * ((List.range (rule S x.1).length).map fun gp =>
            lin (dfDq S x.1 (it.hat x.2) s gp) (qAt S.v.N (S.dat s.e).elt (incr (dq s.e)) (facePt (rule S x.1) s.f gp)) a *
            (S.v.N.basis.phi i (facePt (rule S x.1) s.f gp) * (weight (rule S x.1) gp * surf S x.1))).sum).sum := by
        intro l hl
        induction l with
        | nil => simp
        | cons s l ih =>
          simp only [List.map_cons, List.sum_cons, add_mul, Finset.sum_add_distrib, ih fun s hs => hl s (by simp [hs])]
          congr 1
          have hs := hl s (by simp)
          rw [← faceD_sum, hs, Finset.mul_sum]
          exact Finset.sum_congr rfl fun j _ => by ring
      exact this _ fun s hs => by simpa using (List.mem_filter.1 hs).2
  -- traces
  have h2 : ((skel S).edges.zipIdx.map fun x => ((x.1.filter fun c => c.e = e).map fun c =>
      ∑ j ∈ Finset.range ((skel S).esize x.2), (blocks S q0 prev it).dh e c.f (3 * i + a.val) j * dqhat x.2 j).sum).sum =
      sideSum (edgesOf S.m).zipIdx e fun ed k s => (1 - S.theta) * ((List.range (rule S ed).length).map fun gp =>
        lin (dfDhat S it.q ed (it.hat k) s gp) (hat S ed (incr (dqhat k)) (opp S ed s gp)) a *
        (S.v.N.basis.phi i (facePt (rule S ed) s.f gp) * (weight (rule S ed) gp * surf S ed))).sum := by
    rw [skel_edges, List.zipIdx_map, List.map_map]
    unfold sideSum
    refine congrArg _ (List.map_congr_left fun x hx => ?_)
    obtain ⟨ed, k⟩ := x
    have hk : k < (edgesOf S.m).length := by have := List.snd_lt_of_mem_zipIdx hx; simpa using this
    have hed : (edgesOf S.m)[k] = ed := by
      have := List.mem_zipIdx hx
      simp only [Nat.sub_zero] at this
      exact this.2.2.symm
    simp only [Function.comp_apply, Prod.map_apply, id_eq, List.filter_map, List.map_map]
    refine congrArg _ (List.map_congr_left fun s hs => ?_)
    obtain ⟨hs1, hs2⟩ := List.mem_filter.1 hs
    have hs2 : s.e = e := by simpa using hs2
    have hb := byFace_at S (fun ed k s => sideDh S it.q ed (it.hat k) s) (fun _ _ => 0) hn hk (by rw [hed]; exact hs1)
    rw [hs2] at hb
    simp only [Function.comp_apply, blocks, hb, hed, esize_eq hk]
    exact sideDh_sum it.q ed (it.hat k) s (dqhat k) i a (hsym ed (by rw [← hed]; exact List.getElem_mem hk))
  rw [h1, h2, volD_sum]
  rfl

theorem element_linear {q0 : State ℝ} {prev : ℕ → ℕ → ℝ} {it : Iter ℝ} {dq dqhat : ℕ → ℕ → ℝ} (hn : (skel S).edges.flatten.Nodup) (hsym : SymLine S)
    (h : ElementEq (skel S) (blocks S q0 prev it) dq dqhat) {e : ℕ} (he : e ∈ S.m.elts) {i : ℕ} (hi : i < ndof (S.dat e).elt.p) (a : Fin 3) :
    (S.dat e).elt.intPhi S.v.N (fun z => (comp (qAt S.v.N (S.dat e).elt (it.q e) z) a + comp (qAt S.v.N (S.dat e).elt (incr (dq e)) z) a -
        comp (qAt S.v.N (S.dat e).elt (q0 e) z) a) / S.dt) i =
      (1 - S.theta) * ((S.dat e).elt.intDPhi S.v.N 0 (fun z => comp (fluxX S.v.src.g (inner S (S.dat e) (it.q e) z).1 (inner S (S.dat e) (it.q e) z).2) a +
          lin (dFxDq S.v.src.g (inner S (S.dat e) (it.q e) z).1 (inner S (S.dat e) (it.q e) z).2) (qAt S.v.N (S.dat e).elt (incr (dq e)) z) a) i +
        (S.dat e).elt.intDPhi S.v.N 1 (fun z => comp (fluxY S.v.src.g (inner S (S.dat e) (it.q e) z).1 (inner S (S.dat e) (it.q e) z).2) a +
          lin (dFyDq S.v.src.g (inner S (S.dat e) (it.q e) z).1 (inner S (S.dat e) (it.q e) z).2) (qAt S.v.N (S.dat e).elt (incr (dq e)) z) a) i +
        (S.dat e).elt.intPhi S.v.N (fun z => comp (srcAt S (S.dat e) S.tn (it.q e) z) a + lin (dsrcAt S (S.dat e) (it.q e) z) (qAt S.v.N (S.dat e).elt (incr (dq e)) z) a) i -
        sideSum (edgesOf S.m).zipIdx e fun ed k s => ((List.range (rule S ed).length).map fun gp => fhatLin S it dq dqhat ed k s gp a *
          (S.v.N.basis.phi i (facePt (rule S ed) s.f gp) * (weight (rule S ed) gp * surf S ed))).sum) + S.theta * prev e (3 * i + a.val) := by
  have hE := h e he (3 * i + a.val) (by simp only [skel]; omega)
  rw [element_row q0 prev it dq dqhat hn hsym he] at hE
  simp only [rowLin] at hE
  simp only [blocks, localR_at S _ _ _ he, volR, fluxR, srcR, row_div, row_mod, varOf_val, comp_sub, Pi.sub_apply] at hE
  -- collect
  have h3 : (sideSum (edgesOf S.m).zipIdx e fun ed k s => ((List.range (rule S ed).length).map fun gp => fhatLin S it dq dqhat ed k s gp a *
          (S.v.N.basis.phi i (facePt (rule S ed) s.f gp) * (weight (rule S ed) gp * surf S ed))).sum) * (1 - S.theta) =
      (sideSum (edgesOf S.m).zipIdx e fun ed k s => (1 - S.theta) * ((List.range (rule S ed).length).map fun gp =>
        lin (dfDq S ed (it.hat k) s gp) (qAt S.v.N (S.dat s.e).elt (incr (dq s.e)) (facePt (rule S ed) s.f gp)) a *
        (S.v.N.basis.phi i (facePt (rule S ed) s.f gp) * (weight (rule S ed) gp * surf S ed))).sum) +
      (sideSum (edgesOf S.m).zipIdx e fun ed k s => (1 - S.theta) * ((List.range (rule S ed).length).map fun gp =>
        lin (dfDhat S it.q ed (it.hat k) s gp) (hat S ed (incr (dqhat k)) (opp S ed s gp)) a *
        (S.v.N.basis.phi i (facePt (rule S ed) s.f gp) * (weight (rule S ed) gp * surf S ed))).sum) -
      sideSum (edgesOf S.m).zipIdx e fun ed k s => -(1 - S.theta) * faceR S it.q ed (it.hat k) s (3 * i + a.val) := by
    unfold sideSum
    generalize (edgesOf S.m).zipIdx = l
    induction l with
    | nil => simp
    | cons x l ih =>
      simp only [List.map_cons, List.sum_cons, add_mul, ih]
      generalize (x.1.sides.filter fun s => s.e = e) = l'
      have : (l'.map fun s => ((List.range (rule S x.1).length).map fun gp => fhatLin S it dq dqhat x.1 x.2 s gp a *
          (S.v.N.basis.phi i (facePt (rule S x.1) s.f gp) * (weight (rule S x.1) gp * surf S x.1))).sum).sum * (1 - S.theta) =
          (l'.map fun s => (1 - S.theta) * ((List.range (rule S x.1).length).map fun gp =>
            lin (dfDq S x.1 (it.hat x.2) s gp) (qAt S.v.N (S.dat s.e).elt (incr (dq s.e)) (facePt (rule S x.1) s.f gp)) a *
            (S.v.N.basis.phi i (facePt (rule S x.1) s.f gp) * (weight (rule S x.1) gp * surf S x.1))).sum).sum +
          (l'.map fun s => (1 - S.theta) * ((List.range (rule S x.1).length).map fun gp =>
            lin (dfDhat S it.q x.1 (it.hat x.2) s gp) (hat S x.1 (incr (dqhat x.2)) (opp S x.1 s gp)) a *
            (S.v.N.basis.phi i (facePt (rule S x.1) s.f gp) * (weight (rule S x.1) gp * surf S x.1))).sum).sum -
          (l'.map fun s => -(1 - S.theta) * faceR S it.q x.1 (it.hat x.2) s (3 * i + a.val)).sum := by
        induction l' with
        | nil => simp
        | cons s l' ih =>
          simp only [List.map_cons, List.sum_cons, add_mul, ih]
          have hs : ((List.range (rule S x.1).length).map fun gp => fhatLin S it dq dqhat x.1 x.2 s gp a *
              (S.v.N.basis.phi i (facePt (rule S x.1) s.f gp) * (weight (rule S x.1) gp * surf S x.1))).sum = faceR S it.q x.1 (it.hat x.2) s (3 * i + a.val) +
              ((List.range (rule S x.1).length).map fun gp =>
                lin (dfDq S x.1 (it.hat x.2) s gp) (qAt S.v.N (S.dat s.e).elt (incr (dq s.e)) (facePt (rule S x.1) s.f gp)) a *
                (S.v.N.basis.phi i (facePt (rule S x.1) s.f gp) * (weight (rule S x.1) gp * surf S x.1))).sum +
              ((List.range (rule S x.1).length).map fun gp =>
                lin (dfDhat S it.q x.1 (it.hat x.2) s gp) (hat S x.1 (incr (dqhat x.2)) (opp S x.1 s gp)) a *
                (S.v.N.basis.phi i (facePt (rule S x.1) s.f gp) * (weight (rule S x.1) gp * surf S x.1))).sum := by
            rw [faceR_entry, map_add', map_add']
            exact congrArg _ (List.map_congr_left fun gp _ => by simp only [fhatLin]; ring)
          rw [hs]
          ring
      linear_combination this
  have h4 : ∀ (f g : P2 ℝ → ℝ), (S.dat e).elt.intPhi S.v.N (fun z => f z + g z) i = (S.dat e).elt.intPhi S.v.N f i + (S.dat e).elt.intPhi S.v.N g i := by
    intro f g
    simp only [Elt.intPhi, map_add', add_mul]
  have h5 : ∀ (dir : ℕ) (f g : P2 ℝ → ℝ), (S.dat e).elt.intDPhi S.v.N dir (fun z => f z + g z) i = (S.dat e).elt.intDPhi S.v.N dir f i + (S.dat e).elt.intDPhi S.v.N dir g i := by
    intro dir f g
    simp only [Elt.intDPhi, map_add', add_mul]
  have h6 : (S.dat e).elt.intPhi S.v.N (fun z => (comp (qAt S.v.N (S.dat e).elt (it.q e) z) a + comp (qAt S.v.N (S.dat e).elt (incr (dq e)) z) a -
        comp (qAt S.v.N (S.dat e).elt (q0 e) z) a) / S.dt) i =
      (S.dat e).elt.intPhi S.v.N (fun z => comp (qAt S.v.N (S.dat e).elt (incr (dq e)) z) a / S.dt) i +
      (S.dat e).elt.intPhi S.v.N (fun z => (comp (qAt S.v.N (S.dat e).elt (it.q e) z) a - comp (qAt S.v.N (S.dat e).elt (q0 e) z) a) / S.dt) i := by
    rw [← h4]
    congr 1
    funext z
    ring
  rw [h6, h5, h5, h4]
  linear_combination hE + h3

theorem edge_row (q0 : State ℝ) (prev : ℕ → ℕ → ℝ) (it : Iter ℝ) (dq dqhat : ℕ → ℕ → ℝ) (hn : (skel S).edges.flatten.Nodup) {k : ℕ} (hk : k < (edgesOf S.m).length)
    (hk' : k < (skel S).edges.length) {i : ℕ} (hi : i < (tab S (edgesOf S.m)[k]).ndof) (a : Fin 3) :
    ((skel S).edges[k].map fun c => ∑ j ∈ Finset.range ((skel S).size c.e), (blocks S q0 prev it).dg c.e c.f (3 * i + a.val) j * dq c.e j).sum +
      ∑ j ∈ Finset.range (3 * (tab S (edgesOf S.m)[k]).ndof), (blocks S q0 prev it).dhg k (3 * i + a.val) j * dqhat k j =
    ∑ gp ∈ Finset.range (rule S (edgesOf S.m)[k]).length, ((((edgesOf S.m)[k].sides.map fun s => lin (gDelta S it.q (edgesOf S.m)[k] (it.hat k) s (opp S (edgesOf S.m)[k] s gp))
        (qAt S.v.N (S.dat s.e).elt (incr (dq s.e)) (facePt (rule S (edgesOf S.m)[k]) s.f (opp S (edgesOf S.m)[k] s gp))) a).sum) * intLam (tab S (edgesOf S.m)[k]) gp i +
      lin (gHat S it.q (edgesOf S.m)[k] (it.hat k) gp) (hat S (edgesOf S.m)[k] (incr (dqhat k)) gp) a * intLam (tab S (edgesOf S.m)[k]) gp i) := by
  have h1 : ((skel S).edges[k].map fun c => ∑ j ∈ Finset.range ((skel S).size c.e), (blocks S q0 prev it).dg c.e c.f (3 * i + a.val) j * dq c.e j).sum =
      ((edgesOf S.m)[k].sides.map fun s => ∑ gp ∈ Finset.range (rule S (edgesOf S.m)[k]).length, lin (gDelta S it.q (edgesOf S.m)[k] (it.hat k) s (opp S (edgesOf S.m)[k] s gp))
        (qAt S.v.N (S.dat s.e).elt (incr (dq s.e)) (facePt (rule S (edgesOf S.m)[k]) s.f (opp S (edgesOf S.m)[k] s gp))) a * intLam (tab S (edgesOf S.m)[k]) gp i).sum := by
    simp only [skel_edges, List.getElem_map, List.map_map]
    refine congrArg _ (List.map_congr_left fun s hs => ?_)
    have hb := byFace_at S (fun ed k s => sideDg S it.q ed (it.hat k) s) (fun _ _ => 0) hn hk hs
    simp only [Function.comp_apply, blocks, hb]
    exact sideDg_sum it.q _ (it.hat k) s (dq s.e) hi a
  have h2 : ∑ j ∈ Finset.range (3 * (tab S (edgesOf S.m)[k]).ndof), (blocks S q0 prev it).dhg k (3 * i + a.val) j * dqhat k j =
      ∑ gp ∈ Finset.range (rule S (edgesOf S.m)[k]).length, lin (gHat S it.q (edgesOf S.m)[k] (it.hat k) gp) (hat S (edgesOf S.m)[k] (incr (dqhat k)) gp) a *
        intLam (tab S (edgesOf S.m)[k]) gp i := by
    simp only [blocks, List.getElem?_eq_getElem hk]
    exact edgeDhg_sum it.q _ (it.hat k) (dqhat k) hi a
  have hlist : ∀ (l : List Sd) (f : ℕ → Sd → ℝ) (g : ℕ → ℝ) (n : ℕ), ∑ gp ∈ Finset.range n, (l.map (f gp)).sum * g gp =
      (l.map fun s => ∑ gp ∈ Finset.range n, f gp s * g gp).sum := by
    intro l f g n
    induction l with
    | nil => simp
    | cons b l ih => simp only [List.map_cons, List.sum_cons, add_mul, Finset.sum_add_distrib, ih]
  rw [h1, h2, ← hlist, ← Finset.sum_add_distrib]

theorem edge_linear {q0 : State ℝ} {prev : ℕ → ℕ → ℝ} {it : Iter ℝ} {dq dqhat : ℕ → ℕ → ℝ} (hn : (skel S).edges.flatten.Nodup)
    (h : EdgeEq (skel S) (blocks S q0 prev it) dq dqhat) {k : ℕ} (hk : k < (edgesOf S.m).length) (hE : Fits (tab S (edgesOf S.m)[k])) {gp : ℕ}
    (hgp : gp < (rule S (edgesOf S.m)[k]).length) (a : Fin 3) : gLin S it dq dqhat (edgesOf S.m)[k] k gp a = 0 := by
  have hk' : k < (skel S).edges.length := by simpa [skel] using hk
  have hp := hE.points (fun gp => gLin S it dq dqhat (edgesOf S.m)[k] k gp a * ((tab S (edgesOf S.m)[k]).w gp * (tab S (edgesOf S.m)[k]).J)) ?_ gp hgp
  · exact (mul_eq_zero.1 hp).resolve_right (hE.pos gp hgp).ne'
  intro i hi
  have hG := h k hk' (3 * i + a.val) (by rw [esize_eq hk]; omega)
  rw [rg_eq _ _ _ hk, esize_eq hk] at hG
  rw [edge_row q0 prev it dq dqhat hn hk hk' hi, Finset.sum_add_distrib] at hG
  rw [show (tab S (edgesOf S.m)[k]).ngp = (rule S (edgesOf S.m)[k]).length from rfl]
  have h3 : ∀ gp, gLin S it dq dqhat (edgesOf S.m)[k] k gp a * ((tab S (edgesOf S.m)[k]).w gp * (tab S (edgesOf S.m)[k]).J) * (tab S (edgesOf S.m)[k]).lam i gp =
      gLin S it dq dqhat (edgesOf S.m)[k] k gp a * intLam (tab S (edgesOf S.m)[k]) gp i := by
    intro gp; simp only [intLam]; ring
  rw [Finset.sum_congr rfl fun gp _ => h3 gp]
  simp only [gLin, add_mul, Finset.sum_add_distrib]
  linarith

end Verif.Ihdg.Props
