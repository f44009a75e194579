import Verif.Props.GnStep
import Verif.Props.GnEnergy
import Verif.Props.IhdgExists

/-!
# C93, C94: runs over a flat bed, and levees

In a uniform stream over a flat bed the correction of the program runs to its end and changes nothing, whatever the stage (`stream_runs`, `strang_runs`). At a
levee, whose kernels are empty functions, the rows of the global matrix are zero and a solver which handles regular matrices only fails (`levee_singular`,
`levee_fails`).
-/

namespace Verif.Gn.Props
open Verif.Swe Verif.Swe.Props Verif.Geometry Verif.Geometry.Props Verif.Element Verif.Edge Verif.Edge.Props Verif.Ehdg Verif.Ihdg Verif.Ihdg.Props Verif.Stepper MvPolynomial

section
variable {D : Dc ℝ} {F : ℕ → MvPolynomial (Fin 2) ℝ} {P : ℕ} {q : State ℝ} {corr troubled : ℕ → Bool}

/-- Constant depth over a constant bathymetry is what `Flat` asks for. -/
theorem uniform_flat (hR : Rules D.v.N F P 0) (hO : Orthogonal D.v.N F P) (hs : IsSqrt D.v.sq) (hm : GradMesh D.dat D.m P) {b L : ℝ}
    (hbed : ∀ e ∈ D.m.elts, ∀ d < ndof (D.dat e).elt.p, (D.dat e).bath d = if d = 0 then b else 0)
    (hq : ∀ e ∈ D.m.elts, ∀ d < ndof (D.dat e).elt.p, q e 0 d = if d = 0 then L else 0) (h : 0 < L + b) (wet : ℕ → Bool) : Flat D wet q (L + b) := by
  have hb : ∀ e ∈ D.m.elts, ∀ z, Reg z → bathRow D.v D.dat e z = b := fun e he z _ => const_value hR (hbed e he) z
  have hd : ∀ e ∈ D.m.elts, ∀ z, depth D.v D.dat q e z = L + b := fun e he z => by
    unfold depth bathRow rowOf
    rw [const_value hR (hq e he) z, const_value hR (hbed e he) z]
  have hg : ∀ c < 2, ∀ e ∈ D.m.elts, ∀ z, Reg z → rowOf D.v D.dat (dbath D.v D.dat D.m c) e z = 0 := fun c hc e he z hz => grad_const hR hO hs hm hb hc he hz
  refine ⟨h, fun e he _ wz _ => hd e he _, fun e he _ wz hwz c hc => ?_, fun ed hed _ gp _ => ?_, fun ed hed s hsd _ gp _ c hc => ?_⟩
  · unfold bed
    rw [hg c hc e he _ (gps_reg hR hm he hwz), neg_zero]
  · rcases List.mem_append.1 hed with h | h
    · obtain ⟨i, hi, rfl⟩ := List.mem_map.1 h
      simp only [hHat, hatIn, hd _ (hm.ends i hi).1, hd _ (hm.ends i hi).2]
      ring
    · obtain ⟨i, hi, rfl⟩ := List.mem_map.1 h
      simp only [hHat, hd _ (hm.owner i hi)]
  · rcases List.mem_append.1 hed with h | h
    · obtain ⟨i, hi, rfl⟩ := List.mem_map.1 h
      simp only [bedHat, hatIn, hatEx, hg c hc _ (hm.ends i hi).1 (facePt _ _ _) (face_regular _ _), hg c hc _ (hm.ends i hi).2 (facePt _ _ _) (face_regular _ _)]
      simp
    · obtain ⟨i, hi, rfl⟩ := List.mem_map.1 h
      simp only [bedHat, hg c hc _ (hm.owner i hi) (facePt _ _ _) (face_regular _ _), neg_zero]

end

/-! ### Success -/

section
variable {K : Type} [Field K] [LinearOrder K] [IsStrictOrderedRing K] {D : Dc K} {corr troubled : ℕ → Bool} {A S T : State K → Prop} {G : (ℕ → Bool) → Prop}

/-- The numbering a call may start from. -/
def Fresh (D : Dc K) (t : Index) : Prop := D.wd = false → t = initial (dcSkel D)

omit [IsStrictOrderedRing K] in
theorem fresh_kept {wet : ℕ → Bool} {b : DcBlocks K} {t0 t : Index} {x : ℕ → K} {w : ℕ → ℕ → K} (h0 : Fresh D t0)
    (h : solveDc D.I D.slv (dcSkel D) D.wd wet t0 b = some (t, x, w)) : Fresh D t := by
  intro hwd
  unfold solveDc at h
  simp only [Option.bind_eq_bind, Option.bind_eq_some_iff] at h
  obtain ⟨l, h1, x', h2, w', h3, h⟩ := h
  cases h
  rw [hwd]
  exact h0 hwd

/-- The global problem of a state of kind `A` has a solution. -/
def Succeeds (D : Dc K) (A : State K → Prop) (G : (ℕ → Bool) → Prop) : Prop :=
  ∀ q wet t0, A q → G wet → Fresh D t0 → (solveDc D.I D.slv (dcSkel D) D.wd wet t0 (dcBlocks D wet q)).isSome

theorem dcStage_ok {M : Method K} {o : ℕ} (htab : tableau M.ns o = some M.tab) (hsol : Succeeds D A G) {s : GnRun K} (hs : RunInv A S G M.ns s.run)
    (hf : Fresh D s.idx) : ∃ s', dcStage D M.tab M.ns M.dt corr troubled s = .ok s' ∧ Fresh D s'.idx := by
  obtain ⟨ha, hb⟩ := Stepper.Props.entries_ok htab
  obtain ⟨cur, hcur, hA⟩ := hs.good s.run.stage le_rfl
  obtain ⟨⟨t, x, w1⟩, hsv⟩ := Option.isSome_iff_exists.1 (hsol cur.q s.run.wet s.idx hA hs.wet hf)
  set X := solve D.v D.dat (dcRhs D corr troubled s.run.wet cur.q w1) with hX
  set slots1 := s.run.slots.set s.run.stage ⟨cur.q, X⟩ with hs1
  have hset : setSolution s.run.slots s.run.stage X = some slots1 := by simp [setSolution, hcur, hs1]
  have hl1 : slots1.length = s.run.slots.length := by simp [hs1]
  have hget : ∀ i, i ≤ s.run.stage → slots1[i]? = some ⟨(slots1.getD i ⟨0, 0⟩).q, (slots1.getD i ⟨0, 0⟩).solution⟩ := by
    intro i hi
    have hlen := hs.len
    have hst := hs.stage
    have : i < slots1.length := by rw [hl1]; omega
    rw [List.getD_eq_getElem?_getD, List.getElem?_eq_getElem this]
    rfl
  obtain ⟨slots', hup, -⟩ := updateState_forward (dt := M.dt) ha hb (by rw [hl1]; exact hs.len) hs.stage hget
  refine ⟨⟨{ s.run with slots := slots', stage := (s.run.stage + 1) % M.ns }, t⟩, ?_, fresh_kept hf hsv⟩
  unfold dcStage
  simp only [hcur, slotOr, okBind, hsv, slotFail, ← hX, hset, hup]
  rfl

theorem dcStages_ok {M : Method K} {o : ℕ} (htab : tableau M.ns o = some M.tab) (hcomb : Combines M A S) (hrhs : Corrects D corr troubled A S G)
    (hsol : Succeeds D A G) {s : GnRun K} (hs : RunInv A S G M.ns s.run) (hf : Fresh D s.idx) (n : ℕ) :
    ∃ s', dcStages D M.tab M.ns M.dt corr troubled n s = .ok s' ∧ Fresh D s'.idx := by
  induction n with
  | zero => exact ⟨s, rfl, hf⟩
  | succ n ih =>
    obtain ⟨s1, h1, f1⟩ := ih
    obtain ⟨i1, -⟩ := dcStages_invariant htab hcomb hrhs hs n h1
    obtain ⟨s2, h2, f2⟩ := dcStage_ok (corr := corr) (troubled := troubled) htab hsol i1 f1
    refine ⟨s2, ?_, f2⟩
    rw [dcStages, h1, okBind, h2]

/-- A step of the program succeeds if its three parts do. -/
theorem strang_ok {M N : Method K} {o o' : ℕ} (hM : tableau M.ns o = some M.tab) (hN : tableau N.ns o' = some N.tab)
    (cM : Combines M A S) (cN : Combines N A T) {pp : PostParams K} {R1 R2 : ℕ → (ℕ → Bool) → State K → State K}
    (h1 : ∀ k q wet, A q → G wet → S (solve D.v D.dat (R1 k wet q))) (h2 : ∀ k q wet, A q → G wet → S (solve D.v D.dat (R2 k wet q)))
    (hpost : ∀ q wet em, A q → G wet → ∃ f, wdAll D.dat D.m pp.wd ⟨q, wet, em⟩ = .ok f ∧ f.emptied = em ∧ A (slAll D.v D.dat D.m pp.sl f).q ∧
      G (slAll D.v D.dat D.m pp.sl f).wet)
    (hrhs : Corrects D corr troubled A T G) (hsol : Succeeds D A G) {n : ℕ} (hn : M.ns ≤ n) (hn' : N.ns ≤ n) {s : GnRun K} (hs : Ready A G n s.run)
    (hf : Fresh D s.idx) : ∃ s', strangStep D M N pp R1 R2 corr troubled s = .ok s' ∧ Fresh D s'.idx := by
  have p1 := (Stepper.shapeOK_of_tableau hM).2.1
  have p2 := (Stepper.shapeOK_of_tableau hN).2.1
  obtain ⟨r1, a1, i1, e1⟩ := withRun_keeps (m := D.m) hM cM h1 hpost (ready_inv hs p1 hn) M.ns
  have st1 := runWith_shape (by rw [hs.stage]; exact p1) _ a1
  have k1 : r1.stage = 0 := by rw [st1.2, hs.stage, zero_add, Nat.mod_self]
  have l1 : n + 1 ≤ r1.slots.length := by rw [st1.1]; exact hs.len
  have q1 := ready_inv (S := T) (inv_ready i1 k1 l1) p2 hn'
  obtain ⟨s2, a2, f2⟩ := dcStages_ok (s := { s with run := r1 }) hN cN hrhs hsol q1 hf N.ns
  obtain ⟨i2, _, e2, k2, l2⟩ := dcStages_invariant hN cN hrhs (s := { s with run := r1 }) q1 _ a2
  have k2' : s2.run.stage = 0 := by rw [k2, k1, zero_add, Nat.mod_self]
  have r2 := inv_ready (n := n) i2 k2' (by rw [l2]; exact l1)
  obtain ⟨r3, a3, -, -⟩ := withRun_keeps (m := D.m) hM cM h2 hpost (ready_inv r2 p1 hn) M.ns
  refine ⟨{ s2 with run := r3 }, ?_, f2⟩
  unfold strangStep
  rw [a1, okBind, a2, okBind, a3]
  rfl

end

section
variable {D : Dc ℝ} {F : ℕ → MvPolynomial (Fin 2) ℝ} {P : ℕ} {q : State ℝ} {corr troubled : ℕ → Bool}

theorem uniform_succeeds (hR : Rules D.v.N F P 0) (hO : Orthogonal D.v.N F P) (hs : IsSqrt D.v.sq) (hm : GradMesh D.dat D.m P) (hp : ∀ d < ndof P, 0 < D.v.N.basis.minv d)
    (hB : Basin D) (ha : 0 < D.al) (ht : D.tau < 0) (hw : Whole (dcSkel D)) (hn : 0 < D.nlam) (hc : Complete D.I D.slv) {U : Q ℝ} {b : ℝ}
    (hbed : ∀ e ∈ D.m.elts, ∀ d < ndof (D.dat e).elt.p, (D.dat e).bath d = if d = 0 then b else 0) (h : 0 < U.ze + b) :
    Succeeds D (Uniform D.dat D.m.elts U) fun w => ∀ e ∈ D.m.elts, w e = true := by
  intro q wet t0 hq hwet h0
  refine solvable_partial hB (uniform_flat hR hO hs hm hbed (fun e he d hd => hq e he d hd 0) h wet) (definite_exact hR hO hp hm) ha ht hw hn hc (fun ed hed => ?_) h0
  obtain ⟨s, hsd⟩ : ∃ s, s ∈ ed.sides := by
    cases ed with
    | int i => exact ⟨_, List.mem_cons_self⟩
    | bnd b => exact ⟨_, List.mem_cons_self⟩
  exact ⟨s, hsd, hwet _ (hB.mem ed hed s hsd)⟩

/-- **C93** In a uniform stream over a flat bed (or a lake over it) the correction runs, and the stream remains. -/
theorem stream_runs (hz : ZeroOnZero D.slv) (hR : Rules D.v.N F P 0) (hO : Orthogonal D.v.N F P) (hs : IsSqrt D.v.sq) (hm : GradMesh D.dat D.m P)
    (hp : ∀ d < ndof P, 0 < D.v.N.basis.minv d) (hB : Basin D) (ha : 0 < D.al) (ht : D.tau < 0) (hw : Whole (dcSkel D)) (hn : 0 < D.nlam) (hc : Complete D.I D.slv)
    {U : Q ℝ} {b : ℝ} (hbed : ∀ e ∈ D.m.elts, ∀ d < ndof (D.dat e).elt.p, (D.dat e).bath d = if d = 0 then b else 0) (h : 0 < U.ze + b)
    {M : Method ℝ} {o : ℕ} (hM : tableau M.ns o = some M.tab) (hrow : (M.ns, o) ∈ exactRows) {s : GnRun ℝ} (h0 : s.run.stage = 0)
    (hl : M.ns + 1 ≤ s.run.slots.length) {sl : Slot (State ℝ)} (hsl : s.run.slots[0]? = some sl) (hq : Uniform D.dat D.m.elts U sl.q)
    (hwet : ∀ e ∈ D.m.elts, s.run.wet e = true) (hf : Fresh D s.idx) (n : ℕ) :
    ∃ s' sl', dcStages D M.tab M.ns M.dt corr troubled n s = .ok s' ∧ s'.run.slots[s'.run.stage]? = some sl' ∧ Uniform D.dat D.m.elts U sl'.q := by
  have p1 := (Stepper.shapeOK_of_tableau hM).2.1
  obtain ⟨s', h1, -⟩ := dcStages_ok (A := Uniform D.dat D.m.elts U) (G := fun w => ∀ e ∈ D.m.elts, w e = true) hM
    (fun k hk u x hux => uniform_comb hM hrow M.dt hk u x hux) (corrects_zero (corr := corr) (troubled := troubled) hz hR hO hs hm fun q hq => uniform_still hR hbed hq)
    (uniform_succeeds hR hO hs hm hp hB ha ht hw hn hc hbed h) (ready_inv (n := M.ns) ⟨h0, hl, ⟨sl, hsl, hq⟩, hwet⟩ p1 le_rfl) hf n
  obtain ⟨sl', h2, h3⟩ := correction_stream hz hR hO hs hm hbed hM hrow h0 hl hsl hq n h1
  exact ⟨s', sl', h1, h2, h3⟩

/-- **C93** A step of the program in a uniform stream over a flat bed succeeds and leaves the stream. -/
theorem strang_runs (hz : ZeroOnZero D.slv) (hR : Rules D.v.N F P 0) (hO : Orthogonal D.v.N F P) (hm : GradMesh D.dat D.m P)
    (hpm : ∀ d < ndof P, 0 < D.v.N.basis.minv d) (hB : Basin D) (ha : 0 < D.al) (ht : D.tau < 0) (hwh : Whole (dcSkel D)) (hnl : 0 < D.nlam) (hc : Complete D.I D.slv)
    {M N : Method ℝ} {o o' : ℕ} (hM : tableau M.ns o = some M.tab) (hMrow : (M.ns, o) ∈ exactRows) (hN : tableau N.ns o' = some N.tab)
    (hNrow : (N.ns, o') ∈ exactRows) {U : Q ℝ} {b : ℝ} (h : 0 < U.ze + b) (pp : PostParams ℝ)
    (hp : ∀ w, pp.wd = some w → 0 < w.thr ∧ w.thr ≤ w.ho ∧ ∀ e ∈ D.m.elts, ∀ x < 3, w.ho + w.thr < U.ze + w.bath e x)
    (hdeg : ∀ e ∈ D.m.elts, 1 ≤ (D.dat e).elt.p) (junk1 junk2 : State ℝ) (time1 time2 ramp1 ramp2 : ℕ → ℝ)
    (hm1 : ∀ n, StreamMesh D.v D.dat D.m P U b (time1 n) (ramp1 n)) (hm2 : ∀ n, StreamMesh D.v D.dat D.m P U b (time2 n) (ramp2 n))
    (x1 x2 : ℕ → Faces ℝ) (hx1 : ∀ n, Ehdg.Props.Passes D.v D.dat D.m (x1 n) U)
    (hx2 : ∀ n, Ehdg.Props.Passes D.v D.dat D.m (x2 n) U) {s : GnRun ℝ} (h0 : s.run.stage = 0) (hl : max M.ns N.ns + 1 ≤ s.run.slots.length)
    {sl : Slot (State ℝ)} (hsl : s.run.slots[0]? = some sl) (hq : Uniform D.dat D.m.elts U sl.q) (hw : ∀ e ∈ D.m.elts, s.run.wet e = true) (hf : Fresh D s.idx) :
    ∃ s' sl', strangStep D M N pp (sweRhs D junk1 time1 x1) (sweRhs D junk2 time2 x2) corr troubled s = .ok s' ∧ Fresh D s'.idx ∧ s'.run.stage = 0 ∧
      s'.run.slots.length = s.run.slots.length ∧ (∀ e ∈ D.m.elts, s'.run.wet e = true) ∧ s'.run.slots[0]? = some sl' ∧ Uniform D.dat D.m.elts U sl'.q := by
  have hrhs : ∀ (junk : State ℝ) (time ramp : ℕ → ℝ) (x : ℕ → Faces ℝ), (∀ n, StreamMesh D.v D.dat D.m P U b (time n) (ramp n)) →
      (∀ n, Ehdg.Props.Passes D.v D.dat D.m (x n) U) → ∀ k q wet, Uniform D.dat D.m.elts U q → (∀ e ∈ D.m.elts, wet e = true) →
      ∀ e ∈ D.m.elts, ∀ d < ndof (D.dat e).elt.p, ∀ var, solve D.v D.dat (sweRhs D junk time x k wet q) e var d = 0 := by
    intro junk time ramp x hm hx k q wet hq hw e he d hd var
    simp only [solve, Elt.applyMinv, sweRhs]
    rw [Ehdg.Props.stream_same hR (hm k) hq (hx k) hw, Swe.Props.stream_rhs hR (hm k) hq hw junk he hd var, zero_mul]
  obtain ⟨s', h1, f1⟩ := strang_ok (A := Uniform D.dat D.m.elts U) (S := fun x => ∀ e ∈ D.m.elts, ∀ d < ndof (D.dat e).elt.p, ∀ var, x e var d = 0)
    (G := fun w => ∀ e ∈ D.m.elts, w e = true) (n := s.run.slots.length - 1) hM hN (fun k hk u x hux => uniform_comb hM hMrow M.dt hk u x hux)
    (fun k hk u x hux => uniform_comb hN hNrow N.dt hk u x hux) (hrhs junk1 time1 ramp1 x1 hm1 hx1) (hrhs junk2 time2 ramp2 x2 hm2 hx2) (pp := pp)
    (fun q wet em hq hw => by
      obtain ⟨w', hf, hw'⟩ := uniform_wd hp hdeg hq hw em
      exact ⟨_, hf, rfl, by rw [uniform_sl (hm1 0).sqrt hdeg hq]; exact ⟨hq, hw'⟩⟩)
    (corrects_zero (corr := corr) (troubled := troubled) hz hR hO (hm1 0).sqrt hm fun q hq => uniform_still hR (hm1 0).bed hq)
    (uniform_succeeds hR hO (hm1 0).sqrt hm hpm hB ha ht hwh hnl hc (hm1 0).bed h) (by omega) (by omega) ⟨h0, by omega, ⟨sl, hsl, hq⟩, hw⟩ hf
  obtain ⟨a1, a2, -, a4, sl', a5, a6⟩ := strang_stream hz hR hO hm hM hMrow hN hNrow pp hp hdeg junk1 junk2 time1 time2 ramp1 ramp2 hm1 hm2 x1 x2 hx1 hx2 h0 hl hsl hq hw h1
  exact ⟨s', sl', h1, f1, a1, a2, a4, a5, a6⟩

end

/-! ### Levees -/

section
variable {K : Type} [Field K] [LinearOrder K] [IsStrictOrderedRing K] {D : Dc K}

/-- The arrays of a levee hold zeros, as nothing writes to them. -/
structure ZeroArrays (D : Dc K) (i : Iface K) : Prop where
  hat : ∀ gp r c, D.junkHat i gp r c = 0
  side1 : ∀ x gp r c, D.junk1 i x gp r c = 0
  side2 : ∀ x gp r, D.junk2 i x gp r = 0

theorem block2_zero {α : Type} (I : (α → K) → K) (hI : I (fun _ => 0) = 0) {M : α → ℕ → ℕ → K} (hM : ∀ x r c, M x r c = 0) (r s : ℕ) : block2 I M r s = 0 := by
  unfold block2 reshape flatten
  simp only [hM]
  exact hI

/-- The rows of a levee in the global matrix are zero. -/
theorem levee_row (hs : Whole (dcSkel D)) {wet : ℕ → Bool} {t : Index} (ht : Numbered (dcSkel D) wet t) (q : State K) (l : Gn.Local K) (x : ℕ → K) {k : ℕ}
    (hk : k < (edgesOf D.m).length) {i : Iface K} (hed : (edgesOf D.m)[k] = .int i) {data : ℕ → LeveeGp K} (hkind : i.kind = .levee data) (hj : ZeroArrays D i)
    (hw : wet i.ein = true ∨ wet i.eex = true) {r : ℕ} (hr : r < 2 * D.nlam) :
    ∑ c ∈ Finset.range (t.off * (2 * D.nlam)), (assembleDc (dcSkel D) t wet (dcBlocks D wet q) l).1 (t.edge k * (2 * D.nlam) + r) c * x c = 0 := by
  have hk' : k < (dcSkel D).edges.length := by simpa [dcSkel] using hk
  have hedge : (dcSkel D).edges[k] = (edgesOf D.m)[k].sides.map fun s => ⟨s.e, s.f⟩ := by simp [dcSkel]
  have hwe : wetEdge wet (dcSkel D).edges[k] := by
    rw [hedge, hed]
    simp only [wetEdge, Edg.sides, List.map_cons, List.map_nil, List.any_cons, List.any_nil, Bool.or_false, Bool.or_eq_true]
    exact hw
  have h := row_dc hs ht (dcBlocks D wet q) l x hk' hwe (i := r) hr
  refine h.trans ?_
  have h1 : ∀ r c, (dcBlocks D wet q).ahh k r c = 0 := by
    intro r c
    simp only [dcBlocks, List.getElem?_eq_getElem hk, hed]
    unfold edgehh
    refine block2_zero _ (by simp [integral2]) (fun gp r c => ?_) r c
    simp only [hatHatKernel, hkind]
    exact hj.hat gp r c
  have h2 : ∀ s ∈ (edgesOf D.m)[k].sides, ∀ r c, (dcBlocks D wet q).ah1 s.e s.f r c = 0 := by
    intro s hsd r c
    have := byFace_at D.geo (fun ed _ s => sideh1 D wet ed s) (fun _ _ => 0) hs.nodup hk hsd
    have hed' : (edgesOf D.geo.m)[k] = .int i := hed
    simp only [dcBlocks, this, hed']
    unfold sideh1
    refine block2_zero _ (by simp [intPhiLam]) (fun gp r c => ?_) r c
    simp only [hat1Of, hkind]
    exact hj.side1 _ gp r c
  have h3 : ∀ s ∈ (edgesOf D.m)[k].sides, ∀ r c, (dcBlocks D wet q).ah2 s.e s.f r c = 0 := by
    intro s hsd r c
    have := byFace_at D.geo (fun ed _ s => sideh2 D wet ed s) (fun _ _ => 0) hs.nodup hk hsd
    have hed' : (edgesOf D.geo.m)[k] = .int i := hed
    simp only [dcBlocks, this, hed']
    unfold sideh2
    simp only [intPhiLam, hat2Of, hkind, hj.side2, zero_mul, Finset.sum_const_zero]
  have h4 : ∀ c ∈ (dcSkel D).edges[k], ∀ f i j, through (dcSkel D) (dcBlocks D wet q) l c f i j = 0 := by
    intro c hc f i j
    rw [hedge] at hc
    obtain ⟨s, hsd, rfl⟩ := List.mem_map.1 hc
    simp only [through, hatSchur, mul, h2 s hsd, h3 s hsd, zero_mul, Finset.sum_const_zero, sub_zero, add_zero]
  simp only [h1, zero_mul, Finset.sum_const_zero, zero_sub, neg_eq_zero]
  refine List.sum_eq_zero fun y hy => ?_
  obtain ⟨c, hc, rfl⟩ := List.mem_map.1 hy
  refine Finset.sum_eq_zero fun f _ => ?_
  simp only [mulV, h4 c (List.mem_filter.1 hc).1, zero_mul, Finset.sum_const_zero]

/-- **C94** With a levee at a wet element the matrix of the global problem is singular. -/
theorem levee_singular (hs : Whole (dcSkel D)) {wet : ℕ → Bool} {t : Index} (ht : Numbered (dcSkel D) wet t) (hn : 0 < D.nlam) (q : State K) (l : Gn.Local K)
    {i : Iface K} (hi : i ∈ D.m.ints) {data : ℕ → LeveeGp K} (hkind : i.kind = .levee data) (hj : ZeroArrays D i) (hw : wet i.ein = true ∨ wet i.eex = true) :
    ¬Regular (t.off * (2 * D.nlam)) (assembleDc (dcSkel D) t wet (dcBlocks D wet q) l).1 := by
  intro hreg
  obtain ⟨N, hN⟩ := regular_right hreg
  obtain ⟨k, hk, hed⟩ := List.getElem_of_mem (show Edg.int i ∈ edgesOf D.m from List.mem_append_left _ (List.mem_map_of_mem hi))
  have hk' : k < (dcSkel D).edges.length := by simpa [dcSkel] using hk
  have hwe : wetEdge wet (dcSkel D).edges[k] := by
    have hedge : (dcSkel D).edges[k] = (edgesOf D.m)[k].sides.map fun s => ⟨s.e, s.f⟩ := by simp [dcSkel]
    rw [hedge, hed]
    simp only [wetEdge, Edg.sides, List.map_cons, List.map_nil, List.any_cons, List.any_nil, Bool.or_false, Bool.or_eq_true]
    exact hw
  have hlt := ht.lt k hk' hwe
  have hlt' : t.edge k * (2 * D.nlam) + 0 < t.off * (2 * D.nlam) := by rw [add_zero]; exact Nat.mul_lt_mul_of_pos_right hlt (by omega)
  have h1 := hN _ hlt' _ hlt'
  rw [levee_row hs ht q l _ hk hed hkind hj hw (by omega), if_pos rfl] at h1
  exact zero_ne_one h1

/-- **C94** So a run with levees stops if the solver refuses singular matrices. -/
theorem levee_fails (hs : Whole (dcSkel D)) {wet : ℕ → Bool} (hn : 0 < D.nlam) (hslv : ∀ n A r x, D.slv n A r = some x → Regular n A) {t0 : Index}
    (h0 : Fresh D t0) (q : State K) {i : Iface K} (hi : i ∈ D.m.ints) {data : ℕ → LeveeGp K} (hkind : i.kind = .levee data) (hj : ZeroArrays D i)
    (hw : wet i.ein = true ∨ wet i.eex = true) : solveDc D.I D.slv (dcSkel D) D.wd wet t0 (dcBlocks D wet q) = none := by
  by_contra hne
  obtain ⟨⟨t, x, w⟩, h⟩ := Option.ne_none_iff_exists'.1 hne
  unfold solveDc at h
  simp only [Option.bind_eq_bind, Option.bind_eq_some_iff] at h
  obtain ⟨l, h1, x', h2, w', h3, h⟩ := h
  cases h
  have ht : Numbered (dcSkel D) wet (if D.wd = true then renumber (dcSkel D) wet t0 else t0) := by
    by_cases hwd : D.wd = true
    · rw [if_pos hwd]; exact renumber_numbered hs wet t0
    · rw [if_neg hwd, h0 (by simpa using hwd)]; exact initial_numbered hs wet
  exact levee_singular hs ht hn q l hi hkind hj hw (hslv _ _ _ _ h2)

end

end Verif.Gn.Props
