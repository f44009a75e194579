import Verif.Props.EhdgUnit
import Verif.Props.EhdgRun
import Verif.Props.LakeRun

/-!
# C135: under every schedule, a closed basin keeps its water and a lake stays at rest
-/

namespace Verif.Swe.Props
open Verif.Geometry Verif.Element Verif.Swe Verif.Schedule Verif.Schedule.Props Verif.Stepper

variable {nR : ℕ} {nT nU : Fin nR → ℕ} {hT : ∀ r, 0 < nT r}
  {nbrs : (Σ r, Fin (nU r)) → List (Σ r, Fin (nU r))} {early : (Σ r, Fin (nU r)) → CommType → ℕ → Bool}

/-- The mesh `m` is divided among the units `us` of the ranks: the submeshes with the interfaces that are cut make up the mesh, each element has its owner, and
units that share a face are neighbours. -/
structure Division {K : Type} (npts : Iface K → ℕ) (m : Mesh K) (cut : List (Iface K)) (nT nU : Fin nR → ℕ)
    (nbrs : (Σ r, Fin (nU r)) → List (Σ r, Fin (nU r))) (sub : (Σ r, Fin (nU r)) → Mesh K) (us : List (Σ r, Fin (nU r)))
    (owner : ℕ → Σ r, Fin (nU r)) : Prop where
  few : ∀ r, nU r + nT r ≤ 2 ^ 32
  sym : ∀ u w, w ∈ nbrs u → u ∈ nbrs w
  nodup : us.Nodup
  all : ∀ u, u ∈ us
  part : Partitioned npts m (us.map sub) cut
  owns : ∀ u, ∀ e ∈ (sub u).elts, owner e = u
  near : ∀ u, ∀ b ∈ (sub u).dist, owner b.e' ∈ nbrs u

section
variable {K : Type} [Field K] [LinearOrder K] [IsStrictOrderedRing K] {v : Env K} {dat : ℕ → EltData K} {m : Mesh K} {cut : List (Iface K)}
  {sub : (Σ r, Fin (nU r)) → Mesh K} {us : List (Σ r, Fin (nU r))} {owner : ℕ → Σ r, Fin (nU r)} {npts : Iface K → ℕ}

omit [Field K] [LinearOrder K] [IsStrictOrderedRing K] in
/-- Elements of units are elements of the mesh. -/
theorem unit_elt (hd : Division npts m cut nT nU nbrs sub us owner) {u : Σ r, Fin (nU r)} {e : ℕ} (he : e ∈ (sub u).elts) : e ∈ m.elts :=
  hd.part.elts.mem_iff.mp (List.mem_flatMap.mpr ⟨sub u, List.mem_map.mpr ⟨u, hd.all u, rfl⟩, he⟩)

omit [IsStrictOrderedRing K] in
/-- The water of the units is the water of the mesh. -/
theorem units_water (hd : Division npts m cut nT nU nbrs sub us owner) {q : State K} {p : (Σ r, Fin (nU r)) → State K}
    (h : ∀ u, ∀ e ∈ (sub u).elts, q e = p u e) : (us.map fun u => water dat (sub u).elts (p u)).sum = water dat m.elts q := by
  unfold water
  rw [← (hd.part.elts.map _).sum_eq, List.flatMap_map, List.map_flatMap, List.flatMap_def, List.sum_flatten, List.map_map]
  congr 1
  refine List.map_congr_left fun u _ => ?_
  simp only [Function.comp]
  congr 1
  exact List.map_congr_left fun e he => by rw [h u e he]

omit [Field K] [LinearOrder K] [IsStrictOrderedRing K] in
/-- After whole steps the solution is in the first slot of every unit. -/
theorem holds_first {S : List ℕ} {ns nsteps : ℕ} {s : Run K} {x : UnitMem K} (h : Holds S ns (nsteps * ns) s x) {sl : Slot (State K)}
    (h1 : s.slots[s.stage]? = some sl) : ∃ sl', x.slots[0]? = some sl' ∧ ∀ e ∈ S, sl.q e = sl'.q e := by
  rw [h.stage, Nat.mul_mod_left] at h1
  obtain ⟨b, h2, h3⟩ := slots_get h.slots h1
  exact ⟨b, h2, h3.1⟩

/-- **C135**, water, RKDG. In a closed basin in which the serial program empties no element, the volumes in the memories of all units at the end of any schedule of
the threaded program add up to the volume at the beginning. -/
theorem threads_water (hd : Division (fun i => (i.rule v dat).length) m cut nT nU nbrs sub us owner) (hsp : ∀ x, v.sp x = 1) (hc : ∀ i ∈ cut, Fits v dat i)
    (hb : ClosedBasin v dat m) (hN : MassNumerics v.N) {tab : Tableau} {ns o nsteps : ℕ} (htab : tableau ns o = some tab)
    (hrow : (ns, o) ∈ [(1, 1), (2, 2), (3, 3), (4, 3), (6, 3), (7, 4), (8, 4)]) {dt : K} {pp : PostParams K}
    (hp : ∀ w, pp.wd = some w → 0 < w.thr ∧ w.thr ≤ w.ho) (hdeg : ∀ e, 1 ≤ (dat e).elt.p) (hsl : pp.sl ≠ none → Covered m) {junk : State K}
    {time ramp : ℕ → K} {slots : List (Slot (State K))} (hlen : ns + 1 ≤ slots.length) {sl : Slot (State K)} (h0 : slots[0]? = some sl) {wet : ℕ → Bool}
    {s' : Run K} (hrun : runSerial v dat m tab ns dt pp junk time ramp (nsteps * ns) ⟨slots, 0, wet, false⟩ = .ok s') (hem : s'.emptied = false)
    {init : (Σ r, Fin (nU r)) → Loc (Σ r, Fin (nU r)) CommType (Res (UnitMem K)) (Mail K)} (hi : ∀ u, idle (init u))
    (hinit : ∀ u, ∃ x, (init u).mem = .ok x ∧ Holds (sub u).elts ns 0 ⟨slots, 0, wet, false⟩ x)
    {z : St (Σ r, Fin (nU r)) (Fin nR) (Σ r, Fin (nT r)) CommType (Res (UnitMem K)) (Mail K)}
    (hz : Schedule.Reach (simTeam nR nT nU hT nbrs early) (runText (preText false (rkdgKernels v dat sub owner tab ns dt pp time ramp))
      (rkdgKernels v dat sub owner tab ns dt pp time ramp) pp.wd.isSome pp.sl.isSome ns nsteps) init z) (hf : Finished z) :
    ∃ q : (Σ r, Fin (nU r)) → State K, (∀ u, ∃ x y, (z.loc u).mem = .ok x ∧ x.slots[0]? = some y ∧ y.q = q u) ∧
      (us.map fun u => water dat (sub u).elts (q u)).sum = water dat m.elts sl.q := by
  obtain ⟨sl', h1, h2⟩ := run_mass hb hN htab hrow dt pp hp hdeg junk time ramp slots hlen sl h0 wet _ s' hrun hem
  have h3 : ∀ u, ∃ q, (∃ x y, (z.loc u).mem = .ok x ∧ x.slots[0]? = some y ∧ y.q = q) ∧ ∀ e ∈ (sub u).elts, sl'.q e = q e := by
    intro u
    obtain ⟨x, h4, h5⟩ := schedules_holds hd.few hd.sym hsp hd.nodup hd.all hd.part hc hd.owns hd.near (fun h => ⟨hsl h, hdeg⟩) hrun hi hinit hz hf u
    obtain ⟨y, h6, h7⟩ := holds_first h5 h1
    exact ⟨y.q, ⟨x, y, h4, h6, rfl⟩, h7⟩
  choose q hq1 hq2 using h3
  exact ⟨q, hq1, (units_water hd hq2).trans h2⟩

/-- The same for the explicit hybridized program. -/
theorem threads_water_ehdg (hd : Division (fun i => (i.rule v dat).length) m cut nT nU nbrs sub us owner) (hc : ∀ i ∈ cut, Ehdg.Props.Meets dat i)
    (hb : ClosedBasin v dat m) (hN : MassNumerics v.N) {tab : Tableau} {ns o nsteps : ℕ} (htab : tableau ns o = some tab)
    (hrow : (ns, o) ∈ [(1, 1), (2, 2), (3, 3), (4, 3), (6, 3), (7, 4), (8, 4)]) {dt : K} {pp : PostParams K}
    (hp : ∀ w, pp.wd = some w → 0 < w.thr ∧ w.thr ≤ w.ho) (hdeg : ∀ e, 1 ≤ (dat e).elt.p) (hsl : pp.sl ≠ none → Covered m) {junk : State K}
    {time : ℕ → K} {fx : ℕ → Ehdg.Faces K} (junkD : Dbnd K → ℕ → Q K) {slots : List (Slot (State K))} (hlen : ns + 1 ≤ slots.length) {sl : Slot (State K)}
    (h0 : slots[0]? = some sl) {wet : ℕ → Bool}
    {s' : Run K} (hrun : Ehdg.run v dat m tab ns dt pp junk time fx (nsteps * ns) ⟨slots, 0, wet, false⟩ = .ok s') (hem : s'.emptied = false)
    {init : (Σ r, Fin (nU r)) → Loc (Σ r, Fin (nU r)) CommType (Res (Ehdg.EMem K)) (Mail K)} (hi : ∀ u, idle (init u))
    (hinit : ∀ u, ∃ x, (init u).mem = .ok x ∧ Holds (sub u).elts ns 0 ⟨slots, 0, wet, false⟩ x.unit)
    {z : St (Σ r, Fin (nU r)) (Fin nR) (Σ r, Fin (nT r)) CommType (Res (Ehdg.EMem K)) (Mail K)}
    (hz : Schedule.Reach (simTeam nR nT nU hT nbrs early) (runText (preText true (Ehdg.ehdgKernels v dat sub owner tab ns dt pp time fx junkD))
      (Ehdg.ehdgKernels v dat sub owner tab ns dt pp time fx junkD) pp.wd.isSome pp.sl.isSome ns nsteps) init z) (hf : Finished z) :
    ∃ q : (Σ r, Fin (nU r)) → State K, (∀ u, ∃ x y, (z.loc u).mem = .ok x ∧ x.unit.slots[0]? = some y ∧ y.q = q u) ∧
      (us.map fun u => water dat (sub u).elts (q u)).sum = water dat m.elts sl.q := by
  obtain ⟨sl', h1, h2⟩ := Ehdg.Props.ehdg_mass hb hN htab hrow dt pp hp hdeg junk time fx slots hlen sl h0 wet _ s' hrun hem
  have h3 : ∀ u, ∃ q, (∃ x y, (z.loc u).mem = .ok x ∧ x.unit.slots[0]? = some y ∧ y.q = q) ∧ ∀ e ∈ (sub u).elts, sl'.q e = q e := by
    intro u
    obtain ⟨x, h4, h5⟩ := Ehdg.Props.ehdg_schedules_holds hd.few hd.sym hd.nodup hd.all hd.part hc hd.owns hd.near (fun h => ⟨hsl h, hdeg⟩) junkD hrun hi hinit
      hz hf u
    obtain ⟨y, h6, h7⟩ := holds_first h5 h1
    exact ⟨y.q, ⟨x, y, h4, h6, rfl⟩, h7⟩
  choose q hq1 hq2 using h3
  exact ⟨q, hq1, (units_water hd hq2).trans h2⟩

end

section
variable {v : Env ℝ} {dat : ℕ → EltData ℝ} {m : Mesh ℝ} {cut : List (Iface ℝ)} {sub : (Σ r, Fin (nU r)) → Mesh ℝ} {us : List (Σ r, Fin (nU r))}
  {owner : ℕ → Σ r, Fin (nU r)} {F : ℕ → MvPolynomial (Fin 2) ℝ} {P : ℕ} {L : ℝ}

/-- **C135**, lake at rest, RKDG. At the end of any schedule of the threaded program, the lake is at rest in every unit. -/
theorem threads_rest (hd : Division (fun i => (i.rule v dat).length) m cut nT nU nbrs sub us owner) (hc : ∀ i ∈ cut, Fits v dat i)
    (hR : Rules v.N F P 0) {tab : Tableau} {ns o nsteps : ℕ} (htab : tableau ns o = some tab)
    (hrow : (ns, o) ∈ [(1, 1), (2, 2), (3, 3), (4, 3), (6, 3), (7, 4), (8, 4)]) {dt : ℝ} {pp : PostParams ℝ}
    (hp : ∀ w, pp.wd = some w → 0 < w.thr ∧ w.thr ≤ w.ho ∧ ∀ e ∈ m.elts, ∀ x < 3, w.ho + w.thr < L + w.bath e x)
    (hdeg : ∀ e, 1 ≤ (dat e).elt.p) (hsl : pp.sl ≠ none → Covered m) {time ramp : ℕ → ℝ} (hm : ∀ n, RestMesh v dat m P L (time n) (ramp n))
    {slots : List (Slot (State ℝ))} (hlen : ns + 1 ≤ slots.length) {sl : Slot (State ℝ)} (h0 : slots[0]? = some sl) (hq : AtRest dat m.elts L sl.q)
    {wet : ℕ → Bool} (hw : ∀ e ∈ m.elts, wet e = true)
    {init : (Σ r, Fin (nU r)) → Loc (Σ r, Fin (nU r)) CommType (Res (UnitMem ℝ)) (Mail ℝ)} (hi : ∀ u, idle (init u))
    (hinit : ∀ u, ∃ x, (init u).mem = .ok x ∧ Holds (sub u).elts ns 0 ⟨slots, 0, wet, false⟩ x)
    {z : St (Σ r, Fin (nU r)) (Fin nR) (Σ r, Fin (nT r)) CommType (Res (UnitMem ℝ)) (Mail ℝ)}
    (hz : Schedule.Reach (simTeam nR nT nU hT nbrs early) (runText (preText false (rkdgKernels v dat sub owner tab ns dt pp time ramp))
      (rkdgKernels v dat sub owner tab ns dt pp time ramp) pp.wd.isSome pp.sl.isSome ns nsteps) init z) (hf : Finished z) (u : Σ r, Fin (nU r)) :
    ∃ x y, (z.loc u).mem = .ok x ∧ x.slots[0]? = some y ∧ AtRest dat (sub u).elts L y.q ∧ ∀ e ∈ (sub u).elts, x.wet e = true := by
  obtain ⟨s', sl', hrun, -, h1, h2, h3⟩ := lake_at_rest hR htab hrow dt pp hp (fun e _ => hdeg e) 0 time ramp hm slots hlen sl h0 hq wet hw (nsteps * ns)
  obtain ⟨x, h4, h5⟩ := schedules_holds hd.few hd.sym (hm 0).sp hd.nodup hd.all hd.part hc hd.owns hd.near (fun h => ⟨hsl h, hdeg⟩) hrun hi hinit hz hf u
  obtain ⟨y, h6, h7⟩ := holds_first h5 h1
  refine ⟨x, y, h4, h6, fun e he d hd' => ?_, fun e he => ?_⟩
  · rw [← h7 e he]
    exact h2 e (unit_elt hd he) d hd'
  · rw [← h5.wet e he]
    exact h3 e (unit_elt hd he)

/-- The same for the explicit hybridized program. -/
theorem threads_rest_ehdg (hd : Division (fun i => (i.rule v dat).length) m cut nT nU nbrs sub us owner) (hc : ∀ i ∈ cut, Ehdg.Props.Meets dat i)
    (hR : Rules v.N F P 0) {tab : Tableau} {ns o nsteps : ℕ} (htab : tableau ns o = some tab)
    (hrow : (ns, o) ∈ [(1, 1), (2, 2), (3, 3), (4, 3), (6, 3), (7, 4), (8, 4)]) {dt : ℝ} {pp : PostParams ℝ}
    (hp : ∀ w, pp.wd = some w → 0 < w.thr ∧ w.thr ≤ w.ho ∧ ∀ e ∈ m.elts, ∀ x < 3, w.ho + w.thr < L + w.bath e x)
    (hdeg : ∀ e, 1 ≤ (dat e).elt.p) (hsl : pp.sl ≠ none → Covered m) {time ramp : ℕ → ℝ} (hm : ∀ n, RestMesh v dat m P L (time n) (ramp n))
    (hk : ∀ i ∈ m.ints, i.kind = .internal) {fx : ℕ → Ehdg.Faces ℝ} (hx : ∀ n, Ehdg.Props.Passes v dat m (fx n) ⟨L, 0, 0⟩) (junkD : Dbnd ℝ → ℕ → Q ℝ)
    {slots : List (Slot (State ℝ))} (hlen : ns + 1 ≤ slots.length) {sl : Slot (State ℝ)} (h0 : slots[0]? = some sl) (hq : AtRest dat m.elts L sl.q)
    {wet : ℕ → Bool} (hw : ∀ e ∈ m.elts, wet e = true)
    {init : (Σ r, Fin (nU r)) → Loc (Σ r, Fin (nU r)) CommType (Res (Ehdg.EMem ℝ)) (Mail ℝ)} (hi : ∀ u, idle (init u))
    (hinit : ∀ u, ∃ x, (init u).mem = .ok x ∧ Holds (sub u).elts ns 0 ⟨slots, 0, wet, false⟩ x.unit)
    {z : St (Σ r, Fin (nU r)) (Fin nR) (Σ r, Fin (nT r)) CommType (Res (Ehdg.EMem ℝ)) (Mail ℝ)}
    (hz : Schedule.Reach (simTeam nR nT nU hT nbrs early) (runText (preText true (Ehdg.ehdgKernels v dat sub owner tab ns dt pp time fx junkD))
      (Ehdg.ehdgKernels v dat sub owner tab ns dt pp time fx junkD) pp.wd.isSome pp.sl.isSome ns nsteps) init z) (hf : Finished z) (u : Σ r, Fin (nU r)) :
    ∃ x y, (z.loc u).mem = .ok x ∧ x.unit.slots[0]? = some y ∧ AtRest dat (sub u).elts L y.q ∧ ∀ e ∈ (sub u).elts, x.unit.wet e = true := by
  obtain ⟨s', sl', hrun, -, h1, h2, h3⟩ := Ehdg.Props.ehdg_lake_at_rest hR htab hrow dt pp hp (fun e _ => hdeg e) 0 time ramp hm hk fx hx slots hlen sl h0 hq wet
    hw (nsteps * ns)
  obtain ⟨x, h4, h5⟩ := Ehdg.Props.ehdg_schedules_holds hd.few hd.sym hd.nodup hd.all hd.part hc hd.owns hd.near (fun h => ⟨hsl h, hdeg⟩) junkD hrun hi hinit
    hz hf u
  obtain ⟨y, h6, h7⟩ := holds_first h5 h1
  refine ⟨x, y, h4, h6, fun e he d hd' => ?_, fun e he => ?_⟩
  · rw [← h7 e he]
    exact h2 e (unit_elt hd he) d hd'
  · rw [← h5.wet e he]
    exact h3 e (unit_elt hd he)

end

/-! ### Examples -/

/-- Two ranks with one triangle each. -/
theorem two_division {K : Type} (npts : Iface K → ℕ) : Division npts twoMesh [⟨0, 0, 1, 0, .internal⟩] (fun _ : Fin 2 => 1) (fun _ => 1) twoNbrs twoSub twoUnits
    twoOwner where
  few := by decide
  sym := by decide
  nodup := by decide
  all := by decide
  part := two_partitioned _
  owns := two_owns
  near := two_hears

/-- A lake of any level over the sloping bed, two ranks, any schedule: both ranks have the lake at the end. -/
example (L : ℝ) (nsteps : ℕ) (tab : Tableau) (ht : tableau 3 3 = some tab) (early : (Σ _ : Fin 2, Fin 1) → CommType → ℕ → Bool)
    (com : CommType → Req (Σ _ : Fin 2, Fin 1) (Mail ℝ)) (hcom : ∀ M (mem : M), idle (⟨mem, com⟩ : Loc (Σ _ : Fin 2, Fin 1) CommType M (Mail ℝ)))
    {z : St (Σ _ : Fin 2, Fin 1) (Fin 2) (Σ _ : Fin 2, Fin 1) CommType (Res (UnitMem ℝ)) (Mail ℝ)}
    (hz : Schedule.Reach (simTeam 2 (fun _ => 1) (fun _ => 1) (fun _ => Nat.one_pos) twoNbrs early)
      (runText (preText false (rkdgKernels (plainEnv exactN Real.sqrt) (twoTris 1 slope) twoSub twoOwner tab 3 (1 / 10) ⟨none, none⟩ (fun _ => 0) fun _ => 0))
        (rkdgKernels (plainEnv exactN Real.sqrt) (twoTris 1 slope) twoSub twoOwner tab 3 (1 / 10) ⟨none, none⟩ (fun _ => 0) fun _ => 0) false false 3 nsteps)
      (fun _ => ⟨.ok ⟨[⟨fun _ var d => if var = 0 ∧ d = 0 then L else 0, 0⟩, ⟨0, 0⟩, ⟨0, 0⟩, ⟨0, 0⟩], fun _ => true, false, 0⟩, com⟩) z) (hf : Finished z) :
    ∃ x y, (z.loc ⟨1, 0⟩).mem = .ok x ∧ x.slots[0]? = some y ∧ y.q 1 0 0 = L := by
  obtain ⟨x, y, h1, h2, h3, -⟩ := threads_rest (two_division _) (fun i hi => by
      obtain rfl : i = _ := by simpa using hi
      have h := two_fits 1 (fun _ => (0 : ℝ)) exactN Real.sqrt fun gp _ => by simp [Elt.value]
      exact ⟨rfl, h.ccwIn, h.ccwEx, h.edges, (two_rest L 0 0).bath _ (by simp [twoMesh])⟩)
    exact_rules ht (by simp) (pp := ⟨none, none⟩) (fun _ h => by cases h) (fun _ => le_rfl) (fun h => absurd rfl h) (fun _ => two_rest L 0 0)
    (slots := [⟨fun _ var d => if var = 0 ∧ d = 0 then L else 0, 0⟩, ⟨0, 0⟩, ⟨0, 0⟩, ⟨0, 0⟩]) (by simp) rfl (fun e _ d _ => by simp) (wet := fun _ => true)
    (fun _ _ => rfl) (fun _ => hcom _ _) (fun u => ⟨_, rfl, rfl, ⟨rfl, fun i a b ha hb => by
      rw [ha] at hb
      cases hb
      exact ⟨fun _ _ => rfl, fun _ _ => rfl⟩⟩, fun _ _ => rfl⟩) hz hf ⟨1, 0⟩
  exact ⟨x, y, h1, h2, (h3 1 (by simp [twoSub]) 0 (ndof_pos _)).1⟩

/-- Any water on two ranks, with the numerics of the program. -/
example {rd : ℝ → ℝ} (hr : Basis.Props.Rounding rd) (q : State ℝ) (dt : ℝ) (nsteps : ℕ) (tab : Tableau) (ht : tableau 2 2 = some tab)
    (early : (Σ _ : Fin 2, Fin 1) → CommType → ℕ → Bool)
    (com : CommType → Req (Σ _ : Fin 2, Fin 1) (Mail ℝ)) (hcom : ∀ M (mem : M), idle (⟨mem, com⟩ : Loc (Σ _ : Fin 2, Fin 1) CommType M (Mail ℝ)))
    {z : St (Σ _ : Fin 2, Fin 1) (Fin 2) (Σ _ : Fin 2, Fin 1) CommType (Res (UnitMem ℝ)) (Mail ℝ)}
    (hz : Schedule.Reach (simTeam 2 (fun _ => 1) (fun _ => 1) (fun _ => Nat.one_pos) twoNbrs early)
      (runText (preText false (rkdgKernels (plainEnv (codeNumerics rd) Real.sqrt) (twoTris 1 fun _ _ => 0) twoSub twoOwner tab 2 dt ⟨none, none⟩ (fun _ => 0) fun _ => 0))
        (rkdgKernels (plainEnv (codeNumerics rd) Real.sqrt) (twoTris 1 fun _ _ => 0) twoSub twoOwner tab 2 dt ⟨none, none⟩ (fun _ => 0) fun _ => 0) false false 2 nsteps)
      (fun _ => ⟨.ok ⟨[⟨q, 0⟩, ⟨0, 0⟩, ⟨0, 0⟩], fun _ => true, false, 0⟩, com⟩) z) (hf : Finished z) :
    ∃ x x' y y', (z.loc ⟨0, 0⟩).mem = .ok x ∧ (z.loc ⟨1, 0⟩).mem = .ok x' ∧ x.slots[0]? = some y ∧ x'.slots[0]? = some y' ∧
      water (twoTris 1 fun _ _ => 0) [0] y.q + water (twoTris 1 fun _ _ => 0) [1] y'.q = water (twoTris 1 fun _ _ => 0) [0, 1] q := by
  obtain ⟨s, hs, _⟩ := run_succeeds (plainEnv (codeNumerics rd) Real.sqrt) (twoTris 1 fun _ _ => 0) twoMesh ht dt ⟨none, none⟩ (fun _ h => by cases h)
    (fun _ => le_rfl) 0 (fun _ => 0) (fun _ => 0) [⟨q, 0⟩, ⟨0, 0⟩, ⟨0, 0⟩] (by simp) (fun _ => true) (nsteps * 2)
  have hem := run_emptied_none hs
  obtain ⟨p, h1, h2⟩ := threads_water (two_division _) (fun _ => rfl) (fun i hi => by
      obtain rfl : i = _ := by simpa using hi
      refine two_fits 1 (fun _ => 0) _ _ fun gp _ => ?_
      simp [Elt.value]) (two_closed rd 1 fun _ _ => 0) (code_mass hr) ht (by simp) (fun _ h => by cases h) (fun _ => le_rfl) (fun h => absurd rfl h)
    (by simp) rfl hs hem (fun _ => hcom _ _) (fun u => ⟨_, rfl, rfl, ⟨rfl, fun i a b ha hb => by
      rw [ha] at hb
      cases hb
      exact ⟨fun _ _ => rfl, fun _ _ => rfl⟩⟩, fun _ _ => rfl⟩) hz hf
  obtain ⟨x, y, a1, a2, a3⟩ := h1 ⟨0, 0⟩
  obtain ⟨x', y', b1, b2, b3⟩ := h1 ⟨1, 0⟩
  refine ⟨x, x', y, y', a1, b1, a2, b2, ?_⟩
  rw [a3, b3]
  simpa [twoUnits, twoSub, twoMesh] using h2

end Verif.Swe.Props
