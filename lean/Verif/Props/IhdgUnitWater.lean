import Verif.Props.IhdgUnit
import Verif.Props.IhdgWater

/-!
# C137: the threaded implicit program loses no water
-/

namespace Verif.Ihdg.Props
open Verif.Geometry Verif.Element Verif.Swe Verif.Swe.Props Verif.Edge Verif.Ehdg Verif.Ehdg.Props Verif.Ihdg
open Verif.Gn.Props (gauss_rules gauss_orthogonal gauss_minv exact_complete)
open Verif.Rounds (Crew St start Ctl newtonRound)

/-- The water a submesh holds, relative to still water. -/
noncomputable def subWater (S : Scheme ℝ) (m : Mesh ℝ) (x : SubMem ℝ) : ℝ :=
  (m.elts.map fun e => (((S.dat e).elt.gps S.v.N).map fun wz => wz.1 * (S.dat e).elt.value S.v.N (x.it.q e 0) wz.2 * |jdet (S.dat e).elt.tri|).sum).sum

variable {S : Scheme ℝ} {W : Cluster ℝ} {cut : List (Iface ℝ)}

theorem sum_subs {K : Type} (W : Cluster K) (f : ℕ → ℝ) : ∑ u : Sub W, ((subMesh W u).elts.map f).sum = ((W.meshes.flatMap Mesh.elts).map f).sum := by
  have h1 : ∀ {α : Type} (l : List α) (g : α → ℝ), ∑ i : Fin l.length, g (l.get i) = (l.map g).sum := by
    intro α l g
    rw [← Fin.sum_univ_fun_getElem]
    rfl
  rw [Fintype.sum_sigma]
  have h2 : ∀ r : Fin W.ranks.length, ∑ i : Fin (W.ranks.get r).length, ((subMesh W ⟨r, i⟩).elts.map f).sum = ((W.ranks.get r).map fun m => (m.elts.map f).sum).sum :=
    fun r => h1 (W.ranks.get r) fun m => (m.elts.map f).sum
  rw [Finset.sum_congr rfl fun r _ => h2 r, h1 W.ranks fun l => (l.map fun m => (m.elts.map f).sum).sum]
  unfold Cluster.meshes
  induction W.ranks with
  | nil => rfl
  | cons r R ih =>
    rw [List.map_cons, List.sum_cons, ih, List.flatten_cons, List.flatMap_append, List.map_append, List.sum_append]
    congr 1
    induction r with
    | nil => rfl
    | cons m r ih => rw [List.map_cons, List.sum_cons, ih, List.flatMap_cons, List.map_append, List.sum_append]

variable {T : Type} [DecidableEq T] [Fintype T] {tm : Crew (Sub W) (Fin W.ranks.length) T} {time ramp : ℕ → ℝ} {n : ℕ}

/-- **C137.** In a closed basin with the scheme of order one every schedule ends with all the water there was, counted over the submeshes. -/
theorem threads_water (h : Clustered S W cut) (hb : Closed S) (ho : S.order2 = false) (hc : Gn.Props.Complete S.I S.slv) (hg : Rounds.Good tm)
    (hr : ∀ u, tm.rank (tm.own u) = u.1) [Nonempty (Fin W.ranks.length)] {it it' : Iter ℝ} {pit : PIter ℝ} (hl : LandFit S it) (ha : Agree S cut it pit)
    {mem : Sub W → Option (SubMem ℝ)} (hm : Keeps W pit mem) (hn : 0 < n)
    (hd : ∀ k < n, ∀ it', steps S time ramp k it = some it' → Determined (S.inStep time ramp k) it'.q (rhsPrev (S.inStep time ramp k) it') 100 it')
    (hs : steps S time ramp n it = some it') {glob : Fin W.ranks.length → Rounds.Shared (Option (List ℕ × (ℕ → ℝ)))} (hcl : ∀ r, (glob r).clock = 0)
    {k : ℕ} {s : St (Sub W) (Fin W.ranks.length) T Ctl (Option (SubMem ℝ)) (Rounds.Shared (Option (List ℕ × (ℕ → ℝ)))) (List (ℕ × ℕ × ℝ) × ((ℕ → ℝ) → ℕ → ℝ))}
    (hrun : Rounds.Run tm (newtonRound (subNewton S W time ramp) n) k (start (.iter 0 0) mem glob) s) (hend : ∀ t, s.ctl t = none) :
    ∃ x x' : Sub W → SubMem ℝ, (∀ u, mem u = some (x u)) ∧ (∀ u, s.mem u = some (x' u)) ∧
      ∑ u, subWater S (subMesh W u) (x' u) = ∑ u, subWater S (subMesh W u) (x u) := by
  have all : ∀ (q : State ℝ) (x : Sub W → SubMem ℝ), (∀ u, ∀ e ∈ (subMesh W u).elts, (x u).it.q e = q e) → ∑ u, subWater S (subMesh W u) (x u) = waterQ S q := by
    intro q x hx
    rw [Finset.sum_congr rfl fun u _ => show subWater S (subMesh W u) (x u) = ((subMesh W u).elts.map fun e =>
        (((S.dat e).elt.gps S.v.N).map fun wz => wz.1 * (S.dat e).elt.value S.v.N (q e 0) wz.2 * |jdet (S.dat e).elt.tri|).sum).sum from
      congrArg List.sum (List.map_congr_left fun e he => by rw [hx u e he]), sum_subs W]
    exact (h.part.elts.map _).sum_eq
  choose x hx ho' using hm
  choose x' hx' hq using threads_serial h hb.wf hc hg hr ha (fun u => ⟨x u, hx u, ho' u⟩) hn hd hs hcl hrun hend
  refine ⟨x, x', hx, hx', ?_⟩
  rw [all it'.q x' hq, all it.q x fun u e he => by rw [← (ho' u).q e he, ha.q]]
  exact (steps_water hb ho time ramp n hl hs).2

/-! ### Two triangles, two ranks -/

/-- A lake at rest: the linearized equations have one solution in every step. -/
theorem lake_determined {F : ℕ → MvPolynomial (Fin 2) ℝ} {P : ℕ} {it : Iter ℝ} {L b : ℝ} (hR : Rules S.v.N F P 0) (hO : Orthogonal S.v.N F P)
    (hp : ∀ d < ndof P, 0 < S.v.N.basis.minv d) (hm : FlowMesh S P) (hb : Closed S) (hf : FlatBed S ⟨L, 0, 0⟩ b) (hg : 0 < S.v.src.g) (hdt : 0 < S.dt)
    (hth : S.theta ≤ 1) (hc : Gn.Props.Complete S.I S.slv) (hz : ZeroOnZero S.slv) (h : Everywhere S ⟨L, 0, 0⟩ it) (k : ℕ) (it1 : Iter ℝ)
    (hk : steps S time ramp k it = some it1) : Determined (S.inStep time ramp k) it1.q (rhsPrev (S.inStep time ramp k) it1) 100 it1 := by
  obtain ⟨it1', hk', hrest⟩ := lake_steps hR hO hp hm hb hf hg hdt hth hc hz time ramp h k
  obtain rfl : it1' = it1 := Option.some.inj (hk'.symm.trans hk)
  have hb' : Closed (atStep S time ramp k) := ⟨hb.basin, hb.mass, hb.wf, hb.fits, hb.dt, hb.deg, hb.inv, hb.slv⟩
  have hland : ∀ b ∈ S.m.bnds, Admits (atStep S time ramp k) ⟨L, 0, 0⟩ b := fun b' hb' => by
    simp only [Admits, (hb.basin.bnds b' hb').2.2]
    ring
  have hst := rest_step (S := atStep S time ramp k) hR (flow_time hm time ramp k) hland (everywhere_time hrest time ramp k)
  refine ⟨fun _ => (lake_newton (S := atStep S time ramp k) hR hO hp (flow_time hm time ramp k) hb' ⟨hf.friction, hf.bed, hf.wet⟩ hg hdt hth hc
    (everywhere_time hrest time ramp k) _ _).1, fun d hd hcv => ?_⟩
  have := (solution_fixed (S := atStep S time ramp k) hz hb.wf (sqrt_zero hm.sqrt) hst (it' := d.1) (x := d.2) hd).2
  exact absurd (this.symm.trans hcv) (by decide)

/-- The hypotheses hold: a lake on two ranks with a thread each. -/
example {L : ℝ} (hL : -3 < L) (first : State ℝ) (hn : 0 < n) (x0 : SubMem ℝ)
    (hx0 : x0.it = ⟨(sameIter ⟨L, 0, 0⟩).q, fun _ _ => (sameIter ⟨L, 0, 0⟩).hat 0⟩) :
    ∃ (k : ℕ) (s : St (Sub (twoCluster first)) (Fin (twoCluster first).ranks.length) (Fin (twoCluster first).ranks.length) Ctl (Option (SubMem ℝ))
        (Rounds.Shared (Option (List ℕ × (ℕ → ℝ)))) (List (ℕ × ℕ × ℝ) × ((ℕ → ℝ) → ℕ → ℝ))),
      Rounds.Run (rankCrew (twoCluster first)) (newtonRound (subNewton (lakeOn twoMesh) (twoCluster first) time ramp) n) k
        (start (.iter 0 0) (fun _ => some x0) fun _ => ⟨none, false, 0⟩) s ∧ (∀ t, s.ctl t = none) ∧
      ∃ x x' : Sub (twoCluster first) → SubMem ℝ, (∀ u, some x0 = some (x u)) ∧ (∀ u, s.mem u = some (x' u)) ∧
        ∑ u, subWater (lakeOn twoMesh) (subMesh (twoCluster first) u) (x' u) = ∑ u, subWater (lakeOn twoMesh) (subMesh (twoCluster first) u) (x u) := by
  haveI : Nonempty (Fin (twoCluster first).ranks.length) := ⟨⟨0, by simp [twoCluster]⟩⟩
  obtain ⟨k, s, h1, h2⟩ := (Rounds.Props.newton_ends (k := subNewton (lakeOn twoMesh) (twoCluster first) time ramp) (mem := fun _ => some x0)
    (rankCrew_good (twoCluster first)) n hn (glob := fun _ => ⟨none, false, 0⟩) fun _ => rfl).2 0 _ (.refl _)
  rw [Nat.zero_add] at h1
  have hf : FlatBed (lakeOn twoMesh) ⟨L, 0, 0⟩ 3 := ⟨rfl, fun _ _ _ _ => rfl, by linarith⟩
  have hg : 0 < (lakeOn twoMesh).v.src.g := by norm_num [lakeOn, plainEnv]
  obtain ⟨it', hs, _⟩ := lake_steps (S := lakeOn twoMesh) (it := sameIter ⟨L, 0, 0⟩) gauss_rules gauss_orthogonal (fun d _ => gauss_minv d) lake_mesh lake_closed hf hg
    one_pos zero_le_one exact_complete exactSlv_zero time ramp (lake_same _ _) n
  have hland : LandFit (lakeOn twoMesh) (sameIter ⟨L, 0, 0⟩) := by
    intro k hk b he hkd gp hgp
    have hh := hat_const (S := lakeOn twoMesh) hgp ⟨L, 0, 0⟩
    have hq := value_first (u := (sameIter ⟨L, 0, 0⟩).q b.e 0) lake_mass.phi0 ((lakeOn twoMesh).dat b.e).elt (fun d _ => rfl)
      (facePt (rule (lakeOn twoMesh) (.bnd b)) b.f gp)
    refine ⟨?_, ?_⟩
    · refine Eq.trans ?_ hq.symm
      simp only [sameIter, hh, Swe.comp]
      rfl
    · simp only [sameIter, hh]
      ring
  exact ⟨k, s, h1, h2, threads_water (two_clustered first) lake_closed rfl exact_complete (rankCrew_good _) (fun _ => rfl) hland
    (pit := ⟨(sameIter ⟨L, 0, 0⟩).q, fun _ _ => (sameIter ⟨L, 0, 0⟩).hat 0⟩) ⟨rfl, fun _ _ _ => rfl, fun _ _ => rfl⟩
    (fun u => ⟨x0, rfl, by rw [hx0]; exact ⟨fun _ _ => rfl, fun _ _ => rfl⟩⟩) hn
    (fun k _ it1 hk => lake_determined gauss_rules gauss_orthogonal (fun d _ => gauss_minv d) lake_mesh lake_closed hf hg one_pos zero_le_one exact_complete exactSlv_zero
      (lake_same _ _) k it1 hk) hs (fun _ => rfl) h1 h2⟩

end Verif.Ihdg.Props
