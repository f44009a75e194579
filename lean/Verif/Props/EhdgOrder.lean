import Verif.Props.Order
import Verif.Props.EhdgParallel

/-!
# C123: order and choice of sides in the explicit hybridized discretization

As C112, and without its assumption that the bathymetry is continuous: the trace is the mean of both sides, for the bottom as for the state.
-/

namespace Verif.Ehdg.Props
open Verif.Swe Verif.Swe.Props Verif.Geometry Verif.Geometry.Props Verif.Element Verif.Stepper

variable {K : Type} [Field K] [LinearOrder K] [IsStrictOrderedRing K] {v : Env K} {dat : ℕ → EltData K} {i : Iface K}

/-- What is required of the elements at an interface: counterclockwise, opposite edge vectors. Degrees may differ, the bed may jump. -/
structure Touches (dat : ℕ → EltData K) (i : Iface K) : Prop where
  ccwIn : 0 < jdet (dat i.ein).elt.tri
  ccwEx : 0 < jdet (dat i.eex).elt.tri
  edges : faceVec (dat i.eex).elt.tri i.fex = ⟨-(faceVec (dat i.ein).elt.tri i.fin).x, -(faceVec (dat i.ein).elt.tri i.fin).y⟩
  kind : i.kind = .internal

theorem touches_normal (h : Touches dat i) : normal v.sq (dat i.eex).elt.tri i.fex = opp (normal v.sq (dat i.ein).elt.tri i.fin) := by
  rw [normal_vec v.sq h.ccwIn, normal_vec v.sq h.ccwEx, h.edges]
  simp only [hypot, neg_mul_neg, neg_neg, neg_div, opp]

theorem touches_J (n : ℕ) (h : Touches dat i) : (swapped n i).J v dat = i.J v dat := by
  simp only [Iface.J, swapped]
  rw [J_vec, J_vec, h.edges]
  simp only [neg_sq]

omit [LinearOrder K] [IsStrictOrderedRing K] in
theorem opp_opp (n : P2 K) : opp (opp n) = n := by
  cases n; simp [opp]

/-- The pair of fluxes with the sides exchanged. -/
theorem pair_swap (sq : K → K) (g b : K) (n : P2 K) (win wex : Bool) (q r : Q K) (hw : (win || wex) = true) :
    pairFlux sq g b (opp n) n wex win r q = (pairFlux sq g b n (opp n) win wex q r).swap := by
  have hm : mean r q = mean q r := by ext <;> simp [mean, add_comm]
  have hh := hybrid_opp sq g b n q r
  have hneg : - -hybrid sq g b n q r = hybrid sq g b n q r := by ext <;> simp
  have hz : (-hybrid sq g b n q r).ze = -(hybrid sq g b n q r).ze := rfl
  have ht : (0 : K) < fluxTol := by unfold fluxTol; positivity
  unfold pairFlux
  simp only [hh, hm, hz, hneg, neg_neg]
  by_cases h1 : (hybrid sq g b n q r).ze > fluxTol
  · rw [if_pos h1, if_neg (by intro h; linarith), if_pos (by linarith)]
    cases win <;> cases wex <;> simp_all
  · rw [if_neg h1]
    by_cases h2 : (hybrid sq g b n q r).ze < -fluxTol
    · rw [if_pos h2, if_pos (by linarith)]
      cases win <;> cases wex <;> simp_all
    · rw [if_neg h2, if_neg (by intro h; exact h2 (by linarith)), if_neg (by intro h; exact h1 (by linarith))]
      rfl

/-- The fluxes of an interface with the sides exchanged. -/
theorem swapped_face (h : Touches dat i) {wet : ℕ → Bool} (hw : (wet i.ein || wet i.eex) = true) (q : State K) (x x' : Faces K) {gp : ℕ}
    (hgp : gp < (i.rule v dat).length) :
    (faceFlux v dat wet q x' (swapped (i.rule v dat).length i)).1 gp = (faceFlux v dat wet q x i).2 gp ∧
    (faceFlux v dat wet q x' (swapped (i.rule v dat).length i)).2 gp = (faceFlux v dat wet q x i).1 gp := by
  set n := (i.rule v dat).length with hn
  have hr : (swapped n i).rule v dat = i.rule v dat := swapped_rule n i
  have hk : (swapped n i).kind = .internal := by simp only [swapped, h.kind, turned]
  have hw' : (wet (swapped n i).ein || wet (swapped n i).eex) = true := by
    simp only [swapped]; rw [Bool.or_comm]; exact hw
  have key : ∀ gp < n, ((faceFlux v dat wet q x' (swapped n i)).1 gp, (faceFlux v dat wet q x' (swapped n i)).2 (n - gp - 1)) =
      ((faceFlux v dat wet q x i).1 (n - gp - 1), (faceFlux v dat wet q x i).2 gp).swap := by
    intro gp hgp
    have e1 := face_pair (v := v) (dat := dat) q x' hk hw' (gp := gp) (by rw [hr]; exact hgp)
    have e2 := face_pair (v := v) (dat := dat) q x h.kind hw (gp := n - gp - 1) (by omega)
    rw [hr] at e1
    rw [← hn] at e1 e2
    rw [show n - (n - gp - 1) - 1 = gp by omega] at e2
    rw [e1, e2]
    have hnrm : normal v.sq (dat (swapped n i).ein).elt.tri (swapped n i).fin = opp (normal v.sq (dat i.ein).elt.tri i.fin) := touches_normal h
    rw [hnrm, opp_opp, ← pair_swap _ _ _ _ _ _ _ _ hw]
    have q1 : ∀ gp, ((swapped n i).inside v dat wet q gp).q = (i.outside v dat wet q gp).q := fun gp => by
      simp only [Iface.inside, Iface.outside, hr]; simp only [swapped]
    have q2 : ∀ gp, ((swapped n i).outside v dat wet q gp).q = (i.inside v dat wet q gp).q := fun gp => by
      simp only [Iface.inside, Iface.outside, hr]; simp only [swapped]
    have b1 : ∀ gp, ((swapped n i).inside v dat wet q gp).aux.bath = (i.outside v dat wet q gp).aux.bath := fun gp => by
      simp only [Iface.inside, Iface.outside, hr, Swe.auxAt]; simp only [swapped]
    have b2 : ∀ gp, ((swapped n i).outside v dat wet q gp).aux.bath = (i.inside v dat wet q gp).aux.bath := fun gp => by
      simp only [Iface.inside, Iface.outside, hr, Swe.auxAt]; simp only [swapped]
    have hb : bathHat n (fun gp => ((swapped n i).inside v dat wet q gp).aux.bath) (fun gp => ((swapped n i).outside v dat wet q gp).aux.bath) gp =
        bathHat n (fun gp => (i.inside v dat wet q gp).aux.bath) (fun gp => (i.outside v dat wet q gp).aux.bath) (n - gp - 1) := by
      simp only [bathHat, b1, b2, show n - (n - gp - 1) - 1 = gp by omega]
      rw [add_comm]
    rw [hb, q1, q2]
    rfl
  constructor
  · exact congrArg Prod.fst (key gp hgp)
  · have := congrArg Prod.snd (key (n - gp - 1) (by omega))
    simp only [show n - (n - gp - 1) - 1 = gp by omega] at this
    exact this

theorem swapped_eInt (h : Touches dat i) (wet : ℕ → Bool) (q : State K) (x x' : Faces K) (e : ℕ) :
    eInt v dat wet q x' e (swapped (i.rule v dat).length i) = eInt v dat wet q x e i := by
  unfold eInt
  have e1 : (swapped (Iface.rule v dat i).length i).ein = i.eex := rfl
  have e2 : (swapped (Iface.rule v dat i).length i).eex = i.ein := rfl
  rw [e1, e2]
  by_cases hw : (wet i.ein || wet i.eex) = true
  · rw [if_pos hw, if_pos (show (wet i.eex || wet i.ein) = true by rw [Bool.or_comm]; exact hw)]
    have t1 : Ehdg.inTerm v dat wet q x' (swapped (i.rule v dat).length i) = Ehdg.exTerm v dat wet q x i := by
      funext var dof
      unfold Ehdg.inTerm Ehdg.exTerm
      rw [swapped_rule, touches_J _ h]
      exact face_congr _ _ _ _ (fun gp hgp => by rw [(swapped_face h hw q x x' hgp).1]) dof
    have t2 : Ehdg.exTerm v dat wet q x' (swapped (i.rule v dat).length i) = Ehdg.inTerm v dat wet q x i := by
      funext var dof
      unfold Ehdg.inTerm Ehdg.exTerm
      rw [swapped_rule, touches_J _ h]
      exact face_congr _ _ _ _ (fun gp hgp => by rw [(swapped_face h hw q x x' hgp).2]) dof
    rw [t1, t2, add_comm]
  · rw [if_neg hw, if_neg (show ¬ (wet i.eex || wet i.ein) = true by rw [Bool.or_comm]; exact hw)]

/-- What an interface held before does not matter. -/
theorem junk_eInt (h : Touches dat i) (wet : ℕ → Bool) (q : State K) (x x' : Faces K) (e : ℕ) : eInt v dat wet q x' e i = eInt v dat wet q x e i := by
  unfold eInt
  by_cases hw : (wet i.ein || wet i.eex) = true
  · rw [if_pos hw, if_pos hw]
    have hf : ∀ gp < (i.rule v dat).length, (faceFlux v dat wet q x' i).1 gp = (faceFlux v dat wet q x i).1 gp ∧
        (faceFlux v dat wet q x' i).2 gp = (faceFlux v dat wet q x i).2 gp := fun gp hgp => by
      have a := swapped_face (x := x) (x' := x) h hw q hgp
      have b := swapped_face (x := x') (x' := x) h hw q hgp
      exact ⟨b.2.symm.trans a.2, b.1.symm.trans a.1⟩
    have t1 : Ehdg.inTerm v dat wet q x' i = Ehdg.inTerm v dat wet q x i := by
      funext var dof
      exact face_congr _ _ _ _ (fun gp hgp => by rw [(hf gp hgp).1]) dof
    have t2 : Ehdg.exTerm v dat wet q x' i = Ehdg.exTerm v dat wet q x i := by
      funext var dof
      exact face_congr _ _ _ _ (fun gp hgp => by rw [(hf gp hgp).2]) dof
    rw [t1, t2]
  · rw [if_neg hw, if_neg hw]

omit [IsStrictOrderedRing K] in
theorem same_bnd {wet : ℕ → Bool} {q : State K} {x x' : Faces K} {b : Bnd K} (h : x'.openF b = x.openF b) (e : ℕ) : eBnd v dat wet q x' e b = eBnd v dat wet q x e b := by
  unfold eBnd
  have : Ehdg.bndTerm v dat q x' b = Ehdg.bndTerm v dat q x b := by
    funext var dof
    unfold Ehdg.bndTerm Ehdg.bndFlux
    rw [h]
  rw [this]

/-- C123: the right-hand side. -/
theorem ehdg_reordered_rhs {m m' : Mesh K} (hn : m.elts.Nodup) (hm : ∀ i ∈ m.ints, Touches dat i) (hr : Reordered v dat m m') (wet : ℕ → Bool) (t : K)
    {x x' : Faces K} (hx : ∀ b ∈ m.bnds, x'.openF b = x.openF b) (q junk : State K) :
    Ehdg.localRhs v dat m' wet t x' q junk = Ehdg.localRhs v dat m wet t x q junk := by
  funext e
  rw [ehdg_rhs_at v dat m hn, ehdg_rhs_at v dat m' (hr.elts.nodup_iff.mpr hn)]
  have hb : (m'.bnds.map (eBnd v dat wet q x' e)).sum = (m.bnds.map (eBnd v dat wet q x e)).sum := by
    rw [(hr.bnds.map _).sum_eq]
    congr 1
    exact List.map_congr_left fun b hb => same_bnd (hx b hb) e
  have hi : (m'.ints.map (eInt v dat wet q x' e)).sum = (m.ints.map (eInt v dat wet q x e)).sum := by
    obtain ⟨l, h1, h2⟩ := hr.ints
    rw [(h2.map _).sum_eq]
    congr 1
    have key : ∀ {l l' : List (Iface K)}, List.Forall₂ (fun i i' => i' = i ∨ i' = swapped (i.rule v dat).length i) l l' → (∀ i ∈ l, Touches dat i) →
        l'.map (eInt v dat wet q x' e) = l.map (eInt v dat wet q x e) := by
      intro l l' h
      induction h with
      | nil => exact fun _ => rfl
      | cons hab _ ih =>
        intro hl
        rw [List.map_cons, List.map_cons, ih fun i hi => hl i (by simp [hi])]
        congr 1
        rcases hab with rfl | rfl
        · exact junk_eInt (hl _ (by simp)) wet q x x' e
        · exact swapped_eInt (hl _ (by simp)) wet q x x' e
    exact key h1 hm
  rw [hi, hb]
  simp only [hr.elts.mem_iff]

/-- A stage with the same right-hand side on a reordered mesh. -/
theorem reordered_stageWith {m m' : Mesh K} (hn : m.elts.Nodup) (hr : Reordered v dat m m') (tab : Stepper.Tableau) (ns : ℕ)
    (dt : K) (pp : PostParams K) (hsl : pp.sl ≠ none → Covered m ∧ ∀ e, 1 ≤ (dat e).elt.p) (R : (ℕ → Bool) → State K → State K) (s s' : Run K) :
    stageWith v dat m' tab ns dt pp R s = .ok s' ↔ stageWith v dat m tab ns dt pp R s = .ok s' := by
  have hslf : ∀ f, slAll v dat m' pp.sl f = slAll v dat m pp.sl f := by
    intro f
    unfold slAll
    cases hq : pp.sl with
    | none => rfl
    | some p =>
      obtain ⟨h1, h2⟩ := hsl (by rw [hq]; simp)
      simp only
      rw [reordered_limited hr h1 h2]
  unfold stageWith
  have hbind : ∀ {α β : Type} (a : Res α) (f g : α → Res β) (b : β), (∀ x, f x = .ok b ↔ g x = .ok b) → ((a >>= f) = .ok b ↔ (a >>= g) = .ok b) := by
    intro α β a f g b h
    cases a with
    | error e => exact ⟨(fun h => by cases h), (fun h => by cases h)⟩
    | ok x => exact h x
  refine hbind _ _ _ _ fun cur => hbind _ _ _ _ fun sl1 => hbind _ _ _ _ fun sl2 => hbind _ _ _ _ fun new => ?_
  simp only [hslf]
  constructor
  · intro h
    obtain ⟨f, h1, h2⟩ := bindOk h
    rw [(reordered_wd hn hr.elts pp.wd _ f).mp h1]
    exact h2
  · intro h
    obtain ⟨f, h1, h2⟩ := bindOk h
    rw [(reordered_wd hn hr.elts pp.wd _ f).mpr h1]
    exact h2

/-- C123: a run of any length of the hybridized discretization, with wetting and drying and the limiter, has the same result in whatever order elements,
interfaces and boundaries are visited, whichever element is the interior one of an interface and whatever the matrices of the interfaces held; one
succeeds if and only if the other does. -/
theorem ehdg_reordered_run {m m' : Mesh K} (hn : m.elts.Nodup) (hm : ∀ i ∈ m.ints, Touches dat i) (hr : Reordered v dat m m') (tab : Stepper.Tableau) (ns : ℕ)
    (dt : K) (pp : PostParams K) (hsl : pp.sl ≠ none → Covered m ∧ ∀ e, 1 ≤ (dat e).elt.p) (junk : State K) (time : ℕ → K) {x x' : ℕ → Faces K}
    (hx : ∀ k, ∀ b ∈ m.bnds, (x' k).openF b = (x k).openF b) (n : ℕ) (s s' : Run K) :
    Ehdg.run v dat m' tab ns dt pp junk time x' n s = .ok s' ↔ Ehdg.run v dat m tab ns dt pp junk time x n s = .ok s' := by
  unfold Ehdg.run
  induction n generalizing s' with
  | zero => exact Iff.rfl
  | succ n ih =>
    rw [runWith, runWith]
    have hR : (fun wet q => Ehdg.localRhs v dat m' wet (time n) (x' n) q junk) = fun wet q => Ehdg.localRhs v dat m wet (time n) (x n) q junk := by
      funext wet q
      exact ehdg_reordered_rhs hn hm hr wet (time n) (hx n) q junk
    constructor
    · intro h
      obtain ⟨y, h1, h2⟩ := bindOk h
      rw [(ih y).mp h1]
      rw [hR] at h2
      exact (reordered_stageWith hn hr tab ns dt pp hsl _ y s').mp h2
    · intro h
      obtain ⟨y, h1, h2⟩ := bindOk h
      rw [(ih y).mpr h1]
      simp only [okBind]
      rw [hR]
      exact (reordered_stageWith hn hr tab ns dt pp hsl _ y s').mpr h2

/-! ### Cases -/

/-- The two triangles in other order and with the other interior element, over any bed, even one that jumps. -/
example (tab : Tableau) (ns : ℕ) (dt : ℝ) (b : ℕ → ℕ → ℝ) (p : ℕ) (junk : State ℝ) (time : ℕ → ℝ) (x x' : ℕ → Faces ℝ) (hx : ∀ k, ∀ b, (x' k).openF b = (x k).openF b)
    (N : Numerics ℝ) (n : ℕ) (s s' : Run ℝ) :
    Ehdg.run (plainEnv N Real.sqrt) (twoTris p b) twoOther tab ns dt ⟨none, none⟩ junk time x' n s = .ok s' ↔
    Ehdg.run (plainEnv N Real.sqrt) (twoTris p b) twoMesh tab ns dt ⟨none, none⟩ junk time x n s = .ok s' := by
  refine ehdg_reordered_run (by simp [twoMesh]) (fun i hi => ?_) (two_reordered _ _) tab ns dt _ (fun h => absurd rfl h) junk time (fun k b _ => hx k b) n s s'
  obtain rfl : i = _ := by simpa [twoMesh] using hi
  refine ⟨?_, ?_, ?_, rfl⟩
  · norm_num [twoTris, jdet, Geometry.det, jac]
  · norm_num [twoTris, jdet, Geometry.det, jac]
  · norm_num [twoTris, faceVec, vertex]

/-- With a bed that jumps, for which the sides matter in the RKDG discretization (`swap_matters`), here they do not. -/
example : (Ehdg.localRhs (plainEnv simpleN simpleSq) (twoTris 1 fun e d => if d = 0 then (if e = 0 then 3 else 2) else 0) twoOther (fun _ => true) 0
      ⟨fun _ _ => 0, fun _ _ => 0, fun _ _ => 0⟩ (fun _ var d => if var = 0 ∧ d = 0 then 1 else 0) (fun _ _ _ => 0) 1 1 0) =
    (Ehdg.localRhs (plainEnv simpleN simpleSq) (twoTris 1 fun e d => if d = 0 then (if e = 0 then 3 else 2) else 0) twoMesh (fun _ => true) 0
      ⟨fun _ _ => 0, fun _ _ => 0, fun _ _ => 0⟩ (fun _ var d => if var = 0 ∧ d = 0 then 1 else 0) (fun _ _ _ => 0) 1 1 0) := by decide +kernel

end Verif.Ehdg.Props
