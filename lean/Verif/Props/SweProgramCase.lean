import Verif.Props.SweProgram
import Verif.Props.QuadFile
import Verif.Props.SweInitCase

/-!
# C107: generated meshes, and what happens to clockwise elements

The mesh generator writes files that satisfy what the theorems on the way from file to run require. The last part shows that the requirement on the orientation
of elements is not idle.
-/

namespace Verif.Swe.Props
open Verif.Geometry Verif.Geometry.Props Verif.Element Verif.Gn.Props MvPolynomial
open Verif.Adcirc (Fort14 getIbtype)
open Verif.QuadMesh (generate file)
open Verif.QuadMesh.Props (obj rmesh Face tri generated_mesh triangulation obj_isFace obj_conforming parsePattern_ok generate_eq read_file conforming face_dir
  face_idx face_flip)
open Verif.MeshMeta (Elts Dict)

section generated
variable {W : Type} (title : W) (bath : ℝ → ℝ → ℝ) (p m n : ℕ) (x0 y0 x1 y1 : ℝ) (types : List ℕ)

/-- The generated file as it is read. -/
theorem generated_read (hp : p ≤ 2) :
    ∃ pat, generate ⟨x0, y0, x1, y0, x1, y1, x0, y1⟩ bath p m n = .ok (rmesh bath pat m n x0 y0 x1 y1) ∧
      Adcirc.read (file title m n (rmesh bath pat m n x0 y0 x1 y1) types) = some (obj title (rmesh bath pat m n x0 y0 x1 y1) types) := by
  obtain ⟨pat, hpat⟩ := parsePattern_ok p hp
  refine ⟨pat, by rw [generate_eq, hpat]; rfl, ?_⟩
  apply read_file
  · simp [rmesh]
  · simp [rmesh]
  · have : (rmesh bath pat m n x0 y0 x1 y1).nodes.map QuadMesh.Node.id = List.range ((m + 1) * (n + 1)) := by
      simp only [rmesh, List.map_map, Function.comp_def, QuadMesh.Props.node]
      exact List.map_id _
    rw [this]
    exact List.nodup_range
  · have : (rmesh bath pat m n x0 y0 x1 y1).elements.map QuadMesh.Elt.id = List.range (2 * m * n) := by
      simp only [rmesh, List.map_map, Function.comp_def, tri]
      exact List.map_id _
    rw [this]
    exact List.nodup_range

/-- **C107** Generated files with sides of the types 0 to 3 are good: numbers are distinct, elements run counterclockwise, edges are run through in opposite
directions, and each edge of one element only has the type of its side. -/
theorem generated_good (hp : p ≤ 2) (hm : 0 < m) (hn : 0 < n) (hN : (m + 1) * (n + 1) ≤ 2 ^ 32) (hE : 2 * m * n < 2 ^ 32) (hx : x0 < x1) (hy : y0 < y1)
    (hlen : types.length = 4) (ht : ∀ t ∈ types, t ≤ 3) :
    ∃ M F, generate ⟨x0, y0, x1, y0, x1, y1, x0, y1⟩ bath p m n = .ok M ∧ Adcirc.read (file title m n M types) = some F ∧
      (∀ pos : ℕ → P2 ℝ, (∀ k x y z, (k, x, y, z) ∈ F.nodes → pos k = ⟨x, y⟩) → GoodFile pos F) ∧ (F.nodes.map Prod.fst).Nodup ∧
      (∀ k x y z, (k, x, y, z) ∈ F.nodes → z = bath x y) ∧
      (∀ e ty a b c, (e, ty, a, b, c) ∈ F.elements → ∀ k ∈ [a, b, c], (F.nodes.lookup k).isSome = true) ∧
      (∀ e k a b t, MeshMeta.Props.IsFace F e k a b → Alone F e k a b → getIbtype F a b = .ok t → t ∈ types) := by
  obtain ⟨pat, hgen, hread⟩ := generated_read title bath p m n x0 y0 x1 y1 types hp
  obtain ⟨M', F', hM', hF', hall⟩ := generated_mesh title bath p m n hp hm hn hN hE x0 y0 x1 y1 hx hy types hlen fun t h => (ht t h).trans (by omega)
  rw [hgen, Except.ok.injEq] at hM'
  subst hM'
  rw [hread, Option.some.injEq] at hF'
  subst hF'
  obtain ⟨M2, hM2, -, hnz, -, hid, hcor, -⟩ := triangulation bath p m n hp hm hn x0 y0 x1 y1 hx hy
  rw [hgen, Except.ok.injEq] at hM2
  subst hM2
  have hC := obj_conforming title bath pat m n x0 y0 x1 y1 types hN hE
  have hnd : ((obj title (rmesh bath pat m n x0 y0 x1 y1) types).nodes.map Prod.fst).Nodup := by
    have : (obj title (rmesh bath pat m n x0 y0 x1 y1) types).nodes.map Prod.fst = List.range ((m + 1) * (n + 1)) := by
      simp only [obj, rmesh, List.map_map, Function.comp_def, QuadMesh.Props.node]
      exact List.map_id _
    rw [this]
    exact List.nodup_range
  have hmemN : ∀ {A : QuadMesh.Node ℝ}, A ∈ (rmesh bath pat m n x0 y0 x1 y1).nodes → (A.id, A.x, A.y, A.z) ∈ (obj title (rmesh bath pat m n x0 y0 x1 y1) types).nodes :=
    fun h => List.mem_map.mpr ⟨_, h, rfl⟩
  -- elements with their corners
  have helt : ∀ e ty a b c, (e, ty, a, b, c) ∈ (obj title (rmesh bath pat m n x0 y0 x1 y1) types).elements →
      ∃ A B C : QuadMesh.Node ℝ, A.id = a ∧ B.id = b ∧ C.id = c ∧ A ∈ (rmesh bath pat m n x0 y0 x1 y1).nodes ∧ B ∈ (rmesh bath pat m n x0 y0 x1 y1).nodes ∧
        C ∈ (rmesh bath pat m n x0 y0 x1 y1).nodes ∧ 0 < QuadMesh.Props.area2 A.x A.y B.x B.y C.x C.y := by
    intro e ty a b c he
    obtain ⟨x, hx, heq⟩ := List.mem_map.mp he
    obtain ⟨A, B, C, ⟨hn3, hA, hB, hC'⟩, -, hpos⟩ := hcor x hx
    simp only [hn3, Prod.mk.injEq] at heq
    obtain ⟨-, -, rfl, rfl, rfl⟩ := heq
    exact ⟨A, B, C, rfl, rfl, rfl, List.mem_of_getElem? hA, List.mem_of_getElem? hB, List.mem_of_getElem? hC', hpos⟩
  -- types of lonely faces
  have htype : ∀ e k a b, MeshMeta.Props.IsFace (obj title (rmesh bath pat m n x0 y0 x1 y1) types) e k a b →
      Alone (obj title (rmesh bath pat m n x0 y0 x1 y1) types) e k a b → ∃ t ∈ types, getIbtype (obj title (rmesh bath pat m n x0 y0 x1 y1) types) a b = .ok t := by
    intro e k a b hf hal
    obtain ⟨E, hE', -, hs⟩ := hall (MeshMeta.edgeDict (obj title (rmesh bath pat m n x0 y0 x1 y1) types).elements) (List.Perm.refl _)
    obtain ⟨he, hf'⟩ := (obj_isFace title bath pat m n x0 y0 x1 y1 types e k a b).mp hf
    obtain ⟨A, B, -, -, h1, h2⟩ := hs (tri pat m e) (List.mem_map.mpr ⟨e, List.mem_range.mpr he, rfl⟩) k a b hf'
    obtain ⟨nb, bt, hbt, hslot, -⟩ := ((MeshMeta.Props.adjacency _ hC _ (List.Perm.refl _) E hE').2 e k a b hf).2 hal
    by_cases hside : ∃ s < 4, QuadMesh.Props.OnSide x0 y0 x1 y1 s A ∧ QuadMesh.Props.OnSide x0 y0 x1 y1 s B
    · obtain ⟨s, hs4, ha, hb⟩ := hside
      obtain ⟨t, htt, hsl⟩ := h1 s hs4 ha hb
      have : some (nb, bt) = some (2 ^ 32 - 1, t) := hslot.symm.trans hsl
      simp only [Option.some.injEq, Prod.mk.injEq] at this
      exact ⟨t, List.mem_of_getElem? htt, this.2 ▸ hbt⟩
    · push Not at hside
      obtain ⟨e', he', f', hr, -⟩ := h2 fun s hs4 hc => hside s hs4 hc.1 hc.2
      obtain ⟨j, hj, rfl⟩ := List.mem_map.mp he'
      have hj' := List.mem_range.mp hj
      have := hal j f' b a ((obj_isFace title bath pat m n x0 y0 x1 y1 types j f' b a).mpr ⟨hj', hr⟩) Sym2.eq_swap
      simp only [Prod.mk.injEq] at this
      obtain ⟨rfl, rfl⟩ := this
      exact (face_flip hj' hf' hr).elim
  refine ⟨_, _, hgen, hread, fun pos hpos => ?_, hnd, ?_, ?_, ?_⟩
  · refine ⟨hC.ids, hC.small, ?_, ?_, ?_, ?_⟩
    · intro a b q h
      simp [Adcirc.getInternalNodePair, obj, Adcirc.internalPair] at h
    · intro e ty a b c he
      obtain ⟨A, B, C, rfl, rfl, rfl, hA, hB, hC', hp'⟩ := helt e ty a b c he
      rw [hpos _ _ _ _ (hmemN hA), hpos _ _ _ _ (hmemN hB), hpos _ _ _ _ (hmemN hC'), cross_jdet]
      unfold QuadMesh.Props.area2 at hp'
      linarith
    · intro e k e' k' a b h h'
      obtain ⟨he, hf⟩ := (obj_isFace title bath pat m n x0 y0 x1 y1 types e k a b).mp h
      obtain ⟨he', hf'⟩ := (obj_isFace title bath pat m n x0 y0 x1 y1 types e' k' a b).mp h'
      have := conforming pat m n e e' he he' a b (face_dir hf) (face_dir hf')
      subst this
      rw [face_idx he hf hf']
    · intro e k a b hf hal
      obtain ⟨t, h1, h2⟩ := htype e k a b hf hal
      exact ⟨t, ht t h1, h2⟩
  · intro k x y z h
    obtain ⟨A, hA, heq⟩ := List.mem_map.mp h
    simp only [Prod.mk.injEq] at heq
    obtain ⟨rfl, rfl, rfl, rfl⟩ := heq
    obtain ⟨i, hi⟩ := List.mem_iff_getElem?.mp hA
    exact (hnz i A hi).2
  · intro e ty a b c he k hk
    obtain ⟨A, B, C, rfl, rfl, rfl, hA, hB, hC', -⟩ := helt e ty a b c he
    simp only [List.mem_cons, List.not_mem_nil, or_false] at hk
    rcases hk with rfl | rfl | rfl
    · rw [MeshMeta.lookup_of_mem hnd (hmemN hA)]; rfl
    · rw [MeshMeta.lookup_of_mem hnd (hmemN hB)]; rfl
    · rw [MeshMeta.lookup_of_mem hnd (hmemN hC')]; rfl
  · intro e k a b t hf hal htt
    obtain ⟨t', h1, h2⟩ := htype e k a b hf hal
    rw [htt, Except.ok.injEq] at h2
    exact h2 ▸ h1

/-- **C107** The whole way: a rectangle meshed by the generator, written to a file, read by the program, and run. With land on all sides, Cartesian coordinates and
any bathymetry that leaves the nodes deep enough, a lake with a uniform level stays at rest for any number of stages. -/
theorem generated_lake (hp : p ≤ 2) (hm : 0 < m) (hn : 0 < n) (hN : (m + 1) * (n + 1) ≤ 2 ^ 32) (hE : 2 * m * n < 2 ^ 32) (hx : x0 < x1) (hy : y0 < y1)
    {g : Program ℝ} {F : ℕ → MvPolynomial (Fin 2) ℝ} {P : ℕ} (hR : Rules g.env.N F P 0) (hO : Orthogonal g.env.N F P) (hS : SymRules g.env.N P) (hP : g.p ≤ P) (h1 : 1 ≤ g.p)
    (hq : IsSqrt g.env.sq) (hdata : g.data.tide = [] ∧ g.data.flow = []) (hsys : g.inp.sys = false) (hflat : g.inp.sph.enabled = false) {L : ℝ}
    (hU : g.inp.ic = .constant ⟨L, 0, 0⟩ ∨ g.inp.ic = .default ⟨L, 0, 0⟩) (hd : ∀ ho, g.inp.wd = some ho → 0 < ho ∧ ∀ x y, ho + threshold ho < L + bath x y)
    {tab : Stepper.Tableau} {ns o : ℕ} (htab : Stepper.tableau ns o = some tab)
    (hrow : (ns, o) ∈ [(1, 1), (2, 2), (3, 3), (4, 3), (6, 3), (7, 4), (8, 4)]) (dt : ℝ) (sl : Option (SlParams ℝ)) (temp : ℕ → ℕ → ℝ) (junk : State ℝ)
    (time ramp : ℕ → ℝ) (hsrc : g.env.src.functionSource = true → ∀ k x, g.env.fs (time k) x = ⟨0, 0, 0⟩) :
    ∃ M T, generate ⟨x0, y0, x1, y0, x1, y1, x0, y1⟩ bath p m n = .ok M ∧ Adcirc.read (file title m n M [0, 0, 0, 0]) = some T ∧
      ∀ order : Dict, order.Perm (MeshMeta.edgeDict T.elements) → ∃ S mesh, g.start T order = .ok (S, mesh) ∧ mesh.elts = T.elements.map Prod.fst ∧
        ∀ (slots : List (Stepper.Slot (State ℝ))) (rhs : State ℝ), ns + 1 ≤ slots.length → slots[0]? = some ⟨S.q0, rhs⟩ → ∀ n,
          ∃ s sl', runSerial S.v S.dat mesh tab ns dt ⟨S.wdParams temp, sl⟩ junk time ramp n ⟨slots, 0, S.wet0, false⟩ = .ok s ∧ s.emptied = false ∧
            s.slots[s.stage]? = some sl' ∧ AtRest S.dat mesh.elts L sl'.q ∧ ∀ e ∈ mesh.elts, s.wet e = true := by
  obtain ⟨M, T, hM, hT, hgood, hnd, hz, hnodes, htypes⟩ := generated_good title bath p m n x0 y0 x1 y1 [0, 0, 0, 0] hp hm hn hN hE hx hy rfl (by simp)
  refine ⟨M, T, hM, hT, fun order hperm => ?_⟩
  have hpos : ∀ k x y z, (k, x, y, z) ∈ T.nodes → finalPos g T k = ⟨x, y⟩ := by
    intro k x y z h
    unfold finalPos preprocessNodes
    rw [hsys]
    simp only [Bool.false_eq_true, if_false, nodeAt, MeshMeta.lookup_of_mem hnd h]
    rfl
  have hzero : ∀ t, t ≠ 0 → ∀ e k a b, MeshMeta.Props.IsFace T e k a b → Alone T e k a b → getIbtype T a b = .ok t → False := by
    intro t h0 e k a b h1 h2 h3
    have := htypes e k a b t h1 h2 h3
    simp at this
    exact h0 this
  have hfed : Fed g T := by
    refine ⟨hnodes, ?_, ?_, ?_⟩
    · intro e k a b h1 h2 h3
      exact (hzero 1 (by omega) e k a b h1 h2 h3).elim
    · intro e k a b h1 h2 h3
      exact (hzero 2 (by omega) e k a b h1 h2 h3).elim
    · rw [hdata.1, hdata.2]
      simp
  refine program_lake hR hO hS hP h1 hq (hgood _ hpos) hfed (by unfold Silent; rw [hdata.1, hdata.2]; simp) hflat hU ?_ ?_ hperm htab hrow dt sl temp junk time ramp hsrc ?_
  · intro ho hwd
    obtain ⟨d1, d2⟩ := hd ho hwd
    refine ⟨d1, ?_⟩
    rintro ⟨k, x, y, z⟩ h
    rw [show (k, x, y, z).2.2.2 = z from rfl, hz k x y z h]
    exact d2 x y
  · rintro ⟨e, k, a, b, h1, h2, h3⟩
    exact (hzero 1 (by omega) e k a b h1 h2 h3).elim
  · rintro ⟨e, k, a, b, h1, h2, h3⟩
    exact (hzero 3 (by omega) e k a b h1 h2 h3).elim

end generated

/-- The hypotheses of `generated_lake` can be satisfied: 60 by 40 rectangles over a parabolic bed, elements of degree 2, wetting and drying on, a scheme of order 3. -/
example (tab : Stepper.Tableau) (htab : Stepper.tableau 3 3 = some tab) (dt : ℝ) (junk : State ℝ) :
    let g : Program ℝ := ⟨plainEnv cubicN Real.sqrt, fun x => x, ⟨false, ⟨false, 1, 0, 0⟩, .constant ⟨1, 0, 0⟩, none, false, some (1 / 10)⟩, 2, ⟨[], [], []⟩⟩
    ∃ M T, generate ⟨0, 0, 600, 0, 600, 400, 0, 400⟩ (fun x _ => 5 + x ^ 2) 1 60 40 = .ok M ∧ Adcirc.read (file 7 60 40 M [0, 0, 0, 0]) = some T ∧
      ∃ S mesh, g.start T (MeshMeta.edgeDict T.elements) = .ok (S, mesh) ∧
        ∃ s sl', runSerial S.v S.dat mesh tab 3 dt ⟨S.wdParams (fun _ _ => 0), none⟩ junk (fun k => k * dt) (fun _ => 1) 100
            ⟨List.replicate 4 ⟨S.q0, junk⟩, 0, S.wet0, false⟩ = .ok s ∧ s.slots[s.stage]? = some sl' ∧ AtRest S.dat mesh.elts 1 sl'.q := by
  intro g
  obtain ⟨M, T, h1, h2, h3⟩ := generated_lake 7 (fun x _ => 5 + x ^ 2) 1 60 40 0 0 600 400 (by omega) (by omega) (by omega) (by norm_num) (by norm_num) (by norm_num)
    (by norm_num) (g := g) cubic_rules cubic_orthogonal cubic_symmetric (show 2 ≤ 3 by omega) (show 1 ≤ 2 by omega) real_isSqrt ⟨rfl, rfl⟩ rfl rfl (Or.inl rfl)
    (fun ho hh => by
      obtain rfl : (1 / 10 : ℝ) = ho := by simpa [g] using hh
      refine ⟨by norm_num, fun x y => ?_⟩
      have ht := (threshold_range (K := ℝ) (ho := 1 / 10) (by norm_num)).2
      have := sq_nonneg x
      linarith) htab (by decide) dt none (fun _ _ => 0) junk (fun k => k * dt) (fun _ => 1) (fun hs => by simp [g, plainEnv] at hs)
  obtain ⟨S, mesh, h4, -, h5⟩ := h3 _ (List.Perm.refl _)
  obtain ⟨s, sl', h6, -, h7, h8, -⟩ := h5 (List.replicate 4 ⟨S.q0, junk⟩) junk (by simp) (by simp) 100
  exact ⟨M, T, h1, h2, S, mesh, h4, s, sl', h6, h7, h8⟩

/-! ### Two triangles -/

/-- A square of two triangles; the second one has the given corners. Land all around but for the left side, where there is a tide. -/
def squareFile (a b c : ℕ) : Fort14 ℕ ℚ :=
  { name := 0, nodes := [(1, 0, 0, 5), (2, 4, 0, 6), (3, 4, 3, 7), (4, 0, 3, 8)], elements := [(1, 3, 1, 2, 3), (2, 3, a, b, c)], NOPE := 1, NETA := 2,
    NBDV := [[4, 1]], NBOU := 1, NVEL := 4, IBTYPE := [0], NBVV := [[1, 2, 3, 4]], BAR := [], gen := none, NBGN := [] }

/-- One constituent at the nodes of the left side. -/
def squareProgram : Program ℚ :=
  ⟨plainEnv simpleN simpleSq, fun _ => 0, ⟨false, ⟨false, 1, 0, 0⟩, .constant ⟨0, 0, 0⟩, none, false, none⟩, 1,
    ⟨[], [[(4, ⟨[2], [1], [0], [3], [0]⟩), (1, ⟨[2], [1], [0], [5], [0]⟩)]], []⟩⟩

def kindCode : BndKind ℚ → ℕ
  | .land => 0
  | .tide _ => 1
  | .flow _ => 2
  | .function => 3

def tideAmps : BndKind ℚ → List ℚ
  | .tide cs => ((List.range 3).flatMap cs).map (·.amp)
  | _ => []

/-- Ends of a face in the order in which the counterclockwise triangle runs through it. -/
def endsOf (S : Setup ℚ) (e f : ℕ) : List ℚ :=
  [(vertex (S.elt e).tri ((f + 1) % 3)).x, (vertex (S.elt e).tri ((f + 1) % 3)).y, (vertex (S.elt e).tri ((f + 2) % 3)).x, (vertex (S.elt e).tri ((f + 2) % 3)).y]

/-- What the program makes of the file: interfaces with the ends of their two sides. -/
def seams (m : Fort14 ℕ ℚ) : Option (List (List ℕ × List ℚ × List ℚ)) :=
  match squareProgram.start m (MeshMeta.edgeDict m.elements) with
  | .ok (S, M) => some (M.ints.map fun i => ([i.ein, i.fin, i.eex, i.fex], endsOf S i.ein i.fin, endsOf S i.eex i.fex))
  | .error _ => none

/-- Boundaries with type, ends, and amplitudes at the Gauss points. -/
def shores (m : Fort14 ℕ ℚ) : Option (List (List ℕ × List ℚ × List ℚ)) :=
  match squareProgram.start m (MeshMeta.edgeDict m.elements) with
  | .ok (S, M) => some (M.bnds.map fun b => ([b.e, b.f, kindCode b.kind], endsOf S b.e b.f, tideAmps b.kind))
  | .error _ => none

/-- Both triangles counterclockwise: the interface is the diagonal seen from both sides, the tide has its amplitudes along the left side. -/
example : seams (squareFile 1 3 4) = some [([1, 1, 2, 2], [4, 3, 0, 0], [0, 0, 4, 3])] ∧
    shores (squareFile 1 3 4) = some [([1, 0, 0], [4, 0, 4, 3], []), ([1, 2, 0], [0, 0, 4, 0], []), ([2, 0, 0], [4, 3, 0, 3], []), ([2, 1, 1], [0, 3, 0, 0], [3, 4, 5])] := by
  decide +kernel

/-- **C107** The orientation is needed: with the second triangle listed clockwise the program starts, but joins the diagonal of the first triangle to the upper
side of the second one, makes the diagonal land for the second one, and runs through the amplitudes along the left side backwards. -/
theorem clockwise_program : seams (squareFile 4 3 1) = some [([1, 1, 2, 0], [4, 3, 0, 0], [4, 3, 0, 3])] ∧
    shores (squareFile 4 3 1) = some [([1, 0, 0], [4, 0, 4, 3], []), ([1, 2, 0], [0, 0, 4, 0], []), ([2, 2, 0], [0, 0, 4, 3], []), ([2, 1, 1], [0, 3, 0, 0], [5, 4, 3])] := by
  decide +kernel

end Verif.Swe.Props
