import Verif.Props.Clusterer
import Verif.Lemmas.ClustererEigen
import Mathlib.Tactic.NormNum
import Mathlib.Tactic.IntervalCases

/-!
# C65: cases that meet the hypotheses
-/

namespace Verif.Clusterer

open Verif Verif.AbstractMesh
open Verif.Clusterer.Spec
open Verif.Predicates (P3)
open Verif.Geometry (Cross cornerSet)
open Verif.Snapper.Spec (sides net Embedded)
open Verif.Graph.Spec
open Verif.PrimLattice (Prim)
open Verif.PrimLattice.Prim (roundAway round_unique)
open Verif.MeshDefects.Spec (Incident DistinctCorners PathOrCycle link IsSchedule)

open Classical in
/-- Vertices and faces in a cube with the lattice of integers. -/
noncomputable def unitInput (vs : List P3) (fs : List Face) : Input where
  vertices := vs
  faces := fs
  L := ⟨(-10, -10, -10), (10, 10, 10), (1, 0, 0), (0, 1, 0), (0, 0, 1)⟩
  resolution := 1
  T := id
  Tinv := id
  es := fun a => if h : Spec.Symmetric a then (exists_eigen a h).choose else (fun _ => 0, fun _ => 0)
  schedV := fun _ n => [[], List.range n]
  schedF := fun _ n => [(List.range n).reverse]
  ord := List.reverse

theorem unit_eigen (vs : List P3) (fs : List Face) (a : M3) (h : Spec.Symmetric a) : IsEigen a ((unitInput vs fs).es a) := by
  have e : (unitInput vs fs).es a = (exists_eigen a h).choose := by
    unfold unitInput
    dsimp only
    rw [dif_pos h]
  rw [e]
  exact (exists_eigen a h).choose_spec

theorem unit_det (vs : List P3) (fs : List Face) : (unitInput vs fs).L.det = 1 := by
  simp [unitInput, Prim.det, PrimLattice.dot, PrimLattice.cross]

theorem unit_safe (vs : List P3) (fs : List Face) : SnapSafe (unitInput vs fs) := by
  refine C65_snap_safe (by rw [unit_det]; exact one_ne_zero) (by simp [unitInput]) ?_
  rw [unit_det]
  intro w hw
  simp only [unitInput, PrimLattice.cross, List.mem_cons, List.not_mem_nil, or_false] at hw
  rcases hw with rfl | rfl | rfl <;> simp [unitInput] <;> norm_num

theorem round_zero : roundAway 0 = 0 := round_unique (by simp)

theorem unit_rounded (vs : List P3) (fs : List Face) (p : P3) : (unitInput vs fs).L.rounded p = ⟨roundAway p.1, roundAway p.2.1, roundAway p.2.2⟩ := by
  have hc : ∀ q : P3, (unitInput vs fs).L.coords q = q := by
    intro q
    unfold Prim.coords
    rw [unit_det]
    simp [unitInput, PrimLattice.dot, PrimLattice.cross]
  have ho : (unitInput vs fs).L.origin = ⟨0, 0, 0⟩ := by
    unfold Prim.origin
    rw [hc]
    have : (unitInput vs fs).L.center = (0, 0, 0) := by simp [unitInput, Prim.center]
    rw [this]
    simp only [round_zero]
  unfold Prim.rounded Prim.unrounded
  rw [hc, ho]
  simp

theorem unit_valid {vs : List P3} {fs : List Face} (h1 : ∀ f ∈ fs, f.1 < vs.length ∧ f.2.1 < vs.length ∧ f.2.2 < vs.length)
    (h2 : ∀ f ∈ fs, DistinctCorners (Spec.corners vs f)) : Valid (unitInput vs fs) :=
  ⟨h1, h2, by rw [unit_det]; exact one_ne_zero, by simp [unitInput], fun _ n => by simp [unitInput, IsSchedule],
    fun _ n => by simp [unitInput, IsSchedule, List.reverse_perm], fun l x => by simp [unitInput]⟩

/-- The node in the middle of the cube is strictly inside the extended box. -/
theorem unit_inside (vs : List P3) (fs : List Face) : let p := (unitInput vs fs).L.position ⟨0, 0, 0⟩; let lo := (unitInput vs fs).L.extLo 1; let hi := (unitInput vs fs).L.extHi 1
    (lo.1 < p.1 ∧ p.1 < hi.1) ∧ (lo.2.1 < p.2.1 ∧ p.2.1 < hi.2.1) ∧ (lo.2.2 < p.2.2 ∧ p.2.2 < hi.2.2) := by
  have ho : (unitInput vs fs).L.origin = ⟨0, 0, 0⟩ := by
    unfold Prim.origin Prim.coords
    rw [unit_det]
    have : (unitInput vs fs).L.center = (0, 0, 0) := by simp [unitInput, Prim.center]
    rw [this]
    simp [PrimLattice.dot, round_zero]
  have hp : (unitInput vs fs).L.position ⟨0, 0, 0⟩ = (0, 0, 0) := by
    unfold Prim.position Prim.at_
    rw [ho]
    simp [Prim.cast]
  rw [hp]
  simp only [Prim.extLo, Prim.extHi, Prim.least, Prim.greatest, Prim.step, Lattice.deltas, unitInput]
  norm_num

/-! ## A strip of two faces, with a short edge -/

noncomputable def stripVertices : List P3 := [(-1 / 4, 0, 0), (0, 0, 0), (0, 3, 0), (3, 0, 0)]
def stripFaces : List Face := [(0, 1, 2), (1, 3, 2)]
noncomputable def strip : Input := unitInput stripVertices stripFaces

theorem strip_valid : Valid strip := by
  refine unit_valid ?_ ?_
  · intro f hf
    simp only [stripFaces, List.mem_cons, List.not_mem_nil, or_false] at hf
    rcases hf with rfl | rfl <;> simp [stripVertices]
  · intro f hf
    simp only [stripFaces, List.mem_cons, List.not_mem_nil, or_false] at hf
    rcases hf with rfl | rfl <;> simp [stripVertices, DistinctCorners, Spec.corners, Spec.pos]

theorem strip_node (v : Nat) (hv : v < 4) : (strip.L.rounded (pos strip.vertices v) = ⟨0, 0, 0⟩) ↔ v < 2 := by
  unfold strip
  rw [unit_rounded]
  have h3 : roundAway (3 : ℝ) = 3 := round_unique (by norm_num)
  have hq : roundAway (-1 / 4 : ℝ) = 0 := round_unique (by norm_num [abs_of_neg])
  interval_cases v <;> simp [unitInput, stripVertices, Spec.pos, round_zero, h3, hq]

theorem strip_candidate : Candidate strip [0, 1] := by
  have hnode : ∀ u v, Relation.EqvGen (Link strip) u v → strip.L.rounded (pos strip.vertices u) = strip.L.rounded (pos strip.vertices v) := by
    intro u v h
    induction h with
    | rel _ _ h => exact h.2
    | refl => rfl
    | symm _ _ _ ih => exact ih.symm
    | trans _ _ _ _ _ ih1 ih2 => exact ih1.trans ih2
  have h01 : Link strip 0 1 := ⟨by simp [strip, unitInput, stripFaces, sides], by rw [(strip_node 0 (by norm_num)).2 (by norm_num), (strip_node 1 (by norm_num)).2 (by norm_num)]⟩
  refine ⟨by simp, by simp, ?_, ?_, ?_⟩
  · intro v hv
    have : v < 2 := by simp at hv; omega
    show v < stripVertices.length
    simp [stripVertices]; omega
  · intro u hu v hv
    have hu2 : u < 2 := by simp at hu; omega
    have hv4 : v < 4 := by simpa [strip, unitInput, stripVertices] using hv
    have hmem : v ∈ [0, 1] ↔ v < 2 := by simp; omega
    rw [hmem]
    constructor
    · intro hv2
      interval_cases u <;> interval_cases v
      · exact Relation.EqvGen.refl _
      · exact Relation.EqvGen.rel _ _ h01
      · exact Relation.EqvGen.symm _ _ (Relation.EqvGen.rel _ _ h01)
      · exact Relation.EqvGen.refl _
    · intro h
      rw [← strip_node v hv4, ← hnode u v h]
      exact (strip_node u (by omega)).2 hu2
  · intro v hv
    have : v < 2 := by simp at hv; omega
    rw [(strip_node v (by omega)).2 this]
    exact unit_inside _ _

/-- The hypotheses of the theorems about a single run are met by a mesh with something to merge. -/
example : Valid strip ∧ SnapSafe strip ∧ (∀ a, Spec.Symmetric a → IsEigen a (strip.es a)) ∧ ∃ c, Candidate strip c :=
  ⟨strip_valid, unit_safe _ _, unit_eigen _ _, _, strip_candidate⟩

theorem strip_same {K : List Nat → Prop} (hK : ∀ c, K c ↔ Candidate strip c) {u v : Nat} (hu : u < 4) (hv : v < 4) :
    (u = v ∨ ∃ c, K c ∧ u ∈ c ∧ v ∈ c) ↔ u = v ∨ (u < 2 ∧ v < 2) := by
  constructor
  · rintro (h | ⟨c, k, hcu, hcv⟩)
    · exact Or.inl h
    · have hc := (hK c).1 k
      -- a candidate has at least two vertices in the same node, so it is that of the node in the middle
      by_cases h0 : u < 2
      · refine Or.inr ⟨h0, ?_⟩
        rw [← strip_node v hv, ← hc.node hcu hcv]
        exact (strip_node u hu).2 h0
      · left
        have hn := hc.node hcu hcv
        have h3 : roundAway (3 : ℝ) = 3 := round_unique (by norm_num)
        have hv0 : ¬ v < 2 := by rw [← strip_node v hv, ← hn, strip_node u hu]; exact h0
        unfold strip at hn
        rw [unit_rounded, unit_rounded] at hn
        have c1 : u = 2 ∨ u = 3 := by omega
        have c2 : v = 2 ∨ v = 3 := by omega
        rcases c1 with rfl | rfl <;> rcases c2 with rfl | rfl <;> simp [unitInput, stripVertices, Spec.pos, round_zero, h3] at hn ⊢
  · rintro (h | ⟨h1, h2⟩)
    · exact Or.inl h
    · refine Or.inr ⟨_, (hK _).2 strip_candidate, ?_, ?_⟩ <;> simp <;> omega

theorem pathOrCycle_one {x y : Nat} (h : x ≠ y) : PathOrCycle [(x, y)] := by
  have honly : ∀ z, MeshDefects.Spec.OnLink [(x, y)] z → z = x ∨ z = y := by
    rintro z ⟨e, he, hz⟩
    rw [List.mem_singleton] at he
    subst he
    rcases hz with rfl | rfl
    · exact Or.inl rfl
    · exact Or.inr rfl
  have hxy : Reach [(x, y)] x y := Relation.ReflTransGen.single (Or.inl (by simp))
  have hyx : Reach [(x, y)] y x := Relation.ReflTransGen.single (Or.inr (by simp))
  refine ⟨⟨?_, ?_⟩, ?_, ?_⟩
  · intro v hv
    simp only [List.mem_singleton, Prod.mk.injEq] at hv
    exact h (hv.1.symm.trans hv.2)
  · intro a b; exact List.countP_le_length
  · intro a b ha hb
    rcases honly a ha with rfl | rfl <;> rcases honly b hb with rfl | rfl
    · exact Relation.ReflTransGen.refl
    · exact hxy
    · exact hyx
    · exact Relation.ReflTransGen.refl
  · intro z
    exact le_trans List.countP_le_length (by simp)

/-- **C65, a merge.** In the strip the short edge is contracted: one face is left, and the merge is not undone. -/
theorem C65_strip : ∃ out place num, clusterVertices strip = .ok out ∧ Candidate strip [0, 1] ∧ Quotient strip (Candidate strip) place num out ∧ num 0 = num 1 ∧ out.faces.length = 1 := by
  obtain ⟨out, K, place, e, -, hr⟩ := C65_rounds strip_valid (unit_safe _ _) (unit_eigen _ _)
  have hfaces : ∀ (K : List Nat → Prop) (num : Nat → Nat) (out : Out), (∀ c, K c ↔ Candidate strip c) → Quotient strip K place num out →
      num 0 = num 1 ∧ out.faces = [(num 1, num 3, num 2)] ∧ Nondeg (num 1, num 3, num 2) := by
    intro K num out hK hq
    have hin : ∀ v < 4, Incident strip.faces v := by
      intro v hv
      have : v = 0 ∨ v = 1 ∨ v = 2 ∨ v = 3 := by omega
      rcases this with rfl | rfl | rfl | rfl
      · exact ⟨(0, 1, 2), by simp [strip, unitInput, stripFaces], by simp⟩
      · exact ⟨(0, 1, 2), by simp [strip, unitInput, stripFaces], by simp⟩
      · exact ⟨(0, 1, 2), by simp [strip, unitInput, stripFaces], by simp⟩
      · exact ⟨(1, 3, 2), by simp [strip, unitInput, stripFaces], by simp⟩
    have hs : ∀ u v, u < 4 → v < 4 → (num u = num v ↔ u = v ∨ (u < 2 ∧ v < 2)) := fun u v hu hv =>
      (hq.numbering.same u v (hin u hu) (hin v hv)).trans (strip_same hK hu hv)
    have h01 : num 0 = num 1 := (hs 0 1 (by norm_num) (by norm_num)).2 (by norm_num)
    have h12 : num 1 ≠ num 2 := by rw [Ne, hs 1 2 (by norm_num) (by norm_num)]; norm_num
    have h13 : num 1 ≠ num 3 := by rw [Ne, hs 1 3 (by norm_num) (by norm_num)]; norm_num
    have h32 : num 3 ≠ num 2 := by rw [Ne, hs 3 2 (by norm_num) (by norm_num)]; norm_num
    have hren : renamed num strip.faces = [(num 1, num 3, num 2)] := by
      show renamed num stripFaces = _
      unfold renamed stripFaces rename
      simp [h01, h12, h13, h32, h12.symm]
    obtain ⟨p, hp, ef⟩ := hq.faces
    have hnf : ¬ Folded (renamed num strip.faces) (num 1, num 3, num 2) := by
      rw [hren]
      rintro ⟨-, hc, -⟩
      have : coincident [(num 1, num 3, num 2)] (num 1, num 3, num 2) ≤ 1 := List.countP_le_length
      omega
    refine ⟨h01, ?_, h13, h32, h12.symm⟩
    rw [ef, hren, List.filter_cons, if_pos ((hp _).2 hnf), List.filter_nil]
  have hclean : ∀ (out : Out) (f : Face), out.faces = [f] → Nondeg f → ∀ a, ¬ Flagged out a := by
    rintro out f ef hn a (⟨⟨g, hg, hc⟩, h⟩ | ⟨g, hg, -, i, j, k, hij, hi, hj, -⟩)
    · apply h
      rw [ef] at hg ⊢
      rw [List.mem_singleton] at hg
      subst hg
      obtain ⟨x, y, e, -, -, hxy, -⟩ := (opposite_spec hn a).1 hc
      have : link [g] a = [(x, y)] := by unfold link; rw [List.filterMap_cons, e]; rfl
      rw [this]
      exact pathOrCycle_one hxy
    · rw [ef] at hi hj
      have h1 := (List.getElem?_eq_some_iff.1 hi).1
      have h2 := (List.getElem?_eq_some_iff.1 hj).1
      simp only [List.length_singleton] at h1 h2
      omega
  generalize hK : (Candidate strip) = K0 at hr
  have hK' : ∀ c, K0 c ↔ Candidate strip c := fun c => by rw [hK]
  have hcand : K0 [0, 1] := (hK' _).2 strip_candidate
  cases hr with
  | @done _ num _ hq hd =>
      obtain ⟨a, b, c⟩ := hfaces _ num out hK' hq
      exact ⟨out, place, num, e, hcand, hq, a, by rw [b]; rfl⟩
  | @undo _ K1 _ num tried _ hq hb hk hr =>
      obtain ⟨a, c, hf, -⟩ := hb
      obtain ⟨-, h2, h3⟩ := hfaces _ num tried hK' hq
      exact absurd hf (hclean tried _ h2 h3 a)

theorem hull3 {a b c x : P3} (h : x ∈ convexHull ℝ (cornerSet (a, b, c))) : ∃ r s t : ℝ, 0 ≤ r ∧ 0 ≤ s ∧ 0 ≤ t ∧ r + s + t = 1 ∧ x = r • a + s • b + t • c :=
  Predicates.inTriangle_of_hull h

/-- The strip is embedded. -/
theorem strip_embedded : Embedded strip.vertices strip.faces := by
  have key : ¬ Cross (Thinner.Spec.tri strip.vertices (0, 1, 2)) (Thinner.Spec.tri strip.vertices (1, 3, 2)) := by
    rintro ⟨z, z1, z2, z3⟩
    have e1 : Thinner.Spec.tri strip.vertices (0, 1, 2) = ((-1 / 4, 0, 0), (0, 0, 0), (0, 3, 0)) := rfl
    have e2 : Thinner.Spec.tri strip.vertices (1, 3, 2) = ((0, 0, 0), (3, 0, 0), (0, 3, 0)) := rfl
    rw [e1] at z1 z3
    rw [e2] at z2 z3
    obtain ⟨r, s, t, hr, hs, ht, hsum, ez⟩ := hull3 z1
    obtain ⟨r', s', t', hr', hs', ht', hsum', ez'⟩ := hull3 z2
    have c1 := congrArg Prod.fst (ez.symm.trans ez')
    simp at c1
    have a1 : r = 0 := by linarith
    apply z3
    have hsub : ({((0 : ℝ), (0 : ℝ), (0 : ℝ)), (0, 3, 0)} : Set P3) ⊆ cornerSet ((-1 / 4, 0, 0), (0, 0, 0), (0, 3, 0)) ∩ cornerSet ((0, 0, 0), (3, 0, 0), (0, 3, 0)) := by
      rintro x (rfl | rfl) <;> constructor <;> simp [cornerSet]
    apply convexHull_mono hsub
    rw [convexHull_pair]
    refine ⟨s, t, hs, ht, by linarith, ?_⟩
    rw [ez, a1, zero_smul, zero_add]
  intro i j f g hij hf hg _ _
  have hcase : ∀ {k : Nat} {f : Face}, strip.faces[k]? = some f → (k = 0 ∧ f = (0, 1, 2)) ∨ (k = 1 ∧ f = (1, 3, 2)) := by
    intro k f h
    change stripFaces[k]? = some f at h
    match k, h with
    | 0, h => exact Or.inl ⟨rfl, by simpa [stripFaces] using h.symm⟩
    | 1, h => exact Or.inr ⟨rfl, by simpa [stripFaces] using h.symm⟩
    | n + 2, h => simp [stripFaces] at h
  rcases hcase hf with ⟨rfl, rfl⟩ | ⟨rfl, rfl⟩ <;> rcases hcase hg with ⟨rfl, rfl⟩ | ⟨rfl, rfl⟩
  · exact absurd rfl hij
  · exact key
  · exact fun h => key (Thinner.cross_symm h)
  · exact absurd rfl hij

/-! ## A tetrahedron, with a short edge -/

noncomputable def tetraVertices : List P3 := [(-1 / 4, 0, 0), (0, 0, 0), (0, 3, 0), (0, 0, 3)]
def tetraFaces : List Face := [(0, 2, 1), (0, 1, 3), (1, 2, 3), (0, 3, 2)]
noncomputable def tetra : Input := unitInput tetraVertices tetraFaces

theorem tetra_valid : Valid tetra := by
  refine unit_valid ?_ ?_
  · intro f hf
    simp only [tetraFaces, List.mem_cons, List.not_mem_nil, or_false] at hf
    rcases hf with rfl | rfl | rfl | rfl <;> simp [tetraVertices]
  · intro f hf
    simp only [tetraFaces, List.mem_cons, List.not_mem_nil, or_false] at hf
    rcases hf with rfl | rfl | rfl | rfl <;> simp [tetraVertices, DistinctCorners, Spec.corners, Spec.pos] <;> norm_num

theorem tetra_closed : ∀ u v, net tetra.faces u v = 0 := by
  intro u v
  show net tetraFaces u v = 0
  have hp : (sides tetraFaces).Perm ((sides tetraFaces).map fun e => (e.2, e.1)) := by decide +kernel
  have hinj : Function.Injective (fun e : Nat × Nat => (e.2, e.1)) := by
    rintro ⟨a, b⟩ ⟨c, d⟩ h
    simp only [Prod.mk.injEq] at h
    rw [h.1, h.2]
  rw [net_zero_iff, hp.count_eq]
  exact List.count_map_of_injective _ (fun e : Nat × Nat => (e.2, e.1)) hinj (v, u)

theorem tetra_manifold : Manifold (fun i => tetra.faces[i]?) := by
  rw [manifold_iff (fun f hf => tetra_valid.nondeg hf)]
  intro a b
  have hn : (sides tetraFaces).Nodup := by decide +kernel
  exact List.nodup_iff_count_le_one.1 hn (a, b)

theorem pathOrCycle_three {x y z : Nat} {es : List (Nat × Nat)} (h1 : x ≠ y) (h2 : y ≠ z) (h3 : z ≠ x) (hp : es.Perm [(x, y), (y, z), (z, x)]) : PathOrCycle es := by
  have honly : ∀ w, MeshDefects.Spec.OnLink es w → w = x ∨ w = y ∨ w = z := by
    rintro w ⟨e, he, hw⟩
    have := hp.mem_iff.1 he
    simp only [List.mem_cons, List.not_mem_nil, or_false] at this
    rcases this with rfl | rfl | rfl <;> rcases hw with rfl | rfl <;> simp
  have a1 : Adj es x y := Or.inl (hp.mem_iff.2 (by simp))
  have a2 : Adj es y z := Or.inl (hp.mem_iff.2 (by simp))
  have a3 : Adj es z x := Or.inl (hp.mem_iff.2 (by simp))
  have hsymm : ∀ {a b}, Adj es a b → Adj es b a := fun h => Or.comm.1 h
  refine ⟨⟨?_, ?_⟩, ?_, ?_⟩
  · intro v hv
    have := hp.mem_iff.1 hv
    simp only [List.mem_cons, List.not_mem_nil, or_false, Prod.mk.injEq] at this
    omega
  · intro a b
    unfold Graph.Spec.multiplicity
    rw [hp.countP_eq]
    simp only [List.countP_cons, List.countP_nil, decide_eq_true_eq]
    split_ifs <;> omega
  · intro a b ha hb
    rcases honly a ha with rfl | rfl | rfl <;> rcases honly b hb with rfl | rfl | rfl
    · exact .refl
    · exact .single a1
    · exact .single (hsymm a3)
    · exact .single (hsymm a1)
    · exact .refl
    · exact .single a2
    · exact .single a3
    · exact .single (hsymm a2)
    · exact .refl
  · intro w
    unfold degree
    rw [hp.countP_eq]
    simp only [List.countP_cons, List.countP_nil, decide_eq_true_eq]
    split_ifs <;> omega

theorem tetra_links : ∀ v, Incident tetra.faces v → PathOrCycle (link tetra.faces v) := by
  rintro v ⟨f, hf, h⟩
  have hv : v < 4 := by
    change f ∈ tetraFaces at hf
    simp only [tetraFaces, List.mem_cons, List.not_mem_nil, or_false] at hf
    rcases hf with rfl | rfl | rfl | rfl <;> simp at h <;> omega
  show PathOrCycle (link tetraFaces v)
  interval_cases v
  · exact pathOrCycle_three (x := 2) (y := 1) (z := 3) (by norm_num) (by norm_num) (by norm_num) (by decide +kernel)
  · exact pathOrCycle_three (x := 0) (y := 2) (z := 3) (by norm_num) (by norm_num) (by norm_num) (by decide +kernel)
  · exact pathOrCycle_three (x := 1) (y := 0) (z := 3) (by norm_num) (by norm_num) (by norm_num) (by decide +kernel)
  · exact pathOrCycle_three (x := 0) (y := 1) (z := 2) (by norm_num) (by norm_num) (by norm_num) (by decide +kernel)

/-- The hypotheses of the theorems about manifolds are met, and the result of merging is one. -/
theorem C65_tetra : ∃ out, clusterVertices tetra = .ok out ∧ (∀ a b, net out.faces a b = 0) ∧ Manifold (fun i => out.faces[i]?) ∧
    ∀ a, Incident out.faces a → PathOrCycle (link out.faces a) := by
  obtain ⟨out, -, -, e, -⟩ := C65_rounds tetra_valid (unit_safe _ _) (unit_eigen _ _)
  exact ⟨out, e, C65_closed tetra_valid (unit_safe _ _) e tetra_closed,
    (C65_manifold tetra_valid (unit_safe _ _) e tetra_manifold tetra_links (fun u v c h => absurd (tetra_closed u v) h)).1,
    C65_no_singular tetra_valid (unit_safe _ _) e tetra_links⟩

/-- A face that refers to no vertex. -/
example : clusterVertices (unitInput [] [(0, 1, 2)]) = .throws .outOfRange :=
  C65_refused ⟨(0, 1, 2), by simp [unitInput], by simp [unitInput]⟩

end Verif.Clusterer
