import Verif.Props.Pipeline
import Verif.Lemmas.PipelineReturns
import Verif.Props.ClustererExamples

/-!
# C66: a case that meets the hypotheses
-/

namespace Verif.Pipeline

open Verif Verif.Lattice Verif.Iso
open Verif.AbstractMesh (Nondeg Manifold)
open Verif.PrimLattice (Prim)
open Verif.PrimLattice.Prim (Ranked count_toNat roundAway round_unique neighbor_xyz tetCorners)
open Verif.Predicates (P3)
open Verif.Snapper.Spec (sides net)

/-! ## The raw mesh, if its vertices are nearest to different nodes -/

theorem face_ends {σ : LC → Bool} {R : List LC} {V : List (LC × Nat)} {fs : List Lattice.Face} (hm : MeshOf σ R V fs) {p : Int × Int} (hp : p ∈ fs.flatMap dirEdges) :
    p.1 ≠ p.2 := by
  intro e
  have h1 : (edgeAt V p.1, edgeAt V p.2) ∈ (surface R σ).flatMap dirEdges := by
    rw [← (hm.faces.flatMap_right dirEdges).mem_iff, dir_map]
    exact List.mem_map.2 ⟨p, hp, rfl⟩
  obtain ⟨lc, k, hk, -, -, hu⟩ := mem_surface_dir.1 h1
  rw [tetFaces_dir, List.mem_map] at hu
  obtain ⟨q, hq, he⟩ := hu
  obtain ⟨q1, q2, q3⟩ := dirSlots_lt _ q hq
  rw [← e, Prod.mk.injEq] at he
  exact q3 (tetEdge_inj hk q1 q2 (he.1.trans he.2.symm))

theorem raw_spread {E : Env} {F : Fld ℝ} {σ : LC → Bool} {R : List LC} {V : List (LC × Nat)} {fs : List Lattice.Face} (hR : R.Nodup) (hm : MeshOf σ R V fs)
    (hn : (V.map fun v => E.L.rounded (E.L.snapToBox E.resolution (E.L.vertexPos v.1 v.2 (Env.along F v)))).Nodup) : Spread E.L (E.raw F V fs) := by
  have hc : ∀ f ∈ (E.raw F V fs).faces, Nondeg f := by
    intro f hf
    unfold Env.raw Prim.mesh at hf
    simp only [List.mem_map] at hf
    obtain ⟨g, hg, rfl⟩ := hf
    obtain ⟨⟨a, -⟩, ⟨b, -⟩, ⟨c, -⟩⟩ := hm.valid g hg
    have h1 := face_ends hm (p := (g.1, g.2.1)) (List.mem_flatMap.2 ⟨g, hg, by simp [dirEdges]⟩)
    have h2 := face_ends hm (p := (g.2.1, g.2.2)) (List.mem_flatMap.2 ⟨g, hg, by simp [dirEdges]⟩)
    have h3 := face_ends hm (p := (g.2.2, g.1)) (List.mem_flatMap.2 ⟨g, hg, by simp [dirEdges]⟩)
    dsimp only at h1 h2 h3
    refine ⟨?_, ?_, ?_⟩ <;> dsimp only <;> omega
  refine ⟨fun f hf => ⟨hc f hf, raw_valid hm f hf⟩, (Clusterer.manifold_iff hc).2 ?_, ?_⟩
  · intro a b
    show ((fs.map fun f : Lattice.Face => (f.1.toNat, f.2.1.toNat, f.2.2.toNat)).flatMap Clip.dirEdges).count (a, b) ≤ 1
    rw [count_toNat hm.valid]
    exact List.nodup_iff_count_le_one.1 (C34_indexed_mesh_closed σ R hR V fs hm).1 _
  · unfold Env.raw Prim.mesh
    rw [List.map_map]
    exact hn

theorem surface_length (R : List LC) (σ : LC → Bool) : (surface R σ).length ≤ 12 * R.length := by
  have ht : ∀ lc k, (tetFaces σ lc k).length ≤ 2 := by
    intro lc k
    unfold tetFaces
    rw [List.length_map]
    have : ∀ a b c d, (faceTable a b c d).length ≤ 2 := by decide
    exact this _ _ _ _
  have hk : ∀ lc (l : List Nat), (l.flatMap (tetFaces σ lc)).length ≤ 2 * l.length := by
    intro lc l
    induction l with
    | nil => simp
    | cons k l ih => have := ht lc k; simp only [List.flatMap_cons, List.length_append, List.length_cons]; omega
  unfold surface
  generalize (fun p => decide (p ∈ R)) = q
  induction R with
  | nil => simp
  | cons lc R ih =>
      have := hk lc ((List.range 6).filter (tetIn q lc))
      have h6 : ((List.range 6).filter (tetIn q lc)).length ≤ 6 := le_trans (List.length_filter_le _ _) (by simp)
      simp only [List.flatMap_cons, List.length_append, List.length_cons]
      omega

/-! ## A field that is low at one node -/

/-- The environment of `ClustererExamples`, with exact arithmetic. -/
noncomputable def unitEnv (fuel : Nat) : Env where
  L := (Clusterer.unitInput [] []).L
  resolution := 1
  T := id
  Tinv := id
  es := (Clusterer.unitInput [] []).es
  schedV := fun _ _ n => [[], List.range n]
  schedF := fun _ _ n => [(List.range n).reverse]
  ord := fun _ => List.reverse
  pop := Smoother.popFirst
  sorts := ⟨fun _ => [], id⟩
  fuel := fuel
  arith := Clip.exactArith
  hash := fun m => m.faces.length
  field := fun _ ps => ps.map fun _ => 0
  isovalue := fun _ => 0

theorem unit_proper (n : Nat) : (unitEnv n).Proper where
  resolution := by simp [unitEnv]
  transform := ⟨LinearMap.id, fun x => rfl⟩
  values := by simp [unitEnv]
  sorting := fun l => List.Perm.refl _
  between := Clip.exact_between rfl

theorem unit_runs (n : Nat) : (unitEnv n).Runs where
  lattice := by
    have : (unitEnv n).L.det = 1 := Clusterer.unit_det [] []
    rw [this]; exact one_ne_zero
  threadsV := fun m r n => (Clusterer.unit_valid (vs := []) (fs := []) (by simp) (by simp)).threadsV r n
  threadsF := fun m r n => (Clusterer.unit_valid (vs := []) (fs := []) (by simp) (by simp)).threadsF r n
  order := by simp [unitEnv]
  eigen := Clusterer.unit_eigen [] []
  safe := fun m => Clusterer.unit_safe m.vertices m.faces
  queue := Smoother.popFirst_isPop
  injective := fun _ _ h => h

/-- the node at which the field is below the isovalue -/
def low : LC := ⟨3, 3, 3⟩

/-- The field, minus the isovalue: -3 at one node, 1 at all others. -/
noncomputable def dip : Fld ℝ := ⟨fun lc => if lc = low then -3 else 1, fun _ => false⟩

theorem dip_neg (lc : LC) : dip.neg lc = true ↔ lc = low := by
  unfold Fld.neg dip
  by_cases h : lc = low <;> simp [h]

theorem unit_position (n : Nat) (lc : LC) : (unitEnv n).L.position lc = ((lc.x : ℝ), (lc.y : ℝ), (lc.z : ℝ)) := by
  have ho : (unitEnv n).L.origin = ⟨0, 0, 0⟩ := by
    unfold Prim.origin Prim.coords
    have : (unitEnv n).L.det = 1 := Clusterer.unit_det [] []
    rw [this]
    have : (unitEnv n).L.center = (0, 0, 0) := by simp [unitEnv, Clusterer.unitInput, Prim.center]
    rw [this]
    simp [PrimLattice.dot, Clusterer.round_zero]
  unfold Prim.position Prim.at_
  rw [ho]
  simp [Prim.cast, unitEnv, Clusterer.unitInput]

theorem unit_ext (n : Nat) (p : P3) : (unitEnv n).L.InExt p ↔ (-12.02 ≤ p.1 ∧ -12.02 ≤ p.2.1 ∧ -12.02 ≤ p.2.2) ∧ p.1 ≤ 12.02 ∧ p.2.1 ≤ 12.02 ∧ p.2.2 ≤ 12.02 := by
  simp only [Prim.InExt, Prim.extLo, Prim.extHi, Prim.least, Prim.greatest, Prim.step, Lattice.deltas, unitEnv, Clusterer.unitInput]
  norm_num

theorem delta_small (e : Nat) : (-1 ≤ (delta e).x ∧ (delta e).x ≤ 1) ∧ (-1 ≤ (delta e).y ∧ (delta e).y ≤ 1) ∧ (-1 ≤ (delta e).z ∧ (delta e).z ≤ 1) := by
  by_cases h : e < 14
  · have : ∀ e < 14, (-1 ≤ (delta e).x ∧ (delta e).x ≤ 1) ∧ (-1 ≤ (delta e).y ∧ (delta e).y ≤ 1) ∧ (-1 ≤ (delta e).z ∧ (delta e).z ≤ 1) := by decide
    exact this e h
  · have : delta e = ⟨0, 0, 0⟩ := by
      unfold delta
      rw [List.getD_eq_getElem?_getD, List.getElem?_eq_none (by simp [deltas]; omega), Option.getD_none]
    rw [this]; simp

/-- the surface does not come near the outside of the extended box -/
theorem dip_contained (n : Nat) : Contained (unitEnv n).L dip := by
  refine ⟨false, fun lc _ => ?_⟩
  rintro ⟨e, -, hout⟩
  by_contra h
  rw [Bool.not_eq_false, dip_neg] at h
  subst h
  apply hout
  rw [unit_position, unit_ext, neighbor_xyz]
  obtain ⟨⟨a, b⟩, ⟨c, d⟩, ⟨f, g⟩⟩ := delta_small e
  have hc : ∀ z : ℤ, -1 ≤ z → z ≤ 1 → (-12.02 : ℝ) ≤ ((3 + z : ℤ) : ℝ) ∧ ((3 + z : ℤ) : ℝ) ≤ 12.02 := by
    intro z h1 h2
    have h1 : (-1 : ℝ) ≤ z := by exact_mod_cast h1
    have h2 : (z : ℝ) ≤ 1 := by exact_mod_cast h2
    push_cast
    constructor <;> norm_num <;> linarith
  exact ⟨⟨(hc _ a b).1, (hc _ c d).1, (hc _ f g).1⟩, (hc _ a b).2, (hc _ c d).2, (hc _ f g).2⟩

/-- One coordinate of a vertex, three quarters of the way from `3` to a neighbour. -/
theorem coordinate {d : ℤ} (h1 : -1 ≤ d) (h2 : d ≤ 1) : roundAway (Prim.snap1 (1e-10 * 1) (-10) 10 ((3 : ℝ) + 3 / 4 * d)) = 3 + d := by
  have h1 : (-1 : ℝ) ≤ d := by exact_mod_cast h1
  have h2 : (d : ℝ) ≤ 1 := by exact_mod_cast h2
  have : Prim.snap1 (1e-10 * 1) (-10) 10 ((3 : ℝ) + 3 / 4 * d) = 3 + 3 / 4 * d := by
    unfold Prim.snap1
    dsimp only
    have e1 : ¬ |(3 : ℝ) + 3 / 4 * d - -10| < 1e-10 * 1 := by
      rw [abs_lt]; intro h; have := h.2; norm_num at this; linarith
    rw [if_neg e1]
    have e2 : ¬ |(3 : ℝ) + 3 / 4 * d - 10| < 1e-10 * 1 := by
      rw [abs_lt]; intro h; have := h.1; norm_num at this; linarith
    rw [if_neg e2]
  rw [this]
  apply round_unique
  push_cast
  rw [abs_lt]
  constructor <;> linarith

/-- the end of the edge of a vertex that is not the low node -/
def other (v : LC × Nat) : LC := if v.1 = low then neighbor v.1 v.2 else v.1

theorem dip_vertex (n : Nat) {v : LC × Nat} (h : dip.neg v.1 ≠ dip.neg (neighbor v.1 v.2)) :
    (unitEnv n).L.rounded ((unitEnv n).L.snapToBox (unitEnv n).resolution ((unitEnv n).L.vertexPos v.1 v.2 (Env.along dip v))) = other v ∧
      edgeOf v = mkEdge low (other v) := by
  obtain ⟨lc, e⟩ := v
  dsimp only at h
  obtain ⟨⟨a, b⟩, ⟨c, d⟩, ⟨f, g⟩⟩ := delta_small e
  have hr : ∀ p, (unitEnv n).L.rounded p = ⟨roundAway p.1, roundAway p.2.1, roundAway p.2.2⟩ := Clusterer.unit_rounded [] []
  have hlo : (unitEnv n).L.lo = (-10, -10, -10) := rfl
  have hhi : (unitEnv n).L.hi = (10, 10, 10) := rfl
  have hres : (unitEnv n).resolution = 1 := rfl
  by_cases h1 : lc = low
  · subst h1
    have h2 : neighbor low e ≠ low := by
      intro h2; rw [h2] at h; exact h rfl
    refine ⟨?_, ?_⟩
    · have ht : Env.along dip (low, e) = 3 / 4 := by
        simp only [Env.along, dip, if_pos, if_neg h2]; norm_num
      rw [ht, hr]
      unfold Prim.snapToBox Prim.vertexPos
      dsimp only
      rw [unit_position, unit_position, neighbor_xyz, hlo, hhi, hres]
      have hx : max (1e-4 : ℝ) (min (3 / 4) (1 - 1e-4)) = 3 / 4 := by norm_num
      rw [hx]
      have key : ∀ z : ℤ, ((low.x : ℤ) : ℝ) + 3 / 4 * (((3 + z : ℤ) : ℝ) - (low.x : ℤ)) = 3 + 3 / 4 * z := by
        intro z; simp [low]
      unfold other
      rw [if_pos rfl, neighbor_xyz]
      have ex := coordinate a b
      have ey := coordinate c d
      have ez := coordinate f g
      simp only [low] at key ⊢
      simp only [Int.cast_ofNat] at key ⊢
      rw [key, key, key, ex, ey, ez]
    · unfold other edgeOf
      rw [if_pos rfl]
  · have h2 : neighbor lc e = low := by
      by_contra h2
      apply h
      have e1 : dip.neg lc = false := by rw [← Bool.not_eq_true, dip_neg]; exact h1
      have e2 : dip.neg (neighbor lc e) = false := by rw [← Bool.not_eq_true, dip_neg]; exact h2
      rw [e1, e2]
    refine ⟨?_, ?_⟩
    · have ht : Env.along dip (lc, e) = 1 / 4 := by
        simp only [Env.along, dip, if_pos h2, if_neg h1]; norm_num
      rw [ht, hr]
      unfold Prim.snapToBox Prim.vertexPos
      dsimp only
      rw [unit_position, unit_position, hlo, hhi, hres]
      have hx : max (1e-4 : ℝ) (min (1 / 4) (1 - 1e-4)) = 1 / 4 := by norm_num
      rw [hx]
      unfold other
      rw [if_neg h1]
      rw [neighbor_xyz] at h2 ⊢
      unfold low at h2
      obtain ⟨x, y, z⟩ := lc
      simp only [LC.mk.injEq] at h2 ⊢
      obtain ⟨i1, i2, i3⟩ := h2
      have key : ∀ x w : ℤ, -1 ≤ w → w ≤ 1 → x + w = 3 → roundAway (Prim.snap1 (1e-10 * 1) (-10) 10 ((x : ℝ) + 1 / 4 * (((x + w : ℤ) : ℝ) - x))) = x := by
        intro x w w1 w2 hw
        have hw' : (x : ℝ) = 3 + ((-w : ℤ) : ℝ) := by
          have : x = 3 + -w := by omega
          rw [this]; push_cast; ring
        have := coordinate (d := -w) (by omega) (by omega)
        have e3 : (x : ℝ) + 1 / 4 * (((x + w : ℤ) : ℝ) - x) = 3 + 3 / 4 * ((-w : ℤ) : ℝ) := by
          rw [Int.cast_add, hw']; push_cast; ring
        rw [e3, this]; omega
      exact ⟨key _ _ a b i1, key _ _ c d i2, key _ _ f g i3⟩
    · unfold other edgeOf
      rw [if_neg h1]
      dsimp only
      rw [h2, mkEdge_comm]

theorem vertex_crossed {σ : LC → Bool} {R : List LC} {V : List (LC × Nat)} {fs : List Lattice.Face} (hm : MeshOf σ R V fs) {v : LC × Nat} (hv : v ∈ V) :
    σ v.1 ≠ σ (neighbor v.1 v.2) := by
  obtain ⟨⟨-, -, hne⟩, -⟩ := (hm.vertices (edgeOf v)).1 (List.mem_map.2 ⟨v, hv, rfl⟩)
  unfold edgeOf mkEdge at hne
  split at hne
  · exact hne
  · exact hne.symm

theorem dip_spread (n : Nat) {R : List LC} {V : List (LC × Nat)} {fs : List Lattice.Face} (hR : R.Nodup) (hm : MeshOf dip.neg R V fs) :
    Spread (unitEnv n).L ((unitEnv n).raw dip V fs) := by
  apply raw_spread hR hm
  have h1 : V.map edgeOf = (V.map other).map (mkEdge low) := by
    rw [List.map_map]
    exact List.map_congr_left fun v hv => (dip_vertex n (vertex_crossed hm hv)).2
  have h2 := hm.once
  rw [h1] at h2
  rw [List.map_congr_left fun v hv => (dip_vertex n (vertex_crossed hm hv)).1]
  exact h2.of_map _

/-- The call of `generate` for this field returns a mesh, which is without cracks by C66; and its surface is not empty. -/
theorem C66_dip : ∃ n rank G, OfPrim (unitEnv n).L rank G ∧ 0 < (unitEnv n).L.det ∧ (unitEnv n).L.Ordered ∧ Contained (unitEnv n).L dip ∧
    (∃ lc e, Crossed dip.neg (edgeOf (lc, e)) ∧ (unitEnv n).L.InExt ((unitEnv n).L.position lc)) ∧
    ∃ out g, step (unitEnv n).steps G ⟨LatS.fresh, none⟩ (.all dip false) = .done (some (.mesh out)) g ∧ Uncracked (-10, -10, -10) (10, 10, 10) out := by
  have hdet : ∀ n, 0 < (unitEnv n).L.det := fun n => by
    have : (unitEnv n).L.det = 1 := Clusterer.unit_det [] []
    rw [this]; exact one_pos
  have hord : ∀ n, (unitEnv n).L.Ordered := fun n => by
    unfold Prim.Ordered
    simp only [unitEnv, Clusterer.unitInput]
    norm_num
  obtain ⟨rank, G, hG⟩ := ofPrim_exists (unitEnv 0).L
  obtain ⟨R0, -, -, hR0, hmem0, -⟩ := C38_generate (unitEnv 0).steps (unitEnv 0).L (hdet 0) (hord 0) rank G hG dip (fun _ => rfl) false none
  set n := enough (12 * R0.length) with hn
  obtain ⟨R, V, fs, hR, hmem, hm, k1, -⟩ := C38_generate (unitEnv n).steps (unitEnv n).L (hdet n) (hord n) rank G hG dip (fun _ => rfl) false none
  have hlen : R.length = R0.length := ((List.perm_ext_iff_of_nodup hR hR0).2 fun lc => (hmem lc).trans (hmem0 lc).symm).length_eq
  have hfs : fs.length ≤ 12 * R0.length := by
    have := hm.faces.length_eq
    rw [List.length_map] at this
    rw [this, ← hlen]
    exact surface_length R _
  obtain ⟨m, hp⟩ := process_spread (unit_proper n) (unit_runs n) (dip_spread n hR hm) (by
    show enough ((unitEnv n).raw dip V fs).faces.length ≤ enough (12 * R0.length)
    have : ((unitEnv n).raw dip V fs).faces.length = fs.length := by simp [Env.raw, Prim.mesh]
    rw [this]
    unfold enough; omega) dip
  have hs := k1 m hp
  have hval : ¬ fieldAt (unitEnv n).L dip (unitEnv n).L.center rank < 0 := by
    have hcell : (unitEnv n).L.cell (unitEnv n).L.center = ⟨0, 0, 0⟩ := by
      have hc : (unitEnv n).L.center = (0, 0, 0) := by simp [unitEnv, Clusterer.unitInput, Prim.center]
      have hu : (unitEnv n).L.unrounded (0, 0, 0) = (0, 0, 0) := by
        have ho : (unitEnv n).L.origin = ⟨0, 0, 0⟩ := by
          unfold Prim.origin Prim.coords
          have : (unitEnv n).L.det = 1 := Clusterer.unit_det [] []
          rw [this, hc]
          simp [PrimLattice.dot, Clusterer.round_zero]
        unfold Prim.unrounded Prim.coords
        rw [ho]
        simp [PrimLattice.dot]
      unfold Prim.cell
      rw [hc, hu]
      simp
    have hne : ∀ lc ∈ tetCorners ((unitEnv n).L.cell (unitEnv n).L.center) rank, dip.neg lc = false := by
      intro lc hlc
      rw [← Bool.not_eq_true, dip_neg]
      rintro rfl
      rw [hcell] at hlc
      have key : ∀ e, low ≠ neighbor ⟨0, 0, 0⟩ e := by
        intro e h
        rw [neighbor_xyz] at h
        have := congrArg LC.x h
        have := (delta_small e).1
        simp only [low] at *
        omega
      unfold tetCorners at hlc
      simp only [List.mem_cons, List.not_mem_nil, or_false] at hlc
      rcases hlc with h | h | h | h
      · exact absurd h (by decide)
      · exact key _ h
      · exact key _ h
      · exact key _ h
    have h0 := hne _ (by unfold tetCorners; exact List.mem_cons_self)
    rw [field_sign (p := (unitEnv n).L.center) (hdet n) hG.ranked fun lc hlc => (hne lc hlc).trans h0.symm, h0]
    simp
  have he : expected (unitEnv n).steps m (fieldAt (unitEnv n).L dip (unitEnv n).L.center rank) = .mesh m := by
    unfold expected
    rw [if_neg fun h => hval h.2]
  rw [he] at hs
  refine ⟨n, rank, G, hG, hdet n, hord n, dip_contained n, ⟨low, 0, ?_, ?_⟩, m, _, hs, C66_generate (unit_proper n) (hdet n) (hord n) rank G hG dip (fun _ => rfl)
    (dip_contained n) false none (by simp) m _ hs⟩
  · refine ⟨⟨0, by norm_num, by decide⟩, by decide, ?_⟩
    have e1 : dip.neg low = true := (dip_neg _).2 rfl
    have e2 : dip.neg (neighbor low 0) = false := by rw [← Bool.not_eq_true, dip_neg]; decide
    have : edgeOf (low, 0) = (low, neighbor low 0) := by decide
    rw [this, e1, e2]; decide
  · rw [unit_position, unit_ext]
    simp only [low]
    norm_num

end Verif.Pipeline
