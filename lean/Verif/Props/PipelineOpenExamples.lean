import Verif.Props.PipelineOpen
import Verif.Props.PipelineExamples

/-!
# C67: cases that meet the hypotheses
-/

namespace Verif.Pipeline

open Verif Verif.Lattice Verif.Iso
open Verif.AbstractMesh (Nondeg Manifold)
open Verif.PrimLattice (Prim)
open Verif.PrimLattice.Prim (Ranked count_toNat roundAway round_unique neighbor_xyz tetCorners unrounded_at)
open Verif.Predicates (P3)

/-! ## The nearest node of a vertex of the raw mesh -/

theorem vertex_unrounded {L : Prim} (h : L.det ≠ 0) (lc : LC) (e : Nat) (t : ℝ) : L.unrounded (L.vertexPos lc e t) =
    (lc.x + max 1e-4 (min t (1 - 1e-4)) * (delta e).x, lc.y + max 1e-4 (min t (1 - 1e-4)) * (delta e).y, lc.z + max 1e-4 (min t (1 - 1e-4)) * (delta e).z) := by
  rw [← unrounded_at h (((lc.x : ℝ) + max 1e-4 (min t (1 - 1e-4)) * (delta e).x, (lc.y : ℝ) + max 1e-4 (min t (1 - 1e-4)) * (delta e).y,
    (lc.z : ℝ) + max 1e-4 (min t (1 - 1e-4)) * (delta e).z) : P3)]
  congr 1
  unfold Prim.vertexPos Prim.position Prim.at_
  rw [neighbor_xyz]
  generalize max 1e-4 (min t (1 - 1e-4)) = s
  simp only [Prim.cast]
  push_cast
  refine Prod.ext ?_ (Prod.ext ?_ ?_) <;> dsimp only <;> ring

theorem vertex_rounded {L : Prim} (h : L.det ≠ 0) (lc : LC) (e : Nat) (t : ℝ) : (t < 1 / 2 → L.rounded (L.vertexPos lc e t) = lc) ∧
    (1 / 2 < t → L.rounded (L.vertexPos lc e t) = neighbor lc e) := by
  obtain ⟨⟨a, b⟩, ⟨c, d⟩, ⟨f, g⟩⟩ := delta_small e
  have near : ∀ {s : ℝ} {x z : ℤ}, 0 ≤ s → s < 1 / 2 → -1 ≤ z → z ≤ 1 → roundAway ((x : ℝ) + s * z) = x := by
    intro s x z s0 s1 z1 z2
    have z1 : (-1 : ℝ) ≤ z := by exact_mod_cast z1
    have z2 : (z : ℝ) ≤ 1 := by exact_mod_cast z2
    apply round_unique
    rw [abs_lt]
    constructor <;> nlinarith
  have far : ∀ {s : ℝ} {x z : ℤ}, 1 / 2 < s → s ≤ 1 → -1 ≤ z → z ≤ 1 → roundAway ((x : ℝ) + s * z) = x + z := by
    intro s x z s0 s1 z1 z2
    have z1 : (-1 : ℝ) ≤ z := by exact_mod_cast z1
    have z2 : (z : ℝ) ≤ 1 := by exact_mod_cast z2
    apply round_unique
    push_cast
    rw [abs_lt]
    constructor <;> nlinarith
  unfold Prim.rounded
  rw [vertex_unrounded h]
  have h0 := Prim.clamp_unit t
  constructor
  · intro ht
    have h1 : max 1e-4 (min t (1 - 1e-4)) < 1 / 2 := max_lt (by norm_num) ((min_le_left _ _).trans_lt ht)
    rw [near h0.1 h1 a b, near h0.1 h1 c d, near h0.1 h1 f g]
  · intro ht
    have h1 : 1 / 2 < max 1e-4 (min t (1 - 1e-4)) := lt_of_lt_of_le (lt_min ht (by norm_num)) (le_max_right _ _)
    rw [far h1 h0.2 a b, far h1 h0.2 c d, far h1 h0.2 f g]
    rfl

/-- If the values at the ends of a crossed edge are not opposite to each other, and the vertex on it is not snapped to a side of the box, it is nearest to one of
the ends. -/
theorem C67_definite {E : Env} (h : E.L.det ≠ 0) {F : Fld ℝ} (hmid : ∀ lc e, F.neg lc ≠ F.neg (neighbor lc e) → F.val lc + F.val (neighbor lc e) ≠ 0)
    (hs : ∀ lc e, F.neg lc ≠ F.neg (neighbor lc e) → E.L.snapToBox E.resolution (E.L.vertexPos lc e (Env.along F (lc, e))) = E.L.vertexPos lc e (Env.along F (lc, e))) :
    E.Definite F := by
  intro lc e hc
  dsimp only
  rw [hs lc e hc]
  have hne : F.val lc - F.val (neighbor lc e) ≠ 0 := by
    intro h0
    apply hc
    unfold Fld.neg
    rw [sub_eq_zero.1 h0]
  have ht : Env.along F (lc, e) ≠ 1 / 2 := by
    unfold Env.along
    dsimp only
    intro h0
    rw [div_eq_iff hne] at h0
    exact hmid lc e hc (by linarith)
  rcases lt_or_gt_of_ne ht with h1 | h1
  · exact Or.inl ((vertex_rounded h lc e _).1 h1)
  · exact Or.inr ((vertex_rounded h lc e _).2 h1)

/-- The midpoint of an edge can be nearest to neither of its ends (as `rounded` breaks ties): then clustering can merge a vertex of the outer edge of the mesh. -/
theorem C67_midpoint (L : Prim) (h : L.det ≠ 0) : L.rounded (L.vertexPos ⟨0, -1, 0⟩ 3 (1 / 2)) = ⟨1, -1, 0⟩ ∧ neighbor ⟨0, -1, 0⟩ 3 = ⟨1, 0, 0⟩ := by
  refine ⟨?_, by decide⟩
  unfold Prim.rounded
  rw [vertex_unrounded h]
  have e : max 1e-4 (min (1 / 2 : ℝ) (1 - 1e-4)) = 1 / 2 := by norm_num
  rw [e]
  have d : delta 3 = ⟨1, 1, 0⟩ := by decide
  rw [d]
  have r1 : roundAway (1 / 2) = 1 := by
    unfold roundAway
    norm_num
  have r2 : roundAway (-(1 / 2)) = -1 := by
    unfold roundAway
    norm_num
  have f1 : ((0 : ℤ) : ℝ) + 1 / 2 * ((1 : ℤ) : ℝ) = 1 / 2 := by norm_num
  have f2 : ((-1 : ℤ) : ℝ) + 1 / 2 * ((1 : ℤ) : ℝ) = -(1 / 2) := by norm_num
  have f3 : ((0 : ℤ) : ℝ) + 1 / 2 * ((0 : ℤ) : ℝ) = 0 := by norm_num
  dsimp only
  rw [f1, f2, f3, r1, r2, Clusterer.round_zero]

/-! ## Two nodes at which the field is low, one inside the box and one at the end of the extended box -/

/-- The lattice as it is made by default. -/
noncomputable def bccEnv (n : Nat) : Env := { unitEnv n with L := Prim.make (-10, -10, -10) (10, 10, 10) 1 (1, 0, 0) (0, 1, 0) (0, 0, 1) }

theorem bcc_L (n : Nat) : (bccEnv n).L = ⟨(-10, -10, -10), (10, 10, 10), (0.5773502691896258, 0.816496580927726, 0), (-0.5773502691896258, 0, 0.816496580927726),
    (0.5773502691896258, -0.816496580927726, 0)⟩ := by
  simp [bccEnv, Prim.make, Prim.invMul, Prim.latticeBasis, PrimLattice.dot, PrimLattice.cross]

theorem bcc_proper (n : Nat) : (bccEnv n).Proper where
  resolution := (unit_proper n).resolution
  transform := (unit_proper n).transform
  values := (unit_proper n).values
  sorting := (unit_proper n).sorting
  between := (unit_proper n).between

theorem bcc_runs (n : Nat) : (bccEnv n).Runs where
  lattice := (Clusterer.C65_snap_safe_isotropic (I := (bccEnv n).clusterInput ⟨[], []⟩) (lo := (-10, -10, -10)) (hi := (10, 10, 10)) (bcc_proper n).resolution rfl).1
  threadsV := (unit_runs n).threadsV
  threadsF := (unit_runs n).threadsF
  order := (unit_runs n).order
  eigen := (unit_runs n).eigen
  safe := fun m => (Clusterer.C65_snap_safe_isotropic (I := (bccEnv n).clusterInput m) (lo := (-10, -10, -10)) (hi := (10, 10, 10)) (bcc_proper n).resolution rfl).2
  queue := (unit_runs n).queue
  injective := (unit_runs n).injective

theorem bcc_made (n : Nat) : (bccEnv n).Made (1, 0, 0) (0, 1, 0) (0, 0, 1) where
  positive := by simp [PrimLattice.dot, PrimLattice.cross]
  lattice := rfl
  transform := fun d => by
    show d = _
    simp [PrimLattice.dot]

theorem bcc_roomy (n : Nat) : (bccEnv n).Roomy := by
  have hr : (bccEnv n).resolution = 1 := rfl
  refine ⟨?_, ?_, ?_⟩ <;> rw [bcc_L, hr]
  · norm_num
  · simp only [Prim.extLo, Prim.least, Prim.step, Lattice.deltas]
    norm_num
  · simp only [Prim.extHi, Prim.greatest, Prim.step, Lattice.deltas]
    norm_num

def inner : LC := ⟨3, 3, 3⟩
def outer : LC := ⟨7, 14, 7⟩

/-- The field, minus the isovalue: -3 at two nodes, 1 at all others. -/
noncomputable def dips : Fld ℝ := ⟨fun lc => if lc = inner ∨ lc = outer then -3 else 1, fun _ => false⟩

theorem dips_neg (lc : LC) : dips.neg lc = true ↔ lc = inner ∨ lc = outer := by
  unfold Fld.neg dips
  by_cases h : lc = inner ∨ lc = outer <;> simp [h]

theorem bcc_origin (n : Nat) : (bccEnv n).L.origin = ⟨0, 0, 0⟩ := by
  have hc : (bccEnv n).L.center = (0, 0, 0) := by rw [bcc_L]; simp [Prim.center]
  unfold Prim.origin Prim.coords
  rw [hc]
  simp [PrimLattice.dot, Clusterer.round_zero]

theorem bcc_position (n : Nat) (lc : LC) : (bccEnv n).L.position lc =
    (0.5773502691896258 * ((lc.x - lc.y + lc.z : ℤ) : ℝ), 0.816496580927726 * ((lc.x - lc.z : ℤ) : ℝ), 0.816496580927726 * ((lc.y : ℤ) : ℝ)) := by
  unfold Prim.position Prim.at_
  rw [bcc_origin, bcc_L]
  simp only [Prim.cast]
  refine Prod.ext ?_ (Prod.ext ?_ ?_) <;> dsimp only <;> push_cast <;> ring

theorem bcc_ext (n : Nat) (p : P3) : (bccEnv n).L.InExt p ↔ (-(1541561885940761029 / 125000000000000000) ≤ p.1 ∧ -(291233077336850163 / 25000000000000000) ≤ p.2.1 ∧ -(291233077336850163 / 25000000000000000) ≤ p.2.2) ∧
    p.1 ≤ (1541561885940761029 / 125000000000000000) ∧ p.2.1 ≤ (291233077336850163 / 25000000000000000) ∧ p.2.2 ≤ (291233077336850163 / 25000000000000000) := by
  rw [bcc_L]
  simp only [Prim.InExt, Prim.extLo, Prim.extHi, Prim.least, Prim.greatest, Prim.step, Lattice.deltas]
  norm_num

/-- the surface reaches the outside of the extended box -/
theorem dips_open (n : Nat) : ¬ Contained (bccEnv n).L dips := by
  rintro ⟨s, hs⟩
  have h1 := hs outer (by rw [bcc_position, bcc_ext]; norm_num [outer]) ⟨6, by norm_num, by rw [bcc_position, bcc_ext]; norm_num [outer, neighbor_xyz, delta, deltas]⟩
  have h2 := hs ⟨8, 14, 6⟩ (by rw [bcc_position, bcc_ext]; norm_num) ⟨6, by norm_num, by rw [bcc_position, bcc_ext]; norm_num [neighbor_xyz, delta, deltas]⟩
  rw [(dips_neg outer).2 (Or.inr rfl)] at h1
  have h3 : dips.neg ⟨8, 14, 6⟩ = false := by rw [← Bool.not_eq_true, dips_neg]; decide
  rw [h3] at h2
  rw [← h1] at h2
  cases h2

/-- the ends of the edge of a vertex -/
def highEnd (v : LC × Nat) : LC := if v.1 = inner ∨ v.1 = outer then neighbor v.1 v.2 else v.1

theorem no_snap {k : ℝ} (hk : k = 0.5773502691896258 ∨ k = 0.816496580927726) (q : ℤ) : Prim.snap1 (1e-10 * 1) (-10) 10 (k * (q / 4)) = k * (q / 4) := by
  have key : ∀ q : ℤ, 1e-10 ≤ |k * ((q : ℝ) / 4) - 10| := by
    intro q
    rw [le_abs]
    rcases hk with rfl | rfl
    · by_cases hq : q ≤ 69
      · right
        have : (q : ℝ) ≤ 69 := by exact_mod_cast hq
        norm_num; linarith
      · left
        have : (70 : ℝ) ≤ q := by exact_mod_cast (by omega : 70 ≤ q)
        norm_num; linarith
    · by_cases hq : q ≤ 48
      · right
        have : (q : ℝ) ≤ 48 := by exact_mod_cast hq
        norm_num; linarith
      · left
        have : (49 : ℝ) ≤ q := by exact_mod_cast (by omega : 49 ≤ q)
        norm_num; linarith
  unfold Prim.snap1
  dsimp only
  have e1 : ¬ |k * ((q : ℝ) / 4) - -10| < 1e-10 * 1 := by
    have := key (-q)
    rw [← abs_neg] at this
    have e : -(k * (((-q : ℤ) : ℝ) / 4) - 10) = k * (q / 4) - -10 := by push_cast; ring
    rw [e] at this
    rw [mul_one]; exact not_lt.2 this
  have e2 : ¬ |k * ((q : ℝ) / 4) - 10| < 1e-10 * 1 := by
    rw [mul_one]; exact not_lt.2 (key q)
  rw [if_neg e1, if_neg e2]

theorem dips_along {lc : LC} {e : Nat} (h : dips.neg lc ≠ dips.neg (neighbor lc e)) :
    ((lc = inner ∨ lc = outer) ∧ ¬ (neighbor lc e = inner ∨ neighbor lc e = outer) ∧ Env.along dips (lc, e) = 3 / 4) ∨
    (¬ (lc = inner ∨ lc = outer) ∧ (neighbor lc e = inner ∨ neighbor lc e = outer) ∧ Env.along dips (lc, e) = 1 / 4) := by
  have hiff : ¬ ((lc = inner ∨ lc = outer) ↔ (neighbor lc e = inner ∨ neighbor lc e = outer)) := by
    rw [← dips_neg, ← dips_neg]
    intro hh
    exact h (Bool.eq_iff_iff.2 hh)
  unfold Env.along dips
  dsimp only
  by_cases h1 : lc = inner ∨ lc = outer <;> by_cases h2 : neighbor lc e = inner ∨ neighbor lc e = outer
  · exact absurd (iff_of_true h1 h2) hiff
  · left
    refine ⟨h1, h2, ?_⟩
    rw [if_pos h1, if_neg h2]; norm_num
  · right
    refine ⟨h1, h2, ?_⟩
    rw [if_neg h1, if_pos h2]; norm_num
  · exact absurd (iff_of_false h1 h2) hiff

theorem dips_no_snap (n : Nat) (lc : LC) (e : Nat) (h : dips.neg lc ≠ dips.neg (neighbor lc e)) :
    (bccEnv n).L.snapToBox (bccEnv n).resolution ((bccEnv n).L.vertexPos lc e (Env.along dips (lc, e))) = (bccEnv n).L.vertexPos lc e (Env.along dips (lc, e)) := by
  have hres : (bccEnv n).resolution = 1 := rfl
  have hlo : (bccEnv n).L.lo = (-10, -10, -10) := rfl
  have hhi : (bccEnv n).L.hi = (10, 10, 10) := rfl
  have ha : ∃ w : ℤ, max 1e-4 (min (Env.along dips (lc, e)) (1 - 1e-4)) = (w : ℝ) / 4 := by
    rcases dips_along h with ⟨-, -, e⟩ | ⟨-, -, e⟩ <;> rw [e]
    · exact ⟨3, by norm_num⟩
    · exact ⟨1, by norm_num⟩
  obtain ⟨w, hw⟩ := ha
  unfold Prim.snapToBox Prim.vertexPos
  dsimp only
  rw [hw, hres, hlo, hhi, bcc_position, bcc_position]
  dsimp only
  have key : ∀ (k : ℝ) (x y : ℤ), (k = 0.5773502691896258 ∨ k = 0.816496580927726) →
      Prim.snap1 (1e-10 * 1) (-10) 10 (k * (x : ℝ) + w / 4 * (k * (y : ℝ) - k * (x : ℝ))) = k * (x : ℝ) + w / 4 * (k * (y : ℝ) - k * (x : ℝ)) := by
    intro k x y hk
    have e : k * (x : ℝ) + w / 4 * (k * (y : ℝ) - k * (x : ℝ)) = k * (((4 * x + w * (y - x) : ℤ) : ℝ) / 4) := by push_cast; ring
    rw [e, no_snap hk]
  rw [key _ _ _ (Or.inl rfl), key _ _ _ (Or.inr rfl), key _ _ _ (Or.inr rfl)]

theorem dips_definite (n : Nat) : (bccEnv n).Definite dips := by
  refine C67_definite (bcc_runs n).lattice ?_ (dips_no_snap n)
  intro lc e h h0
  rcases dips_along h with ⟨h1, h2, -⟩ | ⟨h1, h2, -⟩
  · unfold dips at h0
    dsimp only at h0
    rw [if_pos h1, if_neg h2] at h0
    norm_num at h0
  · unfold dips at h0
    dsimp only at h0
    rw [if_neg h1, if_pos h2] at h0
    norm_num at h0

/-- the low node next to a node -/
def lowNear (n : LC) : LC := if n.y ≤ 8 then inner else outer

theorem lowNear_spec {a b : LC} {e : Nat} (h : a = inner ∨ a = outer) (hb : b = neighbor a e ∨ a = neighbor b e) : lowNear b = a := by
  have hd := (delta_small e).2.1
  have hy : (b.y = a.y + (delta e).y) ∨ (a.y = b.y + (delta e).y) := by
    rcases hb with rfl | h
    · left; rw [neighbor_xyz]
    · right; rw [h, neighbor_xyz]
  unfold lowNear
  rcases h with rfl | rfl
  · rw [if_pos]; simp only [inner] at hy; omega
  · rw [if_neg]; simp only [outer] at hy; omega

theorem dips_vertex (n : Nat) {v : LC × Nat} (h : dips.neg v.1 ≠ dips.neg (neighbor v.1 v.2)) :
    (bccEnv n).L.rounded ((bccEnv n).L.snapToBox (bccEnv n).resolution ((bccEnv n).L.vertexPos v.1 v.2 (Env.along dips v))) = highEnd v ∧
      edgeOf v = mkEdge (lowNear (highEnd v)) (highEnd v) := by
  obtain ⟨lc, e⟩ := v
  rw [dips_no_snap n lc e h]
  unfold highEnd edgeOf
  dsimp only at h ⊢
  rcases dips_along h with ⟨h1, h2, h3⟩ | ⟨h1, h2, h3⟩ <;> rw [h3]
  · rw [if_pos h1, lowNear_spec (b := neighbor lc e) h1 (Or.inl rfl)]
    exact ⟨(vertex_rounded (bcc_runs n).lattice lc e _).2 (by norm_num), rfl⟩
  · rw [if_neg h1, lowNear_spec (b := lc) h2 (Or.inr rfl), mkEdge_comm]
    exact ⟨(vertex_rounded (bcc_runs n).lattice lc e _).1 (by norm_num), rfl⟩

theorem dips_spread (n : Nat) {R : List LC} {V : List (LC × Nat)} {fs : List Lattice.Face} (hR : R.Nodup) (hm : MeshOf dips.neg R V fs) :
    Spread (bccEnv n).L ((bccEnv n).raw dips V fs) := by
  apply raw_spread hR hm
  have h1 : V.map edgeOf = (V.map highEnd).map (fun o => mkEdge (lowNear o) o) := by
    rw [List.map_map]
    exact List.map_congr_left fun v hv => (dips_vertex n (vertex_crossed hm hv)).2
  have h2 := hm.once
  rw [h1] at h2
  rw [List.map_congr_left fun v hv => (dips_vertex n (vertex_crossed hm hv)).1]
  exact h2.of_map _

/-- The call of `generate` for this field, whose surface is not contained in the extended box, returns a mesh, which is without cracks by C67; and the surface
crosses edges inside the box. -/
theorem C67_dips : ∃ n rank G, OfPrim (bccEnv n).L rank G ∧ ¬ Contained (bccEnv n).L dips ∧ (bccEnv n).Definite dips ∧
    (∃ lc e, Crossed dips.neg (edgeOf (lc, e)) ∧ (bccEnv n).L.InBbox ((bccEnv n).L.position lc) ∧ (bccEnv n).L.InBbox ((bccEnv n).L.position (neighbor lc e))) ∧
    ∃ out g, step (bccEnv n).steps G ⟨LatS.fresh, none⟩ (.all dips false) = .done (some (.mesh out)) g ∧ Uncracked (-10, -10, -10) (10, 10, 10) out := by
  have hdet : ∀ n, 0 < (bccEnv n).L.det := fun n => Prim.C57_lattice_positive _ _ _ (bcc_proper n).resolution _ _ _ (bcc_made n).positive
  have hord : ∀ n, (bccEnv n).L.Ordered := fun n => by
    unfold Prim.Ordered
    rw [bcc_L]
    norm_num
  obtain ⟨rank, G, hG⟩ := ofPrim_exists (bccEnv 0).L
  obtain ⟨R0, -, -, hR0, hmem0, -⟩ := C38_generate (bccEnv 0).steps (bccEnv 0).L (hdet 0) (hord 0) rank G hG dips (fun _ => rfl) false none
  set n := enough (12 * R0.length) with hn
  obtain ⟨R, V, fs, hR, hmem, hm, k1, -⟩ := C38_generate (bccEnv n).steps (bccEnv n).L (hdet n) (hord n) rank G hG dips (fun _ => rfl) false none
  have hlen : R.length = R0.length := ((List.perm_ext_iff_of_nodup hR hR0).2 fun lc => (hmem lc).trans (hmem0 lc).symm).length_eq
  have hfs : fs.length ≤ 12 * R0.length := by
    have := hm.faces.length_eq
    rw [List.length_map] at this
    rw [this, ← hlen]
    exact surface_length R _
  obtain ⟨m, hp⟩ := process_spread (bcc_proper n) (bcc_runs n) (dips_spread n hR hm) (by
    show enough ((bccEnv n).raw dips V fs).faces.length ≤ enough (12 * R0.length)
    have : ((bccEnv n).raw dips V fs).faces.length = fs.length := by simp [Env.raw, Prim.mesh]
    rw [this]
    unfold enough; omega) dips
  have hs := k1 m hp
  have hval : ¬ fieldAt (bccEnv n).L dips (bccEnv n).L.center rank < 0 := by
    have hcell : (bccEnv n).L.cell (bccEnv n).L.center = ⟨0, 0, 0⟩ := by
      have hc : (bccEnv n).L.center = (0, 0, 0) := by rw [bcc_L]; simp [Prim.center]
      have hu : (bccEnv n).L.unrounded (0, 0, 0) = (0, 0, 0) := by
        unfold Prim.unrounded Prim.coords
        rw [bcc_origin]
        simp [PrimLattice.dot]
      unfold Prim.cell
      rw [hc, hu]
      simp
    have hne : ∀ lc ∈ tetCorners ((bccEnv n).L.cell (bccEnv n).L.center) rank, dips.neg lc = false := by
      intro lc hlc
      rw [← Bool.not_eq_true, dips_neg]
      intro hlow
      rw [hcell] at hlc
      have key : ∀ e, lc ≠ neighbor ⟨0, 0, 0⟩ e := by
        intro e h
        rw [neighbor_xyz] at h
        have := congrArg LC.x h
        have := (delta_small e).1
        rcases hlow with rfl | rfl
        · simp only [inner] at *; omega
        · simp only [outer] at *; omega
      unfold tetCorners at hlc
      simp only [List.mem_cons, List.not_mem_nil, or_false] at hlc
      rcases hlc with h | h | h | h
      · rw [h] at hlow; exact absurd hlow (by decide)
      · exact key _ h
      · exact key _ h
      · exact key _ h
    have h0 := hne _ (by unfold tetCorners; exact List.mem_cons_self)
    rw [field_sign (p := (bccEnv n).L.center) (hdet n) hG.ranked fun lc hlc => (hne lc hlc).trans h0.symm, h0]
    simp
  have he : expected (bccEnv n).steps m (fieldAt (bccEnv n).L dips (bccEnv n).L.center rank) = .mesh m := by
    unfold expected
    rw [if_neg fun h => hval h.2]
  rw [he] at hs
  refine ⟨n, rank, G, hG, dips_open n, dips_definite n, ⟨inner, 0, ?_, ?_, ?_⟩, m, _, hs, C67_generate (bcc_proper n) (bcc_made n) (bcc_roomy n) rank G hG dips (fun _ => rfl)
    (dips_definite n) false m _ hs⟩
  · refine ⟨⟨0, by norm_num, by decide⟩, by decide, ?_⟩
    have e1 : dips.neg inner = true := (dips_neg _).2 (Or.inl rfl)
    have e2 : dips.neg (neighbor inner 0) = false := by rw [← Bool.not_eq_true, dips_neg]; decide
    have : edgeOf (inner, 0) = (inner, neighbor inner 0) := by decide
    rw [this, e1, e2]; decide
  · rw [bcc_position]
    unfold Prim.InBbox
    rw [bcc_L]
    norm_num [inner]
  · rw [bcc_position]
    unfold Prim.InBbox
    rw [bcc_L]
    norm_num [inner, neighbor_xyz, delta, deltas]

end Verif.Pipeline
