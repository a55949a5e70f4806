import Verif.Spec.FieldLocal
import Verif.Lemmas.FieldLocal
import Verif.Lemmas.FieldLocalBox
import Verif.Props.Pipeline

/-!
# C74: a mesh is generated from the values of the field in the announced box
-/

namespace Verif.Pipeline

open Verif Verif.Lattice Verif.Iso
open Verif.PrimLattice (Prim)
open Verif.PrimLattice.Prim (Ranked inBox_iff)
open Verif.Predicates (P3)
open Verif.PrimLattice.Prim (Rows)
open Verif.Clusterer (cluster_partial cluster_faces)

variable {E : Env}

/-! ## The vertices -/

theorem cluster_ext (hb : E.L.Ordered) {m m' : Clip.Mesh} (hr : m.Valid) (hv : ∀ p ∈ m.vertices, E.L.InExt p) (e : E.cluster m = some m') :
    Faces m' ∧ ∀ p ∈ m'.vertices, E.L.InExt p := by
  unfold Env.cluster at e
  obtain ⟨o, eo, rfl⟩ := Option.map_eq_some_iff.1 e
  obtain ⟨K, pl, num, -, hq⟩ := cluster_partial (I := E.clusterInput m) hr (returned_eq eo)
  exact ⟨cluster_faces hq, Clusterer.cluster_inExt (I := E.clusterInput m) hb hr hv (returned_eq eo)⟩

theorem smooth_ext {sn : Snap} {m m' : Clip.Mesh} (hf : Faces m) (e : E.smooth sn m = some m') : Faces m' ∧ m'.vertices = m.vertices := by
  unfold Env.smooth at e
  obtain ⟨⟨vs, fs⟩, eo, rfl⟩ := Option.map_eq_some_iff.1 e
  obtain ⟨h1, h2, -⟩ := smooth_partial (I := E.snapInput sn m) hf (ended_eq eo)
  exact ⟨h2, h1⟩

/-- **C74, refinement.** Whatever clustering and smoothing do to a mesh in the extended box: all points at which refinement asks for the field are in
the announced box, up to a thousandth of the resolution. -/
theorem C74_samples (hres : 0 < E.resolution) (hb : E.L.Ordered) {F : Fld ℝ} {m m1 m2 m3 : Clip.Mesh} (hr : m.Valid) (hv : ∀ p ∈ m.vertices, E.L.InExt p)
    (e1 : E.cluster m = some m1) (e2 : E.smooth ([], []) m1 = some m2) (e3 : E.cluster m2 = some m3) : ∀ p ∈ Refiner.samples (E.refineInput F m3), Near E p := by
  obtain ⟨f1, v1⟩ := cluster_ext hb hr hv e1
  obtain ⟨f2, v2⟩ := smooth_ext f1 e2
  obtain ⟨-, v3⟩ := cluster_ext hb (fun f hf => (f2 f hf).2) (by rw [v2]; exact v1) e3
  intro p hp
  unfold Refiner.samples at hp
  obtain ⟨q, hq, hp⟩ := List.mem_flatMap.1 hp
  obtain ⟨o, ho, rfl⟩ := List.mem_map.1 hp
  obtain ⟨⟨l1, l2, l3⟩, u1, u2, u3⟩ := v3 q hq
  have hd : Refiner.delta (E.refineInput F m3) = E.resolution / 1000 := by
    unfold Refiner.delta Env.refineInput
    ring
  rw [hd] at ho
  have hd0 : 0 ≤ E.resolution / 1000 := by positivity
  unfold Near
  unfold Refiner.offsets at ho
  simp only [List.mem_cons, List.not_mem_nil, or_false] at ho
  rcases ho with rfl | rfl | rfl | rfl <;>
    refine ⟨⟨?_, ?_⟩, ⟨?_, ?_⟩, ?_, ?_⟩ <;> simp only [Prod.fst_add, Prod.snd_add] <;> linarith

/-! ## Two fields that agree there -/

/-- The two fields cannot be told apart where they are looked at. -/
structure Same (E : Env) (F F' : Fld ℝ) : Prop where
  nodes : Agree E.L.inBox F F'
  points : ∀ ps, (∀ p ∈ ps, Near E p) → E.field F ps = E.field F' ps
  isovalue : E.isovalue F = E.isovalue F'

variable {F F' : Fld ℝ}

theorem raw_congr (h : Same E F F') {V : List (LC × Nat)} (hV : ∀ v ∈ V, E.L.inBox v.1 = true ∧ E.L.inBox (neighbor v.1 v.2) = true) (fs : List Lattice.Face) :
    E.raw F V fs = E.raw F' V fs := by
  unfold Env.raw Prim.mesh
  congr 1
  apply List.map_congr_left
  intro v hv
  obtain ⟨a, b⟩ := hV v hv
  unfold Env.along
  rw [h.nodes.val _ a, h.nodes.val _ b]

theorem raw_ext (hb : E.L.Ordered) {V : List (LC × Nat)} (hV : ∀ v ∈ V, E.L.inBox v.1 = true ∧ E.L.inBox (neighbor v.1 v.2) = true) (fs : List Lattice.Face) :
    ∀ p ∈ (E.raw F V fs).vertices, E.L.InExt p := by
  intro p hp
  obtain ⟨v, hv, rfl⟩ := List.mem_map.1 hp
  obtain ⟨a, b⟩ := hV v hv
  exact PrimLattice.Prim.vertex_inExt hb (inBox_iff.1 a) (inBox_iff.1 b) _ _

theorem refine_same (h : Same E F F') {m : Clip.Mesh} (hs : ∀ p ∈ Refiner.samples (E.refineInput F m), Near E p) : E.refine F m = E.refine F' m := by
  unfold Env.refine
  have := Refiner.refine_congr (E.refineInput F m) (E.field F) (E.field F') (h.points _ hs)
  have e : ({ E.refineInput F m with field := E.field F' } : Refiner.Input) = E.refineInput F' m := by
    unfold Env.refineInput
    rw [h.isovalue]
  rw [e] at this
  have e' : ({ E.refineInput F m with field := E.field F } : Refiner.Input) = E.refineInput F m := rfl
  rw [e'] at this
  rw [this]

theorem bind_eq_of {x : Option α} {f g : α → Option β} (h : ∀ a, x = some a → f a = g a) : x.bind f = x.bind g := by
  cases x with
  | none => rfl
  | some a => exact h a rfl

theorem process_same (h : Same E F F') (hres : 0 < E.resolution) (hb : E.L.Ordered) {m : Clip.Mesh} (hr : m.Valid) (hv : ∀ p ∈ m.vertices, E.L.InExt p) (rf : Bool)
    (sn : Option Snap) : E.steps.process F rf sn m = E.steps.process F' rf sn m := by
  have hp : E.steps.prepare F rf m = E.steps.prepare F' rf m := by
    unfold Steps.prepare
    refine bind_eq_of fun m1 e1 => bind_eq_of fun m2 e2 => bind_eq_of fun m3 e3 => ?_
    cases rf with
    | false => rfl
    | true =>
      have : E.steps.refine F m3 = E.steps.refine F' m3 := refine_same h (C74_samples hres hb hr hv e1 e2 e3)
      simp only [if_true, this]
  unfold Steps.process
  rw [hp]

theorem common_same (h : Same E F F') (hres : 0 < E.resolution) (hb : E.L.Ordered) {ordN : NodeList → NodeList} {s : LatS ℝ} (hs : InB E.L.inBox s.lat)
    (hfs : ∀ fs, getMeshFaces (ordN s.lat.nodes) = .ok fs → (E.raw F s.lat.verts fs).Valid) (rf : Bool) (sn : Option Snap) :
    generateCommon E.steps ordN F rf sn s = generateCommon E.steps ordN F' rf sn s := by
  unfold generateCommon
  cases e : getMeshFaces (ordN s.lat.nodes) with
  | throws _ => rfl
  | ub => rfl
  | ok fs =>
    have e1 : E.steps.raw F s.lat.verts fs = E.steps.raw F' s.lat.verts fs := raw_congr h hs.verts fs
    have e2 : E.steps.process F rf sn (E.steps.raw F s.lat.verts fs) = E.steps.process F' rf sn (E.steps.raw F s.lat.verts fs) :=
      process_same h hres hb (hfs fs e) (raw_ext hb hs.verts fs) rf sn
    dsimp only
    rw [← e1, e2]

/-- the same for `generate` -/
theorem all_same (h : Same E F F') (hres : 0 < E.resolution) (hdet : 0 < E.L.det) (hb : E.L.Ordered) (rank : Nat × Nat × Nat) (G : Geo ℝ) (hG : OfPrim E.L rank G) (rf : Bool)
    (sn : Option Snap) : step E.steps G ⟨LatS.fresh, sn⟩ (.all F rf) = step E.steps G ⟨LatS.fresh, sn⟩ (.all F' rf) := by
  obtain ⟨r2, r1, r0, h2, h1, h0, hls⟩ := hG.loops
  obtain ⟨c1, c2⟩ := all_congr (inBox := G.inBox) (hG.box ▸ h.nodes) G.ls G.center LatS.fresh fresh_inB
  simp only [step]
  rw [c1]
  congr 1
  refine bind_congr fun _ s e => ?_
  have hs := c2 s e
  rw [hG.box] at hs
  rw [← c1] at e
  rw [common_same h hres hb hs ?_ rf sn]
  intro fs efs
  obtain ⟨l, el, R, hR, hmem, hm⟩ := PrimLattice.Prim.C56_all_nodes E.L hdet.ne' hb F.neg F.near r2 r1 r0 h2 h1 h0
  have htold := layers_told (inBox := G.inBox) (F := F.calm) (fun _ => rfl) G.ls (l := ⟨[], [], []⟩) (l' := l) (prev := []) (Arb.new G.center.1 G.center.2) rfl (by
    rw [hls, hG.box]; exact el)
  have e' := calm_layers G.ls _ _ _ e
  have e'' := e'.symm.trans htold
  obtain rfl := (Run.done.inj e'').2
  obtain ⟨fs', hfs', hmesh⟩ := hm (G.ordN l.nodes) (hG.order _)
  have := efs.symm.trans hfs'
  obtain rfl := Outcome.ok.inj this
  exact raw_valid hmesh

/-- the same for `generate_from_seed_points` -/
theorem seeds_same (h : Same E F F') (hres : 0 < E.resolution) (hb : E.L.Ordered) (G : Geo ℝ) (hG : G.inBox = E.L.inBox) (hN : ∀ nl, (G.ordN nl).Perm nl)
    (hO : ∀ l, (G.ord l).Perm l) (B : List LC) (hB : ∀ lc, E.L.inBox lc = true → lc ∈ B) (first : Rows LC × Rows ℝ) (batches : List (List LC)) (rf : Bool)
    (sn : Option Snap) : step E.steps G ⟨LatS.fresh, sn⟩ (.seeds (some (first, batches)) (B.length + 1) F rf) =
      step E.steps G ⟨LatS.fresh, sn⟩ (.seeds (some (first, batches)) (B.length + 1) F' rf) := by
  obtain ⟨c1, c2⟩ := seeds_congr (inBox := G.inBox) (hG ▸ h.nodes) G.ord (B.length + 1) batches first LatS.fresh fresh_inB
  simp only [step]
  rw [c1]
  congr 1
  refine bind_congr fun _ s e => ?_
  have hs := c2 s e
  rw [hG] at hs
  rw [← c1] at e
  rw [common_same h hres hb hs ?_ rf sn]
  intro fs efs
  obtain ⟨l, es, htold, -, -, -, -, -, hm⟩ := seeds_told (inBox := G.inBox) hO B (hG ▸ hB) (F := F.calm) (fun _ => rfl) batches first
  have e'' := (calm_seeds e).symm.trans htold
  obtain rfl := (Run.done.inj e'').2
  obtain ⟨fs', hfs', hmesh⟩ := hm (G.ordN l.nodes) (hN _)
  have := efs.symm.trans hfs'
  obtain rfl := Outcome.ok.inj this
  exact raw_valid hmesh

/-! ## The property -/

theorem ext_near (hres : 0 < E.resolution) {p : P3} (h : E.L.InExt p) : Near E p := by
  obtain ⟨⟨l1, l2, l3⟩, u1, u2, u3⟩ := h
  have : 0 ≤ E.resolution / 1000 := by positivity
  refine ⟨⟨?_, ?_⟩, ⟨?_, ?_⟩, ?_, ?_⟩ <;> linarith

theorem same_of_fields (hres : 0 < E.resolution) {f f' : P3 → ℝ} {bad bad' : P3 → Prop} {iso : ℝ} (hF : IsField E f bad iso F) (hF' : IsField E f' bad' iso F')
    (h : ∀ p, Near E p → f p = f' p) (hb : ∀ p, E.L.InExt p → (bad p ↔ bad' p)) : Same E F F' := by
  refine ⟨⟨?_, ?_⟩, ?_, ?_⟩
  · intro lc hlc
    rw [hF.val, hF'.val, h _ (ext_near hres (inBox_iff.1 hlc))]
  · intro b hin
    rw [Bool.eq_iff_iff, hF.fails, hF'.fails]
    exact ⟨fun ⟨lc, hlc, x⟩ => ⟨lc, hlc, (hb _ (inBox_iff.1 (hin lc hlc))).1 x⟩, fun ⟨lc, hlc, x⟩ => ⟨lc, hlc, (hb _ (inBox_iff.1 (hin lc hlc))).2 x⟩⟩
  · intro ps hps
    rw [hF.field, hF'.field]
    exact List.map_congr_left fun p hp => h p (hps p hp)
  · rw [hF.isovalue, hF'.isovalue]

/-- **C74, `generate`.** What `generate` returns or throws depends on the field only by its values in the announced box (the bounding box, extended by
two cells), up to a thousandth of the resolution: two fields that agree there give the same result, whatever they are elsewhere - even if one
of them throws elsewhere. -/
theorem C74_generate (hres : 0 < E.resolution) (hdet : 0 < E.L.det) (hb : E.L.Ordered) (rank : Nat × Nat × Nat) (G : Geo ℝ) (hG : OfPrim E.L rank G)
    {f f' : P3 → ℝ} {bad bad' : P3 → Prop} {iso : ℝ} (hF : IsField E f bad iso F) (hF' : IsField E f' bad' iso F')
    (h : ∀ p, Near E p → f p = f' p) (hbad : ∀ p, E.L.InExt p → (bad p ↔ bad' p)) (rf : Bool) (sn : Option Snap) :
    step E.steps G ⟨LatS.fresh, sn⟩ (.all F rf) = step E.steps G ⟨LatS.fresh, sn⟩ (.all F' rf) :=
  all_same (same_of_fields hres hF hF' h hbad) hres hdet hb rank G hG rf sn

/-- **C74, `generate_from_seed_points`.** The same, for the nodes that the tracking from the seed points asks for. -/
theorem C74_from_seeds (hres : 0 < E.resolution) (hb : E.L.Ordered) (G : Geo ℝ) (hG : G.inBox = E.L.inBox) (hN : ∀ nl, (G.ordN nl).Perm nl)
    (hO : ∀ l, (G.ord l).Perm l) (B : List LC) (hB : ∀ lc, E.L.inBox lc = true → lc ∈ B) (first : Rows LC × Rows ℝ) (batches : List (List LC))
    {f f' : P3 → ℝ} {bad bad' : P3 → Prop} {iso : ℝ} (hF : IsField E f bad iso F) (hF' : IsField E f' bad' iso F')
    (h : ∀ p, Near E p → f p = f' p) (hbad : ∀ p, E.L.InExt p → (bad p ↔ bad' p)) (rf : Bool) (sn : Option Snap) :
    step E.steps G ⟨LatS.fresh, sn⟩ (.seeds (some (first, batches)) (B.length + 1) F rf) =
      step E.steps G ⟨LatS.fresh, sn⟩ (.seeds (some (first, batches)) (B.length + 1) F' rf) :=
  seeds_same (same_of_fields hres hF hF' h hbad) hres hb G hG hN hO B hB first batches rf sn

/-- **C74, without refinement** the values at the lattice points of the announced box are enough. -/
theorem C74_unrefined (rank : Nat × Nat × Nat) (G : Geo ℝ) (hG : OfPrim E.L rank G)
    {f f' : P3 → ℝ} {bad bad' : P3 → Prop} {iso : ℝ} (hF : IsField E f bad iso F) (hF' : IsField E f' bad' iso F')
    (h : ∀ lc, E.L.InExt (E.L.position lc) → f (E.L.position lc) = f' (E.L.position lc)) (hbad : ∀ lc, E.L.InExt (E.L.position lc) → (bad (E.L.position lc) ↔ bad' (E.L.position lc)))
    (sn : Option Snap) : step E.steps G ⟨LatS.fresh, sn⟩ (.all F false) = step E.steps G ⟨LatS.fresh, sn⟩ (.all F' false) := by
  have hA : Agree E.L.inBox F F' := by
    refine ⟨?_, ?_⟩
    · intro lc hlc
      rw [hF.val, hF'.val, h _ (inBox_iff.1 hlc)]
    · intro b hin
      rw [Bool.eq_iff_iff, hF.fails, hF'.fails]
      exact ⟨fun ⟨lc, hlc, x⟩ => ⟨lc, hlc, (hbad _ (inBox_iff.1 (hin lc hlc))).1 x⟩, fun ⟨lc, hlc, x⟩ => ⟨lc, hlc, (hbad _ (inBox_iff.1 (hin lc hlc))).2 x⟩⟩
  obtain ⟨c1, c2⟩ := all_congr (inBox := G.inBox) (hG.box ▸ hA) G.ls G.center LatS.fresh fresh_inB
  simp only [step]
  rw [c1]
  congr 1
  refine bind_congr fun _ s e => ?_
  have hs := c2 s e
  rw [hG.box] at hs
  have e1 : ∀ fs, E.steps.raw F s.lat.verts fs = E.steps.raw F' s.lat.verts fs := fun fs => by
    show E.raw F s.lat.verts fs = E.raw F' s.lat.verts fs
    unfold Env.raw Prim.mesh
    congr 1
    apply List.map_congr_left
    intro v hv
    obtain ⟨a, b⟩ := hs.verts v hv
    unfold Env.along
    rw [hA.val _ a, hA.val _ b]
  have e2 : ∀ m, E.steps.process F false sn m = E.steps.process F' false sn m := fun m => rfl
  unfold generateCommon
  simp only [e1, e2]

/-- **C74, after other calls.** The same for `generate` after any history of calls of which the last one that uses the lattice did not throw. -/
theorem C74_after (hres : 0 < E.resolution) (hdet : 0 < E.L.det) (hb : E.L.Ordered) (rank : Nat × Nat × Nat) (G : Geo ℝ) (hG : OfPrim E.L rank G) (ops : List (Op ℝ Snap))
    (g : Gen ℝ Snap) (hg : runAll E.steps G Gen.new ops = some g) (hl : lastThrew E.steps G Gen.new false ops = false)
    {f f' : P3 → ℝ} {bad bad' : P3 → Prop} {iso : ℝ} (hF : IsField E f bad iso F) (hF' : IsField E f' bad' iso F')
    (h : ∀ p, Near E p → f p = f' p) (hbad : ∀ p, E.L.InExt p → (bad p ↔ bad' p)) (rf : Bool) :
    step E.steps G g (.all F rf) = step E.steps G g (.all F' rf) := by
  rw [C38_reusable E.steps G ops g hg hl, C38_reusable E.steps G ops g hg hl]
  exact C74_generate hres hdet hb rank G hG hF hF' h hbad rf _

end Verif.Pipeline
