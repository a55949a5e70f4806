import Verif.Lemmas.PipelineRaw
import Verif.Lemmas.PipelineSnap
import Verif.Props.Isosurface
import Verif.Props.Refiner
import Verif.Props.Clip

/-!
# C66: a closed surface comes out of `generate` without cracks
-/

namespace Verif.Pipeline

open Verif Verif.Lattice Verif.Iso
open Verif.AbstractMesh (Nondeg Manifold)
open Verif.PrimLattice (Prim)
open Verif.PrimLattice.Prim (Ranked)
open Verif.Predicates (P3)
open Verif.Snapper.Spec (sides net)
open Verif.Clusterer (cluster_partial cluster_faces net_balanced net_zero_iff)

variable {E : Env}

/-- The faces have three different vertices that there are. -/
def Faces (m : Clip.Mesh) : Prop := ∀ f ∈ m.faces, Nondeg f ∧ f.1 < m.vertices.length ∧ f.2.1 < m.vertices.length ∧ f.2.2 < m.vertices.length

/-- A closed mesh. -/
def Sound (m : Clip.Mesh) : Prop := Faces m ∧ Closed m.faces

theorem returned_eq {r : Outcome α} {a : α} (h : Env.returned r = some a) : r = .ok a := by
  cases r <;> simp_all [Env.returned]

theorem ended_eq {r : Option (Outcome α)} {a : α} (h : Env.ended r = some a) : r = some (.ok a) := by
  rcases r with _ | r
  · cases h
  · cases r <;> simp_all [Env.ended]

theorem cluster_sound {m m' : Clip.Mesh} (hr : m.Valid) (hc : Closed m.faces) (e : E.cluster m = some m') : Sound m' := by
  unfold Env.cluster at e
  obtain ⟨o, eo, rfl⟩ := Option.map_eq_some_iff.1 e
  obtain ⟨K, pl, num, -, hq⟩ := cluster_partial (I := E.clusterInput m) hr (returned_eq eo)
  refine ⟨cluster_faces hq, fun u v => ?_⟩
  by_cases huv : u = v
  · subst huv
    unfold net
    omega
  · exact net_balanced hq huv fun a b _ _ => hc a b

theorem smooth_sound {sn : Snap} {m m' : Clip.Mesh} (h : Sound m) (e : E.smooth sn m = some m') : Sound m' := by
  unfold Env.smooth at e
  obtain ⟨⟨vs, fs⟩, eo, rfl⟩ := Option.map_eq_some_iff.1 e
  obtain ⟨h1, h2, h3⟩ := smooth_partial (I := E.snapInput sn m) h.1 (ended_eq eo)
  exact ⟨h2, fun u v => (h3 u v).trans (h.2 u v)⟩

theorem refine_sound (hE : E.Proper) {F : Fld ℝ} {m m' : Clip.Mesh} (h : Sound m) (e : E.refine F m = some m') : Sound m' := by
  unfold Env.refine at e
  obtain ⟨o, eo, rfl⟩ := Option.map_eq_some_iff.1 e
  have e := returned_eq eo
  have hman : Manifold (fun i => (E.refineInput F m).faces[i]?) := by
    by_contra hm
    rw [Refiner.C64_refused (I := E.refineInput F m) (fun f hf => (h.1 f hf).1) hm] at e
    cases e
  obtain ⟨h1, h2⟩ := Refiner.C64_faces (I := E.refineInput F m) ⟨h.1, hman, hE.resolution, hE.transform, hE.values F⟩ e
  refine ⟨?_, ?_⟩
  · intro f hf
    dsimp only at hf ⊢
    rw [h1] at hf
    rw [h2]
    exact h.1 f hf
  · dsimp only
    rw [h1]
    exact h.2

theorem snap_valid (hE : E.Proper) {sn : Snap} (hsn : Snap.Accepted sn) {m : Clip.Mesh} (h : Faces m) (hman : Manifold (fun i => m.faces[i]?)) :
    Snapper.Spec.Valid (E.snapInput sn m) where
  corners := h
  manifold := hman
  tolerances := by
    rcases hsn.1 with h | h
    · left; simp [Env.snapInput, h]
    · right; simp [Env.snapInput, h]
  nonneg := by
    intro t ht
    simp only [Env.snapInput, List.mem_map] at ht
    obtain ⟨s, hs, rfl⟩ := ht
    exact mul_nonneg hE.resolution.le (hsn.2 s hs)
  resolution := hE.resolution
  transform := hE.transform

/-- a snap, if the smoothing that follows accepts its result -/
theorem snap_sound (hE : E.Proper) {sn : Snap} (hsn : Snap.Accepted sn) {m m' m'' : Clip.Mesh} {n : Nat} (h : Sound m) (e : E.snap sn m = some (m', n))
    (e' : E.smooth sn m' = some m'') : Sound m'' := by
  refine smooth_sound ?_ e'
  unfold Env.snap at e
  obtain ⟨o, eo, ho⟩ := Option.map_eq_some_iff.1 e
  obtain ⟨rfl, -⟩ := Prod.mk.inj ho
  have e := ended_eq eo
  by_cases h0 : (E.snapInput sn m).points = [] ∨ (E.snapInput sn m).faces = []
  · rw [Snapper.C63_nothing_to_do _ _ _ h0] at e
    cases e
    exact h
  rw [not_or] at h0
  have hman : Manifold (fun i => (E.snapInput sn m).faces[i]?) := by
    by_contra hm
    rw [(Snapper.C63_refused (E.snapInput sn m) _ _ h0.1 h0.2 fun f hf => (h.1 f hf).1).1 hm] at e
    cases e
  have hv := snap_valid hE hsn h.1 hman
  unfold Env.smooth at e'
  obtain ⟨q, eq, -⟩ := Option.map_eq_some_iff.1 e'
  exact ⟨snap_nondeg hv hE.sorting e (smooth_manifold (ended_eq eq)), fun u v => Snapper.C63_closed hv hE.sorting e h.2 u v⟩

theorem thin_sound {sn : Snap} {m m' : Clip.Mesh} (h : Sound m) (e : E.thin sn m = some m') : Sound m' := by
  unfold Env.thin at e
  obtain ⟨⟨vs, fs⟩, eo, rfl⟩ := Option.map_eq_some_iff.1 e
  exact thin_partial (I := E.snapInput sn m) h.1 h.2 (ended_eq eo)

theorem prepare_sound (hE : E.Proper) {F : Fld ℝ} {rf : Bool} {m m' : Clip.Mesh} (hr : m.Valid) (hc : Closed m.faces) (e : E.steps.prepare F rf m = some m') : Sound m' := by
  unfold Steps.prepare at e
  simp only [Option.bind_eq_bind, Option.bind_eq_some_iff] at e
  obtain ⟨m1, e1, m2, e2, m3, e3, e4⟩ := e
  have s2 := smooth_sound (cluster_sound hr hc e1) e2
  have s3 : Sound m3 := cluster_sound (fun f hf => (s2.1 f hf).2) s2.2 e3
  cases rf with
  | false => exact smooth_sound s3 e4
  | true =>
      rw [if_pos rfl, Option.bind_eq_some_iff] at e4
      obtain ⟨m4, e4, e5⟩ := e4
      exact smooth_sound (refine_sound hE s3 e4) e5

theorem snapLoop_sound (hE : E.Proper) {sn : Snap} (hsn : Snap.Accepted sn) : ∀ (n : Nat) (hs : List Nat) (m m' : Clip.Mesh), Sound m →
    E.steps.snapLoop sn n hs m = some m' → Sound m' := by
  intro n
  induction n with
  | zero => intro hs m m' h e; cases e; exact h
  | succ n ih =>
      intro hs m m' h e
      unfold Steps.snapLoop at e
      simp only [Option.bind_eq_bind, Option.bind_eq_some_iff] at e
      obtain ⟨⟨m1, left⟩, e1, m2, e2, e3⟩ := e
      have s2 := snap_sound hE hsn h e1 e2
      dsimp only at e3
      split at e3
      · cases e3; exact s2
      · split at e3
        · cases e3; exact s2
        · exact ih _ _ _ s2 e3

theorem thinTwice_sound {sn : Snap} {m m' : Clip.Mesh} (h : Sound m) (e : E.steps.thinTwice sn m = some m') : Sound m' := by
  unfold Steps.thinTwice at e
  simp only [Option.bind_eq_bind, Option.bind_eq_some_iff] at e
  obtain ⟨m1, e1, m2, e2, m3, e3, e4⟩ := e
  exact smooth_sound (thin_sound (smooth_sound (thin_sound h e1) e2) e3) e4

/-- the steps after the raw mesh -/
theorem process_sound (hE : E.Proper) {F : Fld ℝ} {rf : Bool} {sn : Option Snap} (hsn : ∀ s, sn = some s → Snap.Accepted s) {m m' : Clip.Mesh} (hr : m.Valid)
    (hc : Closed m.faces) (e : E.steps.process F rf sn m = some m') : Uncracked E.L.lo E.L.hi m' := by
  unfold Steps.process at e
  split at e
  · rename_i h0
    cases e
    have h0 : m.faces = [] := List.length_eq_zero_iff.1 h0
    refine ⟨hr, fun h => absurd h0 h, fun i j p q _ _ _ => by rw [h0]; simp⟩
  · simp only [Option.bind_eq_bind, Option.bind_eq_some_iff] at e
    obtain ⟨m1, e1, e⟩ := e
    have s1 := prepare_sound hE hr hc e1
    obtain ⟨m2, s2, e3⟩ : ∃ m2, Sound m2 ∧ E.steps.clip m2 = some m' := by
      cases sn with
      | none => exact ⟨m1, s1, e⟩
      | some s =>
          dsimp only at e
          rw [Option.bind_eq_some_iff] at e
          obtain ⟨m3, e4, e5⟩ := e
          rw [Option.bind_eq_some_iff] at e5
          obtain ⟨m4, e5, e6⟩ := e5
          exact ⟨m4, thinTwice_sound (snapLoop_sound hE (hsn s rfl) _ _ _ _ s1 e4) e5, e6⟩
    have e3 := returned_eq e3
    have hv : m2.Valid := fun f hf => (s2.1 f hf).2
    obtain ⟨out, ho, hval, -⟩ := Clip.C37_defined E.arith m2 E.L.lo E.L.hi hv
    rw [e3] at ho
    cases ho
    refine ⟨hval, fun _ => Clip.C37_in_box E.arith hE.between m2 _ _ _ e3, Clip.C37_no_cracks E.arith hE.between m2 _ _ _ e3 fun i j p q _ _ _ => ?_⟩
    exact net_zero_iff.1 (s2.2 i j)

theorem raw_valid {F : Fld ℝ} {σ : LC → Bool} {R : List LC} {V : List (LC × Nat)} {fs : List Lattice.Face} (hm : MeshOf σ R V fs) : (E.raw F V fs).Valid := by
  intro f hf
  unfold Env.raw Prim.mesh at hf ⊢
  simp only [List.mem_map] at hf
  obtain ⟨g, hg, rfl⟩ := hf
  obtain ⟨⟨a, a'⟩, ⟨b, b'⟩, ⟨c, c'⟩⟩ := hm.valid g hg
  simp only [List.length_map]
  omega

theorem expected_mesh {m out : Clip.Mesh} {v : ℝ} (h : expected E.steps m v = .mesh out) : m = out := by
  unfold expected at h
  split at h
  · cases h
  · exact Res.mesh.inj h

/-- **C66, `generate`.** Whatever the schedules, the sorts and the field: if the surface does not reach the outside of the extended box, then a mesh that
`generate` returns, with or without refinement and with or without snap points, lies in the bounding box and has no cracks. -/
theorem C66_generate (hE : E.Proper) (hdet : 0 < E.L.det) (hb : E.L.Ordered) (rank : Nat × Nat × Nat) (G : Geo ℝ) (hG : OfPrim E.L rank G) (F : Fld ℝ)
    (hF : ∀ b, F.fails b = false) (hcon : Contained E.L F) (rf : Bool) (sn : Option Snap) (hsn : ∀ s, sn = some s → Snap.Accepted s) (out : Clip.Mesh) (g : Gen ℝ Snap)
    (h : step E.steps G ⟨LatS.fresh, sn⟩ (.all F rf) = .done (some (.mesh out)) g) : Uncracked E.L.lo E.L.hi out := by
  obtain ⟨R, V, fs, hR, hmem, hm, k1, k2⟩ := C38_generate E.steps E.L hdet hb rank G hG F hF rf sn
  cases hp : E.steps.process F rf sn (E.steps.raw F V fs) with
  | none =>
      obtain ⟨g', hg⟩ := k2 hp
      rw [hg] at h
      cases h
  | some m =>
      rw [k1 m hp] at h
      have h1 := expected_mesh (Option.some.inj (Run.done.inj h).1)
      subst h1
      exact process_sound hE hsn (raw_valid hm) (raw_closed hcon hR (fun lc hlc => (hmem lc).1 hlc) (fun lc k _ hall _ i hi => (hmem _).2 (hall i hi)) hm) hp

/-- **C66, `generate_from_seed_points`.** The same for the mesh grown from seed points. -/
theorem C66_from_seeds (hE : E.Proper) (hdet : 0 < E.L.det) (rank : Nat × Nat × Nat) (G : Geo ℝ) (hG : G.inBox = E.L.inBox) (hN : ∀ nl, (G.ordN nl).Perm nl)
    (hO : ∀ l, (G.ord l).Perm l) (B : List LC) (hB : ∀ lc, E.L.inBox lc = true → lc ∈ B) (F : Fld ℝ) (hF : ∀ b, F.fails b = false) (hcon : Contained E.L F) (p : P3)
    (hp : E.L.InBbox p) (hr : Ranked (E.L.frac p) rank) (batches : List (List LC))
    (hbat : E.L.rounded p ∈ batches.flatten ∧ ∀ e < 14, E.L.inBox (neighbor (E.L.rounded p) e) = true → neighbor (E.L.rounded p) e ∈ batches.flatten)
    (htie : E.L.rounded p ∈ (E.L.tetrahedron p rank).toList) (rf : Bool) (sn : Option Snap) (hsn : ∀ s, sn = some s → Snap.Accepted s) (out : Clip.Mesh) (g : Gen ℝ Snap)
    (h : step E.steps G ⟨LatS.fresh, sn⟩ (.seeds (some ((E.L.tetrahedron p rank, E.L.weights p rank), batches)) (B.length + 1) F rf) = .done (some (.mesh out)) g) :
    Uncracked E.L.lo E.L.hi out := by
  obtain ⟨R, V, fs, hR, hin, -, hm, hcomp, k1, k2⟩ := C38_from_seeds E.steps E.L hdet rank G hG hN hO B hB F hF p hp hr batches hbat htie rf sn
  cases hp : E.steps.process F rf sn (E.steps.raw F V fs) with
  | none =>
      obtain ⟨g', hg⟩ := k2 hp
      rw [hg] at h
      cases h
  | some m =>
      rw [k1 m hp] at h
      have h1 := expected_mesh (Option.some.inj (Run.done.inj h).1)
      subst h1
      exact process_sound hE hsn (raw_valid hm) (raw_closed hcon hR hin hcomp hm) hp

theorem lastSnap_accepted {ops : List (Op ℝ Snap)} (h : ∀ s, Op.setSnap (some s) true ∈ ops → Snap.Accepted s) {sn : Option Snap} (h0 : ∀ s, sn = some s → Snap.Accepted s) :
    ∀ s, lastSnap sn ops = some s → Snap.Accepted s := by
  induction ops generalizing sn with
  | nil => exact h0
  | cons op ops ih =>
      have h' : ∀ s, Op.setSnap (some s) true ∈ ops → Snap.Accepted s := fun s hs => h s (List.mem_cons_of_mem _ hs)
      rcases op with ⟨F, rf⟩ | ⟨a, b, c, d⟩ | ⟨sn', v⟩ | _
      · exact ih h' h0
      · exact ih h' h0
      · cases v
        · exact ih h' h0
        · exact ih h' fun s hs => h s (by rw [← hs]; exact List.mem_cons_self)
      · exact ih h' h0

/-- **C66, after other calls.** The same for `generate` after any history of calls of which the last one that uses the lattice did not throw. -/
theorem C66_after (hE : E.Proper) (hdet : 0 < E.L.det) (hb : E.L.Ordered) (rank : Nat × Nat × Nat) (G : Geo ℝ) (hG : OfPrim E.L rank G)
    (ops : List (Op ℝ Snap)) (hops : ∀ s, Op.setSnap (some s) true ∈ ops → Snap.Accepted s) (g : Gen ℝ Snap) (hg : runAll E.steps G Gen.new ops = some g)
    (hl : lastThrew E.steps G Gen.new false ops = false) (F : Fld ℝ) (hF : ∀ b, F.fails b = false) (hcon : Contained E.L F) (rf : Bool) (out : Clip.Mesh) (g' : Gen ℝ Snap)
    (h : step E.steps G g (.all F rf) = .done (some (.mesh out)) g') : Uncracked E.L.lo E.L.hi out := by
  rw [C38_reusable E.steps G ops g hg hl] at h
  exact C66_generate hE hdet hb rank G hG F hF hcon rf _ (lastSnap_accepted hops (by simp)) out g' h

end Verif.Pipeline
