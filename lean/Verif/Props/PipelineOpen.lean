import Verif.Lemmas.PipelineSteady

/-!
# C67: any surface comes out of `generate` without cracks, if there are no snap points
-/

namespace Verif.Pipeline

open Verif Verif.Lattice Verif.Iso
open Verif.AbstractMesh (Nondeg Manifold)
open Verif.PrimLattice (Prim)
open Verif.PrimLattice.Prim (Ranked steps steps_sign)
open Verif.Predicates (P3)
open Verif.Thinner (toE)
open Verif.Snapper.Spec (sides net)
open Verif.Clusterer (net_zero_iff)
open Verif.Clusterer.Spec (pos)

variable {E : Env}

theorem beyond_wider {L : Prim} {p q : P3} (h : Clip.Beyond (L.extLo 1) (L.extHi 1) p q) : Clip.Beyond L.lo L.hi p q := by
  have low : ∀ {a b c x : ℝ} {l : ℝ}, x ≤ l + (1 : ℕ) * 1.01 * PrimLattice.Prim.least (steps a b c) → x ≤ l := by
    intro a b c x l h
    have := (steps_sign a b c).1
    push_cast at h
    linarith
  have high : ∀ {a b c x : ℝ} {l : ℝ}, l + (1 : ℕ) * 1.01 * PrimLattice.Prim.greatest (steps a b c) ≤ x → l ≤ x := by
    intro a b c x l h
    have := (steps_sign a b c).2.1
    push_cast at h
    linarith
  rcases h with ⟨h1, h2⟩ | ⟨h1, h2⟩ | ⟨h1, h2⟩ | ⟨h1, h2⟩ | ⟨h1, h2⟩ | ⟨h1, h2⟩
  · exact Or.inl ⟨high h1, high h2⟩
  · exact Or.inr (Or.inl ⟨low h1, low h2⟩)
  · exact Or.inr (Or.inr (Or.inl ⟨high h1, high h2⟩))
  · exact Or.inr (Or.inr (Or.inr (Or.inl ⟨low h1, low h2⟩)))
  · exact Or.inr (Or.inr (Or.inr (Or.inr (Or.inl ⟨high h1, high h2⟩))))
  · exact Or.inr (Or.inr (Or.inr (Or.inr (Or.inr ⟨low h1, low h2⟩))))

/-- A coordinate that is beyond the margin stays beyond the side. -/
theorem snaps_low {tiny lo hi ex x x' y : ℝ} (hs : Refiner.Spec.SnapsTo tiny lo hi x' y) (hx : x ≤ ex) (hm : |x - x'| ≤ lo - ex) (hw : 2 * tiny ≤ hi - lo) (ht : 0 < tiny) : y ≤ lo := by
  obtain ⟨s1, -, s3, -⟩ := hs
  have h1 : x' ≤ lo := by have := (abs_le.1 hm).1; linarith
  by_cases h2 : |x' - lo| < tiny
  · exact (s1 h2 (by rw [abs_sub_comm]; exact le_trans hw (le_abs_self _))).le
  · rw [s3 (not_lt.1 h2) (by rw [abs_sub_comm]; exact le_trans (by linarith) (le_abs_self _))]
    exact h1

theorem snaps_high {tiny lo hi ex x x' y : ℝ} (hs : Refiner.Spec.SnapsTo tiny lo hi x' y) (hx : ex ≤ x) (hm : |x - x'| ≤ ex - hi) (hw : 2 * tiny ≤ hi - lo) (ht : 0 < tiny) : hi ≤ y := by
  obtain ⟨-, s2, s3, -⟩ := hs
  have h1 : hi ≤ x' := by have := (abs_le.1 hm).2; linarith
  by_cases h2 : |x' - hi| < tiny
  · exact (s2 h2 (by rw [abs_sub_comm]; exact le_trans hw (le_abs_self _))).ge
  · rw [s3 (le_trans (by linarith) (le_abs_self _)) (not_lt.1 h2)]
    exact h1

theorem refine_hem {a0 a1 a2 : P3} (hE : E.Proper) (hM : E.Made a0 a1 a2) (hr : E.Roomy) {F : Fld ℝ} {m m' : Clip.Mesh} (hf : Faces m) (h : Skirt E.L m)
    (e : E.refine F m = some m') : Faces m' ∧ Hem E.L m' := by
  unfold Env.refine at e
  obtain ⟨o, eo, rfl⟩ := Option.map_eq_some_iff.1 e
  have e := returned_eq eo
  have hman : Manifold (fun i => (E.refineInput F m).faces[i]?) := by
    by_contra hm
    rw [Refiner.C64_refused (I := E.refineInput F m) (fun f hf' => (hf f hf').1) hm] at e
    cases e
  have hv : Refiner.Spec.Valid (E.refineInput F m) := ⟨hf, hman, hE.resolution, hE.transform, hE.values F⟩
  obtain ⟨h1, h2⟩ := Refiner.C64_faces hv e
  refine ⟨?_, ?_⟩
  · intro f hf'
    dsimp only at hf' ⊢
    rw [h1] at hf'
    rw [h2]
    exact hf f hf'
  · intro u v huv
    dsimp only at huv ⊢
    rw [h1] at huv
    obtain ⟨lu, lv, hb, -, -⟩ := h u v huv
    have hres := hE.resolution
    have ht : 0 < E.resolution / 10 ^ 10 := by positivity
    obtain ⟨b1, b2, b3⟩ := hr.box
    have w : ∀ {x : ℝ}, 2e-10 * E.resolution ≤ x → 2 * (E.resolution / 10 ^ 10) ≤ x := by
      intro x hx
      refine le_trans (le_of_eq ?_) hx
      norm_num
      ring
    have hlow : E.L.extLo 1 ≤ E.L.lo ∧ E.L.hi ≤ E.L.extHi 1 := by
      obtain ⟨c1, c2, c3⟩ := hr.below
      obtain ⟨d1, d2, d3⟩ := hr.above
      have : 0 < 1e-10 * E.resolution := by positivity
      exact ⟨⟨by linarith, by linarith, by linarith⟩, by linarith, by linarith, by linarith⟩
    obtain ⟨⟨l1, l2, l3⟩, g1, g2, g3⟩ := hlow
    have key : ∀ v, v < m.vertices.length →
        (((pos m.vertices v).1 ≤ (E.L.extLo 1).1 → (pos o.vertices v).1 ≤ E.L.lo.1) ∧ ((E.L.extHi 1).1 ≤ (pos m.vertices v).1 → E.L.hi.1 ≤ (pos o.vertices v).1)) ∧
        (((pos m.vertices v).2.1 ≤ (E.L.extLo 1).2.1 → (pos o.vertices v).2.1 ≤ E.L.lo.2.1) ∧ ((E.L.extHi 1).2.1 ≤ (pos m.vertices v).2.1 → E.L.hi.2.1 ≤ (pos o.vertices v).2.1)) ∧
        (((pos m.vertices v).2.2 ≤ (E.L.extLo 1).2.2 → (pos o.vertices v).2.2 ≤ E.L.lo.2.2) ∧ ((E.L.extHi 1).2.2 ≤ (pos m.vertices v).2.2 → E.L.hi.2.2 ≤ (pos o.vertices v).2.2)) := by
      intro v hv'
      rcases Refiner.C64_vertices hv e hv' with k | k
      · rw [show pos o.vertices v = pos m.vertices v from k]
        exact ⟨⟨fun h => h.trans l1, fun h => g1.trans h⟩, ⟨fun h => h.trans l2, fun h => g2.trans h⟩, fun h => h.trans l3, fun h => g3.trans h⟩
      · obtain ⟨x, ⟨sx, sy, sz⟩, hx'⟩ := Refiner.C64_bounded k
        obtain ⟨⟨t1, t2⟩, ⟨t3, t4⟩, t5, t6⟩ := steady hE hM hx'
        exact ⟨⟨fun h => snaps_low sx h t1 (w b1) ht, fun h => snaps_high sx h t2 (w b1) ht⟩, ⟨fun h => snaps_low sy h t3 (w b2) ht, fun h => snaps_high sy h t4 (w b2) ht⟩,
          fun h => snaps_low sz h t5 (w b3) ht, fun h => snaps_high sz h t6 (w b3) ht⟩
    have ku := key u lu
    have kv := key v lv
    rcases hb with ⟨h1, h2⟩ | ⟨h1, h2⟩ | ⟨h1, h2⟩ | ⟨h1, h2⟩ | ⟨h1, h2⟩ | ⟨h1, h2⟩
    · exact Or.inl ⟨ku.1.2 h1, kv.1.2 h2⟩
    · exact Or.inr (Or.inl ⟨ku.1.1 h1, kv.1.1 h2⟩)
    · exact Or.inr (Or.inr (Or.inl ⟨ku.2.1.2 h1, kv.2.1.2 h2⟩))
    · exact Or.inr (Or.inr (Or.inr (Or.inl ⟨ku.2.1.1 h1, kv.2.1.1 h2⟩)))
    · exact Or.inr (Or.inr (Or.inr (Or.inr (Or.inl ⟨ku.2.2.2 h1, kv.2.2.2 h2⟩))))
    · exact Or.inr (Or.inr (Or.inr (Or.inr (Or.inr ⟨ku.2.2.1 h1, kv.2.2.1 h2⟩))))

theorem smooth_skirt {sn : Snap} {m m' : Clip.Mesh} (hf : Faces m) (h : Skirt E.L m) (e : E.smooth sn m = some m') : Faces m' ∧ Skirt E.L m' := by
  obtain ⟨h1, h2, h3⟩ := smooth_same hf e
  refine ⟨h1, fun u v huv => ?_⟩
  rw [h3] at huv
  rw [h2]
  exact h u v huv

theorem smooth_hem {sn : Snap} {m m' : Clip.Mesh} (hf : Faces m) (h : Hem E.L m) (e : E.smooth sn m = some m') : Faces m' ∧ Hem E.L m' := by
  obtain ⟨h1, h2, h3⟩ := smooth_same hf e
  refine ⟨h1, fun u v huv => ?_⟩
  rw [h3] at huv
  rw [h2]
  exact h u v huv

theorem prepare_hem {a0 a1 a2 : P3} (hE : E.Proper) (hM : E.Made a0 a1 a2) (hr : E.Roomy) {F : Fld ℝ} {rf : Bool} {m m' : Clip.Mesh} (hv : m.Valid) (h : Skirt E.L m)
    (e : E.steps.prepare F rf m = some m') : Faces m' ∧ Hem E.L m' := by
  unfold Steps.prepare at e
  simp only [Option.bind_eq_bind, Option.bind_eq_some_iff] at e
  obtain ⟨m1, e1, m2, e2, m3, e3, e4⟩ := e
  obtain ⟨f1, s1⟩ := cluster_skirt hv h e1
  obtain ⟨f2, s2⟩ := smooth_skirt f1 s1 e2
  obtain ⟨f3, s3⟩ := cluster_skirt (fun f hf => (f2 f hf).2) s2 e3
  cases rf with
  | false => exact smooth_hem f3 (fun u v huv => beyond_wider (s3 u v huv).2.2.1) e4
  | true =>
      rw [if_pos rfl, Option.bind_eq_some_iff] at e4
      obtain ⟨m4, e4, e5⟩ := e4
      obtain ⟨f4, s4⟩ := refine_hem hE hM hr f3 s3 e4
      exact smooth_hem f4 s4 e5

theorem process_hem {a0 a1 a2 : P3} (hE : E.Proper) (hM : E.Made a0 a1 a2) (hr : E.Roomy) {F : Fld ℝ} {rf : Bool} {m m' : Clip.Mesh} (hv : m.Valid) (h : Skirt E.L m)
    (e : E.steps.process F rf none m = some m') : Uncracked E.L.lo E.L.hi m' := by
  unfold Steps.process at e
  split at e
  · rename_i h0
    cases e
    have h0 : m.faces = [] := List.length_eq_zero_iff.1 h0
    refine ⟨hv, fun h => absurd h0 h, fun i j p q _ _ _ => by rw [h0]; simp⟩
  · simp only [Option.bind_eq_bind, Option.bind_eq_some_iff] at e
    obtain ⟨m1, e1, e⟩ := e
    obtain ⟨f1, s1⟩ := prepare_hem hE hM hr hv h e1
    obtain ⟨m2, e2, e⟩ := e
    cases e2
    have e3 := returned_eq (show Env.returned _ = some m' from e)
    obtain ⟨out, ho, hval, -⟩ := Clip.C37_defined E.arith m1 E.L.lo E.L.hi fun f hf => (f1 f hf).2
    rw [e3] at ho
    cases ho
    refine ⟨hval, fun _ => Clip.C37_in_box E.arith hE.between m1 _ _ _ e3, Clip.C37_no_cracks E.arith hE.between m1 _ _ _ e3 fun i j p q hp hq hb => ?_⟩
    apply net_zero_iff.1
    by_contra hn
    have := s1 i j hn
    apply hb
    unfold pos at this
    rw [List.getD_eq_getElem?_getD, List.getD_eq_getElem?_getD, hp, hq] at this
    exact this

/-- **C67, `generate`.** Without snap points: if the surface crosses no lattice edge in its middle, a mesh that `generate` returns has no cracks, whether or not
the surface ends inside the extended box. -/
theorem C67_generate {a0 a1 a2 : P3} (hE : E.Proper) (hM : E.Made a0 a1 a2) (hr : E.Roomy) (rank : Nat × Nat × Nat) (G : Geo ℝ) (hG : OfPrim E.L rank G) (F : Fld ℝ)
    (hF : ∀ b, F.fails b = false) (hd : E.Definite F) (rf : Bool) (out : Clip.Mesh) (g : Gen ℝ Snap)
    (h : step E.steps G ⟨LatS.fresh, none⟩ (.all F rf) = .done (some (.mesh out)) g) : Uncracked E.L.lo E.L.hi out := by
  have hdet : 0 < E.L.det := by
    rw [hM.lattice]
    exact Prim.C57_lattice_positive _ _ _ hE.resolution _ _ _ hM.positive
  have hb : E.L.Ordered := by
    obtain ⟨b1, b2, b3⟩ := hr.box
    have := hE.resolution
    have : 0 < 2e-10 * E.resolution := by positivity
    exact ⟨by linarith, by linarith, by linarith⟩
  obtain ⟨R, V, fs, hR, hmem, hm, k1, k2⟩ := C38_generate E.steps E.L hdet hb rank G hG F hF rf none
  cases hp : E.steps.process F rf none (E.steps.raw F V fs) with
  | none =>
      obtain ⟨g', hg⟩ := k2 hp
      rw [hg] at h
      cases h
  | some m =>
      rw [k1 m hp] at h
      have h1 := expected_mesh (Option.some.inj (Run.done.inj h).1)
      subst h1
      exact process_hem hE hM hr (raw_valid hm) (raw_skirt hE hr hd hR (fun lc k _ hall _ i hi => (hmem _).2 (hall i hi)) hm) hp

/-- **C67, `generate_from_seed_points`.** -/
theorem C67_from_seeds {a0 a1 a2 : P3} (hE : E.Proper) (hM : E.Made a0 a1 a2) (hroom : E.Roomy) (rank : Nat × Nat × Nat) (G : Geo ℝ) (hG : G.inBox = E.L.inBox)
    (hN : ∀ nl, (G.ordN nl).Perm nl) (hO : ∀ l, (G.ord l).Perm l) (B : List LC) (hB : ∀ lc, E.L.inBox lc = true → lc ∈ B) (F : Fld ℝ) (hF : ∀ b, F.fails b = false)
    (hd : E.Definite F) (p : P3) (hp : E.L.InBbox p) (hr : Ranked (E.L.frac p) rank) (batches : List (List LC))
    (hbat : E.L.rounded p ∈ batches.flatten ∧ ∀ e < 14, E.L.inBox (neighbor (E.L.rounded p) e) = true → neighbor (E.L.rounded p) e ∈ batches.flatten)
    (htie : E.L.rounded p ∈ (E.L.tetrahedron p rank).toList) (rf : Bool) (out : Clip.Mesh) (g : Gen ℝ Snap)
    (h : step E.steps G ⟨LatS.fresh, none⟩ (.seeds (some ((E.L.tetrahedron p rank, E.L.weights p rank), batches)) (B.length + 1) F rf) = .done (some (.mesh out)) g) :
    Uncracked E.L.lo E.L.hi out := by
  have hdet : 0 < E.L.det := by
    rw [hM.lattice]
    exact Prim.C57_lattice_positive _ _ _ hE.resolution _ _ _ hM.positive
  obtain ⟨R, V, fs, hR, hin, -, hm, hcomp, k1, k2⟩ := C38_from_seeds E.steps E.L hdet rank G hG hN hO B hB F hF p hp hr batches hbat htie rf none
  cases hp : E.steps.process F rf none (E.steps.raw F V fs) with
  | none =>
      obtain ⟨g', hg⟩ := k2 hp
      rw [hg] at h
      cases h
  | some m =>
      rw [k1 m hp] at h
      have h1 := expected_mesh (Option.some.inj (Run.done.inj h).1)
      subst h1
      exact process_hem hE hM hroom (raw_valid hm) (raw_skirt hE hroom hd hR hcomp hm) hp

/-- **C67, after other calls.** -/
theorem C67_after {a0 a1 a2 : P3} (hE : E.Proper) (hM : E.Made a0 a1 a2) (hr : E.Roomy) (rank : Nat × Nat × Nat) (G : Geo ℝ) (hG : OfPrim E.L rank G)
    (ops : List (Op ℝ Snap)) (hops : lastSnap none ops = none) (g : Gen ℝ Snap) (hg : runAll E.steps G Gen.new ops = some g)
    (hl : lastThrew E.steps G Gen.new false ops = false) (F : Fld ℝ) (hF : ∀ b, F.fails b = false) (hd : E.Definite F) (rf : Bool) (out : Clip.Mesh) (g' : Gen ℝ Snap)
    (h : step E.steps G g (.all F rf) = .done (some (.mesh out)) g') : Uncracked E.L.lo E.L.hi out := by
  rw [C38_reusable E.steps G ops g hg hl, hops] at h
  exact C67_generate hE hM hr rank G hG F hF hd rf out g' h

end Verif.Pipeline
