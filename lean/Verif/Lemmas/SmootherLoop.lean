import Verif.Lemmas.SmootherStep

/-! # Lemmas: the flips in a row -/

namespace Verif.Smoother

open Verif Verif.AbstractMesh Verif.SpatialGrid Verif.SpatialGrid.Spec Verif.MeshDefects Verif.MeshDefects.Spec Verif.Thinner Verif.Thinner.Spec Verif.Smoother.Spec
open Verif.Predicates (P3 kTinyFactor kTinyFactor_nonneg C55_faces)
open Verif.Geometry (Cross)

variable {I : Input}

/-- The edge and the two faces of a quad, in the mesh. -/
theorem quad_he {m : AbstractMesh.Mesh} (hr : Reachable m) {fi fj x y c d : Nat}
    (hl : ∃ f, faceAt m fi = some f ∧ Side f x y ∧ Side f y c ∧ Side f c x) (hrt : ∃ f, faceAt m fj = some f ∧ Side f y x ∧ Side f x d ∧ Side f d y) :
    ∃ h o, IsHalfedge m h x y ∧ IsHalfedge m o y x ∧ fi = h / 4 ∧ fj = o / 4 ∧ c = m.apex h ∧ d = m.apex o := by
  obtain ⟨f, f1, f2, f3, f4⟩ := hl
  obtain ⟨g, g1, g2, g3, g4⟩ := hrt
  obtain ⟨h, H, e1⟩ := side_he f1 f2
  obtain ⟨o, O, e2⟩ := side_he g1 g2
  obtain ⟨f', p1, p2, p3, p4⟩ := he_sides hr H
  obtain ⟨g', q1, q2, q3, q4⟩ := he_sides hr O
  rw [e1, f1] at p1; cases p1
  rw [e2, g1] at q1; cases q1
  exact ⟨h, o, H, O, e1.symm, e2.symm, side_right (hr.good.consistent.corners _ _ f1) f3 p3, side_right (hr.good.consistent.corners _ _ g1) g3 q3⟩

theorem quad_flipped {m : AbstractMesh.Mesh} (hr : Reachable m) {fi fj x y c d : Nat}
    (hl : ∃ f, faceAt m fi = some f ∧ Side f x y ∧ Side f y c ∧ Side f c x) (hrt : ∃ f, faceAt m fj = some f ∧ Side f y x ∧ Side f x d ∧ Side f d y)
    (fresh : c ≠ d ∧ ¬ Thinner.Spec.Adjacent (faceAt m) c d) :
    ∃ m', m.flip x y = (m', .ok ()) ∧ Reachable m' ∧ m'.nf = m.nf ∧ faceAt m' = flipped (faceAt m) fi fj x y c d ∧
      Quad (faceAt m) (flipped (faceAt m) fi fj x y c d) fi fj x y c d := by
  obtain ⟨h, o, H, O, rfl, rfl, rfl, rfl⟩ := quad_he hr hl hrt
  obtain ⟨m', e1, e2, e3, Q⟩ := flip_exists hr H O fresh.1 fresh.2
  have e4 : faceAt m' = flipped (faceAt m) (h / 4) (o / 4) x y (m.apex h) (m.apex o) := by
    funext i
    unfold flipped
    by_cases h1 : i = h / 4
    · rw [if_pos h1, h1, Q.left']
    · rw [if_neg h1]
      by_cases h2 : i = o / 4
      · rw [if_pos h2, h2, Q.right']
      · rw [if_neg h2, Q.others i h1 h2]
  exact ⟨m', e1, e2, e3, e4, e4 ▸ Q⟩

/-- The first five conditions of `Allowed`. -/
theorem scored_iff {m : AbstractMesh.Mesh} (hr : Reachable m) (fl : Flip) : Scored I m fl ↔
    ((∃ f, faceAt m fl.fi0 = some f ∧ Side f fl.x fl.y ∧ Side f fl.y fl.c ∧ Side f fl.c fl.x) ∧
      (∃ f, faceAt m fl.fi1 = some f ∧ Side f fl.y fl.x ∧ Side f fl.x fl.d ∧ Side f fl.d fl.y) ∧
      (fl.c ≠ fl.d ∧ ¬ Thinner.Spec.Adjacent (faceAt m) fl.c fl.d) ∧
      totalBend I (flipped (faceAt m) fl.fi0 fl.fi1 fl.x fl.y fl.c fl.d) < totalBend I (faceAt m) - 1 / 1000000 ∧
      ‖toE (I.T (Spec.pos I.vertices fl.c)) - toE (I.T (Spec.pos I.vertices fl.d))‖ ≤
        max ‖toE (I.T (Spec.pos I.vertices fl.x)) - toE (I.T (Spec.pos I.vertices fl.y))‖ (1.3 * I.resolution)) := by
  constructor
  · intro hS
    obtain ⟨h, o, H, O, q1, q2, q3, q4⟩ := hS.he
    have hl : ∃ f, faceAt m fl.fi0 = some f ∧ Side f fl.x fl.y ∧ Side f fl.y fl.c ∧ Side f fl.c fl.x := by
      rw [q1, q3]; exact he_sides hr H
    have hrt : ∃ f, faceAt m fl.fi1 = some f ∧ Side f fl.y fl.x ∧ Side f fl.x fl.d ∧ Side f fl.d fl.y := by
      rw [q2, q4]; exact he_sides hr O
    obtain ⟨m', -, -, -, -, Q⟩ := quad_flipped hr hl hrt ⟨hS.cd, hS.fresh⟩
    exact ⟨hl, hrt, ⟨hS.cd, hS.fresh⟩, hS.flatter _ Q, hS.short⟩
  · rintro ⟨hl, hrt, fresh, fl', short⟩
    refine ⟨quad_he hr hl hrt, fresh.1, fresh.2, ?_, short⟩
    intro F' Q
    have : F' = flipped (faceAt m) fl.fi0 fl.fi1 fl.x fl.y fl.c fl.d := by
      funext i
      unfold flipped
      by_cases h1 : i = fl.fi0
      · rw [if_pos h1, h1, Q.left']
      · rw [if_neg h1]
        by_cases h2 : i = fl.fi1
        · rw [if_pos h2, h2, Q.right']
        · rw [if_neg h2, Q.others i h1 h2]
    rw [this]
    exact fl'

/-- The sides of the quad as seen from outside are not in the quad. -/
theorem Quad.outer_ne {F F' : Nat → Option AbstractMesh.Face} {fi fj x y c d : Nat} (Q : Quad F F' fi fj x y c d) {j : Nat} {f : AbstractMesh.Face}
    (hf : F j = some f) (hs : Side f x c ∨ Side f c y ∨ Side f d x ∨ Side f y d) : j ≠ fi ∧ j ≠ fj := by
  obtain ⟨n1, n2, n3, n4, n5, n6⟩ := Q.ne
  have n7 := Q.cd
  have key : ∀ u v, Side f u v → ((u = x ∧ v = c) ∨ (u = c ∧ v = y) ∨ (u = d ∧ v = x) ∨ (u = y ∧ v = d)) → j ≠ fi ∧ j ≠ fj := by
    intro u v s h
    constructor
    · rintro rfl
      have := Q.sides_left hf s
      omega
    · rintro rfl
      have := Q.sides_right hf s
      omega
  rcases hs with s | s | s | s
  · exact key _ _ s (Or.inl ⟨rfl, rfl⟩)
  · exact key _ _ s (Or.inr (Or.inl ⟨rfl, rfl⟩))
  · exact key _ _ s (Or.inr (Or.inr (Or.inl ⟨rfl, rfl⟩)))
  · exact key _ _ s (Or.inr (Or.inr (Or.inr ⟨rfl, rfl⟩)))

theorem new_range {m : AbstractMesh.Mesh} (hrange : ∀ i f, faceAt m i = some f → InRange I f) {F' : Nat → Option AbstractMesh.Face} {fi fj x y c d : Nat}
    (Q : Quad (faceAt m) F' fi fj x y c d) : InRange I (c, x, d) ∧ InRange I (d, y, c) := by
  obtain ⟨n1, n2, n3, n4, n5, n6⟩ := Q.ne
  have n7 := Q.cd
  obtain ⟨f, f1, f2, f3, f4⟩ := Q.left
  obtain ⟨g, g1, g2, g3, g4⟩ := Q.right
  have lt : ∀ {i f v}, faceAt m i = some f → Corner f v → v < I.vertices.length := by
    intro i f v hf hv
    obtain ⟨-, r1, r2, r3⟩ := hrange i f hf
    rcases hv with e | e | e <;> omega
  have l1 := lt f1 (side_corner f2).1
  have l2 := lt f1 (side_corner f2).2
  have l3 := lt f1 (side_corner f3).2
  have l4 := lt g1 (side_corner g3).2
  exact ⟨⟨⟨n3, n4, n7.symm⟩, l3, l1, l4⟩, ⟨⟨n5, n2, n7⟩, l4, l2, l3⟩⟩

theorem admit_spec (hI : Valid I) {s : State} (hs : SInv I s) (e : Item) :
    ∃ s' r, admit I s e = .ok (s', r) ∧ SInv I s' ∧ s'.mesh = s.mesh ∧
      (∀ fl, r = some fl → fl.x = e.a ∧ fl.y = e.b ∧ Allowed I (faceAt s.mesh) fl.fi0 fl.fi1 fl.x fl.y fl.c fl.d) ∧
      (r = none → ∀ fi fj c d, ¬ Allowed I (faceAt s.mesh) fi fj e.a e.b c d) := by
  have hr := hs.reach
  have hC := hr.good.consistent
  unfold admit
  obtain ⟨r, e1, sc1, sc2⟩ := score_spec hI hr hs.range e.a e.b
  rw [e1]
  simp only [Outcome.ok_bind]
  cases r with
  | none =>
      refine ⟨s, none, rfl, hs, rfl, by simp, fun _ fi fj c d hA => ?_⟩
      exact sc2 rfl ⟨fi, fj, e.a, e.b, c, d, 0⟩ rfl rfl ((scored_iff hr _).2 ⟨hA.left, hA.right, hA.fresh, hA.flatter, hA.short⟩)
  | some fl =>
      dsimp only
      obtain ⟨hS, ex, ey⟩ := sc1 fl rfl
      obtain ⟨S1, S2, S3, S4, S5⟩ := (scored_iff hr fl).1 hS
      have uniq : ∀ fi fj c d, Allowed I (faceAt s.mesh) fi fj e.a e.b c d → fi = fl.fi0 ∧ fj = fl.fi1 ∧ c = fl.c ∧ d = fl.d := by
        intro fi fj c d hA
        obtain ⟨f, f1, f2, f3, -⟩ := hA.left
        obtain ⟨g, g1, g2, g3, -⟩ := hA.right
        obtain ⟨f', f1', f2', f3', -⟩ := S1
        obtain ⟨g', g1', g2', g3', -⟩ := S2
        rw [ex, ey] at f2' g2'
        rw [ey] at f3'
        rw [ex] at g3'
        have k1 := hC.manifold _ _ _ _ _ _ f1 f1' f2 f2'
        have k2 := hC.manifold _ _ _ _ _ _ g1 g1' g2 g2'
        rw [k1, f1'] at f1; cases f1
        rw [k2, g1'] at g1; cases g1
        exact ⟨k1, k2, side_right (hC.corners _ _ f1') f3 f3', side_right (hC.corners _ _ g1') g3 g3'⟩
      obtain ⟨m', -, -, -, -, Q⟩ := quad_flipped hr S1 S2 S3
      obtain ⟨nr0, nr1⟩ := new_range hs.range Q
      obtain ⟨s1, ok, e2, i1, m1, h1⟩ := honorsOk_spec hI hs fl hS
      rw [e2]
      simp only [Outcome.ok_bind]
      have hon : ok = true ↔ ∀ i q tol, I.points[i]? = some q → HasTolerance I i tol →
          (∃ f, (faceAt s.mesh fl.fi0 = some f ∨ faceAt s.mesh fl.fi1 = some f) ∧ Honors I.T (tri I.vertices f) q tol) →
          ∃ f, (f = (fl.c, fl.x, fl.d) ∨ f = (fl.d, fl.y, fl.c) ∨ ∃ j, faceAt s.mesh j = some f ∧
            (Side f fl.x fl.c ∨ Side f fl.c fl.y ∨ Side f fl.d fl.x ∨ Side f fl.y fl.d)) ∧ Honors I.T (tri I.vertices f) q tol := by
        obtain ⟨f, f1, -⟩ := S1
        obtain ⟨g, g1, -⟩ := S2
        have hrg : ∀ k, (k = (fl.c, fl.x, fl.d) ∨ k = (fl.d, fl.y, fl.c) ∨ ∃ j, faceAt s.mesh j = some k ∧
            (Side k fl.x fl.c ∨ Side k fl.c fl.y ∨ Side k fl.d fl.x ∨ Side k fl.y fl.d)) → InRange I k := by
          rintro k (rfl | rfl | ⟨j, hj, -⟩)
          · exact nr0
          · exact nr1
          · exact hs.range j k hj
        rw [h1]
        constructor
        · intro hh i q tol hq ht hst
          obtain ⟨hi, rfl⟩ := List.getElem?_eq_some_iff.1 hq
          rw [hasTolerance_iff hI hi] at ht
          subst ht
          obtain ⟨k, k1, k2⟩ := hh i hi (by
            rw [live_face f1, live_face g1, honoredBy_iff hI i (hs.range _ _ f1), honoredBy_iff hI i (hs.range _ _ g1), getD_lt _ _ hi]
            obtain ⟨k, k1 | k1, k2⟩ := hst
            · rw [f1] at k1; cases k1; exact Or.inl k2
            · rw [g1] at k1; cases k1; exact Or.inr k2)
          rw [honoredBy_iff hI i (hrg k k1), getD_lt _ _ hi] at k2
          exact ⟨k, k1, k2⟩
        · intro hh i hi hst
          rw [live_face f1, live_face g1, honoredBy_iff hI i (hs.range _ _ f1), honoredBy_iff hI i (hs.range _ _ g1), getD_lt _ _ hi] at hst
          obtain ⟨k, k1, k2⟩ := hh i _ (I.tol i) (List.getElem?_eq_getElem hi) ((hasTolerance_iff hI hi).2 rfl) (by
            rcases hst with h | h
            · exact ⟨f, Or.inl f1, h⟩
            · exact ⟨g, Or.inr g1, h⟩)
          exact ⟨k, k1, by rw [honoredBy_iff hI i (hrg k k1), getD_lt _ _ hi]; exact k2⟩
      by_cases hok : ok = false
      · rw [if_pos hok]
        refine ⟨s1, none, rfl, i1, m1, by simp, fun _ fi fj c d hA => ?_⟩
        obtain ⟨rfl, rfl, rfl, rfl⟩ := uniq fi fj c d hA
        rw [← ex, ← ey] at hA
        rw [hon.2 hA.honored] at hok
        cases hok
      · rw [if_neg hok]
        have hhon := hon.1 (by simpa using hok)
        unfold guardHit
        obtain ⟨s2, hit, e3, i2, m2, h2⟩ := hitsAny_spec hI [fl.fi0, fl.fi1] [fl.newF0, fl.newF1] (by
          intro nf hnf
          simp only [List.mem_cons, List.not_mem_nil, or_false] at hnf
          rcases hnf with rfl | rfl
          · exact nr0
          · exact nr1) i1
        rw [e3]
        simp only [Outcome.ok_bind]
        rw [m1] at h2
        have hclear : hit = false ↔ ∀ f j g, f = (fl.c, fl.x, fl.d) ∨ f = (fl.d, fl.y, fl.c) → faceAt s.mesh j = some g → j ≠ fl.fi0 → j ≠ fl.fi1 →
            MeshDefects.trianglesIntersect (Predicates.narrow Predicates.kTinyFactor) (tri I.vertices f) (tri I.vertices g) ≠ .ok true := by
          rw [← Bool.not_eq_true, h2]
          constructor
          · intro hh f j g hf hg n1 n2 hx
            refine hh ⟨f, ?_, j, g, hg, ?_, hx⟩
            · simp only [List.mem_cons, List.not_mem_nil, or_false]
              exact hf
            · simp [n1, n2]
          · rintro hh ⟨f, hf, j, g, hg, hn, hx⟩
            simp only [List.mem_cons, List.not_mem_nil, or_false] at hf hn
            push Not at hn
            exact hh f j g hf hg hn.1 hn.2 hx
        cases hit with
        | true =>
            rw [if_pos rfl]
            refine ⟨s2, none, rfl, i2, m2.trans m1, by simp, fun _ fi fj c d hA => ?_⟩
            obtain ⟨rfl, rfl, rfl, rfl⟩ := uniq fi fj c d hA
            rw [← ex, ← ey] at hA
            have := hclear.2 hA.clear
            cases this
        | false =>
            rw [if_neg (by simp)]
            refine ⟨s2, some fl, rfl, i2, m2.trans m1, ?_, by simp⟩
            rintro fl' ⟨⟩
            exact ⟨ex, ey, S1, S2, S3, S4, S5, hhon, hclear.1 rfl⟩

/-- An allowed flip keeps all guarantees. -/
theorem allowed_flipped (hI : Valid I) {m : AbstractMesh.Mesh} (hr : Reachable m) (hrange : ∀ i f, faceAt m i = some f → InRange I f)
    {fi fj x y c d : Nat} (hA : Allowed I (faceAt m) fi fj x y c d) : Flipped I (faceAt m) (flipped (faceAt m) fi fj x y c d) fi fj x y c d := by
  obtain ⟨m', -, -, -, -, Q⟩ := quad_flipped hr hA.left hA.right hA.fresh
  obtain ⟨nr0, nr1⟩ := new_range hrange Q
  generalize flipped (faceAt m) fi fj x y c d = F' at *
  have fl := hA.flatter
  have hF' : totalBend I F' < totalBend I (faceAt m) - 1 / 1000000 := by
    have : F' = flipped (faceAt m) fi fj x y c d := by
      funext i
      unfold flipped
      by_cases h1 : i = fi
      · rw [if_pos h1, h1, Q.left']
      · rw [if_neg h1]
        by_cases h2 : i = fj
        · rw [if_pos h2, h2, Q.right']
        · rw [if_neg h2, Q.others i h1 h2]
    rw [this]; exact fl
  refine ⟨hA.left, hA.right, Q.left', Q.right', Q.others, hA.fresh, Q.man', hF', hA.short, ?_, ?_⟩
  · rintro i q tol hq ht ⟨j, f, hf, hh⟩
    by_cases hj : j = fi ∨ j = fj
    · obtain ⟨k, k1, k2⟩ := hA.honored i q tol hq ht ⟨f, by rcases hj with rfl | rfl <;> simp [hf], hh⟩
      rcases k1 with rfl | rfl | ⟨j', k1, k3⟩
      · exact ⟨_, _, Q.left', k2⟩
      · exact ⟨_, _, Q.right', k2⟩
      · obtain ⟨n1, n2⟩ := Q.outer_ne k1 k3
        exact ⟨j', k, by rw [Q.others j' n1 n2]; exact k1, k2⟩
    · push Not at hj
      exact ⟨j, f, by rw [Q.others j hj.1 hj.2]; exact hf, hh⟩
  · have hx : ∀ i j f g, F' i = some f → F' j = some g → Cross (tri I.vertices f) (tri I.vertices g) → (i = fi ∨ i = fj) → j = fi ∨ j = fj := by
      intro i j f g h1 h2 hc hi
      by_contra hj
      push Not at hj
      rw [Q.others j hj.1 hj.2] at h2
      have hf : f = (c, x, d) ∨ f = (d, y, c) := by
        rcases hi with rfl | rfl
        · rw [Q.left'] at h1; exact Or.inl (Option.some.inj h1).symm
        · rw [Q.right'] at h1; exact Or.inr (Option.some.inj h1).symm
      have hrf : InRange I f := by
        rcases hf with rfl | rfl
        · exact nr0
        · exact nr1
      exact hA.clear f j g hf h2 hj.1 hj.2 (C55_faces kTinyFactor_nonneg _ _ (distinct hI hrf) (distinct hI (hrange j g h2)) hc)
    intro i j f g hij h1 h2 hc
    by_cases hi : i = fi ∨ i = fj
    · have hj := hx i j f g h1 h2 hc hi
      rcases hi with rfl | rfl <;> rcases hj with rfl | rfl
      · exact absurd rfl hij
      · exact Or.inr (Or.inl ⟨rfl, rfl⟩)
      · exact Or.inr (Or.inr ⟨rfl, rfl⟩)
      · exact absurd rfl hij
    · have hj : ¬ (j = fi ∨ j = fj) := fun hj => hi (hx j i g f h2 h1 (cross_symm hc) hj)
      push Not at hi hj
      rw [Q.others i hi.1 hi.2] at h1
      rw [Q.others j hj.1 hj.2] at h2
      exact Or.inl ⟨h1, h2⟩

theorem doFlip_spec {s : State} (hs : SInv I s) (fl : Flip) (hA : Allowed I (faceAt s.mesh) fl.fi0 fl.fi1 fl.x fl.y fl.c fl.d) :
    ∃ s', doFlip I s fl = .ok s' ∧ SInv I s' ∧ s'.mesh.nf = s.mesh.nf ∧
      faceAt s'.mesh = flipped (faceAt s.mesh) fl.fi0 fl.fi1 fl.x fl.y fl.c fl.d := by
  have hr := hs.reach
  obtain ⟨m', e1, r', nf', F', Q⟩ := quad_flipped hr hA.left hA.right hA.fresh
  obtain ⟨nr0, nr1⟩ := new_range hs.range Q
  have hne := Q.ne.2.2.2.2.2
  obtain ⟨f, f1, -⟩ := hA.left
  obtain ⟨g, g1, -⟩ := hA.right
  unfold doFlip
  obtain ⟨ops, hF, hL⟩ := hs.fgrid
  obtain ⟨g', ops', u1, u2, u3⟩ := unindexAll_spec [fl.fi0, fl.fi1] s.fgrid ops hF (fun fi hfi => by
    simp only [List.mem_cons, List.not_mem_nil, or_false] at hfi
    rcases hfi with rfl | rfl
    · exact ⟨_, live_inserted ops _ _ (by rw [hL, f1]; rfl)⟩
    · exact ⟨_, live_inserted ops _ _ (by rw [hL, g1]; rfl)⟩)
  rw [u1]
  simp only [Outcome.ok_bind]
  rw [e1]
  dsimp only
  obtain ⟨ops2, v1, v2, v3, v4⟩ := indexAll_spec [fl.fi0, fl.fi1] { s with mesh := m', fgrid := g' } ops' u2 (by simp [hne]) (fun i hi => by rw [u3, if_pos hi])
  generalize List.foldl (indexFace I) { s with mesh := m', fgrid := g' } [fl.fi0, fl.fi1] = s2 at *
  dsimp only at v2 v3 v4
  have hface : faceAt s2.mesh = flipped (faceAt s.mesh) fl.fi0 fl.fi1 fl.x fl.y fl.c fl.d := by rw [v2, F']
  refine ⟨s2, rfl, ⟨by rw [v2]; exact r', ?_, ⟨ops2, v1, ?_⟩, by rw [v3]; exact hs.sgrid⟩, by rw [v2, nf'], hface⟩
  · intro i k hk
    rw [hface] at hk
    by_cases h1 : i = fl.fi0
    · rw [h1, Q.left'] at hk; cases hk; exact nr0
    · by_cases h2 : i = fl.fi1
      · rw [h2, Q.right'] at hk; cases hk; exact nr1
      · rw [Q.others i h1 h2] at hk; exact hs.range i k hk
  · intro i
    rw [v4]
    by_cases hi : i ∈ [fl.fi0, fl.fi1]
    · rw [if_pos hi, v2]
      simp only [List.mem_cons, List.not_mem_nil, or_false] at hi
      have : ∃ k, faceAt m' i = some k := by
        rw [F']
        rcases hi with rfl | rfl
        · exact ⟨_, Q.left'⟩
        · exact ⟨_, Q.right'⟩
      obtain ⟨k, hk⟩ := this
      rw [hk, live_face hk]
      rfl
    · rw [if_neg hi, u3, if_neg hi, hL, hface]
      simp only [List.mem_cons, List.not_mem_nil, or_false] at hi
      push Not at hi
      rw [Q.others i hi.1 hi.2]

end Verif.Smoother
