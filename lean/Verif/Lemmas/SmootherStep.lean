import Verif.Lemmas.SmootherBend

/-! # Lemmas: one flip -/

namespace Verif.Smoother

open Verif Verif.AbstractMesh Verif.SpatialGrid Verif.SpatialGrid.Spec Verif.MeshDefects Verif.MeshDefects.Spec Verif.Thinner Verif.Thinner.Spec Verif.Smoother.Spec
open Verif.Predicates (P3)
open Verif.Geometry (Cross)

variable {I : Input}

theorem acrossOf_eq {m : AbstractMesh.Mesh} {e x y : Nat} (H : IsHalfedge m e x y) : acrossOf m e = .ok ((m.opp e).map (· / 4)) := by
  unfold acrossOf
  rw [opposite_eq H]
  rfl

theorem he_sides {m : AbstractMesh.Mesh} (hr : Reachable m) {h x y : Nat} (H : IsHalfedge m h x y) :
    ∃ f, faceAt m (h / 4) = some f ∧ Side f x y ∧ Side f y (m.apex h) ∧ Side f (m.apex h) x := by
  obtain ⟨f, f1, f2⟩ := he_side H
  have hC := hr.good.consistent
  obtain ⟨g, g1, g2⟩ := he_side (C35_walk hr H).2.2.1
  obtain ⟨k, k1, k2⟩ := he_side (C35_walk hr H).2.2.2.1
  have e1 : Mesh.next h / 4 = h / 4 := by
    have := ((isHalfedge_iff m h x y).1 H).1.2
    unfold Mesh.next ccw
    split <;> omega
  have e2 : Mesh.prev h / 4 = h / 4 := by
    have := ((isHalfedge_iff m h x y).1 H).1.2
    unfold Mesh.prev cw
    split <;> omega
  rw [e1, f1] at g1; cases g1
  rw [e2, f1] at k1; cases k1
  exact ⟨f, f1, f2, g2, k2⟩

/-- The bend with the face across a side. -/
theorem bendWith_eq {m : AbstractMesh.Mesh} {G : Nat → Option AbstractMesh.Face} (hM : Manifold G) {i e u v : Nat} {f : AbstractMesh.Face}
    (hf : G i = some f) (hs : Side f u v) (h1 : ∀ o, m.opp e = some o → ∃ g, G (o / 4) = some g ∧ m.face (o / 4) = g ∧ Side g v u)
    (h2 : m.opp e = none → ∀ j g, G j = some g → ¬ Side g v u) : bendWith I m f ((m.opp e).map (· / 4)) = edgeBend I G u v := by
  cases ho : m.opp e with
  | none => rw [edgeBend_none' (h2 ho)]; rfl
  | some o =>
      obtain ⟨g, g1, g2, g3⟩ := h1 o ho
      rw [edgeBend_some hM hf hs g1 g3, ← g2]
      rfl

theorem bendWith_before {m : AbstractMesh.Mesh} (hr : Reachable m) {e u v : Nat} {f : AbstractMesh.Face} (H : IsHalfedge m e u v)
    {i : Nat} (hf : faceAt m i = some f) (hs : Side f u v) : bendWith I m f ((m.opp e).map (· / 4)) = edgeBend I (faceAt m) u v := by
  refine bendWith_eq hr.good.consistent.manifold hf hs ?_ ?_
  · intro o ho
    obtain ⟨g, g1, g2⟩ := he_side ((opp_iff hr H).1 ho)
    exact ⟨g, g1, live_face g1, g2⟩
  · intro ho j g hg hs'
    obtain ⟨o, O, -⟩ := side_he hg hs'
    rw [(opp_iff hr H).2 O] at ho; cases ho

theorem bendWith_after {m : AbstractMesh.Mesh} (hr : Reachable m) {F' : Nat → Option AbstractMesh.Face} {fi fj x y c d : Nat}
    (Q : Quad (faceAt m) F' fi fj x y c d) {e u v : Nat} {f : AbstractMesh.Face} (H : IsHalfedge m e u v)
    (huv : (u = c ∧ v = x) ∨ (u = y ∧ v = c) ∨ (u = x ∧ v = d) ∨ (u = d ∧ v = y))
    {i : Nat} (hf : F' i = some f) (hs : Side f u v) : bendWith I m f ((m.opp e).map (· / 4)) = edgeBend I F' u v := by
  obtain ⟨n1, n2, n3, n4, n5, n6⟩ := Q.ne
  have n7 := Q.cd
  refine bendWith_eq Q.man' hf hs ?_ ?_
  · intro o ho
    obtain ⟨g, g1, g2⟩ := he_side ((opp_iff hr H).1 ho)
    refine ⟨g, ?_, live_face g1, g2⟩
    rw [Q.others]
    · exact g1
    · intro e'
      rw [e'] at g1
      have := Q.sides_left g1 g2
      omega
    · intro e'
      rw [e'] at g1
      have := Q.sides_right g1 g2
      omega
  · intro ho j g hg hs'
    rcases Q.side_iff.1 ⟨j, g, hg, hs'⟩ with ⟨⟨j', g', hg', hs''⟩, -⟩ | e | e
    · obtain ⟨o, O, -⟩ := side_he hg' hs''
      rw [(opp_iff hr H).2 O] at ho; cases ho
    · omega
    · omega

/-- The flip that `score` returns. -/
structure Scored (I : Input) (m : AbstractMesh.Mesh) (fl : Flip) : Prop where
  he : ∃ h o, IsHalfedge m h fl.x fl.y ∧ IsHalfedge m o fl.y fl.x ∧ fl.fi0 = h / 4 ∧ fl.fi1 = o / 4 ∧ fl.c = m.apex h ∧ fl.d = m.apex o
  cd : fl.c ≠ fl.d
  fresh : ¬ Thinner.Spec.Adjacent (faceAt m) fl.c fl.d
  flatter : ∀ F', Quad (faceAt m) F' fl.fi0 fl.fi1 fl.x fl.y fl.c fl.d → totalBend I F' < totalBend I (faceAt m) - 1 / 1000000
  short : ‖toE (I.T (Spec.pos I.vertices fl.c)) - toE (I.T (Spec.pos I.vertices fl.d))‖ ≤
    max ‖toE (I.T (Spec.pos I.vertices fl.x)) - toE (I.T (Spec.pos I.vertices fl.y))‖ (1.3 * I.resolution)

theorem short_iff (hI : Valid I) (c d x y : Nat) :
    ‖toE (I.T (Spec.pos I.vertices c)) - toE (I.T (Spec.pos I.vertices d))‖ ≤
      max ‖toE (I.T (Spec.pos I.vertices x)) - toE (I.T (Spec.pos I.vertices y))‖ (1.3 * I.resolution) ↔
    ¬ dotP (I.ap c - I.ap d) (I.ap c - I.ap d) > max (dotP (I.ap x - I.ap y) (I.ap x - I.ap y)) I.maxEdge2 := by
  have e1 : I.T (Spec.pos I.vertices c) = I.ap c := rfl
  have e2 : I.T (Spec.pos I.vertices d) = I.ap d := rfl
  have e3 : I.T (Spec.pos I.vertices x) = I.ap x := rfl
  have e4 : I.T (Spec.pos I.vertices y) = I.ap y := rfl
  have hres := hI.resolution
  rw [e1, e2, e3, e4, toE_sub, toE_sub, gt_iff_lt, not_lt, ← norm_toE_sq, ← norm_toE_sq, Input.maxEdge2, ← sq, le_max_iff, le_max_iff]
  exact or_congr (pow_le_pow_iff_left₀ (norm_nonneg _) (norm_nonneg _) (by norm_num)).symm
    (pow_le_pow_iff_left₀ (norm_nonneg _) (by positivity) (by norm_num)).symm

theorem flip_exists {m : AbstractMesh.Mesh} (hr : Reachable m) {h o x y : Nat} (H : IsHalfedge m h x y) (O : IsHalfedge m o y x)
    (hcd : m.apex h ≠ m.apex o) (fresh : ¬ Thinner.Spec.Adjacent (faceAt m) (m.apex h) (m.apex o)) :
    ∃ m', m.flip x y = (m', .ok ()) ∧ Reachable m' ∧ m'.nf = m.nf ∧ Quad (faceAt m) (faceAt m') (h / 4) (o / 4) x y (m.apex h) (m.apex o) := by
  have hC := hr.good.consistent
  have hno : ∀ fi f, faceAt m fi = some f → ¬ Side f (m.apex h) (m.apex o) ∧ ¬ Side f (m.apex o) (m.apex h) := fun i f hf =>
    ⟨fun s => fresh ⟨i, f, hf, (side_corner s).1, (side_corner s).2, hcd⟩, fun s => fresh ⟨i, f, hf, (side_corner s).2, (side_corner s).1, hcd⟩⟩
  obtain ⟨m', e, r, hf⟩ := (C35_flip hr H O hcd).1 hno
  refine ⟨m', e, r, ?_, ?_⟩
  · rcases flip_core hr.good H O hcd with ⟨-, m2, e2, -, -, e3, -⟩ | ⟨⟨fi, f, q1, q2⟩, -⟩
    · rw [e] at e2; cases e2; exact e3
    · exact absurd q2 (not_or.2 (hno fi f q1))
  · obtain ⟨f, f1, f2, f3, f4⟩ := he_sides hr H
    obtain ⟨g, g1, g2, g3, g4⟩ := he_sides hr O
    have hne : h / 4 ≠ o / 4 := by
      intro e'
      rw [← e', f1] at g1; cases g1
      have hn := hC.corners _ _ f1
      exact side_ne hn f4 (side_right hn f3 g2)
    refine ⟨⟨f, f1, f2, f3, f4⟩, ⟨g, g1, g2, g3, g4⟩, ?_, ?_, ?_, hcd, fresh, hC.corners, hC.manifold, r.good.consistent.manifold⟩
    · rw [hf, if_pos rfl]
    · rw [hf, if_neg hne.symm, if_pos rfl]
    · intro i h1 h2
      rw [hf, if_neg h1, if_neg h2]

theorem score_spec (hI : Valid I) {m : AbstractMesh.Mesh} (hr : Reachable m) (hrange : ∀ i f, faceAt m i = some f → InRange I f) (a b : Nat) :
    ∃ r, score I m a b = .ok r ∧ (∀ fl, r = some fl → Scored I m fl ∧ fl.x = a ∧ fl.y = b) ∧
      (r = none → ∀ fl, fl.x = a → fl.y = b → ¬ Scored I m fl) := by
  have hC := hr.good.consistent
  unfold score
  cases eh : m.halfedgeOf a b with
  | none =>
      refine ⟨none, rfl, by simp, fun _ fl h1 h2 hS => ?_⟩
      obtain ⟨h, o, H, -⟩ := hS.he
      rw [h1, h2, ← hC.halfedgeOf, eh] at H
      cases H
  | some h =>
      dsimp only
      have H := (hC.halfedgeOf a b h).1 eh
      rw [opposite_eq H]
      simp only [Outcome.ok_bind]
      cases eo : m.opp h with
      | none =>
          refine ⟨none, rfl, by simp, fun _ fl h1 h2 hS => ?_⟩
          obtain ⟨h', o, -, O, -⟩ := hS.he
          rw [h1, h2, ← opp_iff hr H, eo] at O
          cases O
      | some o =>
          dsimp only
          have O := (opp_iff hr H).1 eo
          have W := C35_walk hr H
          have W' := C35_walk hr O
          rw [W.1, W.2.1]
          obtain ⟨f, f1, f2, f3, f4⟩ := he_sides hr H
          obtain ⟨g, g1, g2, g3, g4⟩ := he_sides hr O
          have uniq : ∀ fl : Flip, fl.x = a → fl.y = b → Scored I m fl → fl.c = m.apex h ∧ fl.d = m.apex o ∧ fl.fi0 = h / 4 ∧ fl.fi1 = o / 4 := by
            intro fl h1 h2 hS
            obtain ⟨h', o', H', O', e1, e2, e3, e4⟩ := hS.he
            rw [h1, h2, ← hC.halfedgeOf, eh] at H'
            cases H'
            rw [h1, h2, ← opp_iff hr H, eo] at O'
            cases O'
            exact ⟨e3, e4, e1, e2⟩
          by_cases hcd : m.apex h = m.apex o ∨ hasEdge m (m.apex h) (m.apex o) = true
          · rw [if_pos hcd]
            refine ⟨none, rfl, by simp, fun _ fl h1 h2 hS => ?_⟩
            obtain ⟨e1, e2, e3, e4⟩ := uniq fl h1 h2 hS
            rcases hcd with hh | hh
            · exact hS.cd (by rw [e1, e2, hh])
            · exact hS.fresh (by rw [e1, e2]; exact (hasEdge_iff hr).1 hh)
          rw [if_neg hcd]
          push Not at hcd
          have fresh : ¬ Thinner.Spec.Adjacent (faceAt m) (m.apex h) (m.apex o) := by
            rw [← hasEdge_iff hr]; exact hcd.2
          rw [acrossOf_eq W.2.2.2.1, acrossOf_eq W.2.2.1, acrossOf_eq W'.2.2.1, acrossOf_eq W'.2.2.2.1]
          simp only [Outcome.ok_bind]
          have lt : ∀ {i f v}, faceAt m i = some f → Corner f v → v < I.vertices.length := by
            intro i f v hf hv
            obtain ⟨-, r1, r2, r3⟩ := hrange i f hf
            rcases hv with e | e | e <;> omega
          have eb : before I m (m.face (h / 4)) (m.face (o / 4)) ((m.opp (Mesh.prev h)).map (· / 4)) ((m.opp (Mesh.next h)).map (· / 4))
              ((m.opp (Mesh.next o)).map (· / 4)) ((m.opp (Mesh.prev o)).map (· / 4)) =
              edgeBend I (faceAt m) a b + edgeBend I (faceAt m) (m.apex h) a + edgeBend I (faceAt m) b (m.apex h) + edgeBend I (faceAt m) a (m.apex o) +
                edgeBend I (faceAt m) (m.apex o) b := by
            unfold before
            rw [live_face f1, live_face g1, bendWith_before hr W.2.2.2.1 f1 f4, bendWith_before hr W.2.2.1 f1 f3,
              bendWith_before hr W'.2.2.1 g1 g3, bendWith_before hr W'.2.2.2.1 g1 g4, edgeBend_some hC.manifold f1 f2 g1 g2]
          have ea : ∀ F', Quad (faceAt m) F' (h / 4) (o / 4) a b (m.apex h) (m.apex o) →
              after I m (m.apex h, a, m.apex o) (m.apex o, b, m.apex h) ((m.opp (Mesh.prev h)).map (· / 4)) ((m.opp (Mesh.next h)).map (· / 4))
              ((m.opp (Mesh.next o)).map (· / 4)) ((m.opp (Mesh.prev o)).map (· / 4)) =
              edgeBend I F' (m.apex h) (m.apex o) + edgeBend I F' (m.apex h) a + edgeBend I F' b (m.apex h) + edgeBend I F' a (m.apex o) +
                edgeBend I F' (m.apex o) b := by
            intro F' Q
            unfold after
            rw [bendWith_after hr Q W.2.2.2.1 (Or.inl ⟨rfl, rfl⟩) Q.left' (Or.inl ⟨rfl, rfl⟩),
              bendWith_after hr Q W.2.2.1 (Or.inr (Or.inl ⟨rfl, rfl⟩)) Q.right' (Or.inr (Or.inl ⟨rfl, rfl⟩)),
              bendWith_after hr Q W'.2.2.1 (Or.inr (Or.inr (Or.inl ⟨rfl, rfl⟩))) Q.left' (Or.inr (Or.inl ⟨rfl, rfl⟩)),
              bendWith_after hr Q W'.2.2.2.1 (Or.inr (Or.inr (Or.inr ⟨rfl, rfl⟩))) Q.right' (Or.inl ⟨rfl, rfl⟩),
              edgeBend_comm Q.man' (m.apex h) (m.apex o),
              edgeBend_some (I := I) Q.man' Q.left' (Or.inr (Or.inr ⟨rfl, rfl⟩)) Q.right' (Or.inr (Or.inr ⟨rfl, rfl⟩))]
          rw [eb]
          have key : ∀ F', Quad (faceAt m) F' (h / 4) (o / 4) a b (m.apex h) (m.apex o) → (totalBend I F' < totalBend I (faceAt m) - 1 / 1000000 ↔
              after I m (m.apex h, a, m.apex o) (m.apex o, b, m.apex h) ((m.opp (Mesh.prev h)).map (· / 4)) ((m.opp (Mesh.next h)).map (· / 4))
              ((m.opp (Mesh.next o)).map (· / 4)) ((m.opp (Mesh.prev o)).map (· / 4)) <
              edgeBend I (faceAt m) a b + edgeBend I (faceAt m) (m.apex h) a + edgeBend I (faceAt m) b (m.apex h) + edgeBend I (faceAt m) a (m.apex o) +
                edgeBend I (faceAt m) (m.apex o) b - 1 / 1000000) := by
            intro F' Q
            rw [ea F' Q]
            have hd := totalBend_diff (I := I) Q (lt f1 (side_corner f2).1) (lt f1 (side_corner f2).2) (lt f1 (side_corner f3).2) (lt g1 (side_corner g3).2)
            constructor <;> intro hh <;> linarith
          generalize after I m (m.apex h, a, m.apex o) (m.apex o, b, m.apex h) ((m.opp (Mesh.prev h)).map (· / 4)) ((m.opp (Mesh.next h)).map (· / 4))
              ((m.opp (Mesh.next o)).map (· / 4)) ((m.opp (Mesh.prev o)).map (· / 4)) = aft at *
          generalize edgeBend I (faceAt m) a b + edgeBend I (faceAt m) (m.apex h) a + edgeBend I (faceAt m) b (m.apex h) + edgeBend I (faceAt m) a (m.apex o) +
                edgeBend I (faceAt m) (m.apex o) b = bef at *
          by_cases hb : ¬ aft < bef - 1 / 1000000
          · rw [if_pos hb]
            refine ⟨none, rfl, by simp, fun _ fl h1 h2 hS => ?_⟩
            obtain ⟨e1, e2, e3, e4⟩ := uniq fl h1 h2 hS
            obtain ⟨m', -, -, -, Q⟩ := flip_exists hr H O hcd.1 fresh
            have := hS.flatter (faceAt m') (by rw [e1, e2, e3, e4, h1, h2]; exact Q)
            exact hb ((key _ Q).1 this)
          rw [if_neg hb]
          by_cases hl : dotP (I.ap (m.apex h) - I.ap (m.apex o)) (I.ap (m.apex h) - I.ap (m.apex o)) >
              max (dotP (I.ap a - I.ap b) (I.ap a - I.ap b)) I.maxEdge2
          · rw [if_pos hl]
            refine ⟨none, rfl, by simp, fun _ fl h1 h2 hS => ?_⟩
            obtain ⟨e1, e2, e3, e4⟩ := uniq fl h1 h2 hS
            have := hS.short
            rw [e1, e2, h1, h2, short_iff hI] at this
            exact this hl
          rw [if_neg hl]
          refine ⟨_, rfl, ?_, by simp⟩
          rintro fl ⟨⟩
          rw [not_not] at hb
          exact ⟨⟨⟨h, o, H, O, rfl, rfl, rfl, rfl⟩, hcd.1, fresh, fun F' Q => (key F' Q).2 hb, (short_iff hI _ _ _ _).2 hl⟩, rfl, rfl⟩

/-! ### searching for snap points -/

theorem neighbourFace_spec {m : AbstractMesh.Mesh} (hr : Reachable m) {i u v : Nat} {f : AbstractMesh.Face} (hf : faceAt m i = some f) (hs : Side f u v) :
    ∃ l, neighbourFace m u v = .ok l ∧ ∀ g, g ∈ l ↔ ∃ j, faceAt m j = some g ∧ Side g v u := by
  have hC := hr.good.consistent
  obtain ⟨e, H, -⟩ := side_he hf hs
  unfold neighbourFace
  rw [(hC.halfedgeOf u v e).2 H]
  dsimp only
  rw [acrossOf_eq H]
  simp only [Outcome.ok_bind, Outcome.pure_eq]
  refine ⟨_, rfl, fun g => ?_⟩
  cases ho : m.opp e with
  | none =>
      simp only [Option.map_none, Option.toList_none, List.not_mem_nil, false_iff]
      rintro ⟨j, g1, g2⟩
      obtain ⟨o, O, -⟩ := side_he g1 g2
      rw [(opp_iff hr H).2 O] at ho; cases ho
  | some o =>
      obtain ⟨k, k1, k2⟩ := he_side ((opp_iff hr H).1 ho)
      simp only [Option.map_some, Option.toList_some, List.mem_singleton]
      rw [live_face k1]
      constructor
      · rintro rfl; exact ⟨_, k1, k2⟩
      · rintro ⟨j, g1, g2⟩
        have := hC.manifold _ _ _ _ _ _ g1 k1 g2 k2
        subst this
        rw [g1] at k1; exact Option.some.inj k1

theorem quadBox_mem (fl : Flip) {v : Nat} (hv : v = fl.x ∨ v = fl.y ∨ v = fl.c ∨ v = fl.d) :
    ((quadBox I fl).lo.1 ≤ (I.ap v).1 ∧ (quadBox I fl).lo.2.1 ≤ (I.ap v).2.1 ∧ (quadBox I fl).lo.2.2 ≤ (I.ap v).2.2) ∧
      ((I.ap v).1 ≤ (quadBox I fl).hi.1 ∧ (I.ap v).2.1 ≤ (quadBox I fl).hi.2.1 ∧ (I.ap v).2.2 ≤ (quadBox I fl).hi.2.2) := by
  obtain ⟨h1, h2, h3⟩ := starBox_fold I.ap [fl.y, fl.c, fl.d] ⟨I.ap fl.x, I.ap fl.x⟩
  unfold quadBox
  rcases hv with rfl | hv
  · exact ⟨h1, h2⟩
  · exact h3 v (by simp only [List.mem_cons, List.not_mem_nil, or_false]; exact hv)

theorem honorsOk_spec (hI : Valid I) {s : State} (hs : SInv I s) (fl : Flip) (hS : Scored I s.mesh fl) :
    ∃ s' ok, Smoother.honorsOk I s fl = .ok (s', ok) ∧ SInv I s' ∧ s'.mesh = s.mesh ∧
      (ok = true ↔ ∀ i, i < I.points.length → (I.honoredBy i (s.mesh.face fl.fi0) = true ∨ I.honoredBy i (s.mesh.face fl.fi1) = true) →
        ∃ f, (f = (fl.c, fl.x, fl.d) ∨ f = (fl.d, fl.y, fl.c) ∨ ∃ j, faceAt s.mesh j = some f ∧
          (Side f fl.x fl.c ∨ Side f fl.c fl.y ∨ Side f fl.d fl.x ∨ Side f fl.y fl.d)) ∧ I.honoredBy i f = true) := by
  have hr := hs.reach
  have hC := hr.good.consistent
  obtain ⟨h, o, H, O, q1, q2, q3, q4⟩ := hS.he
  obtain ⟨f, f1, f2, f3, f4⟩ := he_sides hr H
  obtain ⟨g, g1, g2, g3, g4⟩ := he_sides hr O
  rw [← q1] at f1
  rw [← q2] at g1
  rw [← q3] at f3 f4
  rw [← q4] at g3 g4
  have hfound : ∀ i, i < I.points.length → (I.honoredBy i (s.mesh.face fl.fi0) = true ∨ I.honoredBy i (s.mesh.face fl.fi1) = true) →
      ∃ c, c ∈ cellsOf I.cellOf (quadBox I fl) ∧ i ∈ s.sgrid.at c := by
    intro i hi hh
    have : ∃ c, c ∈ cellsOf I.cellOf (ballBox (I.aPoint i) (I.tol i)) ∧ c ∈ cellsOf I.cellOf (quadBox I fl) := by
      rcases hh with hh | hh
      · rw [live_face f1] at hh
        refine ball_meets_box hI (hs.range _ _ f1) _ (fun v hv => quadBox_mem fl ?_) hh
        rcases corner_three (hC.corners _ _ f1) f2 f3 hv with e | e | e
        · exact Or.inl e
        · exact Or.inr (Or.inl e)
        · exact Or.inr (Or.inr (Or.inl e))
      · rw [live_face g1] at hh
        refine ball_meets_box hI (hs.range _ _ g1) _ (fun v hv => quadBox_mem fl ?_) hh
        rcases corner_three (hC.corners _ _ g1) g2 g3 hv with e | e | e
        · exact Or.inr (Or.inl e)
        · exact Or.inl e
        · exact Or.inr (Or.inr (Or.inr e))
    obtain ⟨c, c1, c2⟩ := this
    exact ⟨c, c2, (hs.sgrid.cells c i).2 ⟨_, if_pos hi, c1⟩⟩
  unfold Smoother.honorsOk
  by_cases he : ∀ c, s.sgrid.grid c = none
  · rw [if_pos he]
    refine ⟨s, true, rfl, hs, rfl, iff_of_true rfl ?_⟩
    intro i hi hh
    obtain ⟨c, -, hc⟩ := hfound i hi hh
    unfold Grid.at at hc
    rw [he c] at hc
    simp at hc
  · rw [if_neg he]
    obtain ⟨n0, e0, m0⟩ := neighbourFace_spec hr f1 f4
    obtain ⟨n1, e1, m1⟩ := neighbourFace_spec hr f1 f3
    obtain ⟨n2, e2, m2⟩ := neighbourFace_spec hr g1 g3
    obtain ⟨n3, e3, m3⟩ := neighbourFace_spec hr g1 g4
    rw [e0, e1, e2, e3]
    simp only [Outcome.ok_bind, Outcome.pure_eq]
    have hmem : ∀ k, k ∈ [fl.newF0, fl.newF1] ++ n0 ++ n1 ++ n2 ++ n3 ↔ (k = (fl.c, fl.x, fl.d) ∨ k = (fl.d, fl.y, fl.c) ∨ ∃ j, faceAt s.mesh j = some k ∧
          (Side k fl.x fl.c ∨ Side k fl.c fl.y ∨ Side k fl.d fl.x ∨ Side k fl.y fl.d)) := by
      intro k
      simp only [List.mem_append, List.mem_cons, List.not_mem_nil, or_false, m0, m1, m2, m3, Flip.newF0, Flip.newF1]
      constructor
      · rintro (((((h | h) | ⟨j, h, h'⟩) | ⟨j, h, h'⟩) | ⟨j, h, h'⟩) | ⟨j, h, h'⟩)
        · exact Or.inl h
        · exact Or.inr (Or.inl h)
        · exact Or.inr (Or.inr ⟨j, h, Or.inl h'⟩)
        · exact Or.inr (Or.inr ⟨j, h, Or.inr (Or.inl h')⟩)
        · exact Or.inr (Or.inr ⟨j, h, Or.inr (Or.inr (Or.inl h'))⟩)
        · exact Or.inr (Or.inr ⟨j, h, Or.inr (Or.inr (Or.inr h'))⟩)
      · rintro (h | h | ⟨j, h, h' | h' | h' | h'⟩)
        · exact Or.inl (Or.inl (Or.inl (Or.inl (Or.inl h))))
        · exact Or.inl (Or.inl (Or.inl (Or.inl (Or.inr h))))
        · exact Or.inl (Or.inl (Or.inl (Or.inr ⟨j, h, h'⟩)))
        · exact Or.inl (Or.inl (Or.inr ⟨j, h, h'⟩))
        · exact Or.inl (Or.inr ⟨j, h, h'⟩)
        · exact Or.inr ⟨j, h, h'⟩
    generalize [fl.newF0, fl.newF1] ++ n0 ++ n1 ++ n2 ++ n3 = L at *
    have hfn : (fun (ok : Bool) (i : Nat) =>
        if (!I.honoredBy i (s.mesh.face fl.fi0) && !I.honoredBy i (s.mesh.face fl.fi1)) = true then (ok, true)
        else if (L.all fun f => !I.honoredBy i f) = true then (false, false)
        else (ok, true)) =
        (fun ok i => if (!(!I.honoredBy i (s.mesh.face fl.fi0) && !I.honoredBy i (s.mesh.face fl.fi1)) && (L.all fun f => !I.honoredBy i f)) = true
          then (false, false) else (ok, true)) := by
      funext ok i
      cases (!I.honoredBy i (s.mesh.face fl.fi0) && !I.honoredBy i (s.mesh.face fl.fi1)) <;>
        cases (L.all fun f => !I.honoredBy i f) <;> simp
    rw [hfn]
    obtain ⟨g', hg, e⟩ := forEach_spec I.cellOf hs.sgrid (quadBox I fl)
      (fun ok i => if (!(!I.honoredBy i (s.mesh.face fl.fi0) && !I.honoredBy i (s.mesh.face fl.fi1)) && (L.all fun f => !I.honoredBy i f)) = true
          then (false, false) else (ok, true)) true
    rw [e]
    simp only [Outcome.ok_bind]
    refine ⟨_, _, rfl, ⟨hs.reach, hs.range, hs.fgrid, hg⟩, rfl, ?_⟩
    rw [callUntil_all]
    constructor
    · intro hh i hi hst
      obtain ⟨c, c1, c2⟩ := hfound i hi hst
      have hm := hh i (by
        rw [mem_keepFirst]
        exact ⟨List.mem_flatMap.2 ⟨c, c1, c2⟩, rfl⟩)
      rw [Bool.and_eq_false_iff] at hm
      rcases hm with hm | hm
      · rcases hst with hst | hst <;> simp [hst] at hm
      · rw [List.all_eq_false] at hm
        obtain ⟨k, k1, k2⟩ := hm
        exact ⟨k, (hmem k).1 k1, by simpa using k2⟩
    · intro hh i hi
      rw [mem_keepFirst] at hi
      obtain ⟨c, c1, c2⟩ := List.mem_flatMap.1 hi.1
      obtain ⟨b, b1, -⟩ := (hs.sgrid.cells c i).1 c2
      have hi' : i < I.points.length := by
        by_contra hc
        rw [if_neg hc] at b1; cases b1
      by_cases hst : I.honoredBy i (s.mesh.face fl.fi0) = true ∨ I.honoredBy i (s.mesh.face fl.fi1) = true
      · obtain ⟨k, k1, k2⟩ := hh i hi' hst
        have : (L.all fun f => !I.honoredBy i f) = false := by
          rw [List.all_eq_false]; exact ⟨k, (hmem k).2 k1, by simp [k2]⟩
        rw [this, Bool.and_false]
      · push Not at hst
        simp [hst.1, hst.2]

end Verif.Smoother
