import Verif.Lemmas.Thinner

/-! # Lemmas: one collapse -/

namespace Verif.Thinner

open Verif Verif.AbstractMesh Verif.SpatialGrid Verif.SpatialGrid.Spec Verif.MeshDefects Verif.MeshDefects.Spec Verif.ClosestPoint Verif.Predicates
open Verif.Thinner.Spec
open Verif.Geometry (Cross)

variable {I : Input}

/-- What is true between the steps. -/
structure SInv (I : Input) (s : State) : Prop where
  reach : Reachable s.mesh
  range : ∀ i f, faceAt s.mesh i = some f → InRange I f
  fgrid : ∃ ops, FInv I.cellOf s.fgrid ops ∧ ∀ i, live ops i = (faceAt s.mesh i).map (fun f => bboxOf (I.triangle f))
  sgrid : GInv I.cellOf s.sgrid (fun i => if i < I.points.length then some (ballBox (I.aPoint i) (I.tol i)) else none)

theorem live_face {m : AbstractMesh.Mesh} {i : Nat} {f : AbstractMesh.Face} (h : faceAt m i = some f) : m.face i = f :=
  (faceAt_eq_some.1 h).2

/-! ### searching for snap points -/

theorem callUntil_all (bad : Nat → Bool) (l : List Nat) :
    (callUntil (fun ok i => if bad i then (false, false) else (ok, true)) l true).1 = true ↔ ∀ i ∈ l, bad i = false := by
  induction l with
  | nil => simp [callUntil]
  | cons x l ih =>
      unfold callUntil
      by_cases h : bad x = true
      · simp [h]
      · simp only [h, Bool.false_eq_true, if_false]
        rw [ih]
        simp [h]

theorem honorsOk_spec (hI : Valid I) {s : State} (hs : SInv I s) (star : List Nat) (kept : List AbstractMesh.Face) (nearby : List Nat)
    (hstar : ∀ fi ∈ star, ∃ f, faceAt s.mesh fi = some f) :
    ∃ s' ok, honorsOk I s star kept nearby = .ok (s', ok) ∧ SInv I s' ∧ s'.mesh = s.mesh ∧
      (ok = true ↔ ∀ i, i < I.points.length → (∃ fi ∈ star, I.honoredBy i (s.mesh.face fi) = true) →
        (∃ nf ∈ kept, I.honoredBy i nf = true) ∨ ∃ fi ∈ nearby, I.honoredBy i (s.mesh.face fi) = true) := by
  have hfound : ∀ i, i < I.points.length → (∃ fi ∈ star, I.honoredBy i (s.mesh.face fi) = true) →
      ∃ c, c ∈ cellsOf I.cellOf (starBox I s.mesh star) ∧ i ∈ s.sgrid.at c := by
    rintro i hi ⟨fi, h1, h2⟩
    obtain ⟨f, hf⟩ := hstar fi h1
    have hr : InRange I (s.mesh.face fi) := by rw [live_face hf]; exact hs.range fi f hf
    obtain ⟨c, c1, c2⟩ := ball_meets_star hI s.mesh star h1 hr h2
    exact ⟨c, c2, (hs.sgrid.cells c i).2 ⟨_, if_pos hi, c1⟩⟩
  unfold honorsOk
  by_cases he : ∀ c, s.sgrid.grid c = none
  · rw [if_pos he]
    refine ⟨s, true, rfl, hs, rfl, iff_of_true rfl ?_⟩
    intro i hi h
    obtain ⟨c, -, hc⟩ := hfound i hi h
    unfold Grid.at at hc
    rw [he c] at hc
    simp at hc
  · rw [if_neg he]
    have hfn : (fun (ok : Bool) (i : Nat) =>
        if (star.all fun fi => !I.honoredBy i (s.mesh.face fi)) = true then (ok, true)
        else if ((kept.all fun nf => !I.honoredBy i nf) && nearby.all fun fi => !I.honoredBy i (s.mesh.face fi)) = true then (false, false)
        else (ok, true)) =
        (fun ok i => if (!(star.all fun fi => !I.honoredBy i (s.mesh.face fi)) &&
          ((kept.all fun nf => !I.honoredBy i nf) && nearby.all fun fi => !I.honoredBy i (s.mesh.face fi))) = true then (false, false) else (ok, true)) := by
      funext ok i
      cases star.all fun fi => !I.honoredBy i (s.mesh.face fi) <;>
        cases ((kept.all fun nf => !I.honoredBy i nf) && nearby.all fun fi => !I.honoredBy i (s.mesh.face fi)) <;> simp
    rw [hfn]
    obtain ⟨g', hg, e⟩ := forEach_spec I.cellOf hs.sgrid (starBox I s.mesh star)
      (fun ok i => if (!(star.all fun fi => !I.honoredBy i (s.mesh.face fi)) &&
          ((kept.all fun nf => !I.honoredBy i nf) && nearby.all fun fi => !I.honoredBy i (s.mesh.face fi))) = true then (false, false) else (ok, true)) true
    rw [e]
    simp only [Outcome.ok_bind, Outcome.pure_eq]
    refine ⟨_, _, rfl, ⟨hs.reach, hs.range, hs.fgrid, hg⟩, rfl, ?_⟩
    rw [callUntil_all]
    constructor
    · intro h i hi hst
      obtain ⟨c, c1, c2⟩ := hfound i hi hst
      have hm := h i (by
        rw [mem_keepFirst]
        exact ⟨List.mem_flatMap.2 ⟨c, c1, c2⟩, rfl⟩)
      obtain ⟨fi, f1, f2⟩ := hst
      simp only [Bool.and_eq_false_iff, Bool.not_eq_false', List.all_eq_true, Bool.not_eq_true', List.all_eq_false] at hm
      rcases hm with hm | ⟨nf, n1, n2⟩ | ⟨fj, n1, n2⟩
      · have := hm fi f1
        rw [f2] at this; cases this
      · exact Or.inl ⟨nf, n1, by simpa using n2⟩
      · exact Or.inr ⟨fj, n1, by simpa using n2⟩
    · intro h i hi
      rw [mem_keepFirst] at hi
      obtain ⟨c, c1, c2⟩ := List.mem_flatMap.1 hi.1
      obtain ⟨b, b1, -⟩ := (hs.sgrid.cells c i).1 c2
      have hi' : i < I.points.length := by
        by_contra hc
        rw [if_neg hc] at b1; cases b1
      by_cases hst : ∃ fi ∈ star, I.honoredBy i (s.mesh.face fi) = true
      · rcases h i hi' hst with ⟨nf, n1, n2⟩ | ⟨fj, n1, n2⟩
        · have : (kept.all fun nf => !I.honoredBy i nf) = false := by
            rw [List.all_eq_false]; exact ⟨nf, n1, by simp [n2]⟩
          simp [this]
        · have : (nearby.all fun fi => !I.honoredBy i (s.mesh.face fi)) = false := by
            rw [List.all_eq_false]; exact ⟨fj, n1, by simp [n2]⟩
          simp [this]
      · have : (star.all fun fi => !I.honoredBy i (s.mesh.face fi)) = true := by
          rw [List.all_eq_true]
          intro fi hfi
          cases hh : I.honoredBy i (s.mesh.face fi) with
          | false => rfl
          | true => exact absurd ⟨fi, hfi, hh⟩ hst
        simp [this]

/-! ### searching for intersections -/

theorem callUntil_hit (P : Nat → Bool) (Q : Nat → Outcome Bool) (l : List Nat) (h : ∀ i ∈ l, Q i = .ok (P i)) :
    (callUntil (stopAtHit Q) l (.ok false)).1 = .ok (l.any P) := by
  induction l with
  | nil => simp [callUntil]
  | cons x l ih =>
      unfold callUntil
      simp only [stopAtHit]
      rw [h x (by simp)]
      cases hx : P x with
      | false =>
          dsimp only
          rw [ih (fun i hi => h i (by simp [hi]))]
          simp [hx]
      | true => simp [hx]

theorem hitsAny_spec (hI : Valid I) (star : List Nat) : ∀ (kept : List AbstractMesh.Face), (∀ nf ∈ kept, InRange I nf) →
    ∀ {s : State}, SInv I s →
    ∃ s' hit, hitsAny I star kept s = .ok (s', hit) ∧ SInv I s' ∧ s'.mesh = s.mesh ∧
      (hit = true ↔ ∃ nf ∈ kept, ∃ i f, faceAt s.mesh i = some f ∧ i ∉ star ∧ I.intersect nf f = .ok true) := by
  intro kept
  induction kept with
  | nil => intro _ s hs; exact ⟨s, false, rfl, hs, rfl, by simp⟩
  | cons nf kept ih =>
      intro hk s hs
      unfold hitsAny
      obtain ⟨ops, hF, hL⟩ := hs.fgrid
      have hnf := hk nf (by simp)
      have htot : ∀ i f, faceAt s.mesh i = some f → ∃ r, I.intersect nf f = .ok r := fun i f hf =>
        trianglesIntersect_total _ (distinct hI hnf) (distinct hI (hs.range i f hf))
      obtain ⟨g', hg, e⟩ := forEach_spec I.cellOf hF.g (bboxOf (I.triangle nf)) (stopAtHit fun fi =>
        if star.contains fi then Outcome.ok false else I.intersect nf (s.mesh.face fi)) (.ok false)
      have hord : ∀ i, i ∈ keepFirst (fun _ => false) ((cellsOf I.cellOf (bboxOf (I.triangle nf))).flatMap (fun c => s.fgrid.g.at c)) ↔
          ∃ f, faceAt s.mesh i = some f ∧ ∃ c, c ∈ cellsOf I.cellOf (bboxOf (I.triangle f)) ∧ c ∈ cellsOf I.cellOf (bboxOf (I.triangle nf)) := by
        intro i
        rw [mem_keepFirst, List.mem_flatMap]
        constructor
        · rintro ⟨⟨c, c1, c2⟩, -⟩
          obtain ⟨b, b1, b2⟩ := (hF.g.cells c i).1 c2
          rw [hL] at b1
          obtain ⟨f, f1, rfl⟩ := Option.map_eq_some_iff.1 b1
          exact ⟨f, f1, c, b2, c1⟩
        · rintro ⟨f, f1, c, c1, c2⟩
          exact ⟨⟨c, c2, (hF.g.cells c i).2 ⟨_, by rw [hL, f1]; rfl, c1⟩⟩, rfl⟩
      generalize keepFirst (fun _ => false) ((cellsOf I.cellOf (bboxOf (I.triangle nf))).flatMap (fun c => s.fgrid.g.at c)) = order at *
      have hQ : ∀ i ∈ order, (if star.contains i = true then Outcome.ok false else I.intersect nf (s.mesh.face i)) =
          .ok (!star.contains i && decide (I.intersect nf (s.mesh.face i) = .ok true)) := by
        intro i hi
        obtain ⟨f, f1, -⟩ := (hord i).1 hi
        obtain ⟨r, hr⟩ := htot i f f1
        rw [live_face f1, hr]
        cases star.contains i <;> cases r <;> simp
      rw [callUntil_hit _ _ _ hQ] at e
      have hF' : FInv I.cellOf { s.fgrid with g := g' } ops := ⟨hg, hF.box, hF.size⟩
      have hs' : SInv I { s with fgrid := { s.fgrid with g := g' } } := ⟨hs.reach, hs.range, ⟨ops, hF', hL⟩, hs.sgrid⟩
      have hany : (order.any fun i => !star.contains i && decide (I.intersect nf (s.mesh.face i) = .ok true)) = true ↔
          ∃ i f, faceAt s.mesh i = some f ∧ i ∉ star ∧ I.intersect nf f = .ok true := by
        rw [List.any_eq_true]
        constructor
        · rintro ⟨i, hi, h⟩
          obtain ⟨f, f1, -⟩ := (hord i).1 hi
          rw [live_face f1] at h
          simp at h
          exact ⟨i, f, f1, h.1, h.2⟩
        · rintro ⟨i, f, f1, f2, f3⟩
          refine ⟨i, (hord i).2 ⟨f, f1, ?_⟩, ?_⟩
          · have ho := intersect_overlap _ _ _ f3
            obtain ⟨c, c1, c2⟩ := shares_cell I.cellOf (cellOf_mono hI) (bboxOf_proper _) (bboxOf_proper _) ho
            exact ⟨c, c2, c1⟩
          · rw [live_face f1]
            simp [f2, f3]
      unfold FaceGrid.forEach
      rw [e]
      simp only [Outcome.ok_bind, Outcome.pure_eq]
      cases hb : order.any fun i => !star.contains i && decide (I.intersect nf (s.mesh.face i) = .ok true) with
      | true =>
          rw [hb] at hany
          simp only [if_true]
          refine ⟨_, true, rfl, hs', rfl, iff_of_true rfl ⟨nf, by simp, hany.1 rfl⟩⟩
      | false =>
          rw [hb] at hany
          simp only [Bool.false_eq_true, if_false]
          obtain ⟨s2, hit, h1, h2, h3, h4⟩ := ih (fun x hx => hk x (by simp [hx])) hs'
          refine ⟨s2, hit, h1, h2, h3, ?_⟩
          rw [h4]
          constructor
          · rintro ⟨x, hx, h⟩; exact ⟨x, by simp [hx], h⟩
          · rintro ⟨x, hx, h⟩
            rcases List.mem_cons.1 hx with rfl | hx
            · exact absurd (hany.2 h) (by simp)
            · exact ⟨x, hx, h⟩

end Verif.Thinner
