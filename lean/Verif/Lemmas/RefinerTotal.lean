import Verif.Lemmas.RefinerRun
import Verif.Lemmas.SnapperTotal

/-! # Lemmas: the exceptions -/

namespace Verif.Refiner

open Verif Verif.AbstractMesh Verif.SpatialGrid Verif.SpatialGrid.Spec Verif.ClosestPoint
open Verif.Predicates (P3 narrow kTinyFactor kTinyFactor_nonneg)
open Verif.MeshDefects hiding Face corner
open Verif.MeshDefects.Spec
open Verif.Thinner (toE E3 dotP crossP stopAtHit)
open Verif.Refiner.Spec
open Verif.Snapper (Fine callUntil_fine)

variable {I : Input} {m : Mesh} {s s' : State} {B : Err → Prop}

theorem intersect_fine (h1 : B .badAlloc) (h2 : B .outOfRange) (a b : P3 × P3 × P3) : Fine B (trianglesIntersect (narrow kTinyFactor) a b) := by
  unfold trianglesIntersect
  split
  · trivial
  · trivial
  · split
    · split
      · trivial
      · exact h2
    · exact h2
  · trivial
  · exact h1

theorem rejected_fine (vi : Nat) (q : P3) (fis : List Nat) : ∀ s : State, Indexed I m s →
    (∀ fi ∈ fis, ∀ fj, fj < m.nf → Fine B (trianglesIntersect (narrow kTinyFactor) (tri (upd s.p vi q) (m.face fi)) (tri (upd s.p vi q) (m.face fj)))) →
    Fine B (rejected I m vi q fis s) := by
  induction fis with
  | nil => intro s _ _; exact True.intro
  | cons fi fis ih =>
      intro s h hX
      unfold rejected
      dsimp only
      rw [movedFace_eq]
      split
      · exact True.intro
      obtain ⟨g, e1, h1⟩ := h.forEach (bboxOf (tri (upd s.p vi q) (m.face fi))) (stopAtHit (hits m s.p vi q fi)) (.ok false)
      rw [e1]
      simp only [Outcome.ok_bind]
      refine Fine.bind (callUntil_fine _ _ (fun fj hj => ?_) (r := .ok false) True.intro) fun hit _ => ?_
      · unfold hits
        split
        · exact True.intro
        · exact hX fi (by simp) fj (h.visits_lt hj)
      · split
        · exact True.intro
        · exact ih _ h1 fun fk hk => hX fk (by simp [hk])

theorem tryAll_fine (hI : Valid I) (hm : Holds I m) (P : (Nat → P3) → Prop)
    (hX : ∀ p v q, P p → Goal I v q → (∀ fi fj, fi < m.nf → fj < m.nf → Corner (m.face fi) v →
      Fine B (trianglesIntersect (narrow kTinyFactor) (tri (upd p v q) (m.face fi)) (tri (upd p v q) (m.face fj)))))
    (hP : ∀ p v q, P p → Goal I v q → P (upd p v q)) (xs : List (Nat × P3)) : ∀ s : State, Indexed I m s → P s.p → (∀ x ∈ xs, Goal I x.1 (snap I x.2)) →
    Fine B (tryAll I m xs s) := by
  have hC := hm.reach.good.consistent
  induction xs with
  | nil => intro s _ _ _; exact True.intro
  | cons x xs ih =>
      intro s h hp hg
      unfold tryAll
      obtain ⟨v, x⟩ := x
      have hgv := hg _ (List.mem_cons_self ..)
      dsimp only at hgv
      refine Fine.bind ?_ fun s1 e => ?_
      · unfold tryMove
        dsimp only
        refine Fine.bind (rejected_fine v _ _ s h fun fi hi fj hj => ?_) fun r e => ?_
        · obtain ⟨f, f1, f2⟩ := ((hC.vertexFaces v).2 fi).1 hi
          unfold faceAt at f1
          split at f1
          · rename_i hh; cases f1; exact hX _ _ _ hp hgv fi fj hh.1 hj f2
          · cases f1
        · obtain ⟨s1, no⟩ := r
          dsimp only
          split
          · exact True.intro
          · obtain ⟨i1, -⟩ := rejected_spec hI.resolution _ _ _ _ h e
            obtain ⟨s2, c1, -⟩ := commit_spec hC hm.live v (snap I x) i1
            rw [c1]
            exact True.intro
      · have h1 := (tryMove_step hI hm h hgv e).1
        obtain ⟨-, h2⟩ := tryMove_spec hI.resolution hC hm.live h e
        refine ih s1 h1 ?_ fun y hy => hg y (List.mem_cons_of_mem _ hy)
        rcases h2 with ⟨e1, -⟩ | ⟨e1, -⟩
        · rw [e1]; exact hp
        · rw [e1]; exact hP _ _ _ hp hgv

theorem refine_fine (hI : Valid I) (P : (Nat → P3) → Prop)
    (hX : ∀ p v q, P p → Goal I v q → ∀ f ∈ I.faces, ∀ g ∈ I.faces, Corner f v →
      Fine B (trianglesIntersect (narrow kTinyFactor) (tri (upd p v q) f) (tri (upd p v q) g)))
    (hP : ∀ p v q, P p → Goal I v q → P (upd p v q)) (h0 : P (pos I.vertices)) : Fine B (refineVertices I) := by
  unfold refineVertices
  split
  · exact True.intro
  obtain ⟨m, e1, hm⟩ := holds_of (fun f hf => (hI.corners f hf).1) hI.manifold
  have hmem : ∀ fi, fi < m.nf → m.face fi ∈ I.faces := fun fi hfi => List.mem_of_getElem? ((hm.face fi _).2 ⟨hfi, rfl⟩)
  rw [e1, project_spec hI]
  simp only [Outcome.ok_bind]
  refine Fine.bind (tryAll_fine hI hm P (fun p v q h1 h2 fi fj h3 h4 h5 => hX p v q h1 h2 _ (hmem fi h3) _ (hmem fj h4) h5) hP _ _ (start_indexed I m) h0 ?_)
    fun _ _ => True.intro
  intro x hx
  obtain ⟨v, -, hv⟩ := List.mem_filterMap.1 hx
  obtain ⟨h1, h2⟩ := (moveOf_spec hI v).2 x hv
  rw [h1]; exact h2

/-- A search that meets one item whose test throws. -/
theorem callUntil_throws (Q : Nat → Outcome Bool) {x : Nat} {e : Err} (hx : Q x = .throws e) : ∀ (l : List Nat), x ∈ l → (∀ i ∈ l, i ≠ x → Q i = .ok false) →
    ∀ r, (callUntil (stopAtHit Q) l r).1 = .throws e := by
  intro l
  induction l with
  | nil => intro h; cases h
  | cons y l ih =>
      intro h ho r
      unfold callUntil
      by_cases hy : y = x
      · subst hy
        have e1 : stopAtHit Q r y = (.throws e, false) := by unfold stopAtHit; rw [hx]
        rw [e1]
      · have e1 : stopAtHit Q r y = (r, true) := by unfold stopAtHit; rw [ho y (by simp) hy]
        rw [e1]
        exact ih ((List.mem_cons.1 h).resolve_left fun e => hy e.symm) (fun i hi => ho i (by simp [hi])) r

end Verif.Refiner
