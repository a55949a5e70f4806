import Verif.Lemmas.SmootherLoop

/-! # Lemmas: the queue -/

namespace Verif.Smoother

open Verif Verif.AbstractMesh Verif.Thinner Verif.Thinner.Spec Verif.Smoother.Spec
open Verif.Predicates (P3)

variable {I : Input}

/-- The edge is in the queue. -/
def Queued (q : List Item) (x y : Nat) : Prop := ∃ e ∈ q, e.a = x ∧ e.b = y

/-- The edge is in the queue, or cannot be flipped. -/
def Handled (I : Input) (F : Nat → Option AbstractMesh.Face) (q : List Item) (x y : Nat) : Prop :=
  Queued q x y ∨ ∀ fi fj c d, ¬ Allowed I F fi fj x y c d

theorem Queued.mono {q q' : List Item} {x y : Nat} (h : Queued q x y) (hq : ∀ e ∈ q, e ∈ q') : Queued q' x y := by
  obtain ⟨e, he, h⟩ := h
  exact ⟨e, hq e he, h⟩

theorem Handled.mono {F : Nat → Option AbstractMesh.Face} {q q' : List Item} {x y : Nat} (h : Handled I F q x y) (hq : ∀ e ∈ q, e ∈ q') : Handled I F q' x y :=
  h.imp (fun h => h.mono hq) id

theorem enqueue_spec (hI : Valid I) {m : AbstractMesh.Mesh} (hr : Reachable m) (hrange : ∀ i f, faceAt m i = some f → InRange I f) (u v : Nat) (q : List Item) :
    ∃ q', enqueue I m u v q = .ok q' ∧ q'.length ≤ q.length + 1 ∧ (∀ e ∈ q, e ∈ q') ∧ Handled I (faceAt m) q' (min u v) (max u v) := by
  obtain ⟨r, e1, h1, h2⟩ := score_spec hI hr hrange (min u v) (max u v)
  unfold enqueue
  rw [e1]
  simp only [Outcome.ok_bind]
  cases r with
  | none =>
      refine ⟨q, rfl, by omega, fun _ h => h, Or.inr fun fi fj c d hA => ?_⟩
      exact h2 rfl ⟨fi, fj, _, _, c, d, 0⟩ rfl rfl ((scored_iff hr _).2 ⟨hA.left, hA.right, hA.fresh, hA.flatter, hA.short⟩)
  | some fl => exact ⟨_, rfl, by simp, fun e h => by simp [h], Or.inl ⟨_, List.mem_cons_self, rfl, rfl⟩⟩

theorem enqueueAll_spec (hI : Valid I) {m : AbstractMesh.Mesh} (hr : Reachable m) (hrange : ∀ i f, faceAt m i = some f → InRange I f) :
    ∀ (hs : List Nat), (∀ h ∈ hs, ∃ x y, IsHalfedge m h x y) → ∀ q, ∃ q', enqueueAll I m hs q = .ok q' ∧ q'.length ≤ q.length + hs.length ∧
      (∀ e ∈ q, e ∈ q') ∧ ∀ h ∈ hs, ∀ x y, IsHalfedge m h x y → x < y → Handled I (faceAt m) q' x y := by
  intro hs
  induction hs with
  | nil => intro _ q; exact ⟨q, rfl, by simp, fun _ h => h, by simp⟩
  | cons h hs ih =>
      intro hh q
      obtain ⟨x, y, H⟩ := hh h (by simp)
      have W := C35_walk hr H
      unfold enqueueAll
      rw [opposite_eq H, W.1, W.2.1]
      simp only [Outcome.ok_bind]
      have step : ∃ q1, enqueueIf I m x y (m.opp h) q = .ok q1 ∧ q1.length ≤ q.length + 1 ∧
          (∀ e ∈ q, e ∈ q1) ∧ (x < y → Handled I (faceAt m) q1 x y) := by
        unfold enqueueIf
        by_cases hc : x < y ∧ (m.opp h).isSome = true
        · rw [if_pos hc]
          obtain ⟨q1, a1, a2, a3, a4⟩ := enqueue_spec hI hr hrange x y q
          rw [min_eq_left hc.1.le, max_eq_right hc.1.le] at a4
          exact ⟨q1, a1, a2, a3, fun _ => a4⟩
        · rw [if_neg hc]
          refine ⟨q, rfl, by omega, fun _ h => h, fun hlt => Or.inr fun fi fj c d hA => hc ⟨hlt, ?_⟩⟩
          obtain ⟨g, g1, g2, -⟩ := hA.right
          obtain ⟨o, O, -⟩ := side_he g1 g2
          rw [(opp_iff hr H).2 O]
          rfl
      obtain ⟨q1, a1, a2, a3, a4⟩ := step
      rw [a1]
      simp only [Outcome.ok_bind]
      obtain ⟨q2, b1, b2, b3, b4⟩ := ih (fun h' hh' => hh h' (by simp [hh'])) q1
      refine ⟨q2, b1, by simp only [List.length_cons]; omega, fun e he => b3 e (a3 e he), ?_⟩
      intro h' hh' x' y' H' hlt
      rcases List.mem_cons.1 hh' with rfl | hh'
      · have W' := C35_walk hr H'
        have ex : x' = x := W'.1.symm.trans W.1
        have ey : y' = y := W'.2.1.symm.trans W.2.1
        subst ex ey
        exact (a4 hlt).mono b3
      · exact b4 h' hh' x' y' H' hlt

theorem rescoreFace_spec (hI : Valid I) {m : AbstractMesh.Mesh} (hr : Reachable m) (hrange : ∀ i f, faceAt m i = some f → InRange I f) (g : AbstractMesh.Face)
    (q : List Item) : ∃ q', rescoreFace I m g q = .ok q' ∧ q'.length ≤ q.length + 3 ∧ (∀ e ∈ q, e ∈ q') ∧
      ∀ u v, Side g u v → Handled I (faceAt m) q' (min u v) (max u v) := by
  unfold rescoreFace
  obtain ⟨q1, a1, a2, a3, a4⟩ := enqueue_spec hI hr hrange g.1 g.2.1 q
  rw [a1]
  simp only [Outcome.ok_bind]
  obtain ⟨q2, b1, b2, b3, b4⟩ := enqueue_spec hI hr hrange g.2.1 g.2.2 q1
  rw [b1]
  simp only [Outcome.ok_bind]
  obtain ⟨q3, c1, c2, c3, c4⟩ := enqueue_spec hI hr hrange g.2.2 g.1 q2
  refine ⟨q3, c1, by omega, fun e he => c3 e (b3 e (a3 e he)), ?_⟩
  rintro u v (⟨rfl, rfl⟩ | ⟨rfl, rfl⟩ | ⟨rfl, rfl⟩)
  · exact a4.mono fun e he => c3 e (b3 e he)
  · exact b4.mono c3
  · exact c4

theorem rescore_spec (hI : Valid I) {m : AbstractMesh.Mesh} (hr : Reachable m) (hrange : ∀ i f, faceAt m i = some f → InRange I f) (fi0 fi1 : Nat) :
    ∀ (hs : List Nat), (∀ h ∈ hs, ∃ x y, IsHalfedge m h x y) → ∀ q, ∃ q', rescore I m fi0 fi1 hs q = .ok q' ∧ q'.length ≤ q.length + 4 * hs.length ∧
      (∀ e ∈ q, e ∈ q') ∧ ∀ h ∈ hs, ∀ x y, IsHalfedge m h x y → Handled I (faceAt m) q' (min x y) (max x y) ∧
        ∀ i g, faceAt m i = some g → i ≠ fi0 → i ≠ fi1 → Side g y x → ∀ u v, Side g u v → Handled I (faceAt m) q' (min u v) (max u v) := by
  intro hs
  induction hs with
  | nil => intro _ q; exact ⟨q, rfl, by simp, fun _ h => h, by simp⟩
  | cons h hs ih =>
      intro hh q
      obtain ⟨x, y, H⟩ := hh h (by simp)
      have W := C35_walk hr H
      unfold rescore
      rw [acrossOf_eq H, W.1, W.2.1]
      obtain ⟨q0, z1, z2, z3, z4⟩ := enqueue_spec hI hr hrange x y q
      rw [z1]
      simp only [Outcome.ok_bind]
      have step : ∃ q1, rescoreAcross I m fi0 fi1 ((m.opp h).map (· / 4)) q0 = .ok q1 ∧ q1.length ≤ q0.length + 3 ∧ (∀ e ∈ q0, e ∈ q1) ∧
          ∀ i g, faceAt m i = some g → i ≠ fi0 → i ≠ fi1 → Side g y x → ∀ u v, Side g u v → Handled I (faceAt m) q1 (min u v) (max u v) := by
        unfold rescoreAcross
        cases ho : m.opp h with
        | none =>
            refine ⟨q0, rfl, by omega, fun _ h => h, fun i g hg _ _ hs' => ?_⟩
            obtain ⟨o, O, -⟩ := side_he hg hs'
            rw [(opp_iff hr H).2 O] at ho; cases ho
        | some o =>
            obtain ⟨k, k1, k2⟩ := he_side ((opp_iff hr H).1 ho)
            have same : ∀ i g, faceAt m i = some g → Side g y x → i = o / 4 ∧ g = k := by
              intro i g hg hs'
              have := hr.good.consistent.manifold _ _ _ _ _ _ hg k1 hs' k2
              subst this
              rw [hg] at k1
              exact ⟨rfl, Option.some.inj k1⟩
            simp only [Option.map_some]
            by_cases hc : o / 4 ≠ fi0 ∧ o / 4 ≠ fi1
            · rw [if_pos hc, live_face k1]
              obtain ⟨q1, a1, a2, a3, a4⟩ := rescoreFace_spec hI hr hrange k q0
              refine ⟨q1, a1, a2, a3, fun i g hg _ _ hs' => ?_⟩
              rw [(same i g hg hs').2]
              exact a4
            · rw [if_neg hc]
              refine ⟨q0, rfl, by omega, fun _ h => h, fun i g hg n1 n2 hs' => ?_⟩
              rw [← (same i g hg hs').1] at hc
              exact absurd ⟨n1, n2⟩ hc
      obtain ⟨q1, a1, a2, a3, a4⟩ := step
      rw [a1]
      simp only [Outcome.ok_bind]
      obtain ⟨q2, b1, b2, b3, b4⟩ := ih (fun h' hh' => hh h' (by simp [hh'])) q1
      refine ⟨q2, b1, by simp only [List.length_cons]; omega, fun e he => b3 e (a3 e (z3 e he)), ?_⟩
      intro h' hh' x' y' H'
      rcases List.mem_cons.1 hh' with rfl | hh'
      · have W' := C35_walk hr H'
        have ex : x' = x := W'.1.symm.trans W.1
        have ey : y' = y := W'.2.1.symm.trans W.2.1
        subst ex ey
        refine ⟨z4.mono fun e he => b3 e (a3 e he), ?_⟩
        intro i g hg n1 n2 hs' u v huv
        exact (a4 i g hg n1 n2 hs' u v huv).mono b3
      · exact b4 h' hh' x' y' H'

/-- The halfedges of the two faces. -/
theorem sidesOf_he {m : AbstractMesh.Mesh} {fi0 fi1 : Nat} {f g : AbstractMesh.Face} (hf : faceAt m fi0 = some f) (hg : faceAt m fi1 = some g) :
    (∀ h ∈ sidesOf fi0 fi1, ∃ x y, IsHalfedge m h x y) ∧
      ∀ i k u v, (i = fi0 ∨ i = fi1) → faceAt m i = some k → Side k u v → ∃ h ∈ sidesOf fi0 fi1, IsHalfedge m h u v := by
  have key : ∀ i k, faceAt m i = some k → IsHalfedge m (4 * i) k.1 k.2.1 ∧ IsHalfedge m (4 * i + 1) k.2.1 k.2.2 ∧ IsHalfedge m (4 * i + 2) k.2.2 k.1 := by
    intro i k hk
    exact ⟨⟨k, by rw [show 4 * i / 4 = i by omega]; exact hk, Or.inl ⟨by omega, rfl, rfl⟩⟩,
      ⟨k, by rw [show (4 * i + 1) / 4 = i by omega]; exact hk, Or.inr (Or.inl ⟨by omega, rfl, rfl⟩)⟩,
      ⟨k, by rw [show (4 * i + 2) / 4 = i by omega]; exact hk, Or.inr (Or.inr ⟨by omega, rfl, rfl⟩)⟩⟩
  unfold sidesOf
  constructor
  · intro h hh
    simp only [List.mem_cons, List.not_mem_nil, or_false] at hh
    obtain ⟨a1, a2, a3⟩ := key _ _ hf
    obtain ⟨b1, b2, b3⟩ := key _ _ hg
    rcases hh with rfl | rfl | rfl | rfl | rfl | rfl
    · exact ⟨_, _, a1⟩
    · exact ⟨_, _, a2⟩
    · exact ⟨_, _, a3⟩
    · exact ⟨_, _, b1⟩
    · exact ⟨_, _, b2⟩
    · exact ⟨_, _, b3⟩
  · intro i k u v hi hk hs
    obtain ⟨a1, a2, a3⟩ := key _ _ hk
    rcases hs with ⟨rfl, rfl⟩ | ⟨rfl, rfl⟩ | ⟨rfl, rfl⟩
    · exact ⟨_, by rcases hi with rfl | rfl <;> simp, a1⟩
    · exact ⟨_, by rcases hi with rfl | rfl <;> simp, a2⟩
    · exact ⟨_, by rcases hi with rfl | rfl <;> simp, a3⟩

/-- An edge that is not rescored after a flip has the same surroundings as before. -/
theorem same_or_near {F F' : Nat → Option AbstractMesh.Face} {fi fj X Y C D : Nat} (Q : Quad F F' fi fj X Y C D) {gi gj x y c d : Nat}
    (hB : Between F' gi gj x y c d) :
    (gi = fi ∨ gi = fj) ∨ (gj = fi ∨ gj = fj) ∨
      (gi ≠ fi ∧ gi ≠ fj ∧ gj ≠ fi ∧ gj ≠ fj ∧ ∃ i f, (i = fi ∨ i = fj) ∧ F' i = some f ∧ (Side f x c ∨ Side f c y ∨ Side f d x ∨ Side f y d)) ∨
      (Between F gi gj x y c d ∧ SameAround F F' gi gj x y c d) := by
  by_cases h1 : gi = fi ∨ gi = fj
  · exact Or.inl h1
  by_cases h2 : gj = fi ∨ gj = fj
  · exact Or.inr (Or.inl h2)
  by_cases h3 : ∃ i f, (i = fi ∨ i = fj) ∧ F' i = some f ∧ (Side f x c ∨ Side f c y ∨ Side f d x ∨ Side f y d)
  · push Not at h1 h2
    exact Or.inr (Or.inr (Or.inl ⟨h1.1, h1.2, h2.1, h2.2, h3⟩))
  refine Or.inr (Or.inr (Or.inr ?_))
  push Not at h1 h2
  have e1 := Q.others gi h1.1 h1.2
  have e2 := Q.others gj h2.1 h2.2
  have hB0 : Between F gi gj x y c d := by
    unfold Between at hB ⊢
    rwa [e1, e2] at hB
  refine ⟨hB0, e1, e2, ?_⟩
  obtain ⟨⟨f, f1, f2, f3, f4⟩, ⟨g, g1, g2, g3, g4⟩⟩ := hB0
  obtain ⟨fl, l1, l2, -⟩ := Q.left
  obtain ⟨fr, r1, r2, -⟩ := Q.right
  -- a side of the surroundings, seen from outside, does not belong to a changed face
  have key : ∀ u v i k gk kk, (i = fi ∨ i = fj) → F i = some k → Side k u v → F gk = some kk → Side kk v u → gk ≠ fi → gk ≠ fj →
      ∃ i' k', (i' = fi ∨ i' = fj) ∧ F' i' = some k' ∧ Side k' u v := by
    intro u v i k gk kk hi hk hs hgk hkk n1 n2
    by_cases p1 : u = X ∧ v = Y
    · obtain ⟨rfl, rfl⟩ := p1
      exact absurd (Q.man _ _ _ _ _ _ hgk r1 hkk r2) n2
    by_cases p2 : u = Y ∧ v = X
    · obtain ⟨rfl, rfl⟩ := p2
      exact absurd (Q.man _ _ _ _ _ _ hgk l1 hkk l2) n1
    obtain ⟨i', k', k1, k2⟩ := Q.side_iff.2 (Or.inl ⟨⟨i, k, hk, hs⟩, p1, p2⟩)
    refine ⟨i', k', ?_, k1, k2⟩
    by_contra hn
    push Not at hn
    rw [Q.others i' hn.1 hn.2] at k1
    have := Q.man _ _ _ _ _ _ k1 hk k2 hs
    subst this
    rcases hi with e | e
    · exact hn.1 e
    · exact hn.2 e
  intro i k hk
  by_cases hi : i = fi ∨ i = fj
  · constructor
    · intro hF
      exfalso
      rcases hk with s | s | s | s
      · obtain ⟨i', k', a1, a2, a3⟩ := key _ _ i k gi f hi hF s f1 f4 h1.1 h1.2
        exact h3 ⟨i', k', a1, a2, Or.inl a3⟩
      · obtain ⟨i', k', a1, a2, a3⟩ := key _ _ i k gi f hi hF s f1 f3 h1.1 h1.2
        exact h3 ⟨i', k', a1, a2, Or.inr (Or.inl a3)⟩
      · obtain ⟨i', k', a1, a2, a3⟩ := key _ _ i k gj g hi hF s g1 g3 h2.1 h2.2
        exact h3 ⟨i', k', a1, a2, Or.inr (Or.inr (Or.inl a3))⟩
      · obtain ⟨i', k', a1, a2, a3⟩ := key _ _ i k gj g hi hF s g1 g4 h2.1 h2.2
        exact h3 ⟨i', k', a1, a2, Or.inr (Or.inr (Or.inr a3))⟩
    · intro hF
      exact absurd ⟨i, k, hi, hF, hk⟩ h3
  · push Not at hi
    rw [Q.others i hi.1 hi.2]

theorem Flips.trans {n k : Nat} {F G H : Nat → Option AbstractMesh.Face} (h : Flips I n F G) (h' : Flips I k G H) : Flips I (n + k) F H := by
  induction h' with
  | refl => exact h
  | step _ hc ih => exact .step (ih h) hc

theorem SameAround.refl (F : Nat → Option AbstractMesh.Face) (fi fj x y c d : Nat) : SameAround F F fi fj x y c d := ⟨rfl, rfl, fun _ _ _ => Iff.rfl⟩

theorem SameAround.trans {F G H : Nat → Option AbstractMesh.Face} {fi fj x y c d : Nat} (h : SameAround F G fi fj x y c d) (h' : SameAround G H fi fj x y c d) :
    SameAround F H fi fj x y c d :=
  ⟨h'.left.trans h.left, h'.right.trans h.right, fun i f hf => (h.outer i f hf).trans (h'.outer i f hf)⟩

theorem loop_spec (hI : Valid I) {pop : Pop} (hpop : IsPop pop) {F₀ : Nat → Option AbstractMesh.Face} : ∀ (fuel : Nat) (s : State) (q : List Item) (flips : Nat),
    SInv I s → Flips I flips F₀ (faceAt s.mesh) → flips ≤ cap s.mesh →
    (∀ fi fj x y c d, x < y → Between (faceAt s.mesh) fi fj x y c d → Queued q x y ∨ Settled I F₀ (faceAt s.mesh) fi fj x y c d) →
    q.length + 25 * (cap s.mesh + 1 - flips) < fuel →
    ∃ s' n, Smoother.loop I pop fuel s q flips = some (.ok s') ∧ SInv I s' ∧ s'.mesh.nf = s.mesh.nf ∧ Flips I n F₀ (faceAt s'.mesh) ∧ n ≤ cap s.mesh + 1 ∧
      (n ≤ cap s.mesh → ∀ fi fj x y c d, x < y → Between (faceAt s'.mesh) fi fj x y c d → Settled I F₀ (faceAt s'.mesh) fi fj x y c d) := by
  intro fuel
  induction fuel with
  | zero => intro s q flips _ _ _ _ h; omega
  | succ fuel ih =>
      intro s q flips hs hF hcap hset hfuel
      unfold Smoother.loop
      by_cases hq : q = []
      · subst hq
        rw [hpop.empty]
        refine ⟨s, flips, rfl, hs, rfl, hF, by omega, fun _ fi fj x y c d hlt hB => ?_⟩
        rcases hset fi fj x y c d hlt hB with ⟨e, he, -⟩ | h
        · cases he
        · exact h
      · obtain ⟨e, rest, p1, p2, -⟩ := hpop.greatest q hq
        rw [p1]
        dsimp only
        have plen := p2.length_eq
        rw [List.length_cons] at plen
        obtain ⟨s1, r, a1, a2, a3, a4, a5⟩ := admit_spec hI hs e
        rw [a1]
        cases r with
        | none =>
            dsimp only
            have hno := a5 rfl
            obtain ⟨s', n, b1, b2, b3, b4, b5, b6⟩ := ih s1 rest flips a2 (by rw [a3]; exact hF) (by rw [a3]; exact hcap) (by
              rw [a3]
              intro fi fj x y c d hlt hB
              rcases hset fi fj x y c d hlt hB with ⟨e', he', ex, ey⟩ | h
              · rcases List.mem_cons.1 (p2.mem_iff.1 he') with rfl | he''
                · refine Or.inr ⟨flips, 0, faceAt s.mesh, hF, .refl _, SameAround.refl _ _ _ _ _ _ _, ?_⟩
                  rw [← ex, ← ey]
                  exact hno fi fj c d
                · exact Or.inl ⟨e', he'', ex, ey⟩
              · exact Or.inr h) (by rw [a3]; omega)
            rw [a3] at b3 b5 b6
            exact ⟨s', n, b1, b2, b3, b4, b5, b6⟩
        | some fl =>
            dsimp only
            obtain ⟨ex, ey, hA⟩ := a4 fl rfl
            rw [← a3] at hA
            obtain ⟨s2, c1, c2, c3, c4⟩ := doFlip_spec a2 fl hA
            rw [c1]
            dsimp only
            have hcap' : cap s2.mesh = cap s.mesh := by unfold cap; rw [c3, a3]
            have hFl := allowed_flipped hI a2.reach a2.range hA
            obtain ⟨-, -, -, -, -, Q⟩ := quad_flipped a2.reach hA.left hA.right hA.fresh
            rw [← c4] at hFl Q
            have hF2 : Flips I (flips + 1) F₀ (faceAt s2.mesh) := .step (by rw [a3]; exact hF) hFl
            rw [hcap']
            by_cases hstop : flips + 1 > cap s.mesh
            · rw [if_pos hstop]
              exact ⟨s2, flips + 1, rfl, c2, by rw [c3, a3], hF2, by omega, fun h => by omega⟩
            · rw [if_neg hstop]
              obtain ⟨hes, hcov⟩ := sidesOf_he Q.left' Q.right'
              obtain ⟨q2, d1, d2, d3, d4⟩ := rescore_spec hI c2.reach c2.range fl.fi0 fl.fi1 (sidesOf fl.fi0 fl.fi1) hes rest
              rw [d1]
              dsimp only
              have hlen : (sidesOf fl.fi0 fl.fi1).length = 6 := rfl
              rw [hlen] at d2
              obtain ⟨s', n, b1, b2, b3, b4, b5, b6⟩ := ih s2 q2 (flips + 1) c2 hF2 (by omega) (by
                intro gi gj x y c d hlt hB
                have done : Handled I (faceAt s2.mesh) q2 (min x y) (max x y) → Queued q2 x y ∨ Settled I F₀ (faceAt s2.mesh) gi gj x y c d := by
                  rw [min_eq_left hlt.le, max_eq_right hlt.le]
                  rintro (h | h)
                  · exact Or.inl h
                  · exact Or.inr ⟨flips + 1, 0, _, hF2, .refl _, SameAround.refl _ _ _ _ _ _ _, h gi gj c d⟩
                have done' : Handled I (faceAt s2.mesh) q2 (min y x) (max y x) → Queued q2 x y ∨ Settled I F₀ (faceAt s2.mesh) gi gj x y c d := by
                  rw [min_comm, max_comm]; exact done
                have hB' := hB
                obtain ⟨⟨f, f1, f2, f3, f4⟩, ⟨g, g1, g2, g3, g4⟩⟩ := hB'
                rcases same_or_near Q hB with h | h | ⟨n1, n2, n3, n4, i, k, hi, hk, hs'⟩ | ⟨hB0, hsame⟩
                · obtain ⟨h', m1, m2⟩ := hcov gi f x y h f1 f2
                  exact done (d4 h' m1 x y m2).1
                · obtain ⟨h', m1, m2⟩ := hcov gj g y x h g1 g2
                  exact done' (d4 h' m1 y x m2).1
                · rcases hs' with s' | s' | s' | s'
                  · obtain ⟨h', m1, m2⟩ := hcov i k x c hi hk s'
                    exact done ((d4 h' m1 x c m2).2 gi f f1 n1 n2 f4 x y f2)
                  · obtain ⟨h', m1, m2⟩ := hcov i k c y hi hk s'
                    exact done ((d4 h' m1 c y m2).2 gi f f1 n1 n2 f3 x y f2)
                  · obtain ⟨h', m1, m2⟩ := hcov i k d x hi hk s'
                    exact done' ((d4 h' m1 d x m2).2 gj g g1 n3 n4 g3 y x g2)
                  · obtain ⟨h', m1, m2⟩ := hcov i k y d hi hk s'
                    exact done' ((d4 h' m1 y d m2).2 gj g g1 n3 n4 g4 y x g2)
                · rw [a3] at hB0 hsame
                  rcases hset gi gj x y c d hlt hB0 with ⟨e', he', ex', ey'⟩ | ⟨n, k, F₁, t1, t2, t3, t4⟩
                  · rcases List.mem_cons.1 (p2.mem_iff.1 he') with rfl | he''
                    · -- the flipped edge is gone
                      exfalso
                      obtain ⟨m1, m2, m3, m4, m5, -⟩ := Q.ne
                      rcases Q.side_iff.1 ⟨gi, f, f1, f2⟩ with ⟨-, h, -⟩ | h | h
                      · exact h ⟨by rw [ex, ex'], by rw [ey, ey']⟩
                      · exact m3 (by rw [ex, ex']; exact h.1.symm)
                      · exact m4 (by rw [ex, ex']; exact h.1)
                    · exact Or.inl ⟨e', d3 e' he'', ex', ey'⟩
                  · rw [a3] at hFl
                    exact Or.inr ⟨n, k + 1, F₁, t1, .step t2 hFl, SameAround.trans t3 hsame, t4⟩) (by omega)
              rw [hcap'] at b5 b6
              exact ⟨s', n, b1, b2, by rw [b3, c3, a3], b4, b5, b6⟩

end Verif.Smoother
