import Verif.Lemmas.SnapperGrid
import Mathlib.Algebra.Order.Monoid.Prod

/-! # Lemmas: accepting a placement -/

namespace Verif.Snapper

open Verif Verif.AbstractMesh Verif.SpatialGrid Verif.SpatialGrid.Spec Verif.ClosestPoint Verif.Predicates
open Verif.MeshDefects hiding Face corner
open Verif.MeshDefects.Spec
open Verif.Thinner (Input toE E3 dotP crossP stopAtHit ballBox snapGrid)
open Verif.Geometry (Cross)

variable {I : Input} {m : Mesh} {s s' : State}

/-- Two faces with three different corners each do not cross. -/
def NC (s : State) (a b : Face) : Prop := DistinctCorners (s.tri a) → DistinctCorners (s.tri b) → ¬ Cross (s.tri a) (s.tri b)

theorem NC.symm {a b : Face} (h : NC s a b) : NC s b a := fun h1 h2 h3 => h h2 h1 (Thinner.cross_symm h3)

theorem NC.congr {a b : Face} (ha : s'.tri a = s.tri a) (hb : s'.tri b = s.tri b) (h : NC s a b) : NC s' a b := by
  unfold NC; rw [ha, hb]; exact h

theorem nc_of_intersect {a b : Face} (h : s.intersect a b = .ok false) : NC s a b := by
  intro h1 h2 h3
  have := C55_faces kTinyFactor_nonneg _ _ h1 h2 h3
  unfold State.intersect at h
  rw [this] at h
  cases h

/-- The transformation is a matrix. -/
def IsLinear (T : P3 → P3) : Prop := ∃ A : P3 →ₗ[ℝ] P3, ∀ x, T x = A x

theorem hull_in_box (t : P3 × P3 × P3) {x : P3} (h : x ∈ convexHull ℝ ({t.1, t.2.1, t.2.2} : Set P3)) : (bboxOf t).lo ≤ x ∧ x ≤ (bboxOf t).hi := by
  have hc : Convex ℝ (Set.Icc (bboxOf t).lo (bboxOf t).hi) := convex_Icc _ _
  refine convexHull_min ?_ hc h
  intro z hz
  obtain ⟨a, b, c⟩ := t
  unfold bboxOf cmin cmax
  rcases hz with rfl | rfl | rfl
  · exact ⟨⟨by simp, by simp, by simp⟩, ⟨by simp, by simp, by simp⟩⟩
  · exact ⟨⟨by simp, by simp, by simp⟩, ⟨by simp, by simp, by simp⟩⟩
  · exact ⟨⟨by simp, by simp, by simp⟩, ⟨by simp, by simp, by simp⟩⟩

theorem hull_map {T : P3 → P3} (hT : IsLinear T) {a b c x : P3} (h : x ∈ convexHull ℝ ({a, b, c} : Set P3)) :
    T x ∈ convexHull ℝ ({T a, T b, T c} : Set P3) := by
  obtain ⟨A, hA⟩ := hT
  have : A x ∈ A '' convexHull ℝ ({a, b, c} : Set P3) := ⟨x, h, rfl⟩
  rw [LinearMap.image_convexHull] at this
  rw [hA, hA, hA, hA]
  simpa [Set.image_insert_eq] using this

theorem cross_overlap (hT : IsLinear I.T) (hap : ∀ r, s.ap r = I.T (s.p r)) {a b : Face} (h : Cross (s.tri a) (s.tri b)) :
    Spec.Overlap (fbox s.ap a) (fbox s.ap b) := by
  obtain ⟨x, h1, h2, -⟩ := h
  have g1 := hull_in_box (s.ap a.1, s.ap a.2.1, s.ap a.2.2) (x := I.T x) (by
    dsimp only; rw [hap, hap, hap]; exact hull_map hT h1)
  have g2 := hull_in_box (s.ap b.1, s.ap b.2.1, s.ap b.2.2) (x := I.T x) (by
    dsimp only; rw [hap, hap, hap]; exact hull_map hT h2)
  obtain ⟨⟨a1, a2, a3⟩, a4, a5, a6⟩ := g1
  obtain ⟨⟨b1, b2, b3⟩, b4, b5, b6⟩ := g2
  exact ⟨⟨a1.trans b4, b1.trans a4⟩, ⟨a2.trans b5, b2.trans a5⟩, a3.trans b6, b3.trans a6⟩

/-! ### the test -/

theorem hitsList_false {a : Face} {bs : List Face} (h : hitsList s a bs = .ok false) : ∀ b ∈ bs, s.intersect a b = .ok false := by
  induction bs with
  | nil => simp
  | cons x bs ih =>
      unfold hitsList at h
      obtain ⟨r, h1, h2⟩ := Outcome.bind_eq_ok.1 h
      cases r with
      | true => simp at h2
      | false =>
          intro b hb
          rcases List.mem_cons.1 hb with rfl | hb
          · exact h1
          · exact ih (by simpa using h2) b hb

theorem hitsEachOther_false {as : List Face} (h : hitsEachOther s as = .ok false) : as.Pairwise fun a b => s.intersect a b = .ok false := by
  induction as with
  | nil => exact List.Pairwise.nil
  | cons a as ih =>
      unfold hitsEachOther at h
      obtain ⟨r, h1, h2⟩ := Outcome.bind_eq_ok.1 h
      cases r with
      | true => simp at h2
      | false => exact List.pairwise_cons.2 ⟨hitsList_false h1, ih (by simpa using h2)⟩

/-- Only the stamps of the face grid differ. -/
structure Stamped (I : Input) (s s' : State) : Prop where
  same : Same s s'
  fgrid : ∀ ops, FInv I.cellOf s.fgrid ops → FInv I.cellOf s'.fgrid ops
  sgrid : s'.sgrid = s.sgrid
  honored : s'.honored = s.honored

theorem Stamped.refl (I : Input) (s : State) : Stamped I s s := ⟨Same.refl s, fun _ h => h, rfl, rfl⟩

theorem Stamped.trans {s s' s'' : State} (h : Stamped I s s') (h' : Stamped I s' s'') : Stamped I s s'' :=
  ⟨h.same.trans h'.same, fun ops hf => h'.fgrid ops (h.fgrid ops hf), h'.sgrid.trans h.sgrid, h'.honored.trans h.honored⟩

theorem hitsOthers_spec (hr : 0 < I.resolution) (hT : IsLinear I.T) (ids : List Nat) (as : List Face) : ∀ {s s' : State} {b : Bool}, InvE I m (· ∈ ids) s →
    hitsOthers I m ids as s = .ok (s', b) → InvE I m (· ∈ ids) s' ∧ Stamped I s s' ∧
      (b = false → ∀ a ∈ as, ∀ fj, fj < m.nf → fj ∉ ids → ∀ g ∈ cur m s fj, NC s a g) := by
  induction as with
  | nil =>
      intro s s' b h e
      unfold hitsOthers at e
      cases e
      exact ⟨h, Stamped.refl _ _, by simp⟩
  | cons a as ih =>
      intro s s' b h e
      unfold hitsOthers at e
      obtain ⟨g, e1, hI, hS⟩ := h.forEachF (bboxOf (s.atri a)) (stopAtHit (hitsPatch m s ids a)) (.ok false)
      rw [e1] at e
      simp only [Outcome.ok_bind] at e
      obtain ⟨r, e2, e3⟩ := Outcome.bind_eq_ok.1 e
      have q1 : Same s { s with fgrid := g } := ⟨rfl, rfl, rfl, rfl, rfl, rfl⟩
      cases r with
      | true =>
          simp only [if_true] at e3
          cases e3
          exact ⟨hI, ⟨q1, hS, rfl, rfl⟩, by simp⟩
      | false =>
          simp only [Bool.false_eq_true, if_false] at e3
          obtain ⟨i1, i2, i3⟩ := ih hI e3
          refine ⟨i1, Stamped.trans ⟨q1, hS, rfl, rfl⟩ i2, fun hb x hx fj hfj hn y hy => ?_⟩
          rcases List.mem_cons.1 hx with rfl | hx
          · intro d1 d2 d3
            have ho := cross_overlap hT h.ap d3
            have hv := h.visited hr (q := bboxOf (s.atri x)) (bboxOf_proper _) hfj hn hy ho
            have := callUntil_false _ _ e2 fj hv
            unfold hitsPatch at this
            rw [if_neg (by simpa using hn), h.patchFaces hfj hn] at this
            simp only [Outcome.ok_bind] at this
            exact nc_of_intersect (hitsList_false this y hy) d1 d2 d3
          · exact NC.congr (q1.symm.tri x) (q1.symm.tri y) (i3 hb x hx fj hfj hn y (by rw [q1.cur]; exact hy))

theorem selfIntersects_spec (hr : 0 < I.resolution) (hT : IsLinear I.T) (changed : Changed) {b : Bool} (h : InvE I m (· ∈ changed.map (·.1)) s)
    (e : selfIntersects I m s changed = .ok (s', b)) : InvE I m (· ∈ changed.map (·.1)) s' ∧ Stamped I s s' ∧
      (b = false → (changed.flatMap (·.2)).Pairwise (NC s) ∧
        ∀ a ∈ changed.flatMap (·.2), ∀ fj, fj < m.nf → fj ∉ changed.map (·.1) → ∀ g ∈ cur m s fj, NC s a g) := by
  unfold selfIntersects at e
  dsimp only at e
  obtain ⟨r, e1, e2⟩ := Outcome.bind_eq_ok.1 e
  cases r with
  | true =>
      simp only [if_true] at e2
      cases e2
      exact ⟨h, Stamped.refl _ _, by simp⟩
  | false =>
      simp only [Bool.false_eq_true, if_false] at e2
      obtain ⟨i1, i2, i3⟩ := hitsOthers_spec hr hT _ _ h e2
      exact ⟨i1, i2, fun hb => ⟨(hitsEachOther_false e1).imp nc_of_intersect, i3 hb⟩⟩

/-! ### committing -/

theorem reindexPatch_spec {ids : Nat → Prop} (h : InvE I m ids s) (hfi : fi < m.nf) (hp : s.cached fi = [] → Plain m s fi) :
    ∃ s', reindexPatch I m s fi = .ok s' ∧ InvE I m (fun i => ids i ∧ i ≠ fi) s' ∧ Same s s' := by
  obtain ⟨ops, hF, hL⟩ := h.fgrid
  obtain ⟨b0, hb0⟩ := Option.isSome_iff_exists.1 ((hL fi).1 hfi).1
  obtain ⟨g1, e1, h1⟩ := step_inv I.cellOf ⟨0, 0⟩ hF (.remove fi) ⟨b0, live_inserted ops fi b0 hb0⟩
  obtain ⟨b, b1, b2, b3⟩ := boxOf_some s.ap (cur_ne m s fi)
  have l1 : live (ops ++ [Op.remove fi]) = fun i => if i = fi then none else live ops i := live_append _ _
  obtain ⟨g2, e2, h2⟩ := step_inv I.cellOf ⟨0, 0⟩ h1 (.insert fi b) (by simp only [l1, if_true])
  have l2 : live (ops ++ [Op.remove fi] ++ [Op.insert fi b]) = fun i => if i = fi then some b else live (ops ++ [Op.remove fi]) i := live_append _ _
  unfold reindexPatch
  rw [show s.fgrid.remove I.cellOf fi = .ok g1 from e1]
  simp only [Outcome.ok_bind]
  rw [patchFaces_of hp]
  simp only [Outcome.ok_bind]
  rw [b1]
  dsimp only
  have eg : g1.insert I.cellOf ⟨0, 0⟩ fi b = g2 := by
    unfold step at e2
    simpa using e2
  rw [eg]
  refine ⟨_, rfl, ⟨h.ap, h.snap, h.orig, h.anchor, h.chain, h.inner, ?_, h.rows, ⟨_, h2, fun fj => ⟨fun hj => ?_, fun hj => ?_⟩⟩, h.sgrid, ?_⟩, ⟨rfl, rfl, rfl, rfl, rfl, rfl⟩⟩
  · intro fj hj hn hc
    by_cases e : fj = fi
    · subst e; exact hp hc
    · exact h.plain fj hj (fun hh => hn ⟨hh, e⟩) hc
  · rw [l2]
    dsimp only
    by_cases e : fj = fi
    · subst e
      rw [if_pos rfl]
      exact ⟨rfl, fun _ => b1.symm⟩
    · rw [if_neg e, l1]
      dsimp only
      rw [if_neg e]
      exact ⟨((hL fj).1 hj).1, fun hn => ((hL fj).1 hj).2 fun hh => hn ⟨hh, e⟩⟩
  · rw [l2, l1]
    dsimp only
    have : fj ≠ fi := by omega
    rw [if_neg this, if_neg this]
    exact (hL fj).2 hj
  · intro fj l hj hn e
    by_cases e' : fj = fi
    · subst e'; simp [upd] at e
    · have e2 : s.honored fj = some l := by simpa [upd, e'] using e
      exact h.honored fj l hj (fun hh => hn ⟨hh, e'⟩) e2

theorem reindexAll_spec (fis : List Nat) : ∀ {ids : Nat → Prop} {s : State}, InvE I m ids s → (∀ fi ∈ fis, fi < m.nf ∧ (s.cached fi = [] → Plain m s fi)) →
    ∃ s', reindexAll I m fis s = .ok s' ∧ InvE I m (fun i => ids i ∧ i ∉ fis) s' ∧ Same s s' := by
  induction fis with
  | nil => intro ids s h _; exact ⟨s, rfl, by simpa using h, Same.refl s⟩
  | cons fi fis ih =>
      intro ids s h hf
      obtain ⟨s1, e1, h1, q1⟩ := reindexPatch_spec h (hf fi (by simp)).1 (hf fi (by simp)).2
      obtain ⟨s2, e2, h2, q2⟩ := ih h1 (fun x hx => ⟨(hf x (by simp [hx])).1, fun hc => by
        rw [q1.cached] at hc
        have := (hf x (by simp [hx])).2 hc
        unfold Plain at this ⊢
        rw [q1.interior, q1.chains]
        exact this⟩)
      unfold reindexAll
      rw [e1]
      simp only [Outcome.ok_bind]
      refine ⟨s2, e2, h2.weaken ?_, q1.trans q2⟩
      rintro x ⟨⟨a, b⟩, c⟩
      exact ⟨a, by simp [b, c]⟩

/-- After the tentative triangulations are stored. -/
def stored (changed : Changed) (c : Nat → List Face) : Nat → List Face :=
  changed.foldl (fun c x => upd c x.1 x.2) c

theorem commit_spec (changed : Changed) : ∀ {ids : Nat → Prop} {s : State}, InvE I m ids s →
    (∀ c ∈ changed, c.1 < m.nf ∧ ids c.1 ∧ c.2 ≠ [] ∧ ∀ g ∈ c.2, ∀ r, Corner g r → r < np I ∨ Corner (m.face c.1) r) → (changed.map (·.1)).Nodup →
    ∃ s', commit I m changed s = .ok s' ∧ InvE I m (fun i => ids i ∧ i ∉ changed.map (·.1)) s' ∧ Same { s with cached := stored changed s.cached } s' := by
  induction changed with
  | nil => intro ids s h _ _; exact ⟨s, rfl, by simpa using h, Same.refl s⟩
  | cons c cs ih =>
      intro ids s h hc hnd
      obtain ⟨c1, c2, c3, c4⟩ := hc c (by simp)
      rw [List.map_cons, List.nodup_cons] at hnd
      have h0 : InvE I m ids { s with cached := upd s.cached c.1 c.2 } := by
        have hcur : ∀ fj, ¬ ids fj → upd s.cached c.1 c.2 fj = s.cached fj := fun fj hn => by
          unfold upd; rw [if_neg]; rintro rfl; exact hn c2
        refine ⟨h.ap, h.snap, h.orig, h.anchor, h.chain, h.inner, ?_, ?_, ?_, h.sgrid, ?_⟩
        · intro fj hj hn hcc
          exact h.plain fj hj hn (by rw [← hcur fj hn]; exact hcc)
        · intro fj hj g hg r hr
          by_cases e : fj = c.1
          · subst e
            simp only [upd, if_true] at hg
            exact c4 g hg r hr
          · simp only [upd, if_neg e] at hg
            exact h.rows fj hj g hg r hr
        · obtain ⟨ops, hF, hL⟩ := h.fgrid
          refine ⟨ops, hF, fun fj => ⟨fun hj => ⟨((hL fj).1 hj).1, fun hn => ?_⟩, (hL fj).2⟩⟩
          rw [((hL fj).1 hj).2 hn]
          exact congrArg (boxOf s.ap) (cur_congr (s' := { s with cached := upd s.cached c.1 c.2 }) (hcur fj hn)).symm
        · intro fj l hj hn e i
          have := h.honored fj l hj hn e i
          rw [this, cur_congr (s := s) (s' := { s with cached := upd s.cached c.1 c.2 }) (hcur fj hn)]
          exact Iff.rfl
      obtain ⟨s1, e1, h1, q1⟩ := reindexPatch_spec h0 c1 (fun hcc => absurd (by simpa [upd] using hcc) c3)
      obtain ⟨s2, e2, h2, q2⟩ := ih h1 (fun x hx => by
        obtain ⟨x1, x2, x3, x4⟩ := hc x (by simp [hx])
        exact ⟨x1, ⟨x2, fun e => hnd.1 (by rw [← e]; exact List.mem_map_of_mem hx)⟩, x3, x4⟩) hnd.2
      unfold commit
      rw [e1]
      simp only [Outcome.ok_bind]
      refine ⟨s2, e2, h2.weaken ?_, ?_⟩
      · rintro x ⟨⟨a, b⟩, c'⟩
        refine ⟨a, ?_⟩
        rw [List.map_cons, List.mem_cons]
        rintro (rfl | hh)
        · exact b rfl
        · exact c' hh
      · refine ⟨q2.p.trans q1.p, q2.ap.trans q1.ap, q2.aq.trans q1.aq, q2.interior.trans q1.interior, ?_, q2.chains.trans q1.chains⟩
        rw [q2.cached]
        dsimp only
        rw [q1.cached]
        rfl

end Verif.Snapper
