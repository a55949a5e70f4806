import Verif.Lemmas.Refiner

/-! # Lemmas: the grid, and accepting a move -/

namespace Verif.Refiner

open Verif Verif.AbstractMesh Verif.SpatialGrid Verif.SpatialGrid.Spec Verif.ClosestPoint
open Verif.Predicates (P3 narrow kTinyFactor kTinyFactor_nonneg)
open Verif.MeshDefects hiding Face corner
open Verif.MeshDefects.Spec
open Verif.Thinner (toE E3 dotP crossP stopAtHit)
open Verif.Geometry (Cross cornerSet)
open Verif.Refiner.Spec
open Verif.Snapper (visits mem_visits callUntil_false)

variable {I : Input} {m : Mesh} {s s' : State}

theorem cellOf_mono (hr : 0 < I.resolution) : Monotone (cellOf I) := by
  intro x y h
  unfold cellOf
  exact Int.floor_le_floor (div_le_div_of_nonneg_right h hr.le)

/-- Every face is in the grid at its place. -/
def Indexed (I : Input) (m : Mesh) (s : State) : Prop :=
  ∃ ops, FInv (cellOf I) s.fgrid ops ∧ ∀ fi, live ops fi = if fi < m.nf then some (bboxOf (tri s.p (m.face fi))) else none

theorem movedFace_eq (p : Nat → P3) (fi vi : Nat) (q : P3) : movedFace m p fi vi q = tri (upd p vi q) (m.face fi) := rfl

theorem tri_upd_of_not {p : Nat → P3} {vi : Nat} {q : P3} {f : Face} (h : ¬ Corner f vi) : tri (upd p vi q) f = tri p f := by
  unfold Corner at h
  push Not at h
  unfold tri
  rw [upd_ne h.1, upd_ne h.2.1, upd_ne h.2.2]

theorem Indexed.forEach (h : Indexed I m s) {σ : Type} (q : Box ℝ) (fn : σ → Nat → σ × Bool) (x : σ) :
    ∃ g, s.fgrid.forEach (cellOf I) q fn x = .ok (g, (callUntil fn (visits (cellOf I) s.fgrid.g q) x).1) ∧ Indexed I m { s with fgrid := g } := by
  obtain ⟨ops, hF, hL⟩ := h
  obtain ⟨g', hg, e⟩ := forEach_spec (cellOf I) hF.g q fn x
  refine ⟨{ s.fgrid with g := g' }, ?_, ops, ⟨hg, hF.box, hF.size⟩, hL⟩
  unfold FaceGrid.forEach
  rw [e]; rfl

theorem Indexed.visits_lt (h : Indexed I m s) {q : Box ℝ} {fi : Nat} (hfi : fi ∈ visits (cellOf I) s.fgrid.g q) : fi < m.nf := by
  obtain ⟨ops, hF, hL⟩ := h
  obtain ⟨b, b1, -⟩ := (mem_visits hF.g q fi).1 hfi
  rw [hL] at b1
  by_contra hc
  rw [if_neg hc] at b1
  cases b1

theorem Indexed.visited (hr : 0 < I.resolution) (h : Indexed I m s) {t : P3 × P3 × P3} {fi : Nat} (hfi : fi < m.nf)
    (ho : Overlap (bboxOf t) (bboxOf (tri s.p (m.face fi)))) : fi ∈ visits (cellOf I) s.fgrid.g (bboxOf t) := by
  obtain ⟨ops, hF, hL⟩ := h
  rw [mem_visits hF.g]
  refine ⟨_, by rw [hL, if_pos hfi], ?_⟩
  obtain ⟨c, c1, c2⟩ := shares_cell (cellOf I) (cellOf_mono hr) (bboxOf_proper t) (bboxOf_proper _) ho
  exact ⟨c, c2, c1⟩

theorem callUntil_true (Q : Nat → Outcome Bool) (l : List Nat) : ∀ {r : Outcome Bool}, (callUntil (stopAtHit Q) l r).1 = .ok true →
    r = .ok true ∨ ∃ i ∈ l, Q i = .ok true := by
  induction l with
  | nil => intro r h; exact Or.inl h
  | cons x l ih =>
      intro r h
      unfold callUntil at h
      simp only [stopAtHit] at h
      cases hx : Q x with
      | ok b =>
          rw [hx] at h
          cases b with
          | false =>
              rcases ih h with h' | ⟨i, h1, h2⟩
              · exact Or.inl h'
              · exact Or.inr ⟨i, by simp [h1], h2⟩
          | true => exact Or.inr ⟨x, by simp, hx⟩
      | throws e => rw [hx] at h; cases h
      | ub => rw [hx] at h; cases h

/-- The tests for a list of faces at the vertex. -/
theorem rejected_spec (hr : 0 < I.resolution) (vi : Nat) (q : P3) (fis : List Nat) : ∀ (s : State), Indexed I m s → ∀ {s' : State} {b : Bool},
    rejected I m vi q fis s = .ok (s', b) → Indexed I m s' ∧ s'.p = s.p ∧
      (b = false → ∀ fi ∈ fis, 0 < dotP (triangleNormal (tri s.p (m.face fi))) (triangleNormal (tri (upd s.p vi q) (m.face fi))) ∧
        ∀ fj, fj < m.nf → fj ≠ fi → Overlap (bboxOf (tri (upd s.p vi q) (m.face fi))) (bboxOf (tri s.p (m.face fj))) →
          trianglesIntersect (narrow kTinyFactor) (tri (upd s.p vi q) (m.face fi)) (tri (upd s.p vi q) (m.face fj)) = .ok false) ∧
      (b = true → ∃ fi ∈ fis, dotP (triangleNormal (tri s.p (m.face fi))) (triangleNormal (tri (upd s.p vi q) (m.face fi))) ≤ 0 ∨
        ∃ fj, fj < m.nf ∧ fj ≠ fi ∧
          trianglesIntersect (narrow kTinyFactor) (tri (upd s.p vi q) (m.face fi)) (tri (upd s.p vi q) (m.face fj)) = .ok true) := by
  induction fis with
  | nil => intro s h s' b e; unfold rejected at e; cases e; exact ⟨h, rfl, by simp, by simp⟩
  | cons fi fis ih =>
      intro s h s' b e
      unfold rejected at e
      dsimp only at e
      rw [movedFace_eq] at e
      by_cases hd : dotP (triangleNormal (tri s.p (m.face fi))) (triangleNormal (tri (upd s.p vi q) (m.face fi))) ≤ 0
      · rw [if_pos hd] at e
        cases e
        exact ⟨h, rfl, by simp, fun _ => ⟨fi, by simp, Or.inl hd⟩⟩
      rw [if_neg hd] at e
      obtain ⟨g, e1, h1⟩ := h.forEach (bboxOf (tri (upd s.p vi q) (m.face fi))) (stopAtHit (hits m s.p vi q fi)) (.ok false)
      rw [e1] at e
      simp only [Outcome.ok_bind] at e
      obtain ⟨hit, e2, e3⟩ := Outcome.bind_eq_ok.1 e
      cases hit with
      | true =>
          simp only [if_true] at e3
          cases e3
          refine ⟨h1, rfl, by simp, fun _ => ?_⟩
          rcases callUntil_true _ _ e2 with h' | ⟨fj, k1, k2⟩
          · cases h'
          · refine ⟨fi, by simp, Or.inr ⟨fj, h.visits_lt k1, ?_⟩⟩
            unfold hits at k2
            split at k2
            · cases k2
            · rename_i hne; exact ⟨hne, k2⟩
      | false =>
          simp only [Bool.false_eq_true, if_false] at e3
          obtain ⟨i1, i2, i3, i4⟩ := ih _ h1 e3
          refine ⟨i1, i2, fun hb => ?_, fun hb => ?_⟩
          · intro fk hfk
            rcases List.mem_cons.1 hfk with rfl | hfk
            · refine ⟨lt_of_not_ge hd, fun fj hj hne ho => ?_⟩
              have := callUntil_false _ _ e2 fj (h.visited hr hj ho)
              unfold hits at this
              rw [if_neg hne] at this
              exact this
            · exact i3 hb fk hfk
          · obtain ⟨fk, k1, k2⟩ := i4 hb
            exact ⟨fk, by simp [k1], k2⟩

theorem unindexAll_spec (fis : List Nat) : ∀ (g : FaceGrid ℝ) (ops : List (Op ℝ)), FInv (cellOf I) g ops →
    (∀ fi ∈ fis, ∃ b, Op.insert fi b ∈ ops) →
    ∃ g' ops', unindexAll I fis g = .ok g' ∧ FInv (cellOf I) g' ops' ∧ ∀ i, live ops' i = if i ∈ fis then none else live ops i := by
  induction fis with
  | nil => intro g ops hF _; exact ⟨g, ops, rfl, hF, by simp⟩
  | cons fi fis ih =>
      intro g ops hF hin
      obtain ⟨g1, e1, h1⟩ := step_inv (cellOf I) ⟨0, 0⟩ hF (.remove fi) (hin fi (by simp))
      obtain ⟨g2, ops2, e2, h2, h3⟩ := ih g1 _ h1 (fun x hx => by obtain ⟨b, hb⟩ := hin x (by simp [hx]); exact ⟨b, by simp [hb]⟩)
      unfold unindexAll
      rw [show g.remove (cellOf I) fi = .ok g1 from e1]
      refine ⟨g2, ops2, e2, h2, fun i => ?_⟩
      rw [h3, live_append]
      simp only [List.mem_cons]
      by_cases hi : i ∈ fis
      · simp [hi]
      · by_cases hj : i = fi <;> simp [hi, hj]

theorem indexAll_spec (p : Nat → P3) (fis : List Nat) : ∀ (g : FaceGrid ℝ) (ops : List (Op ℝ)), FInv (cellOf I) g ops → fis.Nodup →
    (∀ fi ∈ fis, live ops fi = none) → ∃ ops', FInv (cellOf I) (fis.foldl (indexFace I m p) g) ops' ∧
      ∀ i, live ops' i = if i ∈ fis then some (bboxOf (tri p (m.face i))) else live ops i := by
  induction fis with
  | nil => intro g ops hF _ _; exact ⟨ops, hF, by simp⟩
  | cons fi fis ih =>
      intro g ops hF hnd hno
      rw [List.foldl_cons]
      rw [List.nodup_cons] at hnd
      obtain ⟨g1, e1, h1⟩ := step_inv (cellOf I) ⟨0, 0⟩ hF (.insert fi (bboxOf (tri p (m.face fi)))) (hno fi (by simp))
      have eg : indexFace I m p g fi = g1 := by
        unfold step at e1
        simp only [Outcome.ok.injEq] at e1
        exact e1
      obtain ⟨ops2, h2, h5⟩ := ih (indexFace I m p g fi) _ (eg ▸ h1) hnd.2 (fun x hx => by
        rw [live_append]
        dsimp only
        rw [if_neg (show x ≠ fi from fun e => hnd.1 (e ▸ hx))]
        exact hno x (by simp [hx]))
      refine ⟨ops2, h2, fun i => ?_⟩
      rw [h5, live_append]
      simp only [List.mem_cons]
      by_cases hj : i = fi
      · subst hj; simp [hnd.1]
      · simp [hj]

theorem commit_spec (hC : Consistent m) (hd : ∀ fi, fi < m.nf → m.deleted fi = false) (vi : Nat) (q : P3) (h : Indexed I m s) :
    ∃ s', commit I m vi q s = .ok s' ∧ Indexed I m s' ∧ s'.p = upd s.p vi q := by
  obtain ⟨ops, hF, hL⟩ := h
  have hstar : ∀ fi, fi ∈ m.vertexFaces vi ↔ fi < m.nf ∧ Corner (m.face fi) vi := by
    intro fi
    rw [(hC.vertexFaces vi).2]
    constructor
    · rintro ⟨f, h1, h2⟩
      unfold faceAt at h1
      split at h1
      · rename_i h3; cases h1; exact ⟨h3.1, h2⟩
      · cases h1
    · rintro ⟨h1, h2⟩
      exact ⟨m.face fi, if_pos ⟨h1, hd fi h1⟩, h2⟩
  obtain ⟨g1, ops1, e1, h1, l1⟩ := unindexAll_spec (I := I) (m.vertexFaces vi) s.fgrid ops hF fun fi hfi => by
    refine ⟨_, live_inserted ops fi (bboxOf (tri s.p (m.face fi))) ?_⟩
    rw [hL, if_pos ((hstar fi).1 hfi).1]
  obtain ⟨ops2, h2, l2⟩ := indexAll_spec (m := m) (upd s.p vi q) (m.vertexFaces vi) g1 ops1 h1 (hC.vertexFaces vi).1 fun fi hfi => by
    rw [l1, if_pos hfi]
  unfold commit
  rw [e1]
  refine ⟨_, rfl, ⟨ops2, h2, fun fi => ?_⟩, rfl⟩
  rw [l2, l1, hL]
  dsimp only
  by_cases hfi : fi ∈ m.vertexFaces vi
  · rw [if_pos hfi, if_pos ((hstar fi).1 hfi).1]
  · rw [if_neg hfi, if_neg hfi]
    by_cases hn : fi < m.nf
    · rw [if_pos hn, if_pos hn, tri_upd_of_not fun hc => hfi ((hstar fi).2 ⟨hn, hc⟩)]
    · rw [if_neg hn, if_neg hn]

theorem start_indexed (I : Input) (m : Mesh) : Indexed I m (start I m) := by
  obtain ⟨ops, h1, h2⟩ := indexAll_spec (I := I) (m := m) (p0 I) (List.range m.nf) (FaceGrid.init ⟨0, 0⟩ m.nf) [] (finv_init _ _ _) List.nodup_range
    (by simp [live])
  refine ⟨ops, h1, fun fi => ?_⟩
  rw [h2]
  simp only [List.mem_range]
  rfl

theorem distinct_of_normal {t : P3 × P3 × P3} (h : triangleNormal t ≠ 0) : DistinctCorners t := by
  obtain ⟨a, b, c⟩ := t
  refine ⟨?_, ?_, ?_⟩ <;> dsimp only <;> rintro rfl <;> apply h <;> unfold triangleNormal crossP <;> dsimp only <;>
    simp only [Prod.fst_sub, Prod.snd_sub, Prod.mk_eq_zero] <;> refine ⟨?_, ?_, ?_⟩ <;> ring

theorem normal_ne {t u : P3 × P3 × P3} (h : 0 < dotP (triangleNormal t) (triangleNormal u)) : triangleNormal t ≠ 0 ∧ triangleNormal u ≠ 0 := by
  constructor <;> intro e <;> rw [e] at h <;> simp [dotP] at h

theorem tryMove_spec (hr : 0 < I.resolution) (hC : Consistent m) (hd : ∀ fi, fi < m.nf → m.deleted fi = false) (h : Indexed I m s) {v : Nat} {x : P3}
    (e : tryMove I m s (v, x) = .ok s') : Indexed I m s' ∧
      ((s'.p = s.p ∧ ((∃ fi, fi < m.nf ∧ Corner (m.face fi) v ∧
            dotP (triangleNormal (tri s.p (m.face fi))) (triangleNormal (tri (upd s.p v (snap I x)) (m.face fi))) ≤ 0) ∨
          ∃ fi fj, fi < m.nf ∧ fj < m.nf ∧ fj ≠ fi ∧ Corner (m.face fi) v ∧
            trianglesIntersect (narrow kTinyFactor) (tri (upd s.p v (snap I x)) (m.face fi)) (tri (upd s.p v (snap I x)) (m.face fj)) = .ok true)) ∨
       (s'.p = upd s.p v (snap I x) ∧ (∀ fi, fi < m.nf → Corner (m.face fi) v →
          0 < dotP (triangleNormal (tri s.p (m.face fi))) (triangleNormal (tri (upd s.p v (snap I x)) (m.face fi)))) ∧
        ∀ fi fj, fi < m.nf → fj < m.nf → fi ≠ fj → Corner (m.face fi) v → DistinctCorners (tri s.p (m.face fj)) →
          ¬ Cross (tri (upd s.p v (snap I x)) (m.face fi)) (tri (upd s.p v (snap I x)) (m.face fj)))) := by
  have hface : ∀ fi, fi < m.nf → faceAt m fi = some (m.face fi) := fun fi h1 => if_pos ⟨h1, hd fi h1⟩
  have hstar : ∀ fi, fi ∈ m.vertexFaces v ↔ fi < m.nf ∧ Corner (m.face fi) v := by
    intro fi
    rw [(hC.vertexFaces v).2]
    constructor
    · rintro ⟨f, h1, h2⟩
      unfold faceAt at h1
      split at h1
      · rename_i h3; cases h1; exact ⟨h3.1, h2⟩
      · cases h1
    · rintro ⟨h1, h2⟩
      exact ⟨m.face fi, hface fi h1, h2⟩
  unfold tryMove at e
  dsimp only at e
  obtain ⟨⟨s1, no⟩, e1, e2⟩ := Outcome.bind_eq_ok.1 e
  obtain ⟨i1, i2, i3, i4⟩ := rejected_spec hr _ _ _ _ h e1
  cases no with
  | true =>
      simp only [if_true] at e2
      cases e2
      refine ⟨i1, Or.inl ⟨i2, ?_⟩⟩
      obtain ⟨fi, h1, h2 | ⟨fj, h2, h3, h4⟩⟩ := i4 rfl
      · exact Or.inl ⟨fi, ((hstar fi).1 h1).1, ((hstar fi).1 h1).2, h2⟩
      · exact Or.inr ⟨fi, fj, ((hstar fi).1 h1).1, h2, h3, ((hstar fi).1 h1).2, h4⟩
  | false =>
      simp only [Bool.false_eq_true, if_false] at e2
      obtain ⟨s2, c1, c2, c3⟩ := commit_spec hC hd v (snap I x) i1
      rw [c1] at e2
      cases e2
      rw [i2] at c3
      refine ⟨c2, Or.inr ⟨c3, fun fi h1 h2 => (i3 rfl fi ((hstar fi).2 ⟨h1, h2⟩)).1, ?_⟩⟩
      intro fi fj h1 h2 hne h3 h4 hcr
      obtain ⟨n1, n2⟩ := i3 rfl fi ((hstar fi).2 ⟨h1, h3⟩)
      have d1 := distinct_of_normal (normal_ne n1).2
      have hT := kTinyFactor_nonneg
      by_cases h5 : Corner (m.face fj) v
      · obtain ⟨n3, n4⟩ := i3 rfl fj ((hstar fj).2 ⟨h2, h5⟩)
        have d2 := distinct_of_normal (normal_ne n3).2
        rcases star_overlap (hC.corners _ _ (hface fi h1)) (hC.corners _ _ (hface fj h2)) h3 h5 hcr with ho | ho
        · have := n2 fj h2 hne.symm ho
          rw [Predicates.C55_faces hT _ _ d1 d2 hcr] at this
          cases this
        · have := n4 fi h1 hne ho
          rw [Predicates.C55_faces hT _ _ d2 d1 (Thinner.cross_symm hcr)] at this
          cases this
      · have ho := cross_box hcr
        rw [tri_upd_of_not h5] at ho
        have := n2 fj h2 hne.symm ho
        rw [Predicates.C55_faces hT _ _ d1 (by rw [tri_upd_of_not h5]; exact h4) hcr] at this
        cases this

end Verif.Refiner
