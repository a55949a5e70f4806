import Verif.Lemmas.ThinnerCollapse

/-! # Lemmas: the loops of the thinner -/

namespace Verif.Thinner

open Verif Verif.AbstractMesh Verif.SpatialGrid Verif.SpatialGrid.Spec Verif.MeshDefects Verif.MeshDefects.Spec Verif.ClosestPoint Verif.Predicates
open Verif.Thinner.Spec
open Verif.Geometry (Cross)

variable {I : Input}

theorem chooseBest_spec (hI : Valid I) {m : AbstractMesh.Mesh} {a : Nat} (hint : ∀ h ∈ m.vh a, ∃ o, m.opp h = some o) (ha : IsSnapped I a)
    (hlen : 3 ≤ (m.vh a).length) : ∀ (rest : List Nat), (∀ h ∈ rest, h ∈ m.vh a) → ∀ (s : State), SInv I s → s.mesh = m →
    ∀ (best : Option Nat) (dev : WithTop ℝ), (best = none → dev = ⊤) → (∀ h, best = some h → h ∈ m.vh a ∧ Safe I (faceAt m) a (m.to_ h)) →
    ∃ s' best', chooseBest I (m.vh a) rest s best dev = .ok (s', best') ∧ SInv I s' ∧ s'.mesh = m ∧
      (∀ h, best' = some h → h ∈ m.vh a ∧ Safe I (faceAt m) a (m.to_ h)) ∧
      (best' = none → best = none ∧ ∀ h ∈ rest, ¬ Safe I (faceAt m) a (m.to_ h)) := by
  intro rest
  induction rest with
  | nil =>
      intro _ s hs hm best dev _ hb
      exact ⟨s, best, rfl, hs, hm, hb, fun h => ⟨h, by simp⟩⟩
  | cons h rest ih =>
      intro hh s hs hm best dev hd hb
      have hmem := hh h (by simp)
      have hr : Reachable m := hm ▸ hs.reach
      obtain ⟨s1, r, e1, i1, m1, c1, c2⟩ := collapseOk_spec hI hs (h := h) (a := a) (b := m.to_ h) (by rw [hm]; exact mem_he hr hmem)
        (by rw [hm]; exact hint) ha (by rw [hm]; exact hlen)
      rw [hm] at e1 c1
      unfold chooseBest
      rw [e1]
      simp only [Outcome.ok_bind]
      have hrest : ∀ x ∈ rest, x ∈ m.vh a := fun x hx => hh x (by simp [hx])
      cases r with
      | none =>
          dsimp only
          obtain ⟨s2, b2, q1, q2, q3, q4, q5⟩ := ih hrest s1 i1 (m1.trans hm) best dev hd hb
          refine ⟨s2, b2, q1, q2, q3, q4, fun hn => ⟨(q5 hn).1, ?_⟩⟩
          intro x hx
          rcases List.mem_cons.1 hx with rfl | hx
          · exact fun hS => c1.2 hS rfl
          · exact (q5 hn).2 x hx
      | some d =>
          dsimp only
          have hS : Safe I (faceAt m) a (m.to_ h) := c1.1 (by simp)
          by_cases hlt : d < dev
          · rw [if_pos hlt]
            obtain ⟨s2, b2, q1, q2, q3, q4, q5⟩ := ih hrest s1 i1 (m1.trans hm) (some h) d (by simp) (by rintro x hx; cases hx; exact ⟨hmem, hS⟩)
            exact ⟨s2, b2, q1, q2, q3, q4, fun hn => by have := (q5 hn).1; cases this⟩
          · rw [if_neg hlt]
            obtain ⟨s2, b2, q1, q2, q3, q4, q5⟩ := ih hrest s1 i1 (m1.trans hm) best dev hd hb
            refine ⟨s2, b2, q1, q2, q3, q4, fun hn => ?_⟩
            exfalso
            have := hd (q5 hn).1
            rw [this] at hlt
            exact c2 (by rw [not_lt_top_iff.1 hlt])

/-! ### the face grid -/

theorem unindexAll_spec (fis : List Nat) : ∀ (g : FaceGrid ℝ) (ops : List (Op ℝ)), FInv I.cellOf g ops →
    (∀ fi ∈ fis, ∃ b, Op.insert fi b ∈ ops) →
    ∃ g' ops', unindexAll I fis g = .ok g' ∧ FInv I.cellOf g' ops' ∧ ∀ i, live ops' i = if i ∈ fis then none else live ops i := by
  induction fis with
  | nil => intro g ops hF _; exact ⟨g, ops, rfl, hF, by simp⟩
  | cons fi fis ih =>
      intro g ops hF hin
      obtain ⟨g1, e1, h1⟩ := step_inv I.cellOf ⟨0, 0⟩ hF (.remove fi) (hin fi (by simp))
      obtain ⟨g2, ops2, e2, h2, h3⟩ := ih g1 _ h1 (fun x hx => by obtain ⟨b, hb⟩ := hin x (by simp [hx]); exact ⟨b, by simp [hb]⟩)
      unfold unindexAll
      rw [show g.remove I.cellOf fi = .ok g1 from e1]
      refine ⟨g2, ops2, e2, h2, fun i => ?_⟩
      rw [h3, live_append]
      simp only [List.mem_cons]
      by_cases hi : i ∈ fis
      · simp [hi]
      · by_cases hj : i = fi <;> simp [hi, hj]

theorem indexAll_spec (fis : List Nat) : ∀ (s : State) (ops : List (Op ℝ)), FInv I.cellOf s.fgrid ops → fis.Nodup → (∀ fi ∈ fis, live ops fi = none) →
    ∃ ops', FInv I.cellOf (fis.foldl (indexFace I) s).fgrid ops' ∧ (fis.foldl (indexFace I) s).mesh = s.mesh ∧ (fis.foldl (indexFace I) s).sgrid = s.sgrid ∧
      ∀ i, live ops' i = if i ∈ fis then some (bboxOf (I.triangle (s.mesh.face i))) else live ops i := by
  induction fis with
  | nil => intro s ops hF _ _; exact ⟨ops, hF, rfl, rfl, by simp⟩
  | cons fi fis ih =>
      intro s ops hF hnd hno
      rw [List.foldl_cons]
      rw [List.nodup_cons] at hnd
      obtain ⟨g1, e1, h1⟩ := step_inv I.cellOf ⟨0, 0⟩ hF (.insert fi (bboxOf (I.triangle (s.mesh.face fi)))) (hno fi (by simp))
      have eg : (indexFace I s fi).fgrid = g1 := by
        unfold step at e1
        simp only [Outcome.ok.injEq] at e1
        exact e1
      obtain ⟨ops2, h2, h3, h4, h5⟩ := ih (indexFace I s fi) _ (eg ▸ h1) hnd.2 (fun x hx => by
        rw [live_append]
        dsimp only
        rw [if_neg (show x ≠ fi from fun e => hnd.1 (e ▸ hx))]
        exact hno x (by simp [hx]))
      refine ⟨ops2, h2, h3, h4, fun i => ?_⟩
      rw [h5, live_append]
      simp only [List.mem_cons]
      by_cases hj : i = fi
      · subst hj; simp [hnd.1]
      · simp [hj]; rfl

/-- The number of faces. -/
def faceCount (m : AbstractMesh.Mesh) : Nat := ((List.range m.nf).filter (fun i => (faceAt m i).isSome)).length

theorem tryCollapse_spec (hI : Valid I) {s : State} (hs : SInv I s) {a : Nat} (ha : IsSnapped I a) :
    ∃ s' done, tryCollapse I s a = .ok (s', done) ∧ SInv I s' ∧ s'.mesh.nf = s.mesh.nf ∧
      (done = false → s'.mesh = s.mesh ∧ ∀ b, ¬ Safe I (faceAt s.mesh) a b) ∧
      (done = true → ∃ b, Safe I (faceAt s.mesh) a b ∧ ∀ i, faceAt s'.mesh i = merged (faceAt s.mesh) a b i) := by
  have hr := hs.reach
  have hC := hr.good.consistent
  unfold tryCollapse
  dsimp only
  by_cases hlen : (s.mesh.vh a).length < 3
  · rw [if_pos hlen]
    refine ⟨s, false, rfl, hs, rfl, fun _ => ⟨rfl, fun b hS => ?_⟩, by simp⟩
    obtain ⟨i, j, k, f, g, h, h1, h2, h3, q1, q2, q3, q4, q5, q6⟩ := hS.star
    have hmem := (hC.vertexFaces a).2
    have hsub : [i, j, k] ⊆ s.mesh.vertexFaces a := by
      intro x hx
      simp at hx
      rcases hx with rfl | rfl | rfl
      · exact (hmem _).2 ⟨f, q1, q4⟩
      · exact (hmem _).2 ⟨g, q2, q5⟩
      · exact (hmem _).2 ⟨h, q3, q6⟩
    have hnd : [i, j, k].Nodup := by simp [h1, h2, h3]
    have := (List.subperm_of_subset hnd hsub).length_le
    unfold Mesh.vertexFaces at this
    rw [List.length_map] at this
    simp at this
    omega
  rw [if_neg hlen]
  obtain ⟨inner, e1, h1⟩ := interior_spec hr (s.mesh.vh a) (fun _ h => h)
  rw [e1]
  simp only [Outcome.ok_bind]
  by_cases hin : inner = true
  swap
  · rw [if_pos (by simpa using hin)]
    refine ⟨s, false, rfl, hs, rfl, fun _ => ⟨rfl, fun b hS => ?_⟩, by simp⟩
    exact hin (h1.2 ((interior_iff hr a).2 hS.interior))
  rw [if_neg (by rw [hin]; simp)]
  have hint := h1.1 hin
  obtain ⟨s1, best, e2, i1, m1, b1, b2⟩ := chooseBest_spec hI hint ha (by omega) (s.mesh.vh a) (fun _ h => h) s hs rfl none ⊤ (fun _ => rfl) (by simp)
  rw [e2]
  simp only [Outcome.ok_bind]
  cases best with
  | none =>
      refine ⟨s1, false, rfl, i1, by rw [m1], fun _ => ⟨m1, fun b hS => ?_⟩, by simp⟩
      obtain ⟨i, f, f1, f2, f3, hne⟩ := hS.edge
      obtain ⟨e, he, hb⟩ := (neighbour_out hr hint).1 ⟨i, f, f1, f3, f2, hne.symm⟩
      have := (b2 rfl).2 e he
      rw [hb] at this
      exact this hS
  | some h =>
      dsimp only
      obtain ⟨hmem, hS⟩ := b1 h rfl
      have H := mem_he hr hmem
      generalize s.mesh.to_ h = b at *
      obtain ⟨hab, -, -, fh, F1, F2, F3, -⟩ := H.apex_ne hr.good
      have hbn : b < I.vertices.length := by
        obtain ⟨-, r1, r2, r3⟩ := hs.range _ _ F1
        rcases F3 with e | e | e <;> omega
      obtain ⟨ops, hF, hL⟩ := i1.fgrid
      rw [m1] at hL
      obtain ⟨g', ops', u1, u2, u3⟩ := unindexAll_spec ((s.mesh.vh a).map (· / 4)) s1.fgrid ops hF (fun fi hfi => by
        obtain ⟨f, q1, -⟩ := (mem_star hr a fi).1 hfi
        exact ⟨_, live_inserted ops fi _ (by rw [hL, q1]; rfl)⟩)
      rw [u1]
      simp only [Outcome.ok_bind]
      have hman : Manifold (merged (faceAt s.mesh) a b) := by
        refine C35_collapse_link hr H fun u h1 h2 => ?_
        have conv : ∀ x y, AbstractMesh.Adjacent s.mesh x y → Spec.Adjacent (faceAt s.mesh) x y := by
          rintro x y ⟨i, f, f1, f2 | f2⟩
          · exact ⟨i, f, f1, (side_corner f2).1, (side_corner f2).2, Side.ne (hC.corners i f f1) f2⟩
          · exact ⟨i, f, f1, (side_corner f2).2, (side_corner f2).1, (Side.ne (hC.corners i f f1) f2).symm⟩
        exact hS.link u (conv _ _ h1) (conv _ _ h2)
      rcases collapse_core hr.good H with ⟨-, m', l, c1, -, c3, c4, c5, c6, -⟩ | ⟨c1, -⟩
      swap
      · exact absurd hman c1
      have hreach : Reachable m' := .collapse s.mesh m' h a b l hr H c1
      rw [m1, c1]
      dsimp only
      have hgone : ∀ i, i ∈ l → live ops' i = none := by
        intro i hi
        obtain ⟨f, q1, q2, -⟩ := (c4 i).1 hi
        rw [u3, if_pos ((mem_star hr a i).2 ⟨f, q1, q2⟩)]
      obtain ⟨ops2, v1, v2, v3, v4⟩ := indexAll_spec l { s1 with mesh := m', fgrid := g' } ops' u2 c5 hgone
      generalize List.foldl (indexFace I) { s1 with mesh := m', fgrid := g' } l = s2 at *
      dsimp only at v2 v3 v4
      refine ⟨s2, true, rfl, ⟨by rw [v2]; exact hreach, ?_, ⟨ops2, v1, ?_⟩, by rw [v3]; exact i1.sgrid⟩, by rw [v2, c6], by simp, fun _ => ⟨b, hS, by rw [v2]; exact c3⟩⟩
      · intro i f hf
        rw [v2, c3] at hf
        obtain ⟨f0, x1, x2⟩ := merged_some hf
        rcases x2 with ⟨x2, x3, rfl⟩ | ⟨x2, rfl⟩
        · exact retarget_range (hs.range i f0 x1) x3 hbn
        · exact hs.range i _ x1
      · intro i
        rw [v4, v2]
        by_cases hi : i ∈ l
        · rw [if_pos hi]
          obtain ⟨f, q1, q2, q3⟩ := (c4 i).1 hi
          have := c3 i
          rw [merged_moved q1 q3] at this
          rw [this, ← live_face this]
          rfl
        · rw [if_neg hi, u3, c3]
          cases hf : faceAt s.mesh i with
          | none =>
              rw [merged_none hf, hL, hf]
              split <;> rfl
          | some f =>
              by_cases ha' : Corner f a
              · rw [if_pos ((mem_star hr a i).2 ⟨f, hf, ha'⟩)]
                have hb' : Corner f b := by
                  by_contra hb'
                  exact hi ((c4 i).2 ⟨f, hf, ha', hb'⟩)
                rw [merged_gone hf ha' hb']
                rfl
              · rw [if_neg (fun hc => by
                  obtain ⟨f2, y1, y2⟩ := (mem_star hr a i).1 hc
                  rw [hf] at y1; cases y1; exact ha' y2), merged_kept hf ha', hL, hf]

/-! ### what a collapse keeps -/

theorem cross_symm {s t : P3 × P3 × P3} (h : Cross s t) : Cross t s := by
  obtain ⟨x, x1, x2, x3⟩ := h
  exact ⟨x, x2, x1, by rwa [Set.inter_comm]⟩

theorem safe_collapse (hI : Valid I) {F F' : Nat → Option AbstractMesh.Face} {a b : Nat} (hF : ∀ i f, F i = some f → InRange I f)
    (hF' : ∀ i f, F' i = some f → InRange I f) (hM : Manifold F') (hS : Safe I F a b) (h : ∀ i, F' i = merged F a b i) :
    Collapse I F F' a b := by
  have hx : ∀ i j f g, F' i = some f → F' j = some g → Cross (tri I.vertices f) (tri I.vertices g) →
      (∃ f₀, F i = some f₀ ∧ Corner f₀ a) → ∃ g₀, F j = some g₀ ∧ Corner g₀ a := by
    rintro i j f g h1 h2 hc ⟨f₀, u1, u2⟩
    rw [h] at h1 h2
    obtain ⟨g₀, w1, w2⟩ := merged_some h2
    refine ⟨g₀, w1, ?_⟩
    by_contra hna
    rcases w2 with ⟨w2, -⟩ | ⟨-, rfl⟩
    · exact hna w2
    · exact hS.clear i f₀ f j g u1 u2 h1 w1 hna (C55_faces kTinyFactor_nonneg _ _ (distinct hI (hF' i f ((h i).trans h1))) (distinct hI (hF j g w1)) hc)
  refine ⟨hS.snapped, hS.edge, h, hM, hS.interior, hS.link, hS.remains, ?_, hS.short, ?_, ?_⟩
  · intro i f f' h1 h2 h3
    rw [h] at h3
    exact hS.unflipped i f f' h1 h2 h3
  · rintro i q tol hq ht ⟨j, f, h1, h2⟩
    by_cases ha : Corner f a
    · obtain ⟨j', f', -, -, -, -, w1, w2, -⟩ := hS.honored i q tol hq ht ⟨j, f, h1, ha, h2⟩
      exact ⟨j', f', by rw [h]; exact w1, w2⟩
    · exact ⟨j, f, by rw [h]; exact merged_kept h1 ha, h2⟩
  · intro i j f g hij h1 h2 hc
    by_cases hf : ∃ f₀, F i = some f₀ ∧ Corner f₀ a
    · exact Or.inr ⟨hf, hx i j f g h1 h2 hc hf⟩
    · by_cases hg : ∃ g₀, F j = some g₀ ∧ Corner g₀ a
      · exact absurd (hx j i g f h2 h1 (cross_symm hc) hg) hf
      · refine Or.inl ⟨?_, ?_⟩
        · rw [h] at h1
          obtain ⟨f₀, w1, ⟨w2, -⟩ | ⟨-, rfl⟩⟩ := merged_some h1
          · exact absurd ⟨f₀, w1, w2⟩ hf
          · exact w1
        · rw [h] at h2
          obtain ⟨g₀, w1, ⟨w2, -⟩ | ⟨-, rfl⟩⟩ := merged_some h2
          · exact absurd ⟨g₀, w1, w2⟩ hg
          · exact w1

theorem Collapses.trans {F G H : Nat → Option AbstractMesh.Face} (h : Collapses I F G) (h' : Collapses I G H) : Collapses I F H := by
  induction h' with
  | refl => exact h
  | step _ hc ih => exact .step ih hc

theorem count_lt {m m' : AbstractMesh.Mesh} {a b : Nat} (hnf : m'.nf = m.nf) (hS : Safe I (faceAt m) a b)
    (h : ∀ i, faceAt m' i = merged (faceAt m) a b i) : faceCount m' < faceCount m := by
  obtain ⟨i, f, f1, f2, f3, -⟩ := hS.edge
  unfold faceCount
  rw [hnf]
  have hi : i < m.nf := (faceAt_eq_some.1 f1).1.1
  have hsub : ((List.range m.nf).filter (fun i => (faceAt m' i).isSome)).Sublist ((List.range m.nf).filter (fun i => (faceAt m i).isSome)) := by
    apply List.monotone_filter_right
    intro j hj
    rw [h] at hj
    obtain ⟨g, hg⟩ := Option.isSome_iff_exists.1 hj
    obtain ⟨g₀, w, -⟩ := merged_some hg
    rw [w]; rfl
  refine lt_of_le_of_ne hsub.length_le fun e => ?_
  have := hsub.eq_of_length e
  have hmem : i ∈ (List.range m.nf).filter (fun i => (faceAt m i).isSome) := by simp [hi, f1]
  rw [← this] at hmem
  simp [h, merged_gone f1 f2 f3] at hmem

theorem pass_spec (hI : Valid I) : ∀ (vs : List Nat), (∀ v ∈ vs, v < I.vertices.length) → ∀ (s : State), SInv I s → ∀ any,
    ∃ s' any', pass I vs s any = .ok (s', any') ∧ SInv I s' ∧ s'.mesh.nf = s.mesh.nf ∧ Collapses I (faceAt s.mesh) (faceAt s'.mesh) ∧
      faceCount s'.mesh ≤ faceCount s.mesh ∧ (any' = true → any = true ∨ faceCount s'.mesh < faceCount s.mesh) ∧
      (any' = false → any = false ∧ s'.mesh = s.mesh ∧ ∀ v ∈ vs, ∀ b, ¬ Safe I (faceAt s.mesh) v b) := by
  intro vs
  induction vs with
  | nil => intro _ s hs any; exact ⟨s, any, rfl, hs, rfl, .refl _, le_rfl, fun h => Or.inl h, fun h => ⟨h, rfl, by simp⟩⟩
  | cons v vs ih =>
      intro hv s hs any
      have hvn := hv v (by simp)
      have hvs : ∀ x ∈ vs, x < I.vertices.length := fun x hx => hv x (by simp [hx])
      unfold pass
      by_cases hsn : I.snapped v = true
      · rw [if_pos hsn]
        obtain ⟨s1, done, e1, i1, n1, d1, d2⟩ := tryCollapse_spec hI hs ((snapped_iff hvn).1 hsn)
        rw [e1]
        simp only [Outcome.ok_bind]
        obtain ⟨s2, any', e2, i2, n2, c2, k2, t2, f2⟩ := ih hvs s1 i1 (any || done)
        refine ⟨s2, any', e2, i2, n2.trans n1, ?_⟩
        cases hd : done with
        | false =>
            obtain ⟨q1, q2⟩ := d1 hd
            rw [hd, Bool.or_false] at t2 f2
            rw [q1] at c2 k2 t2 f2
            refine ⟨c2, k2, t2, fun h => ?_⟩
            obtain ⟨p1, p2, p3⟩ := f2 h
            refine ⟨p1, p2, ?_⟩
            intro x hx
            rcases List.mem_cons.1 hx with rfl | hx
            · exact q2
            · exact p3 x hx
        | true =>
            obtain ⟨b, q1, q2⟩ := d2 hd
            have hlt := count_lt n1 q1 q2
            refine ⟨Collapses.trans (.step (.refl _) (safe_collapse hI hs.range i1.range i1.reach.good.consistent.manifold q1 q2)) c2, k2.trans hlt.le, fun _ => Or.inr (lt_of_le_of_lt k2 hlt), ?_⟩
            intro h
            have := (f2 h).1
            rw [hd] at this
            simp at this
      · rw [if_neg hsn]
        obtain ⟨s2, any', e2, i2, n2, c2, k2, t2, f2⟩ := ih hvs s hs any
        refine ⟨s2, any', e2, i2, n2, c2, k2, t2, fun h => ?_⟩
        obtain ⟨p1, p2, p3⟩ := f2 h
        refine ⟨p1, p2, ?_⟩
        intro x hx
        rcases List.mem_cons.1 hx with rfl | hx
        · intro b hS
          exact hsn ((snapped_iff hvn).2 hS.snapped.1)
        · exact p3 x hx

theorem loop_spec (hI : Valid I) : ∀ (n : Nat) (s : State), SInv I s → faceCount s.mesh < n →
    ∃ s', loop I n s = some (.ok s') ∧ SInv I s' ∧ s'.mesh.nf = s.mesh.nf ∧ Collapses I (faceAt s.mesh) (faceAt s'.mesh) ∧
      ∀ a b, ¬ Safe I (faceAt s'.mesh) a b := by
  intro n
  induction n with
  | zero => intro s _ h; omega
  | succ n ih =>
      intro s hs hn
      unfold loop
      obtain ⟨s1, any, e1, i1, n1, c1, k1, t1, f1⟩ := pass_spec hI (List.range I.vertices.length) (by simp) s hs false
      rw [e1]
      cases ha : any with
      | true =>
          dsimp only
          have hlt : faceCount s1.mesh < faceCount s.mesh := by
            rcases t1 ha with h | h
            · cases h
            · exact h
          obtain ⟨s2, e2, i2, n2, c2, f2⟩ := ih s1 i1 (by omega)
          exact ⟨s2, e2, i2, n2.trans n1, Collapses.trans c1 c2, f2⟩
      | false =>
          dsimp only
          obtain ⟨-, q1, q2⟩ := f1 ha
          refine ⟨s1, rfl, i1, n1, c1, fun a b hS => ?_⟩
          rw [q1] at hS
          obtain ⟨i, f, p1, p2, -⟩ := hS.edge
          have hlt : a < I.vertices.length := by
            obtain ⟨-, r1, r2, r3⟩ := hs.range i f p1
            rcases p2 with e | e | e <;> omega
          exact q2 a (List.mem_range.2 hlt) b hS

/-! ### the start -/

theorem snapGrid_inv (I : Input) : GInv I.cellOf (snapGrid I) (fun i => if i < I.points.length then some (ballBox (I.aPoint i) (I.tol i)) else none) := by
  unfold snapGrid
  have key : ∀ n, GInv I.cellOf ((List.range n).foldl (fun g i => g.insert I.cellOf i (ballBox (I.aPoint i) (I.tol i))) (Grid.init I.points.length))
      (fun i => if i < n then some (ballBox (I.aPoint i) (I.tol i)) else none) := by
    intro n
    induction n with
    | zero => refine ⟨?_, ?_, ?_, ?_⟩ <;> simp [Grid.init, Grid.at]
    | succ n ih =>
        rw [List.range_succ, List.foldl_append]
        have := insert_inv I.cellOf ih n (ballBox (I.aPoint n) (I.tol n)) (by simp)
        refine Eq.mp ?_ this
        simp only [List.foldl_cons, List.foldl_nil]
        congr 1
        funext i
        by_cases h : i = n
        · subst h; simp
        · have : i < n + 1 ↔ i < n := by omega
          simp [h, this]
  exact key _

theorem start_spec (hI : Valid I) : ∃ s, start I = .ok s ∧ SInv I s ∧ s.mesh.nf = I.faces.length ∧ ∀ i, faceAt s.mesh i = I.faces[i]? := by
  obtain ⟨m, h1, h2, h3⟩ := (C35_construct I.faces (fun f hf => (hI.corners f hf).1)).1 hI.manifold
  have hnf : m.nf = I.faces.length := by
    unfold Mesh.ofFaces at h1
    have key : ∀ (l : List Nat) (m0 m1 : AbstractMesh.Mesh), Mesh.registerAll l m0 = (m1, .ok ()) → m1.nf = m0.nf := by
      intro l
      induction l with
      | nil => intro m0 m1 h; unfold Mesh.registerAll at h; cases h; rfl
      | cons x l ih =>
          intro m0 m1 h
          unfold Mesh.registerAll at h
          have hsame := registerFace_same m0 x
          rcases e : m0.registerFace x with ⟨m2, _ | _ | _⟩ <;> rw [e] at h hsame <;> dsimp only at h hsame
          · exact (ih m2 m1 h).trans hsame.nf
          · cases h
          · cases h
    rcases e : Mesh.registerAll (List.range I.faces.length)
      ⟨I.faces.length, fun i => I.faces.getD i (0, 0, 0), I.faces.length, fun _ => false, fun _ => none, fun _ => []⟩ with ⟨m1, _ | _ | _⟩ <;>
      rw [e] at h1 <;> dsimp only at h1
    · cases h1
      exact key _ _ _ e
    · cases h1
    · cases h1
  unfold start
  rw [h1]
  simp only [Outcome.ok_bind, Outcome.pure_eq]
  obtain ⟨ops, v1, v2, v3, v4⟩ := indexAll_spec (I := I) (List.range m.nf) ⟨m, snapGrid I, FaceGrid.init ⟨0, 0⟩ I.faces.length⟩ []
    (finv_init I.cellOf ⟨0, 0⟩ I.faces.length) List.nodup_range (fun _ _ => rfl)
  generalize List.foldl (indexFace I) _ (List.range m.nf) = s at *
  dsimp only at v2 v3 v4
  refine ⟨s, rfl, ⟨by rw [v2]; exact h2, ?_, ⟨ops, v1, ?_⟩, by rw [v3]; exact snapGrid_inv I⟩, by rw [v2]; exact hnf, by rw [v2]; exact h3⟩
  · intro i f hf
    rw [v2, h3] at hf
    exact hI.corners f (List.mem_of_getElem? hf)
  · intro i
    rw [v4, v2]
    by_cases hi : i < m.nf
    · rw [if_pos (List.mem_range.2 hi)]
      have hi' : i < I.faces.length := hnf ▸ hi
      have := h3 i
      rw [List.getElem?_eq_getElem hi'] at this
      rw [this, ← live_face this]
      rfl
    · rw [if_neg (by simpa using hi), h3, List.getElem?_eq_none (by omega)]
      rfl

/-! ### emit -/

/-- The numbers given so far. -/
structure Numbered (p : Nat → P3) (r : List P3 × (Nat → Option Nat)) : Prop where
  pos : ∀ v k, r.2 v = some k → r.1[k]? = some (p v)
  inj : ∀ v w k, r.2 v = some k → r.2 w = some k → v = w
  surj : ∀ k, k < r.1.length → ∃ v, r.2 v = some k

theorem emitCorner_spec {p : Nat → P3} {r : List P3 × (Nat → Option Nat)} (h : Numbered p r) (v : Nat) :
    ∃ r', emitCorner p r v = (r', (r'.2 v).getD 0) ∧ Numbered p r' ∧ (∃ k, r'.2 v = some k) ∧ (∀ u k, r.2 u = some k → r'.2 u = some k) ∧
      ∀ u k, r'.2 u = some k → r.2 u = some k ∨ u = v := by
  unfold emitCorner
  cases hv : r.2 v with
  | some k => exact ⟨r, by rw [hv]; rfl, h, ⟨k, hv⟩, fun _ _ hu => hu, fun _ _ hu => Or.inl hu⟩
  | none =>
      refine ⟨(r.1 ++ [p v], fun u => if u = v then some r.1.length else r.2 u), by simp, ⟨?_, ?_, ?_⟩, ⟨r.1.length, by simp⟩, ?_, ?_⟩
      · intro u k hu
        dsimp only at hu ⊢
        split at hu
        · rename_i e; cases hu; subst e; simp
        · have := h.pos u k hu
          rw [List.getElem?_append_left (List.getElem?_eq_some_iff.1 this).1]
          exact this
      · intro u w k hu hw
        dsimp only at hu hw
        split at hu <;> split at hw
        · rename_i e1 e2; rw [e1, e2]
        · cases hu
          have := (List.getElem?_eq_some_iff.1 (h.pos w _ hw)).1
          omega
        · cases hw
          have := (List.getElem?_eq_some_iff.1 (h.pos u _ hu)).1
          omega
        · exact h.inj u w k hu hw
      · intro k hk
        simp only [List.length_append, List.length_cons, List.length_nil] at hk
        by_cases hk' : k < r.1.length
        · obtain ⟨u, hu⟩ := h.surj k hk'
          refine ⟨u, ?_⟩
          dsimp only
          rw [if_neg (fun e => by rw [e, hv] at hu; cases hu)]
          exact hu
        · exact ⟨v, by dsimp only; rw [if_pos rfl]; congr 1; omega⟩
      · intro u k hu
        dsimp only
        rw [if_neg (fun e => by rw [e, hv] at hu; cases hu)]
        exact hu
      · intro u k hu
        dsimp only at hu
        split at hu
        · rename_i e; exact Or.inr e
        · exact Or.inl hu

theorem emit_spec (p : Nat → P3) : ∀ (fs : List AbstractMesh.Face) (r : List P3 × (Nat → Option Nat)), Numbered p r →
    ∃ r', emit p fs r = (r'.1, fs.map fun f => ((r'.2 f.1).getD 0, (r'.2 f.2.1).getD 0, (r'.2 f.2.2).getD 0)) ∧ Numbered p r' ∧
      (∀ u k, r.2 u = some k → r'.2 u = some k) ∧ (∀ f ∈ fs, ∀ v, Corner f v → ∃ k, r'.2 v = some k) ∧
      ∀ u k, r'.2 u = some k → r.2 u = some k ∨ ∃ f ∈ fs, Corner f u := by
  intro fs
  induction fs with
  | nil => intro r h; exact ⟨r, rfl, h, fun _ _ hu => hu, by simp, fun _ _ hu => Or.inl hu⟩
  | cons f fs ih =>
      intro r h
      obtain ⟨r1, e1, h1, ⟨k1, g1⟩, m1, b1⟩ := emitCorner_spec h f.1
      obtain ⟨r2, e2, h2, ⟨k2, g2⟩, m2, b2⟩ := emitCorner_spec h1 f.2.1
      obtain ⟨r3, e3, h3, ⟨k3, g3⟩, m3, b3⟩ := emitCorner_spec h2 f.2.2
      obtain ⟨r4, e4, h4, m4, c4, b4⟩ := ih r3 h3
      have q1 : r4.2 f.1 = some k1 := m4 _ _ (m3 _ _ (m2 _ _ g1))
      have q2 : r4.2 f.2.1 = some k2 := m4 _ _ (m3 _ _ g2)
      have q3 : r4.2 f.2.2 = some k3 := m4 _ _ g3
      refine ⟨r4, ?_, h4, fun u k hu => m4 _ _ (m3 _ _ (m2 _ _ (m1 _ _ hu))), ?_, ?_⟩
      · unfold emit
        rw [e1]
        dsimp only
        rw [e2]
        dsimp only
        rw [e3]
        dsimp only
        rw [e4]
        dsimp only
        rw [List.map_cons, q1, q2, q3, g1, g2, g3]
      · intro f' hf' v hv
        rcases List.mem_cons.1 hf' with rfl | hf'
        · rcases hv with rfl | rfl | rfl
          · exact ⟨_, q1⟩
          · exact ⟨_, q2⟩
          · exact ⟨_, q3⟩
        · exact c4 f' hf' v hv
      · intro u k hu
        rcases b4 u k hu with hu | ⟨f', hf', hu⟩
        · rcases b3 u k hu with hu | rfl
          · rcases b2 u k hu with hu | rfl
            · rcases b1 u k hu with hu | rfl
              · exact Or.inl hu
              · exact Or.inr ⟨f, by simp, Or.inl rfl⟩
            · exact Or.inr ⟨f, by simp, Or.inr (Or.inl rfl)⟩
          · exact Or.inr ⟨f, by simp, Or.inr (Or.inr rfl)⟩
        · exact Or.inr ⟨f', by simp [hf'], hu⟩

end Verif.Thinner
