import Verif.Model.Snapper
import Verif.Lemmas.ThinnerLoop
import Verif.Props.Triangulation

/-! # Lemmas: the grids of the snapper -/

namespace Verif.Snapper

open Verif Verif.AbstractMesh Verif.SpatialGrid Verif.SpatialGrid.Spec Verif.ClosestPoint Verif.Predicates
open Verif.MeshDefects hiding Face corner
open Verif.MeshDefects.Spec
open Verif.Thinner (Input toE E3 dotP crossP stopAtHit ballBox snapGrid)
open Verif.Geometry (Cross)

variable {I : Input} {m : Mesh} {s s' : State}

/-- The faces of a patch. -/
def cur (m : Mesh) (s : State) (fi : Nat) : List Face := if s.cached fi = [] then [m.face fi] else s.cached fi

theorem cur_ne (m : Mesh) (s : State) (fi : Nat) : cur m s fi ≠ [] := by
  unfold cur; split
  · simp
  · assumption

theorem cur_congr {m : Mesh} {s s' : State} {fi : Nat} (h : s'.cached fi = s.cached fi) : cur m s' fi = cur m s fi := by
  unfold cur; simp only [h]

/-- Only grids and `honored` differ. -/
structure Same (s s' : State) : Prop where
  p : s'.p = s.p
  ap : s'.ap = s.ap
  aq : s'.aq = s.aq
  interior : s'.interior = s.interior
  cached : s'.cached = s.cached
  chains : s'.chains = s.chains

theorem Same.refl (s : State) : Same s s := ⟨rfl, rfl, rfl, rfl, rfl, rfl⟩

theorem Same.trans {s s' s'' : State} (h : Same s s') (h' : Same s' s'') : Same s s'' :=
  ⟨h'.p.trans h.p, h'.ap.trans h.ap, h'.aq.trans h.aq, h'.interior.trans h.interior, h'.cached.trans h.cached, h'.chains.trans h.chains⟩

theorem Same.symm {s s' : State} (h : Same s s') : Same s' s := ⟨h.p.symm, h.ap.symm, h.aq.symm, h.interior.symm, h.cached.symm, h.chains.symm⟩

theorem Same.cur (h : Same s s') (m : Mesh) (fi : Nat) : cur m s' fi = cur m s fi := by unfold Snapper.cur; rw [h.cached]

theorem honoredBy_congr (I : Input) {s s' : State} (i : Nat) (f : Face) (hi : s'.ap i = s.ap i) (hf : ∀ r, Corner f r → s'.ap r = s.ap r) :
    honoredBy I s' i f = honoredBy I s i f := by
  have h1 := hf f.1 (Or.inl rfl)
  have h2 := hf f.2.1 (Or.inr (Or.inl rfl))
  have h3 := hf f.2.2 (Or.inr (Or.inr rfl))
  unfold honoredBy State.atri
  rw [hi, h1, h2, h3]

theorem Same.honoredBy (h : Same s s') (I : Input) (i : Nat) (f : Face) : honoredBy I s' i f = honoredBy I s i f :=
  honoredBy_congr I i f (by rw [h.ap]) (fun _ _ => by rw [h.ap])

theorem Same.tri (h : Same s s') (f : Face) : s'.tri f = s.tri f := by unfold State.tri; rw [h.p]

theorem Same.intersect (h : Same s s') (f g : Face) : s'.intersect f g = s.intersect f g := by
  unfold State.intersect; rw [h.tri, h.tri]

/-- The edges of a face have no chains. -/
def Plain (m : Mesh) (s : State) (fi : Nat) : Prop :=
  s.interior fi = [] ∧ s.chains (edgeOf (m.face fi).1 (m.face fi).2.1) = [] ∧ s.chains (edgeOf (m.face fi).2.1 (m.face fi).2.2) = [] ∧
    s.chains (edgeOf (m.face fi).2.2 (m.face fi).1) = []

/-- What is true all the time, except for the patches `ids` which are being changed. -/
structure InvE (I : Input) (m : Mesh) (ids : Nat → Prop) (s : State) : Prop where
  ap : ∀ r, s.ap r = I.T (s.p r)
  snap : ∀ r, r < np I → s.p r = p0 I r
  orig : ∀ r, np I ≤ r → s.p r = p0 I r ∨ ∃ i, i < np I ∧ s.p r = p0 I i
  anchor : ∀ r, np I ≤ r → s.aq r = I.T (p0 I r)
  chain : ∀ e, ∀ x ∈ s.chains e, x.2 < np I
  inner : ∀ fi, ∀ r ∈ s.interior fi, r < np I
  plain : ∀ fi, fi < m.nf → ¬ ids fi → s.cached fi = [] → Plain m s fi
  rows : ∀ fi, fi < m.nf → ∀ g ∈ s.cached fi, ∀ r, Corner g r → r < np I ∨ Corner (m.face fi) r
  fgrid : ∃ ops, FInv I.cellOf s.fgrid ops ∧ ∀ fi, (fi < m.nf → (live ops fi).isSome ∧ (¬ ids fi → live ops fi = boxOf s.ap (cur m s fi))) ∧
    (m.nf ≤ fi → live ops fi = none)
  sgrid : GInv I.cellOf s.sgrid (fun i => if i < I.points.length then some (ballBox (I.aPoint i) (I.tol i)) else none)
  honored : ∀ fi l, fi < m.nf → ¬ ids fi → s.honored fi = some l → ∀ i, i ∈ l ↔ i < np I ∧ ∃ f ∈ cur m s fi, honoredBy I s i f = true

/-- No patch is being changed. -/
abbrev Inv (I : Input) (m : Mesh) (s : State) : Prop := InvE I m (fun _ => False) s

theorem InvE.weaken {ids ids' : Nat → Prop} (h : InvE I m ids s) (hi : ∀ fi, ids fi → ids' fi) : InvE I m ids' s := by
  refine ⟨h.ap, h.snap, h.orig, h.anchor, h.chain, h.inner, fun fi h1 h2 => h.plain fi h1 fun h3 => h2 (hi fi h3), h.rows, ?_, h.sgrid,
    fun fi l h1 h2 => h.honored fi l h1 fun h3 => h2 (hi fi h3)⟩
  obtain ⟨ops, h1, h2⟩ := h.fgrid
  exact ⟨ops, h1, fun fi => ⟨fun h3 => ⟨((h2 fi).1 h3).1, fun h4 => ((h2 fi).1 h3).2 fun h5 => h4 (hi fi h5)⟩, (h2 fi).2⟩⟩

theorem triangulatePatch_plain (h : Plain m s fi) : triangulatePatch m s fi = .ok ([m.face fi], true) := by
  unfold triangulatePatch
  exact if_pos h

theorem patchFaces_of (h : s.cached fi = [] → Plain m s fi) : patchFaces m s fi = .ok (cur m s fi) := by
  unfold patchFaces cur
  by_cases hc : s.cached fi = []
  · rw [if_pos hc, if_pos hc, triangulatePatch_plain (h hc)]; rfl
  · rw [if_neg hc, if_neg hc]

theorem InvE.patchFaces {ids : Nat → Prop} (h : InvE I m ids s) (hfi : fi < m.nf) (hi : ¬ ids fi) : patchFaces m s fi = .ok (cur m s fi) :=
  patchFaces_of (h.plain fi hfi hi)

theorem InvE.curRows {ids : Nat → Prop} (h : InvE I m ids s) (hfi : fi < m.nf) {g : Face} (hg : g ∈ cur m s fi) {r : Nat} (hr : Corner g r) :
    r < np I ∨ Corner (m.face fi) r := by
  unfold cur at hg
  split at hg
  · rw [List.mem_singleton] at hg; subst hg; exact Or.inr hr
  · exact h.rows fi hfi g hg r hr

/-! ### boxes -/

/-- One box in another. -/
def BoxLe (a b : Box ℝ) : Prop := (b.lo.1 ≤ a.lo.1 ∧ b.lo.2.1 ≤ a.lo.2.1 ∧ b.lo.2.2 ≤ a.lo.2.2) ∧ (a.hi.1 ≤ b.hi.1 ∧ a.hi.2.1 ≤ b.hi.2.1 ∧ a.hi.2.2 ≤ b.hi.2.2)

theorem BoxLe.refl (a : Box ℝ) : BoxLe a a := ⟨⟨le_rfl, le_rfl, le_rfl⟩, ⟨le_rfl, le_rfl, le_rfl⟩⟩

theorem BoxLe.trans {a b c : Box ℝ} (h : BoxLe a b) (h' : BoxLe b c) : BoxLe a c := by
  obtain ⟨⟨a1, a2, a3⟩, a4, a5, a6⟩ := h
  obtain ⟨⟨b1, b2, b3⟩, b4, b5, b6⟩ := h'
  exact ⟨⟨b1.trans a1, b2.trans a2, b3.trans a3⟩, a4.trans b4, a5.trans b5, a6.trans b6⟩

theorem boxLe_join (a b : Box ℝ) : BoxLe a ⟨cmin a.lo b.lo, cmax a.hi b.hi⟩ ∧ BoxLe b ⟨cmin a.lo b.lo, cmax a.hi b.hi⟩ := by
  unfold BoxLe cmin cmax
  exact ⟨⟨⟨min_le_left _ _, min_le_left _ _, min_le_left _ _⟩, le_max_left _ _, le_max_left _ _, le_max_left _ _⟩,
    ⟨min_le_right _ _, min_le_right _ _, min_le_right _ _⟩, le_max_right _ _, le_max_right _ _, le_max_right _ _⟩

/-- The box of a face. -/
noncomputable abbrev fbox (ap : Nat → P3) (g : Face) : Box ℝ := bboxOf (ap g.1, ap g.2.1, ap g.2.2)

theorem boxOf_fold (ap : Nat → P3) (fs : List Face) : ∀ b : Box ℝ,
    BoxLe b (fs.foldl (fun b g => ⟨cmin b.lo (fbox ap g).lo, cmax b.hi (fbox ap g).hi⟩) b) ∧
    ∀ g ∈ fs, BoxLe (fbox ap g) (fs.foldl (fun b g => ⟨cmin b.lo (fbox ap g).lo, cmax b.hi (fbox ap g).hi⟩) b) := by
  induction fs with
  | nil => intro b; exact ⟨BoxLe.refl _, by simp⟩
  | cons f fs ih =>
      intro b
      rw [List.foldl_cons]
      obtain ⟨h1, h2⟩ := ih ⟨cmin b.lo (fbox ap f).lo, cmax b.hi (fbox ap f).hi⟩
      obtain ⟨j1, j2⟩ := boxLe_join b (fbox ap f)
      refine ⟨j1.trans h1, fun g hg => ?_⟩
      rcases List.mem_cons.1 hg with rfl | hg
      · exact j2.trans h1
      · exact h2 g hg

theorem boxOf_some (ap : Nat → P3) {fs : List Face} (h : fs ≠ []) : ∃ b, boxOf ap fs = some b ∧ Proper b ∧ ∀ g ∈ fs, BoxLe (fbox ap g) b := by
  cases fs with
  | nil => exact absurd rfl h
  | cons f fs =>
      obtain ⟨h1, h2⟩ := boxOf_fold ap fs (fbox ap f)
      refine ⟨_, rfl, ?_, ?_⟩
      · obtain ⟨⟨a1, a2, a3⟩, b1, b2, b3⟩ := h1
        obtain ⟨p1, p2, p3⟩ := bboxOf_proper (ap f.1, ap f.2.1, ap f.2.2)
        exact ⟨a1.trans (p1.trans b1), a2.trans (p2.trans b2), a3.trans (p3.trans b3)⟩
      · intro g hg
        rcases List.mem_cons.1 hg with rfl | hg
        · exact h1
        · exact h2 g hg

theorem boxOf_congr {ap ap' : Nat → P3} {fs : List Face} (h : ∀ g ∈ fs, ∀ r, Corner g r → ap' r = ap r) : boxOf ap' fs = boxOf ap fs := by
  have hb : ∀ g ∈ fs, fbox ap' g = fbox ap g := by
    intro g hg
    unfold fbox
    rw [h g hg g.1 (Or.inl rfl), h g hg g.2.1 (Or.inr (Or.inl rfl)), h g hg g.2.2 (Or.inr (Or.inr rfl))]
  cases fs with
  | nil => rfl
  | cons f fs =>
      have hfold : ∀ (l : List Face) (b : Box ℝ), (∀ g ∈ l, fbox ap' g = fbox ap g) →
          l.foldl (fun b g => (⟨cmin b.lo (fbox ap' g).lo, cmax b.hi (fbox ap' g).hi⟩ : Box ℝ)) b =
          l.foldl (fun b g => ⟨cmin b.lo (fbox ap g).lo, cmax b.hi (fbox ap g).hi⟩) b := by
        intro l
        induction l with
        | nil => intro b _; rfl
        | cons x l ih =>
            intro b hl
            rw [List.foldl_cons, List.foldl_cons, hl x (by simp), ih _ (fun g hg => hl g (by simp [hg]))]
      have h0 := hb f (by simp)
      exact congrArg some ((hfold fs (fbox ap' f) (fun g hg => hb g (by simp [hg]))).trans (by rw [h0]))

theorem Overlap.mono {a b c : Box ℝ} (h : Overlap a b) (hbc : BoxLe b c) : Overlap a c := by
  obtain ⟨⟨h1, h1'⟩, ⟨h2, h2'⟩, h3, h3'⟩ := h
  obtain ⟨⟨b1, b2, b3⟩, b4, b5, b6⟩ := hbc
  exact ⟨⟨h1.trans b4, b1.trans h1'⟩, ⟨h2.trans b5, b2.trans h2'⟩, h3.trans b6, b3.trans h3'⟩

theorem Overlap.symm {a b : Box ℝ} (h : Overlap a b) : Overlap b a := by
  obtain ⟨⟨h1, h1'⟩, ⟨h2, h2'⟩, h3, h3'⟩ := h
  exact ⟨⟨h1', h1⟩, ⟨h2', h2⟩, h3', h3⟩

theorem cellOf_mono (hr : 0 < I.resolution) : Monotone I.cellOf := by
  intro x y h
  unfold Input.cellOf
  exact Int.floor_le_floor (div_le_div_of_nonneg_right h hr.le)

theorem ballBox_proper (c : P3) {r : ℝ} (hr : 0 ≤ r) : Proper (ballBox c r) := by
  unfold Proper ballBox
  simp only [Prod.fst_sub, Prod.snd_sub, Prod.fst_add, Prod.snd_add]
  refine ⟨?_, ?_, ?_⟩ <;> linarith

theorem clamp_near {lo hi x : ℝ} (h : lo ≤ hi) : lo ≤ min (max x lo) hi ∧ min (max x lo) hi ≤ hi :=
  ⟨le_min (le_max_right _ _) h, min_le_right _ _⟩

theorem abs_le_of_dot {u : P3} {t : ℝ} (h : dotP u u ≤ t ^ 2) : |u.1| ≤ |t| ∧ |u.2.1| ≤ |t| ∧ |u.2.2| ≤ |t| := by
  unfold dotP at h
  refine ⟨?_, ?_, ?_⟩ <;> rw [← sq_le_sq] <;> nlinarith [sq_nonneg u.1, sq_nonneg u.2.1, sq_nonneg u.2.2]

/-- A point near a box. -/
theorem near_box {b : Box ℝ} (hb : Proper b) {x : P3} {t : ℝ} (h : dotP (x - clampTo b x) (x - clampTo b x) ≤ t ^ 2) : Overlap (ballBox x |t|) b := by
  obtain ⟨h1, h2, h3⟩ := abs_le_of_dot h
  obtain ⟨p1, p2, p3⟩ := hb
  unfold clampTo cmin cmax at h1 h2 h3
  simp only [Prod.fst_sub, Prod.snd_sub] at h1 h2 h3
  obtain ⟨c1, c1'⟩ := clamp_near (x := x.1) p1
  obtain ⟨c2, c2'⟩ := clamp_near (x := x.2.1) p2
  obtain ⟨c3, c3'⟩ := clamp_near (x := x.2.2) p3
  rw [abs_le] at h1 h2 h3
  unfold Spec.Overlap ballBox
  simp only [Prod.fst_sub, Prod.snd_sub, Prod.fst_add, Prod.snd_add]
  refine ⟨⟨?_, ?_⟩, ⟨?_, ?_⟩, ⟨?_, ?_⟩⟩ <;> linarith [h1.1, h1.2, h2.1, h2.2, h3.1, h3.2]

theorem honoredBy_near {i : Nat} {f : Face} (h : honoredBy I s i f = true) : Overlap (ballBox (s.ap i) |I.tol i|) (fbox s.ap f) := by
  unfold honoredBy at h
  dsimp only at h
  split at h
  · cases h
  · rename_i hn
    exact near_box (bboxOf_proper _) (not_lt.1 hn)

/-! ### searching -/

/-- The items a search visits. -/
abbrev visits (cellOf : ℝ → Int) (g : Grid) (q : Box ℝ) : List Nat := keepFirst (fun _ => false) ((cellsOf cellOf q).flatMap (fun c => g.at c))

theorem mem_visits {cellOf : ℝ → Int} {g : Grid} {l : Nat → Option (Box ℝ)} (h : GInv cellOf g l) (q : Box ℝ) (i : Nat) :
    i ∈ visits cellOf g q ↔ ∃ b, l i = some b ∧ ∃ c, c ∈ cellsOf cellOf b ∧ c ∈ cellsOf cellOf q := by
  rw [mem_keepFirst, List.mem_flatMap]
  constructor
  · rintro ⟨⟨c, c1, c2⟩, -⟩
    obtain ⟨b, b1, b2⟩ := (h.cells c i).1 c2
    exact ⟨b, b1, c, b2, c1⟩
  · rintro ⟨b, b1, c, c1, c2⟩
    exact ⟨⟨c, c2, (h.cells c i).2 ⟨b, b1, c1⟩⟩, rfl⟩

theorem callUntil_false (Q : Nat → Outcome Bool) (l : List Nat) {r : Outcome Bool} (h : (callUntil (stopAtHit Q) l r).1 = .ok false) :
    ∀ i ∈ l, Q i = .ok false := by
  induction l with
  | nil => simp
  | cons x l ih =>
      unfold callUntil at h
      simp only [stopAtHit] at h
      cases hx : Q x with
      | ok b =>
          rw [hx] at h
          cases b with
          | false =>
              intro i hi
              rcases List.mem_cons.1 hi with rfl | hi
              · exact hx
              · exact ih h i hi
          | true => simp at h
      | throws e => rw [hx] at h; simp at h
      | ub => rw [hx] at h; simp at h

/-- `for_each` of the face grid. -/
theorem InvE.forEachF {ids : Nat → Prop} (h : InvE I m ids s) {σ : Type} (q : Box ℝ) (fn : σ → Nat → σ × Bool) (x : σ) :
    ∃ g, s.fgrid.forEach I.cellOf q fn x = .ok (g, (callUntil fn (visits I.cellOf s.fgrid.g q) x).1) ∧ InvE I m ids { s with fgrid := g } ∧
      ∀ ops, FInv I.cellOf s.fgrid ops → FInv I.cellOf g ops := by
  obtain ⟨ops, hF, hL⟩ := h.fgrid
  obtain ⟨g', hg, e⟩ := forEach_spec I.cellOf hF.g q fn x
  refine ⟨{ s.fgrid with g := g' }, ?_, ?_, ?_⟩
  · unfold FaceGrid.forEach
    rw [e]; rfl
  rotate_left
  · intro ops' hF'
    obtain ⟨g2, hg2, e2⟩ := forEach_spec I.cellOf hF'.g q fn x
    rw [e] at e2
    simp only [Outcome.ok.injEq, Prod.mk.injEq] at e2
    obtain ⟨rfl, -⟩ := e2
    exact ⟨hg2, hF'.box, hF'.size⟩
  · exact ⟨h.ap, h.snap, h.orig, h.anchor, h.chain, h.inner, h.plain, h.rows, ⟨ops, ⟨hg, hF.box, hF.size⟩, hL⟩, h.sgrid, h.honored⟩

/-- `for_each` of the grid of snap points. -/
theorem InvE.forEachS {ids : Nat → Prop} (h : InvE I m ids s) {σ : Type} (q : Box ℝ) (fn : σ → Nat → σ × Bool) (x : σ) :
    ∃ g, s.sgrid.forEach I.cellOf q fn x = .ok (g, (callUntil fn (visits I.cellOf s.sgrid q) x).1) ∧ InvE I m ids { s with sgrid := g } := by
  obtain ⟨g', hg, e⟩ := forEach_spec I.cellOf h.sgrid q fn x
  exact ⟨g', e, ⟨h.ap, h.snap, h.orig, h.anchor, h.chain, h.inner, h.plain, h.rows, h.fgrid, hg, h.honored⟩⟩

/-- The patches a search visits. -/
theorem InvE.visitsF {ids : Nat → Prop} (h : InvE I m ids s) (q : Box ℝ) {fi : Nat} (hfi : fi ∈ visits I.cellOf s.fgrid.g q) : fi < m.nf := by
  obtain ⟨ops, hF, hL⟩ := h.fgrid
  obtain ⟨b, b1, -⟩ := (mem_visits hF.g q fi).1 hfi
  by_contra hc
  rw [(hL fi).2 (not_lt.1 hc)] at b1
  cases b1

theorem InvE.visited {ids : Nat → Prop} (hr : 0 < I.resolution) (h : InvE I m ids s) {q : Box ℝ} (hq : Proper q) {fi : Nat} (hfi : fi < m.nf) (hi : ¬ ids fi)
    {g : Face} (hg : g ∈ cur m s fi) (ho : Overlap q (fbox s.ap g)) : fi ∈ visits I.cellOf s.fgrid.g q := by
  obtain ⟨ops, hF, hL⟩ := h.fgrid
  obtain ⟨b, b1, b2, b3⟩ := boxOf_some s.ap (cur_ne m s fi)
  rw [mem_visits hF.g]
  refine ⟨b, ?_, ?_⟩
  · rw [((hL fi).1 hfi).2 hi, b1]
  · obtain ⟨c, c1, c2⟩ := shares_cell I.cellOf (cellOf_mono hr) hq b2 (Overlap.mono ho (b3 g hg))
    exact ⟨c, c2, c1⟩

theorem InvE.visitsS {ids : Nat → Prop} (h : InvE I m ids s) (q : Box ℝ) {i : Nat} (hi : i ∈ visits I.cellOf s.sgrid q) : i < np I := by
  obtain ⟨b, b1, -⟩ := (mem_visits h.sgrid q i).1 hi
  by_contra hc
  rw [if_neg (show ¬ i < I.points.length from hc)] at b1
  cases b1

theorem InvE.ap_snap {ids : Nat → Prop} (h : InvE I m ids s) {i : Nat} (hi : i < np I) : s.ap i = I.aPoint i := by
  rw [h.ap, h.snap i hi]
  unfold p0 Input.aPoint
  rw [if_pos hi]

theorem InvE.visitedS {ids : Nat → Prop} (hr : 0 < I.resolution) (ht : ∀ i, 0 ≤ I.tol i) (h : InvE I m ids s) {q : Box ℝ} (hq : Proper q) {i : Nat} (hi : i < np I)
    {g : Face} (hle : BoxLe (fbox s.ap g) q) (hh : honoredBy I s i g = true) : i ∈ visits I.cellOf s.sgrid q := by
  rw [mem_visits h.sgrid]
  refine ⟨_, if_pos hi, ?_⟩
  have := honoredBy_near hh
  rw [abs_of_nonneg (ht i), h.ap_snap hi] at this
  exact shares_cell I.cellOf (cellOf_mono hr) (ballBox_proper _ (ht i)) hq (Overlap.mono this hle)

/-! ### the points a patch honors -/

theorem InvE.honoredByPatch {ids : Nat → Prop} (h : InvE I m ids s) (hfi : fi < m.nf) (hid : ¬ ids fi) (i : Nat) :
    honoredByPatch I m s i fi = .ok ((cur m s fi).any fun f => honoredBy I s i f) := by
  unfold Snapper.honoredByPatch
  rw [h.patchFaces hfi hid]; rfl

/-- Some face of the mesh honors the point. -/
def MeshHonors (I : Input) (m : Mesh) (s : State) (i : Nat) : Prop := ∃ fi f, fi < m.nf ∧ f ∈ cur m s fi ∧ honoredBy I s i f = true

theorem Same.meshHonors (h : Same s s') (i : Nat) : MeshHonors I m s' i ↔ MeshHonors I m s i := by
  unfold MeshHonors
  simp only [h.cur, h.honoredBy]

theorem honoredByMesh_spec (hr : 0 < I.resolution) (h : Inv I m s) (i : Nat) :
    ∃ s' b, honoredByMesh I m s i = .ok (s', b) ∧ Inv I m s' ∧ Same s s' ∧ (b = true ↔ MeshHonors I m s i) := by
  unfold honoredByMesh
  dsimp only
  rw [Real.sqrt_sq_eq_abs]
  obtain ⟨g, e, hI, -⟩ := h.forEachF (ballBox (s.ap i) |I.tol i|) (stopAtHit (Snapper.honoredByPatch I m s i)) (.ok false)
  rw [e]
  rw [Thinner.callUntil_hit (fun fi => (cur m s fi).any fun f => honoredBy I s i f) _ _ (fun fi hfi => h.honoredByPatch (h.visitsF _ hfi) not_false i)]
  refine ⟨{ s with fgrid := g }, _, rfl, hI, ⟨rfl, rfl, rfl, rfl, rfl, rfl⟩, ?_⟩
  rw [List.any_eq_true]
  constructor
  · rintro ⟨fi, h1, h2⟩
    obtain ⟨f, f1, f2⟩ := List.any_eq_true.1 h2
    exact ⟨fi, f, h.visitsF _ h1, f1, f2⟩
  · rintro ⟨fi, f, h1, h2, h3⟩
    exact ⟨fi, h.visited hr (ballBox_proper _ (abs_nonneg _)) h1 not_false h2 (honoredBy_near h3), List.any_eq_true.2 ⟨f, h2, h3⟩⟩

theorem collectDishonored_spec (hr : 0 < I.resolution) (is : List Nat) : ∀ {s : State}, Inv I m s →
    ∃ s' l, collectDishonored I m is s = .ok (s', l) ∧ Inv I m s' ∧ Same s s' ∧ ∀ i, i ∈ l ↔ i ∈ is ∧ ¬ MeshHonors I m s i := by
  induction is with
  | nil => intro s h; exact ⟨s, [], rfl, h, Same.refl s, by simp⟩
  | cons i is ih =>
      intro s h
      obtain ⟨s1, b, e1, h1, q1, hb⟩ := honoredByMesh_spec hr h i
      obtain ⟨s2, l, e2, h2, q2, hl⟩ := ih h1
      unfold collectDishonored
      rw [e1]
      simp only [Outcome.ok_bind]
      rw [e2]
      simp only [Outcome.ok_bind]
      refine ⟨s2, _, rfl, h2, q1.trans q2, fun j => ?_⟩
      have hl' : ∀ j, j ∈ l ↔ j ∈ is ∧ ¬ MeshHonors I m s j := fun j => by rw [hl, q1.meshHonors]
      cases b with
      | true =>
          rw [if_pos rfl, hl', List.mem_cons]
          constructor
          · rintro ⟨a, b⟩; exact ⟨Or.inr a, b⟩
          · rintro ⟨rfl | a, b⟩
            · exact absurd (hb.1 rfl) b
            · exact ⟨a, b⟩
      | false =>
          have hn : ¬ MeshHonors I m s i := fun hc => by have := hb.2 hc; cases this
          rw [if_neg (by simp), List.mem_cons, hl', List.mem_cons]
          constructor
          · rintro (rfl | ⟨a, b⟩)
            · exact ⟨Or.inl rfl, hn⟩
            · exact ⟨Or.inr a, b⟩
          · rintro ⟨rfl | a, b⟩
            · exact Or.inl rfl
            · exact Or.inr ⟨a, b⟩

theorem callUntil_collect (P : Nat → Bool) (Q : Nat → Outcome Bool) (l : List Nat) (h : ∀ i ∈ l, Q i = .ok (P i)) : ∀ acc,
    (callUntil (collectHits Q) l (.ok acc)).1 = .ok (acc ++ l.filter P) := by
  induction l with
  | nil => simp [callUntil]
  | cons x l ih =>
      intro acc
      unfold callUntil
      simp only [collectHits]
      rw [h x (by simp)]
      dsimp only
      rw [ih (fun i hi => h i (by simp [hi]))]
      cases hx : P x <;> simp [hx]

theorem patchHonored_spec (hr : 0 < I.resolution) (ht : ∀ i, 0 ≤ I.tol i) (h : Inv I m s) (hfi : fi < m.nf) :
    ∃ s' l, patchHonored I m s fi = .ok (s', l) ∧ Inv I m s' ∧ Same s s' ∧ ∀ i, i ∈ l ↔ i < np I ∧ ∃ f ∈ cur m s fi, honoredBy I s i f = true := by
  unfold patchHonored
  cases hh : s.honored fi with
  | some l => exact ⟨s, l, rfl, h, Same.refl s, h.honored fi l hfi not_false hh⟩
  | none =>
      dsimp only
      have hset : ∀ {s1 : State} (l : List Nat), Inv I m s1 → Same s s1 → s1.honored = s.honored →
          (∀ i, i ∈ l ↔ i < np I ∧ ∃ f ∈ cur m s fi, honoredBy I s i f = true) → Inv I m { s1 with honored := upd s.honored fi (some l) } := by
        intro s1 l h1 q1 q2 hl
        refine ⟨h1.ap, h1.snap, h1.orig, h1.anchor, h1.chain, h1.inner, h1.plain, h1.rows, h1.fgrid, h1.sgrid, ?_⟩
        intro fj l' hfj hnj e i
        by_cases hj : fj = fi
        · subst hj
          have e' : some l = some l' := by simpa [upd] using e
          cases e'
          have c1 : cur m { s1 with honored := upd s.honored fj (some l) } fj = cur m s fj := q1.cur m fj
          rw [c1, hl i]
          have : ∀ f, honoredBy I { s1 with honored := upd s.honored fj (some l) } i f = honoredBy I s i f := fun f => q1.honoredBy I i f
          simp only [this]
        · have e' : s1.honored fj = some l' := by rw [q2]; simpa [upd, hj] using e
          exact h1.honored fj l' hfj hnj e' i
      by_cases he : ∀ c, s.sgrid.grid c = none
      · rw [if_pos he]
        have hl : ∀ i, i ∈ ([] : List Nat) ↔ i < np I ∧ ∃ f ∈ cur m s fi, honoredBy I s i f = true := by
          intro i
          simp only [List.not_mem_nil, false_iff]
          rintro ⟨hi, f, -, hf⟩
          have hv := h.visitedS hr ht (bboxOf_proper _) hi (BoxLe.refl (fbox s.ap f)) hf
          rw [mem_keepFirst, List.mem_flatMap] at hv
          obtain ⟨⟨c, -, hc⟩, -⟩ := hv
          unfold Grid.at at hc
          rw [he c] at hc
          simp at hc
        exact ⟨_, [], rfl, hset [] h (Same.refl s) rfl hl, ⟨rfl, rfl, rfl, rfl, rfl, rfl⟩, hl⟩
      · rw [if_neg he]
        obtain ⟨ops, hF, hL⟩ := h.fgrid
        obtain ⟨b, b1, b2, b3⟩ := boxOf_some s.ap (cur_ne m s fi)
        have hlive : live ops fi = some b := by rw [((hL fi).1 hfi).2 not_false, b1]
        rw [if_pos (hF.size fi b (live_inserted ops fi b hlive)), hF.box fi b hlive]
        obtain ⟨g, e, hI⟩ := h.forEachS b (collectHits fun i => honoredByPatch I m s i fi) (.ok [])
        rw [e]
        simp only [Outcome.ok_bind]
        rw [callUntil_collect (fun i => (cur m s fi).any fun f => honoredBy I s i f) _ _ (fun i _ => h.honoredByPatch hfi not_false i)]
        simp only [Outcome.ok_bind, List.nil_append]
        have hl : ∀ i, i ∈ (visits I.cellOf s.sgrid b).filter (fun i => (cur m s fi).any fun f => honoredBy I s i f) ↔
            i < np I ∧ ∃ f ∈ cur m s fi, honoredBy I s i f = true := by
          intro i
          rw [List.mem_filter, List.any_eq_true]
          constructor
          · rintro ⟨h1, h2⟩; exact ⟨h.visitsS _ h1, h2⟩
          · rintro ⟨h1, f, f1, f2⟩; exact ⟨h.visitedS hr ht b2 h1 (b3 f f1) f2, f, f1, f2⟩
        exact ⟨_, _, rfl, hset _ hI ⟨rfl, rfl, rfl, rfl, rfl, rfl⟩ rfl hl, ⟨rfl, rfl, rfl, rfl, rfl, rfl⟩, hl⟩

theorem pointsHonoredByPatches_spec (hr : 0 < I.resolution) (ht : ∀ i, 0 ≤ I.tol i) (fis : List Nat) : ∀ {s : State}, Inv I m s → (∀ fi ∈ fis, fi < m.nf) →
    ∃ s' l, pointsHonoredByPatches I m fis s = .ok (s', l) ∧ Inv I m s' ∧ Same s s' ∧
      ∀ i, i ∈ l ↔ i < np I ∧ ∃ fi ∈ fis, ∃ f ∈ cur m s fi, honoredBy I s i f = true := by
  induction fis with
  | nil => intro s h _; exact ⟨s, [], rfl, h, Same.refl s, by simp⟩
  | cons fi fis ih =>
      intro s h hf
      obtain ⟨s1, l, e1, h1, q1, hl⟩ := patchHonored_spec hr ht h (hf fi (by simp))
      obtain ⟨s2, l', e2, h2, q2, hl'⟩ := ih h1 (fun x hx => hf x (by simp [hx]))
      unfold pointsHonoredByPatches
      rw [e1]
      simp only [Outcome.ok_bind]
      rw [e2]
      refine ⟨s2, _, rfl, h2, q1.trans q2, fun i => ?_⟩
      simp only [q1.cur, q1.honoredBy] at hl'
      rw [List.mem_append, hl, hl']
      simp only [List.mem_cons, exists_eq_or_imp]
      exact and_or_left.symm

/-! ### the star of a vertex -/

theorem facesOfPatches_spec {ids : Nat → Prop} (h : InvE I m ids s) (fis : List Nat) (hf : ∀ fi ∈ fis, fi < m.nf ∧ ¬ ids fi) :
    facesOfPatches m s fis = .ok (fis.flatMap (cur m s)) := by
  induction fis with
  | nil => rfl
  | cons fi fis ih =>
      unfold facesOfPatches
      rw [h.patchFaces (hf fi (by simp)).1 (hf fi (by simp)).2, ih (fun x hx => hf x (by simp [hx]))]
      rfl

theorem hasRow_iff {f : Face} {v : Nat} : hasRow f v = true ↔ Corner f v := by
  unfold hasRow Corner
  simp only [Bool.or_eq_true, beq_iff_eq]
  tauto

theorem pointsHonoredByStar_spec (hr : 0 < I.resolution) (ht : ∀ i, 0 ≤ I.tol i) (h : Inv I m s) {v : Nat} (hv : ∀ fi ∈ m.vertexFaces v, fi < m.nf) {s' : State}
    {l : List Nat} (e : pointsHonoredByStar I m s v = .ok (s', l)) : Inv I m s' ∧ Same s s' ∧
      ∀ i, i ∈ l ↔ i < np I ∧ ∃ fi ∈ m.vertexFaces v, ∃ f ∈ cur m s fi, Corner f v ∧ honoredBy I s i f = true := by
  have hfaces := facesOfPatches_spec h (m.vertexFaces v) (fun fi hfi => ⟨hv fi hfi, not_false⟩)
  unfold pointsHonoredByStar at e
  rw [hfaces] at e
  simp only [Outcome.ok_bind] at e
  by_cases hne : ((m.vertexFaces v).flatMap (cur m s)).filter (fun f => hasRow f v) = []
  · rw [hne] at e; cases e
  obtain ⟨b, b1, b2, b3⟩ := boxOf_some s.ap hne
  rw [b1] at e
  dsimp only at e
  obtain ⟨g, e1, hI⟩ := h.forEachS b (collectHits (honoredByStar I m s v)) (.ok [])
  rw [e1] at e
  simp only [Outcome.ok_bind] at e
  rw [callUntil_collect (fun i => ((m.vertexFaces v).flatMap (cur m s)).any fun f => hasRow f v && honoredBy I s i f) _ _ (fun i _ => by
    unfold honoredByStar; rw [hfaces]; rfl)] at e
  simp only [Outcome.ok_bind, List.nil_append, Outcome.ok.injEq, Prod.mk.injEq] at e
  obtain ⟨rfl, rfl⟩ := e
  refine ⟨hI, ⟨rfl, rfl, rfl, rfl, rfl, rfl⟩, fun i => ?_⟩
  rw [List.mem_filter, List.any_eq_true]
  constructor
  · rintro ⟨h1, f, h2, h3⟩
    rw [Bool.and_eq_true, hasRow_iff] at h3
    obtain ⟨fi, f1, f2⟩ := List.mem_flatMap.1 h2
    exact ⟨h.visitsS _ h1, fi, f1, f, f2, h3⟩
  · rintro ⟨h1, fi, f1, f, f2, f3, f4⟩
    have hm : f ∈ (m.vertexFaces v).flatMap (cur m s) := List.mem_flatMap.2 ⟨fi, f1, f2⟩
    exact ⟨h.visitedS hr ht b2 h1 (b3 f (List.mem_filter.2 ⟨hm, hasRow_iff.2 f3⟩)) f4, f, hm, by rw [Bool.and_eq_true, hasRow_iff]; exact ⟨f3, f4⟩⟩

end Verif.Snapper
