import Verif.Lemmas.SnapperLoop
import Verif.Lemmas.ThinnerLoop

/-! # Lemmas: distances, the first state, and the classification -/

namespace Verif.Snapper

open Verif Verif.AbstractMesh Verif.SpatialGrid Verif.SpatialGrid.Spec Verif.ClosestPoint Verif.Predicates
open Verif.MeshDefects hiding Face corner
open Verif.MeshDefects.Spec
open Verif.Thinner (Input toE E3 dotP crossP stopAtHit ballBox snapGrid toE_sub norm_toE_sq hull_coord)
open Verif.Geometry (Cross)

variable {I : Input} {m : Mesh} {s s' : State} {home : Nat → Nat}

/-- A triangle in Euclidean space. -/
noncomputable def hull3 (a b c : P3) : Set E3 := convexHull ℝ {toE a, toE b, toE c}

theorem hull3_coord {a b c : P3} {y : E3} (hy : y ∈ hull3 a b c) :
    ((bboxOf (a, b, c)).lo.1 ≤ y 0 ∧ y 0 ≤ (bboxOf (a, b, c)).hi.1) ∧ ((bboxOf (a, b, c)).lo.2.1 ≤ y 1 ∧ y 1 ≤ (bboxOf (a, b, c)).hi.2.1) ∧
    ((bboxOf (a, b, c)).lo.2.2 ≤ y 2 ∧ y 2 ≤ (bboxOf (a, b, c)).hi.2.2) := by
  refine ⟨hull_coord ?_ hy, hull_coord ?_ hy, hull_coord ?_ hy⟩ <;>
  · rintro z (rfl | rfl | rfl) <;> simp [toE, bboxOf, cmin, cmax]

theorem clamp_closest {lo hi x y : ℝ} (h1 : lo ≤ y) (h2 : y ≤ hi) : (x - min (max x lo) hi) ^ 2 ≤ (x - y) ^ 2 := by
  rcases le_total x lo with h | h
  · rw [max_eq_right h, min_eq_left (h1.trans h2)]; nlinarith
  · rw [max_eq_left h]
    rcases le_total x hi with h' | h'
    · rw [min_eq_left h']; nlinarith [sq_nonneg (x - y)]
    · rw [min_eq_right h']; nlinarith

theorem box_dist {a b c x : P3} {y : E3} (hy : y ∈ hull3 a b c) :
    dotP (x - clampTo (bboxOf (a, b, c)) x) (x - clampTo (bboxOf (a, b, c)) x) ≤ ‖toE x - y‖ ^ 2 := by
  obtain ⟨⟨a1, a2⟩, ⟨b1, b2⟩, c1, c2⟩ := hull3_coord hy
  rw [EuclideanSpace.norm_sq_eq, Fin.sum_univ_three]
  have h1 := clamp_closest (x := x.1) a1 a2
  have h2 := clamp_closest (x := x.2.1) b1 b2
  have h3 := clamp_closest (x := x.2.2) c1 c2
  unfold dotP clampTo
  generalize bboxOf (a, b, c) = B at *
  simp only [cmin, cmax, Prod.fst_sub, Prod.snd_sub, PiLp.sub_apply, Real.norm_eq_abs, sq_abs]
  have e0 : toE x 0 = x.1 := by simp [toE]
  have e1 : toE x 1 = x.2.1 := by simp [toE]
  have e2 : toE x 2 = x.2.2 := by simp [toE]
  rw [e0, e1, e2]
  nlinarith

theorem hull3_ne (a b c : P3) : (hull3 a b c).Nonempty := ⟨toE a, subset_convexHull ℝ _ (by simp)⟩

theorem hull3_attained (a b c : P3) (x : E3) : ∃ y ∈ hull3 a b c, Metric.infDist x (hull3 a b c) = dist x y := by
  have hc : IsCompact (hull3 a b c) := by
    have : (({toE a, toE b, toE c} : Set E3)).Finite := by simp
    exact this.isCompact_convexHull (𝕜 := ℝ)
  obtain ⟨y, hy, h⟩ := hc.exists_infDist_eq_dist (hull3_ne a b c) x
  exact ⟨y, hy, h⟩

theorem honoredBy_sound {i : Nat} {f : Face} (h : honoredBy I s i f = true) :
    Metric.infDist (toE (s.ap i)) (hull3 (s.ap f.1) (s.ap f.2.1) (s.ap f.2.2)) ≤ |I.tol i| := by
  unfold honoredBy at h
  dsimp only at h
  split at h
  · cases h
  cases hx : pointTriangleDist2 (toE (s.ap i)) (toE (s.ap f.1)) (toE (s.ap f.2.1)) (toE (s.ap f.2.2)) with
  | none => rw [hx] at h; simp at h
  | some x =>
      rw [hx] at h
      simp only [decide_eq_true_eq] at h
      unfold pointTriangleDist2 at hx
      obtain ⟨q, hq, rfl⟩ := Option.map_eq_some_iff.1 hx
      obtain ⟨q1, -, q3⟩ := C59_closest_is_nearest _ _ _ _ q hq
      rw [q3] at h
      refine (Metric.infDist_le_dist_of_mem q1).trans ?_
      rw [dist_eq_norm]
      have := sq_le_sq.1 h
      rwa [abs_of_nonneg (norm_nonneg _)] at this

theorem honoredBy_complete {i : Nat} {f : Face} (hne : s.ap f.1 ≠ s.ap f.2.1)
    (h : Metric.infDist (toE (s.ap i)) (hull3 (s.ap f.1) (s.ap f.2.1) (s.ap f.2.2)) ≤ |I.tol i|) : honoredBy I s i f = true := by
  have h2 : Metric.infDist (toE (s.ap i)) (hull3 (s.ap f.1) (s.ap f.2.1) (s.ap f.2.2)) ^ 2 ≤ I.tol i ^ 2 := by
    rw [← sq_abs (I.tol i)]
    exact pow_le_pow_left₀ Metric.infDist_nonneg h 2
  unfold honoredBy State.atri
  dsimp only
  obtain ⟨y, hy, hd⟩ := hull3_attained (s.ap f.1) (s.ap f.2.1) (s.ap f.2.2) (toE (s.ap i))
  have hb := box_dist (x := s.ap i) hy
  rw [← dist_eq_norm, ← hd] at hb
  rw [if_neg (not_lt.2 (show _ ≤ _ from hb.trans h2)), C59_distance _ _ _ _ (fun e => hne (Thinner.toE_inj e))]
  exact decide_eq_true h2

/-! ### the first state -/

theorem foldl_indexFace (I : Input) (m : Mesh) (fis : List Nat) : ∀ (s : State) (ops : List (Op ℝ)), FInv I.cellOf s.fgrid ops → fis.Nodup →
    (∀ fi ∈ fis, live ops fi = none) → ∃ g ops', fis.foldl (indexFace I m) s = { s with fgrid := g } ∧ FInv I.cellOf g ops' ∧
      ∀ i, live ops' i = if i ∈ fis then some (fbox s.aq (m.face i)) else live ops i := by
  induction fis with
  | nil => intro s ops hF _ _; exact ⟨s.fgrid, ops, rfl, hF, by simp⟩
  | cons fi fis ih =>
      intro s ops hF hnd hno
      rw [List.foldl_cons]
      rw [List.nodup_cons] at hnd
      obtain ⟨g1, e1, h1⟩ := step_inv I.cellOf ⟨0, 0⟩ hF (.insert fi (fbox s.aq (m.face fi))) (hno fi (by simp))
      have eg : indexFace I m s fi = { s with fgrid := g1 } := by
        unfold step at e1
        simp only [Outcome.ok.injEq] at e1
        unfold indexFace
        rw [← e1]
      rw [eg]
      obtain ⟨g2, ops2, h2, h3, h4⟩ := ih { s with fgrid := g1 } _ h1 hnd.2 (fun x hx => by
        rw [live_append]
        dsimp only
        rw [if_neg (show x ≠ fi from fun e => hnd.1 (e ▸ hx))]
        exact hno x (by simp [hx]))
      refine ⟨g2, ops2, h2, h3, fun i => ?_⟩
      rw [h4, live_append]
      simp only [List.mem_cons]
      by_cases hj : i = fi
      · subst hj; simp [hnd.1]
      · simp [hj]

theorem start_spec :
    J I m home (start I m) ∧ (start I m).aq = (fun r => I.T (p0 I r)) ∧ (∀ fi, (start I m).cached fi = []) ∧ (start I m).p = p0 I ∧
      ∀ fi, fi < m.nf → (start I m).fgrid.box fi = fbox (fun r => I.T (p0 I r)) (m.face fi) := by
  unfold start
  obtain ⟨g, ops, e, hF, hL⟩ := foldl_indexFace I m (List.range m.nf) ⟨p0 I, fun r => I.T (p0 I r), fun r => I.T (p0 I r), fun _ => [], fun _ => [], fun _ => none,
    fun _ => [], snapGrid I, FaceGrid.init ⟨0, 0⟩ I.faces.length⟩ [] (finv_init _ _ _) List.nodup_range (by simp [live])
  rw [e]
  refine ⟨⟨⟨fun _ => rfl, fun _ _ => rfl, fun _ _ => Or.inl rfl, fun _ _ => rfl, by simp, by simp, fun _ _ _ _ => ⟨rfl, rfl, rfl, rfl⟩, by simp, ⟨ops, hF, fun fi => ?_⟩,
    Thinner.snapGrid_inv I, by simp⟩, ⟨by simp [OnEdges], by simp, by simp, by simp, by simp⟩, fun fi hfi => ?_, ⟨fun fi hfi => ?_, fun fi fj hfi hfj hne f hf g hg => ?_⟩,
    fun fi hfi f hf => ?_⟩, rfl, fun _ => rfl, rfl, fun fi hfi => ?_⟩
  · constructor
    · intro hfi
      rw [hL, if_pos (List.mem_range.2 hfi)]
      exact ⟨rfl, fun _ => rfl⟩
    · intro hfi
      rw [hL, if_neg (by simpa using hfi)]
      rfl
  · exact triP_plain (s := _) ⟨rfl, rfl, rfl, rfl⟩
  · exact List.pairwise_singleton _ _
  · have e1 : f = m.face fi := List.mem_singleton.1 hf
    have e2 : g = m.face fj := List.mem_singleton.1 hg
    subst e1 e2
    exact Or.inr ⟨⟨rfl, rfl⟩, ⟨rfl, rfl⟩⟩
  · have e1 : f = m.face fi := List.mem_singleton.1 hf
    subst e1
    unfold dotP
    nlinarith [sq_nonneg (crossP (I.T (p0 I (m.face fi).2.1) - I.T (p0 I (m.face fi).1)) (I.T (p0 I (m.face fi).2.2) - I.T (p0 I (m.face fi).1))).1,
      sq_nonneg (crossP (I.T (p0 I (m.face fi).2.1) - I.T (p0 I (m.face fi).1)) (I.T (p0 I (m.face fi).2.2) - I.T (p0 I (m.face fi).1))).2.1,
      sq_nonneg (crossP (I.T (p0 I (m.face fi).2.1) - I.T (p0 I (m.face fi).1)) (I.T (p0 I (m.face fi).2.2) - I.T (p0 I (m.face fi).1))).2.2]
  · refine hF.box fi _ ?_
    rw [hL, if_pos (List.mem_range.2 hfi)]

/-! ### the classification -/

/-- The distance of a snap point from a face of the given mesh, in the transformed frame. -/
noncomputable def D (I : Input) (m : Mesh) (i fi : Nat) : ℝ :=
  Metric.infDist (toE (I.T (p0 I i))) (hull3 (I.T (p0 I (m.face fi).1)) (I.T (p0 I (m.face fi).2.1)) (I.T (p0 I (m.face fi).2.2)))

/-- What is computed for it. -/
noncomputable def closestOn (I : Input) (m : Mesh) (i fi : Nat) : Option (Closest E3) :=
  pointTriangleClosest (toE (I.T (p0 I i))) (toE (I.T (p0 I (m.face fi).1))) (toE (I.T (p0 I (m.face fi).2.1))) (toE (I.T (p0 I (m.face fi).2.2)))

theorem closestOn_spec {i fi : Nat} {r : Closest E3} (h : closestOn I m i fi = some r) :
    r.dist2 = D I m i fi ^ 2 ∧ r.closest ∈ hull3 (I.T (p0 I (m.face fi).1)) (I.T (p0 I (m.face fi).2.1)) (I.T (p0 I (m.face fi).2.2)) ∧
      r.dist2 = ‖toE (I.T (p0 I i)) - r.closest‖ ^ 2 := by
  obtain ⟨h1, h2, h3⟩ := C59_closest_is_nearest _ _ _ _ r h
  refine ⟨?_, h1, h3⟩
  rw [h3]
  congr 1
  unfold D
  apply le_antisymm
  · refine (Metric.le_infDist (hull3_ne _ _ _)).2 ?_
    intro y hy
    rw [dist_eq_norm]; exact h2 y hy
  · rw [← dist_eq_norm]
    exact Metric.infDist_le_dist_of_mem h1

theorem closestOn_some {i fi : Nat} (h : I.T (p0 I (m.face fi).1) ≠ I.T (p0 I (m.face fi).2.1)) : ∃ r, closestOn I m i fi = some r := by
  refine Option.ne_none_iff_exists'.1 fun hn => ?_
  exact h (Thinner.toE_inj ((C59_not_finite_iff _ _ _ _).1 hn).1)

/-- The nearest of the faces looked at so far. -/
def NearSpec (I : Input) (m : Mesh) (i : Nat) (seen : List Nat) : Option Nearest → Prop
  | none => ∀ fi ∈ seen, closestOn I m i fi = none
  | some b => b.fi ∈ seen ∧ b.d2 = D I m i b.fi ^ 2 ∧
      toE b.aq ∈ hull3 (I.T (p0 I (m.face b.fi).1)) (I.T (p0 I (m.face b.fi).2.1)) (I.T (p0 I (m.face b.fi).2.2)) ∧
      b.d2 = ‖toE (I.T (p0 I i)) - toE b.aq‖ ^ 2 ∧
      ∀ fi ∈ seen, ∀ r, closestOn I m i fi = some r → b.d2 ≤ r.dist2

theorem toE_ofE (x : E3) : toE (ofE x) = x := by
  ext k
  fin_cases k <;> simp [toE, ofE]

theorem nearSpec_snoc {i fi : Nat} {seen : List Nat} {r : Closest E3} (hr : closestOn I m i fi = some r)
    (h : ∀ fj ∈ seen, ∀ r', closestOn I m i fj = some r' → r.dist2 ≤ r'.dist2) : NearSpec I m i (seen ++ [fi]) (some ⟨fi, ofE r.closest, r.dist2⟩) := by
  obtain ⟨h1, h2, h3⟩ := closestOn_spec hr
  refine ⟨by simp, h1, by rw [toE_ofE]; exact h2, by rw [toE_ofE]; exact h3, fun fj hj r' hr' => ?_⟩
  rcases List.mem_append.1 hj with hj | hj
  · exact h fj hj r' hr'
  · rw [List.mem_singleton.1 hj, hr] at hr'
    cases hr'
    exact le_rfl

theorem nearer_step {i fi : Nat} {seen : List Nat} {best : Option Nearest} {box : Nat → Box ℝ} (hb : box fi = fbox (fun r => I.T (p0 I r)) (m.face fi))
    (h : NearSpec I m i seen best) : NearSpec I m i (seen ++ [fi]) (nearer m (fun r => I.T (p0 I r)) box (I.T (p0 I i)) best fi) := by
  unfold nearer
  dsimp only
  rw [show pointTriangleClosest (toE (I.T (p0 I i))) (toE (I.T (p0 I (m.face fi).1))) (toE (I.T (p0 I (m.face fi).2.1))) (toE (I.T (p0 I (m.face fi).2.2))) =
    closestOn I m i fi from rfl, hb]
  cases best with
  | none =>
      simp only [if_true]
      cases hc : closestOn I m i fi with
      | none =>
          intro fj hj
          rcases List.mem_append.1 hj with hj | hj
          · exact h fj hj
          · rw [List.mem_singleton.1 hj]; exact hc
      | some r =>
          refine nearSpec_snoc hc fun fj hj r' hr' => ?_
          rw [h fj hj] at hr'
          cases hr'
  | some b =>
      obtain ⟨h1, h2, h3, h4, h5⟩ := h
      have keep : (∀ r, closestOn I m i fi = some r → b.d2 ≤ r.dist2) → NearSpec I m i (seen ++ [fi]) (some b) := fun hh =>
        ⟨by simp [h1], h2, h3, h4, fun fj hj r hr => by
          rcases List.mem_append.1 hj with hj | hj
          · exact h5 fj hj r hr
          · rw [List.mem_singleton.1 hj] at hr; exact hh r hr⟩
      dsimp only
      split
      · cases hc : closestOn I m i fi with
        | none => exact keep fun r hr => by rw [hc] at hr; cases hr
        | some r =>
            dsimp only
            split
            · rename_i hlt
              exact nearSpec_snoc hc fun fj hj r' hr' => hlt.le.trans (h5 fj hj r' hr')
            · rename_i hlt
              refine keep fun r' hr' => ?_
              rw [hc] at hr'
              cases hr'
              exact not_lt.1 hlt
      · rename_i hclose
        refine keep fun r hr => ?_
        obtain ⟨-, q2, q3⟩ := closestOn_spec hr
        have := box_dist (x := I.T (p0 I i)) q2
        rw [← q3] at this
        refine (not_lt.1 fun hlt => hclose ?_).trans this
        exact decide_eq_true hlt

theorem callUntil_nearer (m : Mesh) (aq0 : Nat → P3) (box : Nat → Box ℝ) (ap : P3) (l : List Nat) : ∀ best,
    (callUntil (nearerFn m aq0 box ap) l best).1 = l.foldl (nearer m aq0 box ap) best := by
  induction l with
  | nil => intro best; rfl
  | cons x l ih =>
      intro best
      rw [List.foldl_cons, ← ih]
      rfl

theorem nearer_all {i : Nat} {box : Nat → Box ℝ} (l : List Nat) (hb : ∀ fi ∈ l, box fi = fbox (fun r => I.T (p0 I r)) (m.face fi)) :
    ∀ {seen : List Nat} {best : Option Nearest}, NearSpec I m i seen best →
      NearSpec I m i (seen ++ l) (l.foldl (nearer m (fun r => I.T (p0 I r)) box (I.T (p0 I i))) best) := by
  induction l with
  | nil => intro seen best h; simpa using h
  | cons x l ih =>
      intro seen best h
      rw [List.foldl_cons]
      have := ih (fun fi hfi => hb fi (by simp [hfi])) (nearer_step (hb x (by simp)) h)
      simpa using this

/-- What a candidate is: the face nearest to the point, within the resolution. -/
structure CandSpec (I : Input) (S : Sorts) (m : Mesh) (c : Candidate) : Prop where
  i : c.i < np I
  fi : c.fi < m.nf
  near : D I m c.i c.fi ≤ I.resolution
  d2 : c.d2 = D I m c.i c.fi ^ 2
  proj : toE c.aq ∈ hull3 (I.T (p0 I (m.face c.fi).1)) (I.T (p0 I (m.face c.fi).2.1)) (I.T (p0 I (m.face c.fi).2.2)) ∧ c.d2 = ‖toE (I.T (p0 I c.i)) - toE c.aq‖ ^ 2
  least : ∀ fi, fi < m.nf → I.T (p0 I (m.face fi).1) ≠ I.T (p0 I (m.face fi).2.1) → D I m c.i c.fi ≤ D I m c.i fi
  order : ∃ d, c.order = S.order d

/-- No face is within the resolution (of those whose first two corners are in different places). -/
def Far (I : Input) (m : Mesh) (i : Nat) : Prop := ∀ fi, fi < m.nf → I.T (p0 I (m.face fi).1) ≠ I.T (p0 I (m.face fi).2.1) → I.resolution < D I m i fi

theorem close_visited (hr : 0 < I.resolution) (h : Inv I m s) (hca : ∀ fi, s.cached fi = []) (hp : s.p = p0 I) {i fi : Nat} (hfi : fi < m.nf)
    (hd : D I m i fi ≤ I.resolution) : fi ∈ visits I.cellOf s.fgrid.g (ballBox (s.ap i) I.resolution) := by
  have hcur : cur m s fi = [m.face fi] := by unfold cur; rw [if_pos (hca fi)]
  have hap : ∀ r, s.ap r = I.T (p0 I r) := fun r => by rw [h.ap, hp]
  refine h.visited hr (ballBox_proper _ hr.le) hfi not_false (by rw [hcur]; exact List.mem_singleton.2 rfl) ?_
  obtain ⟨y, hy, hd'⟩ := hull3_attained (s.ap (m.face fi).1) (s.ap (m.face fi).2.1) (s.ap (m.face fi).2.2) (toE (s.ap i))
  have hb := box_dist (x := s.ap i) hy
  rw [← dist_eq_norm, ← hd'] at hb
  have hD : Metric.infDist (toE (s.ap i)) (hull3 (s.ap (m.face fi).1) (s.ap (m.face fi).2.1) (s.ap (m.face fi).2.2)) = D I m i fi := by
    unfold D; rw [hap, hap, hap, hap]
  rw [hD] at hb
  have h2 : D I m i fi ^ 2 ≤ I.resolution ^ 2 := pow_le_pow_left₀ Metric.infDist_nonneg hd 2
  have := near_box (bboxOf_proper (s.ap (m.face fi).1, s.ap (m.face fi).2.1, s.ap (m.face fi).2.2)) (hb.trans h2)
  rwa [abs_of_pos hr] at this

theorem classify_spec (S : Sorts) (hr : 0 < I.resolution) (is : List Nat) : ∀ {s : State}, Inv I m s → (∀ fi, s.cached fi = []) → s.p = p0 I →
    (s.aq = fun r => I.T (p0 I r)) → (∀ i ∈ is, i < np I) →
    ∃ s' cs k, classify I S m is s = .ok (s', cs, k) ∧ Inv I m s' ∧ Same s s' ∧ cs.length + k = is.length ∧ (cs.map (·.i)).Sublist is ∧
      (∀ c ∈ cs, CandSpec I S m c) ∧ ∀ i ∈ is, i ∉ cs.map (·.i) → Far I m i := by
  induction is with
  | nil => intro s h _ _ _ _; exact ⟨s, [], 0, rfl, h, Same.refl s, rfl, by simp, by simp, by simp⟩
  | cons i is ih =>
      intro s h hca hp haq hi
      have hap : ∀ r, s.ap r = I.T (p0 I r) := fun r => by rw [h.ap, hp]
      unfold classify
      obtain ⟨g, e1, hI, -⟩ := h.forEachF (ballBox (s.ap i) I.resolution) (nearerFn m s.aq s.fgrid.box (s.ap i)) none
      rw [e1]
      simp only [Outcome.ok_bind]
      rw [callUntil_nearer]
      obtain ⟨s2, cs, k, e2, hI2, hs2, hlen, hsub, hcs, hfar⟩ := ih hI hca hp haq (fun x hx => hi x (by simp [hx]))
      rw [e2]
      simp only [Outcome.ok_bind]
      have hbox : ∀ fi ∈ visits I.cellOf s.fgrid.g (ballBox (s.ap i) I.resolution), s.fgrid.box fi = fbox (fun r => I.T (p0 I r)) (m.face fi) := fun fi hfi => by
        have hlt := h.visitsF _ hfi
        obtain ⟨ops, hF, hL⟩ := h.fgrid
        have hcur : cur m s fi = [m.face fi] := by unfold cur; rw [if_pos (hca fi)]
        have := ((hL fi).1 hlt).2 not_false
        rw [hcur] at this
        rw [hF.box fi _ this]
        show fbox s.ap (m.face fi) = _
        unfold fbox
        rw [hap, hap, hap]
      have hN : NearSpec I m i [] none := by intro fi hfi; cases hfi
      have hN2 := nearer_all (visits I.cellOf s.fgrid.g (ballBox (s.ap i) I.resolution)) hbox hN
      rw [List.nil_append] at hN2
      rw [hap i] at hN2 ⊢
      rw [haq]
      have hs2' : Same s s2 := ⟨hs2.p, hs2.ap, hs2.aq, hs2.interior, hs2.cached, hs2.chains⟩
      have hvis : ∀ fi, fi < m.nf → D I m i fi ≤ I.resolution → fi ∈ visits I.cellOf s.fgrid.g (ballBox (I.T (p0 I i)) I.resolution) := fun fi h1 h2 => by
        rw [← hap i]; exact close_visited hr h hca hp h1 h2
      generalize hbest : List.foldl (nearer m (fun r => I.T (p0 I r)) s.fgrid.box (I.T (p0 I i))) none
        (visits I.cellOf s.fgrid.g (ballBox (I.T (p0 I i)) I.resolution)) = best at hN2 ⊢
      have hskip : Far I m i → ∃ s' cs' k', (Outcome.ok (s2, cs, k + 1) : Outcome (State × List Candidate × Nat)) = .ok (s', cs', k') ∧ Inv I m s' ∧ Same s s' ∧
          cs'.length + k' = (i :: is).length ∧ (cs'.map (·.i)).Sublist (i :: is) ∧ (∀ c ∈ cs', CandSpec I S m c) ∧
          ∀ x ∈ i :: is, x ∉ cs'.map (·.i) → Far I m x := fun hf =>
        ⟨s2, cs, k + 1, rfl, hI2, hs2', by rw [List.length_cons, ← hlen]; omega, hsub.cons i, hcs, fun x hx hn => by
          rcases List.mem_cons.1 hx with rfl | hx
          · exact hf
          · exact hfar x hx hn⟩
      have h2aq : s2.aq = fun r => I.T (p0 I r) := hs2'.aq.trans haq
      cases best with
      | none =>
          have e : candidate I S m s2.aq i none = none := rfl
          rw [e]
          refine hskip fun fi hfi hne => ?_
          by_contra hc
          obtain ⟨r, hr'⟩ := closestOn_some (i := i) hne
          rw [hN2 fi (hvis fi hfi (not_lt.1 hc))] at hr'
          cases hr'
      | some b =>
          obtain ⟨b1, b2, b3, b4, b5⟩ := hN2
          have hbf : b.fi < m.nf := h.visitsF _ b1
          unfold candidate
          dsimp only
          by_cases hd : b.d2 > I.resolution * I.resolution
          · rw [if_pos hd]
            refine hskip fun fi hfi hne => ?_
            by_contra hc
            obtain ⟨r, hr'⟩ := closestOn_some (i := i) hne
            have q1 := b5 fi (hvis fi hfi (not_lt.1 hc)) r hr'
            rw [(closestOn_spec hr').1] at q1
            have q2 : D I m i fi ^ 2 ≤ I.resolution ^ 2 := pow_le_pow_left₀ Metric.infDist_nonneg (not_lt.1 hc) 2
            nlinarith
          · rw [if_neg hd]
            have hnear : D I m i b.fi ≤ I.resolution := by
              rw [b2] at hd
              exact le_of_not_gt fun hgt => hd (by nlinarith)
            refine ⟨s2, _ :: cs, k, rfl, hI2, hs2', by simp only [List.length_cons]; omega, by rw [List.map_cons]; exact hsub.cons_cons i, fun c hc => ?_, fun x hx hn => ?_⟩
            · rcases List.mem_cons.1 hc with rfl | hc
              · refine ⟨hi i (by simp), hbf, hnear, b2, ⟨b3, b4⟩, fun fi hfi hne => ?_, ⟨_, rfl⟩⟩
                dsimp only
                by_cases hdf : D I m i fi ≤ I.resolution
                · obtain ⟨r, hr'⟩ := closestOn_some (i := i) hne
                  have q1 := b5 fi (hvis fi hfi hdf) r hr'
                  rw [(closestOn_spec hr').1, b2] at q1
                  exact le_of_sq_le_sq q1 Metric.infDist_nonneg
                · exact hnear.trans (not_le.1 hdf).le
              · exact hcs c hc
            · rw [List.map_cons, List.mem_cons, not_or] at hn
              rcases List.mem_cons.1 hx with rfl | hx
              · exact absurd rfl hn.1
              · exact hfar x hx hn.2

end Verif.Snapper
