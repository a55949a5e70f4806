import Verif.Lemmas.SnapperPlace

/-! # Lemmas: the loop -/

namespace Verif.Snapper

open Verif Verif.AbstractMesh Verif.SpatialGrid Verif.SpatialGrid.Spec Verif.ClosestPoint Verif.Predicates
open Verif.MeshDefects hiding Face corner
open Verif.Thinner (Input toE E3 dotP crossP stopAtHit ballBox snapGrid)

variable {I : Input} {m : Mesh} {s s' : State} {home : Nat → Nat}

theorem Tried.trans {i : Nat} {s1 : State} {d : List Nat} {r : State × Bool × List Nat} (h : Tried I m home s i (s1, false, d)) (h' : Tried I m home s1 i r)
    (hs : Inv I m s) : Tried I m home s i r := by
  obtain ⟨k1, k2, k3, k4, k5, k6⟩ := h.kept rfl
  refine ⟨h'.j, fun hh => ?_, h'.placed, fun k => ?_⟩
  · obtain ⟨l1, l2, l3, l4, l5, l6⟩ := h'.kept hh
    exact ⟨l1.trans k1, l2.trans k2, l3.trans k3, l4.trans k4, fun k hk => (l5 k hk).trans (k5 k hk), l6⟩
  · rw [h'.dis k, meshHonors_congr (s := s) (s' := s1) (by funext r; rw [h.j.inv.ap, hs.ap]; dsimp only at k1; rw [k1]) k3]

/-- A candidate. -/
structure CandOk (I : Input) (m : Mesh) (home : Nat → Nat) (c : Candidate) : Prop where
  i : c.i < np I
  fi : c.fi < m.nf
  home : home c.i = c.fi

theorem at_place {f : Face} {i : Nat} (h : s.ap f.1 = s.ap i ∨ s.ap f.2.1 = s.ap i ∨ s.ap f.2.2 = s.ap i) : honoredBy I s i f = true := by
  have hbox : clampTo (bboxOf (s.atri f)) (s.ap i) = s.ap i := by
    have hb : (bboxOf (s.atri f)).lo ≤ s.ap i ∧ s.ap i ≤ (bboxOf (s.atri f)).hi := by
      refine hull_in_box (s.atri f) (subset_convexHull ℝ _ ?_)
      unfold State.atri
      rcases h with h | h | h <;> simp [h]
    obtain ⟨⟨h1, h2, h3⟩, h4, h5, h6⟩ := hb
    unfold clampTo cmin cmax
    refine Prod.ext ?_ (Prod.ext ?_ ?_)
    · show min (max _ _) _ = _
      rw [max_eq_left h1, min_eq_left h4]
    · show min (max _ _) _ = _
      rw [max_eq_left h2, min_eq_left h5]
    · show min (max _ _) _ = _
      rw [max_eq_left h3, min_eq_left h6]
  unfold honoredBy
  dsimp only
  rw [hbox, if_neg (by
    rw [sub_self]
    have : dotP (0 : P3) 0 = 0 := by simp [dotP]
    rw [this]
    exact not_lt.2 (sq_nonneg _))]
  have hn : pointTriangleClosest (toE (s.ap i)) (toE (s.ap f.1)) (toE (s.ap f.2.1)) (toE (s.ap f.2.2)) ≠ none := by
    rw [Ne, C59_not_finite_iff]
    rintro ⟨h1, h2, h3⟩
    rcases h with h | h | h
    · rw [h, sub_self, inner_zero_right] at h2; exact lt_irrefl _ h2
    · rw [h1, h, sub_self, inner_zero_right] at h2; exact lt_irrefl _ h2
    · rw [h, real_inner_self_eq_norm_sq] at h3; exact lt_irrefl _ h3
  obtain ⟨q, hq⟩ := Option.ne_none_iff_exists'.1 hn
  obtain ⟨-, q2, q3⟩ := C59_closest_is_nearest _ _ _ _ q hq
  have hz := q2 (toE (s.ap i)) (subset_convexHull ℝ _ (by rcases h with h | h | h <;> simp [h]))
  rw [sub_self, norm_zero] at hz
  unfold pointTriangleDist2
  rw [hq]
  simp only [Option.map_some, decide_eq_true_eq]
  rw [q3]
  have : ‖toE (s.ap i) - q.closest‖ = 0 := le_antisymm hz (norm_nonneg _)
  rw [this]
  simpa using sq_nonneg (I.tol i)

theorem at_corner {f : Face} {i : Nat} (h : Corner f i) : honoredBy I s i f = true :=
  at_place (by rcases h with h | h | h <;> simp [h])

/-- A point that the surface does not pass is in no chain. -/
theorem free_of_unsatisfied (h : J I m home s) {c : Candidate} (hc : CandOk I m home c) (e : alreadySatisfied I m s c = .ok false) : Free s c.i := by
  intro ed x hx hxi
  obtain ⟨h1, h2⟩ := h.chains.home ed x hx
  rw [hxi, hc.home] at h2
  obtain ⟨f, hf, hfc⟩ := (h.tri c.fi hc.fi).used (mem_boundaryIds.2 (Or.inr ⟨ed, h2, x, hx, hxi⟩))
  unfold alreadySatisfied at e
  rw [h.inv.honoredByPatch hc.fi not_false] at e
  simp only [Outcome.ok_bind] at e
  rw [if_pos (List.any_eq_true.2 ⟨f, hf, at_corner hfc⟩)] at e
  simp at e

theorem trySnap_spec (hr : 0 < I.resolution) (ht : ∀ i, 0 ≤ I.tol i) (hT : IsLinear I.T) (hm : MeshOk I m) (h : J I m home s) {c : Candidate}
    (hc : CandOk I m home c) (hfree : Free s c.i) {x : Nat} {r : State × Bool × List Nat} (e : trySnap I m s c x = .ok r) : Tried I m home s c.i r := by
  unfold trySnap at e
  split at e
  · rename_i hx
    refine trySnapVertex_spec hr ht hT hm h hc.i hc.fi ?_ e
    unfold Corner
    rcases lt3 (show x < 3 by omega) with rfl | rfl | rfl <;> simp [AbstractMesh.corner]
  · split at e
    · exact trySnapEdge_spec hr ht hT hm h hc.i hc.fi hc.home hfree (by omega) e
    · exact trySnapFace_spec hr ht hT hm h hc.i hc.fi hfree e

theorem cascade_spec (hr : 0 < I.resolution) (ht : ∀ i, 0 ≤ I.tol i) (hT : IsLinear I.T) (hm : MeshOk I m) {c : Candidate} (hc : CandOk I m home c) (xs : List Nat) :
    ∀ {s : State}, J I m home s → Free s c.i → ∀ {r : State × Bool × List Nat}, cascade I m c xs s = .ok r → Tried I m home s c.i r := by
  induction xs with
  | nil =>
      intro s h _ r e
      unfold cascade at e
      cases e
      exact tried_failed hm h hc.i h.inv rfl rfl rfl rfl (fun _ _ => rfl) (Or.inl rfl)
  | cons x xs ih =>
      intro s h hfree r e
      unfold cascade at e
      obtain ⟨⟨s1, ok, dis⟩, e1, e2⟩ := Outcome.bind_eq_ok.1 e
      have ht1 := trySnap_spec hr ht hT hm h hc hfree e1
      cases ok with
      | true =>
          simp only [if_true, Outcome.ok.injEq] at e2
          subst e2
          exact ht1
      | false =>
          simp only [Bool.false_eq_true, if_false] at e2
          have hch : s1.chains = s.chains := (ht1.kept rfl).2.2.2.1
          exact ht1.trans (ih ht1.j (by unfold Free; rw [hch]; exact hfree) e2) h.inv

theorem tryMoveNearbyVertex_spec (hr : 0 < I.resolution) (ht : ∀ i, 0 ≤ I.tol i) (hT : IsLinear I.T) (hm : MeshOk I m) (h : J I m home s) {c : Candidate}
    (hc : CandOk I m home c) {r : State × Bool × List Nat} (e : tryMoveNearbyVertex I m s c = .ok r) : Tried I m home s c.i r := by
  have hfail : Tried I m home s c.i (s, false, []) := tried_failed hm h hc.i h.inv rfl rfl rfl rfl (fun _ _ => rfl) (Or.inl rfl)
  unfold tryMoveNearbyVertex at e
  split at e
  · simp only [Outcome.ok.injEq] at e; subst e; exact hfail
  split at e
  · simp only [Outcome.ok.injEq] at e; subst e; exact hfail
  rename_i x hx
  have hx2 : x ≤ 2 := by simpa using List.find?_some hx
  dsimp only at e
  split at e
  · refine trySnapVertex_spec hr ht hT hm h hc.i hc.fi ?_ e
    unfold Corner
    rcases lt3 (show x < 3 by omega) with rfl | rfl | rfl <;> simp [AbstractMesh.corner]
  · simp only [Outcome.ok.injEq] at e; subst e; exact hfail

theorem place_spec (hr : 0 < I.resolution) (ht : ∀ i, 0 ≤ I.tol i) (hT : IsLinear I.T) (hm : MeshOk I m) (h : J I m home s) {c : Candidate}
    (hc : CandOk I m home c) {r : State × Bool × List Nat} (e : place I m s c = .ok r) : Tried I m home s c.i r := by
  unfold place at e
  obtain ⟨⟨s1, ok, dis⟩, e1, e2⟩ := Outcome.bind_eq_ok.1 e
  have h1 := tryMoveNearbyVertex_spec hr ht hT hm h hc e1
  cases ok with
  | true =>
      simp only [if_true, Outcome.ok.injEq] at e2
      subst e2
      exact h1
  | false =>
      simp only [Bool.false_eq_true, if_false] at e2
      obtain ⟨sat, e3, e4⟩ := Outcome.bind_eq_ok.1 e2
      refine h1.trans ?_ h.inv
      cases sat with
      | true =>
          simp only [if_true, Outcome.ok.injEq] at e4
          subst e4
          exact tried_failed hm h1.j hc.i h1.j.inv rfl rfl rfl rfl (fun _ _ => rfl) (Or.inl rfl)
      | false =>
          simp only [Bool.false_eq_true, if_false] at e4
          exact cascade_spec hr ht hT hm hc c.order h1.j (free_of_unsatisfied h1.j hc e3) e4

/-! ### the queue -/

theorem push_perm (cs : List Candidate) (x : Nat) (q : List Nat) : (push cs x q).Perm (x :: q) := by
  induction q with
  | nil => exact List.Perm.refl _
  | cons y q ih =>
      unfold push
      split
      · exact List.Perm.refl _
      · exact (ih.cons y).trans (List.Perm.swap _ _ _)

/-- The rounds that may still come. -/
def rounds (cs : List Candidate) (qb : List Nat × (Nat → Nat)) : Nat := qb.1.length + ∑ ci ∈ Finset.range cs.length, qb.2 ci

theorem candidateOf_lt {cs : List Candidate} {i ci : Nat} (h : candidateOf cs i = some ci) : ∃ c, cs[ci]? = some c ∧ c.i = i := by
  unfold candidateOf at h
  rw [List.findIdx?_eq_some_iff_getElem] at h
  obtain ⟨h1, h2, -⟩ := h
  exact ⟨cs[ci], List.getElem?_eq_getElem h1, by simpa using h2⟩

theorem requeue_rounds (cs : List Candidate) (qb : List Nat × (Nat → Nat)) (i : Nat) : rounds cs (requeue cs qb i) = rounds cs qb := by
  unfold requeue
  split
  · rfl
  rename_i ci hci
  obtain ⟨c, hc, -⟩ := candidateOf_lt hci
  have hlt : ci < cs.length := (List.getElem?_eq_some_iff.1 hc).1
  split
  · rename_i hb
    unfold rounds
    dsimp only
    rw [(push_perm cs ci qb.1).length_eq, List.length_cons]
    rw [← Finset.add_sum_erase _ _ (Finset.mem_range.2 hlt), ← Finset.add_sum_erase _ qb.2 (Finset.mem_range.2 hlt)]
    have : ∑ x ∈ (Finset.range cs.length).erase ci, upd qb.2 ci (qb.2 ci - 1) x = ∑ x ∈ (Finset.range cs.length).erase ci, qb.2 x :=
      Finset.sum_congr rfl fun x hx => if_neg (Finset.ne_of_mem_erase hx)
    rw [this, show upd qb.2 ci (qb.2 ci - 1) ci = qb.2 ci - 1 from if_pos rfl]
    omega
  · rfl

theorem requeues_rounds (cs : List Candidate) (is : List Nat) : ∀ qb : List Nat × (Nat → Nat), rounds cs (is.foldl (requeue cs) qb) = rounds cs qb := by
  induction is with
  | nil => intro qb; rfl
  | cons i is ih => intro qb; rw [List.foldl_cons, ih, requeue_rounds]

theorem requeue_valid (cs : List Candidate) (qb : List Nat × (Nat → Nat)) (i : Nat) (h : ∀ ci ∈ qb.1, ci < cs.length) : ∀ ci ∈ (requeue cs qb i).1, ci < cs.length := by
  unfold requeue
  split
  · exact h
  rename_i ci hci
  obtain ⟨c, hc, -⟩ := candidateOf_lt hci
  have hlt : ci < cs.length := (List.getElem?_eq_some_iff.1 hc).1
  split
  · intro x hx
    rcases List.mem_cons.1 ((push_perm cs ci qb.1).mem_iff.1 hx) with rfl | hx
    · exact hlt
    · exact h x hx
  · exact h

theorem requeues_valid (cs : List Candidate) (is : List Nat) : ∀ qb : List Nat × (Nat → Nat), (∀ ci ∈ qb.1, ci < cs.length) →
    ∀ ci ∈ (is.foldl (requeue cs) qb).1, ci < cs.length := by
  induction is with
  | nil => intro qb h; exact h
  | cons i is ih => intro qb h; rw [List.foldl_cons]; exact ih _ (requeue_valid cs qb i h)

/-- The loop ends. -/
theorem loop_ends (cs : List Candidate) : ∀ (n : Nat) (s : State) (q : List Nat) (b : Nat → Nat), rounds cs (q, b) < n → (loop I m cs n s q b).isSome := by
  intro n
  induction n with
  | zero => intro s q b h; omega
  | succ n ih =>
      intro s q b h
      cases q with
      | nil => unfold loop; rfl
      | cons ci q =>
          unfold loop
          split
          · rfl
          · split
            · rename_i r _ dis _
              refine ih _ _ _ ?_
              have := requeues_rounds cs dis (q, b)
              have e : rounds cs (ci :: q, b) = rounds cs (q, b) + 1 := by unfold rounds; simp only [List.length_cons]; omega
              rw [e] at h
              rw [show rounds cs ((List.foldl (requeue cs) (q, b) dis).1, (List.foldl (requeue cs) (q, b) dis).2) = rounds cs (q, b) from this]
              omega
            · rfl
            · rfl

theorem loop_spec (hr : 0 < I.resolution) (ht : ∀ i, 0 ≤ I.tol i) (hT : IsLinear I.T) (hm : MeshOk I m) {cs : List Candidate} (hcs : ∀ c ∈ cs, CandOk I m home c) :
    ∀ (n : Nat) {s : State} (q : List Nat) (b : Nat → Nat) {s' : State}, J I m home s → loop I m cs n s q b = some (.ok s') → J I m home s' := by
  intro n
  induction n with
  | zero => intro s q b s' _ e; cases e
  | succ n ih =>
      intro s q b s' h e
      cases q with
      | nil => unfold loop at e; cases e; exact h
      | cons ci q =>
          unfold loop at e
          split at e
          · cases e
          rename_i c hc
          have hc' := hcs c (List.mem_of_getElem? hc)
          split at e
          · rename_i r s1 ok dis e1
            exact ih _ _ (place_spec hr ht hT hm h hc' e1).j e
          · cases e
          · cases e

end Verif.Snapper
