import Verif.Lemmas.SnapperStep

/-! # Lemmas: the triangulation of a patch -/

namespace Verif.Snapper

open Verif Verif.AbstractMesh Verif.SpatialGrid Verif.ClosestPoint Verif.Predicates
open Verif.MeshDefects hiding Face corner
open Verif.Thinner (Input toE E3 dotP crossP stopAtHit ballBox snapGrid)
open Verif.Triangulation.Spec (Triangulates PolyEdge Uses ShareLabel polyArea2 pt)

variable {I : Input} {m : Mesh} {s s' : State}

/-! ### the area of the polygon -/

/-- Twice the signed area between a segment and the origin. -/
def cross2 (p q : ℝ × ℝ) : ℝ := p.1 * q.2 - q.1 * p.2

/-- ... of a path. -/
def pathSum : List (ℝ × ℝ) → ℝ
  | [] => 0
  | [_] => 0
  | p :: q :: l => cross2 p q + pathSum (q :: l)

theorem pathSum_append (l : List (ℝ × ℝ)) (x : ℝ × ℝ) (l' : List (ℝ × ℝ)) : pathSum (l ++ x :: l') = pathSum (l ++ [x]) + pathSum (x :: l') := by
  induction l with
  | nil => simp [pathSum]
  | cons a l ih =>
      cases l with
      | nil => simp [pathSum]
      | cons b l =>
          simp only [List.cons_append, pathSum] at ih ⊢
          rw [ih]; ring

theorem pathSum_sum (l : List (ℝ × ℝ)) : pathSum l = ∑ i ∈ Finset.range (l.length - 1), cross2 (pt l i) (pt l (i + 1)) := by
  induction l with
  | nil => simp [pathSum]
  | cons a l ih =>
      cases l with
      | nil => simp [pathSum]
      | cons b l =>
          have e : (a :: b :: l).length - 1 = ((b :: l).length - 1) + 1 := by simp
          rw [e, Finset.sum_range_succ', pathSum, ih, add_comm]
          congr 1

theorem polyArea2_path (x : ℝ × ℝ) (l : List (ℝ × ℝ)) : polyArea2 (x :: l) = pathSum (x :: l ++ [x]) := by
  rw [pathSum_sum]
  unfold polyArea2
  have e : (x :: l ++ [x]).length - 1 = (x :: l).length := by simp
  rw [e]
  refine Finset.sum_congr rfl fun i hi => ?_
  have hi := Finset.mem_range.1 hi
  have h1 : pt (x :: l ++ [x]) i = pt (x :: l) i := by
    unfold pt
    rw [List.getD_eq_getElem?_getD, List.getD_eq_getElem?_getD, List.getElem?_append_left hi]
  have h2 : pt (x :: l ++ [x]) (i + 1) = pt (x :: l) ((i + 1) % (x :: l).length) := by
    unfold pt
    rw [List.getD_eq_getElem?_getD, List.getD_eq_getElem?_getD]
    by_cases hlt : i + 1 < (x :: l).length
    · rw [Nat.mod_eq_of_lt hlt, List.getElem?_append_left hlt]
    · have he : i + 1 = (x :: l).length := by omega
      rw [he, Nat.mod_self, List.getElem?_append_right (le_refl _)]
      simp
  rw [h1, h2]
  rfl

/-- On the line through two points. -/
def OnLine (a b x : ℝ × ℝ) : Prop := ∃ t : ℝ, x = (a.1 + t * (b.1 - a.1), a.2 + t * (b.2 - a.2))

theorem pathSum_line {a b : ℝ × ℝ} (l : List (ℝ × ℝ)) (h : ∀ x ∈ l, OnLine a b x) : ∀ t : ℝ,
    pathSum ((a.1 + t * (b.1 - a.1), a.2 + t * (b.2 - a.2)) :: l ++ [b]) = (1 - t) * cross2 a b := by
  induction l with
  | nil => intro t; simp only [List.cons_append, List.nil_append, pathSum, cross2]; ring
  | cons x l ih =>
      intro t
      obtain ⟨u, rfl⟩ := h x (by simp)
      simp only [List.cons_append, pathSum] at ih ⊢
      rw [ih (fun y hy => h y (by simp [hy])) u]
      unfold cross2; ring

theorem pathSum_side {a b : ℝ × ℝ} (l : List (ℝ × ℝ)) (h : ∀ x ∈ l, OnLine a b x) : pathSum (a :: l ++ [b]) = cross2 a b := by
  have := pathSum_line l h 0
  simpa using this

theorem polyArea2_triangle {a b c : ℝ × ℝ} {l1 l2 l3 : List (ℝ × ℝ)} (h1 : ∀ x ∈ l1, OnLine a b x) (h2 : ∀ x ∈ l2, OnLine b c x) (h3 : ∀ x ∈ l3, OnLine c a x) :
    polyArea2 (a :: l1 ++ b :: l2 ++ c :: l3) = cross2 a b + cross2 b c + cross2 c a := by
  have e : a :: l1 ++ b :: l2 ++ c :: l3 = a :: (l1 ++ b :: l2 ++ c :: l3) := by simp
  rw [e, polyArea2_path]
  have e1 : a :: (l1 ++ b :: l2 ++ c :: l3) ++ [a] = (a :: l1) ++ b :: (l2 ++ c :: (l3 ++ [a])) := by simp
  rw [e1, pathSum_append]
  have e2 : b :: (l2 ++ c :: (l3 ++ [a])) = (b :: l2) ++ c :: (l3 ++ [a]) := by simp
  rw [e2, pathSum_append (b :: l2) c]
  have e3 : c :: (l3 ++ [a]) = c :: l3 ++ [a] := by simp
  rw [e3, pathSum_side _ h1, pathSum_side _ h2, pathSum_side _ h3]
  ring

/-! ### the frame -/

theorem dotP_smul (a : ℝ) (u v : P3) : dotP u (a • v) = a * dotP u v := by
  unfold dotP; simp only [Prod.smul_fst, Prod.smul_snd, smul_eq_mul]; ring

theorem sqrt_inv_mul {x : ℝ} (h : 0 < x) : 0 < 1 / √x := by positivity

theorem frame_area {fr : Frame} {fi : Nat} (h : frame m s fi = .ok fr) :
    0 < cross2 (project fr (s.aq (m.face fi).1)) (project fr (s.aq (m.face fi).2.1)) + cross2 (project fr (s.aq (m.face fi).2.1)) (project fr (s.aq (m.face fi).2.2)) +
      cross2 (project fr (s.aq (m.face fi).2.2)) (project fr (s.aq (m.face fi).1)) := by
  unfold frame at h
  dsimp only at h
  split at h
  · cases h
  rename_i hn
  rw [not_not] at hn
  simp only [Outcome.ok.injEq] at h
  subst h
  generalize s.aq (m.face fi).1 = a at *
  generalize s.aq (m.face fi).2.1 = b at *
  generalize s.aq (m.face fi).2.2 = c at *
  have hab : 0 < dotP (b - a) (b - a) := by
    by_contra hc
    have h0 : dotP (b - a) (b - a) = 0 := le_antisymm (not_lt.1 hc) (by unfold dotP; nlinarith [sq_nonneg (b - a).1, sq_nonneg (b - a).2.1, sq_nonneg (b - a).2.2])
    unfold dotP at h0
    have e1 : (b - a).1 = 0 := by nlinarith [sq_nonneg (b - a).1, sq_nonneg (b - a).2.1, sq_nonneg (b - a).2.2]
    have e2 : (b - a).2.1 = 0 := by nlinarith [sq_nonneg (b - a).1, sq_nonneg (b - a).2.1, sq_nonneg (b - a).2.2]
    have e3 : (b - a).2.2 = 0 := by nlinarith [sq_nonneg (b - a).1, sq_nonneg (b - a).2.1, sq_nonneg (b - a).2.2]
    have : dotP (crossP (b - a) (c - a)) (crossP (b - a) (c - a)) = 0 := by
      unfold dotP crossP; simp only [e1, e2, e3]; ring
    rw [this] at hn
    exact lt_irrefl _ hn
  have hperp : dotP (crossP (crossP (b - a) (c - a)) (b - a)) (crossP (crossP (b - a) (c - a)) (b - a)) =
      dotP (crossP (b - a) (c - a)) (crossP (b - a) (c - a)) * dotP (b - a) (b - a) := by
    unfold dotP crossP; ring
  have hpp : 0 < dotP (crossP (crossP (b - a) (c - a)) (b - a)) (crossP (crossP (b - a) (c - a)) (b - a)) := by rw [hperp]; positivity
  have k1 := sqrt_inv_mul hab
  have k2 := sqrt_inv_mul hpp
  unfold project normalized
  simp only [dotP_smul]
  generalize 1 / √(dotP (b - a) (b - a)) = x at *
  generalize 1 / √(dotP (crossP (crossP (b - a) (c - a)) (b - a)) (crossP (crossP (b - a) (c - a)) (b - a))) = y at *
  have e0 : dotP (a - a) (b - a) = 0 := by simp [dotP]
  have e0' : dotP (a - a) (crossP (crossP (b - a) (c - a)) (b - a)) = 0 := by simp [dotP]
  have e1 : dotP (b - a) (crossP (crossP (b - a) (c - a)) (b - a)) = 0 := by unfold dotP crossP; ring
  have e2 : dotP (c - a) (crossP (crossP (b - a) (c - a)) (b - a)) = dotP (crossP (b - a) (c - a)) (crossP (b - a) (c - a)) := by
    unfold dotP crossP; ring
  simp only [cross2, e0, e0', e1, e2]
  have : 0 < (x * dotP (b - a) (b - a)) * (y * dotP (crossP (b - a) (c - a)) (crossP (b - a) (c - a))) := by positivity
  linarith

theorem project_line (fr : Frame) {a b x : P3} {t : ℝ} (h : x = a + t • (b - a)) : OnLine (project fr a) (project fr b) (project fr x) := by
  subst h
  refine ⟨t, ?_⟩
  unfold project dotP
  simp only [Prod.fst_sub, Prod.snd_sub, Prod.fst_add, Prod.snd_add, Prod.smul_fst, Prod.smul_snd, smul_eq_mul]
  ext <;> simp only <;> ring

theorem OnLine.symm {a b x : ℝ × ℝ} (h : OnLine a b x) : OnLine b a x := by
  obtain ⟨t, rfl⟩ := h
  exact ⟨1 - t, by ext <;> simp only <;> ring⟩

/-! ### patches -/

/-- The vertices in chains are on their edges. -/
def OnEdges (s : State) : Prop := ∀ e, ∀ x ∈ s.chains e, ∃ t : ℝ, s.aq x.2 = s.aq e.1 + t • (s.aq e.2 - s.aq e.1)

theorem chainRows_line (h : OnEdges s) (fr : Frame) (a b : Nat) : ∀ x ∈ (chainRows s a b).map (fun v => project fr (s.aq v)), OnLine (project fr (s.aq a)) (project fr (s.aq b)) x := by
  intro x hx
  obtain ⟨v, hv, rfl⟩ := List.mem_map.1 hx
  have hv' : v ∈ (s.chains (edgeOf a b)).map (·.2) := by
    unfold chainRows at hv
    dsimp only at hv
    split at hv
    · exact hv
    · exact List.mem_reverse.1 hv
  obtain ⟨y, hy, rfl⟩ := List.mem_map.1 hv'
  obtain ⟨t, ht⟩ := h _ y hy
  have := project_line fr ht
  unfold edgeOf at this
  dsimp only at this
  rcases Nat.le_total a b with hab | hab
  · rwa [Nat.min_eq_left hab, Nat.max_eq_right hab] at this
  · rw [Nat.min_eq_right hab, Nat.max_eq_left hab] at this
    exact this.symm

theorem patch_area (h : OnEdges s) {fr : Frame} {fi : Nat} (hf : frame m s fi = .ok fr) :
    0 < polyArea2 ((boundaryIds s (m.face fi)).map fun v => project fr (s.aq v)) := by
  unfold boundaryIds
  simp only [List.map_append, List.map_cons]
  rw [polyArea2_triangle (chainRows_line h fr _ _) (chainRows_line h fr _ _) (chainRows_line h fr _ _)]
  exact frame_area hf

theorem labels_length (s : State) (f : Face) : (boundaryLabels s f).length = (boundaryIds s f).length := by
  unfold boundaryLabels boundaryIds
  simp only [List.length_append, List.length_cons, List.length_map]

theorem boundary_three (s : State) (f : Face) : 3 ≤ (boundaryIds s f).length := by
  unfold boundaryIds
  simp only [List.length_append, List.length_cons]
  omega

/-- The faces triangulate the patch, as a surface. -/
def TriP (m : Mesh) (s : State) (fi : Nat) (fs : List Face) : Prop :=
  ∃ T, Triangulates (boundaryIds s (m.face fi)).length (s.interior fi).length False T ∧
    (∀ u v, Uses T u v → u < (boundaryIds s (m.face fi)).length → v < (boundaryIds s (m.face fi)).length → ShareLabel (boundaryLabels s (m.face fi)) u v →
      PolyEdge (boundaryIds s (m.face fi)).length False u v ∨ PolyEdge (boundaryIds s (m.face fi)).length False v u) ∧
    fs = T.map (mapFace (rowOf s (m.face fi) fi))

theorem triangulates_single : Triangulates 3 0 False [(0, 1, 2)] := by
  refine ⟨?_, ?_, ?_, ?_, ?_⟩
  · intro f hf; rw [List.mem_singleton] at hf; subst hf; exact ⟨by decide, by decide, by decide⟩
  · intro f hf v hv; rw [List.mem_singleton] at hf; subst hf
    rcases hv with rfl | rfl | rfl <;> simp
  · intro i j f g a b hi hj _ _
    have := (List.getElem?_eq_some_iff.1 hi).1
    have := (List.getElem?_eq_some_iff.1 hj).1
    simp at *; omega
  · intro i j f g hi hj _
    have := (List.getElem?_eq_some_iff.1 hi).1
    have := (List.getElem?_eq_some_iff.1 hj).1
    simp at *; omega
  · intro u v
    have hU : ∀ u v, Uses [((0, 1, 2) : Face)] u v ↔ (u = 0 ∧ v = 1) ∨ (u = 1 ∧ v = 2) ∨ (u = 2 ∧ v = 0) := by
      intro u v
      unfold Uses
      simp only [List.mem_singleton, exists_eq_left, Side]
      constructor
      · rintro (⟨rfl, rfl⟩ | ⟨rfl, rfl⟩ | ⟨rfl, rfl⟩) <;> simp
      · rintro (⟨rfl, rfl⟩ | ⟨rfl, rfl⟩ | ⟨rfl, rfl⟩) <;> simp
    rw [hU, hU]
    unfold PolyEdge
    simp only [not_false_eq_true, true_and, false_and, or_false]
    constructor
    · rintro ⟨⟨rfl, rfl⟩ | ⟨rfl, rfl⟩ | ⟨rfl, rfl⟩, -⟩ <;> decide
    · rintro ⟨hu, rfl⟩
      have : u = 0 ∨ u = 1 ∨ u = 2 := by omega
      rcases this with rfl | rfl | rfl <;> simp

theorem plain_ids {fi : Nat} (h : Plain m s fi) : boundaryIds s (m.face fi) = [(m.face fi).1, (m.face fi).2.1, (m.face fi).2.2] := by
  obtain ⟨-, h1, h2, h3⟩ := h
  unfold boundaryIds chainRows
  simp [h1, h2, h3]

theorem triP_plain {fi : Nat} (h : Plain m s fi) : TriP m s fi [m.face fi] := by
  have e := plain_ids h
  refine ⟨[(0, 1, 2)], ?_, ?_, ?_⟩
  · rw [e, h.1]; exact triangulates_single
  · intro u v hu h1 h2 _
    rw [e] at h1 h2 ⊢
    obtain ⟨f, hf, hs⟩ := hu
    rw [List.mem_singleton] at hf
    subst hf
    left
    rcases hs with ⟨rfl, rfl⟩ | ⟨rfl, rfl⟩ | ⟨rfl, rfl⟩ <;> exact Or.inl ⟨not_false, by simp, by simp⟩
  · simp [mapFace, rowOf, e]

theorem triP_congr {fi : Nat} {fs : List Face} (hc : s'.chains = s.chains) (hi : s'.interior fi = s.interior fi) (h : TriP m s fi fs) : TriP m s' fi fs := by
  have e1 : ∀ a b, chainRows s' a b = chainRows s a b := fun a b => by unfold chainRows; rw [hc]
  have e2 : ∀ f, boundaryIds s' f = boundaryIds s f := fun f => by unfold boundaryIds; simp only [e1]
  have e3 : ∀ f, boundaryLabels s' f = boundaryLabels s f := fun f => by unfold boundaryLabels; simp only [e1]
  have e4 : ∀ f, rowOf s' f fi = rowOf s f fi := fun f => by funext i; unfold rowOf; rw [e2, hi]
  unfold TriP
  simp only [e2, e3, e4, hi]
  exact h

/-- The chains of the sides and the interior vertices are the same. -/
theorem triP_congr' {fi : Nat} {fs : List Face} (h1 : s'.chains (edgeOf (m.face fi).1 (m.face fi).2.1) = s.chains (edgeOf (m.face fi).1 (m.face fi).2.1))
    (h2 : s'.chains (edgeOf (m.face fi).2.1 (m.face fi).2.2) = s.chains (edgeOf (m.face fi).2.1 (m.face fi).2.2))
    (h3 : s'.chains (edgeOf (m.face fi).2.2 (m.face fi).1) = s.chains (edgeOf (m.face fi).2.2 (m.face fi).1))
    (hi : s'.interior fi = s.interior fi) (h : TriP m s fi fs) : TriP m s' fi fs := by
  have e2 : boundaryIds s' (m.face fi) = boundaryIds s (m.face fi) := by unfold boundaryIds chainRows; simp only [h1, h2, h3]
  have e3 : boundaryLabels s' (m.face fi) = boundaryLabels s (m.face fi) := by unfold boundaryLabels chainRows; simp only [h1, h2, h3]
  have e4 : rowOf s' (m.face fi) fi = rowOf s (m.face fi) fi := by funext i; unfold rowOf; rw [e2, hi]
  unfold TriP
  simp only [e2, e3, e4, hi]
  exact h

theorem triangulatePatch_spec (h : OnEdges s) {fi : Nat} {fs : List Face} {simple : Bool} (e : triangulatePatch m s fi = .ok (fs, simple)) (hs : simple = true) :
    TriP m s fi fs := by
  unfold triangulatePatch at e
  dsimp only at e
  split at e
  · rename_i hp
    simp only [Outcome.ok.injEq, Prod.mk.injEq] at e
    rw [← e.1]
    exact triP_plain hp
  · obtain ⟨fr, e1, e2⟩ := Outcome.bind_eq_ok.1 e
    obtain ⟨r, e3, e4⟩ := Outcome.bind_eq_ok.1 e2
    simp only [Outcome.ok.injEq, Prod.mk.injEq] at e4
    have hnb : (Triangulation.Input.exact ((boundaryIds s (m.face fi)).map fun v => project fr (s.aq v)) ((s.interior fi).map fun v => project fr (s.aq v))
        (boundaryLabels s (m.face fi))).nb = (boundaryIds s (m.face fi)).length := by simp [Triangulation.Input.exact]
    have hni : (Triangulation.Input.exact ((boundaryIds s (m.face fi)).map fun v => project fr (s.aq v)) ((s.interior fi).map fun v => project fr (s.aq v))
        (boundaryLabels s (m.face fi))).ni = (s.interior fi).length := by simp [Triangulation.Input.exact]
    have harea := Triangulation.exact_area2 (bd := (boundaryIds s (m.face fi)).map fun v => project fr (s.aq v))
      (inn := (s.interior fi).map fun v => project fr (s.aq v)) (labels := boundaryLabels s (m.face fi))
    have hrev : ((Triangulation.Input.exact ((boundaryIds s (m.face fi)).map fun v => project fr (s.aq v)) ((s.interior fi).map fun v => project fr (s.aq v))
        (boundaryLabels s (m.face fi))).area2 < 0) = False := by
      rw [harea]
      exact eq_false (not_lt.2 (patch_area h e1).le)
    obtain ⟨r', c1, -, c3⟩ := Triangulation.C62_topology (I := Triangulation.Input.exact ((boundaryIds s (m.face fi)).map fun v => project fr (s.aq v))
      ((s.interior fi).map fun v => project fr (s.aq v)) (boundaryLabels s (m.face fi))) (by rw [hnb]; exact boundary_three _ _)
      (Or.inr (by rw [hnb]; exact (labels_length _ _).ge))
    rw [e3] at c1
    simp only [Outcome.ok.injEq] at c1
    subst c1
    obtain ⟨d1, -, d3⟩ := c3 (by rw [e4.2, hs])
    rw [hnb, hni, hrev] at d1
    rw [hnb, hrev] at d3
    exact ⟨r.faces, d1, d3, e4.1.symm⟩

end Verif.Snapper
