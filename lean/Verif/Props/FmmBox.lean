import Verif.Lemmas.FmmBox
import Verif.Model.Interpolant
import Verif.Props.FieldLocal

/-!
# C75: what is evaluated lies inside of the cube of the tree
-/

namespace Verif.FmmBox

open Verif Verif.Bbox

variable {d : Nat}

/-! ## Points and their box -/

theorem contains_finite {lo hi p : Fin d → ℝ} : (finite lo hi).contains p ↔ ∀ j, lo j ≤ p j ∧ p j ≤ hi j := by
  unfold Box.contains finite
  constructor
  · rintro ⟨h1, h2⟩ j
    exact ⟨EReal.coe_le_coe_iff.1 (h1 j), EReal.coe_le_coe_iff.1 (h2 j)⟩
  · intro h
    exact ⟨fun j => EReal.coe_le_coe_iff.2 (h j).1, fun j => EReal.coe_le_coe_iff.2 (h j).2⟩

theorem exists_least (f : α → ℝ) : ∀ l : List α, l ≠ [] → ∃ x ∈ l, ∀ y ∈ l, f x ≤ f y
  | [], h => absurd rfl h
  | [a], _ => ⟨a, by simp, by simp⟩
  | a :: b :: l, _ => by
    obtain ⟨x, hx, h⟩ := exists_least f (b :: l) (by simp)
    rcases le_total (f a) (f x) with hax | hax
    · refine ⟨a, by simp, fun y hy => ?_⟩
      rcases List.mem_cons.1 hy with rfl | hy
      · exact le_refl _
      · exact hax.trans (h y hy)
    · refine ⟨x, List.mem_cons_of_mem _ hx, fun y hy => ?_⟩
      rcases List.mem_cons.1 hy with rfl | hy
      · exact hax
      · exact h y hy

/-- the box of some points is finite -/
theorem fromPoints_finite (ps : List (Fin d → ℝ)) (hne : ps ≠ []) : ∃ lo hi, fromPoints (rows ps) = finite lo hi ∧ (∀ j, lo j ≤ hi j) ∧
    ∀ p ∈ ps, ∀ j, lo j ≤ p j ∧ p j ≤ hi j := by
  obtain ⟨l, u, h, h1, h2⟩ := fromPoints_mk ps
  have hl : ∀ j, ∃ x : ℝ, l j = x := by
    intro j
    obtain ⟨p, hp, hmin⟩ := exists_least (fun p => p j) ps hne
    refine ⟨p j, le_antisymm ((h1 j _).1 (le_refl _) p hp) ((h1 j _).2 fun q hq => EReal.coe_le_coe_iff.2 (hmin q hq))⟩
  have hu : ∀ j, ∃ x : ℝ, u j = x := by
    intro j
    obtain ⟨p, hp, hmax⟩ := exists_least (fun p => -p j) ps hne
    refine ⟨p j, le_antisymm ((h2 j _).2 fun q hq => EReal.coe_le_coe_iff.2 (neg_le_neg_iff.1 (hmax q hq))) ((h2 j _).1 (le_refl _) p hp)⟩
  choose lo hlo using hl
  choose hi hhi using hu
  have hf : fromPoints (rows ps) = finite lo hi := by
    rw [h]
    ext1 <;> funext j
    · show some (l j) = _; rw [hlo]; rfl
    · show some (u j) = _; rw [hhi]; rfl
  have hin : ∀ p ∈ ps, ∀ j, lo j ≤ p j ∧ p j ≤ hi j := fun p hp => contains_finite.1 (hf ▸ (C39_from_points ps).2.1 p hp)
  refine ⟨lo, hi, hf, fun j => ?_, hin⟩
  obtain ⟨p, hp⟩ := List.exists_mem_of_ne_nil _ hne
  exact (hin p hp j).1.trans (hin p hp j).2

theorem half_dist {lo hi p δ : ℝ} (h1 : lo - δ ≤ p) (h2 : p ≤ hi + δ) : |p - (lo + (hi - lo) / 2)| ≤ (hi - lo) / 2 + δ := by
  rw [abs_le]
  constructor <;> linarith

/-- **C75, the cube.** For the cube of a non-empty finite box and any anisotropy: the transformed points of the box are strictly inside of it, and
so are those of the box widened by less than half a percent on each side. -/
theorem C75_cube (hd : 0 < d) (a : Matrix (Fin d) (Fin d) ℝ) (lo hi : Fin d → ℝ) (hle : ∀ j, lo j ≤ hi j) (p : Fin d → ℝ)
    (hp : ∀ j, (lo j ≤ p j ∧ p j ≤ hi j) ∨ ∃ δ < 0.005 * (hi j - lo j), lo j - δ ≤ p j ∧ p j ≤ hi j + δ) :
    (makeBox a (finite lo hi)).Inside (a.mulVec p) := by
  refine inside_of hd a hle fun j => ?_
  rcases hp j with ⟨h1, h2⟩ | ⟨δ, hδ, h1, h2⟩
  · left
    have := half_dist (lo := lo j) (hi := hi j) (p := p j) (δ := 0) (by linarith) (by linarith)
    rw [add_zero] at this
    exact this
  · right
    have := half_dist h1 h2
    unfold center
    norm_num at hδ ⊢
    linarith

/-- **C75, points.** The cube for the bounding box of some points contains all of them, strictly inside, however they coincide and whatever the
anisotropy. -/
theorem C75_points (hd : 0 < d) (a : Matrix (Fin d) (Fin d) ℝ) (ps : List (Fin d → ℝ)) (p : Fin d → ℝ) (hp : p ∈ ps) :
    (makeBox a (fromPoints (rows ps))).Inside (a.mulVec p) := by
  obtain ⟨lo, hi, h, hle, hin⟩ := fromPoints_finite ps (List.ne_nil_of_mem hp)
  rw [h]
  exact C75_cube hd a lo hi hle p fun j => Or.inl (hin p hp j)

/-! ## The interpolant -/

/-- The boxes of an interpolant are bounding boxes, `pos` being the coordinates of its points. -/
structure Boxes (env : Interpolant.Env (Box d)) (pos : Interpolant.Pt → Fin d → ℝ) : Prop where
  empty : env.empty = Bbox.empty
  fromPoints : ∀ ps, env.fromPoints ps = Bbox.fromPoints (rows (ps.map pos))
  hull : env.hull = Box.hull

variable {env : Interpolant.Env (Box d)} {pos : Interpolant.Pt → Fin d → ℝ}

theorem Boxes.append (h : Boxes env pos) (ps qs : List Interpolant.Pt) : env.hull (env.fromPoints ps) (env.fromPoints qs) = env.fromPoints (ps ++ qs) := by
  rw [h.hull, h.fromPoints, h.fromPoints, h.fromPoints, List.map_append, C39_from_points_append]

/-- the box of an interpolant is that of its centers -/
def Kept (env : Interpolant.Env (Box d)) (s : Interpolant.State (Box d)) : Prop := s.bbox = env.fromPoints (s.centers ++ s.gradCenters)

theorem kept_clear (h : Boxes env pos) (s : Interpolant.State (Box d)) : Kept env (Interpolant.clear env s) := by
  unfold Kept Interpolant.clear
  dsimp only
  rw [h.empty, h.fromPoints]
  rfl

theorem checked_cases {s : Interpolant.State (Box d)} {α : Type} {x : Outcome α} {k : α → Interpolant.State (Box d) × Outcome (Interpolant.Res (Box d))} (P : Interpolant.State (Box d) → Prop)
    (h0 : P s) (h1 : ∀ a, P (k a).1) : P (Interpolant.checked s x k).1 := by
  unfold Interpolant.checked
  cases x with
  | ok a => exact h1 a
  | throws e => exact h0
  | ub => exact h0

theorem kept_step (h : Boxes env pos) (s : Interpolant.State (Box d)) (hs : Kept env s) (op : Interpolant.Op (Box d)) : Kept env (Interpolant.step env s op).1 := by
  cases op with
  | fit p g v t gt n a ga i f =>
    unfold Interpolant.step Interpolant.fit
    dsimp only
    split
    · exact hs
    · refine checked_cases (Kept env) hs fun w0 => ?_
      split
      · exact h.append _ _
      · exact kept_clear h s
      · exact kept_clear h s
  | fitIncrementally p g v t gt n a ga f =>
    unfold Interpolant.step Interpolant.fitIncrementally
    dsimp only
    split
    · exact hs
    · refine checked_cases (Kept env) hs fun w0 => ?_
      split
      · exact h.append _ _
      · exact kept_clear h s
      · exact kept_clear h s
  | fitInequality p v lb ub t n a i f =>
    unfold Interpolant.step Interpolant.fitInequality
    dsimp only
    split
    · exact hs
    · refine checked_cases (Kept env) hs fun w0 => ?_
      split
      · show env.fromPoints _ = env.fromPoints (_ ++ [])
        rw [List.append_nil]
      · exact kept_clear h s
      · exact kept_clear h s
  | evaluate p g a ga =>
    unfold Interpolant.step Interpolant.evaluate
    dsimp only
    split
    · exact hs
    · rename_i hf
      refine checked_cases (Kept env) hs fun w0 => ?_
      unfold Interpolant.setEvaluationBbox
      rw [if_neg hf]
      exact hs
  | setEvaluationBbox b a ga =>
    unfold Interpolant.step Interpolant.setEvaluationBbox
    dsimp only
    split <;> exact hs
  | evaluateImpl p g => exact hs
  | bbox => exact hs
  | centers => exact hs
  | gradCenters => exact hs
  | weights => exact hs

theorem kept_run (h : Boxes env pos) : ∀ (ops : List (Interpolant.Op (Box d))) (s : Interpolant.State (Box d)), Kept env s → Kept env (Interpolant.run env s ops).1
  | [], _, hs => hs
  | op :: ops, s, hs => kept_run h ops _ (kept_step h s hs op)

/-- **C75, `Interpolant::evaluate`.** After any history of calls, with any arguments: the evaluator with which `evaluate` computes its values is built
with a box for which all centers and all given points are strictly inside of the cube, for every anisotropy a covariance function of the model
may have. -/
theorem C75_interpolant (hd : 0 < d) (h : Boxes env pos) (m : RbfModel.Mdl) (ops : List (Interpolant.Op (Box d))) (p g : List Interpolant.Pt) (acc gacc : RbfModel.Dbl)
    (s s' : Interpolant.State (Box d)) (r : Interpolant.Res (Box d)) (hs : (Interpolant.run env (Interpolant.new env m) ops).1 = s)
    (he : Interpolant.step env s (.evaluate p g acc gacc) = (s', .ok r)) :
    ∃ e, s'.evaluator = some e ∧ r = .vec (env.eval e p g) ∧ e.centers = s.centers ∧ e.gradCenters = s.gradCenters ∧
      ∀ (a : Matrix (Fin d) (Fin d) ℝ), ∀ q ∈ p ++ g ++ (e.centers ++ e.gradCenters), (makeBox a e.bbox).Inside (a.mulVec (pos q)) := by
  have hk : Kept env s := hs ▸ kept_run h ops _ (kept_clear h (Interpolant.new env m))
  unfold Interpolant.step Interpolant.evaluate at he
  dsimp only at he
  split at he
  · cases he
  · rename_i hf
    unfold Interpolant.checked at he
    split at he
    · unfold Interpolant.setEvaluationBbox at he
      rw [if_neg hf] at he
      dsimp only at he
      unfold Interpolant.evaluateImpl at he
      dsimp only at he
      rw [if_neg hf] at he
      obtain ⟨rfl, e2⟩ := Prod.mk.inj he
      obtain rfl := Outcome.ok.inj e2
      refine ⟨_, rfl, rfl, rfl, rfl, fun a q hq => ?_⟩
      dsimp only at hq ⊢
      have hb : env.hull (env.hull (env.fromPoints p) (env.fromPoints g)) s.bbox = Bbox.fromPoints (rows ((p ++ g ++ (s.centers ++ s.gradCenters)).map pos)) := by
        rw [hk, h.append, h.append, h.fromPoints]
      rw [hb]
      exact C75_points hd a _ _ (List.mem_map_of_mem hq)
    · cases he
    · cases he

/-- **C75, `set_evaluation_bbox`** with a non-empty finite box, after any history: the evaluator is built with a box for which all centers and all
points of the given box - widened by less than half a percent on each side - are strictly inside of the cube. -/
theorem C75_announced (hd : 0 < d) (h : Boxes env pos) (m : RbfModel.Mdl) (ops : List (Interpolant.Op (Box d))) (lo hi : Fin d → ℝ) (hle : ∀ j, lo j ≤ hi j)
    (acc gacc : RbfModel.Dbl) (s s' : Interpolant.State (Box d)) (r : Interpolant.Res (Box d)) (hs : (Interpolant.run env (Interpolant.new env m) ops).1 = s)
    (he : Interpolant.step env s (.setEvaluationBbox (finite lo hi) acc gacc) = (s', .ok r)) :
    ∃ e, s'.evaluator = some e ∧ e.centers = s.centers ∧ e.gradCenters = s.gradCenters ∧
      ∀ (a : Matrix (Fin d) (Fin d) ℝ), (∀ q ∈ e.centers ++ e.gradCenters, (makeBox a e.bbox).Inside (a.mulVec (pos q))) ∧
        ∀ q : Fin d → ℝ, (∀ j, (lo j ≤ q j ∧ q j ≤ hi j) ∨ ∃ δ < 0.005 * (hi j - lo j), lo j - δ ≤ q j ∧ q j ≤ hi j + δ) → (makeBox a e.bbox).Inside (a.mulVec q) := by
  have hk : Kept env s := hs ▸ kept_run h ops _ (kept_clear h (Interpolant.new env m))
  unfold Interpolant.step Interpolant.setEvaluationBbox at he
  dsimp only at he
  split at he
  · cases he
  · obtain ⟨rfl, -⟩ := Prod.mk.inj he
    refine ⟨_, rfl, rfl, rfl, fun a => ?_⟩
    dsimp only
    have hb : fromPoints (rows [lo, hi]) = finite lo hi := by
      obtain ⟨lo', hi', h1, h2, h3⟩ := fromPoints_finite [lo, hi] (by simp)
      have hleast := (C39_from_points [lo, hi]).2.2.1 (finite lo hi) ⟨fun j => by simp [finite, Dbl.fin], fun j => by simp [finite, Dbl.fin]⟩ (by
        intro p hp
        rw [contains_finite]
        intro j
        simp only [List.mem_cons, List.not_mem_nil, or_false] at hp
        rcases hp with rfl | rfl
        · exact ⟨le_refl _, hle j⟩
        · exact ⟨hle j, le_refl _⟩)
      rw [h1] at hleast ⊢
      have hj : ∀ j, lo j ≤ lo' j ∧ hi' j ≤ hi j := fun j => ⟨EReal.coe_le_coe_iff.1 (hleast j).1, EReal.coe_le_coe_iff.1 (hleast j).2⟩
      have e1 : lo' = lo := funext fun j => le_antisymm (h3 lo (by simp) j).1 (hj j).1
      have e2 : hi' = hi := funext fun j => le_antisymm (hj j).2 (h3 hi (by simp) j).2
      rw [e1, e2]
    have hbox : env.hull (finite lo hi) s.bbox = fromPoints (rows ([lo, hi] ++ (s.centers ++ s.gradCenters).map pos)) := by
      rw [hk, h.fromPoints, h.hull, C39_from_points_append, hb]
    rw [hbox]
    refine ⟨fun q hq => C75_points hd a _ _ (List.mem_append_right _ (List.mem_map_of_mem hq)), fun q hq => ?_⟩
    obtain ⟨lo', hi', h1, h2, h3⟩ := fromPoints_finite ([lo, hi] ++ (s.centers ++ s.gradCenters).map pos) (by simp)
    rw [h1]
    refine C75_cube hd a lo' hi' h2 q fun j => ?_
    have hl := (h3 lo (by simp) j).1
    have hh := (h3 hi (by simp) j).2
    rcases hq j with ⟨q1, q2⟩ | ⟨δ, hδ, q1, q2⟩
    · exact Or.inl ⟨hl.trans q1, q2.trans hh⟩
    · refine Or.inr ⟨δ, ?_, by linarith, by linarith⟩
      have : (0.005 : ℝ) * (hi j - lo j) ≤ 0.005 * (hi' j - lo' j) := by nlinarith
      linarith

end Verif.FmmBox
