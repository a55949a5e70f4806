import Verif.Model.Bbox
import Mathlib.Data.Nat.Bitwise
import Mathlib.Tactic.Linarith
import Mathlib.Tactic.FinCases
import Mathlib.Tactic.Ring
import Mathlib.LinearAlgebra.Matrix.Notation
import Mathlib.Tactic.Positivity
import Mathlib.Tactic.Push

/-!
# C39: bounding boxes
-/

namespace Verif.Bbox

open Verif

variable {d : Nat}

/-- No coordinate is NaN. -/
def Box.Valid (b : Box d) : Prop := (∀ j, b.min j ≠ none) ∧ ∀ j, b.max j ≠ none

/-- `a` lies in `b`, as a box. -/
def Box.Le (a b : Box d) : Prop := ∀ j, (b.min j).le (a.min j) ∧ (a.max j).le (b.max j)

/-! ## Coordinates -/

theorem min_some (a b : EReal) : Dbl.min (some a) (some b) = some (a ⊓ b) := by
  unfold Dbl.min
  by_cases h : b < a
  · rw [if_pos (show Dbl.lt (some b) (some a) from h), min_eq_right h.le]
  · rw [if_neg (show ¬ Dbl.lt (some b) (some a) from h), min_eq_left (not_lt.1 h)]

theorem max_some (a b : EReal) : Dbl.max (some a) (some b) = some (a ⊔ b) := by
  unfold Dbl.max
  by_cases h : a < b
  · rw [if_pos (show Dbl.lt (some a) (some b) from h), max_eq_right h.le]
  · rw [if_neg (show ¬ Dbl.lt (some a) (some b) from h), max_eq_left (not_lt.1 h)]

/-- A valid box, by its extended real coordinates. -/
noncomputable def mk (lo hi : Fin d → EReal) : Box d := ⟨fun j => some (lo j), fun j => some (hi j)⟩

theorem valid_iff {b : Box d} : b.Valid ↔ ∃ lo hi, b = mk lo hi := by
  constructor
  · rintro ⟨h1, h2⟩
    have h1' : ∀ j, ∃ x, b.min j = some x := fun j => Option.ne_none_iff_exists'.1 (h1 j)
    have h2' : ∀ j, ∃ x, b.max j = some x := fun j => Option.ne_none_iff_exists'.1 (h2 j)
    choose lo hlo using h1'
    choose hi hhi using h2'
    exact ⟨lo, hi, by ext1 <;> funext j <;> simp [mk, hlo, hhi]⟩
  · rintro ⟨lo, hi, rfl⟩; exact ⟨fun j => by simp [mk], fun j => by simp [mk]⟩

theorem hull_mk (a b a' b' : Fin d → EReal) : (mk a b).hull (mk a' b') = mk (a ⊓ a') (b ⊔ b') := by
  ext1 <;> funext j <;> simp [mk, Box.hull, min_some, max_some]

theorem empty_mk : (empty : Box d) = mk ⊤ ⊥ := rfl

/-! ## The join -/

/-- **C39**: the convex hull is commutative, associative and idempotent, with the default box as its identity. -/
theorem C39_hull_semilattice (a b c : Box d) (ha : a.Valid) (hb : b.Valid) (hc : c.Valid) :
    a.hull b = b.hull a ∧ (a.hull b).hull c = a.hull (b.hull c) ∧ a.hull a = a ∧ a.hull empty = a ∧ empty.hull a = a ∧
    (a.hull b).Valid := by
  obtain ⟨l1, h1, rfl⟩ := valid_iff.1 ha
  obtain ⟨l2, h2, rfl⟩ := valid_iff.1 hb
  obtain ⟨l3, h3, rfl⟩ := valid_iff.1 hc
  rw [empty_mk]
  simp only [hull_mk]
  refine ⟨by rw [inf_comm, sup_comm], by rw [inf_assoc, sup_assoc], by rw [inf_idem, sup_idem], by simp, by simp,
    valid_iff.2 ⟨_, _, rfl⟩⟩

theorem le_mk {a b a' b' : Fin d → EReal} : (mk a b).Le (mk a' b') ↔ a' ≤ a ∧ b ≤ b' := by
  simp only [Box.Le, mk, Dbl.le, Pi.le_def, forall_and]

/-- **C39**: the convex hull is the least box holding both; a point of either box is in the hull. -/
theorem C39_hull_least (a b c : Box d) (ha : a.Valid) (hb : b.Valid) (hc : c.Valid) :
    a.Le (a.hull b) ∧ b.Le (a.hull b) ∧ (a.Le c → b.Le c → (a.hull b).Le c) ∧
    (∀ p, a.contains p ∨ b.contains p → (a.hull b).contains p) := by
  obtain ⟨l1, h1, rfl⟩ := valid_iff.1 ha
  obtain ⟨l2, h2, rfl⟩ := valid_iff.1 hb
  obtain ⟨l3, h3, rfl⟩ := valid_iff.1 hc
  rw [hull_mk]
  simp only [le_mk]
  refine ⟨⟨inf_le_left, le_sup_left⟩, ⟨inf_le_right, le_sup_right⟩, fun h h' => ⟨le_inf h.1 h'.1, sup_le h.2 h'.2⟩, ?_⟩
  rintro p (⟨h, h'⟩ | ⟨h, h'⟩)
  · exact ⟨fun j => le_trans (inf_le_left : l1 j ⊓ l2 j ≤ l1 j) (h j), fun j => le_trans (h' j) (le_sup_left : h1 j ≤ h1 j ⊔ h2 j)⟩
  · exact ⟨fun j => le_trans (inf_le_right : l1 j ⊓ l2 j ≤ l2 j) (h j), fun j => le_trans (h' j) (le_sup_right : h2 j ≤ h1 j ⊔ h2 j)⟩

/-- C39: a box that reports itself as empty contains no point. -/
theorem C39_empty_contains_nothing (b : Box d) (h : b.isEmpty) (p : Fin d → ℝ) : ¬ b.contains p := by
  rintro ⟨h1, h2⟩
  obtain ⟨j, hj⟩ := h
  have h1 := h1 j
  have h2 := h2 j
  cases hm : b.min j with
  | none => rw [hm] at h1; exact h1
  | some x =>
      cases hM : b.max j with
      | none => rw [hM] at h2; exact h2
      | some y =>
          rw [hm] at h1 hj; rw [hM] at h2 hj
          exact absurd (le_trans h1 h2) (not_le.2 hj)

/-! ## Boxes of points -/

/-- A list of finite points, as rows of doubles. -/
noncomputable def rows (ps : List (Fin d → ℝ)) : List (Fin d → Dbl) := ps.map fun p j => Dbl.fin (p j)

theorem foldl_min (ps : List (Fin d → ℝ)) (j : Fin d) : ∀ x : EReal,
    (rows ps).foldl (fun m q => Dbl.min m (q j)) (some x) = some (ps.foldl (fun m p => m ⊓ (p j : EReal)) x) := by
  induction ps with
  | nil => intro x; rfl
  | cons p ps ih => intro x; simp only [rows, List.map_cons, List.foldl_cons, Dbl.fin, min_some]; exact ih _

theorem foldl_max (ps : List (Fin d → ℝ)) (j : Fin d) : ∀ x : EReal,
    (rows ps).foldl (fun m q => Dbl.max m (q j)) (some x) = some (ps.foldl (fun m p => m ⊔ (p j : EReal)) x) := by
  induction ps with
  | nil => intro x; rfl
  | cons p ps ih => intro x; simp only [rows, List.map_cons, List.foldl_cons, Dbl.fin, max_some]; exact ih _

theorem fold_inf (j : Fin d) : ∀ (ps : List (Fin d → ℝ)) (x y : EReal),
    y ≤ ps.foldl (fun m p => m ⊓ (p j : EReal)) x ↔ y ≤ x ∧ ∀ p ∈ ps, y ≤ (p j : EReal) := by
  intro ps
  induction ps with
  | nil => intro x y; simp
  | cons p ps ih => intro x y; rw [List.foldl_cons, ih]; simp [and_assoc]

theorem fold_sup (j : Fin d) : ∀ (ps : List (Fin d → ℝ)) (x y : EReal),
    ps.foldl (fun m p => m ⊔ (p j : EReal)) x ≤ y ↔ x ≤ y ∧ ∀ p ∈ ps, (p j : EReal) ≤ y := by
  intro ps
  induction ps with
  | nil => intro x y; simp
  | cons p ps ih => intro x y; rw [List.foldl_cons, ih]; simp [and_assoc]

theorem fromPoints_mk (ps : List (Fin d → ℝ)) : ∃ lo hi : Fin d → EReal, fromPoints (rows ps) = mk lo hi ∧
    (∀ j y, y ≤ lo j ↔ ∀ p ∈ ps, y ≤ (p j : EReal)) ∧ ∀ j y, hi j ≤ y ↔ ∀ p ∈ ps, (p j : EReal) ≤ y := by
  cases ps with
  | nil => exact ⟨⊤, ⊥, rfl, by simp, by simp⟩
  | cons p ps =>
      refine ⟨fun j => ps.foldl (fun m p => m ⊓ (p j : EReal)) (p j), fun j => ps.foldl (fun m p => m ⊔ (p j : EReal)) (p j),
        ?_, ?_, ?_⟩
      · simp only [rows, List.map_cons, fromPoints, mk]
        ext1
        · funext j; exact foldl_min ps j _
        · funext j; exact foldl_max ps j _
      · intro j y; rw [fold_inf]; simp
      · intro j y; rw [fold_sup]; simp

/-- **C39**: the box of a list of points contains them all and lies in every box that does. -/
theorem C39_from_points (ps : List (Fin d → ℝ)) :
    (fromPoints (rows ps)).Valid ∧ (∀ p ∈ ps, (fromPoints (rows ps)).contains p) ∧
    (∀ c : Box d, c.Valid → (∀ p ∈ ps, c.contains p) → (fromPoints (rows ps)).Le c) ∧
    ((fromPoints (rows ps)).isEmpty ↔ ps = [] ∧ 0 < d) := by
  obtain ⟨lo, hi, h, h1, h2⟩ := fromPoints_mk ps
  rw [h]
  have hin : ∀ p ∈ ps, (mk lo hi).contains p := fun p hp =>
    ⟨fun j => (h1 j (lo j)).1 (le_refl _) p hp, fun j => (h2 j (hi j)).1 (le_refl _) p hp⟩
  refine ⟨valid_iff.2 ⟨_, _, rfl⟩, hin, ?_, ?_⟩
  · intro c hc hall
    obtain ⟨l, u, rfl⟩ := valid_iff.1 hc
    rw [le_mk]
    exact ⟨fun j => (h1 j _).2 (fun p hp => (hall p hp).1 j), fun j => (h2 j _).2 (fun p hp => (hall p hp).2 j)⟩
  · constructor
    · intro he
      refine ⟨?_, ?_⟩
      · by_contra hne
        obtain ⟨p, hp⟩ := List.exists_mem_of_ne_nil _ hne
        exact C39_empty_contains_nothing _ he p (hin p hp)
      · obtain ⟨j, -⟩ := he; exact j.pos
    · rintro ⟨rfl, hd⟩
      refine ⟨⟨0, hd⟩, ?_⟩
      have ht : lo ⟨0, hd⟩ = ⊤ := top_le_iff.1 ((h1 _ _).2 (by simp))
      have hb : hi ⟨0, hd⟩ = ⊥ := le_bot_iff.1 ((h2 _ _).2 (by simp))
      simp only [mk, Dbl.lt, ht, hb]
      exact bot_lt_top

/-- C39: the box of a list built from two lists is the hull of their boxes. -/
theorem C39_from_points_append (ps qs : List (Fin d → ℝ)) :
    fromPoints (rows (ps ++ qs)) = (fromPoints (rows ps)).hull (fromPoints (rows qs)) := by
  obtain ⟨l0, u0, h0, a0, b0⟩ := fromPoints_mk (ps ++ qs)
  obtain ⟨l1, u1, h1, a1, b1⟩ := fromPoints_mk ps
  obtain ⟨l2, u2, h2, a2, b2⟩ := fromPoints_mk qs
  rw [h0, h1, h2, hull_mk]
  have hl : l0 = l1 ⊓ l2 := by
    funext j
    apply eq_of_forall_le_iff
    intro y
    rw [Pi.inf_apply, le_inf_iff, a0, a1, a2]
    simp only [List.mem_append, or_imp, forall_and]
  have hu : u0 = u1 ⊔ u2 := by
    funext j
    apply eq_of_forall_ge_iff
    intro y
    rw [Pi.sup_apply, sup_le_iff, b0, b1, b2]
    simp only [List.mem_append, or_imp, forall_and]
  rw [hl, hu]

/-! ## Transformation -/

/-- A box with finite bounds. -/
noncomputable def finite (lo hi : Fin d → ℝ) : Box d := ⟨fun j => Dbl.fin (lo j), fun j => Dbl.fin (hi j)⟩

theorem add_fin (a b : ℝ) : (Dbl.fin a).add (Dbl.fin b) = Dbl.fin (a + b) := by
  simp only [Dbl.fin, Dbl.add]
  rw [if_neg (by simp)]
  rfl

theorem mul_fin (a b : ℝ) : (Dbl.fin a).mul (Dbl.fin b) = Dbl.fin (a * b) := by
  simp only [Dbl.fin, Dbl.mul]
  rw [if_neg (by simp)]
  rfl

theorem transformPoint_fin (t : Matrix (Fin d) (Fin d) ℝ) (p : Fin d → ℝ) :
    transformPoint t (fun j => Dbl.fin (p j)) = fun k => Dbl.fin (t.mulVec p k) := by
  funext k
  unfold transformPoint
  have : ∀ (l : List (Fin d)) (s : ℝ), l.foldl (fun s j => Dbl.add s ((Dbl.fin (p j)).mul (Dbl.fin (t k j)))) (Dbl.fin s) =
      Dbl.fin (s + (l.map (fun j => t k j * p j)).sum) := by
    intro l
    induction l with
    | nil => intro s; simp
    | cons j l ih =>
        intro s
        rw [List.foldl_cons, mul_fin, add_fin, ih, List.map_cons, List.sum_cons]
        congr 1; ring
  rw [this, zero_add]
  congr 1

/-- The corners of a finite box, as points. -/
def cornerPoints (lo hi : Fin d → ℝ) : List (Fin d → ℝ) :=
  (List.range (2 ^ d)).map fun i j => if i.testBit j then hi j else lo j

theorem corners_finite (lo hi : Fin d → ℝ) : (finite lo hi).corners = rows (cornerPoints lo hi) := by
  unfold Box.corners rows cornerPoints
  rw [List.map_map]
  apply List.map_congr_left
  intro i _
  funext j
  simp only [finite, Function.comp]
  split <;> rfl

/-- C39: the corners of a box are exactly the `2^d` choices of a bound for each coordinate. -/
theorem C39_corners (lo hi : Fin d → ℝ) : (cornerPoints lo hi).length = 2 ^ d ∧
    ∀ p, p ∈ cornerPoints lo hi ↔ ∀ j, p j = lo j ∨ p j = hi j := by
  refine ⟨by simp [cornerPoints], fun p => ?_⟩
  simp only [cornerPoints, List.mem_map, List.mem_range]
  constructor
  · rintro ⟨i, -, rfl⟩ j
    dsimp only
    split
    · exact Or.inr rfl
    · exact Or.inl rfl
  · intro h
    classical
    refine ⟨Nat.ofBits (fun j => decide (p j = hi j)), Nat.ofBits_lt_two_pow _, ?_⟩
    funext j
    rw [Nat.testBit_ofBits_lt _ _ j.2]
    by_cases hj : p j = hi j
    · simp [hj]
    · simp only [Fin.eta, decide_eq_true_eq, if_neg hj]
      exact ((h j).resolve_right hj).symm

theorem transform_finite (lo hi : Fin d → ℝ) (t : Matrix (Fin d) (Fin d) ℝ) :
    (finite lo hi).transform t = fromPoints (rows ((cornerPoints lo hi).map t.mulVec)) := by
  unfold Box.transform
  rw [corners_finite]
  congr 1
  unfold rows
  rw [List.map_map, List.map_map]
  apply List.map_congr_left
  intro p _
  exact transformPoint_fin t p

/-- C39: a finite box that does not report itself as empty contains its centre; so for finite boxes `is_empty` holds exactly when
there is no point inside. -/
theorem C39_center (lo hi : Fin d → ℝ) (h : ¬ (finite lo hi).isEmpty) : (finite lo hi).contains (center lo hi) := by
  have hle : ∀ j, lo j ≤ hi j := by
    intro j
    by_contra hj
    exact h ⟨j, EReal.coe_lt_coe_iff.2 (not_le.1 hj)⟩
  refine ⟨fun j => EReal.coe_le_coe_iff.2 ?_, fun j => EReal.coe_le_coe_iff.2 ?_⟩
  · have := hle j; unfold center; linarith
  · have := hle j; unfold center; linarith

/-- **C39**: for a non-empty finite box in any dimension and any matrix, the transformed box contains the image of every point of
the box, and it is the smallest box that does. -/
theorem C39_transform (lo hi : Fin d → ℝ) (hle : ∀ j, lo j ≤ hi j) (t : Matrix (Fin d) (Fin d) ℝ) :
    (∀ p, (finite lo hi).contains p → ((finite lo hi).transform t).contains (t.mulVec p)) ∧
    (∀ c : Box d, c.Valid → (∀ p, (finite lo hi).contains p → c.contains (t.mulVec p)) → ((finite lo hi).transform t).Le c) := by
  classical
  rw [transform_finite]
  obtain ⟨hv, hin, hleast, -⟩ := C39_from_points ((cornerPoints lo hi).map t.mulVec)
  refine ⟨?_, ?_⟩
  · intro p hp
    have hp1 : ∀ j, lo j ≤ p j := fun j => by have := hp.1 j; exact EReal.coe_le_coe_iff.1 this
    have hp2 : ∀ j, p j ≤ hi j := fun j => by have := hp.2 j; exact EReal.coe_le_coe_iff.1 this
    obtain ⟨l, u, h, h1, h2⟩ := fromPoints_mk ((cornerPoints lo hi).map t.mulVec)
    rw [h]
    refine ⟨fun k => ?_, fun k => ?_⟩
    · -- the corner that minimises coordinate k
      have hc := (C39_corners lo hi).2 (fun j => if 0 ≤ t k j then lo j else hi j)
      have hmem := hc.2 (fun j => by by_cases ht : 0 ≤ t k j <;> simp [ht])
      have := (h1 k (l k)).1 (le_refl _) _ (List.mem_map_of_mem hmem)
      refine le_trans this (EReal.coe_le_coe_iff.2 ?_)
      simp only [Matrix.mulVec, dotProduct]
      apply Finset.sum_le_sum
      intro j _
      split
      · rename_i ht; exact mul_le_mul_of_nonneg_left (hp1 j) ht
      · rename_i ht; exact mul_le_mul_of_nonpos_left (hp2 j) (not_le.1 ht).le
    · have hc := (C39_corners lo hi).2 (fun j => if 0 ≤ t k j then hi j else lo j)
      have hmem := hc.2 (fun j => by by_cases ht : 0 ≤ t k j <;> simp [ht])
      have := (h2 k (u k)).1 (le_refl _) _ (List.mem_map_of_mem hmem)
      refine le_trans (EReal.coe_le_coe_iff.2 ?_) this
      simp only [Matrix.mulVec, dotProduct]
      apply Finset.sum_le_sum
      intro j _
      split
      · rename_i ht; exact mul_le_mul_of_nonneg_left (hp2 j) ht
      · rename_i ht; exact mul_le_mul_of_nonpos_left (hp1 j) (not_le.1 ht).le
  · intro c hc hall
    apply hleast c hc
    intro q hq
    obtain ⟨p, hp, rfl⟩ := List.mem_map.1 hq
    apply hall
    have := ((C39_corners lo hi).2 p).1 hp
    refine ⟨fun j => ?_, fun j => ?_⟩
    · change ((lo j : ℝ) : EReal) ≤ (p j : EReal)
      rw [EReal.coe_le_coe_iff]
      rcases this j with h | h
      · exact h.ge
      · rw [h]; exact hle j
    · change ((p j : ℝ) : EReal) ≤ (hi j : EReal)
      rw [EReal.coe_le_coe_iff]
      rcases this j with h | h
      · rw [h]; exact hle j
      · exact h.le

/-! ## The empty box cannot be transformed -/

theorem add_none (a : Dbl) : a.add none = none := by cases a <;> rfl

theorem foldl_none {α : Type} (f : α → Dbl) : ∀ l : List α, l.foldl (fun s j => Dbl.add s (f j)) none = none
  | [] => rfl
  | x :: l => by rw [List.foldl_cons]; exact foldl_none f l

/-- C39, a defect: transforming the empty box by a matrix with a zero in each row (for instance the identity in dimension two or
more) gives a box of NaNs, which does not report itself as empty. -/
theorem C39_transformed_empty_box_is_not_empty (t : Matrix (Fin d) (Fin d) ℝ) (hz : ∀ k, ∃ j, t k j = 0) :
    (∀ k, ((empty : Box d).transform t).min k = none ∧ ((empty : Box d).transform t).max k = none) ∧
    ¬ ((empty : Box d).transform t).isEmpty := by
  have hpt : ∀ p ∈ (empty : Box d).corners, transformPoint t p = fun _ => none := by
    intro p hp
    obtain ⟨i, -, rfl⟩ := List.mem_map.1 hp
    funext k
    obtain ⟨j0, hj0⟩ := hz k
    unfold transformPoint
    obtain ⟨l1, l2, hl⟩ := List.append_of_mem (List.mem_finRange j0)
    rw [hl, List.foldl_append, List.foldl_cons]
    have hmul : Dbl.mul (if i.testBit j0 then (empty : Box d).max j0 else (empty : Box d).min j0) (Dbl.fin (t k j0)) = none := by
      rw [hj0]
      split
      · simp only [empty, Dbl.fin, Dbl.mul]; rw [if_pos]; exact Or.inr ⟨by simp, by simp⟩
      · simp only [empty, Dbl.fin, Dbl.mul]; rw [if_pos]; exact Or.inr ⟨by simp, by simp⟩
    rw [hmul, add_none]
    exact foldl_none _ l2
  have hmap : (empty : Box d).corners.map (transformPoint t) = List.replicate (2 ^ d) (fun _ => none) := by
    rw [List.eq_replicate_iff]
    refine ⟨by simp [Box.corners], ?_⟩
    intro q hq
    obtain ⟨p, hp, rfl⟩ := List.mem_map.1 hq
    exact hpt p hp
  have hall : ∀ k, ((empty : Box d).transform t).min k = none ∧ ((empty : Box d).transform t).max k = none := by
    intro k
    unfold Box.transform
    rw [hmap]
    obtain ⟨m, hm⟩ : ∃ m, 2 ^ d = m + 1 := ⟨2 ^ d - 1, by have := Nat.two_pow_pos d; omega⟩
    rw [hm, List.replicate_succ, fromPoints]
    refine ⟨?_, ?_⟩
    · dsimp only
      clear hm
      induction m with
      | zero => rfl
      | succ m ih => rw [List.replicate_succ, List.foldl_cons]; simpa [Dbl.min, Dbl.lt] using ih
    · dsimp only
      clear hm
      induction m with
      | zero => rfl
      | succ m ih => rw [List.replicate_succ, List.foldl_cons]; simpa [Dbl.max, Dbl.lt] using ih
  refine ⟨hall, ?_⟩
  rintro ⟨k, hk⟩
  rw [(hall k).1] at hk
  cases h : ((empty : Box d).transform t).max k with
  | none => rw [h] at hk; exact hk
  | some x => rw [h] at hk; exact hk

/-- The identity in three dimensions is such a matrix. -/
example : ¬ ((empty : Box 3).transform 1).isEmpty :=
  (C39_transformed_empty_box_is_not_empty 1 (fun k => ⟨k + 1, by fin_cases k <;> simp⟩)).2

/-- The hypotheses of `C39_transform` are met by the unit square; with a shear, the image of the point (1, 1) is contained. -/
example : ((finite (d := 2) 0 1).transform (Matrix.of ![![1, 1], ![0, 1]])).contains ((Matrix.of ![![1, 1], ![0, 1]]).mulVec 1) :=
  (C39_transform 0 1 (fun _ => zero_le_one) _).1 1 ⟨fun _ => by simp [finite, Dbl.fin, Dbl.le], fun _ => by simp [finite, Dbl.fin, Dbl.le]⟩

end Verif.Bbox
