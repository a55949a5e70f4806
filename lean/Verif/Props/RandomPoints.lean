import Verif.Model.RandomPoints
import Mathlib.Tactic.FinCases
import Mathlib.Tactic.Linarith
import Mathlib.Tactic.Ring
import Mathlib.Tactic.NormNum

/-!
# C48: random points lie in the requested set
-/

namespace Verif.RandomPoints

open Verif

/-- **C48**, cuboid: for every cuboid, every stream of numbers in `[0, 1)` and every `n`: the call throws exactly when some
extent is not positive, and otherwise returns `n` points of the cuboid. -/
theorem C48_cuboid (lo hi : P3) (u : Nat → ℝ) (hu : ∀ k, 0 ≤ u k ∧ u k < 1) (n : Nat) :
    ((∃ i, hi i ≤ lo i) ∧ inCuboid lo hi u n = .throws .invalidArgument) ∨
    ((∀ i, lo i < hi i) ∧ ∃ ps, inCuboid lo hi u n = .ok ps ∧ ps.length = n ∧
      ∀ p ∈ ps, ∀ i, lo i ≤ p i ∧ p i < hi i) := by
  unfold inCuboid
  by_cases h : ∀ i, lo i < hi i
  · right
    refine ⟨h, ?_⟩
    have h0 := h 0
    have h1 := h 1
    have h2 := h 2
    rw [if_neg (by
      simp only [Pi.sub_apply, gt_iff_lt, lt_inf_iff, not_not]
      exact ⟨⟨by linarith, by linarith⟩, by linarith⟩)]
    refine ⟨_, rfl, by simp, ?_⟩
    intro p hp i
    obtain ⟨k, -, rfl⟩ := List.mem_map.1 hp
    have hi' : ∀ (a : ℝ) (j : Fin 3), 0 ≤ a ∧ a < 1 → lo j ≤ lo j + a * (hi j - lo j) ∧ lo j + a * (hi j - lo j) < hi j := by
      intro a j ha
      have hj := h j
      constructor
      · nlinarith [mul_nonneg ha.1 (sub_pos.2 hj).le]
      · nlinarith [mul_lt_mul_of_pos_right ha.2 (sub_pos.2 hj)]
    fin_cases i
    · exact hi' _ 0 (hu _)
    · exact hi' _ 1 (hu _)
    · exact hi' _ 2 (hu _)
  · left
    push_neg at h
    refine ⟨h, ?_⟩
    obtain ⟨i, hi'⟩ := h
    rw [if_pos]
    simp only [Pi.sub_apply, gt_iff_lt, lt_inf_iff, not_and, not_lt]
    intro h
    fin_cases i
    · simp only [Fin.zero_eta] at hi'; linarith [h.1]
    · simp only [Fin.mk_one] at hi'; linarith [h.2]
    · simp only [Fin.reduceFinMk] at hi'; linarith

/-- C48: every point of the half-open cuboid is drawn for some stream: nothing of the cuboid is missed. -/
theorem C48_cuboid_onto (lo hi p : P3) (h : ∀ i, lo i < hi i) (hp : ∀ i, lo i ≤ p i ∧ p i < hi i) :
    ∃ u : Nat → ℝ, (∀ k, 0 ≤ u k ∧ u k < 1) ∧ inCuboid lo hi u 1 = .ok [p] := by
  let f : Fin 3 → ℝ := fun i => (p i - lo i) / (hi i - lo i)
  have hf : ∀ i, 0 ≤ f i ∧ f i < 1 := by
    intro i
    have := sub_pos.2 (h i)
    exact ⟨div_nonneg (by linarith [(hp i).1]) this.le, (div_lt_one this).2 (by linarith [(hp i).2])⟩
  have hfe : ∀ i, lo i + f i * (hi i - lo i) = p i := by
    intro i
    have := (sub_pos.2 (h i)).ne'
    simp only [f, div_mul_cancel₀ _ this]; ring
  refine ⟨fun k => if k = 0 then f 0 else if k = 1 then f 1 else f 2, ?_, ?_⟩
  · intro k; dsimp only; split
    · exact hf 0
    · split
      · exact hf 1
      · exact hf 2
  · unfold inCuboid
    rw [if_neg (by
      simp only [Pi.sub_apply, gt_iff_lt, lt_inf_iff, not_not]
      have h0 := h 0
      have h1 := h 1
      have h2 := h 2
      exact ⟨⟨by linarith, by linarith⟩, by linarith⟩)]
    congr 1
    simp only [List.range_one, List.map_cons, List.map_nil, List.cons.injEq, and_true]
    funext i
    fin_cases i
    · exact hfe 0
    · exact hfe 1
    · exact hfe 2

/-- Squared distance. -/
def distSq (p q : P3) : ℝ := ∑ i, (p i - q i) ^ 2

theorem spherePoint_on (c : P3) (r x1 x2 : ℝ) (h : x1 * x1 + x2 * x2 < 1) : distSq (spherePoint c r x1 x2) c = r ^ 2 := by
  have hs : Real.sqrt (1 - (x1 * x1 + x2 * x2)) ^ 2 = 1 - (x1 * x1 + x2 * x2) := Real.sq_sqrt (by linarith)
  unfold distSq spherePoint
  rw [Fin.sum_univ_three]
  simp only [Pi.add_apply, Pi.smul_apply, smul_eq_mul, add_sub_cancel_left, Matrix.cons_val_zero, Matrix.cons_val_one,
    Matrix.cons_val_two, Matrix.head_cons, Matrix.tail_cons, Matrix.cons_val]
  set s := Real.sqrt (1 - (x1 * x1 + x2 * x2))
  have : (r * (2 * x1 * s)) ^ 2 + (r * (2 * x2 * s)) ^ 2 + (r * (1 - 2 * (x1 * x1 + x2 * x2))) ^ 2 =
      r ^ 2 * (4 * (x1 * x1 + x2 * x2) * s ^ 2 + (1 - 2 * (x1 * x1 + x2 * x2)) ^ 2) := by ring
  rw [this, hs]; ring

theorem drawDisk_lt (u : Nat → ℝ) : ∀ fuel pos x1 x2 q, drawDisk u fuel pos = some (x1, x2, q) → x1 * x1 + x2 * x2 < 1 := by
  intro fuel
  induction fuel with
  | zero => intro pos x1 x2 q h; cases h
  | succ fuel ih =>
      intro pos x1 x2 q h
      rw [drawDisk] at h
      split at h
      · exact ih _ _ _ _ h
      · rename_i hlt
        cases h
        exact not_le.1 hlt

theorem sphereLoop_spec (c : P3) (r : ℝ) (u : Nat → ℝ) (fuel : Nat) : ∀ n pos ps, sphereLoop c r u fuel n pos = some ps →
    ps.length = n ∧ ∀ p ∈ ps, distSq p c = r ^ 2 := by
  intro n
  induction n with
  | zero => intro pos ps h; cases h; simp
  | succ n ih =>
      intro pos ps h
      rw [sphereLoop] at h
      cases hd : drawDisk u fuel pos with
      | none => rw [hd] at h; cases h
      | some v =>
          obtain ⟨x1, x2, q⟩ := v
          rw [hd] at h
          dsimp only at h
          cases hl : sphereLoop c r u fuel n q with
          | none => rw [hl] at h; cases h
          | some ps' =>
              rw [hl] at h
              cases h
              obtain ⟨i1, i2⟩ := ih q ps' hl
              refine ⟨by simp [i1], ?_⟩
              intro p hp
              rcases List.mem_cons.1 hp with rfl | hp
              · exact spherePoint_on c r x1 x2 (drawDisk_lt u fuel pos x1 x2 q hd)
              · exact i2 p hp

/-- **C48**, sphere: for every sphere, every stream of numbers and every `n`: the call throws exactly when the radius is not
positive; and whenever it ends, it returns `n` points at distance exactly the radius from the centre. -/
theorem C48_sphere (c : P3) (r : ℝ) (u : Nat → ℝ) (fuel n : Nat) :
    (r ≤ 0 ∧ onSphere c r u fuel n = some (.throws .invalidArgument)) ∨
    (0 < r ∧ ∀ o, onSphere c r u fuel n = some o → ∃ ps, o = .ok ps ∧ ps.length = n ∧ ∀ p ∈ ps, distSq p c = r ^ 2) := by
  unfold onSphere
  by_cases h : 0 < r
  · right
    rw [if_neg (by simpa using h)]
    refine ⟨h, ?_⟩
    intro o ho
    obtain ⟨ps, hps, rfl⟩ := Option.map_eq_some_iff.1 ho
    exact ⟨ps, rfl, sphereLoop_spec c r u fuel n 0 ps hps⟩
  · left
    exact ⟨not_lt.1 h, by rw [if_pos (by simpa using h)]⟩

/-- C48: the sphere generator ends as soon as the stream keeps producing pairs inside the unit disk: if among any `w`
consecutive pairs one lies inside, `w` iterations per point suffice. -/
theorem C48_sphere_ends (c : P3) (r : ℝ) (u : Nat → ℝ) (w n : Nat)
    (hu : ∀ m, ∃ k < w, u (2 * (m + k)) * u (2 * (m + k)) + u (2 * (m + k) + 1) * u (2 * (m + k) + 1) < 1) :
    ∃ o, onSphere c r u w n = some o := by
  have hd : ∀ w m, (∃ k < w, u (2 * (m + k)) * u (2 * (m + k)) + u (2 * (m + k) + 1) * u (2 * (m + k) + 1) < 1) →
      ∃ x1 x2 m', drawDisk u w (2 * m) = some (x1, x2, 2 * m') := by
    intro w
    induction w with
    | zero => rintro m ⟨k, hk, -⟩; omega
    | succ w ih =>
        rintro m ⟨k, hk, h⟩
        rw [drawDisk]
        split
        · rename_i hge
          cases k with
          | zero => exact absurd h (not_lt.2 hge)
          | succ k =>
              rw [show 2 * m + 2 = 2 * (m + 1) from by ring]
              refine ih (m + 1) ⟨k, by omega, ?_⟩
              rw [show m + 1 + k = m + (k + 1) from by ring]
              exact h
        · exact ⟨_, _, m + 1, rfl⟩
  have hl : ∀ n m, ∃ ps, sphereLoop c r u w n (2 * m) = some ps := by
    intro n
    induction n with
    | zero => intro m; exact ⟨[], rfl⟩
    | succ n ih =>
        intro m
        obtain ⟨x1, x2, q, hv⟩ := hd w m (hu m)
        obtain ⟨ps, hps⟩ := ih q
        exact ⟨_, by rw [sphereLoop, hv]; dsimp only; rw [hps]⟩
  unfold onSphere
  split
  · exact ⟨_, rfl⟩
  · obtain ⟨ps, hps⟩ := hl n 0
    exact ⟨.ok ps, by rw [hps]; rfl⟩

/-- The hypothesis of `C48_sphere_ends` is met, for two iterations per point, by a stream in which every second pair is
rejected. -/
example : ∃ u : Nat → ℝ, (∀ m, ∃ k < 2, u (2 * (m + k)) * u (2 * (m + k)) + u (2 * (m + k) + 1) * u (2 * (m + k) + 1) < 1) ∧
    ¬ (u 2 * u 2 + u 3 * u 3 < 1) := by
  refine ⟨fun i => if i % 4 < 2 then 1 / 2 else 9 / 10, ?_, by norm_num⟩
  intro m
  rcases Nat.mod_two_eq_zero_or_one m with h | h
  · refine ⟨0, by omega, ?_⟩
    have h1 : (2 * (m + 0)) % 4 < 2 := by omega
    have h2 : (2 * (m + 0) + 1) % 4 < 2 := by omega
    simp only [h1, h2, if_true]; norm_num
  · refine ⟨1, by omega, ?_⟩
    have h1 : (2 * (m + 1)) % 4 < 2 := by omega
    have h2 : (2 * (m + 1) + 1) % 4 < 2 := by omega
    simp only [h1, h2, if_true]; norm_num

end Verif.RandomPoints
