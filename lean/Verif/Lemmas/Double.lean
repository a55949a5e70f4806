import Verif.Spec.Double
import Verif.Model.Interpolant

/-! # The tests on bit patterns are the tests on their values -/

namespace Verif.Dbl

open RbfModel Interpolant

theorem parts (x : BitVec 64) : x.toNat = sign x * 2 ^ 63 + exponent x * 2 ^ 52 + fraction x ∧ sign x < 2 ∧ exponent x < 2048 ∧ fraction x < 2 ^ 52 := by
  have := x.isLt
  unfold sign exponent fraction
  omega

theorem isNaN_iff (x : BitVec 64) : isNaN x = true ↔ exponent x = 2047 ∧ fraction x ≠ 0 := by
  unfold isNaN exponent fraction
  rw [Bool.and_eq_true, beq_iff_eq, Bool.not_eq_true', beq_eq_false_iff_ne, ← BitVec.toNat_inj, ← BitVec.toNat_ne_iff_ne]
  simp [BitVec.extractLsb'_toNat, Nat.shiftRight_eq_div_pow]

theorem msb_iff (x : BitVec 64) : x.msb = true ↔ sign x = 1 := by
  have := x.isLt
  rw [BitVec.msb_eq_decide, decide_eq_true_eq]
  unfold sign
  omega

theorem isZero_iff (x : BitVec 64) : isZero x = true ↔ exponent x = 0 ∧ fraction x = 0 := by
  unfold isZero
  rw [Bool.or_eq_true, beq_iff_eq, beq_iff_eq, ← BitVec.toNat_inj, ← BitVec.toNat_inj]
  have := x.isLt
  unfold exponent fraction
  simp
  omega

theorem value_none (x : BitVec 64) : value x = none ↔ isNaN x = true := by
  rw [isNaN_iff]
  unfold value
  split
  · split <;> simp_all
  · simp_all

theorem magnitude_zero (x : BitVec 64) : magnitude x = 0 ↔ exponent x = 0 ∧ fraction x = 0 := by
  unfold magnitude
  split
  · simp_all
  · rename_i h
    constructor
    · intro h0
      rcases Nat.mul_eq_zero.1 h0 with h1 | h1
      · omega
      · exact absurd h1 (pow_ne_zero _ (by norm_num))
    · intro h0; exact absurd h0.1 h

theorem unit_pos : (0 : ℝ) < 2 ^ (-1074 : ℤ) := zpow_pos (by norm_num) _

theorem gt0_iff (x : BitVec 64) : gt0 x = true ↔ Positive x := by
  have hz := isZero_iff x
  have hm := msb_iff x
  have hn := isNaN_iff x
  obtain ⟨-, hs, -, -⟩ := parts x
  unfold gt0 Positive value
  rw [Bool.and_eq_true, Bool.and_eq_true, Bool.not_eq_true', Bool.not_eq_true', Bool.not_eq_true', ← Bool.not_eq_true, ← Bool.not_eq_true, ← Bool.not_eq_true,
    hz, hm, hn]
  by_cases he : exponent x = 2047
  · rw [if_pos he]
    by_cases hf : fraction x = 0
    · rw [if_pos hf]
      by_cases h0 : sign x = 0
      · simp [h0, he, hf]
      · have : sign x = 1 := by omega
        simp [this]
    · simp [hf, he]
  · rw [if_neg he]
    have h2 := magnitude_zero x
    by_cases h0 : sign x = 0
    · simp only [h0, if_true, Option.some.injEq, exists_eq_left', EReal.coe_pos, mul_pos_iff_of_pos_right unit_pos, Nat.cast_pos]
      rw [← h2]
      simp [he]
      try omega
    · have : sign x = 1 := by omega
      simp only [this, not_true, false_and, and_false, one_ne_zero, if_false, Option.some.injEq, exists_eq_left', EReal.coe_pos, mul_pos_iff_of_pos_right unit_pos, false_iff]
      have : (0 : ℝ) ≤ magnitude x := Nat.cast_nonneg _
      linarith

theorem ge0_iff (x : BitVec 64) : ge0 x = true ↔ NonNegative x := by
  have hz := magnitude_zero x
  have hm := msb_iff x
  have hn := isNaN_iff x
  obtain ⟨hp, hs, h3, h4⟩ := parts x
  have hmz : (x == 0x8000000000000000#64) = true ↔ sign x = 1 ∧ exponent x = 0 ∧ fraction x = 0 := by
    rw [beq_iff_eq, ← BitVec.toNat_inj]
    simp only [BitVec.toNat_ofNat]
    omega
  unfold ge0 NonNegative value
  rw [Bool.and_eq_true, Bool.or_eq_true, Bool.not_eq_true', Bool.not_eq_true', ← Bool.not_eq_true, ← Bool.not_eq_true, hmz, hm, hn]
  by_cases he : exponent x = 2047
  · rw [if_pos he]
    by_cases hf : fraction x = 0
    · rw [if_pos hf]
      by_cases h0 : sign x = 0
      · simp [h0, hf]
      · have : sign x = 1 := by omega
        simp [this, he]
    · simp [hf, he]
  · rw [if_neg he]
    by_cases h0 : sign x = 0
    · simp only [h0, if_true, Option.some.injEq, exists_eq_left', EReal.coe_nonneg, mul_nonneg_iff_of_pos_right unit_pos, Nat.cast_nonneg, iff_true]
      simp [he]
    · have : sign x = 1 := by omega
      simp only [this, one_ne_zero, if_false, Option.some.injEq, exists_eq_left', EReal.coe_nonneg, mul_nonneg_iff_of_pos_right unit_pos, not_true, false_or, true_and]
      rw [← hz]
      have : (0 : ℝ) ≤ magnitude x := Nat.cast_nonneg _
      constructor
      · intro h
        rw [h.2]; simp
      · intro h
        refine ⟨by simp [he], ?_⟩
        have : (magnitude x : ℝ) = 0 := by linarith
        exact_mod_cast this

/-- the magnitude determines exponent and fraction -/
theorem magnitude_inj {x y : BitVec 64} (h : magnitude x = magnitude y) : exponent x = exponent y ∧ fraction x = fraction y := by
  obtain ⟨-, -, -, fx⟩ := parts x
  obtain ⟨-, -, -, fy⟩ := parts y
  -- the magnitude of a normal number lies between two powers of two
  have bound : ∀ z : BitVec 64, exponent z ≠ 0 → 2 ^ (51 + exponent z) ≤ magnitude z ∧ magnitude z < 2 ^ (52 + exponent z) := by
    intro z hz
    obtain ⟨-, -, -, fz⟩ := parts z
    unfold magnitude
    rw [if_neg hz]
    have e1 : 51 + exponent z = 52 + (exponent z - 1) := by omega
    have e2 : 52 + exponent z = 53 + (exponent z - 1) := by omega
    have hp : 0 < 2 ^ (exponent z - 1) := by positivity
    constructor
    · rw [e1, pow_add]
      exact Nat.mul_le_mul_right _ (by omega)
    · rw [e2, pow_add]
      exact Nat.mul_lt_mul_of_pos_right (by omega) hp
  have sub : ∀ z : BitVec 64, exponent z = 0 → magnitude z = fraction z := fun z hz => by unfold magnitude; rw [if_pos hz]
  have small : ∀ z z' : BitVec 64, exponent z = 0 → exponent z' ≠ 0 → magnitude z < magnitude z' := by
    intro z z' hz hz'
    obtain ⟨-, -, -, fz⟩ := parts z
    rw [sub z hz]
    have h1 := (bound z' hz').1
    have : 2 ^ 52 ≤ 2 ^ (51 + exponent z') := Nat.pow_le_pow_right (by norm_num) (by omega)
    omega
  have incr : ∀ z z' : BitVec 64, exponent z ≠ 0 → exponent z < exponent z' → magnitude z < magnitude z' := by
    intro z z' hz hlt
    have h1 := (bound z hz).2
    have h2 := (bound z' (by omega)).1
    have : 2 ^ (52 + exponent z) ≤ 2 ^ (51 + exponent z') := Nat.pow_le_pow_right (by norm_num) (by omega)
    omega
  have he : exponent x = exponent y := by
    by_cases hx : exponent x = 0
    · by_cases hy : exponent y = 0
      · omega
      · have := small x y hx hy; omega
    · by_cases hy : exponent y = 0
      · have := small y x hy hx; omega
      · rcases Nat.lt_trichotomy (exponent x) (exponent y) with h' | h' | h'
        · have := incr x y hx h'; omega
        · exact h'
        · have := incr y x hy h'; omega
  refine ⟨he, ?_⟩
  unfold magnitude at h
  rw [← he] at h
  split at h
  · exact h
  · have hp : 0 < 2 ^ (exponent x - 1) := by positivity
    have := Nat.eq_of_mul_eq_mul_right hp h
    omega

theorem feq_iff (x y : BitVec 64) : feq x y = true ↔ Equal x y := by
  obtain ⟨px, sx, ex, fx⟩ := parts x
  obtain ⟨py, sy, ey, fy⟩ := parts y
  have hxy : x = y ↔ sign x = sign y ∧ exponent x = exponent y ∧ fraction x = fraction y := by
    constructor
    · rintro rfl; exact ⟨rfl, rfl, rfl⟩
    · rintro ⟨h1, h2, h3⟩
      apply BitVec.eq_of_toNat_eq
      rw [px, py, h1, h2, h3]
  unfold feq
  rw [Bool.and_eq_true, Bool.and_eq_true, Bool.or_eq_true, Bool.and_eq_true, beq_iff_eq, Bool.not_eq_true', Bool.not_eq_true', ← Bool.not_eq_true,
    ← Bool.not_eq_true, isNaN_iff, isNaN_iff, isZero_iff, isZero_iff, hxy]
  have mx := magnitude_zero x
  have my := magnitude_zero y
  have hu := unit_pos
  constructor
  · rintro ⟨⟨n1, n2⟩, ⟨h1, h2, h3⟩ | ⟨h1, h2⟩⟩
    · have : x = y := hxy.2 ⟨h1, h2, h3⟩
      subst this
      unfold Equal
      have : value x ≠ none := by rw [Ne, value_none, isNaN_iff]; exact n1
      obtain ⟨v, hv⟩ := Option.ne_none_iff_exists'.1 this
      exact ⟨v, hv, hv⟩
    · refine ⟨0, ?_, ?_⟩
      · unfold value
        rw [if_neg (by omega), mx.2 h1]
        simp
      · unfold value
        rw [if_neg (by omega), my.2 h2]
        simp
  · rintro ⟨v, h1, h2⟩
    have n1 : ¬ (exponent x = 2047 ∧ fraction x ≠ 0) := by
      rw [← isNaN_iff, ← value_none, h1]; simp
    have n2 : ¬ (exponent y = 2047 ∧ fraction y ≠ 0) := by
      rw [← isNaN_iff, ← value_none, h2]; simp
    refine ⟨⟨n1, n2⟩, ?_⟩
    unfold value at h1 h2
    by_cases hx : exponent x = 2047
    · have fx0 : fraction x = 0 := by
        by_contra hc; exact n1 ⟨hx, hc⟩
      rw [if_pos hx, if_pos fx0] at h1
      simp only [Option.some.injEq] at h1
      by_cases hy : exponent y = 2047
      · have fy0 : fraction y = 0 := by
          by_contra hc; exact n2 ⟨hy, hc⟩
        rw [if_pos hy, if_pos fy0] at h2
        simp only [Option.some.injEq] at h2
        left
        refine ⟨?_, by omega, by omega⟩
        rw [← h1] at h2
        split at h2 <;> split at h2
        · omega
        · exact absurd h2 (by simp)
        · exact absurd h2 (by simp)
        · omega
      · rw [if_neg hy] at h2
        simp only [Option.some.injEq] at h2
        rw [← h1] at h2
        by_cases s0 : sign x = 0
        · rw [if_pos s0] at h2; exact absurd h2 (EReal.coe_ne_top _)
        · rw [if_neg s0] at h2; exact absurd h2 (EReal.coe_ne_bot _)
    · rw [if_neg hx] at h1
      simp only [Option.some.injEq] at h1
      by_cases hy : exponent y = 2047
      · have fy0 : fraction y = 0 := by
          by_contra hc; exact n2 ⟨hy, hc⟩
        rw [if_pos hy, if_pos fy0] at h2
        simp only [Option.some.injEq] at h2
        rw [← h2] at h1
        by_cases s0 : sign y = 0
        · rw [if_pos s0] at h1; exact absurd h1 (EReal.coe_ne_top _)
        · rw [if_neg s0] at h1; exact absurd h1 (EReal.coe_ne_bot _)
      · rw [if_neg hy] at h2
        simp only [Option.some.injEq] at h2
        rw [← h2, EReal.coe_eq_coe_iff] at h1
        have h3 := mul_right_cancel₀ hu.ne' h1
        have p1 : (0 : ℝ) ≤ magnitude x := Nat.cast_nonneg _
        have p2 : (0 : ℝ) ≤ magnitude y := Nat.cast_nonneg _
        by_cases s1 : sign x = 0 <;> by_cases s2 : sign y = 0
        · rw [if_pos s1, if_pos s2] at h3
          have := magnitude_inj (x := x) (y := y) (by exact_mod_cast h3)
          exact Or.inl ⟨by omega, this⟩
        · rw [if_pos s1, if_neg s2] at h3
          right
          have e1 : (magnitude x : ℝ) = 0 := by linarith
          have e2 : (magnitude y : ℝ) = 0 := by linarith
          exact ⟨mx.1 (by exact_mod_cast e1), my.1 (by exact_mod_cast e2)⟩
        · rw [if_neg s1, if_pos s2] at h3
          right
          have e1 : (magnitude x : ℝ) = 0 := by linarith
          have e2 : (magnitude y : ℝ) = 0 := by linarith
          exact ⟨mx.1 (by exact_mod_cast e1), my.1 (by exact_mod_cast e2)⟩
        · rw [if_neg s1, if_neg s2] at h3
          have h4 := neg_injective h3
          have := magnitude_inj (x := x) (y := y) (by exact_mod_cast h4)
          exact Or.inl ⟨by omega, this⟩

theorem isZero_iff_equal (x : BitVec 64) : isZero x = true ↔ Equal x 0 := by
  rw [← feq_iff]
  have h0 : isNaN (0 : BitVec 64) = false := by decide
  have h1 : isZero (0 : BitVec 64) = true := by decide
  unfold feq
  rw [h0, h1, Bool.and_true, Bool.not_false, Bool.and_true]
  constructor
  · intro h
    have hn : isNaN x = false := by
      rw [← Bool.not_eq_true, isNaN_iff]
      rw [isZero_iff] at h
      omega
    rw [hn, h]; simp
  · intro h
    rw [Bool.and_eq_true, Bool.or_eq_true, beq_iff_eq] at h
    rcases h.2 with h | h
    · rw [h]; exact h1
    · exact h

theorem ptEq_iff : ∀ x y : List (BitVec 64), ptEq x y = true ↔ List.Forall₂ Equal x y
  | [], [] => by simp [ptEq]
  | [], _ :: _ => by simp [ptEq]
  | _ :: _, [] => by simp [ptEq]
  | a :: x, b :: y => by
    rw [ptEq, Bool.and_eq_true, feq_iff, ptEq_iff x y, List.forall₂_cons]

end Verif.Dbl
