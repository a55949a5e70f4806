import Verif.Lemmas.RefinerStep
import Mathlib.Tactic.FieldSimp
import Mathlib.Tactic.IntervalCases
import Mathlib.Tactic.LinearCombination

/-! # Lemmas: where a vertex should go -/

namespace Verif.Refiner

open Verif Verif.AbstractMesh Verif.ClosestPoint
open Verif.Predicates (P3)
open Verif.Thinner (toE E3 dotP crossP)
open Verif.Refiner.Spec
open Verif.Snapper.Spec (IsLinear)

variable {I : Input}

theorem sqrt_dot (x : P3) : √(dotP x x) = ‖toE x‖ := by
  rw [← Thinner.norm_toE_sq, Real.sqrt_sq (norm_nonneg _)]

theorem dot_zero {x : P3} : dotP x x = 0 ↔ x = 0 := by
  constructor
  · intro h
    unfold dotP at h
    have h1 := mul_self_nonneg x.1
    have h2 := mul_self_nonneg x.2.1
    have h3 := mul_self_nonneg x.2.2
    have e1 : x.1 = 0 := mul_self_eq_zero.1 (by linarith)
    have e2 : x.2.1 = 0 := mul_self_eq_zero.1 (by linarith)
    have e3 : x.2.2 = 0 := mul_self_eq_zero.1 (by linarith)
    exact Prod.ext e1 (Prod.ext e2 e3)
  · rintro rfl; simp [dotP]

theorem linear_smul (h : IsLinear I.T) (a : ℝ) (x : P3) : I.T (a • x) = a • I.T x := by
  obtain ⟨A, hA⟩ := h
  rw [hA, hA, map_smul]

theorem toE_smul (a : ℝ) (x : P3) : toE (a • x) = a • toE x := by
  ext i; fin_cases i <;> simp [toE]

theorem delta_eq (I : Input) : delta I = I.resolution / 1000 := by unfold delta; ring

/-- The value and the gradient. -/
theorem fits (hr : 0 < I.resolution) (vs : Nat → ℝ) : Fits (I.resolution / 1000) vs (1 / 4 * (vs 0 + vs 1 + vs 2 + vs 3))
    ((1 / (4 * delta I * delta I)) • weighted (delta I) vs) := by
  have hd : (0 : ℝ) < delta I := by rw [delta_eq]; positivity
  rw [← delta_eq]
  generalize delta I = d at *
  intro k hk
  interval_cases k <;> simp only [weighted, dotP, tetrahedron, Prod.fst_add, Prod.snd_add, Prod.smul_fst, Prod.smul_snd, smul_eq_mul] <;>
    field_simp <;> ring

theorem stepOf_spec (hI : Valid I) (vs : Nat → ℝ) :
    (stepOf I vs = none → ∃ c, Fits (I.resolution / 1000) vs c 0) ∧
    (∀ step, stepOf I vs = some step → ∃ c g, Fits (I.resolution / 1000) vs c g ∧ g ≠ 0 ∧ NewtonStep I c g step) := by
  have hr := hI.resolution
  have hf := fits hr vs
  unfold stepOf
  dsimp only
  generalize (1 / (4 * delta I * delta I)) • weighted (delta I) vs = g at *
  generalize 1 / 4 * (vs 0 + vs 1 + vs 2 + vs 3) = c at *
  by_cases h0 : dotP g g = 0
  · rw [if_pos h0]
    rw [dot_zero] at h0
    subst h0
    exact ⟨fun _ => ⟨c, hf⟩, by simp⟩
  rw [if_neg h0]
  refine ⟨?_, ?_⟩
  · split <;> simp
  intro step hs
  refine ⟨c, g, hf, fun e => h0 (dot_zero.2 e), ?_⟩
  rw [sqrt_dot] at hs
  unfold kMaxMoveRatio at hs
  have e1 : (1 : ℝ) / 2 * I.resolution = I.resolution / 2 := by ring
  rw [e1] at hs
  generalize hfull : (c / dotP g g) • g = full at *
  by_cases hl : ‖toE (I.T full)‖ > I.resolution / 2
  · rw [if_pos hl] at hs
    cases hs
    have hpos : 0 < ‖toE (I.T full)‖ := lt_trans (by positivity) hl
    have hn : ‖toE (I.T ((I.resolution / 2 / ‖toE (I.T full)‖) • full))‖ = I.resolution / 2 := by
      rw [linear_smul hI.transform, toE_smul, norm_smul, Real.norm_of_nonneg (by positivity)]
      field_simp
    refine ⟨I.resolution / 2 / ‖toE (I.T full)‖, by positivity, ?_, ?_, hn.le, fun _ => hn⟩
    · rw [div_le_one hpos]; exact hl.le
    · rw [← hfull, smul_smul]
  · rw [if_neg hl] at hs
    cases hs
    refine ⟨1, by norm_num, le_refl _, ?_, not_lt.1 hl, fun h => absurd h (lt_irrefl _)⟩
    rw [one_mul, hfull]

theorem select_spec (tiny lo hi x : ℝ) : SnapsTo tiny lo hi x (select tiny hi (select tiny lo x)) := by
  unfold SnapsTo select
  by_cases h1 : |x - lo| < tiny
  · have ht : 0 < tiny := (abs_nonneg _).trans_lt h1
    simp only [if_pos h1]
    by_cases h2 : |lo - hi| < tiny
    · rw [if_pos h2]
      exact ⟨fun _ h => absurd h (by linarith), fun _ _ => rfl, fun h => absurd h (not_le.2 h1), Or.inr (Or.inr rfl)⟩
    · rw [if_neg h2]
      refine ⟨fun _ _ => rfl, fun h3 h4 => ?_, fun h => absurd h (not_le.2 h1), Or.inr (Or.inl rfl)⟩
      have := abs_sub_le lo x hi
      rw [abs_sub_comm lo x] at this
      linarith
  · simp only [if_neg h1]
    by_cases h2 : |x - hi| < tiny
    · rw [if_pos h2]
      exact ⟨fun h => absurd h h1, fun _ _ => rfl, fun _ h => absurd h (not_le.2 h2), Or.inr (Or.inr rfl)⟩
    · rw [if_neg h2]
      exact ⟨fun h => absurd h h1, fun h => absurd h h2, fun _ _ => rfl, Or.inl rfl⟩

theorem snap_spec (I : Input) (x : P3) : Snapped I x (snap I x) := by
  have e : (1e-10 : ℝ) * I.resolution = I.resolution / 10 ^ 10 := by norm_num; ring
  unfold Snapped snap snapToBbox
  simp only [e]
  exact ⟨select_spec _ _ _ _, select_spec _ _ _ _, select_spec _ _ _ _⟩

theorem samples_spec (I : Input) : Sampling I (samples I) := by
  have key : ∀ vs : List P3, ((vs.flatMap fun p => (offsets (delta I)).map (· + p)).length = 4 * vs.length) ∧
      ∀ (v k : Nat), v < vs.length → k < 4 →
        (vs.flatMap fun p => (offsets (delta I)).map (· + p))[4 * v + k]? = some (pos vs v + tetrahedron (I.resolution / 1000) k) := by
    intro vs
    induction vs with
    | nil => exact ⟨rfl, fun v k h => absurd h (Nat.not_lt_zero _)⟩
    | cons p vs ih =>
        have hl : ((offsets (delta I)).map (· + p)).length = 4 := rfl
        rw [List.flatMap_cons]
        refine ⟨?_, ?_⟩
        · rw [List.length_append, hl, ih.1, List.length_cons]; omega
        · intro v k hv hk
          cases v with
          | zero =>
              rw [List.getElem?_append_left (by rw [hl]; omega)]
              have e : pos (p :: vs) 0 = p := rfl
              rw [e, ← delta_eq, add_comm p]
              interval_cases k <;> rfl
          | succ v =>
              rw [List.getElem?_append_right (by rw [hl]; omega), hl, show 4 * (v + 1) + k - 4 = 4 * v + k by omega,
                ih.2 v k (by simpa using hv) hk]
              rfl
  exact key I.vertices

theorem moveOf_spec (hI : Valid I) (v : Nat) :
    (moveOf I (I.field (samples I)) v = none → ∃ c, FitAt I v c 0) ∧
    (∀ x, moveOf I (I.field (samples I)) v = some x → x.1 = v ∧ Goal I v (snap I x.2)) := by
  obtain ⟨h1, h2⟩ := stepOf_spec hI (segment I (I.field (samples I)) v)
  unfold moveOf
  refine ⟨fun h => ?_, fun x h => ?_⟩
  · rw [Option.map_eq_none_iff] at h
    obtain ⟨c, hc⟩ := h1 h
    exact ⟨c, samples I, samples_spec I, hc⟩
  · obtain ⟨step, e1, rfl⟩ := Option.map_eq_some_iff.1 h
    obtain ⟨c, g, g1, g2, g3⟩ := h2 step e1
    exact ⟨rfl, c, g, step, ⟨samples I, samples_spec I, g1⟩, g2, g3, snap_spec I _⟩

theorem project_spec (hI : Valid I) : project I = .ok ((List.range I.vertices.length).filterMap (moveOf I (I.field (samples I)))) := by
  unfold project
  dsimp only
  rw [if_neg]
  rw [hI.values, (samples_spec I).1]
  exact lt_irrefl _

end Verif.Refiner
