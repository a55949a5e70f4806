import Verif.Props.FmmBox
import Mathlib.Tactic.Linarith

/-!
# C75: the samples of a mesh generator; the height of the tree
-/

namespace Verif.FmmBox

open Verif Verif.Bbox Verif.Lattice
open Verif.PrimLattice (Prim dot cross)
open Verif.PrimLattice.Prim
open Verif.Predicates (P3)
open Verif.Pipeline (Env Near)

/-- a point as a row -/
def row (p : P3) : Fin 3 → ℝ := ![p.1, p.2.1, p.2.2]

/-- The announced box is wider than a fifth of the resolution in each direction. -/
def Thick (E : Env) : Prop :=
  0.2 * E.resolution < (E.L.extHi 2).1 - (E.L.extLo 2).1 ∧ 0.2 * E.resolution < (E.L.extHi 2).2.1 - (E.L.extLo 2).2.1 ∧ 0.2 * E.resolution < (E.L.extHi 2).2.2 - (E.L.extLo 2).2.2

theorem near_wide {E : Env} (ht : Thick E) {p : P3} (hp : Near E p) (j : Fin 3) :
    ∃ δ < 0.005 * (row (E.L.extHi 2) j - row (E.L.extLo 2) j), row (E.L.extLo 2) j - δ ≤ row p j ∧ row p j ≤ row (E.L.extHi 2) j + δ := by
  obtain ⟨t0, t1, t2⟩ := ht
  obtain ⟨h0, h1, h2⟩ := hp
  fin_cases j
  · exact ⟨E.resolution / 1000, by show _ < 0.005 * ((E.L.extHi 2).1 - (E.L.extLo 2).1); linarith, h0.1, h0.2⟩
  · exact ⟨E.resolution / 1000, by show _ < 0.005 * ((E.L.extHi 2).2.1 - (E.L.extLo 2).2.1); linarith, h1.1, h1.2⟩
  · exact ⟨E.resolution / 1000, by show _ < 0.005 * ((E.L.extHi 2).2.2 - (E.L.extLo 2).2.2); linarith, h2.1, h2.2⟩

theorem thick_le {E : Env} (hres : 0 < E.resolution) (ht : Thick E) (j : Fin 3) : row (E.L.extLo 2) j ≤ row (E.L.extHi 2) j := by
  obtain ⟨t0, t1, t2⟩ := ht
  fin_cases j
  · show (E.L.extLo 2).1 ≤ (E.L.extHi 2).1; linarith
  · show (E.L.extLo 2).2.1 ≤ (E.L.extHi 2).2.1; linarith
  · show (E.L.extLo 2).2.2 ≤ (E.L.extHi 2).2.2; linarith

/-- **C75, `RbfFieldFunction`.** After `set_evaluation_bbox` with the box that a mesh generator announces, every point for which the generator asks
(`Near`, C74) is strictly inside of the cube of every tree, as long as the announced box is wider than a fifth of the resolution. -/
theorem C75_mesh {env : Interpolant.Env (Box 3)} {pos : Interpolant.Pt → Fin 3 → ℝ} (h : Boxes env pos) (m : RbfModel.Mdl) (ops : List (Interpolant.Op (Box 3)))
    (acc gacc : RbfModel.Dbl) (s s' : Interpolant.State (Box 3)) (r : Interpolant.Res (Box 3)) (hs : (Interpolant.run env (Interpolant.new env m) ops).1 = s)
    (E : Env) (hres : 0 < E.resolution) (ht : Thick E) (he : Interpolant.step env s (.setEvaluationBbox (finite (row (E.L.extLo 2)) (row (E.L.extHi 2))) acc gacc) = (s', .ok r)) :
    ∃ e, s'.evaluator = some e ∧ ∀ (a : Matrix (Fin 3) (Fin 3) ℝ) (p : P3), Near E p → (makeBox a e.bbox).Inside (a.mulVec (row p)) := by
  obtain ⟨e, h1, -, -, h2⟩ := C75_announced (by omega) h m ops _ _ (thick_le hres ht) acc gacc s s' r hs he
  exact ⟨e, h1, fun a p hp => (h2 a).2 _ fun j => Or.inr (near_wide ht hp j)⟩

/-- **C75, `RbfFieldFunction25D`.** The same for the interpolant in the plane, which is given the projection of the box; and the values of the field
function are the heights above the interpolant. -/
theorem C75_mesh25 {env : Interpolant.Env (Box 2)} {pos : Interpolant.Pt → Fin 2 → ℝ} (h : Boxes env pos) (m : RbfModel.Mdl) (ops : List (Interpolant.Op (Box 2)))
    (acc gacc : RbfModel.Dbl) (s s' : Interpolant.State (Box 2)) (r : Interpolant.Res (Box 2)) (hs : (Interpolant.run env (Interpolant.new env m) ops).1 = s)
    (E : Env) (hres : 0 < E.resolution) (ht : Thick E)
    (he : Interpolant.step env s (.setEvaluationBbox (project (finite (row (E.L.extLo 2)) (row (E.L.extHi 2)))) acc gacc) = (s', .ok r)) :
    (∃ e, s'.evaluator = some e ∧ ∀ (a : Matrix (Fin 2) (Fin 2) ℝ) (p : P3), Near E p → (makeBox a e.bbox).Inside (a.mulVec (first2 (row p)))) ∧
    ∀ (f : (Fin 2 → ℝ) → ℝ) (ps : List P3), field25 f (ps.map row) = ps.map fun p => p.2.2 - f ![p.1, p.2.1] := by
  refine ⟨?_, fun f ps => ?_⟩
  · have hp : project (finite (row (E.L.extLo 2)) (row (E.L.extHi 2))) = finite (first2 (row (E.L.extLo 2))) (first2 (row (E.L.extHi 2))) := rfl
    rw [hp] at he
    obtain ⟨e, h1, -, -, h2⟩ := C75_announced (by omega) h m ops _ _ (fun j => thick_le hres ht _) acc gacc s s' r hs he
    exact ⟨e, h1, fun a p hp => (h2 a).2 _ fun j => Or.inr (near_wide ht hp _)⟩
  · unfold field25
    rw [List.map_map]
    refine List.map_congr_left fun p _ => ?_
    show p.2.2 - f (first2 (row p)) = _
    congr 2
    funext j
    fin_cases j <;> rfl

/-! ## When the announced box is wide enough -/

theorem wide_of {res rx ry rz a b c G N : ℝ} (hres : 0 < res) (hr : 1 ≤ 169 * (rx ^ 2 + ry ^ 2 + rz ^ 2))
    (ha : a = res * (0.5773502691896258 * rx + 0.816496580927726 * ry)) (hb : b = res * (-0.5773502691896258 * rx + 0.816496580927726 * rz))
    (hc : c = res * (0.5773502691896258 * rx - 0.816496580927726 * ry)) (h0 : 0 ≤ G) (h1 : |a + c| ≤ G) (h2 : |a + b| ≤ G) (h3 : |b + c| ≤ G)
    (hN : N = 0.05 * res) : N < G := by
  have s1 : (a + c) ^ 2 ≤ G ^ 2 := sq_le_sq' (abs_le.1 h1).1 (abs_le.1 h1).2
  have s2 : (a + b) ^ 2 ≤ G ^ 2 := sq_le_sq' (abs_le.1 h2).1 (abs_le.1 h2).2
  have s3 : (b + c) ^ 2 ≤ G ^ 2 := sq_le_sq' (abs_le.1 h3).1 (abs_le.1 h3).2
  have e : (a + c) ^ 2 + (a + b) ^ 2 + (b + c) ^ 2 = res ^ 2 * (4 * 0.5773502691896258 ^ 2 * rx ^ 2 + 2 * 0.816496580927726 ^ 2 * (ry ^ 2 + rz ^ 2)) := by
    rw [ha, hb, hc]; ring
  have hlow : 1.33 / 169 ≤ 4 * 0.5773502691896258 ^ 2 * rx ^ 2 + 2 * 0.816496580927726 ^ 2 * (ry ^ 2 + rz ^ 2) := by
    have x := sq_nonneg rx
    have y := sq_nonneg ry
    have z := sq_nonneg rz
    norm_num at hr ⊢
    linarith
  have hsq : res ^ 2 * (1.33 / 169) ≤ 3 * G ^ 2 := by
    have := mul_le_mul_of_nonneg_left hlow (sq_nonneg res)
    linarith
  have hlt : N ^ 2 < G ^ 2 := by
    rw [hN]
    have : 0 < res ^ 2 := by positivity
    norm_num at hsq ⊢
    nlinarith
  exact lt_of_pow_lt_pow_left₀ 2 h0 hlt

theorem cauchy {x y z u v w : ℝ} (h : x * u + y * v + z * w = 1) (hu : u ^ 2 + v ^ 2 + w ^ 2 ≤ 169) : 1 ≤ 169 * (x ^ 2 + y ^ 2 + z ^ 2) := by
  have h1 : (x * u + y * v + z * w) ^ 2 ≤ (x ^ 2 + y ^ 2 + z ^ 2) * (u ^ 2 + v ^ 2 + w ^ 2) := by
    nlinarith [sq_nonneg (x * v - y * u), sq_nonneg (x * w - z * u), sq_nonneg (y * w - z * v)]
  rw [h] at h1
  have : 0 ≤ x ^ 2 + y ^ 2 + z ^ 2 := by positivity
  nlinarith

theorem steps_wide {a b c : ℝ} : (|a + c| ≤ greatest (steps a b c) ∧ |a + b| ≤ greatest (steps a b c) ∧ |b + c| ≤ greatest (steps a b c)) ∧
    |a + c| ≤ -least (steps a b c) ∧ |a + b| ≤ -least (steps a b c) ∧ |b + c| ≤ -least (steps a b c) := by
  have h1 := steps_bound (a := a) (b := b) (c := c) (d := ⟨1, 0, 1⟩) (by decide)
  have h2 := steps_bound (a := a) (b := b) (c := c) (d := ⟨-1, 0, -1⟩) (by decide)
  have h3 := steps_bound (a := a) (b := b) (c := c) (d := ⟨1, 1, 0⟩) (by decide)
  have h4 := steps_bound (a := a) (b := b) (c := c) (d := ⟨-1, -1, 0⟩) (by decide)
  have h5 := steps_bound (a := a) (b := b) (c := c) (d := ⟨0, 1, 1⟩) (by decide)
  have h6 := steps_bound (a := a) (b := b) (c := c) (d := ⟨0, -1, -1⟩) (by decide)
  push_cast at h1 h2 h3 h4 h5 h6
  simp only [abs_le]
  refine ⟨⟨⟨?_, ?_⟩, ⟨?_, ?_⟩, ?_, ?_⟩, ⟨?_, ?_⟩, ⟨?_, ?_⟩, ?_, ?_⟩ <;> linarith

/-- one coordinate -/
theorem wide_coordinate {res rx ry rz a b c lo hi : ℝ} (hres : 0 < res) (hle : lo ≤ hi) (hr : 1 ≤ 169 * (rx ^ 2 + ry ^ 2 + rz ^ 2))
    (ha : a = res * (0.5773502691896258 * rx + 0.816496580927726 * ry)) (hb : b = res * (-0.5773502691896258 * rx + 0.816496580927726 * rz))
    (hc : c = res * (0.5773502691896258 * rx - 0.816496580927726 * ry)) :
    0.2 * res < (hi + (2 : ℕ) * 1.01 * greatest (steps a b c)) - (lo + (2 : ℕ) * 1.01 * least (steps a b c)) := by
  obtain ⟨⟨g1, g2, g3⟩, l1, l2, l3⟩ := steps_wide (a := a) (b := b) (c := c)
  have w1 := wide_of hres hr ha hb hc ((abs_nonneg _).trans g1) g1 g2 g3 rfl
  have w2 := wide_of hres hr ha hb hc ((abs_nonneg _).trans l1) l1 l2 l3 rfl
  push_cast
  norm_num at w1 w2 ⊢
  linarith

/-- **C75, moderate anisotropy.** The announced box is wide enough if the anisotropy stretches no coordinate direction by more than thirteen: in
particular without anisotropy and for every rotation. -/
theorem C75_thick (E : Env) (hres : 0 < E.resolution) (hb : E.L.Ordered) (a0 a1 a2 : P3) (hdet : dot a0 (cross a1 a2) ≠ 0)
    (hL : E.L = Prim.make E.L.lo E.L.hi E.resolution a0 a1 a2)
    (h0 : a0.1 ^ 2 + a1.1 ^ 2 + a2.1 ^ 2 ≤ 13 ^ 2) (h1 : a0.2.1 ^ 2 + a1.2.1 ^ 2 + a2.2.1 ^ 2 ≤ 13 ^ 2) (h2 : a0.2.2 ^ 2 + a1.2.2 ^ 2 + a2.2.2 ^ 2 ≤ 13 ^ 2) : Thick E := by
  obtain ⟨b0, b1, b2⟩ := hb
  norm_num at h0 h1 h2
  unfold Thick
  rw [hL]
  have e0 : cross a1 a2 = (a1.2.1 * a2.2.2 - a1.2.2 * a2.2.1, a1.2.2 * a2.1 - a1.1 * a2.2.2, a1.1 * a2.2.1 - a1.2.1 * a2.1) := rfl
  have e1 : cross a2 a0 = (a2.2.1 * a0.2.2 - a2.2.2 * a0.2.1, a2.2.2 * a0.1 - a2.1 * a0.2.2, a2.1 * a0.2.1 - a2.2.1 * a0.1) := rfl
  have e2 : cross a0 a1 = (a0.2.1 * a1.2.2 - a0.2.2 * a1.2.1, a0.2.2 * a1.1 - a0.1 * a1.2.2, a0.1 * a1.2.1 - a0.2.1 * a1.1) := rfl
  refine ⟨?_, ?_, ?_⟩
  · refine wide_coordinate (rx := (cross a1 a2).1 / dot a0 (cross a1 a2)) (ry := (cross a2 a0).1 / dot a0 (cross a1 a2)) (rz := (cross a0 a1).1 / dot a0 (cross a1 a2)) hres
      b0 (cauchy (u := a0.1) (v := a1.1) (w := a2.1) ?_ h0) ?_ ?_ ?_
    · rw [div_mul_eq_mul_div, div_mul_eq_mul_div, div_mul_eq_mul_div, ← add_div, ← add_div, div_eq_one_iff_eq hdet, e0, e1, e2]
      unfold dot; ring
    all_goals
      show (invMul a0 a1 a2 _).1 = _
      unfold invMul latticeBasis
      dsimp only
      ring
  · refine wide_coordinate (rx := (cross a1 a2).2.1 / dot a0 (cross a1 a2)) (ry := (cross a2 a0).2.1 / dot a0 (cross a1 a2)) (rz := (cross a0 a1).2.1 / dot a0 (cross a1 a2)) hres
      b1 (cauchy (u := a0.2.1) (v := a1.2.1) (w := a2.2.1) ?_ h1) ?_ ?_ ?_
    · rw [div_mul_eq_mul_div, div_mul_eq_mul_div, div_mul_eq_mul_div, ← add_div, ← add_div, div_eq_one_iff_eq hdet, e0, e1, e2]
      unfold dot; ring
    all_goals
      show (invMul a0 a1 a2 _).2.1 = _
      unfold invMul latticeBasis
      dsimp only
      ring
  · refine wide_coordinate (rx := (cross a1 a2).2.2 / dot a0 (cross a1 a2)) (ry := (cross a2 a0).2.2 / dot a0 (cross a1 a2)) (rz := (cross a0 a1).2.2 / dot a0 (cross a1 a2)) hres
      b2 (cauchy (u := a0.2.2) (v := a1.2.2) (w := a2.2.2) ?_ h2) ?_ ?_ ?_
    · rw [div_mul_eq_mul_div, div_mul_eq_mul_div, div_mul_eq_mul_div, ← add_div, ← add_div, div_eq_one_iff_eq hdet, e0, e1, e2]
      unfold dot; ring
    all_goals
      show (invMul a0 a1 a2 _).2.2 = _
      unfold invMul latticeBasis
      dsimp only
      ring

/-! ## The height of the tree -/

theorem log_pow2 {d : Nat} (hd : 0 < d) : 0 < Real.log ((2 : ℝ) ^ d) := Real.log_pos (one_lt_pow₀ (by norm_num) hd.ne')

/-- **C75, height.** For a positive number of points the height is at least two, and there are about `2 ^ d` points for each of the
`2 ^ (d * (h - 1))` leaves: the number of points is within a factor of the square root of `2 ^ d` of `2 ^ (d * h)`, except that it may be smaller if
the height is at its minimum. -/
theorem C75_height (d n : Nat) (hd : 0 < d) (hn : 0 < n) : ∃ h : Nat, treeHeight d n = .ok h ∧ 2 ≤ h ∧ n ^ 2 ≤ 2 ^ (d * (2 * h + 1)) ∧
    (h = 2 ∨ 2 ^ (d * (2 * h - 1)) ≤ n ^ 2) := by
  have hl := log_pow2 hd
  have hn1 : (1 : ℝ) ≤ n := by exact_mod_cast hn
  have hln : 0 ≤ Real.log n := Real.log_nonneg hn1
  have hx : 0 ≤ Real.log n / Real.log (2 ^ d) := div_nonneg hln hl.le
  have hk0 : 0 ≤ ⌊Real.log n / Real.log (2 ^ d) + 1 / 2⌋ := Int.floor_nonneg.2 (by linarith)
  have h1 := Int.floor_le (Real.log n / Real.log (2 ^ d) + 1 / 2)
  have h2 := Int.lt_floor_add_one (Real.log n / Real.log (2 ^ d) + 1 / 2)
  have hpow : ∀ k : Nat, Real.log ((2 : ℝ) ^ (d * k)) = k * Real.log (2 ^ d) := fun k => by rw [pow_mul, Real.log_pow]
  have hmul : Real.log n = Real.log n / Real.log (2 ^ d) * Real.log (2 ^ d) := (div_mul_cancel₀ _ hl.ne').symm
  have hr : treeHeight d n = .ok (max 2 ⌊Real.log n / Real.log (2 ^ d) + 1 / 2⌋) := by
    unfold treeHeight roundAway
    rw [if_neg hn.ne', if_pos hx]
  generalize ⌊Real.log n / Real.log (2 ^ d) + 1 / 2⌋ = k at hk0 h1 h2 hr
  generalize Real.log n / Real.log (2 ^ d) = x at hx h1 h2 hmul
  obtain ⟨k, rfl⟩ := Int.eq_ofNat_of_zero_le hk0
  refine ⟨max 2 k, ?_, le_max_left _ _, ?_, ?_⟩
  · rw [hr]; push_cast; rfl
  · have hkk : (k : ℝ) ≤ (max 2 k : Nat) := by exact_mod_cast le_max_right 2 k
    have : (n : ℝ) ^ 2 ≤ 2 ^ (d * (2 * max 2 k + 1)) := by
      rw [← Real.log_le_log_iff (by positivity) (by positivity), hpow, Real.log_pow, hmul]
      push_cast at h2 hkk ⊢
      nlinarith
    exact_mod_cast this
  · rcases le_or_gt k 2 with hk | hk
    · exact Or.inl (max_eq_left hk)
    · right
      rw [max_eq_right hk.le]
      have : (2 : ℝ) ^ (d * (2 * k - 1)) ≤ n ^ 2 := by
        rw [← Real.log_le_log_iff (by positivity) (by positivity), hpow, show Real.log ((n : ℝ) ^ 2) = 2 * Real.log n by rw [Real.log_pow]; norm_num, hmul]
        have e : ((2 * k - 1 : Nat) : ℝ) = 2 * k - 1 := by
          rw [Nat.cast_sub (by omega)]; push_cast; ring
        rw [e]
        push_cast at h1 ⊢
        nlinarith
      exact_mod_cast this

/-- **C75, height, monotone.** More points never give a lower tree. -/
theorem C75_height_mono (d n n' : Nat) (hd : 0 < d) (hn : 0 < n) (hnn : n ≤ n') (h h' : Int) (e : treeHeight d n = .ok h) (e' : treeHeight d n' = .ok h') : h ≤ h' := by
  have hl := log_pow2 hd
  have hn1 : (1 : ℝ) ≤ n := by exact_mod_cast hn
  have hn2 : (n : ℝ) ≤ n' := by exact_mod_cast hnn
  have hx : 0 ≤ Real.log n / Real.log (2 ^ d) := div_nonneg (Real.log_nonneg hn1) hl.le
  have hxx : Real.log n / Real.log (2 ^ d) ≤ Real.log n' / Real.log (2 ^ d) := div_le_div_of_nonneg_right (Real.log_le_log (by linarith) hn2) hl.le
  unfold treeHeight roundAway at e e'
  rw [if_neg hn.ne', if_pos hx] at e
  rw [if_neg (by omega), if_pos (hx.trans hxx)] at e'
  obtain rfl := Outcome.ok.inj e
  obtain rfl := Outcome.ok.inj e'
  exact max_le_max (le_refl _) (Int.floor_le_floor (by linarith))

theorem three_le {d n h : Nat} (hn : 1024 ≤ n) (h2 : 2 ≤ h) (h3 : n ^ 2 ≤ 2 ^ (d * (2 * h + 1))) (hd : d ≤ 3) : 3 ≤ h := by
  by_contra hc
  obtain rfl : h = 2 := by omega
  have h4 : (2 : Nat) ^ (d * (2 * 2 + 1)) ≤ 2 ^ 15 := Nat.pow_le_pow_right (by omega) (by omega)
  have h5 : 1024 ^ 2 ≤ n ^ 2 := Nat.pow_le_pow_left hn 2
  have := (h5.trans h3).trans h4
  norm_num at this

/-- **C75, height, evaluators.** The evaluators ask for the height only with at least 1024 points, so that it is defined; in at most three dimensions it
is then at least three. -/
theorem C75_height_used (d nSrc nTrg : Nat) (hd : 0 < d) : (∀ r, height d nSrc nTrg = some r → 1024 ≤ max nSrc nTrg ∧ ∃ h : Nat, r = .ok h ∧ 2 ≤ h ∧ (d ≤ 3 → 3 ≤ h)) ∧
    ∀ r, heightSymmetric d nSrc = some r → 1024 ≤ nSrc ∧ ∃ h : Nat, r = .ok h ∧ 2 ≤ h ∧ (d ≤ 3 → 3 ≤ h) := by
  refine ⟨fun r hr => ?_, fun r hr => ?_⟩
  · unfold height at hr
    split at hr
    · cases hr
    · rename_i hlt
      obtain rfl := Option.some.inj hr
      have hm : 1024 ≤ max nSrc nTrg := by
        by_contra hc
        have h1 : nSrc ≤ 1023 := by have := le_max_left nSrc nTrg; omega
        have h2 : nTrg ≤ 1023 := by have := le_max_right nSrc nTrg; omega
        have := Nat.mul_le_mul h1 h2
        omega
      obtain ⟨h, h1, h2, h3, -⟩ := C75_height d (max nSrc nTrg) hd (by omega)
      exact ⟨hm, h, h1, h2, three_le hm h2 h3⟩
  · unfold heightSymmetric at hr
    split at hr
    · cases hr
    · rename_i hlt
      obtain rfl := Option.some.inj hr
      obtain ⟨h, h1, h2, h3, -⟩ := C75_height d nSrc hd (by omega)
      exact ⟨by omega, h, h1, h2, three_le (by omega) h2 h3⟩

/-- With a million points in space the height is seven: `2 ^ 19.5 ≤ 10 ^ 6 ≤ 2 ^ 22.5`. -/
example : treeHeight 3 1000000 = .ok 7 := by
  obtain ⟨h, h1, h2, h3, h4⟩ := C75_height 3 1000000 (by omega) (by omega)
  have : h = 7 := by
    have a : ¬ h ≤ 6 := fun hh => by
      have : (2 : Nat) ^ (3 * (2 * h + 1)) ≤ 2 ^ 39 := Nat.pow_le_pow_right (by omega) (by omega)
      norm_num at this h3
      omega
    have b : ¬ 8 ≤ h := fun hh => by
      rcases h4 with rfl | h4
      · omega
      · have : (2 : Nat) ^ 45 ≤ 2 ^ (3 * (2 * h - 1)) := Nat.pow_le_pow_right (by omega) (by omega)
        norm_num at this h4
        omega
    omega
  rw [h1, this]
  rfl

end Verif.FmmBox
