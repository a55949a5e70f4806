import Verif.Model.ShowVariogram
import Verif.Props.Description
import Mathlib.Tactic.NormNum
import Mathlib.Tactic.FieldSimp
import Mathlib.Tactic.Linarith
import Mathlib.Data.Fin.VecNotation

/-!
# C81: what show-variogram prints; C82: which model fit-model-to-variogram saves
-/

namespace Verif.ShowVariogram

open Verif Variogram
open Verif.Description (deg atan2 cd sd)

/-- The direction with the given azimuth (from the second axis towards the first) and elevation, in degrees. -/
noncomputable def pointing (az elev : ℝ) : Vec 3 := ![cd elev * sd az, cd elev * cd az, sd elev]

theorem polar (x y : ℝ) : Real.sqrt (x ^ 2 + y ^ 2) * Real.sin (atan2 x y) = x ∧ Real.sqrt (x ^ 2 + y ^ 2) * Real.cos (atan2 x y) = y := by
  have hn : ‖(⟨y, x⟩ : ℂ)‖ = Real.sqrt (x ^ 2 + y ^ 2) := by
    rw [Complex.norm_eq_sqrt_sq_add_sq]
    dsimp only
    rw [add_comm]
  have h1 := Complex.norm_mul_cos_arg ⟨y, x⟩
  have h2 := Complex.norm_mul_sin_arg ⟨y, x⟩
  rw [hn] at h1 h2
  exact ⟨h2, h1⟩

theorem deg_pos : 0 < deg := by unfold deg; positivity

theorem in_deg (x : ℝ) : cd (x / deg) = Real.cos x ∧ sd (x / deg) = Real.sin x := by
  have h : x / deg * (Real.pi / 180) = x := by
    unfold deg
    field_simp
  unfold cd sd
  rw [h]
  exact ⟨rfl, rfl⟩

theorem add180 (x : ℝ) : cd (x + 180) = -cd x ∧ sd (x + 180) = -sd x := by
  have h : (x + 180) * (Real.pi / 180) = x * (Real.pi / 180) + Real.pi := by ring
  unfold cd sd
  rw [h, Real.cos_add_pi, Real.sin_add_pi]
  exact ⟨rfl, rfl⟩

theorem add360 (x : ℝ) : cd (x + 360) = cd x ∧ sd (x + 360) = sd x := by
  have h : (x + 360) * (Real.pi / 180) = x * (Real.pi / 180) + 2 * Real.pi := by ring
  unfold cd sd
  rw [h, Real.cos_add_two_pi, Real.sin_add_two_pi]
  exact ⟨rfl, rfl⟩

theorem turn_same (x : ℝ) : cd (turn x) = cd x ∧ sd (turn x) = sd x := by
  unfold turn
  split
  · exact add360 x
  · exact ⟨rfl, rfl⟩

theorem angles_eq (dir : Vec 3) : angles dir = .ok (turn (up (atan2 (dir 0) (dir 1) / deg) (Real.arcsin (dir 2) / deg)).1,
    (up (atan2 (dir 0) (dir 1) / deg) (Real.arcsin (dir 2) / deg)).2) := rfl

theorem arcsin_deg (z : ℝ) : -90 ≤ Real.arcsin z / deg ∧ Real.arcsin z / deg ≤ 90 := by
  have h1 := Real.neg_pi_div_two_le_arcsin z
  have h2 := Real.arcsin_le_pi_div_two z
  have hd := deg_pos
  have e : deg * 90 = Real.pi / 2 := by unfold deg; ring
  constructor
  · rw [le_div_iff₀ hd]; nlinarith
  · rw [div_le_iff₀ hd]; nlinarith

theorem atan2_deg (x y : ℝ) : -180 < atan2 x y / deg ∧ atan2 x y / deg ≤ 180 := by
  have h1 := Complex.neg_pi_lt_arg ⟨y, x⟩
  have h2 := Complex.arg_le_pi ⟨y, x⟩
  have hd := deg_pos
  have e : deg * 180 = Real.pi := by unfold deg; ring
  unfold atan2
  constructor
  · rw [lt_div_iff₀ hd]; nlinarith
  · rw [div_le_iff₀ hd]; nlinarith

/-- **C81**: for a direction of length one in space, the azimuth lies between 0 and 360 degrees, the elevation between 0 and 90, and they point along the direction,
or against it if it points downwards - a variogram does not tell a direction from its opposite. -/
theorem C81_angles (dir : Vec 3) (hu : dir 0 ^ 2 + dir 1 ^ 2 + dir 2 ^ 2 = 1) :
    ∃ az elev, angles dir = .ok (az, elev) ∧ 0 ≤ az ∧ az ≤ 360 ∧ 0 ≤ elev ∧ elev ≤ 90 ∧
      (0 ≤ dir 2 → dir = pointing az elev) ∧ (dir 2 < 0 → dir = -pointing az elev) := by
  refine ⟨_, _, angles_eq dir, ?_⟩
  obtain ⟨s1, s2⟩ := arcsin_deg (dir 2)
  obtain ⟨a1, a2⟩ := atan2_deg (dir 0) (dir 1)
  obtain ⟨p1, p2⟩ := polar (dir 0) (dir 1)
  have hz : -1 ≤ dir 2 ∧ dir 2 ≤ 1 := by
    constructor <;> nlinarith [_root_.sq_nonneg (dir 0), _root_.sq_nonneg (dir 1), _root_.sq_nonneg (dir 2 - 1), _root_.sq_nonneg (dir 2 + 1)]
  have hc : cd (Real.arcsin (dir 2) / deg) = Real.sqrt (dir 0 ^ 2 + dir 1 ^ 2) := by
    rw [(in_deg _).1, Real.cos_arcsin]
    congr 1
    linarith
  have hs : sd (Real.arcsin (dir 2) / deg) = dir 2 := by rw [(in_deg _).2, Real.sin_arcsin hz.1 hz.2]
  have hsign : Real.arcsin (dir 2) / deg < 0 ↔ dir 2 < 0 := by
    rw [div_lt_iff₀ deg_pos, zero_mul, Real.arcsin_lt_zero]
  unfold up
  by_cases hneg : Real.arcsin (dir 2) / deg < 0
  · rw [if_pos hneg]
    dsimp only
    obtain ⟨t1, t2⟩ := turn_same (atan2 (dir 0) (dir 1) / deg + 180)
    obtain ⟨u1, u2⟩ := add180 (atan2 (dir 0) (dir 1) / deg)
    have hcn : cd (-(Real.arcsin (dir 2) / deg)) = Real.sqrt (dir 0 ^ 2 + dir 1 ^ 2) := by
      rw [← hc]; unfold cd; rw [neg_mul, Real.cos_neg]
    have hsn : sd (-(Real.arcsin (dir 2) / deg)) = -dir 2 := by
      have : sd (-(Real.arcsin (dir 2) / deg)) = -sd (Real.arcsin (dir 2) / deg) := by unfold sd; rw [neg_mul, Real.sin_neg]
      rw [this, hs]
    refine ⟨?_, ?_, by linarith, by linarith, fun h => absurd (hsign.1 hneg) (not_lt.2 h), fun _ => ?_⟩
    · unfold turn; split <;> linarith
    · unfold turn; split <;> linarith
    · unfold pointing
      rw [t1, t2, u1, u2, hcn, hsn, (in_deg _).1, (in_deg _).2]
      funext i
      match i with
      | 0 => simp [p1]
      | 1 => simp [p2]
      | 2 => simp
  · rw [if_neg hneg]
    dsimp only
    obtain ⟨t1, t2⟩ := turn_same (atan2 (dir 0) (dir 1) / deg)
    refine ⟨?_, ?_, by linarith, by linarith, fun _ => ?_, fun h => absurd (hsign.2 h) hneg⟩
    · unfold turn; split <;> linarith
    · unfold turn; split <;> linarith
    · unfold pointing
      rw [t1, t2, hc, hs, (in_deg _).1, (in_deg _).2]
      funext i
      match i with
      | 0 => simp [p1]
      | 1 => simp [p2]
      | 2 => simp

/-- The upper end 360 is reached: straight down to the south. -/
theorem C81_azimuth_360 : ∃ dir : Vec 3, dir 0 ^ 2 + dir 1 ^ 2 + dir 2 ^ 2 = 1 ∧ ∃ elev, angles dir = .ok (360, elev) := by
  refine ⟨![0, -(3 / 5), -(4 / 5)], ?_, -(Real.arcsin ((![0, -(3 / 5), -(4 / 5)] : Vec 3) 2) / deg), ?_⟩
  · show (0 : ℝ) ^ 2 + (-(3 / 5)) ^ 2 + (-(4 / 5)) ^ 2 = 1
    norm_num
  · rw [angles_eq]
    have e1 : atan2 ((![0, -(3 / 5), -(4 / 5)] : Vec 3) 0) ((![0, -(3 / 5), -(4 / 5)] : Vec 3) 1) / deg = 180 := by
      have : atan2 0 (-(3 / 5) : ℝ) = Real.pi := by
        unfold atan2
        have : (⟨-(3 / 5), 0⟩ : ℂ) = ((-(3 / 5) : ℝ) : ℂ) := by apply Complex.ext <;> simp
        rw [this, Complex.arg_ofReal_of_neg (by norm_num)]
      show atan2 0 (-(3 / 5) : ℝ) / deg = 180
      rw [this]
      unfold deg
      field_simp
    have e2 : Real.arcsin ((![0, -(3 / 5), -(4 / 5)] : Vec 3) 2) / deg < 0 := by
      rw [div_lt_iff₀ deg_pos, zero_mul, Real.arcsin_lt_zero]
      show (-(4 / 5) : ℝ) < 0
      norm_num
    rw [e1]
    unfold up
    rw [if_pos e2]
    dsimp only
    have : turn (180 + 180) = 360 := by unfold turn; rw [if_neg (by norm_num)]; norm_num
    rw [this]

/-- The omnidirectional variogram, whose direction is the zero vector, is printed like the one towards north. -/
theorem C81_omnidirectional : angles (0 : Vec 3) = angles (![0, 1, 0] : Vec 3) ∧ angles (0 : Vec 3) = .ok (0, 0) := by
  have z : atan2 0 0 = 0 := by
    unfold atan2
    have : (⟨0, 0⟩ : ℂ) = 0 := rfl
    rw [this, Complex.arg_zero]
  have o : atan2 0 1 = 0 := by
    unfold atan2
    have : (⟨1, 0⟩ : ℂ) = 1 := rfl
    rw [this, Complex.arg_one]
  have key : angles (0 : Vec 3) = .ok (0, 0) := by
    rw [angles_eq]
    show Outcome.ok (turn (up (atan2 0 0 / deg) (Real.arcsin 0 / deg)).1, (up (atan2 0 0 / deg) (Real.arcsin 0 / deg)).2) = _
    rw [z, Real.arcsin_zero]
    simp [up, turn]
  refine ⟨?_, key⟩
  rw [key, angles_eq]
  show _ = Outcome.ok (turn (up (atan2 0 1 / deg) (Real.arcsin 0 / deg)).1, (up (atan2 0 1 / deg) (Real.arcsin 0 / deg)).2)
  rw [o, Real.arcsin_zero]
  simp [up, turn]

/-- In one and two dimensions the overview of a set that is not empty reads a third component that does not exist. -/
theorem C81_flat {d : Nat} (hd : d < 3) (i : Nat) (v : Vario d) (vs : List (Vario d)) : overview i (v :: vs) = .ub := by
  have h : angles v.direction = .ub := by
    unfold angles component
    rw [dif_neg (show ¬ 2 < d by omega)]
    rfl
  unfold overview
  rw [h]
  rfl

/-- **C81**: in space the overview has one line for every variogram, in order, with its number, its number of pairs and the angles of its direction. -/
theorem C81_overview (vs : List (Vario 3)) (k : Nat) : ∃ ls, overview k vs = .ok ls ∧ ls.length = vs.length ∧
    ∀ (i : Nat) (v : Vario 3) (l : Line), vs[i]? = some v → ls[i]? = some l →
      l.id = k + i ∧ l.numPairs = v.binNumPairs.sum ∧ angles v.direction = .ok (l.azimuth, l.elevation) := by
  induction vs generalizing k with
  | nil => exact ⟨[], rfl, rfl, fun i v l h => by simp at h⟩
  | cons v vs ih =>
    obtain ⟨ls, h1, h2, h3⟩ := ih (k + 1)
    refine ⟨_, by unfold overview; rw [angles_eq, Outcome.ok_bind, h1, Outcome.ok_bind], by rw [List.length_cons, List.length_cons, h2], ?_⟩
    intro i w l hw hl
    cases i with
    | zero =>
      rw [List.getElem?_cons_zero] at hw hl
      cases hw
      cases hl
      exact ⟨rfl, rfl, rfl⟩
    | succ i =>
      rw [List.getElem?_cons_succ] at hw hl
      obtain ⟨a, b, c⟩ := h3 i w l hw hl
      exact ⟨by omega, b, c⟩

/-! ## The listing of one variogram -/

/-- Printing with `k` decimals changes a number by at most half a unit of the last decimal. -/
def Prints (print : Nat → ℝ → ℝ) : Prop := ∀ k x, |print k x - x| ≤ 1 / 2 * (1 / 10) ^ k

theorem le_foldl_max (xs : List ℝ) (x : ℝ) : x ≤ xs.foldl max x ∧ ∀ y ∈ xs, y ≤ xs.foldl max x := by
  induction xs generalizing x with
  | nil => exact ⟨le_refl _, fun y h => by cases h⟩
  | cons a xs ih =>
    obtain ⟨h1, h2⟩ := ih (max x a)
    refine ⟨(le_max_left x a).trans h1, fun y hy => ?_⟩
    rcases List.mem_cons.1 hy with rfl | hy
    · exact (le_max_right x y).trans h1
    · exact h2 y hy

theorem precision {x : ℝ} (hx : 0 < x) : (1 / 10 : ℝ) ^ formatPrecision x ≤ (1 / 10) ^ 5 * x := by
  have hl : (10 : ℝ) ^ (⌊Real.logb 10 x⌋ : ℤ) ≤ x := by
    have h1 := Int.floor_le (Real.logb 10 x)
    have h2 := (Real.le_logb_iff_rpow_le (b := 10) (by norm_num) hx).1 h1
    rwa [Real.rpow_intCast] at h2
  unfold formatPrecision
  rw [if_neg hx.ne', abs_of_pos hx]
  generalize ⌊Real.logb 10 x⌋ = f at hl
  have e : (1 / 10 : ℝ) ^ (5 - f).toNat ≤ (1 / 10) ^ (5 - f : ℤ) := by
    rw [← zpow_natCast]
    apply zpow_le_zpow_right_of_le_one₀ (by norm_num) (by norm_num)
    exact Int.self_le_toNat _
  refine e.trans ?_
  rw [zpow_sub₀ (by norm_num)]
  have : ((1 / 10 : ℝ)) ^ f = ((10 : ℝ) ^ f)⁻¹ := by rw [one_div, inv_zpow]
  rw [this, div_inv_eq_mul]
  have e5 : (1 / 10 : ℝ) ^ (5 : ℤ) = (1 / 10) ^ 5 := by norm_cast
  rw [e5]
  exact mul_le_mul_of_nonneg_left hl (by norm_num)

theorem bins_ok (print : Nat → ℝ → ℝ) (dp gp : Nat) : ∀ (xs gs : List ℝ) (ns : List Nat), gs.length = xs.length → ns.length = xs.length →
    ∃ ls, bins print dp gp xs gs ns = .ok ls ∧ ls.length = xs.length ∧
      ∀ (i : Nat) (l : Bin), ls[i]? = some l → xs[i]?.map (print dp) = some l.distance ∧ gs[i]?.map (print gp) = some l.gamma ∧ ns[i]? = some l.numPairs
  | [], gs, ns, _, _ => ⟨[], by unfold bins; rfl, rfl, fun i l h => by simp at h⟩
  | x :: xs, g :: gs, n :: ns, hg, hn => by
      obtain ⟨ls, h1, h2, h3⟩ := bins_ok print dp gp xs gs ns (by simpa using hg) (by simpa using hn)
      refine ⟨_, by unfold bins; rw [h1, Outcome.ok_bind], by rw [List.length_cons, List.length_cons, h2], ?_⟩
      intro i l hl
      cases i with
      | zero =>
        rw [List.getElem?_cons_zero] at hl
        cases hl
        exact ⟨rfl, rfl, rfl⟩
      | succ i =>
        rw [List.getElem?_cons_succ] at hl
        exact h3 i l hl
  | _ :: _, [], _, hg, _ => by simp at hg
  | _ :: _, _ :: _, [], _, hn => by simp at hn

/-- **C81**: the listing of a variogram with at least one bin has one line per bin, in order, with its number of pairs; distance and gamma are off by at most five
millionths of the largest one of the variogram. -/
theorem C81_listing {d : Nat} {print : Nat → ℝ → ℝ} (hp : Prints print) (set : List (Vario d)) (id : Nat) (v : Vario d) (hv : set[id]? = some v)
    (hg : v.binGamma.length = v.binDistance.length) (hn : v.binNumPairs.length = v.binDistance.length) (dmax gmax : ℝ)
    (hd : dmax ∈ v.binDistance ∧ ∀ x ∈ v.binDistance, x ≤ dmax) (hgm : gmax ∈ v.binGamma ∧ ∀ x ∈ v.binGamma, x ≤ gmax) (hdp : 0 < dmax) (hgp : 0 < gmax) :
    ∃ ls, listing print set id = .ok ls ∧ ls.length = v.binDistance.length ∧
      ∀ (i : Nat) (l : Bin), ls[i]? = some l → ∃ x g, v.binDistance[i]? = some x ∧ v.binGamma[i]? = some g ∧ v.binNumPairs[i]? = some l.numPairs ∧
        |l.distance - x| ≤ 5e-6 * dmax ∧ |l.gamma - g| ≤ 5e-6 * gmax := by
  have hmax : ∀ (xs : List ℝ) (m : ℝ), (m ∈ xs ∧ ∀ x ∈ xs, x ≤ m) → maxElement xs = .ok m := by
    rintro (_ | ⟨x, xs⟩) m ⟨h1, h2⟩
    · cases h1
    · unfold maxElement
      apply congrArg Outcome.ok
      apply le_antisymm
      · have hm : xs.foldl max x ∈ x :: xs := by
          clear h1 h2
          induction xs generalizing x with
          | nil => simp
          | cons a xs ih =>
            have := ih (max x a)
            rw [List.foldl_cons]
            rcases List.mem_cons.1 this with h | h
            · rw [h]
              rcases max_choice x a with e | e <;> rw [e] <;> simp
            · exact List.mem_cons_of_mem _ (List.mem_cons_of_mem _ h)
        exact h2 _ hm
      · obtain ⟨k1, k2⟩ := le_foldl_max xs x
        rcases List.mem_cons.1 h1 with rfl | h1
        · exact k1
        · exact k2 m h1
  obtain ⟨ls, b1, b2, b3⟩ := bins_ok print (formatPrecision dmax) (formatPrecision gmax) v.binDistance v.binGamma v.binNumPairs hg hn
  refine ⟨ls, ?_, b2, ?_⟩
  · unfold listing
    rw [if_neg (by omega), Int.toNat_natCast, hv]
    dsimp only
    rw [hmax _ _ hd, Outcome.ok_bind, hmax _ _ hgm, Outcome.ok_bind, b1]
  · intro i l hl
    obtain ⟨q1, q2, q3⟩ := b3 i l hl
    obtain ⟨x, x1, x2⟩ := Option.map_eq_some_iff.1 q1
    obtain ⟨g, g1, g2⟩ := Option.map_eq_some_iff.1 q2
    refine ⟨x, g, x1, g1, q3, ?_, ?_⟩
    · rw [← x2]
      have := hp (formatPrecision dmax) x
      have := precision hdp
      linarith
    · rw [← g2]
      have := hp (formatPrecision gmax) g
      have := precision hgp
      linarith

/-- **C81**: an id that is not in the set is refused; a variogram without bins is not (its maximum is undefined). -/
theorem C81_other_ids {d : Nat} (print : Nat → ℝ → ℝ) (set : List (Vario d)) (id : Int) :
    (id < 0 ∨ (set.length : Int) ≤ id → listing print set id = .throws .outOfRange) ∧
    ∀ v, 0 ≤ id → set[id.toNat]? = some v → v.binDistance = [] → listing print set id = .ub := by
  unfold listing
  constructor
  · intro h
    by_cases h0 : id < 0
    · rw [if_pos h0]
    · rw [if_neg h0, List.getElem?_eq_none (by omega)]
  · intro v h0 hv hb
    rw [if_neg (by omega), hv]
    dsimp only
    rw [hb]
    rfl

example : ∃ ls, listing (fun _ x => x) [⟨[1, 2], [3, 5], [4, 6], (0 : Vec 1)⟩] 0 = .ok ls ∧ ls.length = 2 := by
  obtain ⟨ls, h1, h2, -⟩ := C81_listing (print := fun _ x => x) (fun k x => by simp) [⟨[1, 2], [3, 5], [4, 6], (0 : Vec 1)⟩] 0 _ rfl rfl rfl 2 5
    (by simp) (by simp; norm_num) (by norm_num) (by norm_num)
  exact ⟨ls, h1, h2⟩

/-! ## fit-model-to-variogram -/

theorem bestOf_spec {M : Type} : ∀ (ts : List (M × Option EReal)) (best : M) (c : EReal),
    (bestOf ts best (some c) = (best, some c) ∧ ∀ t ∈ ts, ∀ x, t.2 = some x → c ≤ x) ∨
    ∃ (i : Nat) (t : M × Option EReal) (x : EReal), ts[i]? = some t ∧ t.2 = some x ∧ bestOf ts best (some c) = t ∧ x < c ∧
      (∀ t' ∈ ts, ∀ x', t'.2 = some x' → x ≤ x') ∧ ∀ j < i, ∀ t', ts[j]? = some t' → ∀ x', t'.2 = some x' → x < x'
  | [], best, c => .inl ⟨rfl, fun t h => by cases h⟩
  | t :: ts, best, c => by
      unfold bestOf
      by_cases h : ∃ x, t.2 = some x ∧ x < c
      · obtain ⟨x, hx, hlt⟩ := h
        have hl : less t.2 (some c) = true := by rw [hx]; exact decide_eq_true hlt
        rw [if_pos hl, hx]
        right
        rcases bestOf_spec ts t.1 x with ⟨e, hall⟩ | ⟨i, u, y, u1, u2, u3, u4, u5, u6⟩
        · refine ⟨0, t, x, rfl, hx, ?_, hlt, ?_, fun j hj => absurd hj (Nat.not_lt_zero j)⟩
          · rw [e, ← hx]
          · intro t' ht' x' hx'
            rcases List.mem_cons.1 ht' with rfl | ht'
            · rw [hx] at hx'; cases hx'; exact le_refl _
            · exact hall t' ht' x' hx'
        · refine ⟨i + 1, u, y, u1, u2, u3, u4.trans hlt, ?_, ?_⟩
          · intro t' ht' x' hx'
            rcases List.mem_cons.1 ht' with rfl | ht'
            · rw [hx] at hx'; cases hx'; exact u4.le
            · exact u5 t' ht' x' hx'
          · intro j hj t' ht' x' hx'
            cases j with
            | zero =>
              rw [List.getElem?_cons_zero] at ht'
              cases ht'
              rw [hx] at hx'; cases hx'; exact u4
            | succ j =>
              rw [List.getElem?_cons_succ] at ht'
              exact u6 j (by omega) t' ht' x' hx'
      · have hge : ∀ x, t.2 = some x → c ≤ x := fun x hx => not_lt.1 fun hlt => h ⟨x, hx, hlt⟩
        have hl : ¬ less t.2 (some c) = true := by
          cases ht : t.2 with
          | none => simp [less]
          | some x =>
            show ¬ decide (x < c) = true
            rw [decide_eq_true_iff]
            exact not_lt.2 (hge x ht)
        rw [if_neg hl]
        rcases bestOf_spec ts best c with ⟨e, hall⟩ | ⟨i, u, y, u1, u2, u3, u4, u5, u6⟩
        · left
          refine ⟨e, fun t' ht' x' hx' => ?_⟩
          rcases List.mem_cons.1 ht' with rfl | ht'
          · exact hge x' hx'
          · exact hall t' ht' x' hx'
        · right
          refine ⟨i + 1, u, y, u1, u2, u3, u4, ?_, ?_⟩
          · intro t' ht' x' hx'
            rcases List.mem_cons.1 ht' with rfl | ht'
            · exact u4.le.trans (hge x' hx')
            · exact u5 t' ht' x' hx'
          · intro j hj t' ht' x' hx'
            cases j with
            | zero =>
              rw [List.getElem?_cons_zero] at ht'
              cases ht'
              exact u4.trans_le (hge x' hx')
            | succ j =>
              rw [List.getElem?_cons_succ] at ht'
              exact u6 j (by omega) t' ht' x' hx'

/-- **C82**: the model that is saved is that of a trial with the least cost of all trials, the first one if there are several; a trial whose cost is infinite or NaN
is never chosen. -/
theorem C82_best {M : Type} (model : M) (trials : List (M × Option EReal)) (h : ∃ t ∈ trials, ∃ x : EReal, t.2 = some x ∧ x < ⊤) :
    ∃ (i : Nat) (m : M) (x : EReal), trials[i]? = some (m, some x) ∧ fitModel model trials = m ∧ x < ⊤ ∧ (∀ t ∈ trials, ∀ x', t.2 = some x' → x ≤ x') ∧
      ∀ j < i, ∀ t, trials[j]? = some t → ∀ x', t.2 = some x' → x < x' := by
  rcases bestOf_spec trials model ⊤ with ⟨-, hall⟩ | ⟨i, ⟨m, c⟩, x, u1, u2, u3, u4, u5, u6⟩
  · obtain ⟨t, ht, x, hx, hlt⟩ := h
    exact absurd (hall t ht x hx) (not_le.2 hlt)
  · dsimp only at u2
    subst u2
    exact ⟨i, m, x, u1, by unfold fitModel; rw [u3], u4, u5, u6⟩

/-- **C82**: if there is no trial, or none with a finite cost, the given model is saved as it is - without any message. -/
theorem C82_no_trial {M : Type} (model : M) (trials : List (M × Option EReal)) (h : ∀ t ∈ trials, ∀ x : EReal, t.2 = some x → x = ⊤) : fitModel model trials = model := by
  rcases bestOf_spec trials model ⊤ with ⟨e, -⟩ | ⟨i, t, x, u1, u2, -, u4, -⟩
  · unfold fitModel; rw [e]
  · rw [h t (List.mem_of_getElem? u1) x u2] at u4
    exact absurd u4 (lt_irrefl _)

/-- **C82**: more trials never make the cost worse. -/
theorem C82_more_trials {M : Type} (model : M) (a b : List (M × Option EReal)) (m : M) (x : EReal)
    (hbest : bestOf (a ++ b) model (some ⊤) = (m, some x)) (c : EReal) (hc : (bestOf a model (some ⊤)).2 = some c) : x ≤ c := by
  rcases bestOf_spec a model ⊤ with ⟨e, -⟩ | ⟨j, t, y, u1, u2, u3, -⟩
  · rw [e] at hc
    cases hc
    exact le_top
  · rw [u3, u2] at hc
    cases hc
    rcases bestOf_spec (a ++ b) model ⊤ with ⟨-, hall⟩ | ⟨k, t', z, v1, v2, v3, -, v5, -⟩
    · exact le_top.trans (hall t (List.mem_append_left _ (List.mem_of_getElem? u1)) _ u2)
    · rw [hbest] at v3
      subst v3
      cases v2
      exact v5 t (List.mem_append_left _ (List.mem_of_getElem? u1)) _ u2

example : fitModel "given" [("a", none), ("b", some (3 : EReal)), ("c", some 2), ("d", some 2), ("e", some ⊤)] = "c" := by
  have h1 : less none (some ⊤) = false := rfl
  have hl : ∀ a b : EReal, a < b → less (some a) (some b) = true := fun a b h => decide_eq_true h
  have hn : ∀ a b : EReal, b ≤ a → less (some a) (some b) = false := fun a b h => decide_eq_false (not_lt.2 h)
  have h2 := hl 3 ⊤ (by exact_mod_cast EReal.coe_lt_top 3)
  have h3 := hl 2 3 (by exact_mod_cast (by norm_num : (2 : ℝ) < 3))
  have h4 := hn 2 2 (le_refl _)
  have h5 := hn ⊤ 2 le_top
  simp [fitModel, bestOf, h1, h2, h3, h4, h5]

end Verif.ShowVariogram
