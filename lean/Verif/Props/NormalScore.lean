import Verif.Model.Kriging
import Mathlib.RingTheory.Polynomial.Hermite.Basic
import Mathlib.Algebra.Polynomial.AlgebraMap
import Mathlib.Data.List.Sort
import Mathlib.Tactic.Linarith
import Mathlib.Tactic.Ring
import Mathlib.Tactic.FieldSimp
import Mathlib.Algebra.BigOperators.Ring.Finset
import Mathlib.Algebra.Order.BigOperators.Group.Finset

/-! # C33 (normal score transformation) -/

namespace Verif.Kriging

open Verif

/-- The contract of `std::sort` on `0 .. n - 1` with the comparison `z i < z j`. -/
def SortOk (sort : Nat → (Nat → Nat → Bool) → List Nat) : Prop :=
  ∀ z : List ℝ, (sort z.length (less z)).Perm (List.range z.length) ∧
    (sort z.length (less z)).Pairwise (fun i j => z.getD i 0 ≤ z.getD j 0)

theorem scores_not_mem (icdf : ℝ → ℝ) (n : Nat) : ∀ (ks : List Nat) (i : Nat) (y : Nat → ℝ) (j : Nat), j ∉ ks →
    scores icdf n ks i y j = y j
  | [], _, _, _, _ => rfl
  | k :: ks, i, y, j, h => by
      simp only [List.mem_cons, not_or] at h
      simp only [scores]
      rw [scores_not_mem icdf n ks _ _ j h.2, if_neg h.1]

theorem scores_getElem (icdf : ℝ → ℝ) (n : Nat) : ∀ (ks : List Nat) (i : Nat) (y : Nat → ℝ), ks.Nodup →
    ∀ (r : Nat) (h : r < ks.length), scores icdf n ks i y ks[r] = icdf ((2 * (i + r : Nat) + 1) * (1 / (2 * n)))
  | [], _, _, _, r, h => by simp at h
  | k :: ks, i, y, hnd, r, h => by
      have hnd' := List.nodup_cons.1 hnd
      cases r with
      | zero =>
          simp only [scores, List.getElem_cons_zero]
          rw [scores_not_mem icdf n ks _ _ k hnd'.1, if_pos rfl]
          simp
      | succ r =>
          simp only [scores, List.getElem_cons_succ]
          rw [scores_getElem icdf n ks (i + 1) _ hnd'.2 r (by simpa using h), show i + 1 + r = i + (r + 1) by omega]

theorem get_ok {l : List α} {i : Nat} (h : i < l.length) : Outcome.get l i = .ok l[i] := by
  simp [Outcome.get, h]

theorem diffs_ok {z : List ℝ} (hn : 2 ≤ z.length) {i : Nat} (hi : i < z.length) : ∃ d, diffs z i = .ok d := by
  unfold diffs
  split
  · rw [get_ok (by omega), get_ok (by omega)]; exact ⟨_, rfl⟩
  · split
    · rw [get_ok (by omega), get_ok (by omega)]; exact ⟨_, rfl⟩
    · rw [get_ok (by omega), get_ok (by omega)]; exact ⟨_, rfl⟩

theorem traverse_exists_ok {f : α → Outcome β} {xs : List α} (h : ∀ x ∈ xs, ∃ y, f x = .ok y) :
    ∃ ys, Outcome.traverse f xs = .ok ys := by
  induction xs with
  | nil => exact ⟨[], rfl⟩
  | cons x xs ih =>
      obtain ⟨y, hy⟩ := h x (by simp)
      obtain ⟨ys, hys⟩ := ih (fun z hz => h z (by simp [hz]))
      exact ⟨y :: ys, by simp [Outcome.traverse, hy, hys]⟩

theorem computePhi_ok {order : Nat} {z y : List ℝ} (hn : 2 ≤ z.length) :
    ∃ phi, computePhi order z y = .ok phi ∧ phi.length = order + 1 ∧ phi.getD 0 0 = z.sum / z.length := by
  unfold computePhi
  rw [if_neg (by omega)]
  obtain ⟨a, ha⟩ := traverse_exists_ok (f := diffs z) (xs := List.range z.length)
    (fun i hi => diffs_ok hn (List.mem_range.1 hi))
  rw [ha]
  exact ⟨_, rfl, by simp, by simp⟩

/-- C33: a negative order is rejected. -/
theorem C33_order_is_checked (order : Int) :
    (order < 0 → Nst.new order = .throws .invalidArgument) ∧
    (0 ≤ order → Nst.new order = .ok ⟨order, false, []⟩) := by
  unfold Nst.new
  constructor
  · intro h; rw [if_pos h]
  · intro h; rw [if_neg (by omega)]

/-- C33: the back transformations throw on an object on which `transform` has not been called. -/
theorem C33_back_transform_before_transform {order : Int} {t : Nst} (h : Nst.new order = .ok t) (y gamma : ℝ) :
    t.backTransform y = .throws .runtimeError ∧ t.backTransformGamma gamma = .throws .runtimeError := by
  unfold Nst.new at h
  split at h
  · cases h
  · cases h; constructor <;> rfl

/-- C33: with at least two data, `transform` returns one score per datum; the scores are the quantiles
`icdf ((2 r + 1) / (2 n))` of the ranks `r`: each rank is used once and a larger datum gets a larger score; afterwards the
back transformations are available, with coefficients beginning with the mean of the data. -/
theorem C33_scores_preserve_order {sort : Nat → (Nat → Nat → Bool) → List Nat} (hs : SortOk sort) {icdf : ℝ → ℝ}
    (hmono : ∀ p q, 0 < p → p < q → q < 1 → icdf p < icdf q) (t : Nst) {z : List ℝ} (hn : 2 ≤ z.length) :
    ∃ t' y rank, t.transform sort icdf z = (t', .ok y) ∧ t'.transformed = true ∧ t'.order = t.order ∧
      t'.phi.length = t.order.toNat + 1 ∧ t'.phi.getD 0 0 = z.sum / z.length ∧
      y.length = z.length ∧ (rank : List Nat).Perm (List.range z.length) ∧
      (∀ (i : Nat), i < z.length → y.getD i 0 = icdf ((2 * (rank.getD i 0 : ℝ) + 1) / (2 * z.length))) ∧
      (∀ i j, i < z.length → j < z.length → z.getD i 0 < z.getD j 0 →
        rank.getD i 0 < rank.getD j 0 ∧ y.getD i 0 < y.getD j 0) := by
  classical
  unfold Nst.transform
  dsimp only
  set n := z.length with hnz
  obtain ⟨hperm, hsorted⟩ := hs z
  rw [← hnz] at hperm hsorted
  set ind := sort n (less z) with hind
  have hlen : ind.length = n := by rw [hperm.length_eq, List.length_range]
  have hnd : ind.Nodup := hperm.nodup_iff.2 List.nodup_range
  set y := scores icdf n ind 0 (fun _ => 0) with hy
  obtain ⟨phi, hphi, hphil, hphi0⟩ := computePhi_ok (order := t.order.toNat) (z := ind.map (fun i => z.getD i 0))
    (y := ind.map y) (by rw [List.length_map, hlen]; exact hn)
  rw [hphi]
  have hmem : ∀ i, i < n → i ∈ ind := fun i hi => hperm.mem_iff.2 (List.mem_range.2 hi)
  have hrank : ∀ i, i < n → ind.idxOf i < ind.length := fun i hi => List.idxOf_lt_length_of_mem (hmem i hi)
  have hyi : ∀ i, i < n → y i = icdf ((2 * (ind.idxOf i : ℝ) + 1) / (2 * n)) := by
    intro i hi
    have := scores_getElem icdf n ind 0 (fun _ => 0) hnd (ind.idxOf i) (hrank i hi)
    rw [List.getElem_idxOf] at this
    rw [hy, this, Nat.zero_add, mul_one_div]
  have hg : ∀ (f : Nat → ℝ) i, i < n → ((List.range n).map f).getD i 0 = f i := by intro f i hi; simp [hi]
  have hgr : ∀ i, i < n → ((List.range n).map (fun i => ind.idxOf i)).getD i 0 = ind.idxOf i := by
    intro i hi; simp [hi]
  refine ⟨_, _, (List.range n).map (fun i => ind.idxOf i), rfl, rfl, rfl, hphil, ?_, by simp, ?_, ?_, ?_⟩
  · rw [hphi0, List.length_map, hlen]
    congr 1
    have h1 : (ind.map (fun i => z.getD i 0)).sum = ((List.range n).map (fun i => z.getD i 0)).sum :=
      (hperm.map _).sum_eq
    rw [h1]
    congr 1
    apply List.ext_getElem
    · simp [hnz]
    · intro i h1 h2; simp [h2]
  · apply List.Perm.symm
    have hndr : ((List.range n).map (fun i => ind.idxOf i)).Nodup := by
      rw [List.nodup_map_iff_inj_on List.nodup_range]
      intro a ha b hb hab
      exact List.idxOf_inj (hmem a (List.mem_range.1 ha)) |>.1 hab
    have hsub : (List.range n).map (fun i => ind.idxOf i) ⊆ List.range n := by
      intro r hr
      obtain ⟨i, hi, rfl⟩ := List.mem_map.1 hr
      rw [List.mem_range, ← hlen]
      exact hrank i (List.mem_range.1 hi)
    exact ((List.subperm_of_subset hndr hsub).perm_of_length_le (by simp)).symm
  · intro i hi
    rw [hg _ i hi, hgr i hi, hyi i hi]
  · intro i j hi hj hz
    rw [hg _ i hi, hg _ j hj, hgr i hi, hgr j hj, hyi i hi, hyi j hj]
    have hlt : ind.idxOf i < ind.idxOf j := by
      by_contra hcon
      have hle : ind.idxOf j ≤ ind.idxOf i := Nat.le_of_not_lt hcon
      have hne : ind.idxOf j ≠ ind.idxOf i := by
        intro he
        have : j = i := (List.idxOf_inj (hmem j hj)).1 he
        subst this; exact lt_irrefl _ hz
      have := List.pairwise_iff_getElem.1 hsorted (ind.idxOf j) (ind.idxOf i) (hrank j hj) (hrank i hi)
        (lt_of_le_of_ne hle hne)
      rw [List.getElem_idxOf, List.getElem_idxOf] at this
      exact absurd hz (not_lt.2 this)
    refine ⟨hlt, ?_⟩
    have hn0 : (0 : ℝ) < 2 * n := by
      have : (2 : ℝ) ≤ n := by exact_mod_cast hn
      linarith
    apply hmono
    · positivity
    · apply div_lt_div_of_pos_right _ hn0
      have : (ind.idxOf i : ℝ) < ind.idxOf j := by exact_mod_cast hlt
      linarith
    · rw [div_lt_one hn0]
      have : (ind.idxOf j : ℝ) + 1 ≤ n := by
        have := hrank j hj
        rw [hlen] at this
        exact_mod_cast this
      linarith

/-- C33: the scores depend on the ranks only: a strictly increasing transformation of the data leaves them unchanged. -/
theorem C33_scores_depend_on_ranks_only {sort : Nat → (Nat → Nat → Bool) → List Nat} (hs : SortOk sort) {icdf : ℝ → ℝ}
    (t : Nst) {z : List ℝ} (hn : 2 ≤ z.length) {f : ℝ → ℝ} (hf : StrictMono f) :
    (t.transform sort icdf (z.map f)).2 = (t.transform sort icdf z).2 := by
  have hless : less (z.map f) = less z := by
    funext i j
    unfold less
    simp only [List.getElem?_map]
    cases z[i]? <;> cases z[j]? <;> simp [hf.lt_iff_lt]
  unfold Nst.transform
  dsimp only
  rw [hless, List.length_map]
  have hl : (sort z.length (less z)).length = z.length := by rw [(hs z).1.length_eq, List.length_range]
  obtain ⟨phi, h1, -⟩ := computePhi_ok (order := t.order.toNat)
    (z := (sort z.length (less z)).map (fun i => (z.map f).getD i 0))
    (y := (sort z.length (less z)).map (scores icdf z.length (sort z.length (less z)) 0 (fun _ => 0)))
    (by rw [List.length_map, hl]; exact hn)
  obtain ⟨phi', h2, -⟩ := computePhi_ok (order := t.order.toNat)
    (z := (sort z.length (less z)).map (fun i => z.getD i 0))
    (y := (sort z.length (less z)).map (scores icdf z.length (sort z.length (less z)) 0 (fun _ => 0)))
    (by rw [List.length_map, hl]; exact hn)
  rw [h1, h2]

/-- C33: one datum reads past the end of the data, no data at all takes the mean of nothing: both undefined. -/
theorem C33_fewer_than_two_data_are_undefined {sort : Nat → (Nat → Nat → Bool) → List Nat} (hs : SortOk sort)
    {icdf : ℝ → ℝ} (t : Nst) {z : List ℝ} (hn : z.length < 2) : (t.transform sort icdf z).2 = .ub := by
  have hl : (sort z.length (less z)).length = z.length := by rw [(hs z).1.length_eq, List.length_range]
  unfold Nst.transform
  dsimp only
  have : ∀ y, computePhi t.order.toNat ((sort z.length (less z)).map (fun i => z.getD i 0)) y = .ub := by
    intro y
    unfold computePhi
    rw [List.length_map, hl]
    rcases Nat.lt_or_ge z.length 1 with h | h
    · rw [if_pos (by omega)]
    · have h1 : z.length = 1 := by omega
      rw [if_neg (by omega), h1]
      have : diffs ((sort 1 (less z)).map (fun i => z.getD i 0)) 0 = .ub := by
        unfold diffs
        rw [if_pos rfl]
        have hl1 : ((sort 1 (less z)).map (fun i => z.getD i 0)).length = 1 := by
          rw [List.length_map]; rw [h1] at hl; exact hl
        rw [get_ok (by omega), Outcome.ok_bind]
        have : Outcome.get ((sort 1 (less z)).map (fun i => z.getD i 0)) (0 + 1) = .ub := by
          simp only [Outcome.get]
          rw [List.getElem?_eq_none (by omega)]
        rw [this]; rfl
      rw [List.range_one]
      simp only [Outcome.traverse, this]
      rfl
  rw [this]

/-! ## The Hermite series -/

open Polynomial in
theorem derivative_hermite_succ (n : Nat) : derivative (hermite (n + 1)) = (n + 1 : ℤ[X]) * hermite n := by
  induction n with
  | zero => simp [hermite_succ]
  | succ n ih =>
      rw [hermite_succ, derivative_sub, derivative_mul, derivative_X, one_mul, ih, derivative_mul]
      have : derivative ((n : ℤ[X]) + 1) = 0 := by simp
      rw [this, zero_mul, zero_add]
      have h2 : hermite (n + 1) = X * hermite n - derivative (hermite n) := hermite_succ n
      push_cast
      calc hermite (n + 1) + X * (((n : ℤ[X]) + 1) * hermite n) - ((n : ℤ[X]) + 1) * derivative (hermite n)
          = hermite (n + 1) + ((n : ℤ[X]) + 1) * (X * hermite n - derivative (hermite n)) := by ring
        _ = ((n : ℤ[X]) + 1 + 1) * hermite (n + 1) := by rw [← h2]; ring

/-- The value of the (probabilists') Hermite polynomial of Mathlib. -/
noncomputable def He (n : Nat) (y : ℝ) : ℝ := Polynomial.aeval y (Polynomial.hermite n)

theorem He_zero (y : ℝ) : He 0 y = 1 := by simp [He]
theorem He_one (y : ℝ) : He 1 y = y := by simp [He]

theorem He_succ_succ (n : Nat) (y : ℝ) : He (n + 2) y = y * He (n + 1) y - (n + 1) * He n y := by
  unfold He
  rw [Polynomial.hermite_succ (n + 1), derivative_hermite_succ]
  simp

/-- The normalised Hermite polynomial of the code. -/
noncomputable def Hn (n : Nat) (y : ℝ) : ℝ := (-1) ^ n * He n y / Real.sqrt n.factorial

theorem hermitePair_eq (y : ℝ) (p : Nat) : hermitePair y p = (Hn p y, Hn (p + 1) y) := by
  induction p with
  | zero => simp [hermitePair, Hn, He_zero, He_one]
  | succ p ih =>
      simp only [hermitePair, ih]
      congr 1
      unfold Hn
      rw [He_succ_succ]
      have hf1 : ((p + 1 + 1).factorial : ℝ) = ((p : ℝ) + 1 + 1) * ((p + 1).factorial : ℝ) := by
        rw [Nat.factorial_succ]; push_cast; ring
      have hf0 : ((p + 1).factorial : ℝ) = ((p : ℝ) + 1) * (p.factorial : ℝ) := by
        rw [Nat.factorial_succ]; push_cast; ring
      have h0 : (0 : ℝ) < p.factorial := by exact_mod_cast p.factorial_pos
      have hp1 : (0 : ℝ) < (p : ℝ) + 1 := by positivity
      have hp2 : (0 : ℝ) < (p : ℝ) + 1 + 1 := by positivity
      rw [hf1, hf0, Real.sqrt_mul hp2.le, Real.sqrt_mul hp1.le, Real.sqrt_div hp1.le]
      have s0 : Real.sqrt (p.factorial : ℝ) ≠ 0 := (Real.sqrt_pos.2 h0).ne'
      have s1 : Real.sqrt ((p : ℝ) + 1) ≠ 0 := (Real.sqrt_pos.2 hp1).ne'
      have s2 : Real.sqrt ((p : ℝ) + 1 + 1) ≠ 0 := (Real.sqrt_pos.2 hp2).ne'
      have q1 : Real.sqrt ((p : ℝ) + 1) * Real.sqrt ((p : ℝ) + 1) = (p : ℝ) + 1 := Real.mul_self_sqrt hp1.le
      have e : ((p : ℝ) + 1) = Real.sqrt ((p : ℝ) + 1) ^ 2 := by rw [pow_two, q1]
      rw [pow_succ (-1 : ℝ) (p + 1), pow_succ (-1 : ℝ) p]
      field_simp
      rw [Real.sq_sqrt hp1.le]

/-- The difference of the neighbours of the `r`-th smallest datum, halved between two neighbours. -/
noncomputable def gap (zs : Nat → ℝ) (n r : Nat) : ℝ :=
  if r = 0 then zs 0 - zs 1 else if r + 1 = n then zs (r - 1) - zs r else (zs (r - 1) - zs (r + 1)) / 2

theorem diffs_eq {z : List ℝ} (hn : 2 ≤ z.length) {i : Nat} (hi : i < z.length) :
    diffs z i = .ok (gap (fun r => z.getD r 0) z.length i) := by
  have hg : ∀ j, j < z.length → Outcome.get z j = .ok (z.getD j 0) := by
    intro j hj; rw [get_ok hj]; simp [hj]
  unfold diffs gap
  split
  · rename_i h; subst h
    rw [hg _ (by omega), hg _ (by omega)]; rfl
  · split
    · rw [hg _ (by omega), hg _ (by omega), if_pos (by omega)]; rfl
    · rw [hg _ (by omega), hg _ (by omega), if_neg (by omega)]
      simp only [Outcome.ok_bind, Outcome.pure_eq]
      congr 1
      ring

theorem zipWith3_sum (f : ℝ → ℝ → ℝ → ℝ) : ∀ (n : Nat) (a b c : Nat → ℝ),
    (List.zipWith3 f ((List.range n).map a) ((List.range n).map b) ((List.range n).map c)).sum = ∑ r ∈ Finset.range n, f (a r) (b r) (c r)
  | 0, _, _, _ => by simp
  | n + 1, a, b, c => by
      rw [List.range_succ_eq_map, List.map_cons, List.map_cons, List.map_cons, List.map_map, List.map_map, List.map_map]
      simp only [List.zipWith3, List.sum_cons]
      rw [zipWith3_sum f n (a ∘ Nat.succ) (b ∘ Nat.succ) (c ∘ Nat.succ), Finset.sum_range_succ', add_comm]
      rfl

/-- C33: the coefficients.  With `zs` the data in ascending order and `ys` their scores, coefficient `p + 1` is
`1 / √(p + 1) ∑ gap_r H_p(ys_r) g(ys_r)`, `g` the density of the standard normal distribution and `H_p = (-1)^p He_p / √p!`. -/
theorem C33_coefficients {sort : Nat → (Nat → Nat → Bool) → List Nat} (hs : SortOk sort) (icdf : ℝ → ℝ) (t : Nst) {z : List ℝ}
    (hn : 2 ≤ z.length) :
    ∃ t' y zs, t.transform sort icdf z = (t', .ok y) ∧ (zs : List ℝ).Perm z ∧ zs.Pairwise (· ≤ ·) ∧
      ∀ p < t.order.toNat, t'.phi.getD (p + 1) 0 = 1 / Real.sqrt (p + 1) * ∑ r ∈ Finset.range z.length,
        gap (fun r => zs.getD r 0) z.length r *
          ((-1) ^ p * He p (icdf ((2 * r + 1) / (2 * z.length))) / Real.sqrt p.factorial) *
          (Real.exp (-(icdf ((2 * r + 1) / (2 * z.length))) ^ 2 / 2) / Real.sqrt (2 * Real.pi)) := by
  obtain ⟨hperm, hsorted⟩ := hs z
  unfold Nst.transform
  dsimp only
  set n := z.length with hnz
  set ind := sort n (less z) with hind
  have hlen : ind.length = n := by rw [hperm.length_eq, List.length_range]
  have hnd : ind.Nodup := hperm.nodup_iff.2 List.nodup_range
  set y := scores icdf n ind 0 (fun _ => 0) with hy
  have hzs : ∀ (l : List ℝ), (List.range l.length).map (fun i => l.getD i 0) = l := by
    intro l
    apply List.ext_getElem
    · simp
    · intro i h1 h2; simp [h2]
  set zs := ind.map (fun i => z.getD i 0) with hzsd
  have hzl : zs.length = n := by rw [hzsd, List.length_map, hlen]
  have hys : ind.map y = (List.range n).map (fun (r : Nat) => icdf ((2 * r + 1) / (2 * n))) := by
    apply List.ext_getElem
    · simp [hlen]
    · intro i h1 h2
      rw [List.getElem_map, List.getElem_map, List.getElem_range]
      have := scores_getElem icdf n ind 0 (fun _ => 0) hnd i (by simpa using h1)
      rw [Nat.zero_add, mul_one_div] at this
      exact this
  have htr : Outcome.traverse (diffs zs) (List.range zs.length) = .ok ((List.range zs.length).map (gap (fun r => zs.getD r 0) n)) :=
    Outcome.traverse_ok fun i hi => by rw [diffs_eq (by omega) (List.mem_range.1 hi), hzl]
  have hphi : computePhi t.order.toNat zs (ind.map y) = .ok ((zs.sum / zs.length) :: (List.range t.order.toNat).map (fun (p : Nat) =>
      1 / Real.sqrt ((p : ℝ) + 1) *
        (List.zipWith3 (fun a t g => a * (hermitePair t p).1 * g) ((List.range zs.length).map (gap (fun r => zs.getD r 0) n)) (ind.map y)
          ((ind.map y).map (fun t => 1 / Real.sqrt (2 * Real.pi) * Real.exp (-0.5 * t ^ 2)))).sum)) := by
    unfold computePhi
    rw [if_neg (by omega), htr]
    rfl
  rw [hphi]
  refine ⟨_, _, zs, rfl, ?_, ?_, ?_⟩
  · have := hperm.map (fun i => z.getD i 0)
    rw [hnz, hzs] at this
    exact this
  · rw [hzsd, List.pairwise_map]; exact hsorted
  · intro p hp
    dsimp only
    rw [List.getD_cons_succ, List.getD_eq_getElem?_getD, List.getElem?_map, List.getElem?_range hp]
    simp only [Option.map_some, Option.getD_some]
    rw [hys, List.map_map, hzl, zipWith3_sum]
    congr 1
    refine Finset.sum_congr rfl fun r _ => ?_
    rw [hermitePair_eq]
    simp only [Function.comp, Hn]
    congr 1
    rw [one_div, mul_comm, div_eq_mul_inv]
    congr 2
    ring

theorem foldl_sum (f : Nat → ℝ) (n : Nat) (s : ℝ) :
    (List.range n).foldl (fun s p => s + f p) s = s + ∑ p ∈ Finset.range n, f p := by
  induction n with
  | zero => simp
  | succ n ih => rw [List.range_succ, List.foldl_append, ih, Finset.sum_range_succ]; simp [add_assoc]

/-- C33: the back transformation is the Hermite series with the computed coefficients: the recursion of the code produces
the polynomials `(-1)^p He_p / √p!`. -/
theorem C33_back_transform_is_hermite_series (t : Nst) (ht : t.transformed = true) (y : ℝ) :
    t.backTransform y = .ok (∑ p ∈ Finset.range (t.order.toNat + 1),
      t.phi.getD p 0 * ((-1) ^ p * He p y / Real.sqrt p.factorial)) := by
  unfold Nst.backTransform
  simp only [ht, Bool.not_true, Bool.false_eq_true, if_false, hermitePair_eq]
  rw [foldl_sum (fun p => t.phi.getD (p + 1) 0 * Hn (p + 1) y), Finset.sum_range_succ']
  congr 1
  rw [add_comm]
  congr 1
  simp [He_zero]

theorem gammaLoop_eq (phi : Nat → ℝ) (g : ℝ) : ∀ (n k : Nat) (s : ℝ),
    gammaLoop phi g (List.range' k n) s ((1 - g) ^ k) =
      s + ∑ p ∈ Finset.range n, phi (k + p) ^ 2 * (1 - (1 - g) ^ (k + p))
  | 0, k, s => by simp [gammaLoop]
  | n + 1, k, s => by
      rw [List.range'_succ]
      simp only [gammaLoop]
      rw [← pow_succ, gammaLoop_eq phi g n (k + 1), Finset.sum_range_succ']
      simp only [add_zero]
      have : ∀ p, k + 1 + p = k + (p + 1) := fun p => by omega
      simp only [this]
      ring

/-- C33: the back transformed semivariance is the series `∑ φ_p² (1 - (1 - γ)^p)`; it is 0 at 0, lies between 0 and the sum
of the squared coefficients, and increases with the semivariance of the scores. -/
theorem C33_back_transform_gamma (t : Nst) (ht : t.transformed = true) :
    (∀ g, t.backTransformGamma g = .ok (∑ p ∈ Finset.range t.order.toNat,
      t.phi.getD (p + 1) 0 ^ 2 * (1 - (1 - g) ^ (p + 1)))) ∧
    t.backTransformGamma 0 = .ok 0 ∧
    t.backTransformGamma 1 = .ok (∑ p ∈ Finset.range t.order.toNat, t.phi.getD (p + 1) 0 ^ 2) ∧
    (∀ g h a b, 0 ≤ g → g ≤ h → h ≤ 1 → t.backTransformGamma g = .ok a → t.backTransformGamma h = .ok b → a ≤ b) := by
  have key : ∀ g, t.backTransformGamma g = .ok (∑ p ∈ Finset.range t.order.toNat,
      t.phi.getD (p + 1) 0 ^ 2 * (1 - (1 - g) ^ (p + 1))) := by
    intro g
    unfold Nst.backTransformGamma
    simp only [ht, Bool.not_true, Bool.false_eq_true, if_false]
    have := gammaLoop_eq (fun p => t.phi.getD p 0) g t.order.toNat 1 0
    rw [pow_one] at this
    rw [this, zero_add]
    congr 1
    apply Finset.sum_congr rfl
    intro p _
    rw [Nat.add_comm 1 p]
  refine ⟨key, ?_, ?_, ?_⟩
  · rw [key]; simp
  · rw [key]; simp
  · intro g h a b hg hgh hh ha hb
    rw [key] at ha hb
    cases ha; cases hb
    apply Finset.sum_le_sum
    intro p _
    apply mul_le_mul_of_nonneg_left _ (sq_nonneg _)
    have : (1 - h) ^ (p + 1) ≤ (1 - g) ^ (p + 1) := pow_le_pow_left₀ (by linarith) (by linarith) _
    linarith

open Classical in
/-- A `std::sort` as the theorems assume. -/
noncomputable def demoSort (n : Nat) (lt : Nat → Nat → Bool) : List Nat :=
  if h : ∃ l : List Nat, l.Perm (List.range n) ∧ l.Pairwise (fun i j => lt j i = false) then h.choose else []

theorem demoSort_ok : SortOk demoSort := by
  classical
  intro z
  have hle : ∀ i j, i < z.length → j < z.length → (less z j i = false ↔ z.getD i 0 ≤ z.getD j 0) := by
    intro i j hi hj
    simp [less, hi, hj]
  have hex : ∃ l : List Nat, l.Perm (List.range z.length) ∧ l.Pairwise (fun i j => less z j i = false) := by
    refine ⟨(List.range z.length).mergeSort (fun i j => decide (z.getD i 0 ≤ z.getD j 0)), List.mergeSort_perm _ _, ?_⟩
    have hp : ((List.range z.length).mergeSort (fun i j => decide (z.getD i 0 ≤ z.getD j 0))).Pairwise
        (fun i j => decide (z.getD i 0 ≤ z.getD j 0) = true) := by
      apply List.pairwise_mergeSort
      · intro a b c hab hbc
        rw [decide_eq_true_eq] at *
        exact le_trans hab hbc
      · intro a b
        simpa using le_total _ _
    refine hp.imp_of_mem ?_
    intro a b ha hb hab
    have ha' := List.mem_range.1 ((List.mergeSort_perm _ _).mem_iff.1 ha)
    have hb' := List.mem_range.1 ((List.mergeSort_perm _ _).mem_iff.1 hb)
    exact (hle a b ha' hb').2 (of_decide_eq_true hab)
  have hd : demoSort z.length (less z) = hex.choose := by unfold demoSort; rw [dif_pos hex]
  rw [hd]
  have hs := hex.choose_spec
  refine ⟨hs.1, hs.2.imp_of_mem ?_⟩
  intro a b ha hb hab
  exact (hle a b (List.mem_range.1 (hs.1.mem_iff.1 ha)) (List.mem_range.1 (hs.1.mem_iff.1 hb))).1 hab

/-- Three data, with an increasing stand-in for the inverse distribution function. -/
example : ∃ t' y, (⟨30, false, []⟩ : Nst).transform demoSort (fun p => p) [5, -2, 7] = (t', .ok y) ∧
    y.getD 1 0 < y.getD 0 0 ∧ y.getD 0 0 < y.getD 2 0 := by
  obtain ⟨t', y, rank, h1, -, -, -, -, -, -, -, h2⟩ := C33_scores_preserve_order demoSort_ok (icdf := fun p => p)
    (fun p q _ h _ => h) ⟨30, false, []⟩ (z := [5, -2, 7]) (by simp)
  exact ⟨t', y, h1, (h2 1 0 (by simp) (by simp) (by simp; norm_num)).2, (h2 0 2 (by simp) (by simp) (by simp; norm_num)).2⟩

end Verif.Kriging
