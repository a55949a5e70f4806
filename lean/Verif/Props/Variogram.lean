import Verif.Lemmas.Variogram
import Mathlib.Tactic.NormNum
import Mathlib.Data.List.Perm.Basic

/-! # C29 (variogram bins), C30 (schedule independence) -/

namespace Verif.Variogram

open Verif BigOperators Classical Spec

variable {dim : Nat}

/-- A schedule of `#pragma omp for` over `0 .. n - 2`: every iteration is run once, by one of the threads. -/
def IsSchedule (n : Nat) (schedule : List (List Nat)) : Prop := schedule.flatten.Perm (List.range (n - 1))

theorem rows_pairs (n : Nat) : (List.range (n - 1)).flatMap (rowPairs n) = pairs n := by
  unfold pairs
  cases n with
  | zero => simp
  | succ n =>
      simp only [Nat.add_sub_cancel]
      rw [List.range_succ, List.flatMap_append]
      simp only [List.flatMap_cons, List.flatMap_nil, Nat.sub_self, List.range'_zero, List.map_nil, List.append_nil]
      rfl

theorem contrib_perm {select : Vec dim → List Nat} {pts : List (Vec dim)} {vals : List ℝ} {k : Nat}
    {P Q : List (Nat × Nat)} (h : P.Perm Q) :
    (contrib select pts vals k P).Perm (contrib select pts vals k Q) := (h.filter _).map _

/-- C29: whatever the schedule, the result is one variogram for every direction with a sample in some bin; its bins are
exactly the lags within the tolerance of some sample of the direction, and each carries the mean distance, the mean
semivariance and the number of the samples within the tolerance. -/
theorem C29_variograms {c : Calculator dim} {argmax : List ℝ → Nat} {pts : List (Vec dim)} {vals : List ℝ}
    (h : Ready c argmax pts vals) {schedule : List (List Nat)} (hs : IsSchedule pts.length schedule) :
    c.calculate argmax pts vals schedule =
      .ok (variograms (c.selected argmax) c.lag c.lagTolerance c.numLags.toNat c.directions pts vals) := by
  rw [calculate_state h]
  · congr 1
    have : state c.lag c.lagTolerance c.numLags c.directions
        (fun k => contrib (c.selected argmax) pts vals k (schedule.flatten.flatMap (rowPairs pts.length))) =
        state c.lag c.lagTolerance c.numLags c.directions (samples (c.selected argmax) pts vals) := by
      unfold state
      apply map_range_congr
      intro k _
      apply ofSamples_perm
      have hp := hs.flatMap_right (rowPairs pts.length)
      rw [rows_pairs] at hp
      exact contrib_perm hp
    rw [this, collect_state]
    rfl
  · intro rows hr i hi
    have : i ∈ schedule.flatten := List.mem_flatten.2 ⟨rows, hr, hi⟩
    have := hs.mem_iff.1 this
    rw [List.mem_range] at this
    omega

/-- C30: any two schedules - any distribution of the rows over any number of threads, any order within a thread, any order
of the merges - give the same variograms; in particular the sequential run. -/
theorem C30_schedule_independent {c : Calculator dim} {argmax : List ℝ → Nat} {pts : List (Vec dim)} {vals : List ℝ}
    (h : Ready c argmax pts vals) {schedule : List (List Nat)} (hs : IsSchedule pts.length schedule) :
    c.calculate argmax pts vals schedule = c.calculate argmax pts vals [List.range (pts.length - 1)] := by
  rw [C29_variograms h hs, C29_variograms h (schedule := [List.range (pts.length - 1)])]
  simp [IsSchedule]

/-- The number of times every pair of positions occurs among the pairs: once. -/
theorem C29_each_pair_once (n : Nat) :
    (pairs n).Nodup ∧ ∀ i j, (i, j) ∈ pairs n ↔ i < j ∧ j < n := by
  constructor
  · unfold pairs
    rw [List.nodup_flatMap]
    refine ⟨fun i _ => (List.nodup_range').map (fun a b hab => (Prod.mk.inj hab).2), ?_⟩
    refine List.nodup_range.imp ?_
    intro a b hab
    simp only [Function.onFun, List.disjoint_left, List.mem_map]
    rintro _ ⟨x, _, rfl⟩ ⟨y, _, hy⟩
    exact hab (Prod.mk.inj hy).1.symm
  · intro i j
    simp only [pairs, List.mem_flatMap, List.mem_range, List.mem_map, List.mem_range'_1, Prod.mk.injEq]
    constructor
    · rintro ⟨a, ha, b, hb, rfl, rfl⟩; omega
    · rintro ⟨h1, h2⟩; exact ⟨i, by omega, j, by omega, rfl, rfl⟩

/-- C29: with an angle tolerance a pair is counted in direction `u` iff the angle between the lines is within it:
`|cos angle| ≥ |cos tolerance|`.  Coincident points are counted in every direction. -/
theorem C29_directions_within_angle (c : Calculator dim) (argmax : List ℝ → Nat) (hc : c.angleTol ≠ kAutomatic)
    (v : Vec dim) (k : Nat) :
    k ∈ c.selected argmax v ↔
      k < c.directions.length ∧ norm v * |Real.cos c.angleTol| ≤ |dot v (c.directions.getD k 0)| := by
  unfold Calculator.selected Calculator.sqCos
  dsimp only
  rw [if_neg hc, if_neg hc, List.mem_filter, List.mem_range]
  apply and_congr_right
  intro hk
  have hsq : sqNorm v = norm v ^ 2 := by
    rw [norm, Real.sq_sqrt]
    exact Finset.sum_nonneg (fun i _ => mul_self_nonneg _)
  have hget : (c.directions.map (fun u => dot v u ^ 2)).getD k 0 = dot v (c.directions.getD k 0) ^ 2 := by
    simp [hk]
  rw [decide_eq_true_eq, hget, hsq, ← mul_pow, ge_iff_le, sq_le_sq, abs_mul, abs_of_nonneg (norm_nonneg' v)]

/-- C29: the directions may be given with any length: after `set_directions` a pair is counted in the `k`-th direction `d` iff the angle
between its line and that of `d` is within the tolerance. -/
theorem C29_given_directions_within_angle (c : Calculator dim) (ds : List (Vec dim)) (hds : ds ≠ []) (argmax : List ℝ → Nat)
    (hc : c.angleTol ≠ kAutomatic) (v : Vec dim) (k : Nat) (d : Vec dim) (hk : ds[k]? = some d) (hd : d ≠ 0) :
    (c.setDirections ds).2 = .ok () ∧
    (k ∈ (c.setDirections ds).1.selected argmax v ↔
      Real.sqrt (∑ i, v i ^ 2) * Real.sqrt (∑ i, d i ^ 2) * |Real.cos c.angleTol| ≤ |∑ i, v i * d i|) := by
  have hl : ds.length ≠ 0 := by simpa using hds
  have hkl : k < ds.length := (List.getElem?_eq_some_iff.1 hk).1
  have hset : c.setDirections ds = ({ c with directions := ds.map normalized }, .ok ()) := by
    unfold Calculator.setDirections; rw [if_neg hl]
  rw [hset]
  refine ⟨rfl, ?_⟩
  rw [C29_directions_within_angle ({ c with directions := ds.map normalized } : Calculator dim) argmax hc v k]
  have hget : (ds.map normalized).getD k 0 = normalized d := by simp [hk]
  have e1 : ∀ u : Vec dim, norm u = Real.sqrt (∑ i, u i ^ 2) := by
    intro u; rw [norm, sqNorm]; congr 1; exact Finset.sum_congr rfl fun i _ => (sq _).symm
  have hpos : 0 < sqNorm d := by
    obtain ⟨i, hi⟩ := Function.ne_iff.1 hd
    refine Finset.sum_pos' (fun i _ => mul_self_nonneg _) ⟨i, Finset.mem_univ _, ?_⟩
    exact mul_self_pos.2 hi
  have hn : 0 < norm d := Real.sqrt_pos.2 hpos
  have hdot : dot v (normalized d) = (∑ i, v i * d i) / norm d := by
    unfold normalized
    rw [if_pos hpos, dot, div_eq_mul_inv, Finset.sum_mul]
    exact Finset.sum_congr rfl fun i _ => by ring
  dsimp only
  rw [hget, hdot, abs_div, abs_of_pos hn, le_div_iff₀ hn, ← e1, ← e1, List.length_map]
  constructor
  · rintro ⟨-, h⟩; linarith
  · intro h; exact ⟨hkl, by linarith⟩

/-- C29: with automatic angle tolerance a pair is counted in exactly one direction, one nearest to it. -/
theorem C29_automatic_direction (c : Calculator dim) {argmax : List ℝ → Nat} (ha : ArgmaxOk argmax)
    (hd : c.directions ≠ []) (hc : c.angleTol = kAutomatic) (v : Vec dim) :
    ∃ k, c.selected argmax v = [k] ∧ k < c.directions.length ∧
      ∀ u ∈ c.directions, |dot v u| ≤ |dot v (c.directions.getD k 0)| := by
  have hne : c.directions.map (fun u => dot v u ^ 2) ≠ [] := by simpa using hd
  have := ha _ hne
  refine ⟨argmax (c.directions.map (fun u => dot v u ^ 2)), ?_, by simpa using this.1, ?_⟩
  · unfold Calculator.selected; dsimp only; rw [if_pos hc]
  · intro u hu
    have hx := this.2 (dot v u ^ 2) (List.mem_map_of_mem hu)
    have hk : argmax (c.directions.map (fun u => dot v u ^ 2)) < c.directions.length := by simpa using this.1
    rw [← sq_le_sq]
    simpa [hk] using hx

/-- A calculator a user can get: constructed, then any number of setter calls, failed or not. -/
inductive Reachable (lag : ℝ) (numLags : Int) : Calculator dim → Prop
  | new : Reachable lag numLags (Calculator.new lag numLags)
  | angle (c x) : Reachable lag numLags c → Reachable lag numLags (c.setAngleTolerance x).1
  | directions (c ds) : Reachable lag numLags c → Reachable lag numLags (c.setDirections ds).1
  | lagTol (c x) : Reachable lag numLags c → Reachable lag numLags (c.setLagTolerance x).1

/-- C29: the setters keep the settings usable: directions are never empty and the lag tolerance in force is positive, so
`calculate` needs nothing beyond a positive lag distance, a non-negative number of lags, matching sizes and distances the
index type can hold. -/
theorem C29_settings_stay_usable {lag : ℝ} (hl : 0 < lag) {numLags : Int} {c : Calculator dim}
    (h : Reachable lag numLags c) :
    c.lag = lag ∧ c.numLags = numLags ∧ c.directions ≠ [] ∧ 0 < c.lagTolerance ∧
      (c.angleTol = kAutomatic ∨ 0 < c.angleTol) := by
  have key : c.lag = lag ∧ c.numLags = numLags ∧ c.directions ≠ [] ∧ (c.lagTol = kAutomatic ∨ 0 < c.lagTol) ∧
      (c.angleTol = kAutomatic ∨ 0 < c.angleTol) := by
    induction h with
    | new => simp [Calculator.new]
    | angle c x _ ih =>
        obtain ⟨h1, h2, h3, h4, h5⟩ := ih
        cases x with
        | none => exact ⟨h1, h2, h3, h4, h5⟩
        | some x =>
            unfold Calculator.setAngleTolerance
            dsimp only
            split
            · exact ⟨h1, h2, h3, h4, h5⟩
            · rename_i hx
              refine ⟨h1, h2, h3, h4, ?_⟩
              dsimp only
              by_contra hcon
              push Not at hcon
              exact hx ⟨hcon.1, not_lt.2 hcon.2⟩
    | directions c ds _ ih =>
        obtain ⟨h1, h2, h3, h4, h5⟩ := ih
        unfold Calculator.setDirections
        split
        · exact ⟨h1, h2, h3, h4, h5⟩
        · rename_i hds
          refine ⟨h1, h2, ?_, h4, h5⟩
          intro hcon
          exact hds (by simpa using hcon)
    | lagTol c x _ ih =>
        obtain ⟨h1, h2, h3, h4, h5⟩ := ih
        cases x with
        | none => exact ⟨h1, h2, h3, h4, h5⟩
        | some x =>
            unfold Calculator.setLagTolerance
            dsimp only
            split
            · exact ⟨h1, h2, h3, h4, h5⟩
            · rename_i hx
              refine ⟨h1, h2, h3, ?_, h5⟩
              dsimp only
              by_contra hcon
              push Not at hcon
              exact hx ⟨hcon.1, not_lt.2 hcon.2⟩
  obtain ⟨h1, h2, h3, h4, h5⟩ := key
  refine ⟨h1, h2, h3, ?_, h5⟩
  unfold Calculator.lagTolerance
  split
  · rw [h1]; positivity
  · rename_i hne
    exact h4.resolve_left hne

/-- A lag distance of 0 is not rejected: the first pair is undefined behaviour. -/
theorem C29_zero_lag_is_undefined (b : Builder dim) (hb : b.lag = 0) (p q : Vec dim) (v w : ℝ) :
    b.addPair p q v w = .ub := by
  unfold Builder.addPair; rw [if_pos hb]

/-! ## A concrete case: two points at distance 3/2 with lag 1 fall in the bins 1 and 2 -/

/-- A `maxCoeff` for one direction. -/
noncomputable def demoArgmax (l : List ℝ) : Nat := l.findIdx (fun x => decide (∀ y ∈ l, y ≤ x))

theorem demoArgmax_ok : ArgmaxOk demoArgmax := by
  intro l hl
  have hex : ∃ x ∈ l, ∀ y ∈ l, y ≤ x := by
    induction l with
    | nil => exact absurd rfl hl
    | cons a l ih =>
        by_cases h : l = []
        · subst h; exact ⟨a, by simp, by simp⟩
        · obtain ⟨x, hx, hm⟩ := ih h
          rcases le_total a x with hax | hax
          · exact ⟨x, by simp [hx], by intro y hy; rcases List.mem_cons.1 hy with rfl | hy'; exacts [hax, hm y hy']⟩
          · refine ⟨a, by simp, ?_⟩
            intro y hy
            rcases List.mem_cons.1 hy with rfl | hy'
            · exact le_refl _
            · exact (hm y hy').trans hax
  obtain ⟨x, hx, hm⟩ := hex
  have hlt : demoArgmax l < l.length := by
    unfold demoArgmax
    rw [List.findIdx_lt_length]
    exact ⟨x, hx, by simpa using hm⟩
  refine ⟨hlt, ?_⟩
  have := List.findIdx_getElem (w := hlt)
  simp only [decide_eq_true_eq] at this
  intro y hy
  have h2 : l.getD (demoArgmax l) 0 = l[demoArgmax l]'hlt := by simp [hlt]
  rw [h2]
  exact this y hy

noncomputable def demoPts : List (Vec 1) := [![0], ![3 / 2]]
noncomputable def demoCalc : Calculator 1 := Calculator.new 1 4

theorem norm_one (x : ℝ) : norm (fun _ : Fin 1 => x) = |x| := by
  simp [norm, sqNorm, Real.sqrt_mul_self_eq_abs]

theorem vec_one (v : Vec 1) : v = fun _ => v 0 := by funext k; fin_cases k; rfl

theorem demo_ready : Ready demoCalc demoArgmax demoPts [5, 9] where
  lag := by simp [demoCalc, Calculator.new]
  tol := by simp [demoCalc, Calculator.new, Calculator.lagTolerance]; norm_num
  numLags := by simp [demoCalc, Calculator.new]
  directions := by simp [demoCalc, Calculator.new]
  argmax := demoArgmax_ok
  values := rfl
  range := by
    intro p hp q hq
    simp only [demoPts, List.mem_cons, List.not_mem_nil, or_false] at hp hq
    have e : norm (q - p) = |q 0 - p 0| := by rw [vec_one (q - p), norm_one]; rfl
    rw [e]
    have : |q 0 - p 0| ≤ 3 / 2 := by
      rcases hp with rfl | rfl <;> rcases hq with rfl | rfl <;> simp [abs_of_nonneg, abs_of_neg] <;> norm_num
    unfold InRange
    simp only [demoCalc, Calculator.new, Calculator.lagTolerance, if_true]
    norm_num at this ⊢
    linarith

example : demoCalc.calculate demoArgmax demoPts [5, 9] [[], [0]] =
    .ok [⟨[3 / 2, 3 / 2], [8, 8], [1, 1], fun k => if k.val = 0 then 1 else 0⟩] := by
  rw [C29_variograms demo_ready (by simp [IsSchedule, demoPts])]
  congr 1
  have hp : pairs demoPts.length = [(0, 1)] := by simp [demoPts, pairs]; decide
  obtain ⟨k, hk, hk1, -⟩ := C29_automatic_direction demoCalc demoArgmax_ok (by simp [demoCalc, Calculator.new]) rfl
    (demoPts.getD 1 0 - demoPts.getD 0 0)
  have hk0 : k = 0 := by simp [demoCalc, Calculator.new] at hk1; exact hk1
  have hnorm : norm (demoPts.getD 1 0 - demoPts.getD 0 0) = 3 / 2 := by
    rw [vec_one (demoPts.getD 1 0 - demoPts.getD 0 0), norm_one]; simp [demoPts]; norm_num
  have hS : samples (demoCalc.selected demoArgmax) demoPts [5, 9] 0 = [(3 / 2, 8)] := by
    unfold samples
    rw [hp]
    simp only [List.filter_cons, List.filter_nil, hk, hk0]
    simp only [List.mem_singleton, decide_true, if_true, List.map_cons, List.map_nil, sample, hnorm]
    norm_num
  have hl : demoCalc.lag = 1 := rfl
  have ht : demoCalc.lagTolerance = 1 / 2 := by simp [demoCalc, Calculator.new, Calculator.lagTolerance]; norm_num
  have hin : ∀ b : Nat, inBin 1 (1 / 2) b [((3 : ℝ) / 2, (8 : ℝ))] = if b = 1 ∨ b = 2 then [((3 : ℝ) / 2, (8 : ℝ))] else [] := by
    intro b
    unfold inBin
    by_cases h : b = 1 ∨ b = 2
    · rw [if_pos h]
      rcases h with rfl | rfl <;> norm_num [abs_le]
    · rw [if_neg h]
      simp only [List.filter_cons, List.filter_nil, mul_one]
      rw [if_neg]
      rw [decide_eq_true_eq, abs_le]
      rintro ⟨h1, h2⟩
      have h3 : (b : ℝ) ≤ 2 := by linarith
      have h4 : (1 : ℝ) ≤ b := by linarith
      have h3' : b ≤ 2 := by exact_mod_cast h3
      have h4' : 1 ≤ b := by exact_mod_cast h4
      omega
  have hbins : bins 1 (1 / 2) 4 [((3 : ℝ) / 2, (8 : ℝ))] = [1, 2] := by
    unfold bins
    simp only [hin]
    simp [List.range_succ]
  have hdl : demoCalc.directions.length = 1 := rfl
  have hd0 : demoCalc.directions.getD 0 0 = fun k : Fin 1 => if k.val = 0 then (1 : ℝ) else 0 := rfl
  have hn : demoCalc.numLags.toNat = 4 := rfl
  unfold variograms
  rw [hl, ht, hdl, hn]
  simp only [List.range_one, List.filter_cons, List.filter_nil, hS, hbins, ne_eq, reduceCtorEq, not_false_eq_true,
    decide_true, if_true, List.map_cons, List.map_nil, hd0]
  unfold vario
  rw [hbins]
  simp only [List.map_cons, List.map_nil, hin]
  norm_num [mean]

end Verif.Variogram
