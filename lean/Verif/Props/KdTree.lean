import Verif.Spec.KdTree
import Verif.Props.DistanceFilter
import Mathlib.Algebra.Order.Archimedean.Basic
import Mathlib.Algebra.Order.Round
import Mathlib.Tactic.Linarith
import Mathlib.Tactic.NormNum
import Mathlib.Tactic.Positivity
import Mathlib.Tactic.FieldSimp

/-! # C91: KdTree -/

namespace Verif.KdTree

open Verif BigOperators Classical

variable {dim : Nat}

/-! ## Floats -/

theorem exists_float {x : ℝ} (h0 : (2 : ℝ) ^ (-126 : ℤ) ≤ x) (h1 : x ≤ maxFloat) : ∃ z, IsFloat z ∧ |x - z| ≤ x / 2 ^ 24 := by
  have hx : 0 < x := lt_of_lt_of_le (by positivity) h0
  obtain ⟨n, hn1, hn2⟩ := exists_mem_Ico_zpow hx (one_lt_two : (1 : ℝ) < 2)
  have e1 : -127 < n := by
    have : (2 : ℝ) ^ (-126 : ℤ) < 2 ^ (n + 1) := lt_of_le_of_lt h0 hn2
    have := (zpow_lt_zpow_iff_right₀ (one_lt_two : (1 : ℝ) < 2)).1 this
    omega
  have e2 : n < 128 := by
    have : (2 : ℝ) ^ n < 2 ^ (128 : ℤ) := by
      refine lt_of_le_of_lt (hn1.trans h1) ?_
      unfold maxFloat
      norm_num
    exact (zpow_lt_zpow_iff_right₀ (one_lt_two : (1 : ℝ) < 2)).1 this
  have hp : (0 : ℝ) < (2 : ℝ) ^ (n - 23) := zpow_pos two_pos _
  have hn : (2 : ℝ) ^ n = 2 ^ (n - 23) * 2 ^ 23 := by
    rw [← zpow_natCast, ← zpow_add₀ two_ne_zero]; congr 1; push_cast; ring
  have hn' : (2 : ℝ) ^ (n + 1) = 2 ^ (n - 23) * 2 ^ 24 := by
    rw [← zpow_natCast, ← zpow_add₀ two_ne_zero]; congr 1; push_cast; ring
  set u : ℝ := 2 ^ (n - 23) with hu
  have hq : x = x / u * u := by field_simp
  have q1 : 2 ^ 23 ≤ x / u := by rw [le_div_iff₀ hp]; linarith
  have q2 : x / u < 2 ^ 24 := by rw [div_lt_iff₀ hp]; linarith
  set m : ℤ := round (x / u) with hm
  have hr : |x / u - m| ≤ 1 / 2 := abs_sub_round _
  have hr' := abs_le.1 hr
  have m0 : (0 : ℝ) < m := by linarith [hr'.2]
  have m1 : (m : ℝ) < 2 ^ 24 + 1 := by linarith [hr'.1]
  have m1' : m < 2 ^ 24 + 1 := by exact_mod_cast m1
  have m0' : 0 < m := by exact_mod_cast m0
  have hclose : |x - m * u| ≤ x / 2 ^ 24 := by
    have : x - m * u = (x / u - m) * u := by rw [sub_mul, ← hq]
    rw [this, abs_mul, abs_of_pos hp]
    have h2 : |x / u - m| * u ≤ 1 / 2 * u := mul_le_mul_of_nonneg_right hr hp.le
    have h3 : u * 2 ^ 23 ≤ x := by linarith
    rw [le_div_iff₀ (by positivity)]
    nlinarith
  refine ⟨m * u, ?_, hclose⟩
  rcases (show m < 2 ^ 24 ∨ m = 2 ^ 24 by omega) with h | h
  · exact ⟨m, n - 23, by rw [abs_of_pos m0']; exact h, by omega, by omega, rfl⟩
  · have hlt : n - 23 < 104 := by
      by_contra hc
      have e : n - 23 = 104 := by omega
      have : x / u ≤ 2 ^ 24 - 1 := by
        rw [div_le_iff₀ hp, hu, e]
        refine h1.trans (le_of_eq ?_)
        unfold maxFloat
        norm_num
      have h5 : (m : ℝ) ≤ 2 ^ 24 - 1 + 1 / 2 := by linarith [hr'.1]
      rw [h] at h5
      norm_num at h5
    refine ⟨2 ^ 23, n - 22, by norm_num, by omega, by omega, ?_⟩
    rw [h, hu, show n - 22 = n - 23 + 1 by ring, zpow_add₀ two_ne_zero]
    push_cast
    ring

theorem toFloat_close {f : ℝ → Option ℝ} (hf : Rounds f) {x : ℝ} (h0 : (2 : ℝ) ^ (-126 : ℤ) ≤ x) (h1 : x ≤ maxFloat) : ∃ y, f x = some y ∧ |x - y| ≤ x / 2 ^ 24 := by
  have hx : 0 < x := lt_of_lt_of_le (by positivity) h0
  obtain ⟨y, hy, -, h⟩ := hf.near x hx.le h1
  obtain ⟨z, hz, h'⟩ := exists_float h0 h1
  exact ⟨y, hy, (h z hz).trans h'⟩

/-- the bound for a radius -/
theorem bound {f : ℝ → Option ℝ} (hf : Rounds f) {r : ℝ} (h0 : 1 / 2 ^ 63 ≤ r) (h1 : r * r ≤ maxFloat) :
    ∃ b, f (r * r) = some b ∧ 0 ≤ b ∧ (r * (1 - 1 / 2 ^ 24)) ^ 2 ≤ b ∧ b ≤ (r * (1 + 1 / 2 ^ 24)) ^ 2 := by
  have hr : (0 : ℝ) < r := lt_of_lt_of_le (by positivity) h0
  have h2 : (2 : ℝ) ^ (-126 : ℤ) ≤ r * r := by
    have : (2 : ℝ) ^ (-126 : ℤ) = (1 / 2 ^ 63) * (1 / 2 ^ 63) := by norm_num
    rw [this]
    exact mul_le_mul h0 h0 (by positivity) hr.le
  obtain ⟨b, hb, hc⟩ := toFloat_close hf h2 h1
  have hc' := abs_le.1 hc
  have hrr : 0 < r * r := by positivity
  refine ⟨b, hb, ?_, ?_, ?_⟩
  · have : r * r / 2 ^ 24 ≤ r * r := div_le_self hrr.le (by norm_num)
    linarith [hc'.2]
  · have e : (r * (1 - 1 / 2 ^ 24)) ^ 2 = r * r - r * r * (2 / 2 ^ 24 - 1 / 2 ^ 48) := by ring
    have h : r * r / 2 ^ 24 ≤ r * r * (2 / 2 ^ 24 - 1 / 2 ^ 48) := by
      rw [div_eq_mul_inv]
      exact mul_le_mul_of_nonneg_left (by norm_num) hrr.le
    rw [e]
    linarith [hc'.2]
  · have e : (r * (1 + 1 / 2 ^ 24)) ^ 2 = r * r + r * r * (2 / 2 ^ 24 + 1 / 2 ^ 48) := by ring
    have h : r * r / 2 ^ 24 ≤ r * r * (2 / 2 ^ 24 + 1 / 2 ^ 48) := by
      rw [div_eq_mul_inv]
      exact mul_le_mul_of_nonneg_left (by norm_num) hrr.le
    rw [e]
    linarith [hc'.1]

/-! ## Searches -/

theorem check_knn {k : Int} : (0 < k → check (.knn k) = .ok ()) ∧ (k ≤ 0 → check (.knn k) = .throws .invalidArgument) :=
  ⟨fun h => if_neg (by omega), fun h => if_pos h⟩

theorem check_radius {r : ℝ} : (0 ≤ r → check (.radius (some r)) = .ok ()) ∧ (r < 0 → check (.radius (some r)) = .throws .invalidArgument) :=
  ⟨fun h => if_neg (by simpa using h), fun h => if_pos (by simpa using h)⟩

theorem sqDist_nonneg (p q : Pt dim) : 0 ≤ sqDist p q := Finset.sum_nonneg fun _ _ => sq_nonneg _

theorem dist_lt_iff {p q : Pt dim} {r : ℝ} (hr : 0 < r) : dist p q < r ↔ sqDist p q < r ^ 2 := Real.sqrt_lt' hr

theorem dist_le_iff {p q : Pt dim} {r : ℝ} (hr : 0 ≤ r) : dist p q ≤ r ↔ sqDist p q ≤ r ^ 2 := Real.sqrt_le_left hr

/-- **C91**, `radius_search`: the points nearer than the radius less one part in 2²⁴ are found, none farther than the radius and one part in 2²⁴ (the squared radius is rounded to a
float); none is found twice, and the distances are those of the points found.  The old contents of the vectors are gone. -/
theorem C91_radius_search {E : Ext dim} {below : ℝ → ℝ → Prop} (hE : Exact E below) (hb : IsBelow below) (hf : Rounds E.toFloat) {points : List (Pt dim)} (hne : points ≠ []) (p : Pt dim)
    {r : ℝ} (h0 : 1 / 2 ^ 63 ≤ r) (h1 : r * r ≤ maxFloat) (out : List Nat × List ℝ) :
    ∃ ids, search E (build points) p (.radius (some r)) out = .ok (ids, ids.map fun i => dist p (points.getD i 0)) ∧ ids.Nodup ∧ (∀ i ∈ ids, i < points.length) ∧
      (∀ i < points.length, dist p (points.getD i 0) < r * (1 - 1 / 2 ^ 24) → i ∈ ids) ∧ ∀ i ∈ ids, dist p (points.getD i 0) ≤ r * (1 + 1 / 2 ^ 24) := by
  have hr : (0 : ℝ) < r := lt_of_lt_of_le (by positivity) h0
  obtain ⟨b, e, -, b1, b2⟩ := bound hf h0 h1
  have ht : build points = some points := by unfold build; rw [if_neg (by simpa using hne)]
  refine ⟨(E.radius points p (some b)).map Prod.fst, ?_, hE.nodup _ _ _, fun i hi => ((hE.found _ _ _ _).1 hi).1, ?_, ?_⟩
  · unfold search
    rw [check_radius.1 hr.le, ht, Outcome.ok_bind]
    unfold copy fill
    dsimp only [Option.getD_some]
    rw [e, List.map_map]
    congr 2
    refine List.map_congr_left fun x hx => ?_
    rw [hE.sq _ _ _ x hx]
    rfl
  · intro i hi hd
    rw [dist_lt_iff (mul_pos hr (by norm_num))] at hd
    exact (hE.found _ _ _ _).2 ⟨hi, hb.lt _ _ (lt_of_lt_of_le hd b1)⟩
  · intro i hi
    rw [dist_le_iff (mul_nonneg hr.le (by norm_num))]
    exact (hb.le _ _ ((hE.found _ _ _ _).1 hi).2).trans b2

/-- **C91**, `knn_search`: as many different points as there are, at most `k`, with their distances; no other point is nearer than one of them. -/
theorem C91_knn_search {E : Ext dim} {below : ℝ → ℝ → Prop} (hE : Exact E below) {points : List (Pt dim)} (hne : points ≠ []) (p : Pt dim) {k : Nat} (hk : 0 < k) (out : List Nat × List ℝ) :
    ∃ ids, search E (build points) p (.knn k) out = .ok (ids, ids.map fun i => dist p (points.getD i 0)) ∧ ids.Nodup ∧ (∀ i ∈ ids, i < points.length) ∧
      ids.length = min k points.length ∧ ∀ i ∈ ids, ∀ j < points.length, j ∉ ids → dist p (points.getD i 0) ≤ dist p (points.getD j 0) := by
  have ht : build points = some points := by unfold build; rw [if_neg (by simpa using hne)]
  refine ⟨(E.knn points p k).map Prod.fst, ?_, hE.knodup _ _ _, ?_, by rw [List.length_map, hE.klength], ?_⟩
  · unfold search
    rw [check_knn.1 (by omega), ht, Outcome.ok_bind]
    unfold copy fill
    dsimp only [Int.toNat_natCast]
    rw [List.map_map]
    congr 2
    refine List.map_congr_left fun x hx => ?_
    have := (hE.kfound points p k x hx).2
    rw [this]
    rfl
  · intro i hi
    obtain ⟨x, hx, rfl⟩ := List.mem_map.1 hi
    exact (hE.kfound _ _ _ x hx).1
  · intro i hi j hj hn
    obtain ⟨x, hx, rfl⟩ := List.mem_map.1 hi
    refine Real.sqrt_le_sqrt ?_
    have := hE.knearest _ _ _ x hx j hj hn
    rw [(hE.kfound _ _ _ x hx).2] at this
    exact this

/-- **C91**, arguments: a number of neighbours that is not positive and a radius that is negative or NaN are refused.  A tree without points leaves the vectors of the caller as
they are: it does not empty them. -/
theorem C91_arguments (E : Ext dim) (points : List (Pt dim)) (p : Pt dim) (out : List Nat × List ℝ) :
    (∀ k : Int, k ≤ 0 → search E (build points) p (.knn k) out = .throws .invalidArgument) ∧
    search E (build points) p (.radius none) out = .throws .invalidArgument ∧
    (∀ r : ℝ, r < 0 → search E (build points) p (.radius (some r)) out = .throws .invalidArgument) ∧
    (∀ k : Int, 0 < k → search E (build []) p (.knn k) out = .ok out) ∧
    ∀ r : ℝ, 0 ≤ r → search E (build []) p (.radius (some r)) out = .ok out := by
  refine ⟨fun k hk => ?_, rfl, fun r hr => ?_, fun k hk => ?_, fun r hr => ?_⟩
  · unfold search; rw [check_knn.2 hk]; rfl
  · unfold search; rw [check_radius.2 hr]; rfl
  · unfold search; rw [check_knn.1 hk]; rfl
  · unfold search; rw [check_radius.1 hr]; rfl

/-! ## Threads -/

theorem run_thread (E : Ext dim) (t : Nat) : ∀ (events : List (Nat × Step dim)) (s s' : State), s.buffers t = s'.buffers t → s.results t = s'.results t →
    (run E s events).results t = (run E s' (events.filter fun e => e.1 == t)).results t
  | [], s, s', _, h2 => h2
  | e :: events, s, s', h1, h2 => by
      obtain ⟨u, x⟩ := e
      rw [List.filter_cons]
      by_cases h : u = t
      · subst h
        simp only [beq_self_eq_true, if_true, run, List.foldl_cons]
        refine run_thread E u events _ _ ?_ ?_
        · cases x <;> simp [step, h1]
        · cases x <;> simp [step, h1, h2]
      · rw [if_neg (by simpa using h)]
        simp only [run, List.foldl_cons]
        refine run_thread E t events _ _ ?_ ?_
        · cases x <;> simp [step, h1, Function.update_of_ne (Ne.symm h)]
        · cases x <;> simp [step, h2, Function.update_of_ne (Ne.symm h)]

theorem run_program (E : Ext dim) (t : Nat) : ∀ (calls : List (List (Pt dim) × Pt dim × Query)) (s : State),
    (run E s ((program calls).map fun x => (t, x))).results t = s.results t ++ calls.map fun c => copy (fill E c.1 c.2.1 c.2.2)
  | [], s => by simp [program, run]
  | c :: calls, s => by
      have := run_program E t calls (step E (step E s (t, .fill c.1 c.2.1 c.2.2)) (t, .copy))
      simp only [program, List.flatMap_cons, List.map_append, run, List.foldl_append, List.map_cons, List.map_nil, List.foldl_cons, List.foldl_nil] at this ⊢
      rw [this]
      simp [step]

/-- **C91**, threads: in whatever order the threads take turns, on the same tree or different ones, every thread gets from its calls what it gets when it runs alone. -/
theorem C91_threads (E : Ext dim) (events : List (Nat × Step dim)) (calls : Nat → List (List (Pt dim) × Pt dim × Query))
    (h : ∀ t, (events.filter fun e => e.1 == t).map Prod.snd = program (calls t)) (s : State) (h0 : ∀ t, s.results t = []) (t : Nat)
    (hc : ∀ c ∈ calls t, c.1 ≠ [] ∧ check c.2.2 = .ok ()) (out : List Nat × List ℝ) :
    (run E s events).results t = (calls t).map (fun c => copy (fill E c.1 c.2.1 c.2.2)) ∧
      ∀ c ∈ calls t, search E (build c.1) c.2.1 c.2.2 out = .ok (copy (fill E c.1 c.2.1 c.2.2)) := by
  refine ⟨?_, fun c hm => ?_⟩
  · rw [run_thread E t events s s rfl rfl]
    have e : events.filter (fun e => e.1 == t) = (program (calls t)).map fun x => (t, x) := by
      rw [← h t, List.map_map]
      refine (List.map_id _).symm.trans (List.map_congr_left fun e he => ?_)
      have := (List.mem_filter.1 he).2
      rw [beq_iff_eq] at this
      exact Prod.ext this rfl
    rw [e, run_program, h0, List.nil_append]
  · unfold search
    have ht : build c.1 = some c.1 := by unfold build; rw [if_neg (by simpa using (hc c hm).1)]
    rw [(hc c hm).2, ht]
    rfl

/-! ## DistanceFilter with this tree -/

/-- what `DistanceFilter` gets from its tree -/
noncomputable def indexSearch (E : Ext dim) (points : List (Pt dim)) (d : ℝ) (i : Nat) : List Nat := (E.radius points (points.getD i 0) (E.toFloat (d * d))).map Prod.fst

theorem sqDist_comm (p q : Pt dim) : sqDist p q = sqDist q p := Finset.sum_congr rfl fun _ _ => by ring

open Verif.DistanceFilter in
theorem filter_below {E : Ext dim} {below : ℝ → ℝ → Prop} (hE : Exact E below) (points : List (Pt dim)) (f : DF) (hfn : f.n = points.length) {d b : ℝ} (hd : kMinDistance ≤ d)
    (hb : E.toFloat (d * d) = some b) (indices : List Nat) (hin : ∀ i ∈ indices, i < points.length) :
    ∃ kept, f.filter (indexSearch E points) (some d) indices = (⟨points.length, true, kept⟩, .ok ()) ∧ kept.Sublist indices ∧
      (∀ i ∈ kept, ∀ j ∈ kept, i ≠ j → ¬ below (sqDist (points.getD i 0) (points.getD j 0)) b) ∧
      (∀ pre x post, indices = pre ++ x :: post → x ∉ kept → ∃ j ∈ pre, j ∈ kept ∧ j ≠ x ∧ below (sqDist (points.getD j 0) (points.getD x 0)) b) := by
  set dd : Nat → Nat → ℝ := fun i j => if below (sqDist (points.getD i 0) (points.getD j 0)) b then d else d + 1 with hdd
  set s' : ℝ → Nat → List Nat := fun e i => if e = d then indexSearch E points d i else (List.range points.length).filter fun j => decide (dd i j ≤ e) with hs'
  have hiff : ∀ i j, dd i j ≤ d ↔ below (sqDist (points.getD i 0) (points.getD j 0)) b := by
    intro i j
    rw [hdd]
    dsimp only
    split
    · rename_i h; exact ⟨fun _ => h, fun _ => le_rfl⟩
    · rename_i h; exact ⟨fun h' => by linarith, fun h' => absurd h' h⟩
  have hex : ExactSearch points.length dd s' := by
    intro e i j hi
    rw [hs']
    dsimp only
    by_cases he : e = d
    · rw [if_pos he, he, hiff]
      unfold indexSearch
      rw [hb]
      exact hE.found ..
    · rw [if_neg he]
      simp
  have hsym : ∀ i j, dd i j = dd j i := by
    intro i j
    rw [hdd]
    dsimp only
    rw [sqDist_comm]
  obtain ⟨kept, h1, h2, h3, h4⟩ := filter_spec hex hsym f hfn d hd indices hin
  have e : f.filter (indexSearch E points) (some d) indices = f.filter s' (some d) indices := by
    unfold DF.filter
    have : s' d = indexSearch E points d := by funext i; rw [hs']; dsimp only; rw [if_pos rfl]
    dsimp only
    rw [this]
  refine ⟨kept, by rw [e, h1], h2, fun i hi j hj hij => ?_, fun pre x post hp hx => ?_⟩
  · rw [← hiff]; exact not_le.2 (h3 i hi j hj hij)
  · obtain ⟨j, h5, h6, h7, h8⟩ := h4 pre x post hp hx
    exact ⟨j, h5, h6, h7, (hiff _ _).1 h8⟩

open Verif.DistanceFilter in
/-- **C91**, what `DistanceFilter` (C17) guarantees with the tree of the code: no two points kept are nearer than the distance less one part in 2²⁴, every point left out has an earlier point kept
within the distance and one part in 2²⁴. -/
theorem C91_distance_filter {E : Ext dim} {below : ℝ → ℝ → Prop} (hE : Exact E below) (hb : IsBelow below) (hf : Rounds E.toFloat) (points : List (Pt dim)) (f : DF)
    (hfn : f.n = points.length) {d : ℝ} (hd : kMinDistance ≤ d) (hd' : d * d ≤ maxFloat) (indices : List Nat) (hin : ∀ i ∈ indices, i < points.length) :
    ∃ kept, f.filter (indexSearch E points) (some d) indices = (⟨points.length, true, kept⟩, .ok ()) ∧ kept.Sublist indices ∧
      (∀ i ∈ kept, ∀ j ∈ kept, i ≠ j → d * (1 - 1 / 2 ^ 24) ≤ dist (points.getD i 0) (points.getD j 0)) ∧
      (∀ pre x post, indices = pre ++ x :: post → x ∉ kept → ∃ j ∈ pre, j ∈ kept ∧ j ≠ x ∧ dist (points.getD j 0) (points.getD x 0) ≤ d * (1 + 1 / 2 ^ 24)) := by
  have h0 : (1 : ℝ) / 2 ^ 63 ≤ d := hd
  have hdp : (0 : ℝ) < d := lt_of_lt_of_le (by positivity) h0
  obtain ⟨b, e, -, b1, b2⟩ := bound hf h0 hd'
  obtain ⟨kept, h1, h2, h3, h4⟩ := filter_below hE points f hfn hd e indices hin
  refine ⟨kept, h1, h2, fun i hi j hj hij => ?_, fun pre x post hp hx => ?_⟩
  · by_contra hc
    rw [not_le, dist_lt_iff (mul_pos hdp (by norm_num))] at hc
    exact h3 i hi j hj hij (hb.lt _ _ (lt_of_lt_of_le hc b1))
  · obtain ⟨j, h5, h6, h7, h8⟩ := h4 pre x post hp hx
    refine ⟨j, h5, h6, h7, ?_⟩
    rw [dist_le_iff (mul_nonneg hdp.le (by norm_num))]
    exact (hb.le _ _ h8).trans b2

theorem float_near_one {y : ℝ} (hy : IsFloat y) (h0 : 1 ≤ y) (h1 : y < 1 + 1 / 2 ^ 23) : y = 1 := by
  obtain ⟨m, e, hm, -, -, rfl⟩ := hy
  have hp : (0 : ℝ) < (2 : ℝ) ^ e := zpow_pos two_pos _
  have hm' : (m : ℝ) < 2 ^ 24 := by exact_mod_cast (abs_lt.1 hm).2
  have h2 : (2 : ℝ) ^ (-24 : ℤ) < 2 ^ e := by
    have : 1 < 2 ^ 24 * (2 : ℝ) ^ e := lt_of_le_of_lt h0 (mul_lt_mul_of_pos_right hm' hp)
    have h3 : (2 : ℝ) ^ (-24 : ℤ) = 1 / 2 ^ 24 := by norm_num
    rw [h3, div_lt_iff₀ (by positivity)]
    linarith
  have he : -23 ≤ e := by have := (zpow_lt_zpow_iff_right₀ (one_lt_two : (1 : ℝ) < 2)).1 h2; omega
  obtain ⟨j, hj⟩ := Int.eq_ofNat_of_zero_le (show 0 ≤ e + 23 by omega)
  have ej : (2 : ℝ) ^ e = 2 ^ j / 2 ^ 23 := by
    rw [eq_div_iff (by positivity), ← zpow_natCast, ← zpow_natCast, ← zpow_add₀ two_ne_zero]
    congr 1
  rw [ej, mul_div_assoc', le_div_iff₀ (by positivity), one_mul] at h0
  rw [ej, mul_div_assoc', div_lt_iff₀ (by positivity)] at h1
  have i0 : (2 ^ 23 : ℤ) ≤ m * 2 ^ j := by exact_mod_cast h0
  have i1 : m * 2 ^ j < 2 ^ 23 + 1 := by
    have : (m : ℝ) * 2 ^ j < 2 ^ 23 + 1 := by
      refine lt_of_lt_of_eq h1 ?_
      norm_num
    exact_mod_cast this
  have i2 : m * 2 ^ j = 2 ^ 23 := by omega
  have i3 : (m : ℝ) * 2 ^ j = 2 ^ 23 := by exact_mod_cast i2
  rw [ej, mul_div_assoc', i3]
  norm_num

open Verif.DistanceFilter in
/-- **C91**, a defect: `DistanceFilter::filter` keeps points within the distance of each other.  All numbers here are doubles and the arithmetic on them is exact up to 2⁻⁵⁴: with the distance
1 + 2⁻²⁶ the points 0 and 1 + 2⁻²⁷ are both kept, because the square of the distance is rounded down to 1. -/
theorem C91_filter_keeps_near_points {E : Ext 1} {below : ℝ → ℝ → Prop} (hE : Exact E below) (hb : IsBelow below) (hf : Rounds E.toFloat) :
    ∃ kept, (DF.new 2).filter (indexSearch E [![0], ![1 + 1 / 2 ^ 27]]) (some (1 + 1 / 2 ^ 26)) [0, 1] = (⟨2, true, kept⟩, .ok ()) ∧ 0 ∈ kept ∧ 1 ∈ kept ∧
      dist (![0] : Pt 1) ![1 + 1 / 2 ^ 27] < 1 + 1 / 2 ^ 26 := by
  obtain ⟨y, hy, hfl, hn⟩ := hf.near ((1 + 1 / 2 ^ 26) * (1 + 1 / 2 ^ 26)) (by norm_num) (by unfold maxFloat; norm_num)
  have h1 := abs_le.1 (hn 1 ⟨1, 0, by norm_num, by norm_num, by norm_num, by norm_num⟩)
  rw [abs_of_nonneg (by norm_num)] at h1
  have y1 : y = 1 := float_near_one hfl (by linarith [h1.2]) (by
    have := h1.1
    norm_num at this ⊢
    linarith)
  subst y1
  have hsq : sqDist (![0] : Pt 1) ![1 + 1 / 2 ^ 27] = (1 + 1 / 2 ^ 27) ^ 2 := by
    simp [sqDist]
    ring
  obtain ⟨kept, h1, h2, h3, h4⟩ := filter_below hE [![0], ![1 + 1 / 2 ^ 27]] (DF.new 2) rfl (d := 1 + 1 / 2 ^ 26) (by unfold kMinDistance; norm_num) hy [0, 1] (by simp)
  refine ⟨kept, h1, ?_, ?_, ?_⟩
  · by_contra h
    obtain ⟨j, hj, -⟩ := h4 [] 0 [1] rfl h
    cases hj
  · by_contra h
    obtain ⟨j, hj, -, -, hbel⟩ := h4 [0] 1 [] rfl h
    rw [List.mem_singleton] at hj
    subst hj
    have := hb.le _ _ hbel
    have e : sqDist (([![0], ![1 + 1 / 2 ^ 27]] : List (Pt 1)).getD 0 0) (([![0], ![1 + 1 / 2 ^ 27]] : List (Pt 1)).getD 1 0) = (1 + 1 / 2 ^ 27) ^ 2 := hsq
    rw [e] at this
    norm_num at this
  · rw [dist_lt_iff (by norm_num), hsq]
    norm_num

/-! ## Examples -/

theorem floats_finite : {x : ℝ | IsFloat x}.Finite := by
  have h : ((Set.Ioo (-2 ^ 24 : ℤ) (2 ^ 24)) ×ˢ (Set.Icc (-149 : ℤ) 104)).Finite := (Set.finite_Ioo _ _).prod (Set.finite_Icc _ _)
  refine (h.image fun p : ℤ × ℤ => (p.1 : ℝ) * (2 : ℝ) ^ p.2).subset ?_
  rintro x ⟨m, e, h1, h2, h3, rfl⟩
  exact ⟨(m, e), ⟨abs_lt.1 h1, h2, h3⟩, rfl⟩

theorem exists_nearest (x : ℝ) : ∃ y, IsFloat y ∧ ∀ z, IsFloat z → |x - y| ≤ |x - z| := by
  obtain ⟨y, h1, h2⟩ := Set.exists_min_image {x : ℝ | IsFloat x} (fun y => |x - y|) floats_finite ⟨0, 0, 0, by norm_num, by norm_num, by norm_num, by norm_num⟩
  exact ⟨y, h1, h2⟩

/-- An index that goes through all points. -/
noncomputable def exExt (dim : Nat) : Ext dim where
  knn points p k := (((List.range points.length).map fun i => (i, sqDist p (points.getD i 0))).mergeSort fun x y => decide (x.2 ≤ y.2)).take k
  radius points p b := ((List.range points.length).map fun i => (i, sqDist p (points.getD i 0))).filter fun x => b.all fun b => decide (x.2 < b)
  toFloat x := if x ≤ maxFloat then some (exists_nearest x).choose else none

theorem exExt_rounds (dim : Nat) : Rounds (exExt dim).toFloat where
  near x _ h := ⟨_, if_pos h, (exists_nearest x).choose_spec.1, (exists_nearest x).choose_spec.2⟩
  big x h := Or.inl (if_neg (not_le.2 h))

theorem lt_isBelow : IsBelow (fun x b => x < b) := ⟨fun _ _ h => h, fun _ _ h => h.le⟩

theorem all_nodup (points : List (Pt dim)) (p : Pt dim) : (((List.range points.length).map fun i => (i, sqDist p (points.getD i 0))).map Prod.fst).Nodup := by
  rw [List.map_map]
  exact (List.map_id _).symm ▸ List.nodup_range

theorem mem_all {points : List (Pt dim)} {p : Pt dim} {x : Nat × ℝ} : x ∈ ((List.range points.length).map fun i => (i, sqDist p (points.getD i 0))) ↔
    x.1 < points.length ∧ x.2 = sqDist p (points.getD x.1 0) := by
  rw [List.mem_map]
  constructor
  · rintro ⟨i, hi, rfl⟩
    exact ⟨List.mem_range.1 hi, rfl⟩
  · rintro ⟨h1, h2⟩
    exact ⟨x.1, List.mem_range.2 h1, Prod.ext rfl h2.symm⟩

theorem exExt_exact (dim : Nat) : Exact (exExt dim) (fun x b => x < b) where
  nodup points p b := (all_nodup points p).sublist (List.filter_sublist.map _)
  found points p b i := by
    constructor
    · intro h
      obtain ⟨x, hx, rfl⟩ := List.mem_map.1 h
      obtain ⟨h1, h2⟩ := List.mem_filter.1 hx
      obtain ⟨h3, h4⟩ := mem_all.1 h1
      refine ⟨h3, ?_⟩
      rw [← h4]
      simpa using h2
    · rintro ⟨h1, h2⟩
      refine List.mem_map.2 ⟨(i, sqDist p (points.getD i 0)), List.mem_filter.2 ⟨mem_all.2 ⟨h1, rfl⟩, ?_⟩, rfl⟩
      simpa using h2
  all points p i := by
    constructor
    · intro h
      obtain ⟨x, hx, rfl⟩ := List.mem_map.1 h
      exact (mem_all.1 (List.mem_filter.1 hx).1).1
    · intro h
      exact List.mem_map.2 ⟨(i, sqDist p (points.getD i 0)), List.mem_filter.2 ⟨mem_all.2 ⟨h, rfl⟩, rfl⟩, rfl⟩
  sq points p b x hx := (mem_all.1 (List.mem_filter.1 hx).1).2
  knodup points p k := by
    refine List.Nodup.sublist ((List.take_sublist _ _).map _) ?_
    exact ((List.mergeSort_perm _ _).map _).nodup_iff.2 (all_nodup points p)
  klength points p k := by
    unfold exExt
    rw [List.length_take, List.length_mergeSort, List.length_map, List.length_range]
  kfound points p k x hx := mem_all.1 ((List.mergeSort_perm _ _).mem_iff.1 (List.mem_of_mem_take hx))
  knearest points p k x hx j hj hn := by
    set l := ((List.range points.length).map fun i => (i, sqDist p (points.getD i 0))).mergeSort fun x y => decide (x.2 ≤ y.2) with hl
    have hs : l.Pairwise fun x y => decide (x.2 ≤ y.2) = true := by
      refine List.pairwise_mergeSort (fun a b c h1 h2 => ?_) (fun a b => ?_) _
      · simp only [decide_eq_true_eq] at *; exact h1.trans h2
      · simp only [Bool.or_eq_true, decide_eq_true_eq]; exact le_total _ _
    have hj' : (j, sqDist p (points.getD j 0)) ∈ l := (List.mergeSort_perm _ _).mem_iff.2 (mem_all.2 ⟨hj, rfl⟩)
    have hx' : x ∈ l.take k := hx
    rw [← List.take_append_drop k l, List.mem_append] at hj'
    rw [← List.take_append_drop k l, List.pairwise_append] at hs
    rcases hj' with h | h
    · exact absurd (List.mem_map.2 ⟨_, h, rfl⟩) hn
    · simpa using hs.2.2 x hx' _ h

/-- three points of the line, the two within 3/2 of the first -/
example : ∃ ids, search (exExt 1) (build [![0], ![1], ![2]]) ![0] (.radius (some (3 / 2))) ([7], [7]) = .ok (ids, ids.map fun i => dist ![0] (([![0], ![1], ![2]] : List (Pt 1)).getD i 0)) ∧
    0 ∈ ids ∧ 1 ∈ ids ∧ 2 ∉ ids := by
  obtain ⟨ids, h1, -, -, h2, h3⟩ := C91_radius_search (exExt_exact 1) lt_isBelow (exExt_rounds 1) (points := [![0], ![1], ![2]]) (by simp) ![0] (r := 3 / 2) (by norm_num)
    (by unfold maxFloat; norm_num) ([7], [7])
  refine ⟨ids, h1, h2 0 (by simp) ?_, h2 1 (by simp) ?_, fun h => ?_⟩
  · rw [dist_lt_iff (by norm_num)]; simp [sqDist]; norm_num
  · rw [dist_lt_iff (by norm_num)]; simp [sqDist]; norm_num
  · have := h3 2 h
    rw [dist_le_iff (by norm_num)] at this
    simp [sqDist] at this
    norm_num at this

example := C91_knn_search (exExt_exact 1) (points := [![0], ![1], ![2]]) (by simp) ![0] (k := 2) (by norm_num) ([7], [7])

/-- two threads, the first interrupted between filling and copying -/
example : ∀ s : State, (∀ t, s.results t = []) →
    (run (exExt 1) s [(0, .fill [![0]] ![0] (.knn 1)), (1, .fill [![0], ![5]] ![1] (.knn 2)), (0, .copy), (1, .copy)]).results 0 = [copy (fill (exExt 1) [![0]] ![0] (.knn 1))] := by
  intro s h0
  refine (C91_threads (exExt 1) _ (fun t => if t = 0 then [([![0]], ![0], .knn 1)] else if t = 1 then [([![0], ![5]], ![1], .knn 2)] else []) (fun t => ?_) s h0 0 ?_ ([], [])).1
  · match t with
    | 0 => rfl
    | 1 => rfl
    | t + 2 => rfl
  · intro c hc
    rw [if_pos rfl, List.mem_singleton] at hc
    subst hc
    exact ⟨by simp, check_knn.1 (by norm_num)⟩

example := C91_distance_filter (exExt_exact 1) lt_isBelow (exExt_rounds 1) [![0], ![1], ![2]] (DistanceFilter.DF.new 3) rfl (d := 1) (by unfold DistanceFilter.kMinDistance; norm_num)
  (by unfold maxFloat; norm_num) [0, 1, 2] (by simp)

example := C91_filter_keeps_near_points (exExt_exact 1) lt_isBelow (exExt_rounds 1)

end Verif.KdTree
