import Verif.Model.DomainDivider
import Mathlib.Tactic.Linarith
import Mathlib.Tactic.Ring
import Mathlib.Algebra.Order.Floor.Ring

/-! # Lemmas about dividing a domain -/

namespace Verif.DomainDivider

open Verif

/-- total multiplicity -/
def multSum (dim : Nat) : List MixedPoint → Nat
  | [] => 0
  | p :: ps => p.mult dim + multSum dim ps

theorem multSum_append (dim : Nat) (a b : List MixedPoint) :
    multSum dim (a ++ b) = multSum dim a + multSum dim b := by
  induction a with
  | nil => simp [multSum]
  | cons p ps ih => simp only [List.cons_append, multSum, ih]; omega

theorem multSum_perm (dim : Nat) {a b : List MixedPoint} (h : a.Perm b) : multSum dim a = multSum dim b := by
  induction h with
  | nil => rfl
  | cons x _ ih => simp [multSum, ih]
  | swap x y l => simp only [multSum]; omega
  | trans _ _ h1 h2 => exact h1.trans h2

theorem multSum_take_add_drop (dim k : Nat) (ms : List MixedPoint) :
    multSum dim (ms.take k) + multSum dim (ms.drop k) = multSum dim ms := by
  rw [← multSum_append, List.take_append_drop]

theorem multSum_take_mono (dim : Nat) (ms : List MixedPoint) {j k : Nat} (h : j ≤ k) :
    multSum dim (ms.take j) ≤ multSum dim (ms.take k) := by
  have h1 := multSum_take_add_drop dim j (ms.take k)
  rw [List.take_take, min_eq_left h] at h1
  omega

theorem mult_le {dim : Nat} (hd : 1 ≤ dim) (p : MixedPoint) : p.mult dim ≤ dim := by
  unfold MixedPoint.mult; split <;> omega

theorem mult_pos {dim : Nat} (hd : 1 ≤ dim) (p : MixedPoint) : 1 ≤ p.mult dim := by
  unfold MixedPoint.mult; split <;> omega

theorem multSum_take_succ_le {dim : Nat} (hd : 1 ≤ dim) (ms : List MixedPoint) (k : Nat) :
    multSum dim (ms.take (k + 1)) ≤ multSum dim (ms.take k) + dim := by
  by_cases h : k < ms.length
  · rw [List.take_succ_eq_append_getElem h, multSum_append]
    have := mult_le hd ms[k]
    simp only [multSum]; omega
  · rw [List.take_of_length_le (by omega), List.take_of_length_le (by omega)]; omega

theorem upperBound_spec (dim : Nat) (v : Int) : ∀ (ms : List MixedPoint) (acc : Nat), (acc : Int) ≤ v →
    ∃ k, k ≤ ms.length ∧ upperBound (prefixSumsFrom dim acc ms) v = k + 1 ∧
      ((acc + multSum dim (ms.take k) : Nat) : Int) ≤ v ∧
      (k < ms.length → v < ((acc + multSum dim (ms.take (k + 1)) : Nat) : Int)) := by
  intro ms
  induction ms with
  | nil =>
      intro acc h
      refine ⟨0, by simp, ?_, by simpa [multSum] using h, by simp⟩
      simp [upperBound, prefixSumsFrom, h]
  | cons p ps ih =>
      intro acc h
      by_cases h2 : ((acc + p.mult dim : Nat) : Int) ≤ v
      · obtain ⟨k, hk, hu, h3, h4⟩ := ih (acc + p.mult dim) h2
        refine ⟨k + 1, by simp; omega, ?_, ?_, ?_⟩
        · simp only [upperBound, prefixSumsFrom] at hu ⊢
          rw [List.takeWhile_cons_of_pos (by simpa using h)]
          simp [hu]
        · simpa [multSum, Nat.add_assoc] using h3
        · intro hlt
          have := h4 (by simpa using hlt)
          simpa [multSum, Nat.add_assoc] using this
      · refine ⟨0, by simp, ?_, by simpa [multSum] using h, ?_⟩
        · have hhd : ∃ tl, prefixSumsFrom dim (acc + p.mult dim) ps = (acc + p.mult dim) :: tl := by
            cases ps <;> exact ⟨_, rfl⟩
          obtain ⟨tl, htl⟩ := hhd
          simp only [upperBound, prefixSumsFrom]
          rw [List.takeWhile_cons_of_pos (by simpa using h), htl, List.takeWhile_cons_of_neg (by simpa using h2)]
          rfl
        · intro _
          simp only [List.take_succ_cons, List.take_zero, multSum]
          push_cast at h2 ⊢
          omega

theorem partition_mono {dim : Nat} {ms : List MixedPoint} {v w : Int} {j k : Nat} (hvw : v ≤ w)
    (hj : ((multSum dim (ms.take j) : Nat) : Int) ≤ v) (hjl : j ≤ ms.length)
    (hk : k < ms.length → w < ((multSum dim (ms.take (k + 1)) : Nat) : Int)) : j ≤ k := by
  by_contra hc
  have h1 := hk (by omega)
  have h2 := multSum_take_mono dim ms (show k + 1 ≤ j by omega)
  omega

/-! ## the filling loops -/

/-- the domain holding the given points in order -/
def toDomain (l : List MixedPoint) : Domain :=
  ⟨(l.filter (fun m => !m.grad)).map (fun m => (m.index, m.inner)),
    (l.filter (fun m => m.grad)).map (fun m => (m.index, m.inner))⟩

/-- the same point, not inner -/
def out (m : MixedPoint) : MixedPoint := { m with inner := false }

/-- flags set from position `i` on -/
def flagFrom (flag : Int → Bool) : Int → List MixedPoint → List MixedPoint
  | _, [] => []
  | i, m :: ms => { m with inner := m.inner && flag i } :: flagFrom flag (i + 1) ms

theorem intRange_cons {a b : Int} (h : a < b) : intRange a b = a :: intRange (a + 1) b := by
  have h1 : (b - a).toNat = (b - (a + 1)).toNat + 1 := by omega
  simp only [intRange, h1, List.range_succ_eq_map, List.map_cons, List.map_map]
  congr 1
  · simp
  · apply List.map_congr_left
    intro k _
    simp only [Function.comp]
    push_cast
    ring

theorem intRange_nil {a b : Int} (h : b ≤ a) : intRange a b = [] := by
  have h1 : (b - a).toNat = 0 := by omega
  simp [intRange, h1]

theorem fillLoop_eq (ms : List MixedPoint) (flag : Int → Bool) : ∀ (n a : Nat) (l : List MixedPoint),
    a + n ≤ ms.length →
    fillLoop ms flag (intRange (a : Int) ((a + n : Nat) : Int)) (toDomain l) =
      .ok (toDomain (l ++ flagFrom flag a ((ms.drop a).take n))) := by
  intro n
  induction n with
  | zero =>
      intro a l _
      rw [intRange_nil (by simp)]
      simp [fillLoop, flagFrom]
  | succ n ih =>
      intro a l h
      have ha : a < ms.length := by omega
      rw [intRange_cons (by push_cast; omega)]
      have hat : at? ms (a : Int) = .ok ms[a] := by
        have h2 : ¬ ((a : Int) < 0) := by omega
        simp only [at?, if_neg h2, Int.toNat_natCast]
        rw [List.getElem?_eq_getElem ha]
      have hpush : ∀ b : Bool, (toDomain l).push ms[a] b = toDomain (l ++ [{ ms[a] with inner := b }]) := by
        intro b
        unfold Domain.push toDomain
        split
        · rename_i hg; simp [hg]
        · rename_i hg; simp only [Bool.not_eq_true] at hg; simp [hg]
      have hdrop : ms.drop a = ms[a] :: ms.drop (a + 1) := List.drop_eq_getElem_cons ha
      have := ih (a + 1) (l ++ [{ ms[a] with inner := ms[a].inner && flag a }]) (by omega)
      simp only [fillLoop, hat, Outcome.ok_bind, hpush]
      rw [show ((a : Int) + 1) = ((a + 1 : Nat) : Int) by push_cast; ring,
        show a + (n + 1) = (a + 1) + n by omega, this, hdrop]
      simp only [List.take_succ_cons, flagFrom, List.append_assoc, List.singleton_append, Nat.cast_add, Nat.cast_one]

theorem flagFrom_all (flag : Int → Bool) : ∀ (l : List MixedPoint) (a : Int),
    (∀ k : Nat, k < l.length → flag (a + k) = true) → flagFrom flag a l = l := by
  intro l
  induction l with
  | nil => intro a _; rfl
  | cons m ms ih =>
      intro a h
      have h0 := h 0 (by simp)
      simp only [flagFrom]
      rw [ih (a + 1) (fun k hk => by have := h (k + 1) (by simpa using hk); push_cast at this; rwa [add_assoc, add_comm 1])]
      simp at h0
      simp [h0]

theorem flagFrom_none (flag : Int → Bool) : ∀ (l : List MixedPoint) (a : Int),
    (∀ k : Nat, k < l.length → flag (a + k) = false) → flagFrom flag a l = l.map out := by
  intro l
  induction l with
  | nil => intro a _; rfl
  | cons m ms ih =>
      intro a h
      have h0 := h 0 (by simp)
      simp only [flagFrom]
      rw [ih (a + 1) (fun k hk => by have := h (k + 1) (by simpa using hk); push_cast at this; rwa [add_assoc, add_comm 1])]
      simp at h0
      simp [h0, out]

theorem flagFrom_append (flag : Int → Bool) : ∀ (l l' : List MixedPoint) (a : Int),
    flagFrom flag a (l ++ l') = flagFrom flag a l ++ flagFrom flag (a + l.length) l' := by
  intro l
  induction l with
  | nil => intro l' a; simp [flagFrom]
  | cons m ms ih =>
      intro l' a
      simp only [List.cons_append, flagFrom, ih, List.length_cons]
      congr 3
      push_cast
      ring

/-! ## rounding -/

theorem roundHalfToEven_near (d : ℚ) : |((roundHalfToEven d : Int) : ℚ) - d| ≤ 1 / 2 := by
  -- the two summands differ by at most one and straddle d / 2
  unfold roundHalfToEven
  set c := ⌈(d - 1 / 2) / 2⌉ with hc
  set f := ⌊(d + 1 / 2) / 2⌋ with hf
  have hc1 : (d - 1 / 2) / 2 ≤ (c : ℚ) := Int.le_ceil _
  have hc2 : (c : ℚ) < (d - 1 / 2) / 2 + 1 := Int.ceil_lt_add_one _
  have hf1 : (f : ℚ) ≤ (d + 1 / 2) / 2 := Int.floor_le _
  have hf2 : (d + 1 / 2) / 2 < (f : ℚ) + 1 := Int.lt_floor_add_one _
  have h1 : c ≤ f + 1 := by
    have h : (c : ℚ) < (f : ℚ) + 2 := by linarith
    have h' : c < f + 2 := by exact_mod_cast h
    omega
  have h2 : f ≤ c := by
    have h : (f : ℚ) < (c : ℚ) + 1 := by linarith
    have h' : f < c + 1 := by exact_mod_cast h
    omega
  push_cast
  rw [abs_le]
  rcases (show f = c ∨ c = f + 1 by omega) with h | h
  · have hq : (f : ℚ) = c := by exact_mod_cast h
    constructor <;> linarith
  · have hq : (c : ℚ) = f + 1 := by exact_mod_cast h
    constructor <;> linarith

theorem nsubExact_spec (n : Nat) (hn : 0 < n) :
    (n : Int) + 511 ≤ 2 * nsubExact n ∧ 2 * nsubExact n ≤ (n : Int) + 513 := by
  have hn' : (n : ℚ) ≠ 0 := by exact_mod_cast hn.ne'
  have he : nsubExact n = roundHalfToEven (((n : ℚ) + 512) / 2) := by
    unfold nsubExact kMaxLeafSize
    dsimp only
    congr 1
    field_simp
    push_cast
    ring
  have h := roundHalfToEven_near (((n : ℚ) + 512) / 2)
  rw [← he, abs_le] at h
  constructor
  · have : ((n : ℚ) + 511) ≤ 2 * (nsubExact n : ℚ) := by linarith
    exact_mod_cast this
  · have : 2 * (nsubExact n : ℚ) ≤ (n : ℚ) + 513 := by linarith
    exact_mod_cast this

theorem midMult_spec (n : Int) :
    n - 1 ≤ 2 * roundHalfToEven ((n : ℚ) / 2) ∧ 2 * roundHalfToEven ((n : ℚ) / 2) ≤ n + 1 := by
  have h := roundHalfToEven_near ((n : ℚ) / 2)
  rw [abs_le] at h
  constructor
  · have : ((n : ℚ) - 1) ≤ 2 * (roundHalfToEven ((n : ℚ) / 2) : ℚ) := by linarith
    exact_mod_cast this
  · have : 2 * (roundHalfToEven ((n : ℚ) / 2) : ℚ) ≤ (n : ℚ) + 1 := by linarith
    exact_mod_cast this

/-! ## one division -/

theorem multSum_mixedPoints (dim : Nat) (d : Domain) : multSum dim (mixedPoints d) = d.dof dim := by
  have h1 : ∀ l : List (Nat × Bool), multSum dim (l.map (fun p => (⟨p.1, p.2, false⟩ : MixedPoint))) = l.length := by
    intro l
    induction l with
    | nil => rfl
    | cons p ps ih => simp only [List.map_cons, multSum, ih, MixedPoint.mult, List.length_cons]; simp; omega
  have h2 : ∀ l : List (Nat × Bool), multSum dim (l.map (fun p => (⟨p.1, p.2, true⟩ : MixedPoint))) = dim * l.length := by
    intro l
    induction l with
    | nil => rfl
    | cons p ps ih =>
        simp only [List.map_cons, multSum, ih, MixedPoint.mult, List.length_cons]
        simp only [if_true]; ring
  rw [mixedPoints, multSum_append, h1, h2, Domain.dof]

theorem dof_toDomain (dim : Nat) (l : List MixedPoint) : (toDomain l).dof dim = multSum dim l := by
  induction l with
  | nil => simp [toDomain, Domain.dof, multSum]
  | cons m ms ih =>
      simp only [Domain.dof, toDomain, List.length_map, multSum, MixedPoint.mult] at ih ⊢
      by_cases hg : m.grad
      · simp only [hg, Bool.not_true, List.filter_cons, if_true, List.length_cons, Bool.false_eq_true, if_false]
        rw [← ih]; ring
      · simp only [Bool.not_eq_true] at hg
        simp only [hg, Bool.not_false, List.filter_cons, if_true, List.length_cons, Bool.false_eq_true, if_false]
        rw [← ih]; ring

theorem multSum_map_out (dim : Nat) (l : List MixedPoint) : multSum dim (l.map out) = multSum dim l := by
  induction l with
  | nil => rfl
  | cons m ms ih => simp [multSum, ih, out, MixedPoint.mult]

/-- What is assumed about `std::sort`, the centre and the rounded floating-point expression. -/
structure Env.Ok (env : Env) : Prop where
  dim_pos : 1 ≤ env.dim
  dim_le : env.dim ≤ 3
  sort : ∀ l, (env.sort l).Perm l
  nsub : ∀ n, kMaxLeafSize < n → (n : Int) + 511 ≤ 2 * env.nsub n ∧ 2 * env.nsub n ≤ (n : Int) + 513
  sortIdx_perm : ∀ l, (env.sortIdx l).Perm l
  sortIdx_sorted : ∀ l, (env.sortIdx l).Pairwise (fun a b => a.1 ≤ b.1)
  center : ∀ l, l ≠ [] → env.center l ∈ l

theorem divideDomain_eq {env : Env} (he : env.Ok) (d : Domain) (hN : kMaxLeafSize < d.dof env.dim) :
    ∃ (ms : List MixedPoint) (a m b : Nat), ms.Perm (mixedPoints d) ∧ a ≤ m ∧ m ≤ b ∧ b ≤ ms.length ∧
      divideDomain env d =
        .ok (toDomain (ms.take m ++ ((ms.drop m).take (b - m)).map out),
          toDomain (((ms.drop a).take (m - a)).map out ++ ms.drop m)) ∧
      multSum env.dim (ms.take b) < d.dof env.dim ∧ multSum env.dim (ms.drop a) < d.dof env.dim ∧
      766 ≤ multSum env.dim (ms.take b) ∧ 766 ≤ multSum env.dim (ms.drop a) := by
  obtain ⟨hns1, hns2⟩ := he.nsub _ hN
  set N := d.dof env.dim with hNdef
  have hperm := he.sort (mixedPoints d)
  set ms := env.sort (mixedPoints d) with hms
  have hsum : multSum env.dim ms = N := by rw [multSum_perm _ hperm, multSum_mixedPoints]
  have hlen : (ms.length : Int) = (d.pts.length : Int) + (d.grads.length : Int) := by
    rw [hperm.length_eq]; simp [mixedPoints]
  have hd1 := he.dim_pos
  have hd3 := he.dim_le
  simp only [kMaxLeafSize] at hN
  obtain ⟨hm1, hm2⟩ := midMult_spec (((N : Int) - env.nsub N) + env.nsub N)
  set M := roundHalfToEven (((((N : Int) - env.nsub N) + env.nsub N : Int) : ℚ) / 2) with hM
  obtain ⟨a, ha1, ha2, ha3, ha4⟩ := upperBound_spec env.dim ((N : Int) - env.nsub N) ms 0 (by push_cast; omega)
  obtain ⟨b, hb1, hb2, hb3, hb4⟩ := upperBound_spec env.dim (env.nsub N) ms 0 (by push_cast; omega)
  obtain ⟨m, hm1', hm2', hm3, hm4⟩ := upperBound_spec env.dim M ms 0 (by push_cast; omega)
  simp only [Nat.zero_add] at ha3 ha4 hb3 hb4 hm3 hm4
  have ham : a ≤ m := partition_mono (show (N : Int) - env.nsub N ≤ M by omega) ha3 ha1 hm4
  have hmb : m ≤ b := partition_mono (show M ≤ env.nsub N by omega) hm3 hm1' hb4
  have halt : a < ms.length := by
    by_contra hc
    have : a = ms.length := by omega
    rw [this, List.take_length, hsum] at ha3
    omega
  refine ⟨ms, a, m, b, hperm, ham, hmb, hb1, ?_, ?_, ?_, ?_, ?_⟩
  · have hNN : d.pts.length + env.dim * d.grads.length = N := rfl
    unfold divideDomain
    dsimp only
    rw [← hms, hNN, ← hM, ha2, hb2, hm2']
    have e1 : ∀ k : Nat, (((k + 1 : Nat) : Int) - 1) = (k : Int) := by intro k; push_cast; ring
    simp only [e1]
    have hL := fillLoop_eq ms (fun i => decide (i < (m : Int))) b 0 [] (by omega)
    have hR := fillLoop_eq ms (fun i => decide (i ≥ (m : Int))) (ms.length - a) a [] (by omega)
    have hd0 : (⟨[], []⟩ : Domain) = toDomain [] := rfl
    rw [hd0]
    simp only [Nat.zero_add, Nat.cast_zero, List.drop_zero, List.nil_append] at hL
    rw [hL]
    simp only [Outcome.ok_bind]
    rw [show a + (ms.length - a) = ms.length by omega, hlen] at hR
    rw [hR]
    simp only [Outcome.ok_bind, Outcome.pure_eq, List.nil_append]
    have hl : flagFrom (fun i => decide (i < (m : Int))) 0 (ms.take b) =
        ms.take m ++ ((ms.drop m).take (b - m)).map out := by
      have hsplit : ms.take b = ms.take m ++ (ms.drop m).take (b - m) := by
        have := List.take_add (l := ms) (i := m) (j := b - m)
        rwa [show m + (b - m) = b by omega] at this
      rw [hsplit, flagFrom_append, flagFrom_all, flagFrom_none]
      · intro k _
        have : (ms.take m).length = m := by simp; omega
        rw [this]
        simp
      · intro k hk
        have : (ms.take m).length = m := by simp; omega
        rw [this] at hk
        simp; omega
    have hr : flagFrom (fun i => decide (i ≥ (m : Int))) (a : Int) ((ms.drop a).take (ms.length - a)) =
        ((ms.drop a).take (m - a)).map out ++ ms.drop m := by
      have hsplit : (ms.drop a).take (ms.length - a) = (ms.drop a).take (m - a) ++ ms.drop m := by
        rw [List.take_of_length_le (by simp)]
        have := List.take_append_drop (m - a) (ms.drop a)
        rw [List.drop_drop, show a + (m - a) = m by omega] at this
        exact this.symm
      have hlen2 : ((ms.drop a).take (m - a)).length = m - a := by simp; omega
      rw [hsplit, flagFrom_append, flagFrom_none, flagFrom_all]
      · intro k _
        rw [hlen2]
        simp; omega
      · intro k hk
        rw [hlen2] at hk
        simp; omega
    rw [hl, hr]
  · omega
  · have h1 := ha4 halt
    have h2 := multSum_take_succ_le hd1 ms a
    have h3 := multSum_take_add_drop env.dim a ms
    omega
  · by_cases hbl : b < ms.length
    · have h1 := hb4 hbl
      have h2 := multSum_take_succ_le hd1 ms b
      omega
    · rw [List.take_of_length_le (by omega), hsum]; omega
  · have h3 := multSum_take_add_drop env.dim a ms
    omega

end Verif.DomainDivider
