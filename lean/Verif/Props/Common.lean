import Verif.Lemmas.Common

/-!
# C01 zip_sort, C02 complementary_indices, C52 concatenate
-/

namespace Verif.Common

open Verif

/-- The contract of `std::sort(first, last, comp)`: the result is a permutation of the input in which no later
element compares before an earlier one. -/
def SortContract (comp : α → α → Prop) (sort : List α → List α) : Prop :=
  ∀ l, (sort l).Perm l ∧ (sort l).Pairwise (fun a b => ¬ comp b a)

/-- **C01.** `zip_sort` on two ranges (the second of at least the length of the first) succeeds; pairing the two
sorted ranges gives a rearrangement of the original pairs in non-decreasing order; lengths are kept; anything
after the second range is untouched. -/
theorem C01_zip_sort (comp : α × β → α × β → Prop) (sort : List (α × β) → List (α × β))
    (hsort : SortContract comp sort) (r1 : List α) (r2 : List β) (hlen : r1.length ≤ r2.length) :
    ∃ s1 s2, zipSort sort r1 r2 = .ok (s1, s2) ∧
      s1.length = r1.length ∧ s2.length = r2.length ∧
      (s1.zip s2).Perm (r1.zip r2) ∧
      (s1.zip s2).Pairwise (fun a b => ¬ comp b a) ∧
      s2.drop r1.length = r2.drop r1.length := by
  obtain ⟨hp, hs⟩ := hsort (r1.zip r2)
  have hl : (sort (r1.zip r2)).length = r1.length := by
    rw [hp.length_eq]; simp; omega
  have hz : ((sort (r1.zip r2)).map Prod.fst).zip
      ((sort (r1.zip r2)).map Prod.snd ++ r2.drop r1.length) = sort (r1.zip r2) := by
    have := List.zip_append (l₁ := (sort (r1.zip r2)).map Prod.fst) (r₁ := [])
      (l₂ := (sort (r1.zip r2)).map Prod.snd) (r₂ := r2.drop r1.length) (by simp)
    rw [List.append_nil] at this
    rw [this]
    simp [List.zip_map']
  refine ⟨_, _, by simp [zipSort, zipLoop_ok _ _ hlen, unzipLoop_eq]; exact ⟨rfl, rfl⟩, ?_, ?_, ?_, ?_, ?_⟩
  · simpa using hl
  · simp [hl]; omega
  · rw [hz]; exact hp
  · rw [hz]; exact hs
  · rw [List.drop_append, List.length_map, hl]
    simp [List.drop_eq_nil_of_le, hl]

/-- C01, error case: a second range shorter than the first is read out of bounds. -/
theorem C01_zip_sort_ub (sort : List (α × β) → List (α × β)) (r1 : List α) (r2 : List β)
    (hlen : r2.length < r1.length) : zipSort sort r1 r2 = .ub := by
  simp [zipSort, zipLoop_ub _ _ hlen]

/-- Non-vacuity: merge sort on pairs by first component meets the contract, and the theorem applies to ranges with
ties and a longer second range. -/
theorem sortContract_mergeSort :
    SortContract (fun a b : Nat × Nat => a.1 < b.1) (fun l => l.mergeSort (fun a b => decide (a.1 ≤ b.1))) := by
  intro l
  refine ⟨List.mergeSort_perm l _, ?_⟩
  have := List.pairwise_mergeSort (le := fun a b : Nat × Nat => decide (a.1 ≤ b.1))
    (by intro a b c; simp; omega) (by intro a b; simp; omega) l
  exact this.imp (by intro a b h; simp at h; omega)

example : zipSort (fun l => l.mergeSort (fun a b => decide (a.1 ≤ b.1))) [3, 1, 2] [30, 10, 20, 99]
    = .ok ([1, 2, 3], [10, 20, 30, 99]) := by
  simp [zipSort, zipLoop, List.mergeSort, List.MergeSort.Internal.splitInTwo, unzipLoop]

/-- **C02.** Complete description of `complementary_indices`.  For distinct in-range indices, in any order, the result
is the increasing list of exactly the other indices in `[0, n)`; more indices than points is a `length_error`; every
other input (a repeated or out-of-range index) makes the code write past the end of its buffer. -/
theorem C02_complementary_indices (sort : List Int → List Int)
    (hsort : SortContract (· < ·) sort) (indices : List Int) (n : Nat) :
    ((indices.Nodup ∧ ∀ i ∈ indices, 0 ≤ i ∧ i < n) →
      ∃ r, complementaryIndices sort indices n = .ok r ∧
        r.Pairwise (· < ·) ∧ (∀ i, i ∈ r ↔ (0 ≤ i ∧ i < n) ∧ i ∉ indices) ∧
        r.length + indices.length = n) ∧
    (n < indices.length → complementaryIndices sort indices n = .throws .lengthError) ∧
    (indices.length ≤ n → ¬ (indices.Nodup ∧ ∀ i ∈ indices, 0 ≤ i ∧ i < n) →
      complementaryIndices sort indices n = .ub) := by
  obtain ⟨hp, hs⟩ := hsort indices
  have hd : setDifference (irange n) (sort indices)
      = (irange n).filter (fun x => decide (x ∉ indices)) := by
    rw [setDifference_eq _ _ (irange_sorted n) (hs.imp (by intro a b h; omega))]
    apply List.filter_congr
    intro z _
    simp [hp.mem_iff]
  have hsplit := filter_split_length n indices
  have hle := (filter_mem_subperm n indices).length_le
  have hiff := filter_mem_length_iff n indices
  refine ⟨fun hgood => ?_, fun h => ?_, fun hlen hbad => ?_⟩
  · have hl := hiff.2 hgood
    have e1 : ¬ n < indices.length := by omega
    have e2 : ¬ n - indices.length < (setDifference (irange n) (sort indices)).length := by
      rw [hd]; omega
    refine ⟨(irange n).filter (fun x => decide (x ∉ indices)), ?_, ?_, ?_, by omega⟩
    · have e3 : n - indices.length - (setDifference (irange n) (sort indices)).length = 0 := by
        rw [hd]; omega
      simp only [complementaryIndices, if_neg e1, if_neg e2, e3, List.replicate_zero, List.append_nil]
      rw [hd]
    · exact (irange_sorted n).filter _
    · intro i; simp [List.mem_filter, mem_irange]
  · simp [complementaryIndices, h]
  · have hne : ((irange n).filter (fun x => decide (x ∈ indices))).length ≠ indices.length :=
      fun h => hbad (hiff.1 h)
    have e1 : ¬ n < indices.length := by omega
    have e2 : n - indices.length < (setDifference (irange n) (sort indices)).length := by
      rw [hd]; omega
    simp only [complementaryIndices, if_neg e1, if_pos e2]

theorem sortContract_mergeSort_int :
    SortContract (fun a b : Int => a < b) (fun l => l.mergeSort (fun a b => decide (a ≤ b))) := by
  intro l
  refine ⟨List.mergeSort_perm l _, ?_⟩
  have := List.pairwise_mergeSort (le := fun a b : Int => decide (a ≤ b))
    (by intro a b c; simp; omega) (by intro a b; simp; omega) l
  exact this.imp (by intro a b h; simp at h; omega)

/-- Non-vacuity: an unsorted index list meets the hypotheses of the good case. -/
example : ([4, 1, 3] : List Int).Nodup ∧ ∀ i ∈ ([4, 1, 3] : List Int), 0 ≤ i ∧ i < (6 : Nat) := by decide

/-- Non-vacuity of the undefined-behaviour case: a repeated index. -/
example : complementaryIndices (fun l => l.mergeSort (fun a b => decide (a ≤ b))) [1, 1] 3 = .ub := by
  apply (C02_complementary_indices _ sortContract_mergeSort_int _ _).2.2 <;> simp

/-- **C52 (rows).** `concatenate_rows` throws iff the column counts differ; otherwise entry `(i, j)` of the `k`-th
argument is found at row (total rows before it) + i, and the shape is the sum of rows by the common columns. -/
theorem C52_concatenate_rows (init : Nat → Nat → α) (m : Mat α) (rest : List (Mat α)) :
    ((∃ m' ∈ rest, m'.cols ≠ m.cols) → concatenateRows init m rest = .throws .invalidArgument) ∧
    ((∀ m' ∈ rest, m'.cols = m.cols) → ∃ r, concatenateRows init m rest = .ok r ∧
      r.cols = m.cols ∧ r.rows = ((m :: rest).map Mat.rows).sum ∧
      ∀ pre x suf, m :: rest = pre ++ x :: suf → ∀ i j, i < x.rows → j < x.cols →
        r.entry ((pre.map Mat.rows).sum + i) j = x.entry i j) := by
  constructor
  · rintro ⟨m', h1, h2⟩
    have : ¬ ∀ m' ∈ rest, m'.cols = m.cols := fun h => h2 (h m' h1)
    simp [concatenateRows, commonCols_ok, this]
  · intro h
    refine ⟨_, by simp only [concatenateRows, commonCols_ok, if_pos h, Outcome.ok_bind, Outcome.pure_eq]; rfl, ?_, ?_, ?_⟩
    · exact (concatRowsImpl_shape _ _ _).2
    · exact (concatRowsImpl_shape _ _ _).1
    · intro pre x suf hms i j hi hj
      have := concatRowsImpl_entry ⟨((m :: rest).map Mat.rows).sum, m.cols, init⟩ 0 (m :: rest) pre x suf hms i j hi hj
      simpa using this

/-- **C52 (columns).** -/
theorem C52_concatenate_cols (init : Nat → Nat → α) (m : Mat α) (rest : List (Mat α)) :
    ((∃ m' ∈ rest, m'.rows ≠ m.rows) → concatenateCols init m rest = .throws .invalidArgument) ∧
    ((∀ m' ∈ rest, m'.rows = m.rows) → ∃ r, concatenateCols init m rest = .ok r ∧
      r.rows = m.rows ∧ r.cols = ((m :: rest).map Mat.cols).sum ∧
      ∀ pre x suf, m :: rest = pre ++ x :: suf → ∀ i j, i < x.rows → j < x.cols →
        r.entry i ((pre.map Mat.cols).sum + j) = x.entry i j) := by
  constructor
  · rintro ⟨m', h1, h2⟩
    have : ¬ ∀ m' ∈ rest, m'.rows = m.rows := fun h => h2 (h m' h1)
    simp [concatenateCols, commonRows_ok, this]
  · intro h
    refine ⟨_, by simp only [concatenateCols, commonRows_ok, if_pos h, Outcome.ok_bind, Outcome.pure_eq]; rfl, ?_, ?_, ?_⟩
    · exact (concatColsImpl_shape _ _ _).1
    · exact (concatColsImpl_shape _ _ _).2
    · intro pre x suf hms i j hi hj
      have := concatColsImpl_entry ⟨m.rows, ((m :: rest).map Mat.cols).sum, init⟩ 0 (m :: rest) pre x suf hms i j hi hj
      simpa using this

/-- Non-vacuity: matrices of different heights and one of zero rows. -/
example : ∀ m' ∈ [(⟨0, 2, fun _ _ => 0⟩ : Mat Nat), ⟨3, 2, fun i j => i + j⟩], m'.cols =
    (⟨1, 2, fun _ _ => 7⟩ : Mat Nat).cols := by simp

end Verif.Common
