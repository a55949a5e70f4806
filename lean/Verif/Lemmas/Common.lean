import Verif.Model.Common
import Mathlib.Data.List.Perm.Subperm
import Mathlib.Data.List.Nodup
import Mathlib.Data.List.Range

namespace Verif.Common

open Verif

theorem zipLoop_ok (xs : List α) (ys : List β) (h : xs.length ≤ ys.length) :
    zipLoop xs ys = .ok (xs.zip ys, ys.drop xs.length) := by
  induction xs generalizing ys with
  | nil => simp [zipLoop]
  | cons x xs ih =>
    cases ys with
    | nil => simp at h
    | cons y ys => simp at h; simp [zipLoop, ih ys h]

theorem zipLoop_ub (xs : List α) (ys : List β) (h : ys.length < xs.length) : zipLoop xs ys = .ub := by
  induction xs generalizing ys with
  | nil => simp at h
  | cons x xs ih =>
    cases ys with
    | nil => simp [zipLoop]
    | cons y ys => simp at h; simp [zipLoop, ih ys h]

theorem unzipLoop_eq (zs : List (α × β)) : unzipLoop zs = (zs.map Prod.fst, zs.map Prod.snd) := by
  induction zs with
  | nil => rfl
  | cons z zs ih => obtain ⟨a, b⟩ := z; simp [unzipLoop, ih]

theorem setDifference_eq (xs ys : List Int) (hx : xs.Pairwise (· < ·)) (hy : ys.Pairwise (· ≤ ·)) :
    setDifference xs ys = xs.filter (fun x => decide (x ∉ ys)) := by
  fun_induction setDifference xs ys with
  | case1 => simp
  | case2 => simp
  | case3 x xs y ys hlt ih =>
    rw [ih hx.of_cons hy]
    have : x ∉ y :: ys := by
      intro hm
      rcases List.mem_cons.1 hm with h | h
      · omega
      · have := (List.pairwise_cons.1 hy).1 x h; omega
    simp only [List.filter_cons, this, not_false_eq_true, decide_true, if_true]
  | case4 x xs y ys h1 h2 ih =>
    rw [ih hx hy.of_cons]
    apply List.filter_congr
    intro z hz
    have : y < z := by
      rcases List.mem_cons.1 hz with h | h
      · omega
      · have := (List.pairwise_cons.1 hx).1 z h; omega
    have hne : z ≠ y := by omega
    simp [hne]
  | case5 x xs y ys h1 h2 ih =>
    have e : x = y := by omega
    subst e
    rw [ih hx.of_cons hy.of_cons]
    simp only [List.filter_cons, List.mem_cons, true_or, not_true_eq_false, decide_false]
    apply List.filter_congr
    intro z hz
    have := (List.pairwise_cons.1 hx).1 z hz
    have hne : z ≠ x := by omega
    simp [hne]

theorem irange_sorted (n : Nat) : (irange n).Pairwise (· < ·) := by
  unfold irange
  rw [List.pairwise_map]
  exact List.pairwise_lt_range.imp (by intro a b h; exact Int.ofNat_lt.2 h)

theorem irange_nodup (n : Nat) : (irange n).Nodup :=
  (irange_sorted n).imp (by intro a b h; omega)

theorem mem_irange {n : Nat} {i : Int} : i ∈ irange n ↔ 0 ≤ i ∧ i < n := by
  unfold irange
  simp only [List.mem_map, List.mem_range]
  constructor
  · rintro ⟨a, h, rfl⟩; exact ⟨Int.natCast_nonneg a, by simpa using h⟩
  · rintro ⟨h1, h2⟩; exact ⟨i.toNat, by omega, by simp; omega⟩

theorem length_irange (n : Nat) : (irange n).length = n := by simp [irange]

theorem filter_split_length (n : Nat) (ys : List Int) :
    ((irange n).filter (fun x => decide (x ∉ ys))).length
      + ((irange n).filter (fun x => decide (x ∈ ys))).length = n := by
  have := List.length_eq_length_filter_add (l := irange n) (fun x => decide (x ∈ ys))
  rw [length_irange] at this
  have e : ((irange n).filter (fun x => decide (x ∉ ys)))
      = ((irange n).filter (fun x => !decide (x ∈ ys))) := by
    apply List.filter_congr; intro z _; simp
  rw [e]; omega

theorem filter_mem_subperm (n : Nat) (ys : List Int) :
    List.Subperm ((irange n).filter (fun x => decide (x ∈ ys))) ys := by
  apply List.Nodup.subperm ((irange_nodup n).filter _)
  intro x hx
  simpa using (List.mem_filter.1 hx).2

/-- The number of in-range distinct indices equals the number of indices iff they are distinct and in range. -/
theorem filter_mem_length_iff (n : Nat) (ys : List Int) :
    ((irange n).filter (fun x => decide (x ∈ ys))).length = ys.length ↔
      ys.Nodup ∧ ∀ y ∈ ys, 0 ≤ y ∧ y < n := by
  constructor
  · intro h
    have hp := (filter_mem_subperm n ys).perm_of_length_le (by omega)
    refine ⟨hp.nodup_iff.1 ((irange_nodup n).filter _), fun y hy => ?_⟩
    exact mem_irange.1 (List.mem_filter.1 (hp.mem_iff.2 hy)).1
  · rintro ⟨h1, h2⟩
    apply Nat.le_antisymm (filter_mem_subperm n ys).length_le
    apply List.Subperm.length_le
    apply List.Nodup.subperm h1
    intro y hy
    exact List.mem_filter.2 ⟨mem_irange.2 (h2 y hy), by simpa using hy⟩

/-! concatenate -/

theorem commonCols_ok (m : Mat α) (rest : List (Mat α)) :
    commonCols m rest = if ∀ m' ∈ rest, m'.cols = m.cols then .ok m.cols else .throws .invalidArgument := by
  induction rest generalizing m with
  | nil => simp [commonCols]
  | cons a rest ih =>
    simp only [commonCols, ih a, List.mem_cons, forall_eq_or_imp]
    by_cases h1 : ∀ m' ∈ rest, m'.cols = a.cols
    · rw [if_pos h1]
      by_cases h2 : a.cols = m.cols
      · simp only [Outcome.ok_bind, h2, ne_eq, not_true_eq_false, if_false, Outcome.pure_eq, true_and]
        rw [if_pos]; intro m' hm'; rw [h1 m' hm', h2]
      · rw [if_neg (fun h => h2 h.1)]
        simp [Ne.symm h2]
    · rw [if_neg h1, if_neg]; · simp
      rintro ⟨h2, h3⟩; apply h1; intro m' hm'; rw [h3 m' hm', h2]

theorem commonRows_ok (m : Mat α) (rest : List (Mat α)) :
    commonRows m rest = if ∀ m' ∈ rest, m'.rows = m.rows then .ok m.rows else .throws .invalidArgument := by
  induction rest generalizing m with
  | nil => simp [commonRows]
  | cons a rest ih =>
    simp only [commonRows, ih a, List.mem_cons, forall_eq_or_imp]
    by_cases h1 : ∀ m' ∈ rest, m'.rows = a.rows
    · rw [if_pos h1]
      by_cases h2 : a.rows = m.rows
      · simp only [Outcome.ok_bind, h2, ne_eq, not_true_eq_false, if_false, Outcome.pure_eq, true_and]
        rw [if_pos]; intro m' hm'; rw [h1 m' hm', h2]
      · rw [if_neg (fun h => h2 h.1)]
        simp [Ne.symm h2]
    · rw [if_neg h1, if_neg]; · simp
      rintro ⟨h2, h3⟩; apply h1; intro m' hm'; rw [h3 m' hm', h2]

theorem concatRowsImpl_shape (dst : Mat α) (r0 : Nat) (ms : List (Mat α)) :
    (concatRowsImpl dst r0 ms).rows = dst.rows ∧ (concatRowsImpl dst r0 ms).cols = dst.cols := by
  induction ms generalizing dst r0 with
  | nil => simp [concatRowsImpl]
  | cons m ms ih => simpa [concatRowsImpl, Mat.setBlock] using ih _ _

theorem concatRowsImpl_above (dst : Mat α) (r0 : Nat) (ms : List (Mat α)) (i j : Nat) (h : i < r0) :
    (concatRowsImpl dst r0 ms).entry i j = dst.entry i j := by
  induction ms generalizing dst r0 with
  | nil => rfl
  | cons m ms ih =>
    rw [concatRowsImpl, ih _ _ (by omega)]
    simp only [Mat.setBlock]
    rw [if_neg (by omega)]

theorem concatRowsImpl_entry (dst : Mat α) (r0 : Nat) (ms : List (Mat α)) (pre : List (Mat α)) (m : Mat α)
    (suf : List (Mat α)) (hms : ms = pre ++ m :: suf) (i j : Nat) (hi : i < m.rows) (hj : j < m.cols) :
    (concatRowsImpl dst r0 ms).entry (r0 + (pre.map Mat.rows).sum + i) j = m.entry i j := by
  induction pre generalizing dst r0 ms with
  | nil =>
    subst hms
    simp only [List.nil_append, List.map_nil, List.sum_nil, concatRowsImpl]
    rw [concatRowsImpl_above _ _ _ _ _ (by omega)]
    simp only [Mat.setBlock]
    rw [if_pos (by omega)]
    congr 1; omega
  | cons p pre ih =>
    subst hms
    simp only [List.cons_append, concatRowsImpl, List.map_cons, List.sum_cons]
    rw [← ih (dst.setBlock r0 0 p) (r0 + p.rows) _ rfl]
    congr 1; omega

theorem concatColsImpl_shape (dst : Mat α) (r0 : Nat) (ms : List (Mat α)) :
    (concatColsImpl dst r0 ms).rows = dst.rows ∧ (concatColsImpl dst r0 ms).cols = dst.cols := by
  induction ms generalizing dst r0 with
  | nil => simp [concatColsImpl]
  | cons m ms ih => simpa [concatColsImpl, Mat.setBlock] using ih _ _

theorem concatColsImpl_left (dst : Mat α) (c0 : Nat) (ms : List (Mat α)) (i j : Nat) (h : j < c0) :
    (concatColsImpl dst c0 ms).entry i j = dst.entry i j := by
  induction ms generalizing dst c0 with
  | nil => rfl
  | cons m ms ih =>
    rw [concatColsImpl, ih _ _ (by omega)]
    simp only [Mat.setBlock]
    rw [if_neg (by omega)]

theorem concatColsImpl_entry (dst : Mat α) (c0 : Nat) (ms : List (Mat α)) (pre : List (Mat α)) (m : Mat α)
    (suf : List (Mat α)) (hms : ms = pre ++ m :: suf) (i j : Nat) (hi : i < m.rows) (hj : j < m.cols) :
    (concatColsImpl dst c0 ms).entry i (c0 + (pre.map Mat.cols).sum + j) = m.entry i j := by
  induction pre generalizing dst c0 ms with
  | nil =>
    subst hms
    simp only [List.nil_append, List.map_nil, List.sum_nil, concatColsImpl]
    rw [concatColsImpl_left _ _ _ _ _ (by omega)]
    simp only [Mat.setBlock]
    rw [if_pos (by omega)]
    congr 1; omega
  | cons p pre ih =>
    subst hms
    simp only [List.cons_append, concatColsImpl, List.map_cons, List.sum_cons]
    rw [← ih (dst.setBlock 0 c0 p) (c0 + p.cols) _ rfl]
    congr 1; omega

end Verif.Common
