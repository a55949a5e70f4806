import Verif.Spec.Cli
import Mathlib.Tactic.NormNum
import Mathlib.Tactic.Linarith
import Mathlib.Data.List.Sublists
import Mathlib.Data.List.Dedup

/-!
# C79, C80: the commands that turn one table into another
-/

namespace Verif.Cli

open Verif Verif.Table

variable {N : Num}

/-! ## Tables -/

theorem entries {α : Type} (r : List α) : (List.range r.length).filterMap (fun j => r[j]?) = r := by
  induction r with
  | nil => rfl
  | cons x r ih =>
    rw [List.length_cons, List.range_succ_eq_map, List.filterMap_cons_some (b := x) (by rfl), List.filterMap_map]
    exact congrArg (x :: ·) ih

theorem rowsOf_is {m : Mat N} {rows : List (List N.D)} {n : Nat} (hw : ∀ r ∈ rows, r.length = n) (h : m.Is rows n) : rowsOf N m = rows := by
  obtain ⟨h1, h2, h3⟩ := h
  unfold rowsOf
  rw [h1, h2]
  apply List.ext_getElem?
  intro i
  by_cases hi : i < rows.length
  · rw [List.getElem?_map, List.getElem?_range hi, List.getElem?_eq_getElem hi, Option.map_some]
    congr 1
    have hl := hw _ (List.getElem_mem hi)
    have e : (List.range n).filterMap (m.entry i) = (List.range n).filterMap fun j => rows[i][j]? := by
      apply List.filterMap_congr
      intro j hj
      rw [h3, if_pos (List.mem_range.1 hj), List.getElem?_eq_getElem hi]
      rfl
    rw [e]
    generalize rows[i] = r at hl
    subst hl
    clear e
    exact entries r
  · rw [List.getElem?_eq_none (by simp; omega), List.getElem?_eq_none (by omega)]

theorem holds_read {file : List Char} {rows : List (List N.D)} {n : Nat} (h : Holds N file rows n) :
    ∃ m, readTable N delims file = .ok m ∧ rowsOf N m = rows ∧ m.cols = n := by
  obtain ⟨hw, m, h1, h2⟩ := h
  exact ⟨m, h1, rowsOf_is hw h2, h2.2.1⟩

theorem holds_write (h : N.Ok delims) (rows : List (List N.D)) (n : Nat) (hr : rows ≠ []) (hn : 0 < n) (hw : ∀ r ∈ rows, r.length = n) :
    Holds N (writeTable N delim rows) rows n :=
  ⟨hw, C40_round_trip h (by decide) (by decide) rows n hr hn hw⟩

/-- Every file either cannot be read or holds a table with at least one row and one column. -/
theorem holds_all (file : List Char) : readTable N delims file = .throws .runtimeError ∨ ∃ rows n, Holds N file rows n ∧ rows ≠ [] ∧ 0 < n := by
  obtain ⟨h1, h2⟩ := C40_read (N := N) delims file
  by_cases hd : dataLines file = []
  · exact .inl (h1 hd)
  right
  obtain ⟨m, e1, e2, e3, e4, e5⟩ := h2 hd
  refine ⟨(accepted delims file).map fun l => (split delims l).map fun c => N.toD (trim c), m.cols, ⟨?_, m, e1, ?_, rfl, ?_⟩, ?_, e3⟩
  · intro r hr
    obtain ⟨l, hl, rfl⟩ := List.mem_map.1 hr
    rw [List.length_map, e4 l hl]
  · rw [e2, List.length_map]
  · intro i j
    by_cases hi : i < (accepted delims file).length
    · by_cases hj : j < m.cols
      · rw [e5 i hi j hj, if_pos hj, List.getElem?_map (l := accepted delims file), List.getElem?_eq_getElem hi]
        rfl
      · rw [if_neg hj, readTable_entry_none _ _ e1 i j (fun h => hj h.2)]
    · rw [readTable_entry_none _ _ e1 i j (fun h => hi (e2 ▸ h.1)), List.getElem?_eq_none (by rw [List.length_map]; omega)]
      simp
  · intro h0
    have h3 : (accepted delims file) = [] := List.map_eq_nil_iff.1 h0
    unfold accepted at h3
    split at h3
    · exact hd (by assumption)
    · cases h3

theorem columns_ok {m : Mat N} {rows : List (List N.D)} (hm : rowsOf N m = rows) (c k : Nat) (h : c + k ≤ m.cols) :
    columns N m c k = .ok (rows.map fun r => (r.drop c).take k) := by
  unfold columns
  rw [if_pos h, hm]

/-! ## unique -/

section Unique

variable {dist : List N.D → List N.D → ℝ} {search : List (List N.D) → ℝ → Nat → List Nat}

theorem onDim_ok {α : Type} {dim : Nat} (hd : dim = 1 ∨ dim = 2 ∨ dim = 3) (run : Nat → Outcome α) : onDim (dim : Int) run = run dim := by
  unfold onDim
  rcases hd with rfl | rfl | rfl <;> rfl

theorem unique_run (hs : SearchOk dist search) {file : List Char} {rows : List (List N.D)} {n : Nat} (hf : Holds N file rows n) {dim : Nat}
    (hd : dim = 1 ∨ dim = 2 ∨ dim = 3) (hn : dim ≤ n) (d : ℝ) (hm : DistanceFilter.kMinDistance ≤ d) :
    ∃ kept : List Nat, unique N search dim (some d) file = .ok (writeTable N delim (kept.map fun i => rows.getD i [])) ∧ kept.Sublist (List.range rows.length) ∧
      (∀ i ∈ kept, ∀ j ∈ kept, i ≠ j → d < dist (pointOf dim (rows.getD i [])) (pointOf dim (rows.getD j []))) ∧
      ∀ x < rows.length, x ∉ kept → ∃ j ∈ kept, j < x ∧ dist (pointOf dim (rows.getD j [])) (pointOf dim (rows.getD x [])) ≤ d := by
  obtain ⟨m, h1, h2, h3⟩ := holds_read hf
  have hc : columns N m 0 dim = .ok (rows.map (pointOf dim)) := by
    rw [columns_ok h2 0 dim (by omega)]
    rfl
  have hget : ∀ i, (rows.map (pointOf dim)).getD i [] = pointOf dim (rows.getD i []) := by
    intro i
    rw [List.getD_eq_getElem?_getD, List.getD_eq_getElem?_getD, List.getElem?_map]
    cases rows[i]? with
    | some r => rfl
    | none => simp [pointOf]
  obtain ⟨kept, k1, k2, k3, k4⟩ := DistanceFilter.filter_spec (hs.2 (rows.map (pointOf dim))) (fun i j => hs.1 _ _)
    (DistanceFilter.DF.new (rows.map (pointOf dim)).length) rfl d hm (List.range (rows.map (pointOf dim)).length) (fun i hi => List.mem_range.1 hi)
  have hl : (rows.map (pointOf dim)).length = rows.length := List.length_map _
  simp only [hget] at k3 k4
  rw [hl] at k2
  refine ⟨kept, ?_, k2, k3, ?_⟩
  · unfold unique
    rw [onDim_ok hd]
    unfold uniqueImpl
    rw [h1, Outcome.ok_bind, hc, Outcome.ok_bind]
    unfold DistanceFilter.DF.filterAll
    have e : (DistanceFilter.DF.new (rows.map (pointOf dim)).length).n = (rows.map (pointOf dim)).length := rfl
    rw [e, k1, Outcome.ok_bind]
    unfold DistanceFilter.DF.apply
    rw [h2]
    simp only [Bool.not_true, Bool.false_eq_true, if_false, ne_eq, hl, not_true_eq_false]
    rw [Kriging.gather_eq (d := []) kept (fun i hi => List.mem_range.1 (k2.subset hi)), Outcome.ok_bind]
  · intro x hx hk
    obtain ⟨j, j1, j2, -, j4⟩ := k4 (List.range x) x ((List.range (rows.length - x - 1)).map (x + 1 + ·)) (by
      rw [hl]
      have e : rows.length = (x + 1) + (rows.length - x - 1) := by omega
      conv_lhs => rw [e, List.range_add, List.range_succ]
      simp) hk
    exact ⟨j, j2, List.mem_range.1 j1, j4⟩

/-- **C79**: `unique` writes a table of rows of its input, whole and in order; their points are farther apart than `--dist`, and every other row has its point within
that distance of an earlier row that is kept.  (So the first row is always kept.) -/
theorem C79_unique (hN : N.Ok delims) (hs : SearchOk dist search) {file : List Char} {rows : List (List N.D)} {n : Nat} (hf : Holds N file rows n) (hr : rows ≠ []) {dim : Nat}
    (hd : dim = 1 ∨ dim = 2 ∨ dim = 3) (hn : dim ≤ n) (d : ℝ) (hm : DistanceFilter.kMinDistance ≤ d) :
    ∃ (out : List Char) (kept : List Nat), unique N search dim (some d) file = .ok out ∧ Holds N out (kept.map fun i => rows.getD i []) n ∧ kept.Sublist (List.range rows.length) ∧ 0 ∈ kept ∧
      (∀ i ∈ kept, ∀ j ∈ kept, i ≠ j → d < dist (pointOf dim (rows.getD i [])) (pointOf dim (rows.getD j []))) ∧
      ∀ x < rows.length, x ∉ kept → ∃ j ∈ kept, j < x ∧ dist (pointOf dim (rows.getD j [])) (pointOf dim (rows.getD x [])) ≤ d := by
  obtain ⟨kept, k1, k2, k3, k4⟩ := unique_run hs hf hd hn d hm
  have h0 : 0 ∈ kept := by
    by_contra h0
    obtain ⟨j, -, hj, -⟩ := k4 0 (List.length_pos_of_ne_nil hr) h0
    omega
  refine ⟨_, kept, k1, ?_, k2, h0, k3, k4⟩
  apply holds_write hN
  · intro h; rw [List.map_eq_nil_iff] at h; rw [h] at h0; cases h0
  · omega
  · intro r hr
    obtain ⟨i, hi, rfl⟩ := List.mem_map.1 hr
    have hi' := List.mem_range.1 (k2.subset hi)
    rw [List.getD_eq_getElem?_getD, List.getElem?_eq_getElem hi']
    exact hf.1 _ (List.getElem_mem hi')

theorem sublist_full : ∀ {n : Nat} {k : List Nat}, k.Sublist (List.range n) → (∀ x < n, x ∈ k) → k = List.range n := by
  intro n k h1 h2
  apply h1.eq_of_length_le
  have := (List.nodup_range (n := n)).subperm (l₂ := k) (fun x hx => h2 x (List.mem_range.1 hx))
  exact this.length_le

/-- **C79**: if no two points are within the distance, the table is kept as it is. -/
theorem C79_nothing_to_do (hN : N.Ok delims) (hs : SearchOk dist search) {file : List Char} {rows : List (List N.D)} {n : Nat} (hf : Holds N file rows n) (hr : rows ≠ [])
    {dim : Nat} (hd : dim = 1 ∨ dim = 2 ∨ dim = 3) (hn : dim ≤ n) (d : ℝ) (hm : DistanceFilter.kMinDistance ≤ d)
    (hsep : ∀ i < rows.length, ∀ j < rows.length, i ≠ j → d < dist (pointOf dim (rows.getD i [])) (pointOf dim (rows.getD j []))) :
    unique N search dim (some d) file = .ok (writeTable N delim rows) ∧ Holds N (writeTable N delim rows) rows n := by
  obtain ⟨kept, k1, k2, -, k4⟩ := unique_run hs hf hd hn d hm
  have hk : kept = List.range rows.length := by
    apply sublist_full k2
    intro x hx
    by_contra h
    obtain ⟨j, hj, hjx, hle⟩ := k4 x hx h
    exact absurd (hsep j (List.mem_range.1 (k2.subset hj)) x hx (by omega)) (by linarith)
  have e : (List.range rows.length).map (fun i => rows.getD i []) = rows := by
    apply List.ext_getElem
    · simp
    · intro i h1 h2; simp [h2]
  rw [k1, hk, e]
  exact ⟨rfl, holds_write hN _ _ hr (by omega) hf.1⟩

/-- **C79**: running `unique` on its own output, with the same or a smaller distance, gives the same file, byte for byte. -/
theorem C79_idempotent (hN : N.Ok delims) (hs : SearchOk dist search) {file : List Char} {rows : List (List N.D)} {n : Nat} (hf : Holds N file rows n) (hr : rows ≠ [])
    {dim : Nat} (hd : dim = 1 ∨ dim = 2 ∨ dim = 3) (hn : dim ≤ n) (d d' : ℝ) (hm : DistanceFilter.kMinDistance ≤ d') (hle : d' ≤ d) (out : List Char)
    (ho : unique N search dim (some d) file = .ok out) : unique N search dim (some d') out = .ok out := by
  obtain ⟨out', kept, k1, k2, k3, k4, k5, -⟩ := C79_unique hN hs hf hr hd hn d (hm.trans hle)
  obtain ⟨kept', e1, e2, -, -⟩ := unique_run hs hf hd hn d (hm.trans hle)
  obtain rfl : out' = out := Outcome.ok.inj (k1.symm.trans ho)
  have hne : (kept.map fun i => rows.getD i []) ≠ [] := by
    intro h; rw [List.map_eq_nil_iff] at h; rw [h] at k4; cases k4
  obtain ⟨q1, -⟩ := C79_nothing_to_do hN hs k2 hne hd hn d' hm (by
    intro i hi j hj hij
    rw [List.length_map] at hi hj
    have g : ∀ (a : Nat) (ha : a < kept.length), (kept.map fun i => rows.getD i []).getD a [] = rows.getD kept[a] [] := by
      intro a ha
      rw [List.getD_eq_getElem?_getD, List.getElem?_map, List.getElem?_eq_getElem ha]
      rfl
    rw [g i hi, g j hj]
    refine hle.trans_lt (k5 _ (List.getElem_mem hi) _ (List.getElem_mem hj) ?_)
    intro h
    exact hij ((k3.nodup List.nodup_range).getElem_inj_iff.1 h))
  rw [q1]
  congr 1
  -- both are the output of the same writer on the same rows
  have hh : out' = writeTable N delim (kept'.map fun i => rows.getD i []) := Outcome.ok.inj (k1.symm.trans e1)
  have hk : (kept.map fun i => rows.getD i []) = kept'.map fun i => rows.getD i [] := by
    have w1 : Holds N out' (kept'.map fun i => rows.getD i []) n := by
      rw [hh]
      apply holds_write hN
      · intro h
        rw [List.map_eq_nil_iff] at h
        rw [h] at hh
        obtain ⟨-, m, r1, r2⟩ := k2
        rw [hh] at r1
        cases r1
      · omega
      · intro r hr
        obtain ⟨i, hi, rfl⟩ := List.mem_map.1 hr
        have hi' := List.mem_range.1 (e2.subset hi)
        rw [List.getD_eq_getElem?_getD, List.getElem?_eq_getElem hi']
        exact hf.1 _ (List.getElem_mem hi')
    obtain ⟨m1, a1, a2, -⟩ := holds_read k2
    obtain ⟨m2, b1, b2, -⟩ := holds_read w1
    rw [a1] at b1
    cases b1
    rw [← a2, ← b2]
  rw [hk, ← hh]

/-- **C79**: what is refused, whatever the rest: another dimension than one, two or three, and an empty file, with a runtime error; a distance below the smallest
allowed one or NaN, with an invalid argument.  No file is written then. -/
theorem C79_refused (file : List Char) (dist : Option ℝ) :
    (∀ dim : Int, ¬ (1 ≤ dim ∧ dim ≤ 3) → unique N search dim dist file = .throws .runtimeError) ∧
    (∀ dim : Int, readTable N delims file = .throws .runtimeError → unique N search dim dist file = .throws .runtimeError) ∧
    ∀ (rows : List (List N.D)) (n dim : Nat), Holds N file rows n → dim = 1 ∨ dim = 2 ∨ dim = 3 → dim ≤ n → (∀ d, dist = some d → d < DistanceFilter.kMinDistance) →
      unique N search dim dist file = .throws .invalidArgument := by
  refine ⟨fun dim h => ?_, fun dim h => ?_, fun rows n dim hf hd hn hb => ?_⟩
  · unfold unique onDim
    rw [if_neg (by omega), if_neg (by omega), if_neg (by omega)]
  · have e : ∀ k, uniqueImpl N search dist file k = .throws .runtimeError := fun k => by
      unfold uniqueImpl
      rw [h]
      rfl
    unfold unique onDim
    rw [e, e, e]
    simp
  · obtain ⟨m, h1, h2, h3⟩ := holds_read hf
    unfold unique
    rw [onDim_ok hd]
    unfold uniqueImpl
    rw [h1, Outcome.ok_bind, columns_ok h2 0 dim (by omega), Outcome.ok_bind]
    unfold DistanceFilter.DF.filterAll
    have : ∀ k (s : ℝ → Nat → List Nat) is, ((DistanceFilter.DF.new k).filter s dist is) = (DistanceFilter.DF.new k, .throws .invalidArgument) := by
      intro k s is
      obtain ⟨r1, r2⟩ := DistanceFilter.C17_rejects_small s (DistanceFilter.DF.new k) is
      cases dist with
      | none => exact r1
      | some d => exact r2 d (hb d rfl)
    rw [this]
    rfl

/-- A table with fewer columns than the dimension is not refused: the matrix is read past its end. -/
theorem C79_narrow_table (dist : Option ℝ) {file : List Char} {rows : List (List N.D)} {n : Nat} (hf : Holds N file rows n) {dim : Nat} (hd : dim = 1 ∨ dim = 2 ∨ dim = 3)
    (hn : n < dim) : unique N search dim dist file = .ub := by
  obtain ⟨m, h1, h2, h3⟩ := holds_read hf
  unfold unique
  rw [onDim_ok hd]
  unfold uniqueImpl
  rw [h1, Outcome.ok_bind]
  unfold columns
  rw [if_neg (by omega)]
  rfl

end Unique

/-! ## evaluate -/

theorem beside_map {α β : Type} (rows : List β) (f g : β → List α) : beside (rows.map f) (rows.map g) = .ok (rows.map fun r => f r ++ g r) := by
  unfold beside
  rw [if_neg (by simp), List.zipWith_map, List.zipWith_self]

theorem column_map {α β : Type} (rows : List β) (f : β → α) : column (rows.map f) = rows.map fun r => [f r] := by
  unfold column
  rw [List.map_map]
  rfl

theorem reshaped_flatMap {α β : Type} (k : Nat) (g : β → List α) : ∀ rows : List β, (∀ r ∈ rows, (g r).length = k) → reshaped k rows.length (rows.flatMap g) = rows.map g
  | [], _ => rfl
  | r :: rows, h => by
      have hr := h r List.mem_cons_self
      rw [List.length_cons, List.flatMap_cons, reshaped, List.take_append_of_le_length (by omega), List.take_of_length_le (by omega), List.drop_append_of_le_length (by omega),
        List.drop_of_length_le (by omega), List.nil_append, reshaped_flatMap k g rows fun x hx => h x (List.mem_cons_of_mem _ hx), List.map_cons]

theorem flatMap_length {α β : Type} (k : Nat) (g : β → List α) : ∀ rows : List β, (∀ r ∈ rows, (g r).length = k) → (rows.flatMap g).length = k * rows.length
  | [], _ => rfl
  | r :: rows, h => by
      rw [List.flatMap_cons, List.length_append, h r List.mem_cons_self, flatMap_length k g rows fun x hx => h x (List.mem_cons_of_mem _ hx), List.length_cons]
      ring

/-- **C80**: if the interpolant is the function `val` with gradient `grad` - a list of values, followed by the gradients point after point -, the line `i` of the
output of `evaluate` holds the point of line `i` of the input, the value there and, if wanted, the gradient there. -/
theorem C80_evaluate (hN : N.Ok delims) {dim : Nat} (hd : dim = 1 ∨ dim = 2 ∨ dim = 3) (val : List N.D → N.D) (grad : List N.D → List N.D)
    (hg : ∀ p : List N.D, p.length = dim → (grad p).length = dim) (evalValues evalBoth : Nat → List (List N.D) → Outcome (List N.D))
    (hv : ∀ pts, evalValues dim pts = .ok (pts.map val)) (hb : ∀ pts, evalBoth dim pts = .ok (pts.map val ++ pts.flatMap grad)) {file : List Char}
    {rows : List (List N.D)} {n : Nat} (hf : Holds N file rows n) (hr : rows ≠ []) (hn : dim ≤ n) :
    (∃ out, evaluate N evalValues evalBoth false dim file = .ok out ∧
      Holds N out (rows.map fun r => pointOf dim r ++ [val (pointOf dim r)]) (dim + 1)) ∧
    ∃ out, evaluate N evalValues evalBoth true dim file = .ok out ∧
      Holds N out (rows.map fun r => pointOf dim r ++ [val (pointOf dim r)] ++ grad (pointOf dim r)) (dim + 1 + dim) := by
  obtain ⟨m, h1, h2, h3⟩ := holds_read hf
  have hc : columns N m 0 dim = .ok (rows.map (pointOf dim)) := by
    rw [columns_ok h2 0 dim (by omega)]
    rfl
  have hp : ∀ r ∈ rows, (pointOf dim r).length = dim := by
    intro r hr
    rw [pointOf, List.length_take, hf.1 r hr]
    omega
  constructor
  · refine ⟨writeTable N delim (rows.map fun r => pointOf dim r ++ [val (pointOf dim r)]), ?_, ?_⟩
    · unfold evaluate
      rw [onDim_ok hd]
      unfold evaluateImpl
      rw [h1, Outcome.ok_bind, hc, Outcome.ok_bind]
      simp only [Bool.false_eq_true, if_false]
      rw [hv, Outcome.ok_bind, List.map_map, column_map, beside_map, Outcome.ok_bind]
      rfl
    · apply holds_write hN
      · simpa using hr
      · omega
      · intro r hr
        obtain ⟨x, hx, rfl⟩ := List.mem_map.1 hr
        rw [List.length_append, hp x hx]
        rfl
  · refine ⟨writeTable N delim (rows.map fun r => pointOf dim r ++ [val (pointOf dim r)] ++ grad (pointOf dim r)), ?_, ?_⟩
    · unfold evaluate
      rw [onDim_ok hd]
      unfold evaluateImpl
      rw [h1, Outcome.ok_bind, hc, Outcome.ok_bind]
      simp only [if_true]
      have hfl : ∀ r ∈ rows.map (pointOf dim), (grad r).length = dim := by
        intro r hr
        obtain ⟨x, hx, rfl⟩ := List.mem_map.1 hr
        exact hg _ (hp x hx)
      have t1 : ((rows.map (pointOf dim)).map val ++ (rows.map (pointOf dim)).flatMap grad).take (rows.map (pointOf dim)).length = (rows.map (pointOf dim)).map val := by
        rw [List.take_append_of_le_length (by simp), List.take_of_length_le (by simp)]
      have t2 : ((rows.map (pointOf dim)).map val ++ (rows.map (pointOf dim)).flatMap grad).drop
          (((rows.map (pointOf dim)).map val ++ (rows.map (pointOf dim)).flatMap grad).length - dim * (rows.map (pointOf dim)).length) = (rows.map (pointOf dim)).flatMap grad := by
        rw [List.length_append, flatMap_length dim grad _ hfl, Nat.add_sub_cancel, List.drop_append_of_le_length (Nat.le_refl _), List.drop_length, List.nil_append]
      rw [hb, Outcome.ok_bind, t1, t2, List.map_map, column_map, beside_map, Outcome.ok_bind, reshaped_flatMap dim grad _ hfl, List.map_map, beside_map, Outcome.ok_bind]
      rfl
    · apply holds_write hN
      · simpa using hr
      · omega
      · intro r hr
        obtain ⟨x, hx, rfl⟩ := List.mem_map.1 hr
        rw [List.length_append, List.length_append, hp x hx, hg _ (hp x hx)]
        rfl

/-! ## cross-validate -/

theorem others_map {α β : Type} (rows : List β) (f : β → α) (idOf : β → Int) (id : Int) :
    Kriging.others (rows.map f) (rows.map idOf) id = (rows.filter fun r => idOf r != id).map f := by
  unfold Kriging.others
  induction rows with
  | nil => rfl
  | cons r rows ih =>
    rw [List.map_cons, List.map_cons, List.zip_cons_cons, List.filter_cons, List.filter_cons]
    by_cases h : (idOf r != id) = true
    · rw [if_pos h, if_pos h, List.map_cons, List.map_cons, ih]
    · rw [if_neg h, if_neg h, ih]

/-- the value in a row -/
def valueOf (N : Num) (dim : Nat) (row : List N.D) : N.D := row.getD dim (N.toD [])

/-- the number of the set in a row -/
def setOf (N : Num) (dim : Nat) (row : List N.D) : N.D := row.getD (dim + 1) (N.toD [])

theorem column_single {c : Nat} {rows : List (List N.D)} {n : Nat} (hw : ∀ r ∈ rows, r.length = n) (hc : c < n) :
    (rows.map fun r => (r.drop c).take 1).flatten = rows.map fun r => r.getD c (N.toD []) := by
  induction rows with
  | nil => rfl
  | cons r rows ih =>
    rw [List.map_cons, List.flatten_cons, List.map_cons, ih fun x hx => hw x (List.mem_cons_of_mem _ hx)]
    have hl : c < r.length := by rw [hw r List.mem_cons_self]; exact hc
    have e : (r.drop c).take 1 = [r.getD c (N.toD [])] := by
      rw [List.getD_eq_getElem?_getD, List.getElem?_eq_getElem hl, List.drop_eq_getElem_cons hl]
      rfl
    rw [e]
    rfl

/-- **C80**: every line of the output of `cross-validate` is the line of the input followed by the value, at its point, of the interpolant fitted to exactly the points
and values of the lines of other sets - whatever the order in which the sets are processed. -/
theorem C80_cross_validate (hN : N.Ok delims) {dim : Nat} (hd : dim = 1 ∨ dim = 2 ∨ dim = 3) {F : Type} (E : Nat → CvEnv N F) {file : List Char}
    {rows : List (List N.D)} {n : Nat} (hf : Holds N file rows n) (hr : rows ≠ []) (hn : dim + 2 ≤ n) (idOf : List N.D → Int)
    (hid : ∀ r ∈ rows, (E dim).toInt (setOf N dim r) = some (idOf r))
    (ho : ∀ ids, ((E dim).order ids).Nodup ∧ ∀ x, x ∈ (E dim).order ids ↔ x ∈ ids) (g : F → List N.D → N.D)
    (he : ∀ f pts, (E dim).eval f pts = .ok (pts.map (g f))) (model : Int → F)
    (hfit : ∀ r ∈ rows, (E dim).fit ((rows.filter fun r' => idOf r' != idOf r).map (pointOf dim)) ((rows.filter fun r' => idOf r' != idOf r).map (valueOf N dim)) =
      .ok (model (idOf r))) :
    ∃ out, crossValidate N E dim file = .ok out ∧ Holds N out (rows.map fun r => r ++ [g (model (idOf r)) (pointOf dim r)]) (n + 1) := by
  obtain ⟨m, h1, h2, h3⟩ := holds_read hf
  have hc : columns N m 0 dim = .ok (rows.map (pointOf dim)) := by
    rw [columns_ok h2 0 dim (by omega)]
    rfl
  have hv := column_single (N := N) hf.1 (show dim < n by omega)
  have hi := column_single (N := N) hf.1 (show dim + 1 < n by omega)
  have hids : Outcome.traverse (castInt N (E dim)) (rows.map fun r => r.getD (dim + 1) (N.toD [])) = .ok (rows.map idOf) := by
    have : ∀ rs : List (List N.D), (∀ r ∈ rs, r ∈ rows) → Outcome.traverse (castInt N (E dim)) (rs.map fun r => r.getD (dim + 1) (N.toD [])) = .ok (rs.map idOf) := by
      intro rs
      induction rs with
      | nil => intro _; rfl
      | cons r rs ih =>
        intro h
        have e : castInt N (E dim) (r.getD (dim + 1) (N.toD [])) = .ok (idOf r) := by
          unfold castInt
          have := hid r (h r List.mem_cons_self)
          unfold setOf at this
          rw [this]
        rw [List.map_cons, Outcome.traverse, e, Outcome.ok_bind, ih fun x hx => h x (List.mem_cons_of_mem _ hx)]
        rfl
    exact this rows fun r hr => hr
  let _ : Inhabited N.D := ⟨N.toD []⟩
  obtain ⟨pred, p1, p2, p3⟩ := Kriging.C31_predictions (fit := (E dim).fit) (eval := (E dim).eval) (zero := (E dim).zero) (points := rows.map (pointOf dim))
    (values := rows.map (valueOf N dim)) (ids := rows.map idOf) (order := (E dim).order (rows.map idOf)) (by simp) (by simp) (ho _).1 (ho _).2 g he model (by
      intro id h
      obtain ⟨r, hr, rfl⟩ := List.mem_map.1 h
      rw [others_map, others_map]
      exact hfit r hr)
  have hpred : pred = rows.map fun r => g (model (idOf r)) (pointOf dim r) := by
    rw [List.length_map] at p2
    apply List.ext_getElem?
    intro i
    by_cases hi : i < rows.length
    · rw [p3 i (by simpa using hi), List.getElem?_map, List.getElem?_eq_getElem hi]
      simp
    · rw [List.getElem?_eq_none (by omega), List.getElem?_eq_none (by simp; omega)]
  refine ⟨writeTable N delim (rows.map fun r => r ++ [g (model (idOf r)) (pointOf dim r)]), ?_, ?_⟩
  · unfold crossValidate
    rw [onDim_ok hd]
    unfold crossValidateImpl
    have hb := beside_map rows (fun r => r) (fun r => [g (model (idOf r)) (pointOf dim r)])
    rw [List.map_id'] at hb
    rw [h1, Outcome.ok_bind, hc, Outcome.ok_bind, columns_ok h2 dim 1 (by omega), Outcome.ok_bind, columns_ok h2 (dim + 1) 1 (by omega), Outcome.ok_bind, hv, hi, hids,
      Outcome.ok_bind]
    have hp1 : Kriging.crossValidate (E dim).fit (E dim).eval (E dim).zero (rows.map (pointOf dim)) (rows.map fun r => r.getD dim (N.toD [])) (rows.map idOf)
      ((E dim).order (rows.map idOf)) = .ok pred := p1
    rw [hp1, Outcome.ok_bind, h2, hpred, column_map, hb, Outcome.ok_bind]
  · apply holds_write hN
    · simpa using hr
    · omega
    · intro r hr
      obtain ⟨x, hx, rfl⟩ := List.mem_map.1 hr
      rw [List.length_append, hf.1 x hx]
      rfl

/-- **C80**: what these commands refuse with a runtime error, and (not checked) the tables they read past the end of. -/
theorem C80_refused {F : Type} (E : Nat → CvEnv N F) (evalValues evalBoth : Nat → List (List N.D) → Outcome (List N.D)) (grads : Bool) (file : List Char) :
    (∀ dim : Int, ¬ (1 ≤ dim ∧ dim ≤ 3) ∨ readTable N delims file = .throws .runtimeError →
      evaluate N evalValues evalBoth grads dim file = .throws .runtimeError ∧ crossValidate N E dim file = .throws .runtimeError) ∧
    ∀ (rows : List (List N.D)) (n dim : Nat), Holds N file rows n → dim = 1 ∨ dim = 2 ∨ dim = 3 →
      (n < dim → evaluate N evalValues evalBoth grads dim file = .ub) ∧ (n < dim + 2 → crossValidate N E dim file = .ub) := by
  constructor
  · intro dim h
    by_cases hd : 1 ≤ dim ∧ dim ≤ 3
    · have h := h.resolve_left (fun h => h hd)
      have e1 : ∀ k, evaluateImpl N (evalValues k) (evalBoth k) grads file k = .throws .runtimeError := fun k => by
        unfold evaluateImpl
        rw [h]
        rfl
      have e2 : ∀ k, crossValidateImpl N (E k) file k = .throws .runtimeError := fun k => by
        unfold crossValidateImpl
        rw [h]
        rfl
      unfold evaluate crossValidate onDim
      simp [e1, e2]
    · unfold evaluate crossValidate onDim
      rw [if_neg (by omega), if_neg (by omega), if_neg (by omega), if_neg (by omega), if_neg (by omega), if_neg (by omega)]
      exact ⟨rfl, rfl⟩
  · intro rows n dim hf hd
    obtain ⟨m, h1, h2, h3⟩ := holds_read hf
    constructor
    · intro hn
      unfold evaluate
      rw [onDim_ok hd]
      unfold evaluateImpl
      rw [h1, Outcome.ok_bind]
      unfold columns
      rw [if_neg (by omega)]
      rfl
    · intro hn
      unfold crossValidate
      rw [onDim_ok hd]
      unfold crossValidateImpl
      rw [h1, Outcome.ok_bind]
      by_cases c1 : dim ≤ n
      · rw [columns_ok h2 0 dim (by omega), Outcome.ok_bind]
        by_cases c2 : dim + 1 ≤ n
        · rw [columns_ok h2 dim 1 (by omega), Outcome.ok_bind]
          have : columns N m (dim + 1) 1 = .ub := if_neg (by omega)
          rw [this]
          rfl
        · have : columns N m dim 1 = .ub := if_neg (by omega)
          rw [this]
          rfl
      · have : columns N m 0 dim = .ub := if_neg (by omega)
        rw [this]
        rfl

/-- **C80**: a set number that is no number or does not fit an integer is not checked either: the conversion is undefined. -/
theorem C80_bad_set {dim : Nat} (hd : dim = 1 ∨ dim = 2 ∨ dim = 3) {F : Type} (E : Nat → CvEnv N F) {file : List Char} {rows : List (List N.D)} {n : Nat}
    (hf : Holds N file rows n) (hn : dim + 2 ≤ n) (hbad : ∃ r ∈ rows, (E dim).toInt (setOf N dim r) = none) : crossValidate N E dim file = .ub := by
  obtain ⟨m, h1, h2, h3⟩ := holds_read hf
  have hi := column_single (N := N) hf.1 (show dim + 1 < n by omega)
  have hids : ∀ rs : List (List N.D), (∃ r ∈ rs, (E dim).toInt (setOf N dim r) = none) →
      Outcome.traverse (castInt N (E dim)) (rs.map fun r => r.getD (dim + 1) (N.toD [])) = .ub := by
    intro rs
    induction rs with
    | nil => rintro ⟨r, hr, -⟩; cases hr
    | cons r rs ih =>
      intro h
      rw [List.map_cons, Outcome.traverse]
      cases hc : (E dim).toInt (setOf N dim r) with
      | none =>
        have e : castInt N (E dim) (r.getD (dim + 1) (N.toD [])) = .ub := by
          unfold castInt
          unfold setOf at hc
          rw [hc]
        rw [e]
        rfl
      | some i =>
        have e : castInt N (E dim) (r.getD (dim + 1) (N.toD [])) = .ok i := by
          unfold castInt
          unfold setOf at hc
          rw [hc]
        have : ∃ r ∈ rs, (E dim).toInt (setOf N dim r) = none := by
          obtain ⟨x, hx, hx'⟩ := h
          rcases List.mem_cons.1 hx with rfl | hx
          · rw [hc] at hx'; cases hx'
          · exact ⟨x, hx, hx'⟩
        rw [e, Outcome.ok_bind, ih this]
        rfl
  unfold crossValidate
  rw [onDim_ok hd]
  unfold crossValidateImpl
  rw [h1, Outcome.ok_bind, columns_ok h2 0 dim (by omega), Outcome.ok_bind, columns_ok h2 dim 1 (by omega), Outcome.ok_bind, columns_ok h2 (dim + 1) 1 (by omega),
    Outcome.ok_bind, hi, hids rows hbad]
  rfl

/-- **C80**: if evaluation does not return one value per point, nothing is written: the table is never padded or cut. -/
theorem C80_wrong_count {dim : Nat} (hd : dim = 1 ∨ dim = 2 ∨ dim = 3) (evalValues evalBoth : Nat → List (List N.D) → Outcome (List N.D)) {file : List Char}
    {rows : List (List N.D)} {n : Nat} (hf : Holds N file rows n) (hn : dim ≤ n) (values : List N.D) (hv : evalValues dim (rows.map (pointOf dim)) = .ok values)
    (hl : values.length ≠ rows.length) : evaluate N evalValues evalBoth false dim file = .throws .invalidArgument := by
  obtain ⟨m, h1, h2, h3⟩ := holds_read hf
  have hc : columns N m 0 dim = .ok (rows.map (pointOf dim)) := by
    rw [columns_ok h2 0 dim (by omega)]
    rfl
  unfold evaluate
  rw [onDim_ok hd]
  unfold evaluateImpl
  rw [h1, Outcome.ok_bind, hc, Outcome.ok_bind, if_neg (by decide), hv, Outcome.ok_bind]
  unfold beside
  rw [if_pos (by simpa [column] using Ne.symm hl)]
  rfl

/-! ## An instance -/

/-- different points are one apart -/
noncomputable def exDist (p q : List Bool) : ℝ := if p = q then 0 else 1

/-- looking at all points -/
noncomputable def exSearch (points : List (List Bool)) (d : ℝ) (i : Nat) : List Nat :=
  (List.range points.length).filter fun j => decide (exDist (points.getD i []) (points.getD j []) ≤ d)

theorem exSearch_ok : SearchOk exDist exSearch := by
  constructor
  · intro p q
    unfold exDist
    by_cases h : p = q
    · rw [if_pos h, if_pos h.symm]
    · rw [if_neg h, if_neg (fun e => h e.symm)]
  · intro points d i j _
    simp [exSearch]

instance : DecidableEq bits.D := inferInstanceAs (DecidableEq Bool)

/-- three lines, the first and the last at the same place -/
def exRows : List (List bits.D) := ([[false, true], [true, false], [false, false]] : List (List Bool))

/-- the file with these lines -/
def exFile : List Char := writeTable bits delim exRows

theorem exFile_holds : Holds bits exFile exRows 2 := holds_write bits_ok _ 2 (by decide) (by decide) (by decide)

example : exFile = "0 1\n1 0\n0 0\n".toList := by decide

/-- an evaluation that returns nothing -/
example : evaluate bits (fun _ _ => .ok []) (fun _ _ => .ok []) false 1 exFile = .throws .invalidArgument :=
  C80_wrong_count (dim := 1) (.inl rfl) (fun _ _ => .ok []) (fun _ _ => .ok []) exFile_holds (by decide) [] rfl (by decide)

/-- two lines with a set number, the second of which is no integer -/
def exSets : List (List bits.D) := ([[false, true, false], [true, false, true]] : List (List Bool))

def exBadCv : CvEnv bits Unit := ⟨fun x => if (show Bool from x) then none else some 0, fun _ _ => .ok (), fun _ p => .ok (p.map fun _ => (true : Bool)), (true : Bool), fun l => l.dedup⟩

example : crossValidate bits (fun _ => exBadCv) 1 (writeTable bits delim exSets) = .ub :=
  C80_bad_set (dim := 1) (.inl rfl) _ (holds_write bits_ok exSets 3 (by decide) (by decide) (by decide)) (by decide)
    ⟨exSets.getD 1 [], List.mem_cons_of_mem _ List.mem_cons_self, rfl⟩

/-- the last line goes, its column included -/
example : ∃ out, unique bits exSearch 1 (some (1 / 2)) exFile = .ok out ∧ Holds bits out ([[false, true], [true, false]] : List (List Bool)) 2 := by
  have hk : DistanceFilter.kMinDistance ≤ 1 / 2 := by unfold DistanceFilter.kMinDistance; norm_num
  obtain ⟨out, kept, h1, h2, h3, h4, h5, h6⟩ := C79_unique bits_ok exSearch_ok exFile_holds (by decide) (dim := 1) (.inl rfl) (by decide) (1 / 2) hk
  have d01 : exDist [false] [true] = 1 := if_neg (by decide)
  have d10 : exDist [true] [false] = 1 := if_neg (by decide)
  have d00 : exDist [false] [false] = 0 := if_pos rfl
  have m1 : 1 ∈ kept := by
    by_contra h
    obtain ⟨j, hj, hj1, hle⟩ := h6 1 (by decide) h
    obtain rfl : j = 0 := by omega
    have : exDist [false] [true] ≤ 1 / 2 := hle
    rw [d01] at this
    norm_num at this
  have m2 : 2 ∉ kept := by
    intro h
    have : 1 / 2 < exDist [false] [false] := h5 0 h4 2 h (by decide)
    rw [d00] at this
    norm_num at this
  have hk2 : kept = [0, 1] := by
    have hall : ∀ k ∈ (List.range 3).sublists, 0 ∈ k → 1 ∈ k → 2 ∉ k → k = [0, 1] := by decide +kernel
    exact hall kept (List.mem_sublists.2 h3) h4 m1 m2
  rw [hk2] at h2
  exact ⟨out, h1, h2⟩

example : ∃ out, evaluate bits (fun _ pts => .ok (pts.map fun p => p.headD true)) (fun _ pts => .ok (pts.map (fun p => p.headD true) ++ pts.flatMap fun p => p)) true 1 exFile = .ok out ∧
    Holds bits out ([[false, false, false], [true, true, true], [false, false, false]] : List (List Bool)) 3 :=
  (C80_evaluate bits_ok (dim := 1) (.inl rfl) (fun p : List Bool => p.headD true) (fun p => p) (fun _ h => h) _ _ (fun _ => rfl) (fun _ => rfl) exFile_holds (by decide)
    (by decide)).2

/-- the number of the set -/
def exId : bits.D → Int := fun b : Bool => if b then 1 else 0

/-- one set for every number; the "interpolant" is the number of values it was fitted to, tested for being one -/
def exCv : CvEnv bits Bool where
  toInt b := some (exId b)
  fit _ vs := .ok ((vs : List Bool).length == 1)
  eval f pts := .ok (pts.map fun _ => f)
  zero := false
  order ids := ids.dedup

/-- three lines in two sets -/
def exCvRows : List (List bits.D) := ([[false, true, false], [true, false, true], [false, false, true]] : List (List Bool))

example : ∃ out, crossValidate bits (fun _ => exCv) 1 (writeTable bits delim exCvRows) = .ok out ∧
    Holds bits out ([[false, true, false, false], [true, false, true, true], [false, false, true, true]] : List (List Bool)) 4 :=
  C80_cross_validate bits_ok (dim := 1) (.inl rfl) (fun _ => exCv) (rows := exCvRows) (n := 3) (holds_write bits_ok _ 3 (by decide) (by decide) (by decide)) (by decide) (by decide)
    (fun r => exId (setOf bits 1 r)) (fun r _ => rfl) (fun ids => ⟨List.nodup_dedup ids, fun x => List.mem_dedup⟩) (fun f _ => f) (fun _ _ => rfl)
    (fun id => decide (id = 1)) (by
      intro r hr
      rcases List.mem_cons.1 hr with rfl | hr
      · rfl
      rcases List.mem_cons.1 hr with rfl | hr
      · rfl
      rcases List.mem_cons.1 hr with rfl | hr
      · rfl
      · cases hr)

end Verif.Cli
