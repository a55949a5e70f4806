import Verif.Model.DistanceFilter
import Mathlib.Data.List.Basic
import Mathlib.Tactic.NormNum

/-!
# C17: the distance filter keeps a maximal separated subset, greedily
-/

namespace Verif.DistanceFilter

open Verif

/-- The kd-tree returns exactly the points within the radius (boundary included). -/
def ExactSearch (n : Nat) (dist : Nat → Nat → ℝ) (search : ℝ → Nat → List Nat) : Prop :=
  ∀ d i j, i < n → (j ∈ search d i ↔ j < n ∧ dist i j ≤ d)

theorem loop_append (n : Nat) (search : Nat → List Nat) : ∀ (a b R : List Nat),
    loop n search (a ++ b) R = (loop n search a R).bind (loop n search b)
  | [], _, _ => rfl
  | i :: a, b, R => by
      simp only [List.cons_append, loop]
      split
      · exact loop_append n search a b R
      · split
        · exact loop_append n search a b _
        · rfl

/-- `R` is what the processed indices `P` removed; `P` is separated. -/
structure Inv (near : Nat → Nat → Prop) (pre P R : List Nat) : Prop where
  removed : ∀ x, x ∈ R ↔ ∃ j ∈ P, j ≠ x ∧ near j x
  sep : ∀ a ∈ P, ∀ b ∈ P, a ≠ b → ¬ near a b
  sub : ∀ a ∈ P, a ∈ pre
  cover : ∀ a ∈ pre, a ∈ P ∨ a ∈ R

theorem loop_spec {n : Nat} {search : Nat → List Nat} {near : Nat → Nat → Prop}
    (hs : ∀ i < n, ∀ j, j ∈ search i ↔ near i j) (hsym : ∀ i j, near i j → near j i) :
    ∀ (post pre P R : List Nat), (∀ i ∈ pre ++ post, i < n) → Inv near pre P R →
      ∃ P' R', loop n search post R = .ok R' ∧ Inv near (pre ++ post) (P ++ P') R'
  | [], pre, P, R, _, h => ⟨[], R, rfl, by simpa using h⟩
  | i :: post, pre, P, R, hn, h => by
      have hin : i < n := hn i (by simp)
      rw [loop]
      by_cases hc : i ∈ R
      · rw [if_pos (by simpa using hc)]
        obtain ⟨P', R', h1, h2⟩ := loop_spec hs hsym post (pre ++ [i]) P R (by simpa using hn)
          ⟨h.removed, h.sep, fun a ha => by simp [h.sub a ha], fun a ha => by
            rcases List.mem_append.1 ha with ha | ha
            · exact h.cover a ha
            · simp only [List.mem_singleton] at ha; subst ha; exact Or.inr hc⟩
        exact ⟨P', R', h1, by simpa using h2⟩
      · rw [if_neg (by simpa using hc), if_pos hin]
        have hmem : ∀ x, x ∈ (search i).filter (fun j => j != i) ↔ i ≠ x ∧ near i x := by
          intro x
          simp only [List.mem_filter, hs i hin x, bne_iff_ne, ne_eq]
          constructor
          · rintro ⟨a, c⟩; exact ⟨fun e => c e.symm, a⟩
          · rintro ⟨c, a⟩; exact ⟨a, fun e => c e.symm⟩
        have hsepi : ∀ a ∈ P, a ≠ i → ¬ near a i := fun a ha hne hnear => hc ((h.removed i).2 ⟨a, ha, hne, hnear⟩)
        obtain ⟨P', R', h1, h2⟩ := loop_spec hs hsym post (pre ++ [i]) (P ++ [i])
          (R ++ (search i).filter (fun j => j != i)) (by simpa using hn)
          (by
            refine ⟨fun x => ?_, ?_, ?_, ?_⟩
            · rw [List.mem_append, hmem, h.removed]
              constructor
              · rintro (⟨j, hj, e⟩ | ⟨e, hx⟩)
                · exact ⟨j, by simp [hj], e⟩
                · exact ⟨i, by simp, e, hx⟩
              · rintro ⟨j, hj, e, hx⟩
                rcases List.mem_append.1 hj with hj | hj
                · exact Or.inl ⟨j, hj, e, hx⟩
                · simp only [List.mem_singleton] at hj
                  subst hj
                  exact Or.inr ⟨e, hx⟩
            · intro a ha b hb hne
              rcases List.mem_append.1 ha with ha' | ha' <;> rcases List.mem_append.1 hb with hb' | hb'
              · exact h.sep a ha' b hb' hne
              · rw [List.mem_singleton] at hb'; rw [hb'] at hne ⊢; exact hsepi a ha' hne
              · rw [List.mem_singleton] at ha'; rw [ha'] at hne ⊢
                exact fun hx => hsepi b hb' (Ne.symm hne) (hsym _ _ hx)
              · simp only [List.mem_singleton] at ha' hb'; exact absurd (ha'.trans hb'.symm) hne
            · intro a ha
              rcases List.mem_append.1 ha with ha | ha
              · simp [h.sub a ha]
              · simp only [List.mem_singleton] at ha; simp [ha]
            · intro a ha
              rcases List.mem_append.1 ha with ha | ha
              · rcases h.cover a ha with h | h
                · exact Or.inl (by simp [h])
                · exact Or.inr (by simp [h])
              · simp only [List.mem_singleton] at ha; exact Or.inl (by simp [ha]))
        exact ⟨i :: P', R', h1, by simpa using h2⟩

/-- What a filtering run leaves behind. -/
theorem filter_spec {n : Nat} {dist : Nat → Nat → ℝ} {search : ℝ → Nat → List Nat} (hs : ExactSearch n dist search)
    (hsym : ∀ i j, dist i j = dist j i) (f : DF) (hf : f.n = n) (d : ℝ) (hd : kMinDistance ≤ d) (indices : List Nat)
    (hin : ∀ i ∈ indices, i < n) :
    ∃ kept, f.filter search (some d) indices = (⟨n, true, kept⟩, .ok ()) ∧ kept.Sublist indices ∧
      (∀ i ∈ kept, ∀ j ∈ kept, i ≠ j → d < dist i j) ∧
      (∀ pre x post, indices = pre ++ x :: post → x ∉ kept → ∃ j ∈ pre, j ∈ kept ∧ j ≠ x ∧ dist j x ≤ d) := by
  set near : Nat → Nat → Prop := fun i j => i < n ∧ j < n ∧ dist i j ≤ d with hnear
  have h1 : ∀ i < n, ∀ j, j ∈ search d i ↔ near i j := by
    intro i hi j; rw [hs d i j hi, hnear]; simp [hi]
  have h2 : ∀ i j, near i j → near j i := by
    rintro i j ⟨a, b, c⟩; exact ⟨b, a, by rw [hsym]; exact c⟩
  have h0 : Inv near [] [] [] := ⟨by simp, by simp, by simp, by simp⟩
  obtain ⟨P, R, h3, h4⟩ := loop_spec h1 h2 indices [] [] [] (by simpa using hin) h0
  simp only [List.nil_append] at h4
  -- processed indices are never removed
  have hPR : ∀ a ∈ P, a ∉ R := by
    intro a ha haR
    obtain ⟨j, hj, hne, hx⟩ := (h4.removed a).1 haR
    exact h4.sep j hj a ha hne hx
  have hkeep : ∀ x, x ∈ keep indices R ↔ x ∈ indices ∧ x ∉ R := by
    intro x; simp [keep]
  have hkP : ∀ x, x ∈ keep indices R ↔ x ∈ P := by
    intro x
    rw [hkeep]
    constructor
    · rintro ⟨a, b⟩; exact (h4.cover x a).resolve_right b
    · intro h; exact ⟨h4.sub x h, hPR x h⟩
  refine ⟨keep indices R, ?_, List.filter_sublist, ?_, ?_⟩
  · rw [DF.filter]
    rw [if_neg (by simpa using hd), hf, h3]
  · intro i hi j hj hne
    have := h4.sep i ((hkP i).1 hi) j ((hkP j).1 hj) hne
    have hi' := hin i ((hkeep i).1 hi).1
    have hj' := hin j ((hkeep j).1 hj).1
    by_contra hlt
    exact this ⟨hi', hj', not_lt.1 hlt⟩
  · intro pre x post he hx
    have hxR : x ∈ R := by
      by_contra hxR
      exact hx ((hkeep x).2 ⟨by rw [he]; simp, hxR⟩)
    obtain ⟨P1, R1, e1, e2⟩ := loop_spec h1 h2 pre [] [] [] (fun i hi => hin i (by rw [he]; simpa using Or.inl hi)) h0
    simp only [List.nil_append] at e2
    obtain ⟨P2, R2, e3, e4⟩ := loop_spec h1 h2 (x :: post) pre P1 R1 (by rw [← he]; exact hin) e2
    have hR2 : R2 = R := by
      have := h3
      rw [he, loop_append, e1] at this
      simp only [Outcome.bind] at this
      rw [e3] at this
      simpa using this
    subst hR2
    by_cases hx1 : x ∈ R1
    · obtain ⟨j, hj, hne, _, _, hd⟩ := (e2.removed x).1 hx1
      have hjP : j ∈ P1 ++ P2 := by simp [hj]
      refine ⟨j, e2.sub j hj, (hkeep j).2 ⟨?_, ?_⟩, hne, hd⟩
      · rw [he]; simp [e2.sub j hj]
      · intro hjR
        obtain ⟨k, hk, hkne, hknear⟩ := (e4.removed j).1 hjR
        exact e4.sep k hk j hjP hkne hknear
    · -- then `x` is processed and stays
      exfalso
      have hxn : x < n := hin x (by rw [he]; simp)
      have : loop n (search d) (x :: post) R1 = loop n (search d) post (R1 ++ (search d x).filter (fun j => j != x)) := by
        rw [loop, if_neg (by simpa using hx1), if_pos hxn]
      -- run the first step alone to see that `x` is processed
      obtain ⟨P3, R3, f1, f2⟩ := loop_spec h1 h2 [x] pre P1 R1
        (fun i hi => hin i (by rw [he]; rcases List.mem_append.1 hi with h | h <;> simp_all)) e2
      have hR3 : R3 = R1 ++ (search d x).filter (fun j => j != x) := by
        have := f1
        rw [loop, if_neg (by simpa using hx1), if_pos hxn, loop] at this
        simpa using this.symm
      have hxR3 : x ∉ R3 := by
        rw [hR3]; simp [hx1]
      have hxP3 : x ∈ P1 ++ P3 := (f2.cover x (by simp)).resolve_right hxR3
      obtain ⟨P4, R4, g1, g2⟩ := loop_spec h1 h2 post (pre ++ [x]) (P1 ++ P3) R3
        (by intro i hi; exact hin i (by rw [he]; simpa using hi)) f2
      have hR4 : R4 = R2 := by
        rw [this, ← hR3, g1] at e3
        simpa using e3
      subst hR4
      obtain ⟨k, hk, hkne, hknear⟩ := (g2.removed x).1 hxR
      exact g2.sep k hk x (by simp only [List.mem_append] at hxP3 ⊢; exact Or.inl hxP3) hkne hknear

/-- C17: a run with an admissible distance succeeds; what it keeps is a subsequence of the given indices, pairwise
farther apart than the distance, and every dropped index is within the distance of a kept index that comes earlier. -/
theorem C17_greedy_maximal_separated {n : Nat} {dist : Nat → Nat → ℝ} {search : ℝ → Nat → List Nat}
    (hs : ExactSearch n dist search) (hsym : ∀ i j, dist i j = dist j i) (f : DF) (hf : f.n = n) (d : ℝ)
    (hd : kMinDistance ≤ d) (indices : List Nat) (hin : ∀ i ∈ indices, i < n) :
    ∃ kept, (f.filter search (some d) indices).2 = .ok () ∧
      (f.filter search (some d) indices).1.filteredIndices = .ok kept ∧ kept.Sublist indices ∧
      (∀ i ∈ kept, ∀ j ∈ kept, i ≠ j → d < dist i j) ∧
      (∀ pre x post, indices = pre ++ x :: post → x ∉ kept → ∃ j ∈ pre, j ∈ kept ∧ j ≠ x ∧ dist j x ≤ d) := by
  obtain ⟨kept, h1, h2, h3, h4⟩ := filter_spec hs hsym f hf d hd indices hin
  exact ⟨kept, by rw [h1], by rw [h1]; rfl, h2, h3, h4⟩

/-- C17: filtering the kept indices again, with the same or a smaller distance, changes nothing. -/
theorem C17_idempotent {n : Nat} {dist : Nat → Nat → ℝ} {search : ℝ → Nat → List Nat}
    (hs : ExactSearch n dist search) (hsym : ∀ i j, dist i j = dist j i) (f : DF) (hf : f.n = n) (d d' : ℝ)
    (hd : kMinDistance ≤ d) (hd' : kMinDistance ≤ d') (hle : d' ≤ d) (indices : List Nat) (hin : ∀ i ∈ indices, i < n)
    (kept : List Nat) (hk : (f.filter search (some d) indices).1.filteredIndices = .ok kept) :
    ((f.filter search (some d) indices).1.filter search (some d') kept).1.filteredIndices = .ok kept := by
  obtain ⟨k, h1, h2, h3, _⟩ := filter_spec hs hsym f hf d hd indices hin
  rw [h1] at hk ⊢
  simp only [DF.filteredIndices, if_true, Outcome.ok.injEq] at hk
  subst hk
  obtain ⟨k', e1, e2, _, e4⟩ := filter_spec hs hsym ⟨n, true, k⟩ rfl d' hd' k (fun i hi => hin i (h2.subset hi))
  rw [e1]
  have : ∀ x ∈ k, x ∈ k' := by
    intro x hx
    by_contra hx'
    obtain ⟨pre, post, rfl⟩ := List.append_of_mem hx
    obtain ⟨j, hj, _, hne, hjd⟩ := e4 pre x post rfl hx'
    exact absurd (lt_of_lt_of_le (h3 j (by simp [hj]) x (by simp) hne) hjd) (not_lt.2 hle)
  have : k' = k := by
    have hl := e1
    have hkk : ∀ R, keep k R = k' → k' = k := by
      intro R hR
      rw [← hR]
      apply List.filter_eq_self.2
      intro a ha
      have := this a ha
      rw [← hR] at this
      exact (List.mem_filter.1 this).2
    rw [DF.filter] at e1
    simp only at e1
    rw [if_neg (by simpa using hd')] at e1
    cases hlp : loop n (search d') k [] with
    | ok R =>
        simp only [hlp, Prod.mk.injEq, DF.mk.injEq, true_and, and_true] at e1
        exact hkk R e1
    | throws e => simp [hlp] at e1
    | ub => simp [hlp] at e1
  rw [this]
  rfl

/-- C17: a distance below the minimum, or NaN, is rejected and changes nothing. -/
theorem C17_rejects_small (search : ℝ → Nat → List Nat) (f : DF) (indices : List Nat) :
    f.filter search none indices = (f, .throws .invalidArgument) ∧
    ∀ d, d < kMinDistance → f.filter search (some d) indices = (f, .throws .invalidArgument) := by
  refine ⟨rfl, fun d hd => ?_⟩
  rw [DF.filter]
  rw [if_pos (by simpa using hd)]

/-- C17: the results are not available before the first run, and after a run the filter selects exactly the kept rows of
a matrix with the right number of rows (and rejects others). -/
theorem C17_accessors {n : Nat} {dist : Nat → Nat → ℝ} {search : ℝ → Nat → List Nat}
    (hs : ExactSearch n dist search) (hsym : ∀ i j, dist i j = dist j i) (d : ℝ) (hd : kMinDistance ≤ d)
    (indices : List Nat) (hin : ∀ i ∈ indices, i < n) (α : Type) (m : List α) :
    (DF.new n).filteredIndices = .throws .runtimeError ∧ (DF.new n).apply m = .throws .runtimeError ∧
    (m.length ≠ n → ((DF.new n).filter search (some d) indices).1.apply m = .throws .invalidArgument) ∧
    (m.length = n → ∃ kept rows, ((DF.new n).filter search (some d) indices).1.filteredIndices = .ok kept ∧
      ((DF.new n).filter search (some d) indices).1.apply m = .ok rows ∧ rows.length = kept.length ∧
      ∀ k i : Nat, kept[k]? = some i → rows[k]? = m[i]?) := by
  obtain ⟨kept, h1, h2, _, _⟩ := filter_spec hs hsym (DF.new n) rfl d hd indices hin
  refine ⟨rfl, rfl, fun hm => ?_, fun hm => ?_⟩
  · rw [h1]; simp [DF.apply, hm]
  · rw [h1]
    have key : ∀ (l : List Nat), (∀ i ∈ l, i < n) → ∃ rows, Outcome.traverse (Outcome.get m) l = .ok rows ∧
        rows.length = l.length ∧ ∀ (k i : Nat), l[k]? = some i → rows[k]? = m[i]? := by
      intro l
      induction l with
      | nil => intro _; exact ⟨[], rfl, rfl, by simp⟩
      | cons i l ih =>
          intro h
          obtain ⟨rows, r1, r2, r3⟩ := ih (fun j hj => h j (by simp [hj]))
          have hi : i < m.length := by rw [hm]; exact h i (by simp)
          refine ⟨m[i] :: rows, ?_, by simp [r2], ?_⟩
          · simp [Outcome.traverse, r1, Outcome.get, List.getElem?_eq_getElem hi]
          · intro k j hk
            cases k with
            | zero => simp only [List.getElem?_cons_zero, Option.some.injEq] at hk ⊢; subst hk; simp [hi]
            | succ k => simp only [List.getElem?_cons_succ] at hk ⊢; exact r3 k j hk
    obtain ⟨rows, r1, r2, r3⟩ := key kept (fun i hi => hin i (h2.subset hi))
    refine ⟨kept, rows, rfl, ?_, r2, r3⟩
    simp [DF.apply, hm, r1]

/-- The hypotheses have a model: points `0, 1, 3` on a line, distance 1, drops the second point. -/
example : ∃ search : ℝ → Nat → List Nat,
    ExactSearch 3 (fun i j => |([0, 1, 3] : List ℝ).getD i 0 - ([0, 1, 3] : List ℝ).getD j 0|) search := by
  classical
  exact ⟨fun d i => (List.range 3).filter (fun j =>
    decide (|([0, 1, 3] : List ℝ).getD i 0 - ([0, 1, 3] : List ℝ).getD j 0| ≤ d)), by
    intro d i j _; simp only [List.mem_filter, List.mem_range, decide_eq_true_eq]⟩

example : loop 3 (fun i => if i = 0 then [0, 1] else if i = 1 then [0, 1] else [2]) [0, 1, 2] [] = .ok [1] := by decide

end Verif.DistanceFilter
