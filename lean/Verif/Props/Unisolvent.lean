import Verif.Model.Unisolvent
import Verif.Props.Polynomial
import Verif.Props.InequalityFitter
import Mathlib.Tactic.IntervalCases

/-!
# C49: unisolvent point sets are valid index sets
-/

namespace Verif.Unisolvent

open Verif

/-- The points listed by a set of indices, in increasing order of the index. -/
noncomputable def pointsAt {dim : Nat} (points : List (Fin dim → ℝ)) (s : Finset Nat) : List (Fin dim → ℝ) :=
  (s.sort (· ≤ ·)).map (fun i => points.getD i 0)

/-- A set of points on which a polynomial of the degree is determined: a Lagrange basis can be built on it. -/
def Usable {dim : Nat} (deg : Nat) (points : List (Fin dim → ℝ)) (s : Finset Nat) : Prop :=
  ∃ b, Poly.Lagrange.new dim deg (pointsAt points s) [] = .ok b

/-- The indices drawn at positions `a, …, b - 1`. -/
def drawn (draw : Nat → Nat) (a b : Nat) : Finset Nat := (Finset.Ico a b).image draw

theorem drawn_succ (draw : Nat → Nat) {a b : Nat} (h : a ≤ b) : drawn draw a (b + 1) = insert (draw b) (drawn draw a b) := by
  unfold drawn
  rw [Finset.Ico_add_one_right_eq_Icc, ← Finset.Ico_insert_right h, Finset.image_insert]

theorem fill_spec (draw : Nat → Nat) (l : Nat) : ∀ fuel (a pos : Nat) (set : Finset Nat) (r : Finset Nat × Nat), a ≤ pos →
    set = drawn draw a pos → set.card ≤ l → fill draw l fuel set pos = some r →
    a ≤ r.2 ∧ r.1 = drawn draw a r.2 ∧ r.1.card = l := by
  intro fuel
  induction fuel with
  | zero => intro a pos set r _ _ _ h; cases h
  | succ fuel ih =>
      intro a pos set r hap hset hcard h
      rw [fill] at h
      split at h
      · rename_i hlt
        refine ih a (pos + 1) _ r (by omega) ?_ ?_ h
        · rw [drawn_succ draw hap, hset]
        · exact le_trans (Finset.card_insert_le _ _) hlt
      · cases h
        exact ⟨hap, hset, by simp only; omega⟩

theorem traverse_get {α : Type} [Inhabited α] (points : List α) (z : α) : ∀ (is : List Nat), (∀ i ∈ is, i < points.length) →
    Outcome.traverse (Outcome.get points) is = .ok (is.map (fun i => points.getD i z)) := by
  intro is h
  apply Outcome.traverse_ok
  intro i hi
  unfold Outcome.get
  simp [List.getElem?_eq_getElem (h i hi)]

/-- What holds after `t` trials. -/
structure Inv {dim : Nat} (deg : Nat) (rcond : Poly.Lagrange → ℝ) (points : List (Fin dim → ℝ)) (draw : Nat → Nat)
    (l t : Nat) (cuts : Nat → Nat) (st : State) : Prop where
  zero : cuts 0 = 0
  pos : cuts t = st.pos
  mono : ∀ k < t, cuts k ≤ cuts (k + 1)
  card : ∀ k < t, (drawn draw (cuts k) (cuts (k + 1))).card = l
  found : st.found = true ↔ ∃ k < t, Usable deg points (drawn draw (cuts k) (cuts (k + 1)))
  max : ∀ k < t, ∀ b, Poly.Lagrange.new dim deg (pointsAt points (drawn draw (cuts k) (cuts (k + 1)))) [] = .ok b →
    rcond b ≤ st.bestRcond
  best : (st.bestSet = ∅ ∧ st.bestRcond = 0) ∨
    ∃ k < t, st.bestSet = drawn draw (cuts k) (cuts (k + 1)) ∧
      ∃ b, Poly.Lagrange.new dim deg (pointsAt points st.bestSet) [] = .ok b ∧ rcond b = st.bestRcond ∧ 0 < st.bestRcond

theorem inv_step {dim deg : Nat} (hd : 1 ≤ dim ∧ dim ≤ 3) (hg : deg ≤ 2) {rcond : Poly.Lagrange → ℝ}
    {points : List (Fin dim → ℝ)} {draw : Nat → Nat} (hdraw : ∀ k, draw k < points.length) {l t : Nat} {cuts : Nat → Nat}
    {st : State} (h : Inv deg rcond points draw l t cuts st) {set : Finset Nat} {pos : Nat} (hpos : st.pos ≤ pos)
    (hset : set = drawn draw st.pos pos) (hcard : set.card = l) :
    ∃ st' cuts', useSet dim deg rcond points { st with pos := pos } set = .ok st' ∧
      Inv deg rcond points draw l (t + 1) cuts' st' := by
  have hin : ∀ i ∈ set.sort (· ≤ ·), i < points.length := by
    intro i hi
    rw [Finset.mem_sort, hset] at hi
    obtain ⟨k, -, rfl⟩ := Finset.mem_image.1 hi
    exact hdraw k
  have htr := traverse_get points 0 (set.sort (· ≤ ·)) hin
  let cuts' : Nat → Nat := fun k => if k = t + 1 then pos else cuts k
  have c_le : ∀ k ≤ t, cuts' k = cuts k := fun k hk => if_neg (by omega)
  have c_t : cuts' (t + 1) = pos := if_pos rfl
  have seg : ∀ k < t, drawn draw (cuts' k) (cuts' (k + 1)) = drawn draw (cuts k) (cuts (k + 1)) := by
    intro k hk; rw [c_le k (by omega), c_le (k + 1) (by omega)]
  have segt : drawn draw (cuts' t) (cuts' (t + 1)) = set := by
    rw [c_le t (by omega), c_t, h.pos, hset]
  have hzero : cuts' 0 = 0 := by rw [c_le 0 (by omega), h.zero]
  have hmono : ∀ k < t + 1, cuts' k ≤ cuts' (k + 1) := by
    intro k hk
    by_cases hkt : k = t
    · subst hkt; rw [c_le k (by omega), c_t, h.pos]; exact hpos
    · rw [c_le k (by omega), c_le (k + 1) (by omega)]; exact h.mono k (by omega)
  have hcard' : ∀ k < t + 1, (drawn draw (cuts' k) (cuts' (k + 1))).card = l := by
    intro k hk
    by_cases hkt : k = t
    · subst hkt; rw [segt]; exact hcard
    · rw [seg k (by omega)]; exact h.card k (by omega)
  have husesplit : ∀ (P : Finset Nat → Prop), (∃ k < t + 1, P (drawn draw (cuts' k) (cuts' (k + 1)))) ↔
      (∃ k < t, P (drawn draw (cuts k) (cuts (k + 1)))) ∨ P set := by
    intro P
    constructor
    · rintro ⟨k, hk, hP⟩
      by_cases hkt : k = t
      · subst hkt; rw [segt] at hP; exact Or.inr hP
      · rw [seg k (by omega)] at hP; exact Or.inl ⟨k, by omega, hP⟩
    · rintro (⟨k, hk, hP⟩ | hP)
      · exact ⟨k, by omega, by rw [seg k hk]; exact hP⟩
      · exact ⟨t, by omega, by rw [segt]; exact hP⟩
  have hbest_old : ∀ s r, (st.bestSet = s ∧ st.bestRcond = r) → ((s = ∅ ∧ r = 0) ∨
      ∃ k < t + 1, s = drawn draw (cuts' k) (cuts' (k + 1)) ∧
        ∃ b, Poly.Lagrange.new dim deg (pointsAt points s) [] = .ok b ∧ rcond b = r ∧ 0 < r) := by
    rintro s r ⟨rfl, rfl⟩
    rcases h.best with hb | ⟨k, hk, hb, b, h1, h2, h3⟩
    · exact Or.inl hb
    · exact Or.inr ⟨k, by omega, by rw [seg k hk]; exact hb, b, h1, h2, h3⟩
  have hpts : (set.sort (· ≤ ·)).map (fun i => points.getD i 0) = pointsAt points set := rfl
  rcases (Poly.C44_throws_iff_not_unisolvent hd hg (pointsAt points set) []).2 with hnew | ⟨b, hnew⟩
  · refine ⟨{ st with pos := pos }, cuts', ?_, hzero, c_t, hmono, hcard', ?_, ?_, hbest_old _ _ ⟨rfl, rfl⟩⟩
    · unfold useSet; rw [htr]; dsimp only; rw [hpts, hnew]
    · rw [husesplit (Usable deg points), ← h.found]
      have hnu : ¬ Usable deg points set := by
        rintro ⟨b, hb⟩; rw [hnew] at hb; cases hb
      simp [hnu]
    · intro k hk b hb
      by_cases hkt : k = t
      · subst hkt; rw [segt, hnew] at hb; cases hb
      · rw [seg k (by omega)] at hb; exact h.max k (by omega) b hb
  · have hu : Usable deg points set := ⟨b, hnew⟩
    by_cases hlt : st.bestRcond < rcond b
    · refine ⟨⟨set, rcond b, true, pos⟩, cuts', ?_, hzero, c_t, hmono, hcard', ?_, ?_, Or.inr ?_⟩
      · unfold useSet; rw [htr]; dsimp only; rw [hpts, hnew]; dsimp only; rw [if_pos hlt]
      · rw [husesplit (Usable deg points)]; simp [hu]
      · intro k hk b' hb
        by_cases hkt : k = t
        · subst hkt; rw [segt, hnew] at hb; cases hb; exact le_refl _
        · rw [seg k (by omega)] at hb; exact le_trans (h.max k (by omega) b' hb) hlt.le
      · refine ⟨t, by omega, segt.symm, b, hnew, rfl, ?_⟩
        refine lt_of_le_of_lt ?_ hlt
        rcases h.best with ⟨-, h0⟩ | ⟨_, _, _, _, _, _, h0⟩
        · rw [h0]
        · exact h0.le
    · refine ⟨{ st with pos := pos, found := true }, cuts', ?_, hzero, c_t, hmono, hcard', ?_, ?_,
        hbest_old _ _ ⟨rfl, rfl⟩⟩
      · unfold useSet; rw [htr]; dsimp only; rw [hpts, hnew]; dsimp only; rw [if_neg hlt]
      · rw [husesplit (Usable deg points)]; simp [hu]
      · intro k hk b' hb
        by_cases hkt : k = t
        · subst hkt; rw [segt, hnew] at hb; cases hb; exact not_lt.1 hlt
        · rw [seg k (by omega)] at hb; exact h.max k (by omega) b' hb

theorem trials_spec {dim deg : Nat} (hd : 1 ≤ dim ∧ dim ≤ 3) (hg : deg ≤ 2) {rcond : Poly.Lagrange → ℝ}
    {points : List (Fin dim → ℝ)} {draw : Nat → Nat} (hdraw : ∀ k, draw k < points.length) {fuel : Nat} :
    ∀ (n t : Nat) (cuts : Nat → Nat) (st : State) (o : Outcome State),
      Inv deg rcond points draw (Poly.basisSize dim deg) t cuts st →
      trials dim deg rcond points draw fuel n st = some o →
      ∃ st' cuts', o = .ok st' ∧ Inv deg rcond points draw (Poly.basisSize dim deg) (t + n) cuts' st' := by
  intro n
  induction n with
  | zero =>
      intro t cuts st o h ho
      rw [trials] at ho; cases ho
      exact ⟨st, cuts, rfl, h⟩
  | succ n ih =>
      intro t cuts st o h ho
      rw [trials] at ho
      cases hf : fill draw (Poly.basisSize dim deg) fuel ∅ st.pos with
      | none => rw [hf] at ho; cases ho
      | some r =>
          obtain ⟨set, pos⟩ := r
          rw [hf] at ho
          obtain ⟨h1, h2, h3⟩ := fill_spec draw _ fuel st.pos st.pos ∅ (set, pos) (le_refl _) (by simp [drawn]) (by simp) hf
          obtain ⟨st', cuts', hu, hinv⟩ := inv_step hd hg hdraw h h1 h2 h3
          dsimp only at ho
          rw [hu] at ho
          dsimp only at ho
          have := ih (t + 1) cuts' st' o hinv ho
          rw [show t + (n + 1) = t + 1 + n from by omega]
          exact this

/-- **C49.** For every stream of random indices within range, every point set and every degree 0, 1, 2: whenever the
constructor ends, it consumed the stream in 100 consecutive segments, each containing exactly as many distinct indices as the
basis has elements, and
* it threw, and no segment was usable; or
* some segment was usable, and the result lists, in strictly increasing order, a segment that is usable and whose reciprocal
  condition is positive and the largest among the usable segments; or
* some segment was usable but no usable segment had a positive reciprocal condition, and the result is empty. -/
theorem C49_result {dim : Nat} {degree : Int} (hd : 1 ≤ dim ∧ dim ≤ 3) (hg : 0 ≤ degree ∧ degree ≤ 2)
    (rcond : Poly.Lagrange → ℝ) (points : List (Fin dim → ℝ)) (hne : points ≠ []) (draw : Nat → Nat)
    (hdraw : ∀ k, draw k < points.length) (fuel : Nat) (o : Outcome (List Nat))
    (ho : build dim rcond draw fuel points degree = some o) :
    ∃ cuts : Nat → Nat, cuts 0 = 0 ∧ (∀ k < 100, cuts k ≤ cuts (k + 1)) ∧
      (∀ k < 100, (drawn draw (cuts k) (cuts (k + 1))).card = Poly.basisSize dim degree.toNat) ∧
      ((o = .throws .runtimeError ∧ ∀ k < 100, ¬ Usable degree.toNat points (drawn draw (cuts k) (cuts (k + 1)))) ∨
       ((∃ k < 100, Usable degree.toNat points (drawn draw (cuts k) (cuts (k + 1)))) ∧
        ∃ r, o = .ok r ∧ r.Pairwise (· < ·) ∧ (∀ i ∈ r, i < points.length) ∧
          ((r.length = Poly.basisSize dim degree.toNat ∧
            (∃ k < 100, ∀ i, i ∈ r ↔ i ∈ drawn draw (cuts k) (cuts (k + 1))) ∧
            ∃ b, Poly.Lagrange.new dim degree.toNat (r.map (fun i => points.getD i 0)) [] = .ok b ∧ 0 < rcond b ∧
              ∀ k < 100, ∀ b', Poly.Lagrange.new dim degree.toNat
                (pointsAt points (drawn draw (cuts k) (cuts (k + 1)))) [] = .ok b' → rcond b' ≤ rcond b) ∨
           (r = [] ∧ ∀ k < 100, ∀ b', Poly.Lagrange.new dim degree.toNat
              (pointsAt points (drawn draw (cuts k) (cuts (k + 1)))) [] = .ok b' → rcond b' ≤ 0)))) := by
  unfold build at ho
  rw [if_neg (by omega), if_neg (by simpa using hne)] at ho
  cases ht : trials dim degree.toNat rcond points draw fuel 100 ⟨∅, 0, false, 0⟩ with
  | none => rw [ht] at ho; cases ho
  | some ot =>
      have hinit : Inv degree.toNat rcond points draw (Poly.basisSize dim degree.toNat) 0 (fun _ => 0)
          ⟨∅, 0, false, 0⟩ :=
        ⟨rfl, rfl, by omega, by omega, by simp, by omega, Or.inl ⟨rfl, rfl⟩⟩
      obtain ⟨st, cuts, rfl, hinv⟩ := trials_spec hd (by omega) hdraw 100 0 _ _ ot hinit ht
      rw [Nat.zero_add] at hinv
      rw [ht] at ho
      dsimp only at ho
      refine ⟨cuts, hinv.zero, hinv.mono, hinv.card, ?_⟩
      cases hfound : st.found with
      | false =>
          rw [hfound] at ho
          left
          refine ⟨by simpa using ho.symm, ?_⟩
          intro k hk hu
          have := hinv.found.2 ⟨k, hk, hu⟩
          rw [hfound] at this; cases this
      | true =>
          rw [hfound] at ho
          right
          refine ⟨hinv.found.1 hfound, st.bestSet.sort (· ≤ ·), by simpa using ho.symm, ?_, ?_, ?_⟩
          · exact (Finset.sortedLT_sort _).pairwise
          · intro i hi
            rw [Finset.mem_sort] at hi
            rcases hinv.best with ⟨h0, -⟩ | ⟨k, _, hb, -⟩
            · rw [h0] at hi; simp at hi
            · rw [hb] at hi
              obtain ⟨j, -, rfl⟩ := Finset.mem_image.1 hi
              exact hdraw j
          · rcases hinv.best with ⟨h0, h1⟩ | ⟨k, hk, hb, b, h1, h2, h3⟩
            · right
              refine ⟨by rw [h0]; simp, ?_⟩
              intro k hk b' hb'
              have := hinv.max k hk b' hb'
              rwa [h1] at this
            · left
              refine ⟨by rw [Finset.length_sort, hb]; exact hinv.card k hk, ⟨k, hk, ?_⟩, b, h1, by rw [h2]; exact h3, ?_⟩
              · intro i; rw [Finset.mem_sort, hb]
              · intro k' hk' b' hb'
                rw [h2]; exact hinv.max k' hk' b' hb'

/-- C49: with a reciprocal condition that is positive for every basis (as in exact arithmetic), every result is a list of as
many indices as the basis has elements, sorted, distinct and in range. -/
theorem C49_valid {dim : Nat} {degree : Int} (hd : 1 ≤ dim ∧ dim ≤ 3) (hg : 0 ≤ degree ∧ degree ≤ 2)
    (rcond : Poly.Lagrange → ℝ) (hr : ∀ b, 0 < rcond b) (points : List (Fin dim → ℝ)) (hne : points ≠ [])
    (draw : Nat → Nat) (hdraw : ∀ k, draw k < points.length) (fuel : Nat) (r : List Nat)
    (ho : build dim rcond draw fuel points degree = some (.ok r)) :
    r.length = (dim + degree.toNat).choose dim ∧ r.Pairwise (· < ·) ∧ (∀ i ∈ r, i < points.length) ∧
      ∃ b, Poly.Lagrange.new dim degree.toNat (r.map (fun i => points.getD i 0)) [] = .ok b := by
  obtain ⟨cuts, -, -, -, h⟩ := C49_result hd hg rcond points hne draw hdraw fuel _ ho
  rcases h with ⟨h, -⟩ | ⟨⟨k, hk, b, hb⟩, r', h, h1, h2, h3⟩
  · cases h
  · cases h
    rcases h3 with ⟨h3, -, b', hb', -⟩ | ⟨-, h4⟩
    · exact ⟨by rw [h3, Poly.C43_basis_size _ _ hd], h1, h2, b', hb'⟩
    · exact absurd (h4 k hk b hb) (not_le.2 (hr b))

/-- A negative degree needs no points. -/
theorem C49_negative_degree {dim : Nat} {degree : Int} (hg : degree < 0) (rcond : Poly.Lagrange → ℝ)
    (points : List (Fin dim → ℝ)) (draw : Nat → Nat) (fuel : Nat) :
    build dim rcond draw fuel points degree = some (.ok []) := by
  unfold build; rw [if_pos hg]

theorem fill_none (draw : Nat → Nat) {n l : Nat} (hdraw : ∀ k, draw k < n) (hl : n < l) : ∀ fuel (set : Finset Nat) pos,
    (∀ i ∈ set, i < n) → fill draw l fuel set pos = none := by
  intro fuel
  induction fuel with
  | zero => intro _ _ _; rfl
  | succ fuel ih =>
      intro set pos h
      have hsub : set ⊆ Finset.range n := fun i hi => Finset.mem_range.2 (h i hi)
      have := Finset.card_le_card hsub
      rw [Finset.card_range] at this
      rw [fill, if_pos (by omega)]
      apply ih
      intro i hi
      rcases Finset.mem_insert.1 hi with rfl | hi
      · exact hdraw pos
      · exact h i hi

/-- With fewer points than basis elements the constructor never ends, whatever is drawn. -/
theorem C49_too_few_points_never_ends {dim : Nat} {degree : Int} (hg : 0 ≤ degree) (rcond : Poly.Lagrange → ℝ)
    (points : List (Fin dim → ℝ)) (hne : points ≠ []) (hlt : points.length < Poly.basisSize dim degree.toNat)
    (draw : Nat → Nat) (hdraw : ∀ k, draw k < points.length) (fuel : Nat) :
    build dim rcond draw fuel points degree = none := by
  unfold build
  rw [if_neg (by omega), if_neg (by simpa using hne), trials, fill_none draw hdraw hlt fuel ∅ 0 (by simp)]

/-- The constructor ends on every stream that keeps producing new indices: if from every position there are `l` distinct
indices within the next `w` draws, `fuel > w` suffices. -/
theorem fill_ends (draw : Nat → Nat) (l w : Nat) (a : Nat) (h : l ≤ (drawn draw a (a + w)).card) :
    ∀ fuel k, k ≤ w → w < k + fuel → ∃ r, fill draw l fuel (drawn draw a (a + k)) (a + k) = some r := by
  intro fuel
  induction fuel with
  | zero => intro k h1 h2; omega
  | succ fuel ih =>
      intro k h1 h2
      rw [fill]
      split
      · rename_i hlt
        have hkw : k ≠ w := by intro h'; subst h'; omega
        rw [← drawn_succ draw (by omega)]
        exact ih (k + 1) (by omega) (by omega)
      · exact ⟨_, rfl⟩

/-- C49: the constructor ends whenever from every position `l` distinct indices appear within the next `w` draws, `l` the
size of the basis: then it either returns or throws. -/
theorem C49_ends {dim : Nat} {degree : Int} (hd : 1 ≤ dim ∧ dim ≤ 3) (hg : 0 ≤ degree ∧ degree ≤ 2)
    (rcond : Poly.Lagrange → ℝ) (points : List (Fin dim → ℝ)) (hne : points ≠ []) (draw : Nat → Nat)
    (hdraw : ∀ k, draw k < points.length) (w : Nat)
    (hw : ∀ a, Poly.basisSize dim degree.toNat ≤ (drawn draw a (a + w)).card) :
    ∃ o, build dim rcond draw (w + 1) points degree = some o := by
  have key : ∀ (n t : Nat) (cuts : Nat → Nat) (st : State),
      Inv degree.toNat rcond points draw (Poly.basisSize dim degree.toNat) t cuts st →
      ∃ o, trials dim degree.toNat rcond points draw (w + 1) n st = some o := by
    intro n
    induction n with
    | zero => intro t cuts st _; exact ⟨_, rfl⟩
    | succ n ih =>
        intro t cuts st h
        obtain ⟨⟨set, pos⟩, hf⟩ := fill_ends draw _ w st.pos (hw st.pos) (w + 1) 0 (by omega) (by omega)
        have hf' : fill draw (Poly.basisSize dim degree.toNat) (w + 1) ∅ st.pos = some (set, pos) := by
          simpa [drawn] using hf
        obtain ⟨h1, h2, h3⟩ := fill_spec draw _ (w + 1) st.pos st.pos ∅ (set, pos) (le_refl _) (by simp [drawn]) (by simp) hf'
        obtain ⟨st', cuts', hu, hinv⟩ := inv_step hd (by omega) hdraw h h1 h2 h3
        obtain ⟨o, ho⟩ := ih (t + 1) cuts' st' hinv
        exact ⟨o, by rw [trials, hf']; dsimp only; rw [hu]; exact ho⟩
  have hinit : Inv degree.toNat rcond points draw (Poly.basisSize dim degree.toNat) 0 (fun _ => 0) ⟨∅, 0, false, 0⟩ :=
    ⟨rfl, rfl, by omega, by omega, by simp, by omega, Or.inl ⟨rfl, rfl⟩⟩
  obtain ⟨o, ho⟩ := key 100 0 _ _ hinit
  obtain ⟨st, cuts, rfl, -⟩ := trials_spec hd (by omega) hdraw 100 0 _ _ o hinit ho
  unfold build
  rw [if_neg (by omega), if_neg (by simpa using hne), ho]
  dsimp only
  cases st.found <;> exact ⟨_, rfl⟩

/-- The hypotheses of `C49_ends`, hence of `C49_result`, are met: three points on a line, degree 1, indices drawn in turn. -/
example : ∃ o, build 1 (fun _ => 1) (fun k => k % 3) 4 [fun _ => 0, fun _ => 5, fun _ => 7] 1 = some o := by
  apply C49_ends (by decide) (by decide) _ _ (by simp) _ (fun k => Nat.mod_lt _ (by decide))
  intro a
  have h3 : drawn (fun k => k % 3) a (a + 3) = {a % 3, (a + 1) % 3, (a + 2) % 3} := by
    unfold drawn
    have : Finset.Ico a (a + 3) = {a, a + 1, a + 2} := by
      ext x; simp only [Finset.mem_Ico, Finset.mem_insert, Finset.mem_singleton]; omega
    rw [this]; simp
  change Poly.basisSize 1 (Int.toNat 1) ≤ (drawn (fun k => k % 3) a (a + 3)).card
  rw [h3, Finset.card_insert_of_notMem, Finset.card_insert_of_notMem, Finset.card_singleton]
  · decide
  · simp only [Finset.mem_singleton]; omega
  · simp only [Finset.mem_insert, Finset.mem_singleton]; omega

end Verif.Unisolvent
