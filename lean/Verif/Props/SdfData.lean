import Verif.Model.SdfData
import Mathlib.Tactic.Linarith
import Mathlib.Tactic.Ring
import Mathlib.Tactic.NormNum
import Mathlib.Tactic.FieldSimp
import Mathlib.Tactic.Positivity
import Mathlib.Tactic.Push

/-!
# C47: signed distance data
-/

namespace Verif.Sdf

open Verif Verif.Normals

/-- A tree that answers correctly: `k` distinct points, none of the others closer. -/
def KnnOk (n : Nat) (point : Nat → V3) (knn : V3 → Nat → List Nat) : Prop :=
  ∀ q k, 0 < k → k ≤ n → (knn q k).length = k ∧ (knn q k).Nodup ∧ (∀ j ∈ knn q k, j < n) ∧
    ∀ j ∈ knn q k, ∀ m < n, m ∉ knn q k → norm (q - point j) ≤ norm (q - point m)

open Classical in
/-- What the property says about the offset point made from point `i`: it is on the line through the point along the normal, on
the requested side, not farther than asked - with an offset that is not positive: than the farthest of the six nearest points -,
its value is the signed distance to the point it was made from, and no input point is closer.  It is not the point itself, and it is
exactly as far away as asked when no other point is as close to that place. -/
structure OffsetPoint (c : Data) (offset sign : ℝ) (i : Nat) (e : V3 × ℝ) : Prop where
  line : e.1 = c.point i + e.2 • c.normal i
  side : 0 ≤ sign * e.2
  bound : 0 < offset → |e.2| ≤ offset
  boundAuto : offset ≤ 0 → ∃ j < c.n, |e.2| ≤ norm (c.point j - c.point i) ∧
    ((List.range c.n).countP (fun k => decide (norm (c.point k - c.point i) < norm (c.point j - c.point i)))) < 6
  away : (0 < offset ∨ ∃ j < c.n, j ≠ i) → (∀ j < c.n, j ≠ i → c.point j ≠ c.point i) → 0 < sign * e.2
  kept : 0 < offset → (∀ j < c.n, j ≠ i → norm (c.point i + (sign * offset) • c.normal i - c.point i) <
    norm (c.point i + (sign * offset) • c.normal i - c.point j)) → e.2 = sign * offset
  distance : norm (e.1 - c.point i) = |e.2|
  nearest : ∀ j < c.n, norm (e.1 - c.point i) ≤ norm (e.1 - c.point j)

/-! ## Geometry -/

theorem dot_eq (a b : V3) : dot a b = a 0 * b 0 + a 1 * b 1 + a 2 * b 2 := by simp [dot, Fin.sum_univ_three]

theorem dot_self_nonneg (a : V3) : 0 ≤ dot a a := by rw [dot_eq]; nlinarith [sq_nonneg (a 0), sq_nonneg (a 1), sq_nonneg (a 2)]

theorem norm_nonneg (a : V3) : 0 ≤ norm a := Real.sqrt_nonneg _

theorem norm_sq (a : V3) : norm a * norm a = dot a a := Real.mul_self_sqrt (dot_self_nonneg a)

theorem norm_eq_zero {a : V3} : norm a = 0 ↔ a = 0 := by
  constructor
  · intro h
    have := norm_sq a
    rw [h, dot_eq] at this
    funext i
    have h0 : a 0 = 0 := by nlinarith [sq_nonneg (a 0), sq_nonneg (a 1), sq_nonneg (a 2)]
    have h1 : a 1 = 0 := by nlinarith [sq_nonneg (a 0), sq_nonneg (a 1), sq_nonneg (a 2)]
    have h2 : a 2 = 0 := by nlinarith [sq_nonneg (a 0), sq_nonneg (a 1), sq_nonneg (a 2)]
    fin_cases i
    · exact h0
    · exact h1
    · exact h2
  · rintro rfl; simp [norm, dot]

theorem norm_pos {a : V3} (h : a ≠ 0) : 0 < norm a := lt_of_le_of_ne (norm_nonneg a) (fun hh => h (norm_eq_zero.1 hh.symm))

theorem norm_le_iff {a b : V3} : norm a ≤ norm b ↔ dot a a ≤ dot b b := Real.sqrt_le_sqrt_iff (dot_self_nonneg b)

theorem norm_smul (t : ℝ) (a : V3) : norm (t • a) = |t| * norm a := by
  have h : dot (t • a) (t • a) = (|t| * norm a) * (|t| * norm a) := by
    have h1 : (|t| * norm a) * (|t| * norm a) = (|t| * |t|) * (norm a * norm a) := by ring
    rw [h1, norm_sq, abs_mul_abs_self, dot_eq, dot_eq]; simp only [Pi.smul_apply, smul_eq_mul]; ring
  unfold norm at *
  rw [h, Real.sqrt_mul_self (by positivity)]

theorem normalized_pos {a : V3} (h : a ≠ 0) : normalized a = (norm a)⁻¹ • a := by
  have := norm_pos h
  unfold normalized
  rw [if_pos]
  rw [← norm_sq]; positivity

theorem norm_normalized {a : V3} (h : a ≠ 0) : norm (normalized a) = 1 := by
  have := norm_pos h
  rw [normalized_pos h, norm_smul, abs_of_pos (by positivity)]
  field_simp

theorem dot_smul (s t : ℝ) (a b : V3) : dot (s • a) (t • b) = s * t * dot a b := by
  rw [dot_eq, dot_eq]; simp only [Pi.smul_apply, smul_eq_mul]; ring

/-- Beyond the bisector of `p` and another point, the pulled-back distance is positive and at most 0.99 of the distance. -/
theorem pull_step {u w : V3} (hw : w ≠ 0) (h : norm (u - w) ≤ norm u) :
    dot (normalized u) (normalized w) ≠ 0 ∧ 0 < 0.99 * (norm w / 2) / dot (normalized u) (normalized w) ∧
    0.99 * (norm w / 2) / dot (normalized u) (normalized w) ≤ 0.99 * norm u := by
  have hwp := norm_pos hw
  rw [norm_le_iff] at h
  have h2 : dot w w ≤ 2 * dot u w := by
    have : dot (u - w) (u - w) = dot u u - 2 * dot u w + dot w w := by
      simp only [dot_eq, Pi.sub_apply]; ring
    linarith
  have hww : 0 < dot w w := by rw [← norm_sq]; positivity
  have huw : 0 < dot u w := by linarith
  have hu : u ≠ 0 := by rintro rfl; simp [dot] at huw
  have hup := norm_pos hu
  have hc : dot (normalized u) (normalized w) = dot u w / (norm u * norm w) := by
    rw [normalized_pos hu, normalized_pos hw, dot_smul]; field_simp
  have hcp : 0 < dot (normalized u) (normalized w) := by rw [hc]; positivity
  refine ⟨hcp.ne', by positivity, ?_⟩
  rw [hc, div_div_eq_mul_div, div_le_iff₀ huw]
  have : norm w / 2 * (norm u * norm w) = norm u * (dot w w / 2) := by rw [← norm_sq]; ring
  have h3 : 0.99 * (norm w / 2) * (norm u * norm w) = 0.99 * norm u * (dot w w / 2) := by rw [mul_assoc, this]; ring
  rw [h3]
  have : 0 ≤ 0.99 * norm u := by positivity
  nlinarith

/-! ## The loop -/

variable {c : Data}

theorem at_sub (i : Nat) (v : ℝ) : c.at i v - c.point i = v • c.normal i := by
  unfold Data.at; abel

theorem nearest_spec (hk : KnnOk c.n c.point c.knn) (hn : 0 < c.n) (q : V3) :
    (c.knn q 1).headD 0 < c.n ∧ ∀ m < c.n, norm (q - c.point ((c.knn q 1).headD 0)) ≤ norm (q - c.point m) := by
  obtain ⟨h1, -, h3, h4⟩ := hk q 1 (by omega) hn
  obtain ⟨j, hj⟩ := List.length_eq_one_iff.1 h1
  rw [hj] at h3 h4 ⊢
  refine ⟨h3 j (by simp), fun m hm => ?_⟩
  by_cases hmj : m = j
  · subst hmj; exact le_refl _
  · exact h4 j (by simp) m hm (by simp [hmj])

theorem sign_abs {sign d : ℝ} (hs : sign = -1 ∨ sign = 1) (hd : 0 ≤ d) : |sign * d| = d ∧ sign * (sign * d) = d := by
  rcases hs with rfl | rfl
  · simp [abs_of_nonneg hd]
  · simp [abs_of_nonneg hd]

theorem offset_sub_norm {sign d : ℝ} (hs : sign = -1 ∨ sign = 1) (hd : 0 ≤ d) {i : Nat} (hu : norm (c.normal i) = 1) :
    norm (c.at i (sign * d) - c.point i) = d := by
  rw [at_sub, norm_smul, hu, mul_one, (sign_abs hs hd).1]

open Classical in
/-- Whatever the fuel: if the loop finishes, the result is as required. -/
theorem pull_correct (hk : KnnOk c.n c.point c.knn) {sign : ℝ} (hs : sign = -1 ∨ sign = 1) {i : Nat} (hi : i < c.n)
    (hu : norm (c.normal i) = 1) : ∀ (fuel : Nat) (d0 d : ℝ), 0 ≤ d0 → pull c sign i fuel d0 = .done d →
    0 ≤ d ∧ d ≤ d0 ∧ (∀ j < c.n, norm (c.at i (sign * d) - c.point i) ≤ norm (c.at i (sign * d) - c.point j)) ∧
    (0 < d0 → 0 < d) ∧ ((∀ j < c.n, j ≠ i → norm (c.at i (sign * d0) - c.point i) < norm (c.at i (sign * d0) - c.point j)) → d = d0) := by
  intro fuel
  induction fuel with
  | zero => intro d0 d _ h; cases h
  | succ fuel ih =>
      intro d0 d hd0 h
      rw [pull] at h
      dsimp only at h
      have hnear := nearest_spec hk (by omega) (c.at i (sign * d0))
      split at h
      · rename_i hni
        cases h
        rw [hni] at hnear
        exact ⟨hd0, le_refl _, hnear.2, fun h => h, fun _ => rfl⟩
      · split at h
        · cases h
        · rename_i hni hcos
          set near := (c.knn (c.at i (sign * d0)) 1).headD 0
          have hle := hnear.2 i hi
          have hw : c.point near - c.point i ≠ 0 := by
            intro hw
            apply hcos
            rw [hw]
            simp [normalized, dot]
          obtain ⟨-, h2, h3⟩ := pull_step (u := c.at i (sign * d0) - c.point i) hw (by
            have : c.at i (sign * d0) - c.point i - (c.point near - c.point i) = c.at i (sign * d0) - c.point near := by abel
            rw [this]; exact hle)
          rw [offset_sub_norm hs hd0 hu] at h3
          obtain ⟨h4, h5, h6, h7, -⟩ := ih _ d h2.le h
          exact ⟨h4, by linarith, h6, fun _ => h7 h2, fun hst => absurd (hst near hnear.1 hni) (not_lt.2 hle)⟩

theorem start_nonneg (c : Data) (offset : ℝ) (i : Nat) : 0 ≤ start c offset i := by
  unfold start
  split
  · generalize List.map _ _ = l
    have : ∀ (l : List ℝ) (a : ℝ), a ≤ l.foldl max a := by
      intro l
      induction l with
      | nil => intro a; exact le_refl a
      | cons x l ih => intro a; exact le_trans (le_max_left a x) (ih _)
    exact this l 0
  · linarith

theorem foldl_max_mem : ∀ (l : List ℝ) (a : ℝ), l.foldl max a = a ∨ l.foldl max a ∈ l
  | [], _ => Or.inl rfl
  | x :: l, a => by
      rcases foldl_max_mem l (max a x) with h | h
      · rw [List.foldl_cons, h]
        rcases max_choice a x with h1 | h1
        · exact Or.inl h1
        · exact Or.inr (by rw [h1]; exact List.mem_cons_self)
      · exact Or.inr (List.mem_cons_of_mem _ h)

theorem le_foldl_max : ∀ (l : List ℝ) (a : ℝ), a ≤ l.foldl max a ∧ ∀ x ∈ l, x ≤ l.foldl max a
  | [], a => ⟨le_refl a, fun _ h => absurd h (by simp)⟩
  | x :: l, a => by
      have h := le_foldl_max l (max a x)
      refine ⟨le_trans (le_max_left a x) h.1, fun y hy => ?_⟩
      rcases List.mem_cons.1 hy with rfl | hy
      · exact le_trans (le_max_right a y) h.1
      · exact h.2 y hy

open Classical in
/-- The automatic offset is the distance of one of the six nearest points. -/
theorem start_auto (hk : KnnOk c.n c.point c.knn) {offset : ℝ} (ho : offset ≤ 0) {i : Nat} (hi : i < c.n) :
    ∃ j < c.n, start c offset i = norm (c.point j - c.point i) ∧
      ((List.range c.n).countP (fun k => decide (norm (c.point k - c.point i) < norm (c.point j - c.point i)))) < 6 := by
  obtain ⟨h1, h2, h3, h4⟩ := hk (c.point i) (min 6 c.n) (by omega) (by omega)
  have hst : start c offset i =
      ((c.knn (c.point i) (min 6 c.n)).map (fun j => norm (c.point j - c.point i))).foldl max 0 := by
    unfold start; rw [if_pos ho]
  generalize hl : c.knn (c.point i) (min 6 c.n) = nn at h1 h2 h3 h4 hst
  have hsym : ∀ a b : V3, norm (a - b) = norm (b - a) := fun a b => by
    have := norm_smul (-1) (a - b)
    rw [abs_neg, abs_one, one_mul] at this
    rw [← this, neg_one_smul, neg_sub]
  have hmem : ∃ j ∈ nn, start c offset i = norm (c.point j - c.point i) := by
    rcases foldl_max_mem (nn.map (fun j => norm (c.point j - c.point i))) 0 with h | h
    · obtain ⟨j, hj⟩ : ∃ j, j ∈ nn := by
        cases nn with
        | nil => simp at h1; omega
        | cons j _ => exact ⟨j, List.mem_cons_self⟩
      refine ⟨j, hj, le_antisymm ?_ ?_⟩
      · rw [hst, h]; exact norm_nonneg _
      · rw [hst]
        exact (le_foldl_max _ 0).2 _ (List.mem_map.2 ⟨j, hj, rfl⟩)
    · obtain ⟨j, hj, he⟩ := List.mem_map.1 h
      exact ⟨j, hj, by rw [hst, ← he]⟩
  obtain ⟨j, hj, he⟩ := hmem
  refine ⟨j, h3 j hj, he, ?_⟩
  -- the closer points are among the answer, and are not the point itself
  have hsub : ((List.range c.n).filter (fun k => decide (norm (c.point k - c.point i) < norm (c.point j - c.point i)))) ⊆ nn.erase j := by
    intro k hk'
    rw [List.mem_filter, List.mem_range, decide_eq_true_eq] at hk'
    have hkj : k ≠ j := by rintro rfl; exact lt_irrefl _ hk'.2
    rw [List.mem_erase_of_ne hkj]
    by_contra hkn
    have := h4 j hj k hk'.1 hkn
    rw [hsym (c.point i), hsym (c.point i)] at this
    exact absurd hk'.2 (not_lt.2 this)
  rw [List.countP_eq_length_filter]
  have hnd : ((List.range c.n).filter (fun k => decide (norm (c.point k - c.point i) < norm (c.point j - c.point i)))).Nodup :=
    List.Nodup.filter _ List.nodup_range
  have := (List.subperm_of_subset hnd hsub).length_le
  rw [List.length_erase_of_mem hj] at this
  have hpos := List.length_pos_of_mem hj
  omega

open Classical in
/-- The first distance is not zero if no other point is at the same place. -/
theorem start_pos (hk : KnnOk c.n c.point c.knn) {offset : ℝ} {i : Nat} (hi : i < c.n) (h : 0 < offset ∨ ∃ j < c.n, j ≠ i)
    (hd : ∀ j < c.n, j ≠ i → c.point j ≠ c.point i) : 0 < start c offset i := by
  by_cases ho : offset ≤ 0
  · obtain ⟨j0, hj0, hji⟩ := h.resolve_left (not_lt.2 ho)
    obtain ⟨h1, h2, h3, -⟩ := hk (c.point i) (min 6 c.n) (by omega) (by omega)
    have hst : start c offset i =
        ((c.knn (c.point i) (min 6 c.n)).map (fun j => norm (c.point j - c.point i))).foldl max 0 := by
      unfold start; rw [if_pos ho]
    obtain ⟨j, hj, hne⟩ : ∃ j ∈ c.knn (c.point i) (min 6 c.n), j ≠ i := by
      by_contra hall
      push Not at hall
      have : (c.knn (c.point i) (min 6 c.n)) ⊆ [i] := fun k hk' => by simp [hall k hk']
      have := (List.subperm_of_subset h2 this).length_le
      rw [h1] at this
      simp at this
      omega
    rw [hst]
    refine lt_of_lt_of_le (norm_pos (sub_ne_zero.2 (hd j (h3 j hj) hne))) ((le_foldl_max _ 0).2 _ (List.mem_map.2 ⟨j, hj, rfl⟩))
  · unfold start; rw [if_neg ho]; exact not_le.1 ho

/-- The points that get offset points. -/
def Oriented (c : Data) (i : Nat) : Prop := ¬ isZero (c.normal i)

open Classical in
theorem sweep_correct (hk : KnnOk c.n c.point c.knn) {sign : ℝ} (hs : sign = -1 ∨ sign = 1)
    (hu : ∀ i < c.n, isZero (c.normal i) ∨ norm (c.normal i) = 1) (offset : ℝ) (fuel : Nat) : ∀ (is : List Nat),
    (∀ i ∈ is, i < c.n) → ∀ l, sweep c offset sign fuel is = .done l →
    List.Forall₂ (OffsetPoint c offset sign) (is.filter (fun i => decide (Oriented c i))) l := by
  intro is
  induction is with
  | nil => intro _ l h; cases h; exact List.Forall₂.nil
  | cons i is ih =>
      intro hlt l h
      rw [sweep] at h
      split at h
      · rename_i hz
        have ho : ¬ Oriented c i := not_not.2 hz
        rw [List.filter_cons_of_neg (by simpa using ho)]
        exact ih (fun j hj => hlt j (by simp [hj])) l h
      · rename_i hz
        have ho : Oriented c i := hz
        rw [List.filter_cons_of_pos (by simpa using ho)]
        cases hp : pull c sign i fuel (start c offset i) with
        | nan => rw [hp] at h; cases h
        | running => rw [hp] at h; cases h
        | done d =>
            cases hsw : sweep c offset sign fuel is with
            | nan => rw [hp, hsw] at h; cases h
            | running => rw [hp, hsw] at h; cases h
            | done rest =>
                rw [hp, hsw] at h
                cases h
                have hi := hlt i (by simp)
                have hui := (hu i hi).resolve_left hz
                obtain ⟨h1, h2, h3, h4, h5⟩ := pull_correct hk hs hi hui fuel _ d (start_nonneg c offset i) hp
                refine List.Forall₂.cons ⟨rfl, ?_, ?_, ?_, ?_, ?_, ?_, h3⟩ (ih (fun j hj => hlt j (by simp [hj])) rest hsw)
                · dsimp only; rw [(sign_abs hs h1).2]; exact h1
                · intro ho
                  dsimp only; rw [(sign_abs hs h1).1]
                  unfold start at h2
                  rwa [if_neg (not_le.2 ho)] at h2
                · intro ho
                  obtain ⟨j, hj, hje, hjc⟩ := start_auto hk ho hi
                  refine ⟨j, hj, ?_, hjc⟩
                  dsimp only; rw [(sign_abs hs h1).1, ← hje]; exact h2
                · intro ha hd
                  dsimp only; rw [(sign_abs hs h1).2]
                  exact h4 (start_pos hk hi ha hd)
                · intro ho hall
                  have hst : start c offset i = offset := by unfold start; rw [if_neg (not_le.2 ho)]
                  rw [hst] at h5
                  dsimp only
                  rw [h5 hall]
                · dsimp only; rw [offset_sub_norm hs h1 hui, (sign_abs hs h1).1]

open Classical in
/-- **C47**, partial correctness: for every cloud with unit or zero normals, every correct tree, every offset: if the generator
finishes, its data are the input points with value zero, then one offset point on the negative side and one on the positive
side for each point with a non-zero normal, in order. -/
theorem C47_result (hk : KnnOk c.n c.point c.knn) (hu : ∀ i < c.n, isZero (c.normal i) ∨ norm (c.normal i) = 1)
    (offset : ℝ) (fuel : Nat) (l : List (V3 × ℝ)) (h : estimateImpl c offset fuel = .done l) :
    ∃ neg pos, l = (List.range c.n).map (fun i => (c.point i, 0)) ++ neg ++ pos ∧
      List.Forall₂ (OffsetPoint c offset (-1)) ((List.range c.n).filter (fun i => decide (Oriented c i))) neg ∧
      List.Forall₂ (OffsetPoint c offset 1) ((List.range c.n).filter (fun i => decide (Oriented c i))) pos := by
  unfold estimateImpl at h
  cases h1 : sweep c offset (-1) fuel (List.range c.n) with
  | nan => rw [h1] at h; cases h
  | running => rw [h1] at h; cases h
  | done neg =>
      cases h2 : sweep c offset 1 fuel (List.range c.n) with
      | nan => rw [h1, h2] at h; cases h
      | running => rw [h1, h2] at h; cases h
      | done pos =>
          rw [h1, h2] at h
          cases h
          exact ⟨neg, pos, rfl, sweep_correct hk (Or.inl rfl) hu offset fuel _ (fun i hi => List.mem_range.1 hi) neg h1,
            sweep_correct hk (Or.inr rfl) hu offset fuel _ (fun i hi => List.mem_range.1 hi) pos h2⟩

/-! ## Termination -/

theorem norm_triangle (a b : V3) : norm (a + b) ≤ norm a + norm b := by
  have h : dot (a + b) (a + b) ≤ (norm a + norm b) * (norm a + norm b) := by
    have h1 : (norm a + norm b) * (norm a + norm b) = dot a a + 2 * (norm a * norm b) + dot b b := by
      rw [← norm_sq, ← norm_sq]; ring
    have h2 : dot (a + b) (a + b) = dot a a + 2 * dot a b + dot b b := by simp only [dot_eq, Pi.add_apply]; ring
    have h3 : dot a b ≤ norm a * norm b := by
      apply le_of_sq_le_sq _ (mul_nonneg (norm_nonneg a) (norm_nonneg b)) |> fun h => h
      have : (norm a * norm b) ^ 2 = dot a a * dot b b := by rw [← norm_sq, ← norm_sq]; ring
      rw [this]
      simp only [dot_eq]
      nlinarith [sq_nonneg (a 0 * b 1 - a 1 * b 0), sq_nonneg (a 0 * b 2 - a 2 * b 0), sq_nonneg (a 1 * b 2 - a 2 * b 1)]
    rw [h1, h2]; linarith
  have h0 : 0 ≤ norm a + norm b := add_nonneg (norm_nonneg a) (norm_nonneg b)
  calc norm (a + b) ≤ Real.sqrt ((norm a + norm b) * (norm a + norm b)) := Real.sqrt_le_sqrt h
    _ = norm a + norm b := Real.sqrt_mul_self h0

open Classical in
theorem pull_ends (hk : KnnOk c.n c.point c.knn) {sign : ℝ} (hs : sign = -1 ∨ sign = 1) {i : Nat} (hi : i < c.n)
    (hu : norm (c.normal i) = 1) {δ : ℝ} (hδ : 0 < δ) (hsep : ∀ j < c.n, j ≠ i → δ ≤ norm (c.point j - c.point i)) :
    ∀ (f fuel : Nat) (d : ℝ), f < fuel → 0 ≤ d → d * 0.99 ^ f < δ / 2 → ∃ d', pull c sign i fuel d = .done d' := by
  intro f
  induction f with
  | zero =>
      intro fuel d hf hd hlt
      obtain ⟨fuel, rfl⟩ : ∃ k, fuel = k + 1 := ⟨fuel - 1, by omega⟩
      rw [pull]
      dsimp only
      have hnear := nearest_spec hk (by omega) (c.at i (sign * d))
      set near := (c.knn (c.at i (sign * d)) 1).headD 0
      by_cases hni : near = i
      · rw [if_pos hni]; exact ⟨d, rfl⟩
      · exfalso
        have h1 := hnear.2 i hi
        rw [offset_sub_norm hs hd hu] at h1
        have h2 := hsep near hnear.1 hni
        have h3 := norm_triangle (c.at i (sign * d) - c.point i) ((-1 : ℝ) • (c.at i (sign * d) - c.point near))
        have h4 : c.at i (sign * d) - c.point i + (-1 : ℝ) • (c.at i (sign * d) - c.point near) = c.point near - c.point i := by
          rw [neg_one_smul]; abel
        rw [h4, norm_smul, offset_sub_norm hs hd hu] at h3
        simp only [abs_neg, abs_one, one_mul, pow_zero, mul_one] at h3 hlt
        linarith
  | succ f ih =>
      intro fuel d hf hd hlt
      obtain ⟨fuel, rfl⟩ : ∃ k, fuel = k + 1 := ⟨fuel - 1, by omega⟩
      rw [pull]
      dsimp only
      have hnear := nearest_spec hk (by omega) (c.at i (sign * d))
      set near := (c.knn (c.at i (sign * d)) 1).headD 0
      by_cases hni : near = i
      · rw [if_pos hni]; exact ⟨d, rfl⟩
      · have hw : c.point near - c.point i ≠ 0 := by
          intro hw
          have := hsep near hnear.1 hni
          rw [hw, norm_eq_zero.2 rfl] at this
          linarith
        obtain ⟨h1, h2, h3⟩ := pull_step (u := c.at i (sign * d) - c.point i) hw (by
          have : c.at i (sign * d) - c.point i - (c.point near - c.point i) = c.at i (sign * d) - c.point near := by abel
          rw [this]; exact hnear.2 i hi)
        rw [offset_sub_norm hs hd hu] at h3
        rw [if_neg hni, if_neg h1]
        refine ih fuel _ (by omega) h2.le ?_
        refine lt_of_le_of_lt ?_ hlt
        rw [pow_succ, mul_comm (0.99 ^ f) (0.99 : ℝ), ← mul_assoc]
        exact mul_le_mul_of_nonneg_right (by linarith) (by positivity)

/-- Distinct points are separated. -/
theorem separated {n : Nat} {point : Nat → V3} (hd : ∀ i < n, ∀ j < n, i ≠ j → point i ≠ point j) {i : Nat} (hi : i < n) :
    ∃ δ > 0, ∀ j < n, j ≠ i → δ ≤ norm (point j - point i) := by
  have : ∀ m ≤ n, ∃ δ > 0, ∀ j < m, j ≠ i → δ ≤ norm (point j - point i) := by
    intro m
    induction m with
    | zero => intro _; exact ⟨1, by norm_num, fun j hj => absurd hj (by omega)⟩
    | succ m ih =>
        intro hm
        obtain ⟨δ, hδ, h⟩ := ih (by omega)
        by_cases hmi : m = i
        · refine ⟨δ, hδ, fun j hj hji => h j ?_ hji⟩
          omega
        · have hp : 0 < norm (point m - point i) := norm_pos (sub_ne_zero.2 (hd m (by omega) i hi hmi))
          refine ⟨min δ (norm (point m - point i)), lt_min hδ hp, fun j hj hji => ?_⟩
          by_cases hjm : j = m
          · subst hjm; exact min_le_right _ _
          · exact le_trans (min_le_left _ _) (h j (by omega) hji)
  exact this n le_rfl

open Classical in
theorem sweep_ends (hk : KnnOk c.n c.point c.knn) (hd : ∀ i < c.n, ∀ j < c.n, i ≠ j → c.point i ≠ c.point j)
    {sign : ℝ} (hs : sign = -1 ∨ sign = 1) (hu : ∀ i < c.n, isZero (c.normal i) ∨ norm (c.normal i) = 1) (offset : ℝ) :
    ∀ (is : List Nat), (∀ i ∈ is, i < c.n) → ∃ f0, ∀ fuel ≥ f0, ∃ l, sweep c offset sign fuel is = .done l := by
  intro is
  induction is with
  | nil => intro _; exact ⟨0, fun _ _ => ⟨[], rfl⟩⟩
  | cons i is ih =>
      intro hlt
      obtain ⟨f0, hf0⟩ := ih (fun j hj => hlt j (by simp [hj]))
      by_cases hz : isZero (c.normal i)
      · refine ⟨f0, fun fuel hfuel => ?_⟩
        obtain ⟨l, hl⟩ := hf0 fuel hfuel
        exact ⟨l, by rw [sweep, if_pos hz]; exact hl⟩
      · have hi := hlt i (by simp)
        obtain ⟨δ, hδ, hsep⟩ := separated hd hi
        have hst := start_nonneg c offset i
        obtain ⟨f1, hf1⟩ : ∃ f1 : Nat, start c offset i * 0.99 ^ f1 < δ / 2 := by
          rcases hst.eq_or_lt with h0 | h0
          · exact ⟨0, by rw [← h0, zero_mul]; linarith⟩
          · obtain ⟨f1, hf1⟩ := exists_pow_lt_of_lt_one (show (0 : ℝ) < δ / 2 / start c offset i by positivity)
              (show (0.99 : ℝ) < 1 by norm_num)
            refine ⟨f1, ?_⟩
            rw [lt_div_iff₀ h0] at hf1
            rw [mul_comm]; exact hf1
        refine ⟨max f0 (f1 + 1), fun fuel hfuel => ?_⟩
        obtain ⟨d, hd'⟩ := pull_ends hk hs hi ((hu i hi).resolve_left hz) hδ hsep f1 fuel (start c offset i) (by omega) hst hf1
        obtain ⟨l, hl⟩ := hf0 fuel (by omega)
        exact ⟨_, by rw [sweep, if_neg hz, hd', hl]; rfl⟩

/-- **C47**, termination: with pairwise distinct points and unit or zero normals the generator always finishes. -/
theorem C47_ends (hk : KnnOk c.n c.point c.knn) (hd : ∀ i < c.n, ∀ j < c.n, i ≠ j → c.point i ≠ c.point j)
    (hu : ∀ i < c.n, isZero (c.normal i) ∨ norm (c.normal i) = 1) (offset : ℝ) :
    ∃ f0, ∀ fuel ≥ f0, ∃ l, estimateImpl c offset fuel = .done l := by
  obtain ⟨f1, h1⟩ := sweep_ends hk hd (Or.inl rfl) hu offset (List.range c.n) (fun i hi => List.mem_range.1 hi)
  obtain ⟨f2, h2⟩ := sweep_ends hk hd (Or.inr rfl) hu offset (List.range c.n) (fun i hi => List.mem_range.1 hi)
  refine ⟨max f1 f2, fun fuel hfuel => ?_⟩
  obtain ⟨l1, hl1⟩ := h1 fuel (by omega)
  obtain ⟨l2, hl2⟩ := h2 fuel (by omega)
  exact ⟨_, by unfold estimateImpl; rw [hl1, hl2]; rfl⟩

/-! ## The constructor -/

/-- C47: wrong shapes and anisotropy matrices without positive determinant are refused. -/
theorem C47_arguments (c : Data) (m : Nat) (offset : ℝ) (a : Matrix (Fin 3) (Fin 3) ℝ) (knn' : V3 → Nat → List Nat) (fuel : Nat) :
    (m ≠ c.n ∨ a.det ≤ 0 → construct c m offset a knn' fuel = .throws .invalidArgument) ∧
    (m = c.n → isIdentity a → 0 < a.det → construct c m offset a knn' fuel = .ok (estimateImpl c offset fuel)) := by
  unfold construct
  refine ⟨?_, ?_⟩
  · rintro (h | h)
    · rw [if_pos h]
    · split
      · rfl
      · rw [if_pos (by simpa using h)]
  · intro h1 h2 h3
    rw [if_neg (by simpa using h1), if_neg (by simpa using h3), if_pos h2]

open Classical in
/-- **C47** with anisotropy: the input points come first with value zero, and for the offset points everything holds in the
transformed space: the value is the signed distance between the images, and the image of the origin is the nearest image.
The direction is that of the transformed normal.  No assumption on the lengths of the normals is needed. -/
theorem C47_anisotropic (c : Data) (offset : ℝ) (a : Matrix (Fin 3) (Fin 3) ℝ) (knn' : V3 → Nat → List Nat) (fuel : Nat)
    (ha : 0 < a.det) (hid : ¬ isIdentity a) (hk : KnnOk c.n (fun i => a.mulVec (c.point i)) knn') (l : List (V3 × ℝ))
    (h : construct c c.n offset a knn' fuel = .ok (.done l)) :
    ∃ neg pos, l = (List.range c.n).map (fun i => (c.point i, 0)) ++ neg ++ pos ∧
      List.Forall₂ (fun i e => OffsetPoint (transformed a c knn') offset (-1) i (a.mulVec e.1, e.2))
        ((List.range c.n).filter (fun i => decide (Oriented (transformed a c knn') i))) neg ∧
      List.Forall₂ (fun i e => OffsetPoint (transformed a c knn') offset 1 i (a.mulVec e.1, e.2))
        ((List.range c.n).filter (fun i => decide (Oriented (transformed a c knn') i))) pos := by
  unfold construct at h
  rw [if_neg (by simp), if_neg (by simpa using ha), if_neg hid] at h
  have hdet : IsUnit a.det := IsUnit.mk0 _ ha.ne'
  have hinv1 : ∀ v : V3, a⁻¹.mulVec (a.mulVec v) = v := fun v => by
    rw [Matrix.mulVec_mulVec, Matrix.nonsing_inv_mul a hdet, Matrix.one_mulVec]
  have hinv2 : ∀ v : V3, a.mulVec (a⁻¹.mulVec v) = v := fun v => by
    rw [Matrix.mulVec_mulVec, Matrix.mul_nonsing_inv a hdet, Matrix.one_mulVec]
  cases he : estimateImpl (transformed a c knn') offset fuel with
  | nan => rw [he] at h; cases h
  | running => rw [he] at h; cases h
  | done l' =>
      rw [he] at h
      cases h
      have hu : ∀ i < (transformed a c knn').n, isZero ((transformed a c knn').normal i) ∨
          norm ((transformed a c knn').normal i) = 1 := by
        intro i _
        simp only [transformed]
        split
        · rename_i hz; exact Or.inl hz
        · rename_i hz
          right
          apply norm_normalized
          intro h0
          apply hz
          rw [h0]
          intro j; norm_num
      obtain ⟨neg, pos, h1, h2, h3⟩ := C47_result (c := transformed a c knn') hk hu offset fuel l' he
      refine ⟨neg.map (fun e => (a⁻¹.mulVec e.1, e.2)), pos.map (fun e => (a⁻¹.mulVec e.1, e.2)), ?_, ?_, ?_⟩
      · rw [h1, List.map_append, List.map_append, List.map_map]
        congr 2
        apply List.map_congr_left
        intro i _
        simp only [Function.comp, transformed, hinv1]
      · rw [List.forall₂_map_right_iff]
        simp only [hinv2]; exact h2
      · rw [List.forall₂_map_right_iff]
        simp only [hinv2]; exact h3

/-- **C47** with anisotropy, termination: with pairwise distinct points the generator always finishes, whatever the lengths of the
normals. -/
theorem C47_anisotropic_ends (c : Data) (offset : ℝ) (a : Matrix (Fin 3) (Fin 3) ℝ) (knn' : V3 → Nat → List Nat)
    (ha : 0 < a.det) (hid : ¬ isIdentity a) (hk : KnnOk c.n (fun i => a.mulVec (c.point i)) knn')
    (hd : ∀ i < c.n, ∀ j < c.n, i ≠ j → c.point i ≠ c.point j) :
    ∃ f0, ∀ fuel ≥ f0, ∃ l, construct c c.n offset a knn' fuel = .ok (.done l) := by
  have hdet : IsUnit a.det := IsUnit.mk0 _ ha.ne'
  have hinv1 : ∀ v : V3, a⁻¹.mulVec (a.mulVec v) = v := fun v => by
    rw [Matrix.mulVec_mulVec, Matrix.nonsing_inv_mul a hdet, Matrix.one_mulVec]
  have hu : ∀ i < (transformed a c knn').n, isZero ((transformed a c knn').normal i) ∨
      norm ((transformed a c knn').normal i) = 1 := by
    intro i _
    simp only [transformed]
    split
    · rename_i hz; exact Or.inl hz
    · rename_i hz
      right
      apply norm_normalized
      intro h0
      apply hz
      rw [h0]
      intro j; norm_num
  have hd' : ∀ i < (transformed a c knn').n, ∀ j < (transformed a c knn').n, i ≠ j →
      (transformed a c knn').point i ≠ (transformed a c knn').point j := by
    intro i hi j hj hij he
    refine hd i hi j hj hij ?_
    have := congrArg (a⁻¹.mulVec ·) he
    simpa only [transformed, hinv1] using this
  obtain ⟨f0, h0⟩ := C47_ends (c := transformed a c knn') hk hd' hu offset
  refine ⟨f0, fun fuel hf => ?_⟩
  obtain ⟨l, hl⟩ := h0 fuel hf
  refine ⟨l.map fun e => (a⁻¹.mulVec e.1, e.2), ?_⟩
  unfold construct
  rw [if_neg (by simp), if_neg (by simpa using ha), if_neg hid, hl]
  rfl

/-- C47 with anisotropy: the direction at a transformed point is perpendicular to the image of every direction the normal is
perpendicular to, on the same side, and of length one - whatever tree is used. -/
theorem C47_directions (c : Data) (a : Matrix (Fin 3) (Fin 3) ℝ) (knn' : V3 → Nat → List Nat) (ha : 0 < a.det) (i : Nat)
    (ho : Oriented (transformed a c knn') i) :
    (∀ v, dot (c.normal i) v = 0 → dot ((transformed a c knn').normal i) (a.mulVec v) = 0) ∧
    0 < dot ((transformed a c knn').normal i) (a.mulVec (c.normal i)) ∧ norm ((transformed a c knn').normal i) = 1 ∧
    (transformed a c knn').point i = a.mulVec (c.point i) := by
  have hdet : IsUnit a.det := IsUnit.mk0 _ ha.ne'
  have hz : ¬ isZero (a⁻¹.transpose.mulVec (c.normal i)) := by
    intro hz
    apply ho
    simp only [transformed, if_pos hz]
    exact hz
  have h0 : a⁻¹.transpose.mulVec (c.normal i) ≠ 0 := by
    intro h0
    apply hz
    rw [h0]
    intro j; norm_num
  have hn : (transformed a c knn').normal i = (norm (a⁻¹.transpose.mulVec (c.normal i)))⁻¹ • a⁻¹.transpose.mulVec (c.normal i) := by
    simp only [transformed, if_neg hz]
    exact normalized_pos h0
  have key : ∀ v, dot (a⁻¹.transpose.mulVec (c.normal i)) (a.mulVec v) = dot (c.normal i) v := by
    intro v
    have h1 : ∀ x y : V3, dot x y = x ⬝ᵥ y := fun x y => rfl
    rw [h1, h1, Matrix.mulVec_transpose, ← Matrix.dotProduct_mulVec, Matrix.mulVec_mulVec, Matrix.nonsing_inv_mul a hdet,
      Matrix.one_mulVec]
  have hp := norm_pos h0
  have hcn : c.normal i ≠ 0 := by
    intro hc
    apply h0
    rw [hc, Matrix.mulVec_zero]
  refine ⟨fun v hv => ?_, ?_, ?_, rfl⟩
  · have := dot_smul (norm (a⁻¹.transpose.mulVec (c.normal i)))⁻¹ 1 (a⁻¹.transpose.mulVec (c.normal i)) (a.mulVec v)
    rw [one_smul] at this
    rw [hn, this, key, hv, mul_zero]
  · have := dot_smul (norm (a⁻¹.transpose.mulVec (c.normal i)))⁻¹ 1 (a⁻¹.transpose.mulVec (c.normal i)) (a.mulVec (c.normal i))
    rw [one_smul] at this
    rw [hn, this, key, ← norm_sq]
    have := norm_pos hcn
    positivity
  · simp only [transformed, if_neg hz]
    exact norm_normalized h0

/-! ## What goes wrong otherwise -/

/-- Without unit normals the value is not the distance: it is off by the length of the normal. -/
theorem C47_value_scales (i : Nat) (v : ℝ) : norm (c.at i v - c.point i) = |v| * norm (c.normal i) := by
  rw [at_sub, norm_smul]

open Classical in
/-- A repeated point: when the tree reports another copy of the point itself, the new distance is not a number. -/
theorem C47_duplicate_point_gives_nan (sign : ℝ) (i : Nat) (fuel : Nat) (d : ℝ)
    (hne : (c.knn (c.at i (sign * d)) 1).headD 0 ≠ i)
    (hsame : c.point ((c.knn (c.at i (sign * d)) 1).headD 0) = c.point i) : pull c sign i (fuel + 1) d = .nan := by
  rw [pull]
  dsimp only
  rw [if_neg hne, if_pos]
  rw [hsame, sub_self]
  simp [normalized, dot]

/-- Two points one apart, with a normal of length two along the line at the first. -/
noncomputable def longNormal : Data :=
  ⟨2, fun i => ![i, 0, 0], fun i => if i = 0 then ![2, 0, 0] else 0, fun q _ => if q 0 ≤ 1 / 2 then [0] else [1]⟩

open Classical in
/-- Normals longer than one can make the loop run for ever: whatever the fuel, it is still running. -/
theorem C47_long_normals_never_end (fuel : Nat) : estimateImpl longNormal 1 (fuel + 1) = .running := by
  have hp : ∀ fuel d, (d = 1 ∨ d = 0.99 / 2) → pull longNormal 1 0 fuel d = .running := by
    intro fuel
    induction fuel with
    | zero => intro d _; rfl
    | succ fuel ih =>
        intro d hd
        have hq : longNormal.at 0 (1 * d) = ![2 * d, 0, 0] := by
          funext j; fin_cases j <;> simp [Data.at, longNormal, mul_comm]
        have hnear : (longNormal.knn (longNormal.at 0 (1 * d)) 1).headD 0 = 1 := by
          rw [hq]
          have : ¬ ((![2 * d, 0, 0] : V3) 0 ≤ 1 / 2) := by
            rcases hd with rfl | rfl <;> norm_num
          simp only [longNormal, if_neg this, List.headD_cons]
        rw [pull]
        dsimp only
        rw [hnear, if_neg (by norm_num), hq]
        have hw : longNormal.point 1 - longNormal.point 0 = ![1, 0, 0] := by
          funext j; fin_cases j <;> simp [longNormal]
        have hv : (![2 * d, 0, 0] : V3) - longNormal.point 0 = ![2 * d, 0, 0] := by
          funext j; fin_cases j <;> simp [longNormal]
        have hd0 : 0 < d := by rcases hd with rfl | rfl <;> norm_num
        have hn1 : norm ![1, 0, 0] = 1 := by simp [norm, dot_eq]
        have hn2 : norm ![2 * d, 0, 0] = 2 * d := by
          simp only [norm, dot_eq, Matrix.cons_val_zero, Matrix.cons_val_one, Matrix.cons_val, mul_zero, add_zero]
          exact Real.sqrt_mul_self (by linarith)
        have hcos : dot (normalized ![2 * d, 0, 0]) (normalized ![1, 0, 0]) = 1 := by
          rw [normalized_pos (a := ![2 * d, 0, 0]) (by intro h; have := congrFun h 0; simp at this; linarith),
            normalized_pos (a := ![1, 0, 0]) (by intro h; have := congrFun h 0; simp at this), dot_smul, hn1, hn2, dot_eq]
          simp
          field_simp
        rw [hw, hv, hcos, if_neg (by norm_num), hn1]
        exact ih _ (Or.inr (by norm_num))
  have hneg : ∀ l : List Nat, ∃ r, sweep longNormal 1 (-1) (fuel + 1) l = .done r := by
    intro l
    induction l with
    | nil => exact ⟨[], rfl⟩
    | cons i l ih =>
        obtain ⟨r, hr⟩ := ih
        by_cases hz : isZero (longNormal.normal i)
        · exact ⟨r, by rw [sweep, if_pos hz]; exact hr⟩
        · have hi : i = 0 := by
            by_contra hi
            apply hz
            simp only [longNormal, if_neg hi]
            intro j; norm_num
          subst hi
          have hpl : pull longNormal (-1) 0 (fuel + 1) (start longNormal 1 0) = .done (start longNormal 1 0) := by
            rw [pull]
            dsimp only
            rw [if_pos]
            have hst : start longNormal 1 0 = 1 := by unfold start; rw [if_neg (by norm_num)]
            rw [hst]
            have : (longNormal.at 0 (-1 * 1)) 0 ≤ 1 / 2 := by
              simp [Data.at, longNormal]
              norm_num
            have h' : longNormal.knn (longNormal.at 0 (-1 * 1)) 1 = [0] := if_pos this
            rw [h']; rfl
          exact ⟨_, by rw [sweep, if_neg hz, hpl, hr]; rfl⟩
  unfold estimateImpl
  obtain ⟨r, hr⟩ := hneg (List.range longNormal.n)
  rw [hr]
  have hz : ¬ isZero (longNormal.normal 0) := by
    intro h
    have := h 0
    simp only [longNormal, if_true, Matrix.cons_val_zero] at this
    norm_num at this
  have hst : start longNormal 1 0 = 1 := by unfold start; rw [if_neg (by norm_num)]
  have : sweep longNormal 1 1 (fuel + 1) (List.range longNormal.n) = .running := by
    change sweep longNormal 1 1 (fuel + 1) [0, 1] = .running
    rw [sweep, if_neg hz, hst, hp _ 1 (Or.inl rfl)]
    rfl
  change (sweep longNormal 1 1 (fuel + 1) (List.range longNormal.n)).bind _ = _
  rw [this]
  rfl

/-- The tree of that example is a correct one for single neighbours: the hang is not the tree's fault. -/
example (q : V3) (m : Nat) (hm : m < 2) :
    norm (q - longNormal.point ((longNormal.knn q 1).headD 0)) ≤ norm (q - longNormal.point m) := by
  rw [norm_le_iff]
  have : m = 0 ∨ m = 1 := by omega
  by_cases h : q 0 ≤ 1 / 2 <;> rcases this with rfl | rfl <;> simp only [longNormal, if_pos, if_neg, h, List.headD_cons, dot_eq,
    Pi.sub_apply, not_false_eq_true, Matrix.cons_val_zero, Matrix.cons_val_one, Matrix.cons_val, Nat.cast_zero, Nat.cast_one] <;> nlinarith

/-! ## Example -/

/-- Two points one apart with unit normals pointing at each other. -/
noncomputable def facing : Data :=
  ⟨2, fun i => ![i, 0, 0], fun i => if i = 0 then ![1, 0, 0] else ![-1, 0, 0],
    fun q k => if k = 1 then (if q 0 ≤ 1 / 2 then [0] else [1]) else [0, 1]⟩

theorem facing_ok : KnnOk facing.n facing.point facing.knn := by
  intro q k h1 h2
  simp only [facing] at h2 ⊢
  by_cases hk : k = 1
  · subst hk
    by_cases h : q 0 ≤ 1 / 2
    · simp only [if_true, if_pos h]
      refine ⟨rfl, by simp, by simp, ?_⟩
      intro j hj m hm hm'
      simp only [List.mem_singleton] at hj hm'
      have : m = 1 := by omega
      subst this; subst hj
      rw [norm_le_iff]
      simp only [dot_eq, Pi.sub_apply, Matrix.cons_val_zero, Matrix.cons_val_one, Matrix.cons_val, Nat.cast_zero, Nat.cast_one]
      nlinarith
    · simp only [if_true, if_neg h]
      refine ⟨rfl, by simp, by simp, ?_⟩
      intro j hj m hm hm'
      simp only [List.mem_singleton] at hj hm'
      have : m = 0 := by omega
      subst this; subst hj
      rw [norm_le_iff]
      simp only [dot_eq, Pi.sub_apply, Matrix.cons_val_zero, Matrix.cons_val_one, Matrix.cons_val, Nat.cast_zero, Nat.cast_one]
      nlinarith
  · have : k = 2 := by omega
    subst this
    simp only [if_neg hk]
    refine ⟨rfl, by simp, by simp, ?_⟩
    intro j hj m hm hm'
    simp only [List.mem_cons, List.not_mem_nil, or_false, not_or] at hm'
    omega

/-- The hypotheses of `C47_result` and `C47_ends` are met by two points whose normals face each other, with an offset that passes
beyond the other point. -/
example : ∃ fuel l, estimateImpl facing 3 fuel = .done l := by
  obtain ⟨f0, h⟩ := C47_ends facing_ok (by
    intro i hi j hj hij h
    have := congrFun h 0
    simp [facing] at this
    exact hij this) (by
    intro i _
    right
    simp only [facing]
    split <;> simp [norm, dot_eq]) 3
  exact ⟨f0, h f0 (le_refl _)⟩

open Classical in
/-- C47_directions applies: stretched by two, the first of the facing points still has a direction. -/
example : Oriented (transformed ((2 : ℝ) • (1 : Matrix (Fin 3) (Fin 3) ℝ)) facing facing.knn) 0 := by
  have hinv : ((2 : ℝ) • (1 : Matrix (Fin 3) (Fin 3) ℝ))⁻¹ = (2⁻¹ : ℝ) • (1 : Matrix (Fin 3) (Fin 3) ℝ) := by
    apply Matrix.inv_eq_right_inv
    rw [Matrix.smul_mul, Matrix.mul_smul, smul_smul]
    norm_num
  have hm : ((2 : ℝ) • (1 : Matrix (Fin 3) (Fin 3) ℝ))⁻¹.transpose.mulVec (facing.normal 0) = ![2⁻¹, 0, 0] := by
    rw [hinv, Matrix.transpose_smul, Matrix.transpose_one, Matrix.smul_mulVec, Matrix.one_mulVec]
    funext j
    fin_cases j <;> simp [facing]
  have hz : ¬ isZero (![2⁻¹, 0, 0] : V3) := by
    intro h
    have := h 0
    simp only [Matrix.cons_val_zero] at this
    norm_num at this
  intro h
  have he : (transformed ((2 : ℝ) • (1 : Matrix (Fin 3) (Fin 3) ℝ)) facing facing.knn).normal 0 = normalized ![2⁻¹, 0, 0] := by
    show (if isZero (((2 : ℝ) • (1 : Matrix (Fin 3) (Fin 3) ℝ))⁻¹.transpose.mulVec (facing.normal 0)) then _ else
      normalized (((2 : ℝ) • (1 : Matrix (Fin 3) (Fin 3) ℝ))⁻¹.transpose.mulVec (facing.normal 0))) = _
    rw [hm, if_neg hz]
  rw [he] at h
  have hn : norm (![2⁻¹, 0, 0] : V3) = 2⁻¹ := by
    simp only [norm, dot_eq, Matrix.cons_val_zero, Matrix.cons_val_one, Matrix.cons_val, mul_zero, add_zero]
    exact Real.sqrt_mul_self (by norm_num)
  rw [normalized_pos (by intro h0; have := congrFun h0 0; simp at this), hn] at h
  have := h 0
  simp only [Pi.smul_apply, Matrix.cons_val_zero, smul_eq_mul] at this
  norm_num at this

end Verif.Sdf
