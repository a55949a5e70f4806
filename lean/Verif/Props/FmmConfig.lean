import Verif.Model.FmmConfig
import Mathlib.Data.List.MinMax
import Mathlib.Tactic.Linarith
import Mathlib.Tactic.NormNum

/-!
# C50: the search for a configuration returns only configurations meeting the accuracy
-/

namespace Verif.FmmConfig

open Verif

theorem foldl_max_le {l : List ℝ} {b c : ℝ} : l.foldl max b ≤ c ↔ b ≤ c ∧ ∀ x ∈ l, x ≤ c := by
  induction l generalizing b with
  | nil => simp
  | cons a l ih => simp [ih, and_assoc]

theorem absoluteErrorInf_le {a e : List ℝ} {c : ℝ} (hc : 0 ≤ c) :
    absoluteErrorInf a e ≤ c ↔ ∀ p ∈ a.zip e, |p.1 - p.2| ≤ c := by
  unfold absoluteErrorInf
  rw [foldl_max_le]
  constructor
  · rintro ⟨-, h⟩ p hp
    exact h _ (List.mem_map.2 ⟨p, hp, rfl⟩)
  · intro h
    refine ⟨hc, ?_⟩
    intro x hx
    obtain ⟨p, hp, rfl⟩ := List.mem_map.1 hx
    exact h p hp

theorem absoluteErrorInf_nonneg (a e : List ℝ) : 0 ≤ absoluteErrorInf a e :=
  ((foldl_max_le (c := absoluteErrorInf a e)).1 (le_refl _)).1

/-- `zip` of two concatenations of pieces of equal lengths. -/
theorem mem_zip_flatMap {f g : Nat → List ℝ} (hlen : ∀ i, (f i).length = (g i).length) : ∀ (t : List Nat) (p : ℝ × ℝ),
    p ∈ (t.flatMap f).zip (t.flatMap g) ↔ ∃ i ∈ t, p ∈ (f i).zip (g i) := by
  intro t p
  induction t with
  | nil => simp
  | cons a t ih =>
      rw [List.flatMap_cons, List.flatMap_cons, List.zip_append (hlen a), List.mem_append, ih]
      simp

/-- The estimated error of a configuration is within `a`: at every point of the sample, every component of the fast
evaluation differs from the direct one by at most `a`. -/
def MeetsAccuracy (exact : Nat → List ℝ) (approx : Int → Int → Nat → List ℝ) (sample : List Nat) (a : EReal) (order d : Int) :
    Prop :=
  ∀ i ∈ sample, ∀ (k : Nat) x y, (approx order d i)[k]? = some x → (exact i)[k]? = some y → ((|x - y| : ℝ) : EReal) ≤ a

theorem within_iff {exact : Nat → List ℝ} {approx : Int → Int → Nat → List ℝ}
    (hlen : ∀ o d i, (approx o d i).length = (exact i).length) (t : List Nat) {a : EReal} (ha : 0 ≤ a) (order d : Int) :
    within (absoluteErrorInf (t.flatMap (approx order d)) (t.flatMap exact)) (some a) ↔
      MeetsAccuracy exact approx t a order d := by
  have hmem : ∀ p, p ∈ (t.flatMap (approx order d)).zip (t.flatMap exact) ↔
      ∃ i ∈ t, p ∈ (approx order d i).zip (exact i) := fun p => mem_zip_flatMap (fun i => hlen order d i) t p
  have hzip : ∀ i (p : ℝ × ℝ), p ∈ (approx order d i).zip (exact i) ↔
      ∃ k : Nat, (approx order d i)[k]? = some p.1 ∧ (exact i)[k]? = some p.2 := by
    intro i p
    rw [List.mem_iff_getElem?]
    simp only [List.getElem?_zip_eq_some]
  induction a with
  | bot => exact absurd ha (by simp)
  | top => simp [within, MeetsAccuracy]
  | coe a =>
      have ha' : (0 : ℝ) ≤ a := by exact_mod_cast ha
      simp only [within, EReal.coe_le_coe_iff]
      rw [absoluteErrorInf_le ha']
      unfold MeetsAccuracy
      simp only [EReal.coe_le_coe_iff]
      constructor
      · intro h i hi k x y hx hy
        exact h (x, y) ((hmem _).2 ⟨i, hi, (hzip i _).2 ⟨k, hx, hy⟩⟩)
      · intro h p hp
        obtain ⟨i, hi, hp⟩ := (hmem _).1 hp
        obtain ⟨k, hx, hy⟩ := (hzip i _).1 hp
        exact h i hi k _ _ hx hy

open Classical in
/-- **C50.** For every behaviour of the two evaluations, every sample and every accuracy other than the two special values
`0` and `∞`: the search returns the first configuration tried whose estimated error is within the accuracy, and throws exactly
when there is none. -/
theorem C50_search {exact : Nat → List ℝ} {approx : Int → Int → Nat → List ℝ}
    (hlen : ∀ o d i, (approx o d i).length = (exact i).length) (shuffled : List Nat) {a : EReal} (ha : 0 < a) (hat : a ≠ ⊤)
    (treeHeight : Int) :
    (∃ pre order d post, candidates = pre ++ (order, d) :: post ∧
      findBestConfiguration exact approx (some a) shuffled treeHeight = .ok ⟨treeHeight, order, d⟩ ∧
      MeetsAccuracy exact approx (targets shuffled) a order d ∧
      ∀ c ∈ pre, ¬ MeetsAccuracy exact approx (targets shuffled) a c.1 c.2) ∨
    (findBestConfiguration exact approx (some a) shuffled treeHeight = .throws .runtimeError ∧
      ∀ c ∈ candidates, ¬ MeetsAccuracy exact approx (targets shuffled) a c.1 c.2) := by
  unfold findBestConfiguration
  rw [if_neg (by simpa using hat), if_neg (by simpa using ha.ne')]
  dsimp only
  have hw := fun o d => within_iff hlen (targets shuffled) ha.le o d
  cases hf : candidates.find? (fun c => decide (within (absoluteErrorInf ((targets shuffled).flatMap (approx c.1 c.2))
      ((targets shuffled).flatMap exact)) (some a))) with
  | some c =>
      left
      obtain ⟨h1, pre, post, h2, h3⟩ := List.find?_eq_some_iff_append.1 hf
      refine ⟨pre, c.1, c.2, post, h2, rfl, (hw _ _).1 (by simpa using h1), ?_⟩
      intro c' hc' hm
      have := h3 c' hc'
      simp only [Bool.not_eq_true', decide_eq_false_iff_not] at this
      exact this ((hw _ _).2 hm)
  | none =>
      right
      refine ⟨rfl, ?_⟩
      intro c hc hm
      have := List.find?_eq_none.1 hf c hc
      simp only [decide_eq_true_eq] at this
      exact this ((hw _ _).2 hm)

/-- C50 for an accuracy of `∞`: every error is within it. -/
theorem C50_infinite_accuracy {exact : Nat → List ℝ} {approx : Int → Int → Nat → List ℝ} (shuffled : List Nat)
    (treeHeight : Int) :
    ∃ order d, findBestConfiguration exact approx (some ⊤) shuffled treeHeight = .ok ⟨treeHeight, order, d⟩ ∧
      MeetsAccuracy exact approx (targets shuffled) ⊤ order d := by
  refine ⟨6, kClassic, ?_, ?_⟩
  · unfold findBestConfiguration; rw [if_pos rfl]
  · intro i _ k x y _ _; exact le_top

/-- C50 does not hold for an accuracy of `0`: the configuration of order 12 is returned unconditionally, whatever its error -
here the fast evaluation is off by 1 at every point. -/
theorem C50_zero_accuracy_is_not_checked (n : Nat) (hn : 0 < n) (treeHeight : Int) :
    ∃ (exact : Nat → List ℝ) (approx : Int → Int → Nat → List ℝ),
      (∀ o d i, (approx o d i).length = (exact i).length) ∧
      findBestConfiguration exact approx (some 0) (List.range n) treeHeight = .ok ⟨treeHeight, 12, 8⟩ ∧
      ∀ order d, ¬ MeetsAccuracy exact approx (targets (List.range n)) 0 order d := by
  refine ⟨fun _ => [0], fun _ _ _ => [1], fun _ _ _ => rfl, ?_, ?_⟩
  · unfold findBestConfiguration
    rw [if_neg (by simp), if_pos rfl]
  · intro order d h
    have h0 : (0 : Nat) ∈ targets (List.range n) := by
      unfold targets
      rw [List.mem_take_iff_getElem]
      exact ⟨0, by simp; omega, by simp⟩
    have := h 0 h0 0 1 0 rfl rfl
    simp at this
    exact absurd this (by rw [not_le]; exact_mod_cast zero_lt_one)

open Classical in
/-- C50: a NaN or negative accuracy is never met: the search throws. -/
theorem C50_unreachable_accuracy (exact : Nat → List ℝ) (approx : Int → Int → Nat → List ℝ) (shuffled : List Nat)
    (treeHeight : Int) :
    findBestConfiguration exact approx none shuffled treeHeight = .throws .runtimeError ∧
    ∀ a : EReal, a < 0 → findBestConfiguration exact approx (some a) shuffled treeHeight = .throws .runtimeError := by
  constructor
  · unfold findBestConfiguration
    rw [if_neg (by simp), if_neg (by simp)]
    have : candidates.find? (fun c => decide (within (absoluteErrorInf ((targets shuffled).flatMap (approx c.1 c.2))
      ((targets shuffled).flatMap exact)) none)) = none := by
      rw [List.find?_eq_none]
      intro c _ h
      exact (of_decide_eq_true h).elim
    dsimp only
    rw [this]
  · intro a ha
    unfold findBestConfiguration
    rw [if_neg (by rintro h; cases h; exact absurd ha (by simp)), if_neg (by rintro h; cases h; exact absurd ha (by simp))]
    dsimp only
    have : candidates.find? (fun c => decide (within (absoluteErrorInf ((targets shuffled).flatMap (approx c.1 c.2))
      ((targets shuffled).flatMap exact)) (some a))) = none := by
      rw [List.find?_eq_none]
      intro c _ h
      have h := of_decide_eq_true h
      unfold within at h
      have h2 : ((0 : ℝ) : EReal) ≤ ((absoluteErrorInf ((targets shuffled).flatMap (approx c.1 c.2))
        ((targets shuffled).flatMap exact) : ℝ) : EReal) := EReal.coe_le_coe_iff.2 (absoluteErrorInf_nonneg _ _)
      have := lt_of_le_of_lt (le_trans h2 h) ha
      simp at this
    rw [this]

/-- C50: with at most 10000 source points the sample is all of them. -/
theorem C50_sample {n : Nat} {shuffled : List Nat} (h : shuffled.Perm (List.range n)) :
    (n ≤ 10000 → (targets shuffled).Perm (List.range n)) ∧ (targets shuffled).length = min n 10000 ∧
      (targets shuffled).Nodup ∧ ∀ i ∈ targets shuffled, i < n := by
  have hl : shuffled.length = n := by rw [h.length_eq, List.length_range]
  refine ⟨?_, ?_, ?_, ?_⟩
  · intro hn
    unfold targets
    rw [hl, Nat.min_eq_left hn, ← hl, List.take_length, hl]; exact h
  · unfold targets; rw [List.length_take, hl]; omega
  · exact (h.nodup_iff.2 List.nodup_range).sublist (List.take_sublist _ _)
  · intro i hi
    exact List.mem_range.1 (h.subset (List.mem_of_mem_take hi))

/-- The search passes over a configuration that is too inaccurate: with order 8 off by 2 and the others exact, accuracy 1
gives order 10. -/
example : findBestConfiguration (fun _ => [0]) (fun o _ _ => [if o = 8 then 2 else 0]) (some 1) [0, 1] 3 =
    .ok ⟨3, 10, -1⟩ := by
  rcases C50_search (exact := fun _ => [0]) (approx := fun o _ _ => [if o = 8 then 2 else 0]) (fun _ _ _ => rfl) [0, 1]
    (a := 1) (by simp) (by decide) 3 with ⟨pre, order, d, post, hc, hr, hm, hp⟩ | ⟨-, hn⟩
  · have h8 : ¬ MeetsAccuracy (fun _ => [0]) (fun o _ _ => [if o = 8 then 2 else 0]) (targets [0, 1]) 1 8 (-1) := by
      intro h
      have := h 0 (by decide) 0 2 0 (by simp) (by simp)
      norm_num at this
      exact absurd this (by rw [not_le]; exact_mod_cast (by norm_num : (1 : ℝ) < 2))
    have h10 : MeetsAccuracy (fun _ => [0]) (fun o _ _ => [if o = 8 then 2 else 0]) (targets [0, 1]) 1 10 (-1) := by
      intro i _ k x y hx hy
      match k with
      | 0 => simp at hx hy; subst hx; subst hy; simp
      | k + 1 => simp at hx
    have hcand : candidates = (8, -1) :: (10, -1) :: [(12, 7), (12, 8), (12, 9), (14, 7), (14, 8), (14, 9), (16, 7), (16, 8),
      (16, 9), (18, 7), (18, 8), (18, 9), (20, 7), (20, 8), (20, 9)] := by decide
    rw [hcand] at hc
    match pre, hc, hp with
    | [], hc, _ => simp at hc; obtain ⟨⟨rfl, rfl⟩, -⟩ := hc; exact absurd hm h8
    | [a], hc, _ => simp at hc; obtain ⟨-, ⟨rfl, rfl⟩, -⟩ := hc; exact hr
    | a :: b :: pre, hc, hp =>
        simp at hc
        obtain ⟨-, rfl, -⟩ := hc
        exact absurd h10 (hp (10, -1) (by simp))
  · exact absurd (by
      intro i _ k x y hx hy
      match k with
      | 0 => simp at hx hy; subst hx; subst hy; simp
      | k + 1 => simp at hx) (hn (10, -1) (by decide))

end Verif.FmmConfig
