import Verif.Model.NormalsToSdf
import Verif.Props.SdfData
import Mathlib.Data.List.Perm.Subperm
import Mathlib.Tactic.NormNum
import Mathlib.Tactic.Linarith

/-!
# C83: normals-to-sdf uses the wanted share of the normals
-/

namespace Verif.NormalsToSdf

open Verif Verif.Normals Verif.Sdf

theorem toKeep_spec {ratio : ℝ} (h0 : 0 ≤ ratio) (h1 : ratio ≤ 1) (n : Nat) :
    0 ≤ toKeep ratio n ∧ toKeep ratio n ≤ n ∧ |(toKeep ratio n : ℝ) - ratio * n| ≤ 1 / 2 := by
  have hn : (0 : ℝ) ≤ n := Nat.cast_nonneg n
  have hx : 0 ≤ ratio * n := mul_nonneg h0 hn
  have hx1 : ratio * n ≤ n := by nlinarith
  unfold toKeep stdRound
  rw [if_pos hx]
  have f1 := Int.floor_le (ratio * n + 1 / 2)
  have f2 := Int.lt_floor_add_one (ratio * n + 1 / 2)
  refine ⟨Int.floor_nonneg.2 (by linarith), ?_, ?_⟩
  · have h3 : (⌊ratio * n + 1 / 2⌋ : ℝ) < ((n : ℤ) + 1 : ℤ) := by push_cast; linarith
    have := Int.cast_lt.1 h3
    omega
  · rw [abs_le]
    constructor <;> linarith

/-- The normals that are used: those of `kept` as they are, the others not at all. -/
structure Uses (c c' : Data) (kept : List Nat) : Prop where
  n : c'.n = c.n
  point : c'.point = c.point
  knn : c'.knn = c.knn
  used : ∀ i ∈ kept, c'.normal i = c.normal i
  unused : ∀ i < c.n, i ∉ kept → c'.normal i = 0

theorem masked_uses {c : Data} {shuffled : List Nat} (hs : shuffled.Perm (List.range c.n)) {keep : ℤ} (h0 : 0 ≤ keep) (h1 : keep ≤ c.n) :
    ∃ indices kept, dropped shuffled c.n keep = .ok indices ∧ kept.Nodup ∧ (∀ i ∈ kept, i < c.n) ∧ (kept.length : ℤ) = keep ∧ Uses c (masked c indices) kept := by
  refine ⟨shuffled.take ((c.n : ℤ) - keep).toNat, shuffled.drop ((c.n : ℤ) - keep).toNat, ?_, ?_, ?_, ?_, rfl, rfl, rfl, ?_, ?_⟩
  · unfold dropped
    rw [if_neg (by omega)]
  · exact (hs.nodup_iff.2 List.nodup_range).sublist (List.drop_sublist _ _)
  · exact fun i hi => List.mem_range.1 (hs.subset (List.mem_of_mem_drop hi))
  · rw [List.length_drop, hs.length_eq, List.length_range]
    omega
  · intro i hi
    have hnd := hs.nodup_iff.2 List.nodup_range
    rw [← List.take_append_drop ((c.n : ℤ) - keep).toNat shuffled] at hnd
    have hni : i ∉ shuffled.take ((c.n : ℤ) - keep).toNat := fun hi' => (List.nodup_append.1 hnd).2.2 i hi' i hi rfl
    exact if_neg hni
  · intro i hi hk
    have hm : i ∈ shuffled := hs.symm.subset (List.mem_range.2 hi)
    rw [← List.take_append_drop ((c.n : ℤ) - keep).toNat shuffled] at hm
    rcases List.mem_append.1 hm with h | h
    · show (if _ then _ else _) = _
      rw [if_pos h, zero_smul]
    · exact absurd h hk

theorem offset_transfer {c c' : Data} {kept : List Nat} (hu : Uses c c' kept) {offset sign : ℝ} {i : Nat} (hi : i ∈ kept) {e : V3 × ℝ}
    (h : OffsetPoint c' offset sign i e) : OffsetPoint c offset sign i e := by
  obtain ⟨n, p, nm, k⟩ := c
  obtain ⟨n', p', nm', k'⟩ := c'
  obtain ⟨e1, e2, -, e4, -⟩ := hu
  dsimp only at e1 e2 e4
  subst e1 e2
  obtain ⟨h1, h2, h3, h4, h5, h6, h7, h8⟩ := h
  dsimp only at h1 h6
  rw [e4 i hi] at h1 h6
  exact ⟨h1, h2, h3, h4, h5, h6, h7, h8⟩

theorem not_oriented_zero {c : Data} {i : Nat} (h : c.normal i = 0) : ¬ Oriented c i := by
  unfold Oriented
  rw [not_not, h]
  intro j
  norm_num

theorem oriented_iff {c c' : Data} {kept : List Nat} (hu : Uses c c' kept) {i : Nat} (hi : i < c.n) : Oriented c' i ↔ i ∈ kept ∧ Oriented c i := by
  by_cases hk : i ∈ kept
  · unfold Oriented
    rw [hu.used i hk]
    simp [hk]
  · simp [hk, not_oriented_zero (hu.unused i hi hk)]

open Classical in
/-- **C83**: with a ratio between zero and one, a number of normals that is the ratio of all of them, rounded, is used, and the others not at all: the rows are all the
points with value zero, then for every used normal that is not zero one point on its negative side and one on its positive side, with all that C47 says of them. -/
theorem C83_rows {shuffled : List Nat} {c : Data} (hs : shuffled.Perm (List.range c.n)) {ratio : ℝ} (h0 : 0 ≤ ratio) (h1 : ratio ≤ 1) (offset : ℝ)
    (knn' : V3 → Nat → List Nat) (hk : KnnOk c.n c.point c.knn) (hn : ∀ i < c.n, isZero (c.normal i) ∨ Sdf.norm (c.normal i) = 1) (fuel : Nat) (l : List (V3 × ℝ))
    (h : run shuffled (some ratio) c offset 1 knn' fuel = .ok (.done l)) :
    ∃ (kept : List Nat) (neg pos : List (V3 × ℝ)), kept.Nodup ∧ (∀ i ∈ kept, i < c.n) ∧ |(kept.length : ℝ) - ratio * c.n| ≤ 1 / 2 ∧
      l = (List.range c.n).map (fun i => (c.point i, 0)) ++ neg ++ pos ∧
      List.Forall₂ (OffsetPoint c offset (-1)) ((List.range c.n).filter fun i => decide (i ∈ kept ∧ Oriented c i)) neg ∧
      List.Forall₂ (OffsetPoint c offset 1) ((List.range c.n).filter fun i => decide (i ∈ kept ∧ Oriented c i)) pos := by
  obtain ⟨k1, k2, k3⟩ := toKeep_spec h0 h1 c.n
  obtain ⟨indices, kept, m1, m2, m3, m4, m5⟩ := masked_uses hs k1 k2
  unfold run at h
  dsimp only at h
  rw [if_neg (by simp [h0, h1]), m1, Outcome.ok_bind] at h
  have hid : isIdentity (1 : Matrix (Fin 3) (Fin 3) ℝ) := fun i j => by rw [sub_self, abs_zero]; norm_num
  rw [(C47_arguments (masked c indices) c.n offset 1 knn' fuel).2 rfl hid (by simp)] at h
  have h := Outcome.ok.inj h
  have hu' : ∀ i < (masked c indices).n, isZero ((masked c indices).normal i) ∨ Sdf.norm ((masked c indices).normal i) = 1 := by
    intro i hi
    by_cases hik : i ∈ kept
    · rw [m5.used i hik]; exact hn i hi
    · left
      rw [m5.unused i hi hik]
      intro j; norm_num
  obtain ⟨neg, pos, e1, e2, e3⟩ := C47_result (c := masked c indices) hk hu' offset fuel l h
  have hf : (List.range (masked c indices).n).filter (fun i => decide (Oriented (masked c indices) i)) =
      (List.range c.n).filter fun i => decide (i ∈ kept ∧ Oriented c i) := by
    apply List.filter_congr
    intro i hi
    rw [decide_eq_decide]
    exact oriented_iff m5 (List.mem_range.1 hi)
  rw [hf] at e2 e3
  have tr : ∀ {sign : ℝ} {is : List Nat} {es : List (V3 × ℝ)}, (∀ i ∈ is, i ∈ kept) → List.Forall₂ (OffsetPoint (masked c indices) offset sign) is es →
      List.Forall₂ (OffsetPoint c offset sign) is es := by
    intro sign is es hin hF
    induction hF with
    | nil => exact .nil
    | cons a b ih => exact .cons (offset_transfer m5 (hin _ List.mem_cons_self) a) (ih fun i hi => hin i (List.mem_cons_of_mem _ hi))
  have hin : ∀ i ∈ (List.range c.n).filter (fun i => decide (i ∈ kept ∧ Oriented c i)), i ∈ kept := fun i hi => (of_decide_eq_true (List.mem_filter.1 hi).2).1
  refine ⟨kept, neg, pos, m2, m3, ?_, e1, tr hin e2, tr hin e3⟩
  have : (kept.length : ℝ) = (toKeep ratio c.n : ℝ) := by rw [← m4]; norm_cast
  rw [this]
  exact k3

open Classical in
/-- **C83**, counted: if no normal is zero, there are two rows more for every normal that is used; all of them with ratio one, none with ratio zero. -/
theorem C83_count {shuffled : List Nat} {c : Data} (hs : shuffled.Perm (List.range c.n)) {ratio : ℝ} (h0 : 0 ≤ ratio) (h1 : ratio ≤ 1) (offset : ℝ)
    (knn' : V3 → Nat → List Nat) (hk : KnnOk c.n c.point c.knn) (hn : ∀ i < c.n, Sdf.norm (c.normal i) = 1) (fuel : Nat) (l : List (V3 × ℝ))
    (h : run shuffled (some ratio) c offset 1 knn' fuel = .ok (.done l)) :
    ∃ k : Nat, |(k : ℝ) - ratio * c.n| ≤ 1 / 2 ∧ l.length = c.n + 2 * k ∧ (ratio = 1 → k = c.n) ∧ (ratio = 0 → k = 0) := by
  obtain ⟨kept, neg, pos, r1, r2, r3, r4, r5, r6⟩ := C83_rows hs h0 h1 offset knn' hk (fun i hi => .inr (hn i hi)) fuel l h
  have ho : ∀ i < c.n, Oriented c i := by
    intro i hi hz
    have h1 := hn i hi
    have h2 : dot (c.normal i) (c.normal i) = 1 := by
      rw [← Sdf.norm_sq, h1]; norm_num
    rw [dot_eq] at h2
    have b : ∀ j, c.normal i j * c.normal i j ≤ 1e-24 := by
      intro j
      have := hz j
      rw [abs_le] at this
      nlinarith [this.1, this.2]
    have := b 0
    have := b 1
    have := b 2
    linarith
  have hlen : ((List.range c.n).filter fun i => decide (i ∈ kept ∧ Oriented c i)).length = kept.length := by
    apply List.Perm.length_eq
    rw [List.perm_ext_iff_of_nodup (List.nodup_range.filter _) r1]
    intro i
    rw [List.mem_filter, List.mem_range, decide_eq_true_iff]
    exact ⟨fun h => h.2.1, fun h => ⟨r2 i h, h, ho i (r2 i h)⟩⟩
  refine ⟨kept.length, r3, ?_, fun h => ?_, fun h => ?_⟩
  · rw [r4, List.length_append, List.length_append, List.length_map, List.length_range, ← r5.length_eq, ← r6.length_eq, hlen]
    ring
  · rw [h, one_mul, abs_le] at r3
    have h1 : (kept.length : ℝ) < c.n + 1 := by linarith
    have h2 : (c.n : ℝ) < kept.length + 1 := by linarith
    have h1 : kept.length < c.n + 1 := by exact_mod_cast h1
    have h2 : c.n < kept.length + 1 := by exact_mod_cast h2
    omega
  · rw [h, zero_mul, abs_le] at r3
    have h1 : (kept.length : ℝ) < 1 := by linarith
    have h1 : kept.length < 1 := by exact_mod_cast h1
    omega

/-- **C83**: for different points with normals of length one (or zero) the command ends, whatever the ratio. -/
theorem C83_ends {shuffled : List Nat} {c : Data} (hs : shuffled.Perm (List.range c.n)) {ratio : ℝ} (h0 : 0 ≤ ratio) (h1 : ratio ≤ 1) (offset : ℝ)
    (knn' : V3 → Nat → List Nat) (hk : KnnOk c.n c.point c.knn) (hd : ∀ i < c.n, ∀ j < c.n, i ≠ j → c.point i ≠ c.point j)
    (hn : ∀ i < c.n, isZero (c.normal i) ∨ Sdf.norm (c.normal i) = 1) :
    ∃ f0, ∀ fuel ≥ f0, ∃ l, run shuffled (some ratio) c offset 1 knn' fuel = .ok (.done l) := by
  obtain ⟨k1, k2, k3⟩ := toKeep_spec h0 h1 c.n
  obtain ⟨indices, kept, m1, m2, m3, m4, m5⟩ := masked_uses hs k1 k2
  have hu' : ∀ i < (masked c indices).n, isZero ((masked c indices).normal i) ∨ Sdf.norm ((masked c indices).normal i) = 1 := by
    intro i hi
    by_cases hik : i ∈ kept
    · rw [m5.used i hik]; exact hn i hi
    · left
      rw [m5.unused i hi hik]
      intro j; norm_num
  obtain ⟨f0, hf⟩ := C47_ends (c := masked c indices) hk hd hu' offset
  refine ⟨f0, fun fuel hfuel => ?_⟩
  obtain ⟨l, hl⟩ := hf fuel hfuel
  refine ⟨l, ?_⟩
  unfold run
  dsimp only
  rw [if_neg (by simp [h0, h1]), m1, Outcome.ok_bind]
  have hid : isIdentity (1 : Matrix (Fin 3) (Fin 3) ℝ) := fun i j => by rw [sub_self, abs_zero]; norm_num
  rw [(C47_arguments (masked c indices) c.n offset 1 knn' fuel).2 rfl hid (by simp), hl]

theorem uses_transformed {c c' : Data} {kept : List Nat} (hu : Uses c c' kept) (a : Matrix (Fin 3) (Fin 3) ℝ) (knn' : V3 → Nat → List Nat) :
    Uses (transformed a c knn') (transformed a c' knn') kept := by
  refine ⟨hu.n, ?_, rfl, ?_, ?_⟩
  · simp only [transformed, hu.point]
  · intro i hi
    have h := hu.used i hi
    unfold transformed
    dsimp only
    rw [h]
  · intro i hi hk
    have h := hu.unused i hi hk
    unfold transformed
    dsimp only
    rw [h, Matrix.mulVec_zero, if_pos]
    intro j; norm_num

open Classical in
/-- **C83** with `--aniso`: the command ends for different points, whatever the lengths of the normals, and writes all the points with value zero and then, for every used
normal, one point on its negative side and one on its positive side, as C47 says of them in the transformed space. -/
theorem C83_anisotropic {shuffled : List Nat} {c : Data} (hs : shuffled.Perm (List.range c.n)) {ratio : ℝ} (h0 : 0 ≤ ratio) (h1 : ratio ≤ 1) (offset : ℝ)
    (a : Matrix (Fin 3) (Fin 3) ℝ) (ha : 0 < a.det) (hid : ¬ isIdentity a) (knn' : V3 → Nat → List Nat) (hk : KnnOk c.n (fun i => a.mulVec (c.point i)) knn')
    (hd : ∀ i < c.n, ∀ j < c.n, i ≠ j → c.point i ≠ c.point j) :
    (∃ f0, ∀ fuel ≥ f0, ∃ l, run shuffled (some ratio) c offset a knn' fuel = .ok (.done l)) ∧
    ∀ fuel l, run shuffled (some ratio) c offset a knn' fuel = .ok (.done l) →
      ∃ (kept : List Nat) (neg pos : List (V3 × ℝ)), kept.Nodup ∧ (∀ i ∈ kept, i < c.n) ∧ |(kept.length : ℝ) - ratio * c.n| ≤ 1 / 2 ∧
        l = (List.range c.n).map (fun i => (c.point i, 0)) ++ neg ++ pos ∧
        List.Forall₂ (fun i e => OffsetPoint (transformed a c knn') offset (-1) i (a.mulVec e.1, e.2))
          ((List.range c.n).filter fun i => decide (i ∈ kept ∧ Oriented (transformed a c knn') i)) neg ∧
        List.Forall₂ (fun i e => OffsetPoint (transformed a c knn') offset 1 i (a.mulVec e.1, e.2))
          ((List.range c.n).filter fun i => decide (i ∈ kept ∧ Oriented (transformed a c knn') i)) pos := by
  obtain ⟨k1, k2, k3⟩ := toKeep_spec h0 h1 c.n
  obtain ⟨indices, kept, m1, m2, m3, m4, m5⟩ := masked_uses hs k1 k2
  have hrun : ∀ fuel, run shuffled (some ratio) c offset a knn' fuel = construct (masked c indices) c.n offset a knn' fuel := by
    intro fuel
    unfold run
    dsimp only
    rw [if_neg (by simp [h0, h1]), m1, Outcome.ok_bind]
  refine ⟨?_, fun fuel l h => ?_⟩
  · obtain ⟨f0, hf⟩ := C47_anisotropic_ends (masked c indices) offset a knn' ha hid hk hd
    exact ⟨f0, fun fuel hfuel => (hf fuel hfuel).imp fun l hl => (hrun fuel).trans hl⟩
  · rw [hrun] at h
    obtain ⟨neg, pos, e1, e2, e3⟩ := C47_anisotropic (masked c indices) offset a knn' fuel ha hid hk l h
    have hu := uses_transformed m5 a knn'
    have hf : (List.range (masked c indices).n).filter (fun i => decide (Oriented (transformed a (masked c indices) knn') i)) =
        (List.range c.n).filter fun i => decide (i ∈ kept ∧ Oriented (transformed a c knn') i) := by
      apply List.filter_congr
      intro i hi
      rw [decide_eq_decide]
      exact oriented_iff hu (List.mem_range.1 hi)
    rw [hf] at e2 e3
    have tr : ∀ {sign : ℝ} {is : List Nat} {es : List (V3 × ℝ)}, (∀ i ∈ is, i ∈ kept) →
        List.Forall₂ (fun i e => OffsetPoint (transformed a (masked c indices) knn') offset sign i (a.mulVec e.1, e.2)) is es →
        List.Forall₂ (fun i e => OffsetPoint (transformed a c knn') offset sign i (a.mulVec e.1, e.2)) is es := by
      intro sign is es hin hF
      induction hF with
      | nil => exact .nil
      | cons a b ih => exact .cons (offset_transfer hu (hin _ List.mem_cons_self) a) (ih fun i hi => hin i (List.mem_cons_of_mem _ hi))
    have hin : ∀ i ∈ (List.range c.n).filter (fun i => decide (i ∈ kept ∧ Oriented (transformed a c knn') i)), i ∈ kept :=
      fun i hi => (of_decide_eq_true (List.mem_filter.1 hi).2).1
    refine ⟨kept, neg, pos, m2, m3, ?_, e1, tr hin e2, tr hin e3⟩
    have : (kept.length : ℝ) = (toKeep ratio c.n : ℝ) := by rw [← m4]; norm_cast
    rw [this]
    exact k3

/-- C83_anisotropic applies: a space stretched by two. -/
example : ∃ fuel l, run [1, 0] (some (1 / 2)) facing 3 ((2 : ℝ) • (1 : Matrix (Fin 3) (Fin 3) ℝ))
    (fun q k => facing.knn ((1 / 2 : ℝ) • q) k) fuel = .ok (.done l) := by
  have hp : List.Perm [1, 0] (List.range facing.n) := by
    show List.Perm [1, 0] (List.range 2)
    decide
  have hmul : ∀ v : V3, ((2 : ℝ) • (1 : Matrix (Fin 3) (Fin 3) ℝ)).mulVec v = (2 : ℝ) • v := fun v => by
    rw [Matrix.smul_mulVec, Matrix.one_mulVec]
  have hk : KnnOk facing.n (fun i => ((2 : ℝ) • (1 : Matrix (Fin 3) (Fin 3) ℝ)).mulVec (facing.point i)) (fun q k => facing.knn ((1 / 2 : ℝ) • q) k) := by
    intro q k h1 h2
    obtain ⟨f1, f2, f3, f4⟩ := facing_ok ((1 / 2 : ℝ) • q) k h1 h2
    refine ⟨f1, f2, f3, fun j hj m hm hm' => ?_⟩
    have := f4 j hj m hm hm'
    rw [Sdf.norm_le_iff, dot_eq, dot_eq] at this
    rw [Sdf.norm_le_iff, dot_eq, dot_eq]
    simp only [hmul, Pi.sub_apply, Pi.smul_apply, smul_eq_mul] at this ⊢
    nlinarith
  obtain ⟨h, -⟩ := C83_anisotropic hp (ratio := 1 / 2) (by norm_num) (by norm_num) 3 ((2 : ℝ) • (1 : Matrix (Fin 3) (Fin 3) ℝ))
    (by rw [Matrix.det_smul, Matrix.det_one]; norm_num) (fun h => by have := h 0 0; norm_num at this) _ hk (by
    intro i hi j hj hij h
    have := congrFun h 0
    simp [facing] at this
    exact hij this)
  obtain ⟨f0, h⟩ := h
  exact ⟨f0, h f0 (le_refl _)⟩

/-- **C83**: a ratio outside of the range from zero to one, or NaN, is refused. -/
theorem C83_ratio (shuffled : List Nat) (c : Data) (ratio : Option ℝ) (offset : ℝ) (a : Matrix (Fin 3) (Fin 3) ℝ) (knn' : V3 → Nat → List Nat) (fuel : Nat)
    (h : ∀ r, ratio = some r → r < 0 ∨ 1 < r) : run shuffled ratio c offset a knn' fuel = .throws .runtimeError := by
  unfold run
  cases ratio with
  | none => rfl
  | some r =>
    dsimp only
    rw [if_pos]
    rintro ⟨h1, h2⟩
    rcases h r rfl with h | h <;> linarith

/-- Half of the two facing normals: four rows are written. -/
example : ∃ fuel l, run [1, 0] (some (1 / 2)) facing 3 1 facing.knn fuel = .ok (.done l) ∧ l.length = 4 := by
  have hp : List.Perm [1, 0] (List.range facing.n) := by
    show List.Perm [1, 0] (List.range 2)
    decide
  have hn : ∀ i < facing.n, Sdf.norm (facing.normal i) = 1 := by
    intro i _
    simp only [facing]
    split <;> simp [Sdf.norm, dot_eq]
  obtain ⟨f0, h⟩ := C83_ends hp (ratio := 1 / 2) (by norm_num) (by norm_num) 3 facing.knn facing_ok (by
    intro i hi j hj hij h
    have := congrFun h 0
    simp [facing] at this
    exact hij this) (fun i hi => .inr (hn i hi))
  obtain ⟨l, hl⟩ := h f0 (le_refl _)
  obtain ⟨k, k1, k2, -⟩ := C83_count hp (by norm_num) (by norm_num) 3 facing.knn facing_ok hn f0 l hl
  refine ⟨f0, l, hl, ?_⟩
  have e : (facing.n : ℝ) = 2 := by norm_num [facing]
  rw [e, abs_le] at k1
  have h1 : (k : ℝ) < 2 := by linarith
  have h2 : (0 : ℝ) < k := by linarith
  have h1 : k < 2 := by exact_mod_cast h1
  have h2 : 0 < k := by exact_mod_cast h2
  rw [k2]
  show 2 + 2 * k = 4
  omega

end Verif.NormalsToSdf
