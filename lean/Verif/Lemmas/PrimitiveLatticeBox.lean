import Verif.Lemmas.PrimitiveLattice

/-! # The extended box -/

namespace Verif.PrimLattice

open Verif Verif.Lattice

namespace Prim

variable {L : Prim}

theorem foldl_min_le : ∀ (xs : List ℝ) (a : ℝ), xs.foldl min a ≤ a ∧ ∀ x ∈ xs, xs.foldl min a ≤ x
  | [], a => ⟨le_rfl, by simp⟩
  | y :: xs, a => by
    obtain ⟨h1, h2⟩ := foldl_min_le xs (min a y)
    refine ⟨h1.trans (min_le_left _ _), fun x hx => ?_⟩
    rcases List.mem_cons.1 hx with rfl | hx
    · exact h1.trans (min_le_right _ _)
    · exact h2 x hx

theorem foldl_max_ge : ∀ (xs : List ℝ) (a : ℝ), a ≤ xs.foldl max a ∧ ∀ x ∈ xs, x ≤ xs.foldl max a
  | [], a => ⟨le_rfl, by simp⟩
  | y :: xs, a => by
    obtain ⟨h1, h2⟩ := foldl_max_ge xs (max a y)
    refine ⟨(le_max_left _ _).trans h1, fun x hx => ?_⟩
    rcases List.mem_cons.1 hx with rfl | hx
    · exact (le_max_right _ _).trans h1
    · exact h2 x hx

theorem least_le {xs : List ℝ} {x : ℝ} (h : x ∈ xs) : least xs ≤ x := by
  cases xs with
  | nil => cases h
  | cons y ys =>
    rcases List.mem_cons.1 h with rfl | h
    · exact (foldl_min_le ys _).1
    · exact (foldl_min_le ys _).2 x h

theorem le_greatest {xs : List ℝ} {x : ℝ} (h : x ∈ xs) : x ≤ greatest xs := by
  cases xs with
  | nil => cases h
  | cons y ys =>
    rcases List.mem_cons.1 h with rfl | h
    · exact (foldl_max_ge ys _).1
    · exact (foldl_max_ge ys _).2 x h

/-- the steps to the neighbours in one coordinate, for a basis with that coordinate `a`, `b`, `c` -/
def steps (a b c : ℝ) : List ℝ := deltas.map fun d => (d.x : ℝ) * a + (d.y : ℝ) * b + (d.z : ℝ) * c

theorem steps_bound {a b c : ℝ} {d : LC} (h : d ∈ deltas) : least (steps a b c) ≤ (d.x : ℝ) * a + (d.y : ℝ) * b + (d.z : ℝ) * c ∧
    (d.x : ℝ) * a + (d.y : ℝ) * b + (d.z : ℝ) * c ≤ greatest (steps a b c) :=
  ⟨least_le (List.mem_map.2 ⟨d, h, rfl⟩), le_greatest (List.mem_map.2 ⟨d, h, rfl⟩)⟩

theorem steps_sign (a b c : ℝ) : least (steps a b c) ≤ 0 ∧ 0 ≤ greatest (steps a b c) ∧
    (¬(a = 0 ∧ b = 0 ∧ c = 0) → least (steps a b c) < 0 ∧ 0 < greatest (steps a b c)) := by
  have h1 := steps_bound (a := a) (b := b) (c := c) (d := ⟨1, 0, 0⟩) (by decide)
  have h2 := steps_bound (a := a) (b := b) (c := c) (d := ⟨-1, 0, 0⟩) (by decide)
  have h3 := steps_bound (a := a) (b := b) (c := c) (d := ⟨0, 1, 0⟩) (by decide)
  have h4 := steps_bound (a := a) (b := b) (c := c) (d := ⟨0, -1, 0⟩) (by decide)
  have h5 := steps_bound (a := a) (b := b) (c := c) (d := ⟨0, 0, 1⟩) (by decide)
  have h6 := steps_bound (a := a) (b := b) (c := c) (d := ⟨0, 0, -1⟩) (by decide)
  push_cast at h1 h2 h3 h4 h5 h6
  refine ⟨by linarith, by linarith, fun h => ?_⟩
  rcases lt_trichotomy a 0 with ha | ha | ha
  · constructor <;> linarith
  · rcases lt_trichotomy b 0 with hb | hb | hb
    · constructor <;> linarith
    · rcases lt_trichotomy c 0 with hc | hc | hc
      · constructor <;> linarith
      · exact absurd ⟨ha, hb, hc⟩ h
      · constructor <;> linarith
    · constructor <;> linarith
  · constructor <;> linarith

theorem ext0 (k : ℕ) : (L.extLo k).1 = L.lo.1 + k * 1.01 * least (steps L.b0.1 L.b1.1 L.b2.1) ∧
    (L.extHi k).1 = L.hi.1 + k * 1.01 * greatest (steps L.b0.1 L.b1.1 L.b2.1) := ⟨rfl, rfl⟩
theorem ext1 (k : ℕ) : (L.extLo k).2.1 = L.lo.2.1 + k * 1.01 * least (steps L.b0.2.1 L.b1.2.1 L.b2.2.1) ∧
    (L.extHi k).2.1 = L.hi.2.1 + k * 1.01 * greatest (steps L.b0.2.1 L.b1.2.1 L.b2.2.1) := ⟨rfl, rfl⟩
theorem ext2 (k : ℕ) : (L.extLo k).2.2 = L.lo.2.2 + k * 1.01 * least (steps L.b0.2.2 L.b1.2.2 L.b2.2.2) ∧
    (L.extHi k).2.2 = L.hi.2.2 + k * 1.01 * greatest (steps L.b0.2.2 L.b1.2.2 L.b2.2.2) := ⟨rfl, rfl⟩

theorem widths (h : L.det ≠ 0) (hb : L.lo.1 ≤ L.hi.1 ∧ L.lo.2.1 ≤ L.hi.2.1 ∧ L.lo.2.2 ≤ L.hi.2.2) :
    (L.extLo 2).1 < (L.extHi 2).1 ∧ (L.extLo 2).2.1 < (L.extHi 2).2.1 ∧ (L.extLo 2).2.2 < (L.extHi 2).2.2 := by
  rw [(ext0 2).1, (ext0 2).2, (ext1 2).1, (ext1 2).2, (ext2 2).1, (ext2 2).2]
  obtain ⟨-, -, a⟩ := steps_sign L.b0.1 L.b1.1 L.b2.1
  obtain ⟨-, -, b⟩ := steps_sign L.b0.2.1 L.b1.2.1 L.b2.2.1
  obtain ⟨-, -, c⟩ := steps_sign L.b0.2.2 L.b1.2.2 L.b2.2.2
  have ha := a (by rintro ⟨h1, h2, h3⟩; apply h; unfold det dot cross; rw [h1, h2, h3]; ring)
  have hb' := b (by rintro ⟨h1, h2, h3⟩; apply h; unfold det dot cross; rw [h1, h2, h3]; ring)
  have hc := c (by rintro ⟨h1, h2, h3⟩; apply h; unfold det dot cross; rw [h1, h2, h3]; ring)
  push_cast
  refine ⟨?_, ?_, ?_⟩ <;> linarith

end Prim

end Verif.PrimLattice
