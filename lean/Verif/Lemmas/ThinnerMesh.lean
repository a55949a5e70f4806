import Verif.Lemmas.ThinnerLoop

/-! # Lemmas: the mesh the thinner returns -/

namespace Verif.Thinner

open Verif Verif.AbstractMesh
open Verif.Thinner.Spec
open Verif.Predicates (P3)

variable {I : Input}

/-! ### the boundary -/

theorem side_ne {f : AbstractMesh.Face} (hf : Nondeg f) {u v : Nat} (h : Side f u v) : u ≠ v := by
  obtain ⟨h1, h2, h3⟩ := hf
  rcases h with ⟨rfl, rfl⟩ | ⟨rfl, rfl⟩ | ⟨rfl, rfl⟩ <;> assumption

/-- The sides of the merged mesh that do not end in `b`. -/
theorem merged_side_other {F : Nat → Option AbstractMesh.Face} {a b u v : Nat} (hab : a ≠ b) (hua : u ≠ a) (hva : v ≠ a) (hub : u ≠ b) (hvb : v ≠ b)
    (hn : ∀ i f, F i = some f → Nondeg f) :
    (∃ i f, merged F a b i = some f ∧ Side f u v) ↔ ∃ i f, F i = some f ∧ Side f u v := by
  constructor
  · rintro ⟨i, f, h1, h2⟩
    obtain ⟨f₀, w1, ⟨w2, w3, rfl⟩ | ⟨w2, rfl⟩⟩ := merged_some h1
    · refine ⟨i, f₀, w1, ?_⟩
      unfold Mesh.retarget at h2
      unfold Side at h2 ⊢
      dsimp only at h2
      split_ifs at h2 <;> simp_all <;> omega
    · exact ⟨i, _, w1, h2⟩
  · rintro ⟨i, f, h1, h2⟩
    obtain ⟨n1, n2, n3⟩ := hn i f h1
    by_cases ha : Corner f a
    · have hb : ¬ Corner f b := by
        unfold Corner at *
        unfold Side at h2
        omega
      refine ⟨i, _, merged_moved h1 hb, ?_⟩
      unfold Mesh.retarget
      unfold Side at h2 ⊢
      dsimp only
      rcases h2 with ⟨rfl, rfl⟩ | ⟨rfl, rfl⟩ | ⟨rfl, rfl⟩ <;> simp [hua, hva]
    · exact ⟨i, f, merged_kept h1 ha, h2⟩

/-- The sides of the merged mesh out of `b`. -/
theorem merged_side_out {F : Nat → Option AbstractMesh.Face} {a b v : Nat} (hab : a ≠ b) (hva : v ≠ a) (hvb : v ≠ b)
    (hn : ∀ i f, F i = some f → Nondeg f) :
    (∃ i f, merged F a b i = some f ∧ Side f b v) ↔
      (∃ i f, F i = some f ∧ Side f b v ∧ ¬ Corner f a) ∨ ∃ i f, F i = some f ∧ Side f a v ∧ ¬ Corner f b := by
  constructor
  · rintro ⟨i, f, h1, h2⟩
    obtain ⟨f₀, w1, ⟨w2, w3, rfl⟩ | ⟨w2, rfl⟩⟩ := merged_some h1
    · refine Or.inr ⟨i, f₀, w1, ?_, w3⟩
      obtain ⟨n1, n2, n3⟩ := hn i f₀ w1
      unfold Mesh.retarget at h2
      unfold Side at h2 ⊢
      unfold Corner at w3
      dsimp only at h2
      split_ifs at h2 <;> simp_all
    · exact Or.inl ⟨i, _, w1, h2, w2⟩
  · rintro (⟨i, f, h1, h2, h3⟩ | ⟨i, f, h1, h2, h3⟩)
    · exact ⟨i, f, merged_kept h1 h3, h2⟩
    · obtain ⟨n1, n2, n3⟩ := hn i f h1
      refine ⟨i, _, merged_moved h1 h3, ?_⟩
      unfold Mesh.retarget
      unfold Side at h2 ⊢
      dsimp only
      rcases h2 with ⟨rfl, rfl⟩ | ⟨rfl, rfl⟩ | ⟨rfl, rfl⟩ <;> simp [hva]

/-- The sides of the merged mesh into `b`. -/
theorem merged_side_in {F : Nat → Option AbstractMesh.Face} {a b v : Nat} (hab : a ≠ b) (hva : v ≠ a) (hvb : v ≠ b)
    (hn : ∀ i f, F i = some f → Nondeg f) :
    (∃ i f, merged F a b i = some f ∧ Side f v b) ↔
      (∃ i f, F i = some f ∧ Side f v b ∧ ¬ Corner f a) ∨ ∃ i f, F i = some f ∧ Side f v a ∧ ¬ Corner f b := by
  constructor
  · rintro ⟨i, f, h1, h2⟩
    obtain ⟨f₀, w1, ⟨w2, w3, rfl⟩ | ⟨w2, rfl⟩⟩ := merged_some h1
    · refine Or.inr ⟨i, f₀, w1, ?_, w3⟩
      obtain ⟨n1, n2, n3⟩ := hn i f₀ w1
      unfold Mesh.retarget at h2
      unfold Side at h2 ⊢
      unfold Corner at w3
      dsimp only at h2
      split_ifs at h2 <;> simp_all
    · exact Or.inl ⟨i, _, w1, h2, w2⟩
  · rintro (⟨i, f, h1, h2, h3⟩ | ⟨i, f, h1, h2, h3⟩)
    · exact ⟨i, f, merged_kept h1 h3, h2⟩
    · obtain ⟨n1, n2, n3⟩ := hn i f h1
      refine ⟨i, _, merged_moved h1 h3, ?_⟩
      unfold Mesh.retarget
      unfold Side at h2 ⊢
      dsimp only
      rcases h2 with ⟨rfl, rfl⟩ | ⟨rfl, rfl⟩ | ⟨rfl, rfl⟩ <;> simp [hva]

/-- The third corner. -/
theorem third_corner {f : AbstractMesh.Face} {a b : Nat} (h : Side f a b) : ∃ c, Side f b c ∧ Side f c a := by
  rcases h with ⟨rfl, rfl⟩ | ⟨rfl, rfl⟩ | ⟨rfl, rfl⟩
  · exact ⟨f.2.2, Or.inr (Or.inl ⟨rfl, rfl⟩), Or.inr (Or.inr ⟨rfl, rfl⟩)⟩
  · exact ⟨f.1, Or.inr (Or.inr ⟨rfl, rfl⟩), Or.inl ⟨rfl, rfl⟩⟩
  · exact ⟨f.2.1, Or.inl ⟨rfl, rfl⟩, Or.inr (Or.inl ⟨rfl, rfl⟩)⟩

theorem side_right {f : AbstractMesh.Face} (hf : Nondeg f) {a b c : Nat} (h : Side f a b) (h' : Side f a c) : b = c := by
  obtain ⟨n1, n2, n3⟩ := hf
  unfold Side at *
  omega

theorem side_left {f : AbstractMesh.Face} (hf : Nondeg f) {a b c : Nat} (h : Side f b a) (h' : Side f c a) : b = c := by
  obtain ⟨n1, n2, n3⟩ := hf
  unfold Side at *
  omega

theorem corner_three {f : AbstractMesh.Face} (hf : Nondeg f) {a b c v : Nat} (h : Side f a b) (h' : Side f b c) (hv : Corner f v) : v = a ∨ v = b ∨ v = c := by
  obtain ⟨n1, n2, n3⟩ := hf
  unfold Side Corner at *
  omega

theorem prop_step {P P' Q Q' : Prop} (h : Q ↔ Q') (h' : Q → ¬ P ∧ ¬ P') : (P ∨ Q) ∧ ¬ (P' ∨ Q') ↔ P ∧ ¬ P' := by tauto

theorem boundary_step {F F' : Nat → Option AbstractMesh.Face} {a b : Nat} (hC : Collapse I F F' a b) (hn : ∀ i f, F i = some f → Nondeg f)
    (hM : Manifold F) (u v : Nat) : BoundaryEdge F' u v ↔ BoundaryEdge F u v := by
  have hab : a ≠ b := by obtain ⟨_, _, _, _, _, h⟩ := hC.edge; exact h
  have hF' : F' = merged F a b := funext hC.faces
  have key : ∀ x y, (∀ i f, F' i = some f → ¬ Side f x y) ↔ ¬ ∃ i f, F' i = some f ∧ Side f x y := by
    intro x y; push Not; rfl
  have key0 : ∀ x y, (∀ i f, F i = some f → ¬ Side f x y) ↔ ¬ ∃ i f, F i = some f ∧ Side f x y := by
    intro x y; push Not; rfl
  have hint : ∀ x, (∃ i f, F i = some f ∧ Side f a x) ↔ ∃ i f, F i = some f ∧ Side f x a := by
    intro x
    have h1 := (hC.interior x).1
    have h2 := (hC.interior x).2
    unfold BoundaryEdge at h1 h2
    rw [key0] at h1 h2
    exact ⟨fun h => by_contra fun h' => h1 ⟨h, h'⟩, fun h => by_contra fun h' => h2 ⟨h, h'⟩⟩
  -- the two faces on the edge
  have hboth : (∃ i f, F i = some f ∧ Side f a b) ∧ ∃ i f, F i = some f ∧ Side f b a := by
    obtain ⟨i, f, f1, f2, f3, -⟩ := hC.edge
    rcases corner_sides f2 f3 hab with h | h
    · exact ⟨⟨i, f, f1, h⟩, (hint b).1 ⟨i, f, f1, h⟩⟩
    · exact ⟨(hint b).2 ⟨i, f, f1, h⟩, ⟨i, f, f1, h⟩⟩
  obtain ⟨⟨i0, f0, A1, A2⟩, ⟨i1, f1, B1, B2⟩⟩ := hboth
  obtain ⟨c, A3, A4⟩ := third_corner A2
  obtain ⟨d, B3, B4⟩ := third_corner B2
  have hca : c ≠ a := side_ne (hn _ _ A1) A4
  have hcb : c ≠ b := (side_ne (hn _ _ A1) A3).symm
  have hda : d ≠ a := (side_ne (hn _ _ B1) B3).symm
  have hdb : d ≠ b := side_ne (hn _ _ B1) B4
  -- which faces with a side at `b` or `a` have both
  have on1 : ∀ i f v, F i = some f → Side f b v → (Corner f a ↔ v = c ∨ v = a) := by
    intro i f v h1 h2
    constructor
    · intro ha
      rcases corner_sides ha (side_corner h2).1 hab with h | h
      · have := hM i i0 f f0 a b h1 A1 h A2
        subst this
        rw [h1] at A1; cases A1
        exact Or.inl (side_right (hn _ _ h1) h2 A3)
      · exact Or.inr (side_right (hn _ _ h1) h2 h)
    · rintro (rfl | rfl)
      · have := hM i i0 f f0 b v h1 A1 h2 A3
        subst this
        rw [h1] at A1; cases A1
        exact (side_corner A2).1
      · exact (side_corner h2).2
  have on2 : ∀ i f v, F i = some f → Side f a v → (Corner f b ↔ v = d ∨ v = b) := by
    intro i f v h1 h2
    constructor
    · intro hb
      rcases corner_sides hb (side_corner h2).1 hab.symm with h | h
      · have := hM i i1 f f1 b a h1 B1 h B2
        subst this
        rw [h1] at B1; cases B1
        exact Or.inl (side_right (hn _ _ h1) h2 B3)
      · exact Or.inr (side_right (hn _ _ h1) h2 h)
    · rintro (rfl | rfl)
      · have := hM i i1 f f1 a v h1 B1 h2 B3
        subst this
        rw [h1] at B1; cases B1
        exact (side_corner B2).1
      · exact (side_corner h2).2
  have on3 : ∀ i f v, F i = some f → Side f v b → (Corner f a ↔ v = d ∨ v = a) := by
    intro i f v h1 h2
    constructor
    · intro ha
      rcases corner_sides ha (side_corner h2).2 hab with h | h
      · exact Or.inr (side_left (hn _ _ h1) h2 h)
      · have := hM i i1 f f1 b a h1 B1 h B2
        subst this
        rw [h1] at B1; cases B1
        exact Or.inl (side_left (hn _ _ h1) h2 B4)
    · rintro (rfl | rfl)
      · have := hM i i1 f f1 v b h1 B1 h2 B4
        subst this
        rw [h1] at B1; cases B1
        exact (side_corner B2).2
      · exact (side_corner h2).1
  have on4 : ∀ i f v, F i = some f → Side f v a → (Corner f b ↔ v = c ∨ v = b) := by
    intro i f v h1 h2
    constructor
    · intro hb
      rcases corner_sides hb (side_corner h2).2 hab.symm with h | h
      · exact Or.inr (side_left (hn _ _ h1) h2 h)
      · have := hM i i0 f f0 a b h1 A1 h A2
        subst this
        rw [h1] at A1; cases A1
        exact Or.inl (side_left (hn _ _ h1) h2 A4)
    · rintro (rfl | rfl)
      · have := hM i i0 f f0 v a h1 A1 h2 A4
        subst this
        rw [h1] at A1; cases A1
        exact (side_corner A2).2
      · exact (side_corner h2).1
  -- the link condition
  have hlink : ∀ v, v ≠ a → v ≠ b → v ≠ c → v ≠ d → (∃ i f, F i = some f ∧ Side f a v) →
      (¬ ∃ i f, F i = some f ∧ Side f b v) ∧ ¬ ∃ i f, F i = some f ∧ Side f v b := by
    rintro v hva hvb hvc hvd ⟨i, f, g1, g2⟩
    have hadj : Spec.Adjacent F v a := ⟨i, f, g1, (side_corner g2).2, (side_corner g2).1, hva⟩
    have hno : ¬ Spec.Adjacent F v b := by
      intro h
      obtain ⟨j, g, k1, k2, k3, k4⟩ := hC.link v hadj h
      rcases corner_sides k3 k4 hab with k | k
      · have := hM j i0 g f0 a b k1 A1 k A2
        subst this
        rw [k1] at A1; cases A1
        rcases corner_three (hn _ _ k1) A2 A3 k2 with e | e | e <;> contradiction
      · have := hM j i1 g f1 b a k1 B1 k B2
        subst this
        rw [k1] at B1; cases B1
        rcases corner_three (hn _ _ k1) B2 B3 k2 with e | e | e <;> contradiction
    constructor
    · rintro ⟨j, g, k1, k2⟩
      exact hno ⟨j, g, k1, (side_corner k2).2, (side_corner k2).1, hvb⟩
    · rintro ⟨j, g, k1, k2⟩
      exact hno ⟨j, g, k1, (side_corner k2).1, (side_corner k2).2, hvb⟩
  -- sides at `b` afterwards
  have out : ∀ v, v ≠ a → v ≠ b → ((∃ i f, F' i = some f ∧ Side f b v) ↔
      ((∃ i f, F i = some f ∧ Side f b v) ∧ v ≠ c) ∨ (∃ i f, F i = some f ∧ Side f a v) ∧ v ≠ d) := by
    intro v hva hvb
    rw [hF', merged_side_out hab hva hvb hn]
    refine or_congr ?_ ?_
    · constructor
      · rintro ⟨i, f, h1, h2, h3⟩
        rw [on1 i f v h1 h2] at h3
        exact ⟨⟨i, f, h1, h2⟩, fun e => h3 (Or.inl e)⟩
      · rintro ⟨⟨i, f, h1, h2⟩, h3⟩
        refine ⟨i, f, h1, h2, ?_⟩
        rw [on1 i f v h1 h2]
        rintro (e | e) <;> contradiction
    · constructor
      · rintro ⟨i, f, h1, h2, h3⟩
        rw [on2 i f v h1 h2] at h3
        exact ⟨⟨i, f, h1, h2⟩, fun e => h3 (Or.inl e)⟩
      · rintro ⟨⟨i, f, h1, h2⟩, h3⟩
        refine ⟨i, f, h1, h2, ?_⟩
        rw [on2 i f v h1 h2]
        rintro (e | e) <;> contradiction
  have into : ∀ v, v ≠ a → v ≠ b → ((∃ i f, F' i = some f ∧ Side f v b) ↔
      ((∃ i f, F i = some f ∧ Side f v b) ∧ v ≠ d) ∨ (∃ i f, F i = some f ∧ Side f v a) ∧ v ≠ c) := by
    intro v hva hvb
    rw [hF', merged_side_in hab hva hvb hn]
    refine or_congr ?_ ?_
    · constructor
      · rintro ⟨i, f, h1, h2, h3⟩
        rw [on3 i f v h1 h2] at h3
        exact ⟨⟨i, f, h1, h2⟩, fun e => h3 (Or.inl e)⟩
      · rintro ⟨⟨i, f, h1, h2⟩, h3⟩
        refine ⟨i, f, h1, h2, ?_⟩
        rw [on3 i f v h1 h2]
        rintro (e | e) <;> contradiction
    · constructor
      · rintro ⟨i, f, h1, h2, h3⟩
        rw [on4 i f v h1 h2] at h3
        exact ⟨⟨i, f, h1, h2⟩, fun e => h3 (Or.inl e)⟩
      · rintro ⟨⟨i, f, h1, h2⟩, h3⟩
        refine ⟨i, f, h1, h2, ?_⟩
        rw [on4 i f v h1 h2]
        rintro (e | e) <;> contradiction
  have noa : ∀ x, (¬ ∃ i f, F' i = some f ∧ Side f a x) ∧ ¬ ∃ i f, F' i = some f ∧ Side f x a := by
    have : ∀ i f, F' i = some f → ¬ Corner f a := by
      intro i f h
      rw [hF'] at h
      obtain ⟨f₀, w1, ⟨w2, w3, rfl⟩ | ⟨w2, rfl⟩⟩ := merged_some h
      · exact retarget_gone hab
      · exact w2
    intro x
    constructor
    · rintro ⟨i, f, h1, h2⟩; exact this i f h1 (side_corner h2).1
    · rintro ⟨i, f, h1, h2⟩; exact this i f h1 (side_corner h2).2
  have hn' : ∀ i f, F' i = some f → Nondeg f := by
    intro i f h
    rw [hF'] at h
    obtain ⟨f₀, w1, ⟨w2, w3, rfl⟩ | ⟨w2, rfl⟩⟩ := merged_some h
    · exact retarget_nondeg (hn _ _ w1) w3
    · exact hn _ _ w1
  have selfF : ∀ x, ¬ ∃ i f, F i = some f ∧ Side f x x := by
    rintro x ⟨i, f, h1, h2⟩; exact side_ne (hn _ _ h1) h2 rfl
  have selfF' : ∀ x, ¬ ∃ i f, F' i = some f ∧ Side f x x := by
    rintro x ⟨i, f, h1, h2⟩; exact side_ne (hn' _ _ h1) h2 rfl
  have bc : ∃ i f, F i = some f ∧ Side f b c := ⟨i0, f0, A1, A3⟩
  have ca : ∃ i f, F i = some f ∧ Side f c a := ⟨i0, f0, A1, A4⟩
  have ad : ∃ i f, F i = some f ∧ Side f a d := ⟨i1, f1, B1, B3⟩
  have db : ∃ i f, F i = some f ∧ Side f d b := ⟨i1, f1, B1, B4⟩
  have ac := (hint c).2 ca
  have da := (hint d).1 ad
  have hia := hC.interior
  have other : ∀ u v, u ≠ a → v ≠ a → u ≠ b → v ≠ b → ((∃ i f, F' i = some f ∧ Side f u v) ↔ ∃ i f, F i = some f ∧ Side f u v) := by
    intro u v h1 h2 h3 h4
    rw [hF']
    exact merged_side_other hab h1 h2 h3 h4 hn
  unfold BoundaryEdge at hia ⊢
  simp only [key, key0] at hia ⊢
  clear on1 on2 on3 on4 key key0 hC
  by_cases hua : u = a
  · subst hua
    exact iff_of_false (fun h => (noa v).1 h.1) (hia v).1
  by_cases hva : v = a
  · subst hva
    exact iff_of_false (fun h => (noa u).2 h.1) (hia u).2
  by_cases hub : u = b
  · subst hub
    by_cases hvb : v = u
    · subst hvb
      exact iff_of_false (fun h => selfF' _ h.1) (fun h => selfF _ h.1)
    rw [out v hva hvb, into v hva hvb]
    by_cases hvc : v = c
    · subst hvc
      by_cases hcd : v = d
      · subst hcd
        simp only [ne_eq, not_true_eq_false, and_false, or_self, false_and, false_iff]
        exact fun h => h.2 db
      · simp only [ne_eq, not_true_eq_false, and_false, false_or, or_false, hcd, not_false_eq_true, and_true]
        exact ⟨fun h => ⟨bc, h.2⟩, fun h => ⟨ac, h.2⟩⟩
    · by_cases hvd : v = d
      · subst hvd
        simp only [ne_eq, not_true_eq_false, and_false, false_or, or_false, hvc, not_false_eq_true, and_true]
        exact iff_of_false (fun h => h.2 da) (fun h => h.2 db)
      · simp only [ne_eq, hvc, hvd, not_false_eq_true, and_true]
        exact prop_step (hint v) (hlink v hva hvb hvc hvd)
  · by_cases hvb : v = b
    · subst hvb
      rw [out u hua hub, into u hua hub]
      by_cases hvc : u = c
      · subst hvc
        by_cases hcd : u = d
        · subst hcd
          simp only [ne_eq, not_true_eq_false, and_false, or_self, false_and, false_iff]
          exact fun h => h.2 bc
        · simp only [ne_eq, not_true_eq_false, and_false, false_or, or_false, hcd, not_false_eq_true, and_true]
          exact iff_of_false (fun h => h.2 ac) (fun h => h.2 bc)
      · by_cases hvd : u = d
        · subst hvd
          simp only [ne_eq, not_true_eq_false, and_false, false_or, or_false, hvc, not_false_eq_true, and_true]
          exact ⟨fun h => ⟨db, h.2⟩, fun h => ⟨da, h.2⟩⟩
        · simp only [ne_eq, hvc, hvd, not_false_eq_true, and_true]
          exact prop_step (hint u).symm fun h => (hlink u hua hub hvc hvd ((hint u).2 h)).symm
    · rw [other u v hua hva hub hvb, other v u hva hua hvb hub]

/-! ### the whole run -/

/-- Renaming the corners of a face. -/
def ren (ρ : Nat → Nat) (f : AbstractMesh.Face) : AbstractMesh.Face := (ρ f.1, ρ f.2.1, ρ f.2.2)

/-- The faces in the order of their numbers. -/
def inOrder (I : Input) (F : Nat → Option AbstractMesh.Face) : List AbstractMesh.Face := (List.range I.faces.length).filterMap F

/-- What a run gives, with the new numbers of the vertices. -/
structure Result (I : Input) (vs : List P3) (fs : List AbstractMesh.Face) (F : Nat → Option AbstractMesh.Face) (ρ : Nat → Nat) : Prop where
  faces : fs = (inOrder I F).map (ren ρ)
  collapses : Collapses I (fun i => I.faces[i]?) F
  done : ∀ a b, ¬ Safe I F a b
  manifold : Manifold F
  range : ∀ i f, F i = some f → InRange I f
  number : ∀ i f, F i = some f → i < I.faces.length
  pos : ∀ i f v, F i = some f → Corner f v → ρ v < vs.length ∧ Spec.pos vs (ρ v) = Spec.pos I.vertices v
  used : I.points ≠ [] → I.faces ≠ [] → ∀ k, k < vs.length → ∃ i f v, F i = some f ∧ Corner f v ∧ ρ v = k
  nodup : vs.Nodup

theorem inOrder_mem {F : Nat → Option AbstractMesh.Face} (hF : ∀ i f, F i = some f → i < I.faces.length) {f : AbstractMesh.Face} :
    f ∈ inOrder I F ↔ ∃ i, F i = some f := by
  unfold inOrder
  rw [List.mem_filterMap]
  constructor
  · rintro ⟨i, -, h⟩; exact ⟨i, h⟩
  · rintro ⟨i, h⟩; exact ⟨i, List.mem_range.2 (hF i f h), h⟩

theorem inOrder_self (I : Input) : inOrder I (fun i => I.faces[i]?) = I.faces := by
  unfold inOrder
  apply List.ext_getElem?
  intro i
  have key : ∀ (l : List AbstractMesh.Face), (List.range l.length).filterMap (fun i => l[i]?) = l := by
    intro l
    induction l with
    | nil => rfl
    | cons x l ih =>
        rw [List.length_cons, List.range_succ_eq_map, List.filterMap_cons]
        simp only [List.getElem?_cons_zero, List.filterMap_map]
        congr 1
  rw [key]

theorem thin_core (hI : Valid I) {fuel : Nat} (hfuel : I.faces.length < fuel) :
    ∃ vs fs F ρ, thinSnappedMesh I fuel = some (.ok (vs, fs)) ∧ Result I vs fs F ρ := by
  unfold thinSnappedMesh
  by_cases h0 : I.points.length = 0 ∨ I.faces.length = 0
  · rw [if_pos h0]
    refine ⟨I.vertices, I.faces, fun i => I.faces[i]?, id, rfl, ?_, .refl _, ?_, hI.manifold, ?_, ?_, ?_, ?_, hI.positions⟩
    · rw [inOrder_self]
      exact (List.map_id _).symm
    · intro a b hS
      rcases h0 with h | h
      · have := hS.snapped.1
        unfold IsSnapped at this
        rw [List.length_eq_zero_iff.1 h] at this
        simp at this
      · obtain ⟨i, f, h1, -⟩ := hS.edge
        rw [List.length_eq_zero_iff.1 h] at h1
        simp at h1
    · intro i f hf
      exact hI.corners f (List.mem_of_getElem? hf)
    · intro i f hf
      exact (List.getElem?_eq_some_iff.1 hf).1
    · intro i f v hf hv
      obtain ⟨-, r1, r2, r3⟩ := hI.corners f (List.mem_of_getElem? hf)
      refine ⟨?_, rfl⟩
      rcases hv with e | e | e <;> simp only [id] <;> omega
    · intro h1 h2
      rw [List.length_eq_zero_iff, List.length_eq_zero_iff] at h0
      exact absurd h0 (by tauto)
  · rw [if_neg h0]
    obtain ⟨s0, e0, i0, n0, f0⟩ := start_spec hI
    rw [e0]
    dsimp only
    have hc : faceCount s0.mesh < fuel := by
      unfold faceCount
      refine lt_of_le_of_lt (List.length_filter_le _ _) ?_
      rw [List.length_range, n0]
      exact hfuel
    obtain ⟨s1, e1, i1, n1, c1, d1⟩ := loop_spec hI fuel s0 i0 hc
    rw [e1]
    dsimp only
    have hnum : ∀ i f, faceAt s1.mesh i = some f → i < I.faces.length := by
      intro i f hf
      have := (faceAt_eq_some.1 hf).1.1
      omega
    have hL : s1.mesh.takeFaces = inOrder I (faceAt s1.mesh) := by
      rw [C35_take_faces i1.reach, n1, n0]
      rfl
    obtain ⟨r, e2, hN, -, cs, us⟩ := emit_spec I.p s1.mesh.takeFaces ([], fun _ => none) ⟨by simp, by simp, by simp⟩
    rw [e2]
    have hlt : ∀ {i f v}, faceAt s1.mesh i = some f → Corner f v → v < I.vertices.length := by
      intro i f v hf hv
      obtain ⟨-, r1, r2, r3⟩ := i1.range i f hf
      rcases hv with e | e | e <;> omega
    have hused : ∀ k, k < r.1.length → ∃ i f v, faceAt s1.mesh i = some f ∧ Corner f v ∧ r.2 v = some k := by
      intro k hk
      obtain ⟨v, hv⟩ := hN.surj k hk
      rcases us v k hv with h | ⟨f, hf, hc⟩
      · cases h
      · rw [hL, inOrder_mem hnum] at hf
        obtain ⟨i, hi⟩ := hf
        exact ⟨i, f, v, hi, hc, hv⟩
    refine ⟨r.1, _, faceAt s1.mesh, fun v => (r.2 v).getD 0, rfl, ?_, ?_, d1, i1.reach.good.consistent.manifold, i1.range, hnum, ?_, ?_, ?_⟩
    · rw [hL]
      rfl
    · have : faceAt s0.mesh = fun i => I.faces[i]? := funext f0
      rw [← this]
      exact c1
    · intro i f v hf hv
      obtain ⟨k, hk⟩ := cs f (by rw [hL, inOrder_mem hnum]; exact ⟨i, hf⟩) v hv
      have hp := hN.pos v k hk
      have hkl := (List.getElem?_eq_some_iff.1 hp).1
      rw [hk, Option.getD_some]
      refine ⟨hkl, ?_⟩
      unfold Spec.pos
      rw [List.getD_eq_getElem?_getD, hp]
      rfl
    · intro _ _ k hk
      obtain ⟨i, f, v, h1, h2, h3⟩ := hused k hk
      exact ⟨i, f, v, h1, h2, by rw [h3]; rfl⟩
    · rw [List.nodup_iff_injective_getElem]
      intro x y hxy
      obtain ⟨i, f, u, a1, a2, a3⟩ := hused x.1 x.2
      obtain ⟨j, g, v, b1, b2, b3⟩ := hused y.1 y.2
      have p1 := hN.pos u _ a3
      have p2 := hN.pos v _ b3
      rw [List.getElem?_eq_getElem x.2] at p1
      rw [List.getElem?_eq_getElem y.2] at p2
      have : I.p u = I.p v := by
        rw [← Option.some_inj.1 p1, ← Option.some_inj.1 p2]
        exact hxy
      have huv := p_inj hI (hlt a1 a2) (hlt b1 b2) this
      subst huv
      rw [a3] at b3
      exact Fin.ext (Option.some_inj.1 b3)

namespace Result

variable {vs : List P3} {fs : List AbstractMesh.Face} {F : Nat → Option AbstractMesh.Face} {ρ : Nat → Nat}

theorem lt (h : Result I vs fs F ρ) {i v : Nat} {f : AbstractMesh.Face} (hf : F i = some f) (hv : Corner f v) : v < I.vertices.length := by
  obtain ⟨-, r1, r2, r3⟩ := h.range i f hf
  rcases hv with e | e | e <;> omega

theorem inj (hI : Valid I) (h : Result I vs fs F ρ) {i j u v : Nat} {f g : AbstractMesh.Face} (hf : F i = some f) (hu : Corner f u) (hg : F j = some g)
    (hv : Corner g v) (e : ρ u = ρ v) : u = v := by
  refine p_inj hI (h.lt hf hu) (h.lt hg hv) ?_
  have h1 := (h.pos i f u hf hu).2
  have h2 := (h.pos j g v hg hv).2
  rw [e] at h1
  exact h1.symm.trans h2

theorem mem (h : Result I vs fs F ρ) {g : AbstractMesh.Face} : g ∈ fs ↔ ∃ i f, F i = some f ∧ g = ren ρ f := by
  rw [h.faces, List.mem_map]
  constructor
  · rintro ⟨f, hf, rfl⟩
    obtain ⟨i, hi⟩ := (inOrder_mem h.number).1 hf
    exact ⟨i, f, hi, rfl⟩
  · rintro ⟨i, f, hi, rfl⟩
    exact ⟨f, (inOrder_mem h.number).2 ⟨i, hi⟩, rfl⟩

theorem tri_eq (h : Result I vs fs F ρ) {i : Nat} {f : AbstractMesh.Face} (hf : F i = some f) : tri vs (ren ρ f) = tri I.vertices f := by
  unfold tri ren
  rw [(h.pos i f _ hf (Or.inl rfl)).2, (h.pos i f _ hf (Or.inr (Or.inl rfl))).2, (h.pos i f _ hf (Or.inr (Or.inr rfl))).2]

theorem ren_side {u v : Nat} {f : AbstractMesh.Face} : Side (ren ρ f) u v ↔ ∃ x y, Side f x y ∧ ρ x = u ∧ ρ y = v := by
  unfold Side ren
  constructor
  · rintro (⟨h1, h2⟩ | ⟨h1, h2⟩ | ⟨h1, h2⟩)
    · exact ⟨_, _, Or.inl ⟨rfl, rfl⟩, h1, h2⟩
    · exact ⟨_, _, Or.inr (Or.inl ⟨rfl, rfl⟩), h1, h2⟩
    · exact ⟨_, _, Or.inr (Or.inr ⟨rfl, rfl⟩), h1, h2⟩
  · rintro ⟨x, y, ⟨rfl, rfl⟩ | ⟨rfl, rfl⟩ | ⟨rfl, rfl⟩, h1, h2⟩
    · exact Or.inl ⟨h1, h2⟩
    · exact Or.inr (Or.inl ⟨h1, h2⟩)
    · exact Or.inr (Or.inr ⟨h1, h2⟩)

theorem corners (hI : Valid I) (h : Result I vs fs F ρ) {g : AbstractMesh.Face} (hg : g ∈ fs) :
    Nondeg g ∧ g.1 < vs.length ∧ g.2.1 < vs.length ∧ g.2.2 < vs.length := by
  obtain ⟨i, f, hf, rfl⟩ := h.mem.1 hg
  have c1 : Corner f f.1 := Or.inl rfl
  have c2 : Corner f f.2.1 := Or.inr (Or.inl rfl)
  have c3 : Corner f f.2.2 := Or.inr (Or.inr rfl)
  obtain ⟨⟨n1, n2, n3⟩, -⟩ := h.range i f hf
  refine ⟨⟨fun e => n1 (h.inj hI hf c1 hf c2 e), fun e => n2 (h.inj hI hf c2 hf c3 e), fun e => n3 (h.inj hI hf c3 hf c1 e)⟩,
    (h.pos i f _ hf c1).1, (h.pos i f _ hf c2).1, (h.pos i f _ hf c3).1⟩

theorem out_manifold (hI : Valid I) (h : Result I vs fs F ρ) : Manifold (fun i => fs[i]?) := by
  have hp : fs.Pairwise (fun f g => ∀ a b, Side f a b → ¬ Side g a b) := by
    rw [h.faces, List.pairwise_map]
    unfold inOrder
    rw [List.pairwise_filterMap]
    refine List.Pairwise.imp ?_ (List.pairwise_lt_range (n := I.faces.length))
    intro i j hij f hf g hg a b s1 s2
    obtain ⟨x, y, q1, q2, q3⟩ := ren_side.1 s1
    obtain ⟨x', y', p1, p2, p3⟩ := ren_side.1 s2
    have e1 := h.inj hI hf (side_corner q1).1 hg (side_corner p1).1 (q2.trans p2.symm)
    have e2 := h.inj hI hf (side_corner q1).2 hg (side_corner p1).2 (q3.trans p3.symm)
    subst e1 e2
    have := h.manifold i j f g _ _ hf hg q1 p1
    omega
  intro i j f g a b hf hg s1 s2
  obtain ⟨hi, rfl⟩ := List.getElem?_eq_some_iff.1 hf
  obtain ⟨hj, rfl⟩ := List.getElem?_eq_some_iff.1 hg
  rw [List.pairwise_iff_getElem] at hp
  rcases lt_trichotomy i j with hij | hij | hij
  · exact absurd s2 (hp i j hi hj hij a b s1)
  · exact hij
  · exact absurd s1 (hp j i hj hi hij a b s2)

theorem out_side (h : Result I vs fs F ρ) {u v : Nat} :
    (∃ (i : Nat) (g : _), fs[i]? = some g ∧ Side g u v) ↔ ∃ i f x y, F i = some f ∧ Side f x y ∧ ρ x = u ∧ ρ y = v := by
  constructor
  · rintro ⟨i, g, h1, h2⟩
    obtain ⟨j, f, hf, rfl⟩ := h.mem.1 (List.mem_of_getElem? h1)
    obtain ⟨x, y, q⟩ := ren_side.1 h2
    exact ⟨j, f, x, y, hf, q⟩
  · rintro ⟨j, f, x, y, hf, q⟩
    obtain ⟨i, hi⟩ := List.getElem?_of_mem (h.mem.2 ⟨j, f, hf, rfl⟩)
    exact ⟨i, _, hi, ren_side.2 ⟨x, y, q⟩⟩

theorem out_boundary (hI : Valid I) (h : Result I vs fs F ρ) (p q : P3) :
    BoundarySegment vs fs p q ↔ ∃ u v, BoundaryEdge F u v ∧ Spec.pos I.vertices u = p ∧ Spec.pos I.vertices v = q := by
  constructor
  · rintro ⟨u, v, ⟨h1, h2⟩, rfl, rfl⟩
    obtain ⟨i, f, x, y, hf, s1, rfl, rfl⟩ := h.out_side.1 h1
    refine ⟨x, y, ⟨⟨i, f, hf, s1⟩, ?_⟩, (h.pos i f x hf (side_corner s1).1).2.symm, (h.pos i f y hf (side_corner s1).2).2.symm⟩
    intro j g hg s2
    obtain ⟨k, g', hk, s3⟩ := h.out_side.2 ⟨j, g, y, x, hg, s2, rfl, rfl⟩
    exact h2 k g' hk s3
  · rintro ⟨x, y, ⟨⟨i, f, hf, s1⟩, h2⟩, rfl, rfl⟩
    refine ⟨ρ x, ρ y, ⟨h.out_side.2 ⟨i, f, x, y, hf, s1, rfl, rfl⟩, ?_⟩, (h.pos i f x hf (side_corner s1).1).2, (h.pos i f y hf (side_corner s1).2).2⟩
    intro k g' hk s3
    obtain ⟨j, g, y', x', hg, s2, e1, e2⟩ := h.out_side.1 ⟨k, g', hk, s3⟩
    have e1 := h.inj hI hg (side_corner s2).1 hf (side_corner s1).2 e1
    have e2 := h.inj hI hg (side_corner s2).2 hf (side_corner s1).1 e2
    subst e1 e2
    exact h2 j g hg s2

end Result

/-! ### what a sequence of collapses keeps -/

theorem merged_nondeg {F : Nat → Option AbstractMesh.Face} {a b : Nat} (hn : ∀ i f, F i = some f → Nondeg f) :
    ∀ i f, merged F a b i = some f → Nondeg f := by
  intro i f h
  obtain ⟨f₀, w1, ⟨w2, w3, rfl⟩ | ⟨w2, rfl⟩⟩ := merged_some h
  · exact retarget_nondeg (hn _ _ w1) w3
  · exact hn _ _ w1

theorem collapses_boundary {F G : Nat → Option AbstractMesh.Face} (h : Collapses I F G) (hn : ∀ i f, F i = some f → Nondeg f) (hM : Manifold F) :
    (∀ i f, G i = some f → Nondeg f) ∧ Manifold G ∧ ∀ u v, BoundaryEdge G u v ↔ BoundaryEdge F u v := by
  induction h with
  | refl => exact ⟨hn, hM, fun _ _ => Iff.rfl⟩
  | step _ hc ih =>
      obtain ⟨h1, h2, h3⟩ := ih
      refine ⟨?_, hc.manifold, fun u v => (boundary_step hc h1 h2 u v).trans (h3 u v)⟩
      intro i f hf
      rw [hc.faces] at hf
      exact merged_nondeg h1 i f hf

theorem collapses_honored {F G : Nat → Option AbstractMesh.Face} (h : Collapses I F G) {i : Nat} {q : P3} {tol : ℝ} (hq : I.points[i]? = some q)
    (ht : HasTolerance I i tol) (h0 : ∃ j f, F j = some f ∧ Honors I.T (tri I.vertices f) q tol) :
    ∃ j f, G j = some f ∧ Honors I.T (tri I.vertices f) q tol := by
  induction h with
  | refl => exact h0
  | step _ hc ih => exact hc.honored i q tol hq ht ih

theorem collapses_kept {F G : Nat → Option AbstractMesh.Face} (h : Collapses I F G) {i : Nat} {f : AbstractMesh.Face} (hf : F i = some f)
    (hs : ∀ v, Corner f v → ¬ IsSnapped I v) : G i = some f := by
  induction h with
  | refl => exact hf
  | step _ hc ih =>
      rw [hc.faces]
      exact merged_kept ih fun h => hs _ h hc.snapped.1

end Verif.Thinner
