import Verif.Lemmas.ThinnerMesh
import Verif.Spec.Smoother

/-! # Lemmas: the total bend and a flip -/

namespace Verif.Smoother

open Verif Verif.AbstractMesh Verif.Thinner Verif.Thinner.Spec Verif.Smoother.Spec
open Verif.Predicates (P3)

variable {I : Input}

theorem inner_toE (p q : P3) : inner ℝ (toE p) (toE q) = dotP p q := by
  simp [toE, dotP, EuclideanSpace.inner_eq_star_dotProduct, dotProduct, Fin.sum_univ_three]
  ring

theorem toE_eq_zero {p : P3} : toE p = 0 ↔ p = 0 := by
  have : toE (0 : P3) = 0 := by ext k; fin_cases k <;> simp [toE]
  rw [← this]
  exact toE_inj.eq_iff

theorem sqrt_dotP (p : P3) : √(dotP p p) = ‖toE p‖ := by
  rw [← norm_toE_sq, Real.sqrt_sq (norm_nonneg _)]

theorem bend_eq (I : Input) (f g : AbstractMesh.Face) : Smoother.bend I f g = Spec.bend I.T (tri I.vertices f) (tri I.vertices g) := by
  unfold Smoother.bend Spec.bend
  have e1 : I.normal f = Thinner.Spec.normal I.T (tri I.vertices f) := rfl
  have e2 : I.normal g = Thinner.Spec.normal I.T (tri I.vertices g) := rfl
  rw [e1, e2]
  generalize Thinner.Spec.normal I.T (tri I.vertices f) = n1
  generalize Thinner.Spec.normal I.T (tri I.vertices g) = n2
  dsimp only
  rw [sqrt_dotP, sqrt_dotP]
  have pos : ∀ p : P3, ¬ ‖toE p‖ > 0 ↔ p = 0 := by
    intro p
    rw [gt_iff_lt, norm_pos_iff, not_not, toE_eq_zero]
  have cond : (¬ ‖toE n1‖ > 0 ∨ ¬ ‖toE n2‖ > 0) ↔ (n1 = 0 ∨ n2 = 0) := or_congr (pos n1) (pos n2)
  by_cases h : n1 = 0 ∨ n2 = 0
  · rw [if_pos (cond.2 h), if_pos h]; rfl
  · rw [if_neg (fun hh => h (cond.1 hh)), if_neg h]
    unfold InnerProductGeometry.angle
    rw [inner_toE]
    congr 1
    have hb := abs_real_inner_div_norm_mul_norm_le_one (toE n1) (toE n2)
    rw [inner_toE, abs_le] at hb
    rw [min_eq_left hb.2, max_eq_right hb.1]

theorem spec_bend_comm (T : P3 → P3) (s t : P3 × P3 × P3) : Spec.bend T s t = Spec.bend T t s := by
  unfold Spec.bend
  rw [InnerProductGeometry.angle_comm]
  congr 1
  exact propext or_comm

/-- Both sides of an edge. -/
def Pair (F : Nat → Option AbstractMesh.Face) (u v : Nat) (p : AbstractMesh.Face × AbstractMesh.Face) : Prop :=
  (∃ i, F i = some p.1 ∧ Side p.1 u v) ∧ ∃ j, F j = some p.2 ∧ Side p.2 v u

open Classical in
/-- The bend at an edge with the given sides. -/
noncomputable def pairBend (I : Input) (P : AbstractMesh.Face × AbstractMesh.Face → Prop) : ℝ :=
  if h : ∃ p, P p then Spec.bend I.T (tri I.vertices h.choose.1) (tri I.vertices h.choose.2) else 0

theorem edgeBend_congr {F F' : Nat → Option AbstractMesh.Face} {u v : Nat} (h : ∀ p, Pair F u v p ↔ Pair F' u v p) : edgeBend I F u v = edgeBend I F' u v := by
  have this : Pair F u v = Pair F' u v := funext fun p => propext (h p)
  have e : ∀ G, edgeBend I G u v = pairBend I (Pair G u v) := fun G => rfl
  rw [e, e, this]

theorem edgeBend_some {F : Nat → Option AbstractMesh.Face} (hM : Manifold F) {i j u v : Nat} {f g : AbstractMesh.Face} (hf : F i = some f) (s1 : Side f u v)
    (hg : F j = some g) (s2 : Side g v u) : edgeBend I F u v = Smoother.bend I f g := by
  have hex : ∃ p : AbstractMesh.Face × AbstractMesh.Face, (∃ i, F i = some p.1 ∧ Side p.1 u v) ∧ ∃ j, F j = some p.2 ∧ Side p.2 v u :=
    ⟨(f, g), ⟨i, hf, s1⟩, j, hg, s2⟩
  unfold edgeBend
  rw [dif_pos hex, bend_eq]
  obtain ⟨⟨i', a1, a2⟩, j', b1, b2⟩ := hex.choose_spec
  have e1 := hM i' i _ _ _ _ a1 hf a2 s1
  have e2 := hM j' j _ _ _ _ b1 hg b2 s2
  subst e1 e2
  rw [hf] at a1
  rw [hg] at b1
  rw [← Option.some_inj.1 a1, ← Option.some_inj.1 b1]

theorem edgeBend_none {F : Nat → Option AbstractMesh.Face} {u v : Nat} (h : ∀ i f, F i = some f → ¬ Side f u v) : edgeBend I F u v = 0 := by
  unfold edgeBend
  rw [dif_neg]
  rintro ⟨p, ⟨i, h1, h2⟩, -⟩
  exact h i _ h1 h2

theorem edgeBend_none' {F : Nat → Option AbstractMesh.Face} {u v : Nat} (h : ∀ i f, F i = some f → ¬ Side f v u) : edgeBend I F u v = 0 := by
  unfold edgeBend
  rw [dif_neg]
  rintro ⟨p, -, ⟨i, h1, h2⟩⟩
  exact h i _ h1 h2

theorem edgeBend_comm {F : Nat → Option AbstractMesh.Face} (hM : Manifold F) (u v : Nat) : edgeBend I F u v = edgeBend I F v u := by
  by_cases h1 : ∃ i f, F i = some f ∧ Side f u v
  · by_cases h2 : ∃ i f, F i = some f ∧ Side f v u
    · obtain ⟨i, f, a1, a2⟩ := h1
      obtain ⟨j, g, b1, b2⟩ := h2
      rw [edgeBend_some hM a1 a2 b1 b2, edgeBend_some hM b1 b2 a1 a2, bend_eq, bend_eq, spec_bend_comm]
    · push Not at h2
      rw [edgeBend_none' h2, edgeBend_none h2]
  · push Not at h1
    rw [edgeBend_none h1, edgeBend_none' h1]

/-- The faces before and after a flip. -/
structure Quad (F F' : Nat → Option AbstractMesh.Face) (fi fj x y c d : Nat) : Prop where
  left : ∃ f, F fi = some f ∧ Side f x y ∧ Side f y c ∧ Side f c x
  right : ∃ f, F fj = some f ∧ Side f y x ∧ Side f x d ∧ Side f d y
  left' : F' fi = some (c, x, d)
  right' : F' fj = some (d, y, c)
  others : ∀ i, i ≠ fi → i ≠ fj → F' i = F i
  cd : c ≠ d
  fresh : ¬ Thinner.Spec.Adjacent F c d
  nondeg : ∀ i f, F i = some f → Nondeg f
  man : Manifold F
  man' : Manifold F'

namespace Quad

variable {F F' : Nat → Option AbstractMesh.Face} {fi fj x y c d : Nat}

theorem ne (h : Quad F F' fi fj x y c d) : x ≠ y ∧ y ≠ c ∧ c ≠ x ∧ x ≠ d ∧ d ≠ y ∧ fi ≠ fj := by
  obtain ⟨f, f1, f2, f3, f4⟩ := h.left
  obtain ⟨g, g1, g2, g3, g4⟩ := h.right
  refine ⟨side_ne (h.nondeg _ _ f1) f2, side_ne (h.nondeg _ _ f1) f3, side_ne (h.nondeg _ _ f1) f4, side_ne (h.nondeg _ _ g1) g3,
    side_ne (h.nondeg _ _ g1) g4, ?_⟩
  rintro rfl
  rw [f1] at g1; cases g1
  exact side_ne (h.nondeg _ _ f1) f4 (side_right (h.nondeg _ _ f1) f3 g2)

theorem sides_left (h : Quad F F' fi fj x y c d) {f : AbstractMesh.Face} (hf : F fi = some f) {u v : Nat} (s : Side f u v) :
    (u = x ∧ v = y) ∨ (u = y ∧ v = c) ∨ (u = c ∧ v = x) := by
  obtain ⟨f', f1, f2, f3, f4⟩ := h.left
  rw [hf] at f1; cases f1
  have hn := h.nondeg _ _ hf
  rcases corner_three hn f2 f3 (side_corner s).1 with rfl | rfl | rfl
  · exact Or.inl ⟨rfl, (side_right hn s f2)⟩
  · exact Or.inr (Or.inl ⟨rfl, side_right hn s f3⟩)
  · exact Or.inr (Or.inr ⟨rfl, side_right hn s f4⟩)

theorem sides_right (h : Quad F F' fi fj x y c d) {f : AbstractMesh.Face} (hf : F fj = some f) {u v : Nat} (s : Side f u v) :
    (u = y ∧ v = x) ∨ (u = x ∧ v = d) ∨ (u = d ∧ v = y) := by
  obtain ⟨f', f1, f2, f3, f4⟩ := h.right
  rw [hf] at f1; cases f1
  have hn := h.nondeg _ _ hf
  rcases corner_three hn f2 f3 (side_corner s).1 with rfl | rfl | rfl
  · exact Or.inl ⟨rfl, (side_right hn s f2)⟩
  · exact Or.inr (Or.inl ⟨rfl, side_right hn s f3⟩)
  · exact Or.inr (Or.inr ⟨rfl, side_right hn s f4⟩)

theorem no_cd (h : Quad F F' fi fj x y c d) : (∀ i f, F i = some f → ¬ Side f c d) ∧ ∀ i f, F i = some f → ¬ Side f d c :=
  ⟨fun i f hf s => h.fresh ⟨i, f, hf, (side_corner s).1, (side_corner s).2, h.cd⟩,
    fun i f hf s => h.fresh ⟨i, f, hf, (side_corner s).2, (side_corner s).1, h.cd⟩⟩

/-- Sides that are not the old or the new edge are there before if and only if they are there afterwards. -/
theorem side_iff (h : Quad F F' fi fj x y c d) {u v : Nat} : (∃ i f, F' i = some f ∧ Side f u v) ↔
    ((∃ i f, F i = some f ∧ Side f u v) ∧ ¬ (u = x ∧ v = y) ∧ ¬ (u = y ∧ v = x)) ∨ (u = c ∧ v = d) ∨ (u = d ∧ v = c) := by
  obtain ⟨n1, n2, n3, n4, n5, n6⟩ := h.ne
  obtain ⟨f, f1, f2, f3, f4⟩ := h.left
  obtain ⟨g, g1, g2, g3, g4⟩ := h.right
  constructor
  · rintro ⟨i, k, k1, k2⟩
    by_cases hi : i = fi
    · subst hi
      rw [h.left'] at k1; cases k1
      rcases k2 with ⟨rfl, rfl⟩ | ⟨rfl, rfl⟩ | ⟨rfl, rfl⟩
      · exact Or.inl ⟨⟨_, f, f1, f4⟩, by dsimp only; omega⟩
      · exact Or.inl ⟨⟨_, g, g1, g3⟩, by dsimp only; omega⟩
      · exact Or.inr (Or.inr ⟨rfl, rfl⟩)
    · by_cases hj : i = fj
      · subst hj
        rw [h.right'] at k1; cases k1
        rcases k2 with ⟨rfl, rfl⟩ | ⟨rfl, rfl⟩ | ⟨rfl, rfl⟩
        · exact Or.inl ⟨⟨_, g, g1, g4⟩, by dsimp only; omega⟩
        · exact Or.inl ⟨⟨_, f, f1, f3⟩, by dsimp only; omega⟩
        · exact Or.inr (Or.inl ⟨rfl, rfl⟩)
      · rw [h.others i hi hj] at k1
        refine Or.inl ⟨⟨i, k, k1, k2⟩, ?_, ?_⟩
        · rintro ⟨rfl, rfl⟩
          exact hi (h.man _ _ _ _ _ _ k1 f1 k2 f2)
        · rintro ⟨rfl, rfl⟩
          exact hj (h.man _ _ _ _ _ _ k1 g1 k2 g2)
  · rintro (⟨⟨i, k, k1, k2⟩, m1, m2⟩ | ⟨rfl, rfl⟩ | ⟨rfl, rfl⟩)
    · by_cases hi : i = fi
      · subst hi
        rcases h.sides_left k1 k2 with e | ⟨rfl, rfl⟩ | ⟨rfl, rfl⟩
        · exact absurd e m1
        · exact ⟨fj, _, h.right', Or.inr (Or.inl ⟨rfl, rfl⟩)⟩
        · exact ⟨_, _, h.left', Or.inl ⟨rfl, rfl⟩⟩
      · by_cases hj : i = fj
        · subst hj
          rcases h.sides_right k1 k2 with e | ⟨rfl, rfl⟩ | ⟨rfl, rfl⟩
          · exact absurd e m2
          · exact ⟨fi, _, h.left', Or.inr (Or.inl ⟨rfl, rfl⟩)⟩
          · exact ⟨_, _, h.right', Or.inl ⟨rfl, rfl⟩⟩
        · exact ⟨i, k, by rw [h.others i hi hj]; exact k1, k2⟩
    · exact ⟨fj, _, h.right', Or.inr (Or.inr ⟨rfl, rfl⟩)⟩
    · exact ⟨fi, _, h.left', Or.inr (Or.inr ⟨rfl, rfl⟩)⟩

theorem boundary (h : Quad F F' fi fj x y c d) (u v : Nat) : BoundaryEdge F' u v ↔ BoundaryEdge F u v := by
  obtain ⟨f, f1, f2, f3, f4⟩ := h.left
  obtain ⟨g, g1, g2, g3, g4⟩ := h.right
  have key : ∀ (G : Nat → Option AbstractMesh.Face) x y, (∀ i f, G i = some f → ¬ Side f x y) ↔ ¬ ∃ i f, G i = some f ∧ Side f x y := by
    intro G x y; push Not; rfl
  have hxy : ∃ i f, F i = some f ∧ Side f x y := ⟨fi, f, f1, f2⟩
  have hyx : ∃ i f, F i = some f ∧ Side f y x := ⟨fj, g, g1, g2⟩
  have hcd := h.no_cd
  rw [key, key] at hcd
  unfold BoundaryEdge
  rw [key, key, h.side_iff, h.side_iff]
  by_cases e1 : u = x ∧ v = y
  · obtain ⟨rfl, rfl⟩ := e1
    obtain ⟨n1, n2, n3, n4, n5, n6⟩ := h.ne
    refine iff_of_false ?_ (fun hh => hh.2 hyx)
    rintro ⟨⟨-, e, -⟩ | e | e, -⟩
    · exact e ⟨rfl, rfl⟩
    · omega
    · omega
  by_cases e2 : u = y ∧ v = x
  · obtain ⟨rfl, rfl⟩ := e2
    obtain ⟨n1, n2, n3, n4, n5, n6⟩ := h.ne
    refine iff_of_false ?_ (fun hh => hh.2 hxy)
    rintro ⟨⟨-, -, e⟩ | e | e, -⟩
    · exact e ⟨rfl, rfl⟩
    · omega
    · omega
  by_cases e3 : u = c ∧ v = d
  · obtain ⟨rfl, rfl⟩ := e3
    exact iff_of_false (fun hh => hh.2 (Or.inr (Or.inr ⟨rfl, rfl⟩))) (fun hh => hcd.1 hh.1)
  by_cases e4 : u = d ∧ v = c
  · obtain ⟨rfl, rfl⟩ := e4
    exact iff_of_false (fun hh => hh.2 (Or.inr (Or.inl ⟨rfl, rfl⟩))) (fun hh => hcd.2 hh.1)
  have e1' : ¬ (v = y ∧ u = x) := fun h => e1 h.symm
  have e2' : ¬ (v = x ∧ u = y) := fun h => e2 h.symm
  have e3' : ¬ (v = d ∧ u = c) := fun h => e3 h.symm
  have e4' : ¬ (v = c ∧ u = d) := fun h => e4 h.symm
  simp only [e1, e2, e3, e4, e1', e2', e3', e4', not_false_eq_true, and_true, or_false]

/-- Away from the two faces nothing changes. -/
theorem bend_other (h : Quad F F' fi fj x y c d) {u v : Nat}
    (h1 : ¬ ((u = x ∧ v = y) ∨ (u = y ∧ v = c) ∨ (u = c ∧ v = x))) (h2 : ¬ ((u = y ∧ v = x) ∨ (u = x ∧ v = d) ∨ (u = d ∧ v = y)))
    (h3 : ¬ ((v = x ∧ u = y) ∨ (v = y ∧ u = c) ∨ (v = c ∧ u = x))) (h4 : ¬ ((v = y ∧ u = x) ∨ (v = x ∧ u = d) ∨ (v = d ∧ u = y)))
    (h5 : ¬ ((u = c ∧ v = d) ∨ (u = d ∧ v = c))) : edgeBend I F' u v = edgeBend I F u v := by
  have key : ∀ u v (f : AbstractMesh.Face), ¬ ((u = x ∧ v = y) ∨ (u = y ∧ v = c) ∨ (u = c ∧ v = x)) → ¬ ((u = y ∧ v = x) ∨ (u = x ∧ v = d) ∨ (u = d ∧ v = y)) →
      ¬ ((u = c ∧ v = d) ∨ (u = d ∧ v = c)) → ((∃ i, F' i = some f ∧ Side f u v) ↔ ∃ i, F i = some f ∧ Side f u v) := by
    intro u v f h1 h2 h5
    constructor
    · rintro ⟨i, k1, k2⟩
      by_cases hi : i = fi
      · subst hi
        rw [h.left'] at k1; cases k1
        unfold Side at k2
        dsimp only at k2
        omega
      · by_cases hj : i = fj
        · subst hj
          rw [h.right'] at k1; cases k1
          unfold Side at k2
          dsimp only at k2
          omega
        · exact ⟨i, by rw [← h.others i hi hj]; exact k1, k2⟩
    · rintro ⟨i, k1, k2⟩
      refine ⟨i, ?_, k2⟩
      rw [h.others i]
      · exact k1
      · rintro rfl; exact h1 (h.sides_left k1 k2)
      · rintro rfl; exact h2 (h.sides_right k1 k2)
  refine edgeBend_congr fun p => ?_
  unfold Pair
  rw [key u v p.1 h1 h2 h5, key v u p.2 h3 h4 (by omega)]

end Quad

/-- The difference of the total bends is the difference at the five edges. -/
theorem totalBend_diff {F F' : Nat → Option AbstractMesh.Face} {fi fj x y c d : Nat} (h : Quad F F' fi fj x y c d)
    (hx : x < I.vertices.length) (hy : y < I.vertices.length) (hc : c < I.vertices.length) (hd : d < I.vertices.length) :
    totalBend I F' - totalBend I F =
      (edgeBend I F' c d + edgeBend I F' c x + edgeBend I F' y c + edgeBend I F' x d + edgeBend I F' d y) -
      (edgeBend I F x y + edgeBend I F c x + edgeBend I F y c + edgeBend I F x d + edgeBend I F d y) := by
  obtain ⟨n1, n2, n3, n4, n5, n6⟩ := h.ne
  have n7 := h.cd
  unfold totalBend
  rw [← sub_div, div_eq_iff two_ne_zero, ← Finset.sum_product', ← Finset.sum_product', ← Finset.sum_sub_distrib]
  let D : Finset (Nat × Nat) := {(x, y), (y, x), (c, d), (d, c), (c, x), (x, c), (y, c), (c, y), (x, d), (d, x), (d, y), (y, d)}
  have hsub : D ⊆ Finset.range I.vertices.length ×ˢ Finset.range I.vertices.length := by
    intro p hp
    simp only [D, Finset.mem_insert, Finset.mem_singleton] at hp
    rw [Finset.mem_product, Finset.mem_range, Finset.mem_range]
    rcases hp with rfl | rfl | rfl | rfl | rfl | rfl | rfl | rfl | rfl | rfl | rfl | rfl <;> exact ⟨by assumption, by assumption⟩
  rw [← Finset.sum_subset hsub]
  · have hxy : edgeBend I F' x y = 0 := edgeBend_none fun i f hf s => by
      rcases h.side_iff.1 ⟨i, f, hf, s⟩ with ⟨-, e, -⟩ | e | e
      · exact e ⟨rfl, rfl⟩
      · omega
      · omega
    have hcd : edgeBend I F c d = 0 := edgeBend_none h.no_cd.1
    simp only [D]
    rw [Finset.sum_insert, Finset.sum_insert, Finset.sum_insert, Finset.sum_insert, Finset.sum_insert, Finset.sum_insert, Finset.sum_insert,
      Finset.sum_insert, Finset.sum_insert, Finset.sum_insert, Finset.sum_insert, Finset.sum_singleton]
    · dsimp only
      rw [edgeBend_comm h.man y x, edgeBend_comm h.man d c, edgeBend_comm h.man x c, edgeBend_comm h.man c y, edgeBend_comm h.man d x, edgeBend_comm h.man y d,
        edgeBend_comm h.man' y x, edgeBend_comm h.man' d c, edgeBend_comm h.man' x c, edgeBend_comm h.man' c y, edgeBend_comm h.man' d x, edgeBend_comm h.man' y d,
        hxy, hcd]
      ring
    all_goals
      simp only [Finset.mem_insert, Finset.mem_singleton, Prod.mk.injEq, n1, n2, n3, n4, n5, n7, n1.symm, n2.symm, n3.symm, n4.symm, n5.symm, n7.symm,
        and_false, false_and, or_false, not_false_eq_true]
  · rintro ⟨u, v⟩ - hp
    simp only [D, Finset.mem_insert, Finset.mem_singleton, Prod.mk.injEq, not_or] at hp
    dsimp only
    rw [sub_eq_zero]
    obtain ⟨p1, p2, p3, p4, p5, p6, p7, p8, p9, p10, p11, p12⟩ := hp
    refine h.bend_other ?_ ?_ ?_ ?_ ?_
    · rintro (e | e | e)
      · exact p1 e
      · exact p7 e
      · exact p5 e
    · rintro (e | e | e)
      · exact p2 e
      · exact p9 e
      · exact p11 e
    · rintro (e | e | e)
      · exact p2 e.symm
      · exact p8 e.symm
      · exact p6 e.symm
    · rintro (e | e | e)
      · exact p1 e.symm
      · exact p10 e.symm
      · exact p12 e.symm
    · rintro (e | e)
      · exact p3 e
      · exact p4 e

end Verif.Smoother
