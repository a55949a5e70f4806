import Verif.Lemmas.ThinnerStep
import Mathlib.Data.Finset.Card

/-! # Lemmas: one collapse -/

namespace Verif.Thinner

open Verif Verif.AbstractMesh Verif.SpatialGrid Verif.SpatialGrid.Spec Verif.MeshDefects Verif.MeshDefects.Spec Verif.ClosestPoint Verif.Predicates
open Verif.Thinner.Spec
open Verif.Geometry (Cross)

variable {I : Input}

/-! ### faces -/

theorem side_corner {f : AbstractMesh.Face} {a b : Nat} (h : Side f a b) : Corner f a ∧ Corner f b := by
  unfold Side at h; unfold Corner; tauto

theorem corner_sides {f : AbstractMesh.Face} {u v : Nat} (hu : Corner f u) (hv : Corner f v) (h : u ≠ v) : Side f u v ∨ Side f v u := by
  unfold Corner at hu hv
  unfold Side
  rcases hu with rfl | rfl | rfl <;> rcases hv with rfl | rfl | rfl <;> simp at h ⊢

theorem corner_out {f : AbstractMesh.Face} {a : Nat} (h : Corner f a) : (∃ u, Side f a u) ∧ ∃ u, Side f u a := by
  unfold Side
  rcases h with h | h | h
  · exact ⟨⟨f.2.1, by simp [h]⟩, ⟨f.2.2, by simp [h]⟩⟩
  · exact ⟨⟨f.2.2, by simp [h]⟩, ⟨f.1, by simp [h]⟩⟩
  · exact ⟨⟨f.1, by simp [h]⟩, ⟨f.2.1, by simp [h]⟩⟩

theorem side_he {m : AbstractMesh.Mesh} {i x y : Nat} {f : AbstractMesh.Face} (hf : faceAt m i = some f) (h : Side f x y) :
    ∃ e, IsHalfedge m e x y ∧ e / 4 = i := by
  rcases h with h | h | h
  · exact ⟨4 * i, ⟨f, by rw [show 4 * i / 4 = i by omega]; exact hf, Or.inl ⟨by omega, h⟩⟩, by omega⟩
  · exact ⟨4 * i + 1, ⟨f, by rw [show (4 * i + 1) / 4 = i by omega]; exact hf, Or.inr (Or.inl ⟨by omega, h⟩)⟩, by omega⟩
  · exact ⟨4 * i + 2, ⟨f, by rw [show (4 * i + 2) / 4 = i by omega]; exact hf, Or.inr (Or.inr ⟨by omega, h⟩)⟩, by omega⟩

theorem he_side {m : AbstractMesh.Mesh} {e x y : Nat} (h : IsHalfedge m e x y) : ∃ f, faceAt m (e / 4) = some f ∧ Side f x y := by
  obtain ⟨f, hf, h⟩ := h
  refine ⟨f, hf, ?_⟩
  unfold Side
  tauto

theorem he_mem {m : AbstractMesh.Mesh} (hr : Reachable m) {e x y : Nat} (h : IsHalfedge m e x y) : e ∈ m.vh x ∧ m.to_ e = y := by
  obtain ⟨h1, h2, h3⟩ := (isHalfedge_iff m e x y).1 h
  exact ⟨(hr.good.mem x e).2 ⟨h1, h2⟩, h3⟩

theorem mem_he {m : AbstractMesh.Mesh} (hr : Reachable m) {e x : Nat} (h : e ∈ m.vh x) : IsHalfedge m e x (m.to_ e) := by
  obtain ⟨h1, h2⟩ := (hr.good.mem x e).1 h
  exact (isHalfedge_iff m e x _).2 ⟨h1, h2, rfl⟩

theorem opp_iff {m : AbstractMesh.Mesh} (hr : Reachable m) {e o x y : Nat} (h : IsHalfedge m e x y) : m.opp e = some o ↔ IsHalfedge m o y x := by
  rw [hr.good.opp]
  obtain ⟨h1, h2, h3⟩ := (isHalfedge_iff m e x y).1 h
  rw [isHalfedge_iff, h2, h3]
  tauto

theorem opposite_eq {m : AbstractMesh.Mesh} {e x y : Nat} (h : IsHalfedge m e x y) : m.opposite e = .ok (m.opp e) := by
  obtain ⟨⟨⟨hl, -⟩, hk⟩, -, -⟩ := (isHalfedge_iff m e x y).1 h
  unfold Mesh.opposite
  rw [if_pos (by omega)]

theorem he_corner {m : AbstractMesh.Mesh} {e x y v : Nat} {f : AbstractMesh.Face} (h : IsHalfedge m e x y) (hf : faceAt m (e / 4) = some f)
    (hv : Corner f v) : v = x ∨ v = y ∨ v = m.apex e := by
  obtain ⟨⟨hl, hk⟩, h2, h3⟩ := (isHalfedge_iff m e x y).1 h
  obtain ⟨-, rfl⟩ := faceAt_eq_some.1 hf
  obtain ⟨u, hu⟩ := (corner_out hv).1
  rcases (he_side_iff hk v u).1 hu with ⟨h, -⟩ | ⟨h, -⟩ | ⟨h, -⟩
  · exact Or.inl (by rw [← h, h2])
  · exact Or.inr (Or.inl (by rw [← h, h3]))
  · exact Or.inr (Or.inr h.symm)

theorem mem_star {m : AbstractMesh.Mesh} (hr : Reachable m) (a fi : Nat) :
    fi ∈ (m.vh a).map (· / 4) ↔ ∃ f, faceAt m fi = some f ∧ Corner f a := (hr.good.consistent.vertexFaces a).2 fi

/-- If every outgoing halfedge has an opposite, so has every incoming one. -/
theorem interior_closed {m : AbstractMesh.Mesh} (hr : Reachable m) {a : Nat} (hint : ∀ h ∈ m.vh a, ∃ o, m.opp h = some o) {i u : Nat}
    {f : AbstractMesh.Face} (hf : faceAt m i = some f) (hs : Side f u a) : ∃ j g, faceAt m j = some g ∧ Side g a u := by
  have hφ : ∀ e ∈ m.vh a, ∃ o, m.opp e = some o ∧ IsHalfedge m o (m.to_ e) a ∧ Mesh.next o ∈ m.vh a := by
    intro e he
    obtain ⟨o, ho⟩ := hint e he
    have := (opp_iff hr (mem_he hr he)).1 ho
    exact ⟨o, ho, this, (he_mem hr (C35_walk hr this).2.2.1).1⟩
  have hmaps : Set.MapsTo (fun e => Mesh.next ((m.opp e).getD 0)) ((m.vh a).toFinset : Set Nat) ((m.vh a).toFinset : Set Nat) := by
    intro e he
    simp only [List.coe_toFinset, Set.mem_ofPred_eq] at he ⊢
    obtain ⟨o, ho, -, h2⟩ := hφ e he
    rw [ho]; exact h2
  have hinj : Set.InjOn (fun e => Mesh.next ((m.opp e).getD 0)) ((m.vh a).toFinset : Set Nat) := by
    intro e he e' he' h
    simp only [List.coe_toFinset, Set.mem_ofPred_eq] at he he'
    obtain ⟨o, ho, h1, -⟩ := hφ e he
    obtain ⟨o', ho', h1', -⟩ := hφ e' he'
    simp only [ho, ho', Option.getD_some] at h
    have w := (C35_walk hr h1).2.2.2.2.1
    have w' := (C35_walk hr h1').2.2.2.2.1
    rw [h, w'] at w
    rw [← w] at ho
    have s1 := (C35_opposite_mutual hr e o').1 (by rw [opposite_eq (mem_he hr he), ho])
    have s2 := (C35_opposite_mutual hr e' o').1 (by rw [opposite_eq (mem_he hr he'), ho'])
    rw [s1] at s2
    simpa using s2
  have hsurj := Finset.surjOn_of_injOn_of_card_le _ hmaps hinj le_rfl
  obtain ⟨x, hx, -⟩ := side_he hf hs
  have hn := (he_mem hr (C35_walk hr hx).2.2.1).1
  obtain ⟨e, he, h⟩ := hsurj (show Mesh.next x ∈ _ by simpa using hn)
  simp only [List.coe_toFinset, Set.mem_ofPred_eq] at he
  obtain ⟨o, ho, h1, -⟩ := hφ e he
  simp only [ho, Option.getD_some] at h
  have w := (C35_walk hr h1).2.2.2.2.1
  rw [h, (C35_walk hr hx).2.2.2.2.1] at w
  subst w
  have := C35_walk hr h1
  have hto : m.to_ e = u := by
    have e1 := (isHalfedge_iff m x u a).1 hx
    rw [← this.1, e1.2.1]
  have he' := mem_he hr he
  rw [hto] at he'
  obtain ⟨g, g1, g2⟩ := he_side he'
  exact ⟨_, g, g1, g2⟩

theorem interior_iff {m : AbstractMesh.Mesh} (hr : Reachable m) (a : Nat) : (∀ h ∈ m.vh a, ∃ o, m.opp h = some o) ↔
    ∀ u, ¬ BoundaryEdge (faceAt m) a u ∧ ¬ BoundaryEdge (faceAt m) u a := by
  constructor
  · intro h u
    constructor
    · rintro ⟨⟨i, f, hf, hs⟩, hno⟩
      obtain ⟨e, he, -⟩ := side_he hf hs
      obtain ⟨o, ho⟩ := h e (he_mem hr he).1
      obtain ⟨g, g1, g2⟩ := he_side ((opp_iff hr he).1 ho)
      exact hno _ g g1 g2
    · rintro ⟨⟨i, f, hf, hs⟩, hno⟩
      obtain ⟨j, g, g1, g2⟩ := interior_closed hr h hf hs
      exact hno j g g1 g2
  · intro h e he
    have H := mem_he hr he
    obtain ⟨f, f1, f2⟩ := he_side H
    by_contra hcon
    refine (h (m.to_ e)).1 ⟨⟨_, f, f1, f2⟩, ?_⟩
    intro j g g1 g2
    obtain ⟨o, ho, -⟩ := side_he g1 g2
    exact hcon ⟨o, (opp_iff hr H).2 ho⟩

theorem interior_spec {m : AbstractMesh.Mesh} (hr : Reachable m) {a : Nat} : ∀ hs : List Nat, (∀ h ∈ hs, h ∈ m.vh a) →
    ∃ r, interior m hs = .ok r ∧ (r = true ↔ ∀ h ∈ hs, ∃ o, m.opp h = some o) := by
  intro hs
  induction hs with
  | nil => intro _; exact ⟨true, rfl, by simp⟩
  | cons h hs ih =>
      intro hh
      obtain ⟨r, h1, h2⟩ := ih (fun x hx => hh x (by simp [hx]))
      unfold interior
      rw [opposite_eq (mem_he hr (hh h (by simp)))]
      simp only [Outcome.ok_bind]
      cases ho : m.opp h with
      | none => exact ⟨false, by simp, by simp [ho]⟩
      | some o => exact ⟨r, by simp [h1], by rw [h2]; simp [ho]⟩

/-- With an interior vertex, its neighbours are the ends of its outgoing halfedges. -/
theorem neighbour_out {m : AbstractMesh.Mesh} (hr : Reachable m) {a : Nat} (hint : ∀ h ∈ m.vh a, ∃ o, m.opp h = some o) {u : Nat} :
    Spec.Adjacent (faceAt m) u a ↔ ∃ e ∈ m.vh a, m.to_ e = u := by
  constructor
  · rintro ⟨i, f, hf, h1, h2, hne⟩
    have : ∃ j g, faceAt m j = some g ∧ Side g a u := by
      rcases corner_sides h1 h2 hne with h | h
      · exact interior_closed hr hint hf h
      · exact ⟨i, f, hf, h⟩
    obtain ⟨j, g, g1, g2⟩ := this
    obtain ⟨e, he, -⟩ := side_he g1 g2
    exact ⟨e, he_mem hr he⟩
  · rintro ⟨e, he, rfl⟩
    obtain ⟨hne, -, -, f, f1, f2, f3, -⟩ := (mem_he hr he).apex_ne hr.good
    exact ⟨_, f, f1, f3, f2, hne.symm⟩

theorem hasEdge_iff {m : AbstractMesh.Mesh} (hr : Reachable m) {u v : Nat} : hasEdge m u v = true ↔ Spec.Adjacent (faceAt m) u v := by
  have hC := hr.good.consistent
  have key : ∀ x y, (m.halfedgeOf x y).isSome = true ↔ ∃ i f, faceAt m i = some f ∧ Side f x y := by
    intro x y
    rw [Option.isSome_iff_exists]
    constructor
    · rintro ⟨e, he⟩
      obtain ⟨f, f1, f2⟩ := he_side ((hC.halfedgeOf x y e).1 he)
      exact ⟨_, f, f1, f2⟩
    · rintro ⟨i, f, f1, f2⟩
      obtain ⟨e, he, -⟩ := side_he f1 f2
      exact ⟨e, (hC.halfedgeOf x y e).2 he⟩
  unfold hasEdge
  rw [Bool.or_eq_true, key, key]
  constructor
  · rintro (⟨i, f, f1, f2⟩ | ⟨i, f, f1, f2⟩)
    · exact ⟨i, f, f1, (side_corner f2).1, (side_corner f2).2, Side.ne (hC.corners i f f1) f2⟩
    · exact ⟨i, f, f1, (side_corner f2).2, (side_corner f2).1, (Side.ne (hC.corners i f f1) f2).symm⟩
  · rintro ⟨i, f, f1, f2, f3, hne⟩
    rcases corner_sides f2 f3 hne with h | h
    · exact Or.inl ⟨i, f, f1, h⟩
    · exact Or.inr ⟨i, f, f1, h⟩

/-- The third corner of the faces on the edge. -/
theorem third {m : AbstractMesh.Mesh} (hr : Reachable m) {h o a b : Nat} (H : IsHalfedge m h a b) (O : IsHalfedge m o b a) {i v : Nat}
    {f : AbstractMesh.Face} (hf : faceAt m i = some f) (hv : Corner f v) (ha : Corner f a) (hb : Corner f b) (hva : v ≠ a) (hvb : v ≠ b) :
    v = m.apex h ∨ v = m.apex o := by
  have hC := hr.good.consistent
  obtain ⟨hab, -⟩ := H.apex_ne hr.good
  rcases corner_sides ha hb hab with hs | hs
  · obtain ⟨g, g1, g2⟩ := he_side H
    have := hC.manifold i (h / 4) f g a b hf g1 hs g2
    subst this
    rcases he_corner H hf hv with e | e | e
    · exact absurd e hva
    · exact absurd e hvb
    · exact Or.inl e
  · obtain ⟨g, g1, g2⟩ := he_side O
    have := hC.manifold i (o / 4) f g b a hf g1 hs g2
    subst this
    rcases he_corner O hf hv with e | e | e
    · exact absurd e hvb
    · exact absurd e hva
    · exact Or.inr e

theorem linkOk_iff {m : AbstractMesh.Mesh} (hr : Reachable m) {h o a b : Nat} (hint : ∀ h ∈ m.vh a, ∃ o, m.opp h = some o)
    (H : IsHalfedge m h a b) (O : IsHalfedge m o b a) :
    linkOk m (m.vh a) b (m.apex h) (some (m.apex o)) = true ↔
      ∀ u, Spec.Adjacent (faceAt m) u a → Spec.Adjacent (faceAt m) u b → ∃ i f, faceAt m i = some f ∧ Corner f u ∧ Corner f a ∧ Corner f b := by
  obtain ⟨hab, hbc, hca, f1, F1, F2, F3, F4⟩ := H.apex_ne hr.good
  obtain ⟨-, had, hdb, f2, G1, G2, G3, G4⟩ := O.apex_ne hr.good
  unfold linkOk
  rw [List.all_eq_true]
  constructor
  · intro hall u h1 h2
    obtain ⟨e, he, rfl⟩ := (neighbour_out hr hint).1 h1
    have := hall e he
    have hub : m.to_ e ≠ b := by obtain ⟨_, _, _, _, _, h⟩ := h2; exact h
    dsimp only at this
    rw [(hasEdge_iff hr).2 h2] at this
    by_cases hc : m.to_ e = m.apex h
    · exact ⟨_, f1, F1, hc ▸ F4, F2, F3⟩
    by_cases hd : m.to_ e = m.apex o
    · exact ⟨_, f2, G1, hd ▸ G4, G3, G2⟩
    simp [hub, hc, hd] at this
  · intro hl e he
    have H' := mem_he hr he
    have hne := (H'.apex_ne hr.good).1
    by_contra hcon
    simp only [Bool.not_eq_true', Bool.not_eq_false, Bool.and_eq_true, decide_eq_true_iff] at hcon
    obtain ⟨⟨⟨hb, hc⟩, hd⟩, hE⟩ := hcon
    obtain ⟨i, f, f1, f2, f3, f4⟩ := hl _ ((neighbour_out hr hint).2 ⟨e, he, rfl⟩) ((hasEdge_iff hr).1 hE)
    rcases third hr H O f1 f2 f3 f4 hne.symm hb with e1 | e1
    · exact hc e1
    · exact hd (by rw [e1])

theorem norm_le_iff (hI : Valid I) (b u : Nat) : ‖toE (I.T (pos I.vertices b)) - toE (I.T (pos I.vertices u))‖ ≤ 1.3 * I.resolution ↔
    ¬ dotP (I.ap b - I.ap u) (I.ap b - I.ap u) > I.maxEdge2 := by
  rw [toE_sub, not_lt, ← norm_toE_sq, Input.maxEdge2, ← sq]
  have h := hI.resolution
  exact (pow_le_pow_iff_left₀ (norm_nonneg _) (by positivity) (by norm_num)).symm

theorem shortOk_iff (hI : Valid I) {m : AbstractMesh.Mesh} (hr : Reachable m) {h o a b : Nat} (hint : ∀ h ∈ m.vh a, ∃ o, m.opp h = some o)
    (H : IsHalfedge m h a b) (O : IsHalfedge m o b a)
    (hlink : linkOk m (m.vh a) b (m.apex h) (some (m.apex o)) = true) :
    shortOk I m (m.vh a) b (m.apex h) (some (m.apex o)) = true ↔
      ∀ u, Spec.Adjacent (faceAt m) u a → ¬ Spec.Adjacent (faceAt m) u b → u ≠ b →
        ‖toE (I.T (pos I.vertices b)) - toE (I.T (pos I.vertices u))‖ ≤ 1.3 * I.resolution := by
  obtain ⟨hab, hbc, hca, f1, F1, F2, F3, F4⟩ := H.apex_ne hr.good
  obtain ⟨-, had, hdb, f2, G1, G2, G3, G4⟩ := O.apex_ne hr.good
  unfold linkOk at hlink
  rw [List.all_eq_true] at hlink
  unfold shortOk
  rw [List.all_eq_true]
  constructor
  · intro hall u h1 h2 hub
    obtain ⟨e, he, rfl⟩ := (neighbour_out hr hint).1 h1
    have := hall e he
    have hc : m.to_ e ≠ m.apex h := fun hc => h2 (hc ▸ ⟨_, f1, F1, F4, F3, hbc.symm⟩)
    have hd : m.to_ e ≠ m.apex o := fun hd => h2 (hd ▸ ⟨_, f2, G1, G4, G2, hdb⟩)
    rw [norm_le_iff hI]
    intro hgt
    simp [hub, hc, hd, hgt] at this
  · intro hl e he
    by_contra hcon
    simp only [Bool.not_eq_true', Bool.not_eq_false, Bool.and_eq_true, decide_eq_true_iff] at hcon
    obtain ⟨⟨⟨hb, hc⟩, hd⟩, hgt⟩ := hcon
    have hlk := hlink e he
    have hE : hasEdge m (m.to_ e) b = false := by
      cases hE : hasEdge m (m.to_ e) b with
      | false => rfl
      | true => simp [hb, hc, hd, hE] at hlk
    have hna : ¬ Spec.Adjacent (faceAt m) (m.to_ e) b := by rw [← hasEdge_iff hr, hE]; simp
    exact (norm_le_iff hI _ _).1 (hl _ ((neighbour_out hr hint).2 ⟨e, he, rfl⟩) hna hb) hgt

/-! ### retargeted faces -/

theorem merged_gone {F : Nat → Option AbstractMesh.Face} {a b i : Nat} {f : AbstractMesh.Face} (h : F i = some f) (ha : Corner f a) (hb : Corner f b) :
    merged F a b i = none := by
  unfold merged
  rw [h]
  exact if_pos ⟨ha, hb⟩

theorem merged_moved {F : Nat → Option AbstractMesh.Face} {a b i : Nat} {f : AbstractMesh.Face} (h : F i = some f) (hb : ¬ Corner f b) :
    merged F a b i = some (Mesh.retarget f a b) := by
  unfold merged
  rw [h]
  exact if_neg fun hh => hb hh.2

theorem merged_kept {F : Nat → Option AbstractMesh.Face} {a b i : Nat} {f : AbstractMesh.Face} (h : F i = some f) (ha : ¬ Corner f a) :
    merged F a b i = some f := by
  unfold merged
  rw [h]
  simp only [Option.bind_some]
  rw [if_neg fun hh => ha hh.1]
  unfold Corner at ha
  push Not at ha
  simp [ha.1, ha.2.1, ha.2.2]

theorem merged_none {F : Nat → Option AbstractMesh.Face} {a b i : Nat} (h : F i = none) : merged F a b i = none := by
  unfold merged
  rw [h]
  rfl

theorem merged_some {F : Nat → Option AbstractMesh.Face} {a b i : Nat} {f' : AbstractMesh.Face} (h : merged F a b i = some f') :
    ∃ f, F i = some f ∧ ((Corner f a ∧ ¬ Corner f b ∧ f' = Mesh.retarget f a b) ∨ (¬ Corner f a ∧ f' = f)) := by
  cases hF : F i with
  | none => rw [merged_none hF] at h; cases h
  | some f =>
      refine ⟨f, rfl, ?_⟩
      by_cases ha : Corner f a
      · by_cases hb : Corner f b
        · rw [merged_gone hF ha hb] at h; cases h
        · rw [merged_moved hF hb] at h; cases h; exact Or.inl ⟨ha, hb, rfl⟩
      · rw [merged_kept hF ha] at h; cases h; exact Or.inr ⟨ha, rfl⟩

theorem retarget_range {f : AbstractMesh.Face} {a b : Nat} (hf : InRange I f) (hb : ¬ Corner f b) (hbn : b < I.vertices.length) :
    InRange I (Mesh.retarget f a b) := by
  obtain ⟨⟨n1, n2, n3⟩, r1, r2, r3⟩ := hf
  unfold Corner at hb
  push Not at hb
  obtain ⟨b1, b2, b3⟩ := hb
  unfold Mesh.retarget InRange Nondeg
  dsimp only
  refine ⟨⟨?_, ?_, ?_⟩, ?_, ?_, ?_⟩ <;> split_ifs <;> first | assumption | (rename_i h1 h2; intro h3; omega)

theorem retarget_corner {f : AbstractMesh.Face} {a b : Nat} (h : Corner f a) : Corner (Mesh.retarget f a b) b := by
  unfold Mesh.retarget Corner
  rcases h with h | h | h <;> simp [h]

theorem onEdge_iff (f : AbstractMesh.Face) (a b : Nat) : onEdge f a b = true ↔ Corner f a ∧ Corner f b := by
  unfold onEdge Mesh.hasCorner Corner
  simp only [Bool.and_eq_true, Bool.or_eq_true, beq_iff_eq]
  tauto

theorem keptOf_spec (I : Input) (m : AbstractMesh.Mesh) (a b : Nat) : ∀ hs : List Nat,
    ((∀ e ∈ hs, onEdge (m.face (e / 4)) a b = false → ¬ dotP (I.normal (Mesh.retarget (m.face (e / 4)) a b)) (I.normal (m.face (e / 4))) < 0) →
      ∃ kept, keptOf I m a b hs = some kept ∧ ∀ nf, nf ∈ kept ↔ ∃ e ∈ hs, onEdge (m.face (e / 4)) a b = false ∧ nf = Mesh.retarget (m.face (e / 4)) a b) ∧
    ((∃ e ∈ hs, onEdge (m.face (e / 4)) a b = false ∧ dotP (I.normal (Mesh.retarget (m.face (e / 4)) a b)) (I.normal (m.face (e / 4))) < 0) →
      keptOf I m a b hs = none) := by
  intro hs
  induction hs with
  | nil => exact ⟨fun _ => ⟨[], rfl, by simp⟩, by simp⟩
  | cons e hs ih =>
      unfold keptOf
      dsimp only
      by_cases ho : onEdge (m.face (e / 4)) a b = true
      · rw [if_pos ho]
        refine ⟨fun h => ?_, ?_⟩
        · obtain ⟨kept, k1, k2⟩ := ih.1 (fun x hx => h x (by simp [hx]))
          refine ⟨kept, k1, fun nf => ?_⟩
          rw [k2]
          simp [ho]
        · rintro ⟨x, hx, h1, h2⟩
          rcases List.mem_cons.1 hx with rfl | hx
          · rw [ho] at h1; cases h1
          · exact ih.2 ⟨x, hx, h1, h2⟩
      · rw [if_neg ho]
        have ho' : onEdge (m.face (e / 4)) a b = false := by simpa using ho
        by_cases hd : dotP (I.normal (Mesh.retarget (m.face (e / 4)) a b)) (I.normal (m.face (e / 4))) < 0
        · rw [if_pos hd]
          exact ⟨fun h => absurd hd (h e (by simp) ho'), fun _ => rfl⟩
        · rw [if_neg hd]
          refine ⟨fun h => ?_, ?_⟩
          · obtain ⟨kept, k1, k2⟩ := ih.1 (fun x hx => h x (by simp [hx]))
            refine ⟨_, by rw [k1]; rfl, fun nf => ?_⟩
            rw [List.mem_cons, k2]
            simp [ho']
          · rintro ⟨x, hx, h1, h2⟩
            rcases List.mem_cons.1 hx with rfl | hx
            · exact absurd h2 hd
            · rw [ih.2 ⟨x, hx, h1, h2⟩]; rfl

theorem deviation_ne_top (hI : Valid I) (a : Nat) {kept : List AbstractMesh.Face} (hne : kept ≠ []) (hk : ∀ nf ∈ kept, InRange I nf) :
    deviation I a kept ≠ ⊤ := by
  have key : ∀ (l : List AbstractMesh.Face) (x : WithTop ℝ), x ≠ ⊤ →
      l.foldl (fun dev nf => min dev (match I.dist2 (I.ap a) nf with
        | some d => (d : WithTop ℝ)
        | none => ⊤)) x ≠ ⊤ := by
    intro l
    induction l with
    | nil => intro x h; exact h
    | cons nf l ih =>
        intro x h
        rw [List.foldl_cons]
        exact ih _ (ne_top_of_le_ne_top h (min_le_left _ _))
  cases kept with
  | nil => exact absurd rfl hne
  | cons nf kept =>
      unfold deviation
      rw [List.foldl_cons]
      apply key
      refine ne_top_of_le_ne_top ?_ (min_le_right _ _)
      have := dist2_eq hI (I.p a) (hk nf (by simp))
      rw [show I.T (I.p a) = I.ap a from rfl] at this
      rw [this]
      exact WithTop.coe_ne_top

theorem mem_nearbyOf (m : AbstractMesh.Mesh) (star : List Nat) (kept : List AbstractMesh.Face) (fi : Nat) :
    fi ∈ nearbyOf m star kept ↔ ∃ nf ∈ kept, ∃ v, Corner nf v ∧ fi ∈ m.vertexFaces v ∧ fi ∉ star := by
  unfold nearbyOf
  simp only [List.mem_flatMap, List.mem_filter, Bool.not_eq_true']
  constructor
  · rintro ⟨nf, h1, v, h2, h3, h4⟩
    refine ⟨nf, h1, v, ?_, h3, by simpa using h4⟩
    unfold Corner
    simp at h2
    rcases h2 with h | h | h <;> simp [h]
  · rintro ⟨nf, h1, v, h2, h3, h4⟩
    refine ⟨nf, h1, v, ?_, h3, by simpa using h4⟩
    rcases h2 with h | h | h <;> simp [h]

theorem collapseOk_spec (hI : Valid I) {s : State} (hs : SInv I s) {h a b : Nat} (H : IsHalfedge s.mesh h a b)
    (hint : ∀ h ∈ s.mesh.vh a, ∃ o, s.mesh.opp h = some o) (ha : IsSnapped I a) (hlen : 3 ≤ (s.mesh.vh a).length) :
    ∃ s' r, collapseOk I s h (s.mesh.vh a) = .ok (s', r) ∧ SInv I s' ∧ s'.mesh = s.mesh ∧ (r ≠ none ↔ Safe I (faceAt s.mesh) a b) ∧
      r ≠ some ⊤ := by
  have hr := hs.reach
  have hC := hr.good.consistent
  obtain ⟨hab, hbc, hca, f1, F1, F2, F3, F4⟩ := H.apex_ne hr.good
  obtain ⟨o, ho⟩ := hint h (he_mem hr H).1
  have O := (opp_iff hr H).1 ho
  have hbn : b < I.vertices.length := by
    obtain ⟨-, r1, r2, r3⟩ := hs.range _ _ F1
    rcases F3 with e | e | e <;> omega
  have hfr : s.mesh.from_ h = a := ((isHalfedge_iff _ _ _ _).1 H).2.1
  have hto : s.mesh.to_ h = b := ((isHalfedge_iff _ _ _ _).1 H).2.2
  have hstar := mem_star hr a
  -- the retargeted faces
  have hkm : ∀ nf, (∃ e ∈ s.mesh.vh a, onEdge (s.mesh.face (e / 4)) a b = false ∧ nf = Mesh.retarget (s.mesh.face (e / 4)) a b) ↔
      ∃ i f, faceAt s.mesh i = some f ∧ Corner f a ∧ ¬ Corner f b ∧ nf = Mesh.retarget f a b := by
    intro nf
    constructor
    · rintro ⟨e, he, h1, h2⟩
      obtain ⟨f, q1, q2⟩ := (hstar (e / 4)).1 (List.mem_map.2 ⟨e, he, rfl⟩)
      rw [live_face q1] at h1 h2
      refine ⟨_, f, q1, q2, fun hb => ?_, h2⟩
      rw [(onEdge_iff f a b).2 ⟨q2, hb⟩] at h1; cases h1
    · rintro ⟨i, f, q1, q2, q3, rfl⟩
      obtain ⟨e, he, rfl⟩ := List.mem_map.1 ((hstar i).2 ⟨f, q1, q2⟩)
      refine ⟨e, he, ?_, ?_⟩
      · rw [live_face q1]
        cases hh : onEdge f a b with
        | false => rfl
        | true => exact absurd ((onEdge_iff f a b).1 hh).2 q3
      · rw [live_face q1]
  unfold collapseOk
  dsimp only
  rw [hfr, hto, opposite_eq H, ho]
  by_cases hsb : I.snapped b = true
  swap
  · have hsb' : I.snapped b = false := by simpa using hsb
    rw [if_pos hsb']
    exact ⟨s, none, rfl, hs, rfl, iff_of_false (by simp) (fun hS => hsb ((snapped_iff hbn).2 hS.snapped.2)), by simp⟩
  rw [if_neg (by rw [hsb]; simp)]
  simp only [Outcome.ok_bind, Option.map_some]
  have hlk := linkOk_iff hr hint H O
  by_cases hl : linkOk s.mesh (s.mesh.vh a) b (s.mesh.apex h) (some (s.mesh.apex o)) = true
  swap
  · rw [if_pos (by simpa using hl)]
    exact ⟨s, none, rfl, hs, rfl, iff_of_false (by simp) (fun hS => hl (hlk.2 hS.link)), by simp⟩
  rw [if_neg (by rw [hl]; simp)]
  have hK := keptOf_spec I s.mesh a b (s.mesh.vh a)
  by_cases hflip : ∃ e ∈ s.mesh.vh a, onEdge (s.mesh.face (e / 4)) a b = false ∧
      dotP (I.normal (Mesh.retarget (s.mesh.face (e / 4)) a b)) (I.normal (s.mesh.face (e / 4))) < 0
  · rw [hK.2 hflip]
    refine ⟨s, none, rfl, hs, rfl, iff_of_false (by simp) (fun hS => ?_), by simp⟩
    obtain ⟨e, he, h1, h2⟩ := hflip
    obtain ⟨f, q1, q2⟩ := (hstar (e / 4)).1 (List.mem_map.2 ⟨e, he, rfl⟩)
    rw [live_face q1] at h1 h2
    have hnb : ¬ Corner f b := fun hb => by rw [(onEdge_iff f a b).2 ⟨q2, hb⟩] at h1; cases h1
    exact absurd h2 (not_lt.2 (hS.unflipped _ f _ q1 q2 (merged_moved q1 hnb)))
  obtain ⟨kept, hk1, hk2⟩ := hK.1 (fun e he h1 h2 => hflip ⟨e, he, h1, h2⟩)
  have hkmem : ∀ nf, nf ∈ kept ↔ ∃ i f, faceAt s.mesh i = some f ∧ Corner f a ∧ ¬ Corner f b ∧ nf = Mesh.retarget f a b := fun nf => (hk2 nf).trans (hkm nf)
  have hkr : ∀ nf ∈ kept, InRange I nf := by
    intro nf hnf
    obtain ⟨i, f, q1, q2, q3, rfl⟩ := (hkmem nf).1 hnf
    exact retarget_range (hs.range i f q1) q3 hbn
  rw [hk1]
  dsimp only
  by_cases hke : kept = []
  · rw [if_pos hke]
    refine ⟨s, none, rfl, hs, rfl, iff_of_false (by simp) (fun hS => ?_), by simp⟩
    obtain ⟨i, f, q1, q2, q3⟩ := hS.remains
    have := (hkmem _).2 ⟨i, f, q1, q2, q3, rfl⟩
    rw [hke] at this; cases this
  rw [if_neg hke]
  have hsh := shortOk_iff hI hr hint H O hl
  by_cases hshort : shortOk I s.mesh (s.mesh.vh a) b (s.mesh.apex h) (some (s.mesh.apex o)) = true
  swap
  · rw [if_pos (by simpa using hshort)]
    exact ⟨s, none, rfl, hs, rfl, iff_of_false (by simp) (fun hS => hshort (hsh.2 hS.short)), by simp⟩
  rw [if_neg (by rw [hshort]; simp)]
  obtain ⟨s1, ok, e1, i1, m1, c1⟩ := honorsOk_spec hI hs ((s.mesh.vh a).map (· / 4)) kept (nearbyOf s.mesh ((s.mesh.vh a).map (· / 4)) kept)
    (fun fi hfi => by obtain ⟨f, hf, -⟩ := (hstar fi).1 hfi; exact ⟨f, hf⟩)
  rw [e1]
  simp only [Outcome.ok_bind]
  -- the condition on the snap points
  have hhon : ok = true ↔ ∀ i q tol, I.points[i]? = some q → HasTolerance I i tol →
      (∃ j f, faceAt s.mesh j = some f ∧ Corner f a ∧ Honors I.T (tri I.vertices f) q tol) →
      ∃ j f k g g' v, merged (faceAt s.mesh) a b j = some f ∧ Honors I.T (tri I.vertices f) q tol ∧
        faceAt s.mesh k = some g ∧ Corner g a ∧ merged (faceAt s.mesh) a b k = some g' ∧ Corner g' v ∧ Corner f v := by
    rw [c1]
    constructor
    · rintro hh i q tol hq ht ⟨j, f, j1, j2, j3⟩
      have hi : i < I.points.length := (List.getElem?_eq_some_iff.1 hq).1
      have hq' : I.points.getD i 0 = q := by rw [List.getD_eq_getElem?_getD, hq]; rfl
      rw [hasTolerance_iff hI hi] at ht
      subst ht
      subst hq'
      rcases hh i hi ⟨j, (hstar j).2 ⟨f, j1, j2⟩, by rw [live_face j1]; exact (honoredBy_iff hI i (hs.range j f j1)).2 j3⟩ with ⟨nf, n1, n2⟩ | ⟨fi, n1, n2⟩
      · obtain ⟨k, g, q1, q2, q3, rfl⟩ := (hkmem nf).1 n1
        exact ⟨k, _, k, g, _, b, merged_moved q1 q3, (honoredBy_iff hI i (hkr _ n1)).1 n2, q1, q2, merged_moved q1 q3, retarget_corner q2, retarget_corner q2⟩
      · obtain ⟨nf, p1, v, p2, p3, p4⟩ := (mem_nearbyOf _ _ _ _).1 n1
        obtain ⟨k, g, q1, q2, q3, rfl⟩ := (hkmem nf).1 p1
        obtain ⟨f', w1, w2⟩ := ((hC.vertexFaces v).2 fi).1 p3
        rw [live_face w1] at n2
        have hna : ¬ Corner f' a := fun hc => p4 ((hstar fi).2 ⟨f', w1, hc⟩)
        exact ⟨fi, f', k, g, _, v, merged_kept w1 hna, (honoredBy_iff hI i (hs.range fi f' w1)).1 n2, q1, q2, merged_moved q1 q3, p2, w2⟩
    · rintro hh i hi ⟨fi, n1, n2⟩
      obtain ⟨f, q1, q2⟩ := (hstar fi).1 n1
      rw [live_face q1] at n2
      obtain ⟨j, f', k, g, g', v, w1, w2, w3, w4, w5, w6, w7⟩ := hh i (I.points.getD i 0) (I.tol i)
        (by rw [List.getD_eq_getElem?_getD, List.getElem?_eq_getElem hi]; rfl) ((hasTolerance_iff hI hi).2 rfl)
        ⟨fi, f, q1, q2, (honoredBy_iff hI i (hs.range fi f q1)).1 n2⟩
      obtain ⟨g0, u1, u2⟩ := merged_some w5
      rw [w3] at u1; cases u1
      have hg' : g' ∈ kept := by
        rcases u2 with ⟨u2, u3, u4⟩ | ⟨u2, -⟩
        · exact (hkmem g').2 ⟨k, g, w3, u2, u3, u4⟩
        · exact absurd w4 u2
      obtain ⟨f0, x1, x2⟩ := merged_some w1
      rcases x2 with ⟨x2, x3, rfl⟩ | ⟨x2, rfl⟩
      · have hmem := (hkmem _).2 ⟨j, f0, x1, x2, x3, rfl⟩
        exact Or.inl ⟨_, hmem, (honoredBy_iff hI i (hkr _ hmem)).2 w2⟩
      · refine Or.inr ⟨j, (mem_nearbyOf _ _ _ _).2 ⟨g', hg', v, w6, ((hC.vertexFaces v).2 j).2 ⟨_, x1, w7⟩, ?_⟩, ?_⟩
        · intro hj
          obtain ⟨f2, y1, y2⟩ := (hstar j).1 hj
          rw [x1] at y1; cases y1
          exact x2 y2
        · rw [live_face x1]; exact (honoredBy_iff hI i (hs.range j _ x1)).2 w2
  by_cases hok : ok = true
  swap
  · rw [if_pos (by simpa using hok)]
    exact ⟨s1, none, rfl, i1, m1, iff_of_false (by simp) (fun hS => hok (hhon.2 hS.honored)), by simp⟩
  rw [if_neg (by rw [hok]; simp)]
  obtain ⟨s2, hit, e2, i2, m2, c2⟩ := hitsAny_spec hI ((s.mesh.vh a).map (· / 4)) kept hkr i1
  rw [e2]
  simp only [Outcome.ok_bind]
  rw [m1] at c2
  have hclear : hit = true ↔ ¬ ∀ i f f' j g, faceAt s.mesh i = some f → Corner f a → merged (faceAt s.mesh) a b i = some f' → faceAt s.mesh j = some g →
      ¬ Corner g a → trianglesIntersect (narrow kTinyFactor) (tri I.vertices f') (tri I.vertices g) ≠ .ok true := by
    rw [c2]
    constructor
    · rintro ⟨nf, n1, j, g, j1, j2, j3⟩ hcl
      obtain ⟨k, f, q1, q2, q3, rfl⟩ := (hkmem nf).1 n1
      exact hcl k f _ j g q1 q2 (merged_moved q1 q3) j1 (fun hc => j2 ((hstar j).2 ⟨g, j1, hc⟩)) j3
    · intro hcl
      push Not at hcl
      obtain ⟨i, f, f', j, g, w1, w2, w3, w4, w5, w6⟩ := hcl
      obtain ⟨f0, u1, u2⟩ := merged_some w3
      rw [w1] at u1; cases u1
      rcases u2 with ⟨-, u3, rfl⟩ | ⟨u2, -⟩
      · refine ⟨_, (hkmem _).2 ⟨i, f, w1, w2, u3, rfl⟩, j, g, w4, ?_, w6⟩
        intro hj
        obtain ⟨f2, y1, y2⟩ := (hstar j).1 hj
        rw [w4] at y1; cases y1
        exact w5 y2
      · exact absurd w2 u2
  by_cases hhit : hit = true
  · rw [if_pos hhit]
    exact ⟨s2, none, rfl, i2, m2.trans m1, iff_of_false (by simp) (fun hS => hclear.1 hhit hS.clear), by simp⟩
  rw [if_neg hhit]
  refine ⟨s2, _, rfl, i2, m2.trans m1, iff_of_true (by simp) ?_, ?_⟩
  · refine ⟨⟨ha, (snapped_iff hbn).1 hsb⟩, ⟨_, f1, F1, F2, F3, hab⟩, ?_, (interior_iff hr a).1 hint, hlk.1 hl, ?_, ?_, hsh.1 hshort, hhon.1 hok, ?_⟩
    · -- three faces
      have hnd := (hC.vertexFaces a).1
      have hml : 3 ≤ (s.mesh.vertexFaces a).length := by unfold Mesh.vertexFaces; rw [List.length_map]; exact hlen
      have hmem := (hC.vertexFaces a).2
      generalize s.mesh.vertexFaces a = l at *
      match l, hml with
      | i :: j :: k :: l, _ =>
          obtain ⟨f, q1, q2⟩ := (hmem i).1 (by simp)
          obtain ⟨g, q3, q4⟩ := (hmem j).1 (by simp)
          obtain ⟨h', q5, q6⟩ := (hmem k).1 (by simp)
          simp only [List.nodup_cons, List.mem_cons, not_or] at hnd
          exact ⟨i, j, k, f, g, h', hnd.1.1, hnd.2.1.1, hnd.1.2.1, q1, q3, q5, q2, q4, q6⟩
    · obtain ⟨nf, hnf⟩ := List.exists_mem_of_ne_nil _ hke
      obtain ⟨i, f, q1, q2, q3, -⟩ := (hkmem nf).1 hnf
      exact ⟨i, f, q1, q2, q3⟩
    · intro i f f' q1 q2 q3
      obtain ⟨f0, u1, u2⟩ := merged_some q3
      rw [q1] at u1; cases u1
      rcases u2 with ⟨-, u3, rfl⟩ | ⟨u2, -⟩
      · obtain ⟨e, he, h1, h2⟩ := (hkm _).2 ⟨i, f, q1, q2, u3, rfl⟩
        by_contra hcon
        obtain ⟨e', he', rfl⟩ := List.mem_map.1 ((hstar i).2 ⟨f, q1, q2⟩)
        refine hflip ⟨e', he', ?_, ?_⟩
        · rw [live_face q1]
          cases hh : onEdge f a b with
          | false => rfl
          | true => exact absurd ((onEdge_iff f a b).1 hh).2 u3
        · rw [live_face q1]
          exact not_le.1 hcon
      · exact absurd q2 u2
    · by_contra hcon
      exact hhit (hclear.2 hcon)
  · intro hcon
    exact deviation_ne_top hI a hke hkr (by simpa using hcon)

end Verif.Thinner
