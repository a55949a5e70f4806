import Verif.Lemmas.ClustererMesh
import Mathlib.Tactic.IntervalCases

/-!
# Back-to-back faces
-/

namespace Verif.Clusterer

open Verif Verif.AbstractMesh
open Verif.Clusterer.Spec
open Verif.Snapper.Spec (sides net)

theorem edgeOf_eq {e e' : Nat × Nat} : edgeOf e = edgeOf e' ↔ e = e' ∨ e = (e'.2, e'.1) := by
  obtain ⟨a, b⟩ := e
  obtain ⟨c, d⟩ := e'
  unfold edgeOf
  dsimp only
  split_ifs <;> simp only [Prod.mk.injEq] <;> omega

theorem edgeFaces_eq (fs : List Face) (u v : Nat) : edgeFaces fs (u, v) = edgeCount fs u v := by
  unfold edgeFaces edgeCount
  rw [sides_eq, List.count_eq_countP, List.countP_map]
  congr 1
  funext e
  simp only [Function.comp_apply]
  rw [Bool.eq_iff_iff]
  simp only [beq_iff_eq, decide_eq_true_eq]
  rw [edgeOf_eq]

theorem edgeCount_comm (fs : List Face) (u v : Nat) : edgeCount fs u v = edgeCount fs v u := by
  unfold edgeCount
  congr 1
  funext e
  rw [Bool.eq_iff_iff]
  simp only [decide_eq_true_eq]
  exact or_comm

theorem key_eq {f g : Face} : key f = key g ↔ [f.1, f.2.1, f.2.2].Perm [g.1, g.2.1, g.2.2] := by
  unfold key
  constructor
  · intro h
    have h1 := List.perm_insertionSort (· ≤ ·) [f.1, f.2.1, f.2.2]
    have h2 := List.perm_insertionSort (· ≤ ·) [g.1, g.2.1, g.2.2]
    rw [h] at h1
    exact h1.symm.trans h2
  · intro h
    have h1 := List.perm_insertionSort (· ≤ ·) [f.1, f.2.1, f.2.2]
    have h2 := List.perm_insertionSort (· ≤ ·) [g.1, g.2.1, g.2.2]
    refine ((h1.trans h).trans h2.symm).eq_of_pairwise (le := (· ≤ ·)) (fun a b _ _ x y => Nat.le_antisymm x y) ?_ ?_
    · exact List.pairwise_insertionSort (· ≤ ·) _
    · exact List.pairwise_insertionSort (· ≤ ·) _

theorem faceOf_get {fs : List Face} {i : Nat} (h : i < fs.length) : faceOf fs i = fs[i] := by
  unfold faceOf
  rw [List.getD_eq_getElem?_getD, List.getElem?_eq_getElem h]
  rfl

theorem mem_byVertices {fs : List Face} {k : List Nat} {i : Nat} : i ∈ byVertices fs k ↔ ∃ f, fs[i]? = some f ∧ key f = k := by
  unfold byVertices
  rw [List.mem_filter, List.mem_range]
  simp only [decide_eq_true_eq]
  constructor
  · rintro ⟨h1, h2⟩
    exact ⟨fs[i], List.getElem?_eq_getElem h1, by rw [← faceOf_get h1]; exact h2⟩
  · rintro ⟨f, h1, h2⟩
    obtain ⟨h, rfl⟩ := List.getElem?_eq_some_iff.1 h1
    exact ⟨h, by rw [faceOf_get h]; exact h2⟩

theorem map_range_faceOf (fs : List Face) : (List.range fs.length).map (faceOf fs) = fs := by
  apply List.ext_getElem
  · simp
  · intro i h1 h2
    rw [List.getElem_map, List.getElem_range, faceOf_get h2]

theorem byVertices_length (fs : List Face) (f : Face) : (byVertices fs (key f)).length = coincident fs f := by
  unfold byVertices coincident
  rw [← List.countP_eq_length_filter]
  conv_rhs => rw [← map_range_faceOf fs, List.countP_map]
  congr 1
  funext i
  simp only [Function.comp_apply]
  rw [Bool.eq_iff_iff]
  simp only [decide_eq_true_eq]
  rw [eq_comm, key_eq]

theorem byVertices_nodup (fs : List Face) (k : List Nat) : (byVertices fs k).Nodup := List.nodup_range.filter _

theorem opposite_symm {f g : Face} (h : Opposite f g) : Opposite g f := by
  obtain ⟨a, b, c⟩ := f
  rcases h with rfl | rfl | rfl
  · exact Or.inl rfl
  · exact Or.inr (Or.inl rfl)
  · exact Or.inr (Or.inr rfl)

theorem opposite_perm {f g : Face} (h : Opposite f g) : [f.1, f.2.1, f.2.2].Perm [g.1, g.2.1, g.2.2] := by
  obtain ⟨a, b, c⟩ := f
  rcases h with rfl | rfl | rfl
  · exact (List.Perm.swap _ _ _).cons _
  · dsimp only
    rw [List.perm_iff_count]
    intro x
    simp only [List.count_cons, List.count_nil]
    omega
  · exact List.Perm.swap _ _ _

theorem perm_three {a b c x y z : Nat} (h : [a, b, c].Perm [x, y, z]) : (x = a ∧ y = b ∧ z = c) ∨ (x = b ∧ y = c ∧ z = a) ∨ (x = c ∧ y = a ∧ z = b) ∨
    (x = a ∧ y = c ∧ z = b) ∨ (x = c ∧ y = b ∧ z = a) ∨ (x = b ∧ y = a ∧ z = c) := by
  have hx : x ∈ [a, b, c] := h.mem_iff.2 (by simp)
  have key : ∀ {p q y z : Nat}, [p, q].Perm [y, z] → (y = p ∧ z = q) ∨ (y = q ∧ z = p) := by
    intro p q y z h
    have hy : y ∈ [p, q] := h.mem_iff.2 (by simp)
    simp only [List.mem_cons, List.not_mem_nil, or_false] at hy
    rcases hy with rfl | rfl
    · have := List.perm_singleton.1 (h.cons_inv).symm
      simp at this
      exact Or.inl ⟨rfl, this⟩
    · have := List.perm_singleton.1 (((List.Perm.swap _ _ _).trans h).cons_inv).symm
      simp at this
      exact Or.inr ⟨rfl, this⟩
  simp only [List.mem_cons, List.not_mem_nil, or_false] at hx
  rcases hx with rfl | rfl | rfl
  · rcases key h.cons_inv with ⟨rfl, rfl⟩ | ⟨rfl, rfl⟩ <;> simp
  · rcases key ((List.Perm.swap _ _ _).trans h).cons_inv with ⟨rfl, rfl⟩ | ⟨rfl, rfl⟩ <;> simp
  · have h2 : [x, a, b].Perm [x, y, z] := by
      refine List.Perm.trans ?_ h
      exact (List.Perm.swap _ _ _).trans ((List.Perm.swap _ _ _).cons _)
    rcases key h2.cons_inv with ⟨rfl, rfl⟩ | ⟨rfl, rfl⟩ <;> simp

/-- Two faces with the same three corners are the same or opposite. -/
theorem winding {f g : Face} (h : [f.1, f.2.1, f.2.2].Perm [g.1, g.2.1, g.2.2]) : sameWinding f g = true ∨ Opposite f g := by
  obtain ⟨a, b, c⟩ := f
  obtain ⟨x, y, z⟩ := g
  unfold Opposite sameWinding
  dsimp only at h ⊢
  rcases perm_three h with ⟨rfl, rfl, rfl⟩ | ⟨rfl, rfl, rfl⟩ | ⟨rfl, rfl, rfl⟩ | ⟨rfl, rfl, rfl⟩ | ⟨rfl, rfl, rfl⟩ | ⟨rfl, rfl, rfl⟩ <;> simp

theorem opposite_winding {f g : Face} (hf : Nondeg f) (h : Opposite f g) : sameWinding f g = false ∧ f ≠ g := by
  obtain ⟨a, b, c⟩ := f
  obtain ⟨n1, n2, n3⟩ := hf
  dsimp only at n1 n2 n3
  have key : ∀ {p : Prop} [Decidable p], ¬ p → decide p = false := fun h => decide_eq_false h
  unfold sameWinding
  rcases h with rfl | rfl | rfl <;>
    (constructor
     · simp only [Prod.mk.injEq, Bool.or_eq_false_iff, decide_eq_false_iff_not]
       refine ⟨⟨?_, ?_⟩, ?_⟩ <;> (rintro ⟨h1, h2, h3⟩; omega)
     · simp only [ne_eq, Prod.mk.injEq]
       rintro ⟨h1, h2, h3⟩; omega)

theorem safe_iff {fs : List Face} {f : Face} : safe fs f = true ↔ ∀ u v, (u, v) ∈ sides [f] → edgeCount fs u v = 2 ∨ edgeCount fs u v = 4 := by
  unfold safe
  rw [List.all_eq_true]
  have : sides [f] = sidesOf f := by simp [sides, sidesOf]
  rw [this]
  constructor
  · intro h u v hm
    have := h _ hm
    rw [edgeFaces_eq] at this
    simpa using this
  · rintro h ⟨u, v⟩ hm
    rw [edgeFaces_eq]
    simpa using h u v hm

theorem safe_opposite {fs : List Face} {f g : Face} (h : Opposite f g) (hs : safe fs f = true) : safe fs g = true := by
  rw [safe_iff] at hs ⊢
  obtain ⟨a, b, c⟩ := f
  intro u v hm
  have h1 := hs a b (by simp [sides])
  have h2 := hs b c (by simp [sides])
  have h3 := hs c a (by simp [sides])
  have s1 := edgeCount_comm fs a b
  have s2 := edgeCount_comm fs b c
  have s3 := edgeCount_comm fs c a
  rcases h with rfl | rfl | rfl <;> simp [sides] at hm <;> rcases hm with ⟨rfl, rfl⟩ | ⟨rfl, rfl⟩ | ⟨rfl, rfl⟩ <;> omega

theorem drops_iff {fs : List Face} (hn : ∀ f ∈ fs, Nondeg f) {f : Face} (hf : f ∈ fs) : drops fs (key f) = true ↔ Folded fs f := by
  obtain ⟨i, hi⟩ := List.mem_iff_getElem?.1 hf
  have mi : i ∈ byVertices fs (key f) := mem_byVertices.2 ⟨f, hi, rfl⟩
  have hl := byVertices_length fs f
  have hnd := byVertices_nodup fs (key f)
  unfold drops
  constructor
  · intro h
    rcases e : byVertices fs (key f) with _ | ⟨a, _ | ⟨b, _ | ⟨c, l⟩⟩⟩
    · rw [e] at h; cases h
    · rw [e] at h; cases h
    · rw [e] at h hl mi hnd
      dsimp only at h
      simp only [Bool.and_eq_true, Bool.not_eq_true'] at h
      obtain ⟨h1, h2⟩ := h
      have ma : a ∈ byVertices fs (key f) := by rw [e]; simp
      have mb : b ∈ byVertices fs (key f) := by rw [e]; simp
      obtain ⟨fa, ga, ka⟩ := mem_byVertices.1 ma
      obtain ⟨fb, gb, kb⟩ := mem_byVertices.1 mb
      have ea : faceOf fs a = fa := by
        unfold faceOf; rw [List.getD_eq_getElem?_getD, ga]; rfl
      have eb : faceOf fs b = fb := by
        unfold faceOf; rw [List.getD_eq_getElem?_getD, gb]; rfl
      rw [ea, eb] at h1
      rw [ea] at h2
      have hop : Opposite fa fb := by
        rcases winding (key_eq.1 (ka.trans kb.symm)) with h | h
        · rw [h] at h1; cases h1
        · exact h
      simp only [List.mem_cons, List.not_mem_nil, or_false] at mi
      have hlen : coincident fs f = 2 := by rw [← hl]; rfl
      rcases mi with rfl | rfl
      · rw [hi] at ga; cases ga
        exact ⟨⟨fb, List.mem_of_getElem? gb, hop⟩, hlen, safe_iff.1 h2⟩
      · rw [hi] at gb; cases gb
        exact ⟨⟨fa, List.mem_of_getElem? ga, opposite_symm hop⟩, hlen, safe_iff.1 (safe_opposite hop h2)⟩
    · rw [e] at h; cases h
  · rintro ⟨⟨g, hg, ho⟩, hc, hs⟩
    rw [hc] at hl
    obtain ⟨a, b, e⟩ := List.length_eq_two.1 hl
    rw [e] at mi hnd
    obtain ⟨j, hj⟩ := List.mem_iff_getElem?.1 hg
    have mj : j ∈ byVertices fs (key f) := mem_byVertices.2 ⟨g, hj, key_eq.2 (opposite_perm (opposite_symm ho))⟩
    rw [e] at mj ⊢
    dsimp only
    have hij : i ≠ j := by
      rintro rfl
      rw [hi] at hj
      cases hj
      exact (opposite_winding (hn f hf) ho).2 rfl
    simp only [List.mem_cons, List.not_mem_nil, or_false] at mi mj
    have ei : faceOf fs i = f := by unfold faceOf; rw [List.getD_eq_getElem?_getD, hi]; rfl
    have ej : faceOf fs j = g := by unfold faceOf; rw [List.getD_eq_getElem?_getD, hj]; rfl
    rcases mi with rfl | rfl <;> rcases mj with rfl | rfl
    · exact absurd rfl hij
    · rw [ei, ej, (opposite_winding (hn f hf) ho).1, safe_iff.2 hs]; rfl
    · rw [ei, ej, (opposite_winding (hn g hg) (opposite_symm ho)).1, safe_opposite ho (safe_iff.2 hs)]; rfl
    · exact absurd rfl hij

/-- The faces that are kept. -/
theorem removeBackToBack_spec {fs : List Face} (hn : ∀ f ∈ fs, Nondeg f) : ∃ p : Face → Bool, (∀ f, p f = true ↔ ¬ Folded fs f) ∧ removeBackToBack fs = fs.filter p := by
  classical
  refine ⟨fun f => decide (¬ Folded fs f), fun f => by simp only [decide_eq_true_eq], ?_⟩
  unfold removeBackToBack
  apply List.filter_congr
  intro f hf
  rw [Bool.eq_iff_iff, Bool.not_eq_true', ← Bool.not_eq_true, drops_iff hn hf]
  simp only [decide_eq_true_eq]

end Verif.Clusterer
