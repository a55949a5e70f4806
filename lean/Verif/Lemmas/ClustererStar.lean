import Verif.Lemmas.ClustererPlace

/-!
# Merging and the faces around a vertex
-/

namespace Verif.Clusterer

open Verif Verif.AbstractMesh
open Verif.Clusterer.Spec
open Verif.Graph.Spec
open Verif.Snapper.Spec (sides net)
open Verif.MeshDefects.Spec (Incident DistinctCorners PathOrCycle link opposite OnLink)

variable {I : Input}

instance (f : Face) (v : Nat) : Decidable (Corner f v) := by unfold Corner; infer_instance

theorem countP_strict {α : Type} {p q : α → Bool} : ∀ {l : List α}, (∀ x ∈ l, p x = true → q x = true) → (∃ x ∈ l, q x = true ∧ p x = false) → l.countP p < l.countP q
  | [], _, ⟨x, h, _⟩ => absurd h (by simp)
  | a :: l, h, ⟨x, hx, h1, h2⟩ => by
      rw [List.countP_cons, List.countP_cons]
      rcases List.mem_cons.1 hx with rfl | hx'
      · rw [if_pos h1, if_neg (by rw [h2]; simp)]
        have := List.countP_mono_left (p := p) (q := q) (fun y hy => h y (List.mem_cons_of_mem _ hy))
        omega
      · have ih := countP_strict (l := l) (fun y hy => h y (List.mem_cons_of_mem _ hy)) ⟨x, hx', h1, h2⟩
        have ha := h a (List.mem_cons_self ..)
        split <;> split
        · omega
        · next h3 h4 => exact absurd (ha h3) h4
        · omega
        · omega

/-- The sides of one face along an edge. -/
theorem sides_one {f : Face} (hn : Nondeg f) {u v : Nat} (huv : u ≠ v) :
    (sides [f]).countP (fun e => e = (u, v) ∨ e = (v, u)) = if Corner f u ∧ Corner f v then 1 else 0 := by
  obtain ⟨n1, n2, n3⟩ := hn
  obtain ⟨a, b, c⟩ := f
  dsimp only at n1 n2 n3
  simp only [sides, List.flatMap_cons, List.flatMap_nil, List.append_nil, List.countP_cons, List.countP_nil, Prod.mk.injEq, Corner, decide_eq_true_eq]
  by_cases a1 : a = u <;> by_cases a2 : b = u <;> by_cases a3 : c = u <;> by_cases b1 : a = v <;> by_cases b2 : b = v <;> by_cases b3 : c = v <;>
    simp_all

theorem edgeCount_corner : ∀ {fs : List Face}, (∀ f ∈ fs, Nondeg f) → ∀ {u v : Nat}, u ≠ v → edgeCount fs u v = fs.countP fun f => Corner f u ∧ Corner f v
  | [], _, _, _, _ => rfl
  | f :: fs, hn, u, v, huv => by
      have ih := edgeCount_corner (fs := fs) (fun g hg => hn g (List.mem_cons_of_mem _ hg)) huv
      have h1 := sides_one (hn f (List.mem_cons_self ..)) huv
      unfold edgeCount at *
      have : sides (f :: fs) = sides [f] ++ sides fs := by simp [sides]
      rw [this, List.countP_append, ih, h1, List.countP_cons]
      simp only [decide_eq_true_eq]
      omega

theorem opposite_spec {f : Face} (hn : Nondeg f) (v : Nat) : (Corner f v → ∃ x y, opposite v f = some (x, y) ∧ ([v, x, y] : List Nat).Perm [f.1, f.2.1, f.2.2] ∧ v ≠ x ∧ x ≠ y ∧ y ≠ v) ∧
    (¬ Corner f v → opposite v f = none) := by
  obtain ⟨n1, n2, n3⟩ := hn
  obtain ⟨a, b, c⟩ := f
  dsimp only at *
  unfold opposite Corner
  dsimp only
  constructor
  · intro h
    by_cases h1 : a = v
    · subst h1
      rw [if_pos rfl]
      exact ⟨b, c, rfl, List.Perm.refl _, n1, n2, n3⟩
    · by_cases h2 : b = v
      · subst h2
        rw [if_neg h1, if_pos rfl]
        refine ⟨c, a, rfl, ?_, n2, n3, n1⟩
        exact (List.perm_append_comm (l₁ := [b, c]) (l₂ := [a]))
      · have h3 : c = v := by tauto
        subst h3
        rw [if_neg h1, if_neg h2, if_pos rfl]
        refine ⟨a, b, rfl, ?_, n3, n1, n2⟩
        exact (List.perm_append_comm (l₁ := [c]) (l₂ := [a, b]))
  · intro h
    rw [not_or, not_or] at h
    rw [if_neg h.1, if_neg h.2.1, if_neg h.2.2]

theorem corner_mem {f : Face} {v : Nat} : Corner f v ↔ v ∈ [f.1, f.2.1, f.2.2] := by
  unfold Corner
  simp only [List.mem_cons, List.not_mem_nil, or_false, eq_comm]

/-- The degree of a vertex in a link is the number of faces along the edge. -/
theorem degree_link : ∀ {fs : List Face}, (∀ f ∈ fs, Nondeg f) → ∀ {v x : Nat}, v ≠ x → degree (link fs v) x = edgeCount fs v x := by
  intro fs hn v x hvx
  rw [edgeCount_corner hn hvx]
  induction fs with
  | nil => rfl
  | cons f fs ih =>
      have ih := ih (fun g hg => hn g (List.mem_cons_of_mem _ hg))
      obtain ⟨o1, o2⟩ := opposite_spec (hn f (List.mem_cons_self ..)) v
      rw [List.countP_cons, ← ih]
      unfold link degree
      by_cases hc : Corner f v
      · obtain ⟨y, z, e, hp, -, -, -⟩ := o1 hc
        rw [List.filterMap_cons, e]
        dsimp only
        rw [List.countP_cons]
        congr 1
        have : Corner f x ↔ y = x ∨ z = x := by
          rw [corner_mem, ← hp.mem_iff]
          simp only [List.mem_cons, List.not_mem_nil, or_false, eq_comm (a := x)]
          constructor
          · rintro (h | h)
            · exact absurd h hvx
            · exact h
          · exact Or.inr
        simp only [decide_eq_true_eq, this, hc, true_and]
      · rw [List.filterMap_cons, o2 hc]
        simp [hc]

/-- The multiplicity of an edge in a link is the number of faces with the three corners. -/
theorem multiplicity_link : ∀ {fs : List Face}, (∀ f ∈ fs, Nondeg f) → ∀ {f : Face}, Graph.Spec.multiplicity (link fs f.1) f.2.1 f.2.2 = coincident fs f := by
  intro fs hn f
  induction fs with
  | nil => rfl
  | cons g fs ih =>
      have ih := ih (fun g hg => hn g (List.mem_cons_of_mem _ hg))
      obtain ⟨o1, o2⟩ := opposite_spec (hn g (List.mem_cons_self ..)) f.1
      unfold coincident Graph.Spec.multiplicity link at *
      rw [List.countP_cons, ← ih]
      by_cases hc : Corner g f.1
      · obtain ⟨y, z, e, hp, h1, h2, h3⟩ := o1 hc
        rw [List.filterMap_cons, e]
        dsimp only
        rw [List.countP_cons]
        congr 1
        have : [f.1, f.2.1, f.2.2].Perm [g.1, g.2.1, g.2.2] ↔ (y = f.2.1 ∧ z = f.2.2) ∨ (y = f.2.2 ∧ z = f.2.1) := by
          constructor
          · intro h
            have := h.trans hp.symm
            rw [List.perm_cons] at this
            have hy : y ∈ [f.2.1, f.2.2] := this.mem_iff.2 (by simp)
            have hz : z ∈ [f.2.1, f.2.2] := this.mem_iff.2 (by simp)
            have a1 : f.2.1 ∈ [y, z] := this.mem_iff.1 (by simp)
            have a2 : f.2.2 ∈ [y, z] := this.mem_iff.1 (by simp)
            simp only [List.mem_cons, List.not_mem_nil, or_false] at hy hz a1 a2
            rcases hy with hy | hy
            · rcases hz with hz | hz
              · exact absurd (hy.trans hz.symm) h2
              · exact Or.inl ⟨hy, hz⟩
            · rcases hz with hz | hz
              · exact Or.inr ⟨hy, hz⟩
              · exact absurd (hy.trans hz.symm) h2
          · rintro (⟨rfl, rfl⟩ | ⟨rfl, rfl⟩)
            · exact hp
            · exact ((List.Perm.swap _ _ _).cons _).trans hp
        simp only [decide_eq_true_eq, this]
      · rw [List.filterMap_cons, o2 hc]
        have : ¬ [f.1, f.2.1, f.2.2].Perm [g.1, g.2.1, g.2.2] := fun h => hc (corner_mem.2 (h.mem_iff.1 (by simp)))
        simp [this]

theorem mem_link {fs : List Face} (hn : ∀ f ∈ fs, Nondeg f) {v x : Nat} (h : OnLink (link fs v) x) : v ≠ x ∧ ∃ f ∈ fs, Corner f v ∧ Corner f x := by
  obtain ⟨⟨y, z⟩, he, h⟩ := h
  unfold link at he
  obtain ⟨f, hf, e⟩ := List.mem_filterMap.1 he
  have hc : Corner f v := by
    by_contra hc
    rw [(opposite_spec (hn f hf) v).2 hc] at e
    cases e
  obtain ⟨y', z', e', hp, h1, h2, h3⟩ := (opposite_spec (hn f hf) v).1 hc
  rw [e'] at e
  cases e
  refine ⟨?_, f, hf, hc, corner_mem.2 (hp.mem_iff.1 ?_)⟩
  · rcases h with rfl | rfl
    · exact h1
    · exact h3.symm
  · rcases h with rfl | rfl <;> simp

/-- Adjacency in a link. -/
theorem adj_link {fs : List Face} (hn : ∀ f ∈ fs, Nondeg f) {v x y : Nat} (h : Adj (link fs v) x y) : v ≠ x ∧ x ≠ y ∧ v ≠ y ∧ ∃ f ∈ fs, [v, x, y].Perm [f.1, f.2.1, f.2.2] := by
  have key : ∀ {x y}, (x, y) ∈ link fs v → v ≠ x ∧ x ≠ y ∧ v ≠ y ∧ ∃ f ∈ fs, [v, x, y].Perm [f.1, f.2.1, f.2.2] := by
    intro x y he
    unfold link at he
    obtain ⟨f, hf, e⟩ := List.mem_filterMap.1 he
    have hc : Corner f v := by
      by_contra hc
      rw [(opposite_spec (hn f hf) v).2 hc] at e
      cases e
    obtain ⟨y', z', e', hp, h1, h2, h3⟩ := (opposite_spec (hn f hf) v).1 hc
    rw [e'] at e
    cases e
    exact ⟨h1, h2, h3.symm, f, hf, hp⟩
  rcases h with h | h
  · exact key h
  · obtain ⟨a, b, c, f, hf, hp⟩ := key h
    exact ⟨c, b.symm, a, f, hf, ((List.Perm.swap _ _ _).cons _).trans hp⟩

theorem link_adj {fs : List Face} (hn : ∀ f ∈ fs, Nondeg f) {v : Nat} {f : Face} (hf : f ∈ fs) (hc : Corner f v) :
    ∃ x y, Adj (link fs v) x y ∧ [v, x, y].Perm [f.1, f.2.1, f.2.2] := by
  obtain ⟨x, y, e, hp, -⟩ := (opposite_spec (hn f hf) v).1 hc
  exact ⟨x, y, Or.inl (List.mem_filterMap.2 ⟨f, hf, e⟩), hp⟩

/-- A link after an injective renaming. -/
theorem pathOrCycle_map {es : List (Nat × Nat)} {num : Nat → Nat} (hinj : ∀ x y, OnLink es x → OnLink es y → num x = num y → x = y) (h : PathOrCycle es) :
    PathOrCycle (es.map fun e => (num e.1, num e.2)) := by
  obtain ⟨⟨s1, s2⟩, hr, hd⟩ := h
  have o1 : ∀ e ∈ es, OnLink es e.1 := fun e he => ⟨e, he, Or.inl rfl⟩
  have o2 : ∀ e ∈ es, OnLink es e.2 := fun e he => ⟨e, he, Or.inr rfl⟩
  have hon : ∀ x, OnLink (es.map fun e => (num e.1, num e.2)) x → ∃ u, OnLink es u ∧ num u = x := by
    rintro x ⟨e, he, h⟩
    obtain ⟨e, he', rfl⟩ := List.mem_map.1 he
    rcases h with h | h
    · exact ⟨e.1, o1 e he', h⟩
    · exact ⟨e.2, o2 e he', h⟩
  refine ⟨⟨?_, ?_⟩, ?_, ?_⟩
  · intro v hv
    obtain ⟨⟨x, y⟩, he, h⟩ := List.mem_map.1 hv
    simp only [Prod.mk.injEq] at h
    have : x = y := hinj x y (o1 _ he) (o2 _ he) (h.1.trans h.2.symm)
    subst this
    exact s1 x he
  · intro a b
    by_contra hlt
    have hpos : 0 < Graph.Spec.multiplicity (es.map fun e => (num e.1, num e.2)) a b := by omega
    unfold Graph.Spec.multiplicity at hpos
    obtain ⟨e, he, h⟩ := List.countP_pos_iff.1 hpos
    obtain ⟨⟨x, y⟩, he', rfl⟩ := List.mem_map.1 he
    have hab : ∃ x y, OnLink es x ∧ OnLink es y ∧ num x = a ∧ num y = b := by
      simp only [decide_eq_true_eq] at h
      rcases h with ⟨h1, h2⟩ | ⟨h1, h2⟩
      · exact ⟨x, y, o1 _ he', o2 _ he', h1, h2⟩
      · exact ⟨y, x, o2 _ he', o1 _ he', h2, h1⟩
    obtain ⟨x, y, ox, oy, rfl, rfl⟩ := hab
    apply hlt
    refine le_trans (le_of_eq ?_) (s2 x y)
    unfold Graph.Spec.multiplicity
    rw [List.countP_map]
    apply List.countP_congr
    intro e he
    simp only [Function.comp, decide_eq_true_eq]
    constructor
    · rintro (⟨h1, h2⟩ | ⟨h1, h2⟩)
      · exact Or.inl ⟨hinj _ _ (o1 _ he) ox h1, hinj _ _ (o2 _ he) oy h2⟩
      · exact Or.inr ⟨hinj _ _ (o1 _ he) oy h1, hinj _ _ (o2 _ he) ox h2⟩
    · rintro (⟨h1, h2⟩ | ⟨h1, h2⟩)
      · exact Or.inl ⟨by rw [h1], by rw [h2]⟩
      · exact Or.inr ⟨by rw [h1], by rw [h2]⟩
  · intro x y hx hy
    obtain ⟨u, ou, rfl⟩ := hon x hx
    obtain ⟨v, ov, rfl⟩ := hon y hy
    refine Relation.ReflTransGen.lift num ?_ _ _ (hr u v ou ov)
    rintro a b (h | h)
    · exact Or.inl (List.mem_map.2 ⟨_, h, rfl⟩)
    · exact Or.inr (List.mem_map.2 ⟨_, h, rfl⟩)
  · intro x
    by_contra hlt
    have hpos : 0 < degree (es.map fun e => (num e.1, num e.2)) x := by omega
    unfold degree at hpos
    obtain ⟨e, he, h⟩ := List.countP_pos_iff.1 hpos
    obtain ⟨u, ou, rfl⟩ := hon x ⟨e, he, by simpa using h⟩
    apply hlt
    refine le_trans (le_of_eq ?_) (hd u)
    unfold degree
    rw [List.countP_map]
    apply List.countP_congr
    intro e he
    simp only [Function.comp, decide_eq_true_eq]
    constructor
    · rintro (h1 | h1)
      · exact Or.inl (hinj _ _ (o1 _ he) ou h1)
      · exact Or.inr (hinj _ _ (o2 _ he) ou h1)
    · rintro (h1 | h1)
      · exact Or.inl (by rw [h1])
      · exact Or.inr (by rw [h1])

end Verif.Clusterer
