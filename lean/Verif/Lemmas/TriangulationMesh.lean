import Verif.Spec.Triangulation
import Verif.Props.AbstractMesh
import Verif.Lemmas.TriangulationRing
import Verif.Lemmas.ThinnerMesh
import Verif.Lemmas.SmootherStep
import Mathlib.Algebra.BigOperators.Group.Finset.Piecewise
import Mathlib.Algebra.BigOperators.Ring.Finset
import Mathlib.Algebra.Order.BigOperators.Group.Finset
import Mathlib.Tactic.Linarith

/-! # Lemmas: the boundary of a mesh -/

namespace Verif.Triangulation

open Verif Verif.AbstractMesh Verif.Triangulation.Spec

/-- The sum of a function over the sides of a face. -/
def tri (g : Nat → Nat → ℝ) (f : Face) : ℝ := g f.1 f.2.1 + g f.2.1 f.2.2 + g f.2.2 f.1

/-- ... of a face if there is one -/
def triO (g : Nat → Nat → ℝ) (f : Option Face) : ℝ := match f with | none => 0 | some f => tri g f

/-- ... of all faces -/
def meshSum (g : Nat → Nat → ℝ) (m : Mesh) : ℝ := ∑ i ∈ Finset.range m.nf, triO g (faceAt m i)

theorem sum_set {n k : Nat} (hk : k < n) (h : Nat → ℝ) (x : ℝ) :
    ∑ i ∈ Finset.range n, (if i = k then x else h i) = ∑ i ∈ Finset.range n, h i - h k + x := by
  have : ∀ i, (if i = k then x else h i) = h i + (if i = k then x - h k else 0) := by
    intro i; split
    · rename_i e; subst e; ring
    · ring
  simp_rw [this]
  rw [Finset.sum_add_distrib, Finset.sum_ite_eq', if_pos (Finset.mem_range.2 hk)]
  ring

theorem meshSum_add {m m' : Mesh} {f : Face} (hnf : m'.nf = m.nf + 1) (h : ∀ i, faceAt m' i = if i = m.nf then some f else faceAt m i)
    (g : Nat → Nat → ℝ) : meshSum g m' = meshSum g m + tri g f := by
  unfold meshSum
  rw [hnf, Finset.sum_range_succ, h, if_pos rfl]
  congr 1
  refine Finset.sum_congr rfl fun i hi => ?_
  rw [h, if_neg (Nat.ne_of_lt (Finset.mem_range.1 hi))]

theorem meshSum_in_face {m m' : Mesh} {fi v x y z : Nat} (hfi : faceAt m fi = some (x, y, z)) (hnf : m'.nf = m.nf + 2)
    (h : ∀ i, faceAt m' i = if i = fi then some (x, y, v) else if i = m.nf then some (y, z, v) else
      if i = m.nf + 1 then some (z, x, v) else faceAt m i) (g : Nat → Nat → ℝ) (hg : ∀ u v, g u v = - g v u) : meshSum g m' = meshSum g m := by
  have hlt : fi < m.nf := (faceAt_eq_some.1 hfi).1.1
  unfold meshSum
  have e0 : faceAt m' m.nf = some (y, z, v) := by rw [h, if_neg (by omega), if_pos rfl]
  have e1 : faceAt m' (m.nf + 1) = some (z, x, v) := by rw [h, if_neg (by omega), if_neg (by omega), if_pos rfl]
  rw [hnf, Finset.sum_range_succ, Finset.sum_range_succ, e0, e1]
  have : ∀ i ∈ Finset.range m.nf, triO g (faceAt m' i) = if i = fi then tri g (x, y, v) else triO g (faceAt m i) := by
    intro i hi
    have := Finset.mem_range.1 hi
    rw [h]
    split
    · rfl
    · rw [if_neg (by omega), if_neg (by omega)]
  rw [Finset.sum_congr rfl this, sum_set hlt, hfi]
  simp only [triO, tri]
  have := hg v x
  have := hg v y
  have := hg v z
  linarith

theorem meshSum_on_edge {m m' : Mesh} {fi fj v a b c d : Nat} (hfi : ∃ f, faceAt m fi = some f ∧ ∀ g, tri g f = g a b + g b c + g c a)
    (hfj : ∃ f, faceAt m fj = some f ∧ ∀ g, tri g f = g b a + g a d + g d b) (hij : fi ≠ fj) (hnf : m'.nf = m.nf + 2)
    (h : ∀ i, faceAt m' i = if i = fi then some (a, v, c) else if i = m.nf then some (v, b, c) else
      if i = fj then some (b, v, d) else if i = m.nf + 1 then some (v, a, d) else faceAt m i)
    (g : Nat → Nat → ℝ) (hg : ∀ u v, g u v = - g v u) : meshSum g m' = meshSum g m := by
  obtain ⟨p, hp, ep⟩ := hfi
  obtain ⟨q, hq, eq⟩ := hfj
  have hlt : fi < m.nf := (faceAt_eq_some.1 hp).1.1
  have hlt' : fj < m.nf := (faceAt_eq_some.1 hq).1.1
  unfold meshSum
  have e0 : faceAt m' m.nf = some (v, b, c) := by rw [h, if_neg (by omega), if_pos rfl]
  have e1 : faceAt m' (m.nf + 1) = some (v, a, d) := by rw [h, if_neg (by omega), if_neg (by omega), if_neg (by omega), if_pos rfl]
  rw [hnf, Finset.sum_range_succ, Finset.sum_range_succ, e0, e1]
  have : ∀ i ∈ Finset.range m.nf, triO g (faceAt m' i) = if i = fi then tri g (a, v, c) else
      if i = fj then tri g (b, v, d) else triO g (faceAt m i) := by
    intro i hi
    have := Finset.mem_range.1 hi
    rw [h]
    split
    · rfl
    · rw [if_neg (by omega)]
      split
      · rfl
      · rw [if_neg (by omega)]
  rw [Finset.sum_congr rfl this, sum_set hlt (fun i => if i = fj then tri g (b, v, d) else triO g (faceAt m i)), sum_set hlt']
  rw [if_neg hij, hp, hq]
  simp only [triO]
  rw [ep, eq]
  simp only [tri]
  have := hg v a
  have := hg v b
  have := hg v c
  have := hg v d
  have := hg a b
  linarith

theorem meshSum_flip {m m' : Mesh} {fi fj a b c d : Nat} (hfi : ∃ f, faceAt m fi = some f ∧ ∀ g, tri g f = g a b + g b c + g c a)
    (hfj : ∃ f, faceAt m fj = some f ∧ ∀ g, tri g f = g b a + g a d + g d b) (hij : fi ≠ fj) (hnf : m'.nf = m.nf)
    (h : ∀ i, faceAt m' i = if i = fi then some (c, a, d) else if i = fj then some (d, b, c) else faceAt m i)
    (g : Nat → Nat → ℝ) (hg : ∀ u v, g u v = - g v u) : meshSum g m' = meshSum g m := by
  obtain ⟨p, hp, ep⟩ := hfi
  obtain ⟨q, hq, eq⟩ := hfj
  have hlt : fi < m.nf := (faceAt_eq_some.1 hp).1.1
  have hlt' : fj < m.nf := (faceAt_eq_some.1 hq).1.1
  unfold meshSum
  rw [hnf]
  have : ∀ i ∈ Finset.range m.nf, triO g (faceAt m' i) = if i = fi then tri g (c, a, d) else
      if i = fj then tri g (d, b, c) else triO g (faceAt m i) := by
    intro i hi
    rw [h]
    split
    · rfl
    · split <;> rfl
  rw [Finset.sum_congr rfl this, sum_set hlt (fun i => if i = fj then tri g (d, b, c) else triO g (faceAt m i)), sum_set hlt']
  rw [if_neg hij, hp, hq]
  simp only [triO]
  rw [ep, eq]
  simp only [tri]
  have := hg c d
  have := hg a b
  linarith

/-- The sum over the sides of a face, from any of its sides. -/
theorem tri_side {f : Face} (hf : Nondeg f) {a b c : Nat} (h1 : Side f a b) (h2 : Side f b c) (g : Nat → Nat → ℝ) : tri g f = g a b + g b c + g c a := by
  obtain ⟨p, q, r⟩ := f
  unfold Side Nondeg at *
  unfold tri
  dsimp only at *
  rcases h1 with ⟨rfl, rfl⟩ | ⟨rfl, rfl⟩ | ⟨rfl, rfl⟩ <;> rcases h2 with ⟨e1, rfl⟩ | ⟨e1, rfl⟩ | ⟨e1, rfl⟩ <;>
    first
      | ring1
      | (exfalso; simp_all)

open Classical in
/-- The signed indicator of a directed edge. -/
noncomputable def ind (u v a b : Nat) : ℝ := (if a = u ∧ b = v then 1 else 0) - (if a = v ∧ b = u then 1 else 0)

theorem ind_anti (u v a b : Nat) : ind u v a b = - ind u v b a := by
  unfold ind
  have h1 : (b = u ∧ a = v) ↔ (a = v ∧ b = u) := And.comm
  have h2 : (b = v ∧ a = u) ↔ (a = u ∧ b = v) := And.comm
  simp only [h1, h2]
  ring

open Classical in
theorem tri_ind {f : Face} (hf : Nondeg f) (u v : Nat) : tri (ind u v) f = (if Side f u v then 1 else 0) - (if Side f v u then 1 else 0) := by
  obtain ⟨p, q, r⟩ := f
  obtain ⟨h1, h2, h3⟩ := hf
  dsimp only at h1 h2 h3
  have key : ∀ u v : Nat, ((if p = u ∧ q = v then (1 : ℝ) else 0) + (if q = u ∧ r = v then 1 else 0) + (if r = u ∧ p = v then 1 else 0)) =
      if Side (p, q, r) u v then 1 else 0 := by
    intro u v
    unfold Side
    dsimp only
    by_cases e1 : p = u ∧ q = v
    · have e2 : ¬ (q = u ∧ r = v) := by omega
      have e3 : ¬ (r = u ∧ p = v) := by omega
      rw [if_pos e1, if_neg e2, if_neg e3, if_pos (Or.inl e1)]; ring
    · by_cases e2 : q = u ∧ r = v
      · have e3 : ¬ (r = u ∧ p = v) := by omega
        rw [if_neg e1, if_pos e2, if_neg e3, if_pos (Or.inr (Or.inl e2))]; ring
      · rw [if_neg e1, if_neg e2]
        by_cases e3 : r = u ∧ p = v
        · rw [if_pos e3, if_pos (Or.inr (Or.inr e3))]; ring
        · rw [if_neg e3, if_neg (by tauto)]; ring
  rw [← key u v, ← key v u]
  unfold tri ind
  dsimp only
  ring

end Verif.Triangulation
