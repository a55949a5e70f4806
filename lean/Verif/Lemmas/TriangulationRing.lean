import Verif.Model.Triangulation
import Mathlib.Data.List.Rotate
import Mathlib.Algebra.BigOperators.Group.List.Basic
import Mathlib.Algebra.BigOperators.Group.Finset.Basic
import Mathlib.Data.List.Perm.Basic
import Mathlib.Data.List.Zip
import Mathlib.Algebra.BigOperators.Group.Finset.Defs
import Mathlib.Tactic.Ring
import Mathlib.Data.Real.Basic

/-! # Lemmas: the edges of a ring -/

namespace Verif.Triangulation

open Verif Verif.AbstractMesh

/-- The edges of a closed ring. -/
def cyc (l : List Nat) : List (Nat × Nat) := l.zip (l.rotate 1)

theorem cyc_rotate (l : List Nat) (n : Nat) : cyc (l.rotate n) = (cyc l).rotate n := by
  unfold cyc
  rw [List.rotate_rotate, Nat.add_comm, ← List.rotate_rotate]
  exact (List.zipWith_rotate_distrib Prod.mk l (l.rotate 1) n (by simp)).symm

theorem cyc_perm {l l' : List Nat} (h : l ~r l') : (cyc l).Perm (cyc l') := by
  obtain ⟨n, rfl⟩ := h
  rw [cyc_rotate]
  exact (List.rotate_perm _ _).symm

theorem cyc_cons3 (p c n : Nat) (r : List Nat) : cyc (p :: c :: n :: r) = (p, c) :: (c, n) :: (n :: r).zip (r ++ [p]) := by
  unfold cyc
  rw [List.rotate_cons_succ, List.rotate_zero]
  rfl

theorem cyc_cons2 (p n : Nat) (r : List Nat) : cyc (p :: n :: r) = (p, n) :: (n :: r).zip (r ++ [p]) := by
  unfold cyc
  rw [List.rotate_cons_succ, List.rotate_zero]
  rfl

theorem mem_cyc_left {l : List Nat} {u v : Nat} (h : (u, v) ∈ cyc l) : u ∈ l ∧ v ∈ l := by
  have := List.of_mem_zip h
  exact ⟨this.1, List.mem_rotate.1 this.2⟩

/-- In a ring without repetitions the successor of a vertex is unique. -/
theorem cyc_unique {l : List Nat} (hl : l.Nodup) {u v w : Nat} (h1 : (u, v) ∈ cyc l) (h2 : (u, w) ∈ cyc l) : v = w := by
  obtain ⟨i, hi, e1⟩ := List.getElem_of_mem h1
  obtain ⟨j, hj, e2⟩ := List.getElem_of_mem h2
  unfold cyc at hi hj e1 e2
  rw [List.getElem_zip] at e1 e2
  rw [List.length_zip, List.length_rotate, Nat.min_self] at hi hj
  have a1 := congrArg Prod.fst e1
  have a2 := congrArg Prod.fst e2
  have b1 := congrArg Prod.snd e1
  have b2 := congrArg Prod.snd e2
  dsimp only at a1 a2 b1 b2
  have : i = j := (List.Nodup.getElem_inj_iff hl).1 (a1.trans a2.symm)
  subst this
  exact b1.symm.trans b2

theorem zip_reverse (l l' : List Nat) (h : l.length = l'.length) : l.reverse.zip l'.reverse = (l.zip l').reverse := by
  rw [← List.zip_unzip (l.zip l').reverse]
  simp [List.unzip_eq_map, List.map_reverse, List.map_fst_zip, List.map_snd_zip, h]

theorem cyc_reverse (l : List Nat) : (cyc l.reverse).Perm ((cyc l).map Prod.swap) := by
  cases l with
  | nil => exact List.Perm.refl _
  | cons a t =>
      have h1 : (a :: t).reverse ~r (a :: t.reverse) := by
        rw [List.reverse_cons]
        exact List.isRotated_append
      refine (cyc_perm h1).trans ?_
      unfold cyc
      rw [List.rotate_cons_succ, List.rotate_zero, List.rotate_cons_succ, List.rotate_zero, List.zip_swap]
      have h2 : a :: t.reverse = (t ++ [a]).reverse := by simp
      have h3 : t.reverse ++ [a] = (a :: t).reverse := by simp
      rw [h2, h3, zip_reverse _ _ (by simp)]
      exact List.reverse_perm _

theorem mem_cyc_range {n u v : Nat} : (u, v) ∈ cyc (List.range n) ↔ u < n ∧ v = (u + 1) % n := by
  unfold cyc
  constructor
  · intro h
    obtain ⟨i, hi, e⟩ := List.getElem_of_mem h
    rw [List.getElem_zip, List.getElem_rotate] at e
    have a := congrArg Prod.fst e
    have b := congrArg Prod.snd e
    simp only [List.getElem_range, List.length_range] at a b
    rw [List.length_zip, List.length_rotate, Nat.min_self, List.length_range] at hi
    subst a
    exact ⟨hi, b.symm⟩
  · rintro ⟨h, rfl⟩
    refine List.mem_iff_getElem.2 ⟨u, by simpa using h, ?_⟩
    rw [List.getElem_zip, List.getElem_rotate]
    simp

/-- The sum of a function over the edges of a ring. -/
noncomputable def cycSum (g : Nat → Nat → ℝ) (l : List Nat) : ℝ := ((cyc l).map fun e => g e.1 e.2).sum

theorem cycSum_rot {l l' : List Nat} (g : Nat → Nat → ℝ) (h : l ~r l') : cycSum g l = cycSum g l' :=
  ((cyc_perm h).map _).sum_eq

theorem cycSum_range (g : Nat → Nat → ℝ) (n : Nat) : cycSum g (List.range n) = ∑ i ∈ Finset.range n, g i ((i + 1) % n) := by
  have : cyc (List.range n) = (List.range n).map fun i => (i, (i + 1) % n) := by
    unfold cyc
    refine List.ext_getElem (by simp) fun i h1 h2 => ?_
    rw [List.getElem_zip, List.getElem_rotate]
    simp
  unfold cycSum
  rw [this, List.map_map]
  rfl

theorem cycSum_reverse (g : Nat → Nat → ℝ) (hg : ∀ u v, g u v = - g v u) (l : List Nat) : cycSum g l.reverse = - cycSum g l := by
  unfold cycSum
  rw [((cyc_reverse l).map _).sum_eq, List.map_map]
  induction cyc l with
  | nil => simp
  | cons e t ih =>
      rw [List.map_cons, List.map_cons, List.sum_cons, List.sum_cons, ih]
      have := hg e.2 e.1
      simp only [Function.comp_apply, Prod.fst_swap, Prod.snd_swap]
      rw [this]; ring

/-- Taking a vertex out of a ring, up to where the list begins. -/
theorem ear_rot {l : List Nat} (hl : 3 ≤ l.length) {i : Nat} (hi : i < l.length) :
    ∃ r, l ~r (prevOf l i :: curOf l i :: nextOf l i :: r) ∧ l.eraseIdx i ~r (prevOf l i :: nextOf l i :: r) := by
  have key : ∀ (p c : Nat) (s : List Nat), s ≠ [] → (∀ x, s.head? = some x → x = nextOf l i) → l ~r (p :: c :: s) → l.eraseIdx i ~r (p :: s) →
      ∃ r, l ~r (p :: c :: nextOf l i :: r) ∧ l.eraseIdx i ~r (p :: nextOf l i :: r) := by
    intro p c s hs hx h1 h2
    cases s with
    | nil => exact absurd rfl hs
    | cons x r => obtain rfl := hx x rfl; exact ⟨r, h1, h2⟩
  have hcur : curOf l i = l[i] := by unfold curOf; rw [List.getD_eq_getElem?_getD, List.getElem?_eq_getElem hi]; rfl
  cases i with
  | zero =>
      have hp : prevOf l 0 = l[l.length - 1] := by
        unfold prevOf
        rw [Nat.zero_add, Nat.mod_eq_of_lt (by omega), List.getD_eq_getElem?_getD, List.getElem?_eq_getElem (by omega)]; rfl
      have hn : nextOf l 0 = l[1] := by
        unfold nextOf
        rw [Nat.mod_eq_of_lt (by omega), List.getD_eq_getElem?_getD, List.getElem?_eq_getElem (by omega)]; rfl
      obtain ⟨c, s, p, rfl⟩ : ∃ c s p, l = c :: (s ++ [p]) := by
        cases l with
        | nil => simp at hl
        | cons c B =>
            have hB : B ≠ [] := by rintro rfl; simp at hl
            exact ⟨c, B.dropLast, B.getLast hB, by rw [List.dropLast_append_getLast hB]⟩
      · have e1 : prevOf (c :: (s ++ [p])) 0 = p := by rw [hp]; simp
        have e2 : curOf (c :: (s ++ [p])) 0 = c := by rw [hcur]; rfl
        have hs : s ≠ [] := by rintro rfl; simp at hl
        rw [e1, e2]
        refine key p c s hs ?_ ?_ ?_
        · intro x hx
          cases s with
          | nil => cases hx
          | cons y s => rw [hn]; simpa using hx.symm
        · have : c :: (s ++ [p]) = (c :: s) ++ [p] := rfl
          rw [this]
          exact List.isRotated_append
        · exact List.isRotated_append
  | succ k =>
      have hp : prevOf l (k + 1) = l[k] := by
        unfold prevOf
        have : (k + 1 + l.length - 1) % l.length = k := by
          rw [show k + 1 + l.length - 1 = k + l.length by omega, Nat.add_mod_right, Nat.mod_eq_of_lt (by omega)]
        rw [this, List.getD_eq_getElem?_getD, List.getElem?_eq_getElem (by omega)]; rfl
      have hsplit : l = l.take k ++ l[k] :: l[k + 1] :: l.drop (k + 2) := by
        rw [← List.drop_eq_getElem_cons hi, ← List.drop_eq_getElem_cons (by omega : k < l.length), List.take_append_drop]
      have herase : l.eraseIdx (k + 1) = l.take k ++ l[k] :: l.drop (k + 2) := by
        rw [List.eraseIdx_eq_take_drop_succ]
        have : l.take (k + 1) = l.take k ++ [l[k]] := List.take_succ_eq_append_getElem (by omega)
        rw [this, List.append_assoc]
        rfl
      have hne : l.drop (k + 2) ++ l.take k ≠ [] := by
        intro h
        have := congrArg List.length h
        rw [List.length_append, List.length_drop, List.length_take, List.length_nil] at this
        omega
      rw [hp, hcur]
      refine key l[k] l[k + 1] (l.drop (k + 2) ++ l.take k) hne ?_ ?_ ?_
      · intro x hx
        unfold nextOf
        rw [List.getD_eq_getElem?_getD]
        by_cases hk : k + 2 < l.length
        · rw [Nat.mod_eq_of_lt (by omega), List.getElem?_eq_getElem hk]
          rw [List.drop_eq_getElem_cons hk, List.cons_append, List.head?_cons] at hx
          exact (Option.some.inj hx).symm
        · have : k + 2 = l.length := by omega
          rw [this, Nat.mod_self, List.getElem?_eq_getElem (by omega)]
          rw [this, List.drop_length, List.nil_append, List.head?_take, if_neg (by omega), List.head?_eq_getElem?, List.getElem?_eq_getElem (by omega)] at hx
          simpa using hx.symm
      · conv_lhs => rw [hsplit]
        have : l[k] :: l[k + 1] :: (l.drop (k + 2) ++ l.take k) = (l[k] :: l[k + 1] :: l.drop (k + 2)) ++ l.take k := rfl
        rw [this]
        exact List.isRotated_append
      · rw [herase]
        have : l[k] :: (l.drop (k + 2) ++ l.take k) = (l[k] :: l.drop (k + 2)) ++ l.take k := rfl
        rw [this]
        exact List.isRotated_append

end Verif.Triangulation
