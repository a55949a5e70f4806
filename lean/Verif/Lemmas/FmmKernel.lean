import Verif.Model.FmmKernel
import Verif.Props.Kernel

/-! # What the kernels of the evaluators return -/

namespace Verif.FmmKernel

open Verif Kernel

variable {d : Nat}

theorem write_not_mem {l : List (Nat × ℝ)} {arr : Nat → ℝ} {n : Nat} (h : n ∉ l.map Prod.fst) : write l arr n = arr n := by
  unfold write
  induction l generalizing arr with
  | nil => rfl
  | cons w l ih =>
      rw [List.map_cons, List.mem_cons, not_or] at h
      rw [List.foldl_cons, ih h.2, Function.update_of_ne h.1]

theorem write_mem {l : List (Nat × ℝ)} {arr : Nat → ℝ} (hnd : (l.map Prod.fst).Nodup) {n : Nat} {v : ℝ} (h : (n, v) ∈ l) :
    write l arr n = v := by
  unfold write
  induction l generalizing arr with
  | nil => cases h
  | cons w l ih =>
      rw [List.map_cons, List.nodup_cons] at hnd
      rw [List.foldl_cons]
      rcases List.mem_cons.1 h with rfl | h
      · have := write_not_mem (l := l) (arr := Function.update arr n v) hnd.1
        unfold write at this
        rw [this, Function.update_self]
      · exact ih hnd.2 h

theorem diff_mulVec (a : Matrix (Fin d) (Fin d) ℝ) (x y : Fin d → ℝ) :
    (fun i => a.mulVec x i - a.mulVec y i) = a.mulVec (x - y) := by
  rw [Matrix.mulVec_sub]; rfl

theorem gradIso_eq (c : Cov d) (v : Fin d → ℝ) : c.gradIso (c.a.mulVec v) = evaluateGradient c.k c.p c.q c.a v := rfl

theorem hessIso_eq (c : Cov d) (v : Fin d → ℝ) : c.hessIso (c.a.mulVec v) = evaluateHessian c.k c.p c.q c.a v := rfl

theorem block_value (c : Cov d) (x y : Fin d → ℝ) (i j : Fin 1) :
    block c .value (c.a.mulVec x) (c.a.mulVec y) i j = evaluate c.k c.p c.q c.a (x - y) := by
  have h : array c .value (c.a.mulVec x) (c.a.mulVec y) = write [(0, evaluate c.k c.p c.q c.a (x - y))] 0 := by
    unfold array entries
    dsimp only
    rw [diff_mulVec]; rfl
  unfold block
  rw [h]
  have hi : (i : Nat) = 0 := by omega
  have hj : (j : Nat) = 0 := by omega
  show write _ _ (_ * i.val + j.val) = _
  rw [hi, hj]
  simp [write]

theorem nodup_finRange_map (f : Fin d → ℝ) : (((List.finRange d).map (fun (i : Fin d) => (i.val, f i))).map Prod.fst).Nodup := by
  rw [List.map_map]
  exact (List.nodup_finRange d).map (fun a b h => Fin.ext h)

theorem write_row (f : Fin d → ℝ) (j : Fin d) : write ((List.finRange d).map (fun (i : Fin d) => (i.val, f i))) 0 j = f j :=
  write_mem (nodup_finRange_map f) (List.mem_map.2 ⟨j, List.mem_finRange j, rfl⟩)

theorem block_gradient (c : Cov d) (x y : Fin d → ℝ) {g : Fin d → ℝ} (hg : evaluateGradient c.k c.p c.q c.a (x - y) = some g)
    (i : Fin 1) (j : Fin d) : block c .gradient (c.a.mulVec x) (c.a.mulVec y) i j = -g j := by
  have h : array c .gradient (c.a.mulVec x) (c.a.mulVec y) = write ((List.finRange d).map (fun (i : Fin d) => (i.val, -g i))) 0 := by
    unfold array entries
    dsimp only
    rw [diff_mulVec, gradIso_eq, hg]; rfl
  unfold block
  rw [h]
  have hi : (i : Nat) = 0 := by omega
  show write _ _ (_ * i.val + j.val) = _
  rw [hi, Nat.mul_zero, Nat.zero_add]
  exact write_row (fun i => -g i) j

theorem block_gradientT (c : Cov d) (x y : Fin d → ℝ) {g : Fin d → ℝ} (hg : evaluateGradient c.k c.p c.q c.a (x - y) = some g)
    (i : Fin d) (j : Fin 1) : block c .gradientT (c.a.mulVec x) (c.a.mulVec y) i j = g i := by
  have h : array c .gradientT (c.a.mulVec x) (c.a.mulVec y) = write ((List.finRange d).map (fun (i : Fin d) => (i.val, g i))) 0 := by
    unfold array entries
    dsimp only
    rw [diff_mulVec, gradIso_eq, hg]; rfl
  unfold block
  rw [h]
  have hj : (j : Nat) = 0 := by omega
  show write _ _ (1 * i.val + j.val) = _
  rw [hj, Nat.one_mul, Nat.add_zero]
  exact write_row g i

theorem block_hessian (c : Cov d) (x y : Fin d → ℝ) {m : Matrix (Fin d) (Fin d) ℝ}
    (hm : evaluateHessian c.k c.p c.q c.a (x - y) = .ok (some m)) (i j : Fin d) :
    block c .hessian (c.a.mulVec x) (c.a.mulVec y) i j = -m i j := by
  have h : array c .hessian (c.a.mulVec x) (c.a.mulVec y) = write ((List.finRange d).flatMap (fun (i : Fin d) =>
      (List.finRange d).map (fun (j : Fin d) => (d * i.val + j.val, -m i j)))) 0 := by
    unfold array entries
    dsimp only
    rw [diff_mulVec, hessIso_eq, hm]; rfl
  unfold block
  rw [h]
  refine write_mem ?_ (List.mem_flatMap.2 ⟨i, List.mem_finRange i, List.mem_map.2 ⟨j, List.mem_finRange j, rfl⟩⟩)
  rw [List.map_flatMap, List.nodup_flatMap]
  constructor
  · intro i _
    rw [List.map_map]
    exact (List.nodup_finRange d).map (fun a b h => Fin.ext (by simpa using h))
  · refine (List.nodup_finRange d).imp ?_
    intro a b hab n h1 h2
    simp only [List.map_map, List.mem_map, List.mem_finRange, true_and, Function.comp_apply] at h1 h2
    obtain ⟨u, hu⟩ := h1
    obtain ⟨v, hv⟩ := h2
    apply hab
    have ha : n / d = a := by
      rw [← hu, Nat.mul_add_div (by have := a.2; omega), Nat.div_eq_of_lt u.2, Nat.add_zero]
    have hb : n / d = b := by
      rw [← hv, Nat.mul_add_div (by have := a.2; omega), Nat.div_eq_of_lt v.2, Nat.add_zero]
    exact Fin.ext (by rw [← ha, ← hb])

/-- The array is zero where the kernel gives no finite numbers. -/
theorem block_not_finite (c : Cov d) (kind : Kind) (x y : Fin d → ℝ) (h : ∀ l, entries c kind x y ≠ .ok (some l))
    (i : Fin (kind.kn d)) (j : Fin (kind.km d)) : block c kind x y i j = 0 := by
  have : array c kind x y = 0 := by
    unfold array
    split
    · rename_i l hl; exact absurd hl (h l)
    · rfl
  unfold block
  rw [this]; rfl

end Verif.FmmKernel
