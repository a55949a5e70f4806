import Verif.Lemmas.ClustererPlace
import Mathlib.Analysis.Matrix.Spectrum
import Mathlib.Data.Fin.Tuple.Sort

/-!
# There are eigenvalue solvers
-/

namespace Verif.Clusterer

open Verif
open Verif.Clusterer.Spec
open Verif.Predicates (P3)
open Verif.Thinner (dotP)

/-- The contract of the eigenvalue solver can be met. -/
theorem exists_eigen (a : M3) (h : Spec.Symmetric a) : ∃ r, IsEigen a r := by
  let A : Matrix (Fin 3) (Fin 3) ℝ := !![a.1.1, a.1.2.1, a.1.2.2; a.2.1.1, a.2.1.2.1, a.2.1.2.2; a.2.2.1, a.2.2.2.1, a.2.2.2.2]
  have hA : A.IsHermitian := by
    obtain ⟨h1, h2, h3⟩ := h
    ext i j
    fin_cases i <;> fin_cases j <;> simp [A, Matrix.conjTranspose_apply, h1, h2, h3]
  let σ := Tuple.sort hA.eigenvalues
  have hmono : Monotone (hA.eigenvalues ∘ σ) := Tuple.monotone_sort _
  let idx : Nat → Fin 3 := fun k => σ (Fin.ofNat 3 k)
  let vec : Nat → P3 := fun k => (hA.eigenvectorBasis (idx k) 0, hA.eigenvectorBasis (idx k) 1, hA.eigenvectorBasis (idx k) 2)
  refine ⟨(fun k => hA.eigenvalues (idx k), vec), ⟨⟨?_, ?_⟩, ?_, ?_⟩⟩
  · exact hmono (show (Fin.ofNat 3 0 : Fin 3) ≤ Fin.ofNat 3 1 by decide)
  · exact hmono (show (Fin.ofNat 3 1 : Fin 3) ≤ Fin.ofNat 3 2 by decide)
  · intro k _
    have hv := hA.mulVec_eigenvectorBasis (idx k)
    have e0 := congrFun hv 0
    have e1 := congrFun hv 1
    have e2 := congrFun hv 2
    obtain ⟨h1, h2, h3⟩ := h
    simp [A, Matrix.mulVec, dotProduct, Fin.sum_univ_three] at e0 e1 e2
    refine Prod.ext ?_ (Prod.ext ?_ ?_)
    · simp only [vecMul, vec, Prod.fst_add, Prod.snd_add, Prod.smul_fst, Prod.smul_snd, smul_eq_mul]
      linear_combination e0 - (hA.eigenvectorBasis (idx k)).ofLp 1 * h1 - (hA.eigenvectorBasis (idx k)).ofLp 2 * h2
    · simp only [vecMul, vec, Prod.fst_add, Prod.snd_add, Prod.smul_fst, Prod.smul_snd, smul_eq_mul]
      linear_combination e1 + (hA.eigenvectorBasis (idx k)).ofLp 0 * h1 - (hA.eigenvectorBasis (idx k)).ofLp 2 * h3
    · simp only [vecMul, vec, Prod.fst_add, Prod.snd_add, Prod.smul_fst, Prod.smul_snd, smul_eq_mul]
      linear_combination e2 + (hA.eigenvectorBasis (idx k)).ofLp 0 * h2 + (hA.eigenvectorBasis (idx k)).ofLp 1 * h3
  · intro j hj k hk
    have ho := hA.eigenvectorBasis.orthonormal
    rw [orthonormal_iff_ite] at ho
    have := ho (idx j) (idx k)
    rw [PiLp.inner_apply, Fin.sum_univ_three] at this
    have e : dotP (vec j) (vec k) = if idx j = idx k then (1 : ℝ) else 0 := by
      rw [← this]
      simp only [dotP, vec, RCLike.inner_apply, conj_trivial]
      ring
    rw [e]
    have hinj : idx j = idx k ↔ j = k := by
      simp only [idx, EmbeddingLike.apply_eq_iff_eq]
      constructor
      · intro h
        have h' := congrArg Fin.val h
        simp only [Fin.val_ofNat] at h'
        omega
      · rintro rfl; rfl
    simp only [hinj]

end Verif.Clusterer
