import Verif.Spec.PlaneEstimator
import Mathlib.Analysis.InnerProductSpace.Spectrum
import Mathlib.Analysis.InnerProductSpace.PiL2

/-!
# Every matrix with three columns has a singular value decomposition
-/

namespace Verif.Plane

open Verif Verif.Plane.Spec
open Verif.Normals (V3 dot)

/-- the space of the rows, with its inner product -/
abbrev E3 := EuclideanSpace ℝ (Fin 3)

/-- a row as an element of the space with inner product -/
noncomputable def emb (a : V3) : E3 := WithLp.toLp 2 a

theorem inner_emb (a b : V3) : inner ℝ (emb a) (emb b) = dot a b := by
  unfold emb dot
  rw [EuclideanSpace.inner_toLp_toLp]
  simp [dotProduct, mul_comm]

/-- the Gram operator of the rows -/
noncomputable def gram (A : List V3) : E3 →ₗ[ℝ] E3 :=
  (A.map (fun a => (innerₛₗ ℝ (emb a)).smulRight (emb a))).sum

theorem inner_gram (A : List V3) (u v : E3) :
    inner ℝ (gram A u) v = (A.map (fun a => inner ℝ (emb a) u * inner ℝ (emb a) v)).sum := by
  unfold gram
  induction A with
  | nil => simp
  | cons a A ih =>
      simp only [List.map_cons, List.sum_cons, LinearMap.add_apply, inner_add_left, ih]
      congr 1
      rw [LinearMap.smulRight_apply, inner_smul_left]
      simp

theorem gram_symm (A : List V3) : (gram A).IsSymmetric := by
  intro u v
  rw [inner_gram, real_inner_comm, inner_gram]
  congr 1
  exact List.map_congr_left (fun a _ => mul_comm _ _)

theorem exists_svd (A : List V3) : ∃ s V, SvdOf A s V := by
  have hn : Module.finrank ℝ E3 = 3 := by simp
  let b := (gram_symm A).eigenvectorBasis hn
  let μ := (gram_symm A).eigenvalues hn
  have happ : ∀ k, gram A (b k) = μ k • b k := fun k => (gram_symm A).apply_eigenvectorBasis hn k
  have hb : ∀ k, b k = emb (WithLp.ofLp (b k)) := fun k => rfl
  have horth : ∀ k l, inner ℝ (b k) (b l) = if k = l then (1 : ℝ) else 0 := fun k l => orthonormal_iff_ite.1 b.orthonormal k l
  have hcol : ∀ k l, (A.map (fun a => dot a (WithLp.ofLp (b k)) * dot a (WithLp.ofLp (b l)))).sum = if k = l then μ k else 0 := by
    intro k l
    have h1 := inner_gram A (b k) (b l)
    rw [happ, inner_smul_left, horth] at h1
    have h2 : (A.map (fun a => dot a (WithLp.ofLp (b k)) * dot a (WithLp.ofLp (b l)))) =
        A.map (fun a => inner ℝ (emb a) (b k) * inner ℝ (emb a) (b l)) := by
      refine List.map_congr_left (fun a _ => ?_)
      rw [hb k, hb l, inner_emb, inner_emb]
      rfl
    rw [h2, ← h1]
    by_cases h : k = l <;> simp [h]
  have hnn : ∀ k, 0 ≤ μ k := by
    intro k
    have := hcol k k
    rw [if_pos rfl] at this
    rw [← this]
    refine List.sum_nonneg ?_
    intro x hx
    obtain ⟨a, _, rfl⟩ := List.mem_map.1 hx
    exact mul_self_nonneg _
  have hanti := (gram_symm A).eigenvalues_antitone hn
  refine ⟨fun k => Real.sqrt (μ k), fun k => WithLp.ofLp (b k), ?_, ?_, ?_, ?_⟩
  · intro k l
    rw [← horth k l, hb k, hb l, inner_emb]
    rfl
  · intro k; exact Real.sqrt_nonneg _
  · exact ⟨Real.sqrt_le_sqrt (hanti (by decide)), Real.sqrt_le_sqrt (hanti (by decide))⟩
  · intro k l
    rw [hcol]
    by_cases h : k = l
    · rw [if_pos h, if_pos h, Real.sq_sqrt (hnn k)]
    · rw [if_neg h, if_neg h]

end Verif.Plane
