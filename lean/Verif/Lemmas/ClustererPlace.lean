import Verif.Lemmas.ClustererLoop
import Mathlib.LinearAlgebra.Matrix.NonsingularInverse
import Mathlib.Data.Fin.VecNotation
import Mathlib.LinearAlgebra.Matrix.Notation
import Mathlib.Tactic.Ring
import Mathlib.Tactic.FieldSimp
import Mathlib.Tactic.LinearCombination

/-!
# Where merged vertices go
-/

namespace Verif.Clusterer

open Verif Verif.AbstractMesh
open Verif.Clusterer.Spec
open Verif.Predicates (P3)
open Verif.Thinner (dotP crossP)

variable {I : Input}

theorem dot_comm (x y : P3) : dotP x y = dotP y x := by simp [dotP]; ring
theorem dot_add (x y z : P3) : dotP x (y + z) = dotP x y + dotP x z := by simp [dotP]; ring
theorem dot_sub (x y z : P3) : dotP x (y - z) = dotP x y - dotP x z := by simp [dotP]; ring
theorem dot_smul (a : ℝ) (x y : P3) : dotP x (a • y) = a * dotP x y := by simp [dotP]; ring
theorem add_dot (x y z : P3) : dotP (x + y) z = dotP x z + dotP y z := by simp [dotP]; ring
theorem sub_dot (x y z : P3) : dotP (x - y) z = dotP x z - dotP y z := by simp [dotP]; ring
theorem smul_dot (a : ℝ) (x y : P3) : dotP (a • x) y = a * dotP x y := by simp [dotP]; ring
theorem zero_dot (x : P3) : dotP 0 x = 0 := by simp [dotP]
theorem dot_self_nonneg (x : P3) : 0 ≤ dotP x x := by unfold dotP; nlinarith [sq_nonneg x.1, sq_nonneg x.2.1, sq_nonneg x.2.2]

/-- Three orthonormal vectors are a basis. -/
theorem expand {e : Nat → P3} (h : ∀ j < 3, ∀ k < 3, dotP (e j) (e k) = if j = k then 1 else 0) (x : P3) :
    x = dotP x (e 0) • e 0 + dotP x (e 1) • e 1 + dotP x (e 2) • e 2 := by
  let A : Matrix (Fin 3) (Fin 3) ℝ := !![(e 0).1, (e 0).2.1, (e 0).2.2; (e 1).1, (e 1).2.1, (e 1).2.2; (e 2).1, (e 2).2.1, (e 2).2.2]
  have h1 : A * A.transpose = 1 := by
    have h00 := h 0 (by norm_num) 0 (by norm_num)
    have h01 := h 0 (by norm_num) 1 (by norm_num)
    have h02 := h 0 (by norm_num) 2 (by norm_num)
    have h10 := h 1 (by norm_num) 0 (by norm_num)
    have h11 := h 1 (by norm_num) 1 (by norm_num)
    have h12 := h 1 (by norm_num) 2 (by norm_num)
    have h20 := h 2 (by norm_num) 0 (by norm_num)
    have h21 := h 2 (by norm_num) 1 (by norm_num)
    have h22 := h 2 (by norm_num) 2 (by norm_num)
    simp [dotP] at h00 h01 h02 h10 h11 h12 h20 h21 h22
    ext i j
    fin_cases i <;> fin_cases j <;> simp [A, Matrix.mul_apply, Fin.sum_univ_three] <;> assumption
  have h2 : A.transpose * A = 1 := mul_eq_one_comm.1 h1
  have g : ∀ i j, (A.transpose * A) i j = (1 : Matrix (Fin 3) (Fin 3) ℝ) i j := fun i j => by rw [h2]
  have g00 := g 0 0
  have g01 := g 0 1
  have g02 := g 0 2
  have g11 := g 1 1
  have g12 := g 1 2
  have g22 := g 2 2
  simp [A, Matrix.mul_apply, Fin.sum_univ_three] at g00 g01 g02 g11 g12 g22
  refine Prod.ext ?_ (Prod.ext ?_ ?_)
  · simp [dotP]
    linear_combination (-x.1) * g00 - x.2.1 * g01 - x.2.2 * g02
  · simp [dotP]
    linear_combination (-x.1) * g01 - x.2.1 * g11 - x.2.2 * g12
  · simp [dotP]
    linear_combination (-x.1) * g02 - x.2.1 * g12 - x.2.2 * g22

theorem vecMul_add (x y : P3) (a : M3) : vecMul (x + y) a = vecMul x a + vecMul y a := by
  simp only [vecMul, Prod.fst_add, Prod.snd_add, add_smul]; abel
theorem vecMul_smul (t : ℝ) (x : P3) (a : M3) : vecMul (t • x) a = t • vecMul x a := by
  simp only [vecMul, Prod.smul_fst, Prod.smul_snd, smul_eq_mul, mul_smul, smul_add]
theorem vecMul_madd (x : P3) (a b : M3) : vecMul x (a + b) = vecMul x a + vecMul x b := by
  simp only [vecMul, Prod.fst_add, Prod.snd_add, smul_add]; abel
theorem vecMul_mzero (x : P3) : vecMul x 0 = 0 := by simp [vecMul]
theorem vecMul_outer (w : ℝ) (n x : P3) : vecMul x (outer w n) = (w * dotP x n) • n := by
  simp only [vecMul, outer, smul_smul, ← add_smul]
  congr 1
  simp only [dotP]; ring

/-- The quadratic form of a system. -/
noncomputable def quad (s : M3 × P3) (x : P3) : ℝ := dotP (vecMul x s.1) x - 2 * dotP s.2 x

theorem quad_add (s t : M3 × P3) (x : P3) : quad (s + t) x = quad s x + quad t x := by
  unfold quad
  rw [Prod.fst_add, Prod.snd_add, vecMul_madd, add_dot, add_dot]; ring

theorem quad_zero (x : P3) : quad (0, 0) x = 0 := by
  unfold quad
  dsimp only
  rw [vecMul_mzero, zero_dot]; ring

theorem term_quad (T : P3 → P3) (t : P3 × P3 × P3) : ∃ c, ∀ x, planeEnergy (T t.1, T t.2.1, T t.2.2) x = quad (term T t) x + c := by
  unfold planeEnergy term
  dsimp only
  generalize crossP (T t.2.1 - T t.1) (T t.2.2 - T t.1) = n
  generalize T t.1 = p
  by_cases hw : √(dotP n n) = 0
  · refine ⟨0, fun x => ?_⟩
    rw [if_pos hw, hw, quad_zero, div_zero, add_zero]
  · rw [if_neg hw]
    refine ⟨√(dotP n n) * (dotP ((1 / √(dotP n n)) • n) p) ^ 2, fun x => ?_⟩
    unfold quad
    dsimp only
    rw [vecMul_outer]
    simp only [smul_dot, dot_sub, dot_smul, dot_comm x n]
    field_simp
    ring

theorem term_symm (T : P3 → P3) (t : P3 × P3 × P3) : Symmetric (term T t).1 ∧ ∀ x, 0 ≤ dotP (vecMul x (term T t).1) x := by
  unfold term
  dsimp only
  generalize crossP (T t.2.1 - T t.1) (T t.2.2 - T t.1) = n
  split
  · refine ⟨⟨rfl, rfl, rfl⟩, fun x => ?_⟩
    rw [vecMul_mzero, zero_dot]
  · refine ⟨?_, fun x => ?_⟩
    · simp only [Spec.Symmetric, outer]
      refine ⟨?_, ?_, ?_⟩ <;> simp only [Prod.smul_fst, Prod.smul_snd, smul_eq_mul] <;> ring
    · rw [vecMul_outer, smul_dot, dot_comm _ x]
      nlinarith [mul_nonneg (Real.sqrt_nonneg (dotP n n)) (mul_self_nonneg (dotP x ((1 / √(dotP n n)) • n)))]

theorem system_eq (T : P3 → P3) (ts : List (P3 × P3 × P3)) : system T ts = (ts.map (term T)).sum := by
  unfold system
  rw [List.sum_eq_foldl]
  rfl

theorem system_quad (T : P3 → P3) (ts : List (P3 × P3 × P3)) : ∃ c, ∀ x, energy T ts x = quad (system T ts) x + c := by
  rw [system_eq]
  induction ts with
  | nil =>
      refine ⟨0, fun x => ?_⟩
      show energy T [] x = quad (0, 0) x + 0
      rw [quad_zero]; simp [energy]
  | cons t ts ih =>
      obtain ⟨c, h⟩ := ih
      obtain ⟨c', h'⟩ := term_quad T t
      refine ⟨c' + c, fun x => ?_⟩
      rw [List.map_cons, List.sum_cons, quad_add]
      have : energy T (t :: ts) x = planeEnergy (T t.1, T t.2.1, T t.2.2) x + energy T ts x := by simp [energy]
      rw [this, h, h']; ring

theorem system_symm (T : P3 → P3) (ts : List (P3 × P3 × P3)) : Symmetric (system T ts).1 ∧ ∀ x, 0 ≤ dotP (vecMul x (system T ts).1) x := by
  rw [system_eq]
  induction ts with
  | nil =>
      refine ⟨⟨rfl, rfl, rfl⟩, fun x => ?_⟩
      show 0 ≤ dotP (vecMul x (0 : M3)) x
      rw [vecMul_mzero, zero_dot]
  | cons t ts ih =>
      obtain ⟨⟨a1, a2, a3⟩, h⟩ := ih
      obtain ⟨⟨b1, b2, b3⟩, h'⟩ := term_symm T t
      rw [List.map_cons, List.sum_cons, Prod.fst_add]
      refine ⟨⟨?_, ?_, ?_⟩, fun x => ?_⟩
      · simp only [Prod.fst_add, Prod.snd_add, a1, b1]
      · simp only [Prod.fst_add, Prod.snd_add, a2, b2]
      · simp only [Prod.fst_add, Prod.snd_add, a3, b3]
      · rw [vecMul_madd, add_dot]
        exact add_nonneg (h' x) (h x)

theorem symm_dot {a : M3} (h : Symmetric a) (x y : P3) : dotP (vecMul x a) y = dotP (vecMul y a) x := by
  obtain ⟨h1, h2, h3⟩ := h
  simp only [dotP, vecMul, Prod.fst_add, Prod.snd_add, Prod.smul_fst, Prod.smul_snd, smul_eq_mul]
  rw [h1, h2, h3]; ring

theorem quad_shift {a : M3} (ha : Symmetric a) (b x h : P3) : quad (a, b) (x + h) = quad (a, b) x + 2 * dotP (vecMul x a - b) h + dotP (vecMul h a) h := by
  unfold quad
  dsimp only
  rw [vecMul_add, add_dot, dot_add, dot_add, dot_add, sub_dot, symm_dot ha h x]; ring

theorem form_eigen {a : M3} {r : (Nat → ℝ) × (Nat → P3)} (hr : IsEigen a r) (h : P3) :
    dotP (vecMul h a) h = r.1 0 * dotP h (r.2 0) ^ 2 + r.1 1 * dotP h (r.2 1) ^ 2 + r.1 2 * dotP h (r.2 2) ^ 2 := by
  have e := expand hr.orthonormal h
  have : vecMul h a = (dotP h (r.2 0) * r.1 0) • r.2 0 + (dotP h (r.2 1) * r.1 1) • r.2 1 + (dotP h (r.2 2) * r.1 2) • r.2 2 := by
    conv_lhs => rw [e]
    rw [vecMul_add, vecMul_add, vecMul_smul, vecMul_smul, vecMul_smul, hr.eigen 0 (by norm_num), hr.eigen 1 (by norm_num), hr.eigen 2 (by norm_num)]
    simp only [smul_smul]
  rw [this]
  rw [add_dot, add_dot, smul_dot, smul_dot, smul_dot, dot_comm (r.2 0), dot_comm (r.2 1), dot_comm (r.2 2)]
  ring

/-- What the solver finds. -/
theorem solve_spec {a : M3} (ha : Symmetric a) (hpos : ∀ x, 0 ≤ dotP (vecMul x a) x) {r : (Nat → ℝ) × (Nat → P3)} (hr : IsEigen a r) (b mean : P3) :
    (r.1 1 ≤ r.1 2 / 1000 → solve r a b mean = mean) ∧
    (r.1 2 / 1000 < r.1 1 → (∀ k < 3, r.1 k ≤ r.1 2 / 1000 → dotP (solve r a b mean - mean) (r.2 k) = 0) ∧
      ∀ z, (∀ k < 3, r.1 k ≤ r.1 2 / 1000 → dotP (z - mean) (r.2 k) = 0) → quad (a, b) (solve r a b mean) ≤ quad (a, b) z) := by
  have hfl : (1e-3 : ℝ) * r.1 2 = r.1 2 / 1000 := by norm_num; ring
  have o := hr.orthonormal
  have h2 : 0 ≤ r.1 2 := by
    have := hpos (r.2 2)
    rw [hr.eigen 2 (by norm_num), smul_dot, o 2 (by norm_num) 2 (by norm_num)] at this
    simpa using this
  constructor
  · intro h
    unfold solve
    dsimp only
    rw [hfl, if_neg (not_lt.2 h), add_zero]
  · intro h
    have hsol : solve r a b mean - mean = part r (r.1 2 / 1000) (b - vecMul mean a) 0 + part r (r.1 2 / 1000) (b - vecMul mean a) 1 +
        part r (r.1 2 / 1000) (b - vecMul mean a) 2 := by
      unfold solve
      dsimp only
      rw [hfl, if_pos h, add_sub_cancel_left]
    have hpart : ∀ j < 3, ∀ k < 3, dotP (part r (r.1 2 / 1000) (b - vecMul mean a) j) (r.2 k) =
        if j = k then (if r.1 k > r.1 2 / 1000 then dotP (b - vecMul mean a) (r.2 k) / r.1 k else 0) else 0 := by
      intro j hj k hk
      unfold part
      by_cases hjk : j = k
      · subst hjk
        rw [if_pos rfl]
        split
        · rw [smul_dot, o j hj j hj, if_pos rfl, mul_one]
        · rw [zero_dot]
      · rw [if_neg hjk]
        split
        · rw [smul_dot, o j hj k hk, if_neg hjk, mul_zero]
        · rw [zero_dot]
    have hcomp : ∀ k < 3, dotP (solve r a b mean - mean) (r.2 k) = if r.1 k > r.1 2 / 1000 then dotP (b - vecMul mean a) (r.2 k) / r.1 k else 0 := by
      intro k hk
      rw [hsol, add_dot, add_dot, hpart 0 (by norm_num) k hk, hpart 1 (by norm_num) k hk, hpart 2 (by norm_num) k hk]
      have : k = 0 ∨ k = 1 ∨ k = 2 := by omega
      rcases this with rfl | rfl | rfl <;> simp
    refine ⟨fun k hk hl => by rw [hcomp k hk, if_neg (not_lt.2 hl)], ?_⟩
    intro z hz
    generalize hx : solve r a b mean = x at *
    have hgrad : ∀ k < 3, r.1 2 / 1000 < r.1 k → dotP (vecMul x a - b) (r.2 k) = 0 := by
      intro k hk hl
      have h0 : r.1 k ≠ 0 := by
        have : 0 ≤ r.1 2 / 1000 := by positivity
        exact ne_of_gt (lt_of_le_of_lt this hl)
      have e := hcomp k hk
      rw [if_pos hl, eq_div_iff h0] at e
      have e1 : dotP (vecMul x a) (r.2 k) = r.1 k * dotP x (r.2 k) := by
        rw [symm_dot ha, hr.eigen k hk, smul_dot, dot_comm]
      have e2 : dotP (vecMul mean a) (r.2 k) = r.1 k * dotP mean (r.2 k) := by
        rw [symm_dot ha, hr.eigen k hk, smul_dot, dot_comm]
      rw [sub_dot, sub_dot, e2] at e
      rw [sub_dot, e1]
      linarith
    have hdir : ∀ k < 3, r.1 k ≤ r.1 2 / 1000 → dotP (z - x) (r.2 k) = 0 := by
      intro k hk hl
      have e1 := hz k hk hl
      have e2 := hcomp k hk
      rw [if_neg (not_lt.2 hl)] at e2
      rw [sub_dot] at *
      linarith
    have hg0 : dotP (vecMul x a - b) (z - x) = 0 := by
      have key : ∀ k < 3, dotP (z - x) (r.2 k) * dotP (vecMul x a - b) (r.2 k) = 0 := by
        intro k hk
        rcases le_or_gt (r.1 k) (r.1 2 / 1000) with hl | hl
        · rw [hdir k hk hl, zero_mul]
        · rw [hgrad k hk hl, mul_zero]
      conv_lhs => rw [expand o (z - x)]
      rw [dot_add, dot_add, dot_smul, dot_smul, dot_smul, key 0 (by norm_num), key 1 (by norm_num), key 2 (by norm_num)]
      ring
    have hzx : z = x + (z - x) := by abel
    rw [hzx, quad_shift ha, hg0]
    have := hpos (z - x)
    linarith

theorem mem_vf {vf : Nat → List Nat} {n : Nat} {faces : List Face} (hr : ∀ f ∈ faces, MeshDefects.InRange n f)
    (h : MeshDefects.fillVf n faces 0 (fun _ => []) = .ok vf) {v fi : Nat} : fi ∈ vf v ↔ fi < faces.length ∧ Corner (faceOf faces fi) v := by
  obtain ⟨vf', e, h'⟩ := MeshDefects.fillVf_spec n faces 0 (fun _ => []) hr
  rw [e] at h
  cases h
  rw [h' v, List.nil_append]
  unfold MeshDefects.occ
  rw [List.mem_flatMap]
  constructor
  · rintro ⟨⟨f, i⟩, hm, hi⟩
    rw [List.mk_mem_zipIdx_iff_getElem?] at hm
    have hlt := (List.getElem?_eq_some_iff.1 hm).1
    have hf : faceOf faces i = f := by unfold faceOf; rw [List.getD_eq_getElem?_getD, hm]; rfl
    have hfi : fi = i ∧ Corner f v := by
      rw [List.mem_append, List.mem_append] at hi
      unfold Corner
      rcases hi with (hi | hi) | hi <;> split at hi <;> simp_all
    obtain ⟨rfl, hc⟩ := hfi
    exact ⟨hlt, by rw [hf]; exact hc⟩
  · rintro ⟨hlt, hc⟩
    refine ⟨(faceOf faces fi, fi), ?_, ?_⟩
    · rw [List.mk_mem_zipIdx_iff_getElem?, faceOf_get hlt, List.getElem?_eq_getElem hlt]
    · unfold Corner at hc
      rw [List.mem_append, List.mem_append]
      rcases hc with hc | hc | hc
      · exact Or.inl (Or.inl (by simp [hc]))
      · exact Or.inl (Or.inr (by simp [hc]))
      · exact Or.inr (by simp [hc])

/-- The triangles around a cluster. -/
theorem triangles_perm {vf : Nat → List Nat} (hI : Valid I) (h : MeshDefects.fillVf I.vertices.length I.faces 0 (fun _ => []) = .ok vf) (c : List Nat) :
    ((c.flatMap vf).dedup.map (tri I)).Perm ((I.faces.filter fun f => f.1 ∈ c ∨ f.2.1 ∈ c ∨ f.2.2 ∈ c).map (Spec.corners I.vertices)) := by
  have e : (I.faces.filter fun f => f.1 ∈ c ∨ f.2.1 ∈ c ∨ f.2.2 ∈ c).map (Spec.corners I.vertices) =
      ((List.range I.faces.length).filter fun fi => let f := faceOf I.faces fi; f.1 ∈ c ∨ f.2.1 ∈ c ∨ f.2.2 ∈ c).map (tri I) := by
    conv_lhs => rw [← map_range_faceOf I.faces]
    rw [List.filter_map, List.map_map]
    rfl
  rw [e]
  refine List.Perm.map _ ((List.perm_ext_iff_of_nodup (List.nodup_dedup _) (List.nodup_range.filter _)).2 fun fi => ?_)
  rw [List.mem_dedup, List.mem_flatMap, List.mem_filter, List.mem_range]
  simp only [decide_eq_true_eq, mem_vf hI.corners h, Corner]
  constructor
  · rintro ⟨v, hv, h1, h2⟩
    refine ⟨h1, ?_⟩
    rcases h2 with h2 | h2 | h2
    · exact Or.inl (by rw [h2]; exact hv)
    · exact Or.inr (Or.inl (by rw [h2]; exact hv))
    · exact Or.inr (Or.inr (by rw [h2]; exact hv))
  · rintro ⟨h1, h2⟩
    rcases h2 with h2 | h2 | h2
    · exact ⟨_, h2, h1, Or.inl rfl⟩
    · exact ⟨_, h2, h1, Or.inr (Or.inl rfl)⟩
    · exact ⟨_, h2, h1, Or.inr (Or.inr rfl)⟩

theorem energy_perm (T : P3 → P3) {ts us : List (P3 × P3 × P3)} (h : ts.Perm us) (x : P3) : energy T ts x = energy T us x :=
  (h.map _).sum_eq

/-- Where a cluster is merged. -/
theorem place_spec {vf : Nat → List Nat} (hI : Valid I) (hes : ∀ a, Spec.Symmetric a → IsEigen a (I.es a))
    (h : MeshDefects.fillVf I.vertices.length I.faces 0 (fun _ => []) = .ok vf) {c : List Nat} (hc : Candidate I c) : IsPlace I c (place I vf c) := by
  obtain ⟨ts, hts⟩ : ∃ ts, ts = (c.flatMap vf).dedup.map (tri I) := ⟨_, rfl⟩
  have hperm := triangles_perm hI h c
  rw [← hts] at hperm
  obtain ⟨a, b, hab⟩ : ∃ a b, system I.T ts = (a, b) := ⟨_, _, rfl⟩
  obtain ⟨hsym, hpos⟩ := system_symm I.T ts
  obtain ⟨k, hk⟩ := system_quad I.T ts
  rw [hab] at hsym hpos hk
  dsimp only at hsym hpos
  have hr := hes a hsym
  obtain ⟨s1, s2⟩ := solve_spec hsym hpos hr b (centroid I.T (c.map (vrow I)))
  refine ⟨solve (I.es a) a b (centroid I.T (c.map (vrow I))), ⟨(I.es a).1, (I.es a).2, centroid I.T (c.map (vrow I)), ?_, hr.orthonormal, hr.ascending.1,
    hr.ascending.2, ?_, s1, ?_⟩, ?_⟩
  · have h0 : (c.length : ℝ) ≠ 0 := by
      have := hc.two
      exact Nat.cast_ne_zero.2 (by omega)
    unfold centroid
    rw [smul_smul, List.length_map, mul_one_div_cancel h0, one_smul, List.map_map]
    rfl
  · intro y x
    rw [← energy_perm I.T hperm, ← energy_perm I.T hperm, ← energy_perm I.T hperm, hk, hk, hk, sub_eq_add_neg y x, quad_shift hsym, quad_shift hsym,
      ← form_eigen hr]
    have e1 : dotP (vecMul (-x) a) (-x) = dotP (vecMul x a) x := by
      rw [← neg_one_smul ℝ x, vecMul_smul, smul_dot, dot_smul]; ring
    have e2 : dotP (vecMul y a - b) (-x) = - dotP (vecMul y a - b) x := by
      rw [← neg_one_smul ℝ x, dot_smul]; ring
    rw [e1, e2]; ring
  · intro hl
    obtain ⟨t1, t2⟩ := s2 hl
    refine ⟨t1, fun z hz => ?_⟩
    rw [← energy_perm I.T hperm, ← energy_perm I.T hperm, hk, hk]
    have := t2 z hz
    linarith
  · intro v hv
    have hn : I.L.rounded (Spec.pos I.vertices v) = node I (c.headD 0) := by rw [node_eq]; exact hc.node hv hc.head
    rw [hn]
    have := snapped_spec I (I.L.clampToNode (I.Tinv (solve (I.es a) a b (centroid I.T (c.map (vrow I))))) (node I (c.headD 0)))
    unfold place clusteredPosition quadricPosition
    dsimp only
    rw [← hts, hab]
    exact this

end Verif.Clusterer
