import Verif.Model.Polynomial
import Mathlib.Analysis.Calculus.Deriv.Mul
import Mathlib.Analysis.Calculus.Deriv.Add
import Mathlib.Analysis.Calculus.Deriv.Pow
import Mathlib.Data.Nat.Choose.Basic
import Mathlib.Data.Matrix.Mul
import Mathlib.LinearAlgebra.Matrix.Rank
import Mathlib.Tactic.FinCases
import Mathlib.Tactic.Ring
import Mathlib.Tactic.Linarith
import Mathlib.Tactic.Abel
import Mathlib.LinearAlgebra.Matrix.ToLinearEquiv
import Mathlib.LinearAlgebra.Matrix.DotProduct
import Mathlib.Tactic.NormNum
import Mathlib.Tactic.IntervalCases
import Mathlib.Algebra.BigOperators.Fin

/-! # C43 (monomial bases), C44 (Lagrange bases), C32 (detrending) -/

namespace Verif.Poly

open Verif BigOperators Matrix

/-- The monomial `∏ xᵢ ^ eᵢ`. -/
def monomial {dim : Nat} (e : Fin dim → Nat) (p : Fin dim → ℝ) : ℝ := ∏ i, p i ^ e i

/-- The exponents of the columns, in the order of the code. -/
def exponents : (dim deg : Nat) → List (Fin dim → Nat)
  | 1, 0 => [![0]]
  | 1, 1 => [![0], ![1]]
  | 1, 2 => [![0], ![1], ![2]]
  | 2, 0 => [![0, 0]]
  | 2, 1 => [![0, 0], ![1, 0], ![0, 1]]
  | 2, 2 => [![0, 0], ![1, 0], ![0, 1], ![2, 0], ![1, 1], ![0, 2]]
  | 3, 0 => [![0, 0, 0]]
  | 3, 1 => [![0, 0, 0], ![1, 0, 0], ![0, 1, 0], ![0, 0, 1]]
  | 3, 2 => [![0, 0, 0], ![1, 0, 0], ![0, 1, 0], ![0, 0, 1], ![2, 0, 0], ![1, 1, 0], ![1, 0, 1], ![0, 2, 0],
      ![0, 1, 1], ![0, 0, 2]]
  | _, _ => []

/-- C43: the size of the basis is the number of monomials of the degree or less, in every dimension and for every degree. -/
theorem C43_basis_size (dim deg : Nat) (hd : 1 ≤ dim ∧ dim ≤ 3) : basisSize dim deg = (dim + deg).choose dim := by
  unfold basisSize Interpolant.basisSize
  rw [if_neg (by omega)]
  simp only [Int.toNat_natCast]
  obtain ⟨h1, h3⟩ := hd
  interval_cases dim
  · simp [Nat.add_comm]
  · rw [Nat.choose_two_right]
    congr 1
    simp only [Nat.add_comm 2 deg]
    rw [show deg + 2 - 1 = deg + 1 by omega]; ring
  · simp only
    have h := Nat.add_one_mul_choose_eq (deg + 2) 2
    have h2 := Nat.choose_two_right (deg + 2)
    rw [show 3 + deg = (deg + 2).succ from by omega, show (3 : Nat) = Nat.succ 2 from rfl]
    have h4 : 2 * (deg + 2).choose 2 = (deg + 2) * (deg + 1) := by
      rw [h2, show deg + 2 - 1 = deg + 1 by omega]
      apply Nat.mul_div_cancel'
      have := Nat.even_mul_succ_self (deg + 1)
      rw [mul_comm]; exact this.two_dvd
    have h5 : (deg + 1) * (deg + 1 + 1) * (deg + 1 + 2) = 6 * (deg + 2).succ.choose (Nat.succ 2) := by
      have : (deg + 2).succ.choose (Nat.succ 2) * Nat.succ 2 * 2 = (deg + 3) * ((deg + 2) * (deg + 1)) := by
        change (deg + 3).choose 3 * 3 * 2 = _
        change (deg + 3) * (deg + 2).choose 2 = (deg + 3).choose 3 * 3 at h
        rw [← h, ← h4]; ring
      change (deg + 3).choose 3 * 3 * 2 = _ at this
      change _ = 6 * (deg + 3).choose 3
      nlinarith
    rw [h5, Nat.mul_div_cancel_left _ (by norm_num)]

/-- C43: the basis is complete: its columns are the monomials of a list of exponents without repetition that contains
exactly the exponents of total degree at most the degree, as many as `basis_size`. -/
theorem C43_basis_complete (dim deg : Nat) (hd : 1 ≤ dim ∧ dim ≤ 3) (hg : deg ≤ 2) :
    (exponents dim deg).Nodup ∧ (exponents dim deg).length = basisSize dim deg ∧
    (∀ e : Fin dim → Nat, e ∈ exponents dim deg ↔ ∑ i, e i ≤ deg) ∧
    ∀ p : Fin dim → ℝ, mono dim deg p = .ok ((exponents dim deg).map (fun e => monomial e p)) := by
  obtain ⟨h1, h3⟩ := hd
  refine ⟨?_, ?_, ?_, ?_⟩
  · interval_cases dim <;> interval_cases deg <;> decide
  · interval_cases dim <;> interval_cases deg <;> decide
  · intro e
    constructor
    · revert e
      interval_cases dim <;> interval_cases deg <;> decide
    · intro h
      have key : ∀ (a b c : Nat), a + b + c ≤ 2 →
          (a, b, c) ∈ ([(0,0,0),(1,0,0),(0,1,0),(0,0,1),(2,0,0),(1,1,0),(1,0,1),(0,2,0),(0,1,1),(0,0,2)] : List (Nat × Nat × Nat)) := by
        intro a b c habc
        have ha : a ≤ 2 := by omega
        have hb : b ≤ 2 := by omega
        have hc : c ≤ 2 := by omega
        interval_cases a <;> interval_cases b <;> interval_cases c <;> first | decide | omega
      interval_cases dim
      · have he : e = ![e 0] := by funext i; fin_cases i; rfl
        rw [he]; rw [he] at h
        simp only [Fin.sum_univ_one, Matrix.cons_val_zero] at h
        generalize e 0 = a at *
        interval_cases deg <;> (have : a ≤ 2 := by omega) <;> interval_cases a <;> first | omega | simp [exponents]
      · have he : e = ![e 0, e 1] := by funext i; fin_cases i <;> rfl
        rw [he]; rw [he] at h
        simp only [Fin.sum_univ_two, Matrix.cons_val_zero, Matrix.cons_val_one] at h
        generalize e 0 = a at *
        generalize e 1 = b at *
        interval_cases deg <;> (have : a ≤ 2 := by omega) <;> (have : b ≤ 2 := by omega) <;> interval_cases a <;>
          interval_cases b <;> first | omega | simp [exponents]
      · have he : e = ![e 0, e 1, e 2] := by funext i; fin_cases i <;> rfl
        rw [he]; rw [he] at h
        simp only [Fin.sum_univ_three, Matrix.cons_val_zero, Matrix.cons_val_one, Matrix.cons_val_two, Matrix.tail_cons, Matrix.head_cons] at h
        change e 0 + e 1 + e 2 ≤ deg at h
        generalize e 0 = a at *
        generalize e 1 = b at *
        generalize e 2 = c at *
        interval_cases deg <;> (have : a ≤ 2 := by omega) <;> (have : b ≤ 2 := by omega) <;>
          (have : c ≤ 2 := by omega) <;> interval_cases a <;>
          interval_cases b <;> interval_cases c <;> first | omega | simp [exponents]
  · intro p
    interval_cases dim <;> interval_cases deg <;>
      simp [mono, exponents, monomial, Fin.prod_univ_succ, pow_two]

theorem hasDerivAt_monomial {dim : Nat} (e : Fin dim → Nat) (p : Fin dim → ℝ) (k : Fin dim) :
    HasDerivAt (fun t => monomial e (Function.update p k t))
      (e k * p k ^ (e k - 1) * ∏ i, if i = k then 1 else p i ^ e i) (p k) := by
  have h : (fun t => monomial e (Function.update p k t)) = fun t => t ^ e k * ∏ i, if i = k then 1 else p i ^ e i := by
    funext t
    unfold monomial
    rw [← Finset.mul_prod_erase Finset.univ (fun i => Function.update p k t i ^ e i) (Finset.mem_univ k),
      ← Finset.mul_prod_erase Finset.univ (fun i => if i = k then 1 else p i ^ e i) (Finset.mem_univ k)]
    simp only [Function.update_self, if_true, one_mul]
    congr 1
    apply Finset.prod_congr rfl
    intro i hi
    have hik : i ≠ k := (Finset.mem_erase.1 hi).1
    rw [Function.update_of_ne hik, if_neg hik]
  rw [h]
  have := (hasDerivAt_pow (e k) (p k)).mul_const (∏ i, if i = k then 1 else p i ^ e i)
  simpa using this

/-- C43: the gradient rows are the partial derivatives of the monomials: entry `j` of the row of axis `k` is the derivative
of the `j`-th monomial in direction `k`. -/
theorem C43_gradient_rows (dim deg : Nat) (hd : 1 ≤ dim ∧ dim ≤ 3) (hg : deg ≤ 2) (p : Fin dim → ℝ) :
    ∃ G, monoGrad dim deg p = .ok G ∧ G.length = dim ∧ (∀ r ∈ G, r.length = basisSize dim deg) ∧
      ∀ (k : Fin dim) (j : Nat) (hj : j < (exponents dim deg).length),
        HasDerivAt (fun t => monomial ((exponents dim deg)[j]) (Function.update p k t))
          ((G.getD k []).getD j 0) (p k) := by
  have key : ∃ G, monoGrad dim deg p = .ok G ∧ G.length = dim ∧ (∀ r ∈ G, r.length = basisSize dim deg) ∧
      ∀ (k : Fin dim), G.getD k [] = (exponents dim deg).map
        (fun e => e k * p k ^ (e k - 1) * ∏ i, if i = k then 1 else p i ^ e i) := by
    obtain ⟨h1, h3⟩ := hd
    interval_cases dim <;> interval_cases deg <;>
      · refine ⟨_, rfl, rfl, ?_, ?_⟩
        · intro r hr
          simp only [List.mem_cons, List.not_mem_nil, or_false] at hr
          rcases hr with rfl | rfl | rfl <;> (simp only [List.length_cons, List.length_nil]; decide)
        · intro k
          fin_cases k <;> simp [exponents, Fin.prod_univ_succ]
  obtain ⟨G, h1, h2, h3, h4⟩ := key
  refine ⟨G, h1, h2, h3, ?_⟩
  intro k j hj
  have := hasDerivAt_monomial ((exponents dim deg)[j]) p k
  rw [h4 k]
  simpa [hj] using this

theorem traverse_eq_ok_map {f : α → Outcome β} {xs : List α} {ys : List β} (h : Outcome.traverse f xs = .ok ys) :
    List.Forall₂ (fun x y => f x = .ok y) xs ys := by
  induction xs generalizing ys with
  | nil => simp only [Outcome.traverse] at h; cases h; exact .nil
  | cons x xs ih =>
      simp only [Outcome.traverse] at h
      obtain ⟨y, hy, h⟩ := Outcome.bind_eq_ok.1 h
      obtain ⟨zs, hz, h⟩ := Outcome.bind_eq_ok.1 h
      cases h
      exact .cons hy (ih hz)

/-- The gradient rows of a point as derivatives, with the existence theorem unpacked. -/
noncomputable def gradRows (dim deg : Nat) (p : Fin dim → ℝ) : List (List ℝ) :=
  match monoGrad dim deg p with
  | .ok G => G
  | _ => []

theorem monoGrad_eq {dim deg : Nat} (hd : 1 ≤ dim ∧ dim ≤ 3) (hg : deg ≤ 2) (p : Fin dim → ℝ) :
    monoGrad dim deg p = .ok (gradRows dim deg p) ∧ (gradRows dim deg p).length = dim := by
  obtain ⟨G, h1, h2, -⟩ := C43_gradient_rows dim deg hd hg p
  unfold gradRows
  rw [h1]
  exact ⟨rfl, h2⟩

theorem evaluate_eq {dim deg : Nat} (hd : 1 ≤ dim ∧ dim ≤ 3) (hg : deg ≤ 2) (points grads : List (Fin dim → ℝ)) :
    evaluate dim deg points grads = .ok (points.map (fun p => (exponents dim deg).map (fun e => monomial e p)) ++
      (grads.map (gradRows dim deg)).flatten) := by
  unfold evaluate
  rw [Outcome.traverse_ok (g := fun p => (exponents dim deg).map (fun e => monomial e p))
    (fun p _ => (C43_basis_complete dim deg hd hg).2.2.2 p), Outcome.ok_bind,
    Outcome.traverse_ok (g := gradRows dim deg) (fun p _ => (monoGrad_eq hd hg p).1), Outcome.ok_bind]
  rfl

theorem getElem_flatten_const {d : Nat} : ∀ (L : List (List α)), (∀ l ∈ L, l.length = d) → ∀ (i k : Nat),
    i < L.length → k < d → (L.flatten)[d * i + k]? = (L[i]?).bind (fun l => l[k]?)
  | [], _, i, k, hi, _ => by simp at hi
  | l :: L, h, i, k, hi, hk => by
      have hl := h l (by simp)
      cases i with
      | zero => simp [List.getElem?_append_left (show k < l.length by omega)]
      | succ i =>
          simp only [List.flatten_cons, List.getElem?_cons_succ]
          rw [List.getElem?_append_right (by rw [hl]; nlinarith), hl,
            show d * (i + 1) + k - d = d * i + k by rw [Nat.mul_succ]; omega]
          exact getElem_flatten_const L (fun m hm => h m (by simp [hm])) i k (by simpa using hi) hk

/-- C43: the layout of the matrix: row `i < mu` has the monomials at the `i`-th point; row `mu + dim * i + k` has their
derivatives along axis `k` at the `i`-th gradient point; there are no other rows. -/
theorem C43_matrix_layout {dim deg : Nat} (hd : 1 ≤ dim ∧ dim ≤ 3) (hg : deg ≤ 2) (points grads : List (Fin dim → ℝ)) :
    ∃ M, evaluate dim deg points grads = .ok M ∧ M.length = points.length + dim * grads.length ∧
      (∀ (i : Nat) (hi : i < points.length), M[i]? = some ((exponents dim deg).map (fun e => monomial e points[i]))) ∧
      (∀ (i : Nat) (hi : i < grads.length) (k : Fin dim), ∃ r, M[points.length + dim * i + k.val]? = some r ∧
        r.length = basisSize dim deg ∧
        ∀ (j : Nat) (hj : j < (exponents dim deg).length),
          HasDerivAt (fun t => monomial ((exponents dim deg)[j]) (Function.update grads[i] k t))
            (r.getD j 0) (grads[i] k)) := by
  refine ⟨_, evaluate_eq hd hg points grads, ?_, ?_, ?_⟩
  · have : ((grads.map (gradRows dim deg)).flatten).length = dim * grads.length := by
      induction grads with
      | nil => simp
      | cons p grads ih => simp [(monoGrad_eq hd hg p).2] at ih ⊢; rw [ih]; ring
    rw [List.length_append, this]; simp
  · intro i hi
    rw [List.getElem?_append_left (by simpa using hi)]
    simp [hi]
  · intro i hi k
    obtain ⟨G, h1, h2, h3, h4⟩ := C43_gradient_rows dim deg hd hg grads[i]
    have hG : gradRows dim deg grads[i] = G := by unfold gradRows; rw [h1]
    have hk : k.val < G.length := by rw [h2]; exact k.isLt
    refine ⟨G.getD k [], ?_, ?_, h4 k⟩
    · rw [List.getElem?_append_right (by simp; omega)]
      rw [List.length_map, show points.length + dim * i + k.val - points.length = dim * i + k.val by omega]
      rw [getElem_flatten_const _ (by intro l hl; obtain ⟨p, -, rfl⟩ := List.mem_map.1 hl; exact (monoGrad_eq hd hg p).2)
        i k.val (by simpa using hi) k.isLt]
      simp [hi, hG, hk]
    · have : G.getD k [] = G[k.val]'hk := by simp [hk]
      rw [this]
      exact h3 _ (List.getElem_mem hk)

/-- The quadratic basis in the plane: six monomials. -/
example : exponents 2 2 = [![0, 0], ![1, 0], ![0, 1], ![2, 0], ![1, 1], ![0, 2]] ∧ basisSize 2 2 = 6 := by
  constructor
  · rfl
  · decide

/-! ## Lagrange bases -/

/-- The functionals of a point set with gradient data, applied to the polynomial with coefficients `c` with respect to the
monomials: first its values, then its partial derivatives. -/
noncomputable def dataOf {dim : Nat} (deg : Nat) (points grads : List (Fin dim → ℝ))
    (c : Fin (basisSize dim deg) → ℝ) : List ℝ :=
  match evaluate dim deg points grads with
  | .ok M => M.map (fun r => ∑ j, r.getD j.val 0 * c j)
  | _ => []

theorem toMatrix_mulVec (rows : List (List ℝ)) (n : Nat) (c : Fin n → ℝ) (i : Fin rows.length) :
    (toMatrix rows n *ᵥ c) i = ∑ j, (rows[i.val]).getD j.val 0 * c j := by
  simp [toMatrix, Matrix.mulVec, dotProduct]

/-- C44: a Lagrange basis is cardinal: the functionals it was built from, applied to it, give the identity; and it
reproduces every polynomial of the degree from the data of the polynomial at its points, at every other point set. -/
theorem C44_cardinal_and_reproducing {dim deg : Nat} (hd : 1 ≤ dim ∧ dim ≤ 3) (hg : deg ≤ 2)
    {points grads : List (Fin dim → ℝ)} {b : Lagrange} (hb : Lagrange.new dim deg points grads = .ok b) :
    ∃ (C : Matrix (Fin (basisSize dim deg)) (Fin (basisSize dim deg)) ℝ), b = ⟨dim, deg, C⟩ ∧
      (∃ M, (⟨dim, deg, C⟩ : Lagrange).evaluate points grads = .ok ⟨basisSize dim deg, M⟩ ∧ M = 1) ∧
      ∀ (pts gs : List (Fin dim → ℝ)) (c : Fin (basisSize dim deg) → ℝ),
        ∃ n M, (⟨dim, deg, C⟩ : Lagrange).evaluate pts gs = .ok ⟨n, M⟩ ∧
          List.ofFn (M *ᵥ (fun i => (dataOf deg points grads c).getD i.val 0)) = dataOf deg pts gs c := by
  unfold Lagrange.new at hb
  rw [evaluate_eq hd hg] at hb
  simp only [Outcome.ok_bind] at hb
  set P := points.map (fun p => (exponents dim deg).map (fun e => monomial e p)) ++
      (grads.map (gradRows dim deg)).flatten with hP
  split at hb
  case isFalse => cases hb
  rename_i hlen
  split at hb
  case isFalse => cases hb
  rename_i hunit
  set m := (toMatrix P (basisSize dim deg)).submatrix (Fin.cast hlen.symm) id with hm
  cases hb
  refine ⟨m⁻¹, rfl, ?_, ?_⟩
  · refine ⟨m * m⁻¹, ?_, Matrix.mul_nonsing_inv m hunit⟩
    unfold Lagrange.evaluate
    dsimp only
    rw [evaluate_eq hd hg]
    simp only [Outcome.ok_bind, Outcome.pure_eq]
    rw [← hP]
    congr 1
    have : ∀ (n : Nat) (h : P.length = n) (X : Matrix (Fin P.length) (Fin (basisSize dim deg)) ℝ),
        (⟨P.length, X⟩ : (n : Nat) × Matrix (Fin n) (Fin (basisSize dim deg)) ℝ) =
          ⟨n, X.submatrix (Fin.cast h.symm) id⟩ := by
      intro n h X; subst h; rfl
    rw [this _ hlen]
    rfl
  · intro pts gs c
    refine ⟨_, (toMatrix (pts.map (fun p => (exponents dim deg).map (fun e => monomial e p)) ++
        (gs.map (gradRows dim deg)).flatten) (basisSize dim deg)) * m⁻¹, ?_, ?_⟩
    · unfold Lagrange.evaluate
      dsimp only
      rw [evaluate_eq hd hg]
      rfl
    · have hdata : (fun i : Fin (basisSize dim deg) => (dataOf deg points grads c).getD i.val 0) = m *ᵥ c := by
        funext i
        unfold dataOf
        rw [evaluate_eq hd hg]
        have hi : i.val < P.length := by rw [hlen]; exact i.isLt
        have : (m *ᵥ c) i = (toMatrix P (basisSize dim deg) *ᵥ c) (Fin.cast hlen.symm i) := rfl
        rw [this, toMatrix_mulVec]
        simp only [← hP]
        simp [hi]
      rw [hdata, Matrix.mulVec_mulVec, Matrix.mul_assoc, Matrix.nonsing_inv_mul m hunit, Matrix.mul_one]
      unfold dataOf
      rw [evaluate_eq hd hg]
      apply List.ext_getElem
      · simp only [List.length_ofFn, List.length_map]
      · intro i h1 h2
        simp only [List.getElem_ofFn, toMatrix_mulVec, List.getElem_map]

/-- C44: construction throws exactly when the data points do not determine a polynomial: wrong number of them, or some
polynomial other than 0 has all-zero data. -/
theorem C44_throws_iff_not_unisolvent {dim deg : Nat} (hd : 1 ≤ dim ∧ dim ≤ 3) (hg : deg ≤ 2)
    (points grads : List (Fin dim → ℝ)) :
    (Lagrange.new dim deg points grads = .throws .invalidArgument ↔
      points.length + dim * grads.length ≠ basisSize dim deg ∨
      ∃ c : Fin (basisSize dim deg) → ℝ, c ≠ 0 ∧ ∀ x ∈ dataOf deg points grads c, x = 0) ∧
    (Lagrange.new dim deg points grads = .throws .invalidArgument ∨ ∃ b, Lagrange.new dim deg points grads = .ok b) := by
  obtain ⟨M, hM, hlen, -, -⟩ := C43_matrix_layout hd hg points grads
  unfold Lagrange.new dataOf
  rw [hM]
  simp only [Outcome.ok_bind]
  rw [← hlen]
  by_cases h : M.length = basisSize dim deg
  · rw [dif_pos h]
    set m := (toMatrix M (basisSize dim deg)).submatrix (Fin.cast h.symm) id with hm
    have hmul : ∀ c, (m *ᵥ c = 0) ↔ ∀ x ∈ M.map (fun r => ∑ j, r.getD j.val 0 * c j), x = 0 := by
      intro c
      constructor
      · intro h0 x hx
        obtain ⟨r, hr, rfl⟩ := List.mem_map.1 hx
        obtain ⟨i, hi, rfl⟩ := List.getElem_of_mem hr
        have := congrFun h0 ⟨i, by rw [← h]; exact hi⟩
        have e : (m *ᵥ c) ⟨i, by rw [← h]; exact hi⟩ = (toMatrix M (basisSize dim deg) *ᵥ c) ⟨i, hi⟩ := rfl
        rw [e, toMatrix_mulVec] at this
        exact this
      · intro h0
        funext i
        have e : (m *ᵥ c) i = (toMatrix M (basisSize dim deg) *ᵥ c) (Fin.cast h.symm i) := rfl
        rw [e, toMatrix_mulVec]
        exact h0 _ (List.mem_map.2 ⟨_, List.getElem_mem _, rfl⟩)
    by_cases hu : IsUnit m.det
    · rw [if_pos hu]
      refine ⟨⟨fun hc => (by cases hc), ?_⟩, Or.inr ⟨_, rfl⟩⟩
      rintro (hc | ⟨c, hc, h0⟩)
      · exact absurd h hc
      · exact absurd (Matrix.eq_zero_of_mulVec_eq_zero hu.ne_zero ((hmul c).2 h0)) hc
    · rw [if_neg hu]
      refine ⟨⟨fun _ => Or.inr ?_, fun _ => rfl⟩, Or.inl rfl⟩
      have hdet : m.det = 0 := by
        by_contra hne; exact hu (isUnit_iff_ne_zero.2 hne)
      obtain ⟨c, hc, h0⟩ := Matrix.exists_mulVec_eq_zero_iff.2 hdet
      exact ⟨c, hc, (hmul c).1 h0⟩
  · rw [dif_neg h]
    exact ⟨⟨fun _ => Or.inl h, fun _ => rfl⟩, Or.inl rfl⟩

/-- Two different points on a line determine a linear polynomial, and so does one point with a derivative; a point given
twice does not. -/
example : (∃ b, Lagrange.new 1 1 [![0], ![1]] [] = .ok b) ∧ (∃ b, Lagrange.new 1 1 [![2]] [![2]] = .ok b) ∧
    Lagrange.new 1 1 [![2], ![2]] [] = .throws .invalidArgument := by
  have hmap : ∀ (c : Fin 2 → ℝ) (M : List (List ℝ)), M.map (fun r => ∑ j : Fin (basisSize 1 1), r.getD j.val 0 * c j) =
      M.map (fun r => r.getD 0 0 * c 0 + r.getD 1 0 * c 1) := by
    intro c M
    apply List.map_congr_left
    intro r _
    exact Fin.sum_univ_two (fun j : Fin 2 => r.getD j.val 0 * c j)
  refine ⟨?_, ?_, ?_⟩
  · have h := C44_throws_iff_not_unisolvent (dim := 1) (deg := 1) (by omega) (by omega) [![0], ![1]] []
    refine h.2.resolve_left (fun ht => ?_)
    rcases h.1.1 ht with hl | ⟨c, hc, h0⟩
    · exact hl (by decide)
    · apply hc
      revert c
      change ∀ c : Fin 2 → ℝ, _
      intro c hc h0
      have e : dataOf (dim := 1) 1 [![0], ![1]] [] c = [c 0, c 0 + c 1] := by
        refine (hmap c [[1, (![0] : Fin 1 → ℝ) 0], [1, (![1] : Fin 1 → ℝ) 0]]).trans ?_
        simp
      rw [e] at h0
      have h1 : c 0 = 0 := h0 _ (by simp)
      have h2 : c 0 + c 1 = 0 := h0 _ (by simp)
      funext i
      change Fin 2 at i
      fin_cases i
      · exact h1
      · change c 1 = 0; rw [h1] at h2; simpa using h2
  · have h := C44_throws_iff_not_unisolvent (dim := 1) (deg := 1) (by omega) (by omega) [![2]] [![2]]
    refine h.2.resolve_left (fun ht => ?_)
    rcases h.1.1 ht with hl | ⟨c, hc, h0⟩
    · exact hl (by decide)
    · apply hc
      revert c
      change ∀ c : Fin 2 → ℝ, _
      intro c hc h0
      have e : dataOf (dim := 1) 1 [![2]] [![2]] c = [c 0 + 2 * c 1, c 1] := by
        refine (hmap c [[1, (![2] : Fin 1 → ℝ) 0], [0, 1]]).trans ?_
        simp
      rw [e] at h0
      have h1 : c 0 + 2 * c 1 = 0 := h0 _ (by simp)
      have h2 : c 1 = 0 := h0 _ (by simp)
      funext i
      change Fin 2 at i
      fin_cases i
      · change c 0 = 0; rw [h2] at h1; simpa using h1
      · exact h2
  · refine (C44_throws_iff_not_unisolvent (dim := 1) (deg := 1) (by omega) (by omega) [![2], ![2]] []).1.2 (Or.inr ?_)
    refine ⟨(![2, -1] : Fin 2 → ℝ), ?_, ?_⟩
    · intro h
      have := congrFun h (0 : Fin 2)
      change (2 : ℝ) = 0 at this
      norm_num at this
    · have e : ∀ c : Fin 2 → ℝ, dataOf (dim := 1) 1 [![2], ![2]] [] c = [c 0 + 2 * c 1, c 0 + 2 * c 1] := by
        intro c
        refine (hmap c [[1, (![2] : Fin 1 → ℝ) 0], [1, (![2] : Fin 1 → ℝ) 0]]).trans ?_
        simp
      intro x hx
      have hx' := hx
      rw [e (![2, -1] : Fin 2 → ℝ)] at hx'
      simp at hx'
      exact hx'

/-! ## Detrending -/

/-- The contract of `ldlt().solve` in exact arithmetic: it solves every system that has a solution. -/
def Solves (solve : {n : Nat} → Matrix (Fin n) (Fin n) ℝ → (Fin n → ℝ) → (Fin n → ℝ)) : Prop :=
  ∀ {n : Nat} (A : Matrix (Fin n) (Fin n) ℝ) (b : Fin n → ℝ), (∃ x, A *ᵥ x = b) → A *ᵥ solve A b = b

theorem normal_equations_consistent {m n : Nat} (p : Matrix (Fin m) (Fin n) ℝ) (v : Fin m → ℝ) :
    ∃ x, (p.transpose * p) *ᵥ x = p.transpose *ᵥ v := by
  have hle : LinearMap.range (p.transpose * p).mulVecLin ≤ LinearMap.range p.transpose.mulVecLin := by
    rintro _ ⟨x, rfl⟩
    exact ⟨p *ᵥ x, by simp⟩
  have hrank : (p.transpose * p).rank = p.transpose.rank := by
    rw [Matrix.rank_transpose_mul_self, Matrix.rank_transpose]
  have heq := Submodule.eq_of_le_of_finrank_eq hle hrank
  have : p.transpose *ᵥ v ∈ LinearMap.range p.transpose.mulVecLin := ⟨v, rfl⟩
  rw [← heq] at this
  obtain ⟨x, hx⟩ := this
  exact ⟨x, hx⟩

theorem mulVec_eq_of_normal {m n : Nat} (p : Matrix (Fin m) (Fin n) ℝ) {x : Fin n → ℝ}
    (h : (p.transpose * p) *ᵥ x = 0) : p *ᵥ x = 0 := by
  have h2 : (p *ᵥ x) ⬝ᵥ (p *ᵥ x) = 0 := by
    have : x ⬝ᵥ ((p.transpose * p) *ᵥ x) = (p *ᵥ x) ⬝ᵥ (p *ᵥ x) := by
      rw [← Matrix.mulVec_mulVec, Matrix.dotProduct_mulVec, Matrix.vecMul_transpose]
    rw [← this, h]; simp
  exact dotProduct_self_eq_zero.1 h2

/-- The values of the polynomial with coefficients `c` at the points. -/
noncomputable def polyValues {dim : Nat} (deg : Nat) (points : List (Fin dim → ℝ)) (c : List ℝ) :
    Fin points.length → ℝ :=
  fun i => ((exponents dim deg).zip c).foldl (fun s ec => s + ec.2 * monomial ec.1 points[i]) 0

theorem foldl_zip_sum {α : Type} (E : List α) (f : α → ℝ) : ∀ (c : List ℝ) (s : ℝ), c.length = E.length →
    (E.zip c).foldl (fun s ec => s + ec.2 * f ec.1) s = s + ∑ j : Fin E.length, f E[j] * c.getD j.val 0 := by
  induction E with
  | nil => intro c s _; simp
  | cons e E ih =>
      intro c s hc
      cases c with
      | nil => simp at hc
      | cons a c =>
          simp only [List.zip_cons_cons, List.foldl_cons]
          rw [ih c _ (by simpa using hc)]
          simp only [List.length_cons]
          rw [Fin.sum_univ_succ]
          simp
          ring

theorem detrend_spec {dim : Nat} (hd : 1 ≤ dim ∧ dim ≤ 3) (solve : {n : Nat} → Matrix (Fin n) (Fin n) ℝ → (Fin n → ℝ) → (Fin n → ℝ))
    (points : List (Fin dim → ℝ)) (values : Fin points.length → ℝ) {deg : Nat} (hg : deg ≤ 2) :
    ∃ p : Matrix (Fin points.length) (Fin (basisSize dim deg)) ℝ,
      detrend dim solve points values deg = .ok (values - p *ᵥ solve (p.transpose * p) (p.transpose *ᵥ values)) ∧
      (∀ c : List ℝ, c.length = basisSize dim deg → polyValues deg points c = p *ᵥ (fun j => c.getD j.val 0)) ∧
      ∀ (values' : Fin points.length → ℝ),
        detrend dim solve points values' deg = .ok (values' - p *ᵥ solve (p.transpose * p) (p.transpose *ᵥ values')) := by
  have hev := evaluate_eq hd hg points []
  simp only [List.map_nil, List.flatten_nil, List.append_nil] at hev
  have hlen : (points.map (fun p => (exponents dim deg).map (fun e => monomial e p))).length = points.length := by simp
  set p := (toMatrix (points.map (fun p => (exponents dim deg).map (fun e => monomial e p))) (basisSize dim deg)).submatrix
    (Fin.cast hlen.symm) id with hp
  have hdet : ∀ (v : Fin points.length → ℝ),
      detrend dim solve points v deg = .ok (v - p *ᵥ solve (p.transpose * p) (p.transpose *ᵥ v)) := by
    intro v
    unfold detrend
    rw [if_neg (by omega)]
    simp only [Int.toNat_natCast, hev]
    rw [dif_pos hlen]
  refine ⟨p, hdet values, ?_, hdet⟩
  intro c hc
  funext i
  have hE := (C43_basis_complete dim deg hd hg).2.1
  unfold polyValues
  rw [foldl_zip_sum _ (fun e => monomial e points[i]) _ _ (hc.trans hE.symm), zero_add]
  have : (p *ᵥ fun j => c.getD j.val 0) i =
      ∑ j : Fin (basisSize dim deg), ((exponents dim deg).map (fun e => monomial e points[i])).getD j.val 0 * c.getD j.val 0 := by
    simp [hp, toMatrix, Matrix.mulVec, dotProduct]
  rw [this, ← hE]
  apply Finset.sum_congr rfl
  intro j _
  simp

/-- C32: a degree outside 0..2 is rejected. -/
theorem C32_degree_is_checked {dim : Nat} (solve : {n : Nat} → Matrix (Fin n) (Fin n) ℝ → (Fin n → ℝ) → (Fin n → ℝ))
    (points : List (Fin dim → ℝ)) (values : Fin points.length → ℝ) {degree : Int} (h : degree < 0 ∨ degree > 2) :
    detrend dim solve points values degree = .throws .invalidArgument := by
  unfold detrend; rw [if_pos h]

/-- C32: the result differs from the data by a polynomial of the degree and is orthogonal to all of them at the points;
this holds also when the points do not determine the polynomial. -/
theorem C32_residual_is_orthogonal {dim : Nat} (hd : 1 ≤ dim ∧ dim ≤ 3)
    {solve : {n : Nat} → Matrix (Fin n) (Fin n) ℝ → (Fin n → ℝ) → (Fin n → ℝ)} (hs : Solves solve)
    (points : List (Fin dim → ℝ)) (values : Fin points.length → ℝ) {deg : Nat} (hg : deg ≤ 2) :
    ∃ r, detrend dim solve points values deg = .ok r ∧
      (∃ c : List ℝ, c.length = basisSize dim deg ∧ values = r + polyValues deg points c) ∧
      ∀ c : List ℝ, c.length = basisSize dim deg → ∑ i, r i * polyValues deg points c i = 0 := by
  obtain ⟨p, h1, h2, -⟩ := detrend_spec hd solve points values hg
  have hsol := hs _ _ (normal_equations_consistent p values)
  refine ⟨_, h1, ?_, ?_⟩
  · refine ⟨List.ofFn (solve (p.transpose * p) (p.transpose *ᵥ values)), by simp, ?_⟩
    rw [h2 _ (by simp)]
    simp
  · intro c hc
    rw [h2 c hc]
    have : p.transpose *ᵥ (values - p *ᵥ solve (p.transpose * p) (p.transpose *ᵥ values)) = 0 := by
      rw [Matrix.mulVec_sub, Matrix.mulVec_mulVec, hsol, sub_self]
    change (values - p *ᵥ solve (p.transpose * p) (p.transpose *ᵥ values)) ⬝ᵥ (p *ᵥ fun j => c.getD j.val 0) = 0
    rw [Matrix.dotProduct_mulVec, ← Matrix.mulVec_transpose, this, zero_dotProduct]

/-- C32: adding a polynomial of the degree to the data does not change the result, and detrending a result again changes
nothing. -/
theorem C32_projection {dim : Nat} (hd : 1 ≤ dim ∧ dim ≤ 3)
    {solve : {n : Nat} → Matrix (Fin n) (Fin n) ℝ → (Fin n → ℝ) → (Fin n → ℝ)} (hs : Solves solve)
    (points : List (Fin dim → ℝ)) (values : Fin points.length → ℝ) {deg : Nat} (hg : deg ≤ 2) :
    (∀ c : List ℝ, c.length = basisSize dim deg →
      detrend dim solve points (values + polyValues deg points c) deg = detrend dim solve points values deg) ∧
    ∀ r, detrend dim solve points values deg = .ok r → detrend dim solve points r deg = .ok r := by
  obtain ⟨p, h1, h2, h3⟩ := detrend_spec hd solve points values hg
  have hsol : ∀ v, (p.transpose * p) *ᵥ solve (p.transpose * p) (p.transpose *ᵥ v) = p.transpose *ᵥ v :=
    fun v => hs _ _ (normal_equations_consistent p v)
  constructor
  · intro c hc
    rw [h3, h1, h2 c hc]
    congr 1
    set x := fun j : Fin (basisSize dim deg) => c.getD j.val 0
    have key : p *ᵥ (solve (p.transpose * p) (p.transpose *ᵥ (values + p *ᵥ x)) -
        solve (p.transpose * p) (p.transpose *ᵥ values) - x) = 0 := by
      apply mulVec_eq_of_normal
      rw [Matrix.mulVec_sub, Matrix.mulVec_sub, hsol, hsol, Matrix.mulVec_add, Matrix.mulVec_mulVec]
      simp
    rw [Matrix.mulVec_sub, Matrix.mulVec_sub] at key
    have := sub_eq_zero.1 key
    generalize p *ᵥ solve (p.transpose * p) (p.transpose *ᵥ (values + p *ᵥ x)) = y at this ⊢
    rw [← this]
    abel
  · intro r hr
    rw [h1] at hr
    cases hr
    rw [h3]
    congr 1
    have key : p *ᵥ solve (p.transpose * p) (p.transpose *ᵥ (values - p *ᵥ solve (p.transpose * p) (p.transpose *ᵥ values))) = 0 := by
      apply mulVec_eq_of_normal
      rw [hsol, Matrix.mulVec_sub, Matrix.mulVec_mulVec, hsol, sub_self]
    rw [key, sub_zero]

open Classical in
/-- A solver as the theorems assume exists. -/
noncomputable def demoSolve {n : Nat} (A : Matrix (Fin n) (Fin n) ℝ) (b : Fin n → ℝ) : Fin n → ℝ :=
  if h : ∃ x, A *ᵥ x = b then h.choose else 0

theorem demoSolve_solves : Solves demoSolve := by
  intro n A b h
  unfold demoSolve
  dsimp only
  rw [dif_pos h]
  exact h.choose_spec

/-- Removing the mean of (1, 3): (-1, 1). -/
example : detrend 1 demoSolve [![0], ![5]] ![1, 3] 0 = .ok ![-1, 1] := by
  obtain ⟨r, h1, ⟨c, hc, h2⟩, h3⟩ := C32_residual_is_orthogonal (dim := 1) (by omega) demoSolve_solves [![0], ![5]] ![1, 3]
    (deg := 0) (by omega)
  have h1' : detrend 1 demoSolve [![0], ![5]] ![1, 3] 0 = .ok r := h1
  rw [h1']
  congr 1
  have hc1 : c.length = 1 := hc
  obtain ⟨a, rfl⟩ : ∃ a, c = [a] := by
    match c, hc1 with
    | [a], _ => exact ⟨a, rfl⟩
  have hpv : ∀ a : ℝ, ∀ i, polyValues 0 ([![0], ![5]] : List (Fin 1 → ℝ)) [a] i = a := by
    intro a i; simp [polyValues, exponents, monomial]
  have h4 := h3 [1] rfl
  have e0 := congrFun h2 (0 : Fin 2)
  have e1 := congrFun h2 (1 : Fin 2)
  simp only [Pi.add_apply, hpv] at e0 e1 h4
  have h5 : r (0 : Fin 2) * 1 + r (1 : Fin 2) * 1 = 0 := (Fin.sum_univ_two (fun i : Fin 2 => r i * 1)).symm.trans h4
  change (1 : ℝ) = r (0 : Fin 2) + a at e0
  change (3 : ℝ) = r (1 : Fin 2) + a at e1
  funext i
  change Fin 2 at i
  fin_cases i
  · change r (0 : Fin 2) = -1; linarith
  · change r (1 : Fin 2) = 1; linarith

end Verif.Poly
