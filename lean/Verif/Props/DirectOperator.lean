import Verif.Model.DirectOperator
import Mathlib.Tactic.Linarith
import Mathlib.Tactic.Ring
import Mathlib.Tactic.FieldSimp
import Mathlib.Algebra.Order.BigOperators.Group.Finset

/-! # C27 (operator, evaluator and matrix agree), C28 (accuracy budget) -/

namespace Verif.DirectOp

open BigOperators

variable {dim l mu sigma tmu tsigma : Nat}

/-- What the covariance functions of the library satisfy (C41, C42): the value is even, so the gradient is odd and the
Hessian even, and the Hessian is symmetric. -/
structure Rbf.Even (r : Rbf dim) : Prop where
  value : ∀ v, r.value (-v) = r.value v
  gradient : ∀ v k, r.gradient (-v) k = -r.gradient v k
  hessian : ∀ v k t, r.hessian (-v) k t = r.hessian v k t
  symm : ∀ v k t, r.hessian v k t = r.hessian v t k

/-- C27: the operator applied to weights is the evaluator of the same weights at the same points, plus the nugget times the
weights of the value points. -/
theorem C27_operator_is_evaluator_plus_nugget (m : Model dim l) (p : Pts dim mu sigma) (x : Weights dim mu sigma l) :
    (∀ i, (op m p x).w i = evalValue m p p x i + m.nugget * x.w i) ∧
    (∀ i k, (op m p x).gw i k = evalGradient m p p x i k) := by
  constructor
  · intro i; simp only [op, opValue, evalValue]; ring
  · intro i k; rfl

/-- entry of the weights for a row -/
def Weights.entry (x : Weights dim mu sigma l) : Row dim mu sigma → ℝ
  | .inl i => x.w i
  | .inr (i, k) => x.gw i k

theorem rowNo_inl_lt_inr (i : Fin mu) (j : Fin sigma) (k : Fin dim) :
    rowNo (.inl i : Row dim mu sigma) < rowNo (.inr (j, k) : Row dim mu sigma) := by
  simp only [rowNo]; have := i.2; omega

theorem rowNo_inr_lt {i j : Fin sigma} (h : i < j) (k t : Fin dim) :
    rowNo (.inr (i, k) : Row dim mu sigma) < rowNo (.inr (j, t) : Row dim mu sigma) := by
  simp only [rowNo]
  have h1 : dim * (i.val + 1) ≤ dim * j.val := Nat.mul_le_mul_left dim h
  have h2 : dim * (i.val + 1) = dim * i.val + dim := by ring
  have := k.2
  omega

/-- The four blocks of the assembled matrix, without reference to the triangle they were computed in. -/
theorem matA_entries (m : Model dim l) (hm : ∀ r ∈ m.rbfs, r.Even) (p : Pts dim mu sigma) :
    (∀ i j, matA m p (.inl i) (.inl j) =
      (if i = j then m.nugget else 0) + (m.rbfs.map (fun rbf => rbf.value (p.pts i - p.pts j))).sum) ∧
    (∀ i j k, matA m p (.inl i) (.inr (j, k)) = (m.rbfs.map (fun rbf => -(rbf.gradient (p.pts i - p.grads j) k))).sum) ∧
    (∀ i j k, matA m p (.inr (i, k)) (.inl j) = (m.rbfs.map (fun rbf => rbf.gradient (p.grads i - p.pts j) k)).sum) ∧
    (∀ i j k t, matA m p (.inr (i, k)) (.inr (j, t)) =
      (m.rbfs.map (fun rbf => -(rbf.hessian (p.grads i - p.grads j) t k))).sum) := by
  refine ⟨?_, ?_, ?_, ?_⟩
  · intro i j
    unfold matA
    rcases lt_trichotomy i j with h | h | h
    · have hr : ¬ rowNo (.inl j : Row dim mu sigma) < rowNo (.inl i : Row dim mu sigma) := by
        simp only [rowNo]; have : i.val < j.val := h; omega
      rw [if_neg hr]
      simp [upper, h, ne_of_lt h]
    · subst h
      rw [if_neg (lt_irrefl _)]
      simp [upper]
    · have hr : rowNo (.inl j : Row dim mu sigma) < rowNo (.inl i : Row dim mu sigma) := h
      rw [if_pos hr]
      simp only [upper, h, ne_of_lt h, (ne_of_lt h).symm, if_false, if_true, zero_add]
      congr 1
      apply List.map_congr_left
      intro r hrm
      rw [← (hm r hrm).value, neg_sub]
  · intro i j k
    unfold matA
    rw [if_neg (not_lt.2 (rowNo_inl_lt_inr i j k).le)]
    rfl
  · intro i j k
    unfold matA
    rw [if_pos (rowNo_inl_lt_inr j i k)]
    simp only [upper]
    congr 1
    apply List.map_congr_left
    intro r hrm
    rw [← (hm r hrm).gradient, neg_sub]
  · intro i j k t
    unfold matA
    rcases lt_trichotomy i j with h | h | h
    · rw [if_neg (not_lt.2 (rowNo_inr_lt h k t).le)]
      simp only [upper, h, ne_of_lt h, if_false, if_true]
      congr 1
      apply List.map_congr_left
      intro r hrm
      rw [(hm r hrm).symm]
    · subst h
      have : ∀ a b : Fin dim, upper m p (.inr (i, a)) (.inr (i, b)) = upper m p (.inr (i, b)) (.inr (i, a)) := by
        intro a b
        simp only [upper, if_true]
        congr 1
        apply List.map_congr_left
        intro r hrm
        rw [(hm r hrm).symm]
      rw [this t k, ite_self]
      simp only [upper, if_true, sub_self]
      congr 1
      apply List.map_congr_left
      intro r hrm
      rw [(hm r hrm).symm]
    · rw [if_pos (rowNo_inr_lt h t k)]
      simp only [upper, h, if_true, ne_of_lt h, if_false]
      congr 1
      apply List.map_congr_left
      intro r hrm
      rw [← (hm r hrm).hessian, neg_sub]

theorem sum_list_map_sum {ι : Type} [Fintype ι] {α : Type} (l : List α) (f : α → ι → ℝ) :
    (l.map (fun a => ∑ i, f a i)).sum = ∑ i, (l.map (fun a => f a i)).sum := by
  induction l with
  | nil => simp
  | cons a l ih => simp [ih, Finset.sum_add_distrib]

theorem list_sum_mul {α : Type} (l : List α) (f : α → ℝ) (c : ℝ) : (l.map f).sum * c = (l.map (fun a => f a * c)).sum := by
  induction l with
  | nil => simp
  | cons a l ih => simp [add_mul, ih]

theorem list_sum_add {α : Type} (l : List α) (f g : α → ℝ) :
    (l.map (fun a => f a + g a)).sum = (l.map f).sum + (l.map g).sum := by
  induction l with
  | nil => simp
  | cons a l ih => simp only [List.map_cons, List.sum_cons, ih]; ring

/-- C27: the matrix assembled by the preconditioner is the matrix of the operator: for weights without a polynomial part,
matrix times weights is what the operator returns, row by row. -/
theorem C27_matrix_is_operator (m : Model dim l) (hm : ∀ r ∈ m.rbfs, r.Even) (p : Pts dim mu sigma)
    (x : Weights dim mu sigma l) (hc : x.c = 0) (row : Row dim mu sigma) :
    ∑ col, matA m p row col * x.entry col = (op m p x).entry row := by
  obtain ⟨h1, h2, h3, h4⟩ := matA_entries m hm p
  have hpoly : ∀ f : Fin l → ℝ, ∑ t, f t * x.c t = 0 := by intro f; simp [hc]
  rw [Fintype.sum_sum_type, Fintype.sum_prod_type]
  cases row with
  | inl i =>
      simp only [Weights.entry, op, opValue, hpoly, add_zero, h1, h2, add_mul, Finset.sum_add_distrib, list_sum_add]
      rw [sum_list_map_sum, sum_list_map_sum]
      have e1 : ∑ j, (if i = j then m.nugget else 0) * x.w j = x.w i * m.nugget := by
        simp [ite_mul, mul_comm]
      rw [e1, add_assoc]
      congr 1
      congr 1
      · apply Finset.sum_congr rfl
        intro j _
        rw [list_sum_mul]
        congr 1
        apply List.map_congr_left
        intro r _; ring
      · apply Finset.sum_congr rfl
        intro j _
        rw [sum_list_map_sum]
        apply Finset.sum_congr rfl
        intro k _
        rw [list_sum_mul]
        congr 1
        apply List.map_congr_left
        intro r _; ring
  | inr ik =>
      obtain ⟨i, k⟩ := ik
      simp only [Weights.entry, op, opGradient, hpoly, add_zero, h3, h4, list_sum_add]
      rw [sum_list_map_sum, sum_list_map_sum]
      congr 1
      · apply Finset.sum_congr rfl
        intro j _
        rw [list_sum_mul]
        congr 1
        apply List.map_congr_left
        intro r _; ring
      · apply Finset.sum_congr rfl
        intro j _
        rw [sum_list_map_sum]
        apply Finset.sum_congr rfl
        intro t _
        rw [list_sum_mul]
        congr 1
        apply List.map_congr_left
        intro r _; ring

/-- C27: the assembled matrix is symmetric. -/
theorem C27_matrix_symmetric (m : Model dim l) (hm : ∀ r ∈ m.rbfs, r.Even) (p : Pts dim mu sigma)
    (x y : Row dim mu sigma) : matA m p x y = matA m p y x := by
  obtain ⟨h1, h2, h3, h4⟩ := matA_entries m hm p
  cases x with
  | inl i =>
      cases y with
      | inl j =>
          rw [h1, h1]
          congr 1
          · simp only [eq_comm]
          · congr 1
            apply List.map_congr_left
            intro r hr
            rw [← (hm r hr).value, neg_sub]
      | inr jk =>
          obtain ⟨j, k⟩ := jk
          rw [h2, h3]
          congr 1
          apply List.map_congr_left
          intro r hr
          rw [← (hm r hr).gradient, neg_sub]
  | inr ik =>
      obtain ⟨i, k⟩ := ik
      cases y with
      | inl j =>
          rw [h2, h3]
          congr 1
          apply List.map_congr_left
          intro r hr
          rw [← (hm r hr).gradient, neg_sub]
      | inr jt =>
          obtain ⟨j, t⟩ := jt
          rw [h4, h4]
          congr 1
          apply List.map_congr_left
          intro r hr
          rw [← (hm r hr).hessian, neg_sub, (hm r hr).symm]

/-- inner product of two vectors of the size of the operator -/
noncomputable def Weights.dot (x y : Weights dim mu sigma l) : ℝ :=
  ∑ i, x.w i * y.w i + ∑ i, ∑ k, x.gw i k * y.gw i k + ∑ t, x.c t * y.c t

/-- C27: the operator is symmetric, polynomial part included. -/
theorem C27_operator_symmetric (m : Model dim l) (hm : ∀ r ∈ m.rbfs, r.Even) (p : Pts dim mu sigma)
    (x y : Weights dim mu sigma l) : x.dot (op m p y) = (op m p x).dot y := by
  -- split off the polynomial part
  have hop : ∀ (z : Weights dim mu sigma l) (row : Row dim mu sigma), (op m p z).entry row =
      ∑ col, matA m p row col * z.entry col +
        ∑ t, (match row with | .inl i => m.polyValue (p.pts i) t | .inr (i, k) => m.polyGradient (p.grads i) k t) * z.c t := by
    intro z row
    have h := C27_matrix_is_operator m hm p ⟨z.w, z.gw, 0⟩ rfl row
    have he : ∀ col, (⟨z.w, z.gw, 0⟩ : Weights dim mu sigma l).entry col = z.entry col := by
      intro col; cases col <;> rfl
    simp only [he] at h
    rw [h]
    cases row with
    | inl i => simp [Weights.entry, op, opValue]
    | inr ik => simp [Weights.entry, op, opGradient]
  have hdot : ∀ a b : Weights dim mu sigma l, a.dot b = ∑ row, a.entry row * b.entry row + ∑ t, a.c t * b.c t := by
    intro a b
    rw [Fintype.sum_sum_type, Fintype.sum_prod_type]
    rfl
  have hpoly : ∀ (z : Weights dim mu sigma l) (t : Fin l), (op m p z).c t =
      ∑ row, (match row with | .inl i => m.polyValue (p.pts i) t | .inr (i, k) => m.polyGradient (p.grads i) k t) *
        z.entry row := by
    intro z t
    rw [Fintype.sum_sum_type, Fintype.sum_prod_type]
    rfl
  rw [hdot, hdot]
  simp only [hop, hpoly]
  have e1 : ∑ row, x.entry row * ∑ col, matA m p row col * y.entry col =
      ∑ row, (∑ col, matA m p row col * x.entry col) * y.entry row := by
    simp only [Finset.mul_sum, Finset.sum_mul]
    rw [Finset.sum_comm]
    apply Finset.sum_congr rfl
    intro a _
    apply Finset.sum_congr rfl
    intro b _
    rw [C27_matrix_symmetric m hm p b a]
    ring
  have e2 : ∀ a b : Weights dim mu sigma l,
      ∑ row : Row dim mu sigma, a.entry row * ∑ t, (match row with
        | .inl i => m.polyValue (p.pts i) t | .inr (i, k) => m.polyGradient (p.grads i) k t) * b.c t =
      ∑ t, (∑ row : Row dim mu sigma, (match row with
        | .inl i => m.polyValue (p.pts i) t | .inr (i, k) => m.polyGradient (p.grads i) k t) * a.entry row) * b.c t := by
    intro a b
    simp only [Finset.mul_sum, Finset.sum_mul]
    rw [Finset.sum_comm]
    apply Finset.sum_congr rfl
    intro t _
    apply Finset.sum_congr rfl
    intro row _
    ring
  simp only [mul_add, add_mul, Finset.sum_add_distrib]
  rw [e1, e2 x y]
  have e3 : ∀ a b : Weights dim mu sigma l,
      ∑ row : Row dim mu sigma, (∑ t, (match row with
        | .inl i => m.polyValue (p.pts i) t | .inr (i, k) => m.polyGradient (p.grads i) k t) * a.c t) * b.entry row =
      ∑ row : Row dim mu sigma, b.entry row * ∑ t, (match row with
        | .inl i => m.polyValue (p.pts i) t | .inr (i, k) => m.polyGradient (p.grads i) k t) * a.c t := by
    intro a b
    apply Finset.sum_congr rfl
    intro row _; ring
  rw [e3 x y, e2 y x]
  have e4 : ∑ t, x.c t * ∑ row : Row dim mu sigma, (match row with
        | .inl i => m.polyValue (p.pts i) t | .inr (i, k) => m.polyGradient (p.grads i) k t) * y.entry row =
      ∑ t, (∑ row : Row dim mu sigma, (match row with
        | .inl i => m.polyValue (p.pts i) t | .inr (i, k) => m.polyGradient (p.grads i) k t) * y.entry row) * x.c t := by
    apply Finset.sum_congr rfl
    intro t _; ring
  rw [e4]
  ring

/-- The hypotheses are met by `exp(-|v|^2)`-like data; here the quadratic `|v|^2` in two dimensions. -/
example : (⟨fun v => v 0 ^ 2 + v 1 ^ 2, fun v k => 2 * v k, fun _ k t => if k = t then 2 else 0⟩ : Rbf 2).Even where
  value := by intro v; simp
  gradient := by intro v k; simp
  hessian := by intro v k t; rfl
  symm := by intro v k t; simp only [eq_comm]

/-! ## C28 -/

theorem foldl_sumUp (l : List (ℝ × ℝ)) : ∀ y : ℝ, l.foldl (fun y c => y + c.1 + c.2) y = y + (l.map (fun c => c.1 + c.2)).sum := by
  induction l with
  | nil => intro y; simp
  | cons c l ih => intro y; rw [List.foldl_cons, ih]; simp; ring

/-- C28: let `exact` and `approx` be the contributions of each covariance function (from value points and from gradient
points) to an entry of the result, exactly and as the elementary evaluators return them.  If every elementary evaluator is
within the accuracy it was given, and gradient contributions are exact when there are no gradient points (there is nothing
to sum), the result is within the accuracy the caller asked for.  There is at least one covariance function. -/
theorem C28_accuracy_is_respected {accuracy : ℝ} {sigma : Nat} {exact approx : List (ℝ × ℝ)} (hne : exact ≠ [])
    (h : List.Forall₂ (fun e a => |a.1 - e.1| ≤ elementAccuracy accuracy sigma exact.length ∧
      |a.2 - e.2| ≤ (if sigma > 0 then elementAccuracy accuracy sigma exact.length else 0)) exact approx) :
    |sumUp approx - sumUp exact| ≤ accuracy := by
  have hn : (0 : ℝ) < exact.length := by exact_mod_cast List.length_pos_of_ne_nil hne
  set n := exact.length with hndef
  have key : ∀ (es as : List (ℝ × ℝ)), List.Forall₂ (fun e a => |a.1 - e.1| ≤ elementAccuracy accuracy sigma n ∧
      |a.2 - e.2| ≤ (if sigma > 0 then elementAccuracy accuracy sigma n else 0)) es as →
      |(as.map (fun c => c.1 + c.2)).sum - (es.map (fun c => c.1 + c.2)).sum| ≤ es.length * (accuracy / n) := by
    intro es as h
    induction h with
    | nil => simp
    | @cons e a es as hea _ ih =>
        obtain ⟨h1, h2⟩ := hea
        have h3 : |a.1 - e.1| + |a.2 - e.2| ≤ accuracy / n := by
          unfold elementAccuracy at h1 h2
          by_cases hs : sigma > 0
          · rw [if_pos hs] at h1 h2
            rw [if_pos hs] at h2
            have : accuracy / n = accuracy / 2 / n + accuracy / 2 / n := by ring
            linarith
          · rw [if_neg hs] at h1 h2
            linarith
        have h4 : ((a :: as).map (fun c => c.1 + c.2)).sum - ((e :: es).map (fun c => c.1 + c.2)).sum =
            (a.1 - e.1) + (a.2 - e.2) + ((as.map (fun c => c.1 + c.2)).sum - (es.map (fun c => c.1 + c.2)).sum) := by
          simp only [List.map_cons, List.sum_cons]; ring
        rw [h4]
        refine (abs_add_le _ _).trans ?_
        have h5 := abs_add_le (a.1 - e.1) (a.2 - e.2)
        simp only [List.length_cons, Nat.cast_add, Nat.cast_one, add_mul, one_mul]
        linarith
  have hk := key exact approx h
  rw [← hndef, mul_div_cancel₀ _ hn.ne'] at hk
  unfold sumUp
  rw [foldl_sumUp, foldl_sumUp]
  simpa using hk

/-- Two covariance functions with gradient data, accuracy 1: each of the four contributions may be off by 1/4. -/
example : elementAccuracy 1 3 2 = 1 / 4 ∧
    List.Forall₂ (fun e a : ℝ × ℝ => |a.1 - e.1| ≤ elementAccuracy 1 3 2 ∧
      |a.2 - e.2| ≤ (if 3 > 0 then elementAccuracy 1 3 2 else 0)) [(1, 2), (3, 4)] [(1 + 1 / 4, 2 + 1 / 4), (3 - 1 / 4, 4)] := by
  have h : elementAccuracy 1 3 2 = 1 / 4 := by unfold elementAccuracy; norm_num
  refine ⟨h, ?_⟩
  rw [h]
  refine .cons ⟨?_, ?_⟩ (.cons ⟨?_, ?_⟩ .nil) <;> (try rw [if_pos (by omega)]) <;> rw [abs_le] <;> constructor <;> norm_num

/-- C28: the budget cannot be loosened: with the errors the elementary evaluators are allowed, the full accuracy is used up. -/
theorem C28_budget_is_tight {accuracy : ℝ} (ha : 0 ≤ accuracy) (sigma n : Nat) (hn : 0 < n) :
    let e := elementAccuracy accuracy sigma n
    |sumUp (List.replicate n (e, if sigma > 0 then e else 0)) - sumUp (List.replicate n (0, 0))| = accuracy := by
  intro e
  have hn' : (n : ℝ) ≠ 0 := by exact_mod_cast hn.ne'
  unfold sumUp
  rw [foldl_sumUp, foldl_sumUp]
  simp only [List.map_replicate, List.sum_replicate, nsmul_eq_mul, add_zero, mul_zero, zero_add, sub_zero]
  have : (n : ℝ) * (e + if sigma > 0 then e else 0) = accuracy := by
    simp only [e, elementAccuracy]
    split
    · field_simp; ring
    · field_simp; simp
  rw [this, abs_of_nonneg ha]

end Verif.DirectOp
