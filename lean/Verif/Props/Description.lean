import Verif.Lemmas.DescriptionAngles
import Verif.Props.Polynomial
import Mathlib.Analysis.Matrix.Spectrum
import Mathlib.Data.Fin.Tuple.Sort

/-!
# C76: the table of a covariance model describes its covariance functions
-/

namespace Verif.Description

open Verif Kernel FmmKernel
open Verif.VariogramFitting (Mdl)

variable {d : Nat}

/-- A row of the table describes a covariance function: the ranges are positive, the greatest first, and the function with the type, the partial sill and
the ranges of the row along `axes` has the same value everywhere. -/
structure Describes (c : Cov d) (r : Row d) (axes : Matrix (Fin d) (Fin d) ℝ) : Prop where
  positive : ∀ i, 0 < r.ranges i
  descending : ∀ i j, i ≤ j → r.ranges j ≤ r.ranges i
  same : ∀ v, Kernel.evaluate c.k c.p c.q c.a v = covariance r.type r.psill r.ranges axes v

theorem describes {c : Cov d} (hk : isCovarianceFunction c.k = true) (hq : 0 < c.q) {rot axes : Matrix (Fin d) (Fin d) ℝ} {scale : Fin d → ℝ}
    (h : Decomposed c.a rot scale) (hx : SameAxes axes rot) (l : List ℝ) : Describes c ⟨c.k, c.p, fun i => scale i * c.q, l⟩ axes := by
  refine ⟨fun i => mul_pos (h.pos i) hq, fun i j hij => mul_le_mul_of_nonneg_right (h.desc i j hij) hq.le, fun v => ?_⟩
  unfold Kernel.evaluate covariance
  dsimp only
  rw [value_scaled hk hq, h.norm, hx.square]
  congr 1
  rw [Finset.sum_div]
  refine Finset.sum_congr rfl fun i _ => ?_
  rw [← div_div, div_pow _ c.q]

/-- **C76** (`decompose_inverse_anisotropy`): an invertible anisotropy is decomposed into a proper rotation and positive scales, the greatest first, such that
the length of a transformed vector is that of its components along the columns of the rotation, each divided by its scale. -/
theorem C76_decompose {es : Solver d} (hes : IsSolver es) {a rot : Matrix (Fin d) (Fin d) ℝ} (hdet : a.det ≠ 0) {scale : Fin d → ℝ} (h : decompose es a = .ok (rot, scale)) :
    rot.transpose * rot = 1 ∧ rot.det = 1 ∧ (∀ i, 0 < scale i) ∧ (∀ i j, i ≤ j → scale j ≤ scale i) ∧
      ∀ v, ∑ i, (a.mulVec v i) ^ 2 = ∑ i, ((∑ j, rot j i * v j) / scale i) ^ 2 := by
  obtain ⟨h1, h2, h3, h4, h5⟩ := decompose_spec hes hdet h
  refine ⟨h1, h2, h3, h4, fun v => ?_⟩
  rw [← h5]
  exact Finset.sum_congr rfl fun i _ => _root_.sq _

/-- **C76** (one dimension) -/
theorem C76_row1 {es : Solver 1} (hes : IsSolver es) {c : Cov 1} (hk : isCovarianceFunction c.k = true) (hq : 0 < c.q) (hdet : c.a.det ≠ 0) {r : Row 1}
    (h : row1 es c = .ok r) : r.type = c.k ∧ r.psill = c.p ∧ r.angles = [] ∧ Describes c r 1 := by
  obtain ⟨⟨rot, scale⟩, h1, h2⟩ := Outcome.bind_eq_ok.1 h
  obtain rfl := Outcome.ok.inj h2
  have hd := decompose_spec hes hdet h1
  refine ⟨rfl, rfl, rfl, describes hk hq hd ⟨fun j => rot 0 0, fun j => ?_, fun i j => ?_⟩ _⟩
  · have := hd.det
    rw [Matrix.det_fin_one] at this
    rw [this]; norm_num
  · have := hd.det
    rw [Matrix.det_fin_one] at this
    rw [Subsingleton.elim i 0, Subsingleton.elim j 0, Matrix.one_apply_eq]
    simp [this]

theorem orth2 {R : Matrix (Fin 2) (Fin 2) ℝ} (h : R.transpose * R = 1) (hd : R.det = 1) : R 0 0 ^ 2 + R 1 0 ^ 2 = 1 ∧ R 1 1 = R 0 0 ∧ R 0 1 = -R 1 0 := by
  have e00 := congrFun (congrFun h 0) 0
  have e11 := congrFun (congrFun h 1) 1
  simp only [Matrix.mul_apply, Fin.sum_univ_two, Matrix.transpose_apply, Matrix.one_apply_eq] at e00 e11
  rw [Matrix.det_fin_two] at hd
  have key : (R 0 0 - R 1 1) ^ 2 + (R 0 1 + R 1 0) ^ 2 = 0 := by linear_combination e00 + e11 - 2 * hd
  have k1 : R 0 0 - R 1 1 = 0 := by nlinarith [_root_.sq_nonneg (R 0 0 - R 1 1), _root_.sq_nonneg (R 0 1 + R 1 0)]
  have k2 : R 0 1 + R 1 0 = 0 := by nlinarith [_root_.sq_nonneg (R 0 0 - R 1 1), _root_.sq_nonneg (R 0 1 + R 1 0)]
  exact ⟨by linear_combination e00, by linarith, by linarith⟩

theorem cos_sin_atan2 {x y : ℝ} (h : x ^ 2 + y ^ 2 = 1) : Real.cos (atan2 y x) = x ∧ Real.sin (atan2 y x) = y := by
  have hn : ‖(⟨x, y⟩ : ℂ)‖ = 1 := by
    rw [Complex.norm_eq_sqrt_sq_add_sq]
    dsimp only
    rw [h, Real.sqrt_one]
  have h0 : (⟨x, y⟩ : ℂ) ≠ 0 := fun e => by rw [e] at hn; simp at hn
  unfold atan2
  rw [Complex.cos_arg h0, Complex.sin_arg, hn]
  simp

theorem same2 {R : Matrix (Fin 2) (Fin 2) ℝ} (h : R.transpose * R = 1) (hd : R.det = 1) :
    SameAxes (r2 (-wrap 180 (-atan2 (R 1 0) (R 0 0) / deg))) R := by
  obtain ⟨h1, h2, h3⟩ := orth2 h hd
  obtain ⟨hc, hs⟩ := cos_sin_atan2 h1
  obtain ⟨k, hk⟩ := wrap_eq (-atan2 (R 1 0) (R 0 0) / deg) 180
  rw [hk]
  have hsg : ((-1 : ℝ) ^ k) * (-1) ^ k = 1 := by rcases sign_int k with h | h <;> rw [h] <;> norm_num
  have hang : -atan2 (R 1 0) (R 0 0) / deg * (Real.pi / 180) = -atan2 (R 1 0) (R 0 0) := by
    unfold deg; have := Real.pi_pos; field_simp
  have ec : cd (-atan2 (R 1 0) (R 0 0) / deg) = R 0 0 := by unfold cd; rw [hang, Real.cos_neg, hc]
  have es : sd (-atan2 (R 1 0) (R 0 0) / deg) = -R 1 0 := by unfold sd; rw [hang, Real.sin_neg, hs]
  have er : ∀ x, r2 (-x) = !![cd x, sd x; -sd x, cd x] := fun x => by
    rw [← cd_neg x, ← neg_neg (sd x), ← sd_neg x]
    unfold r2 cd sd
    rw [neg_neg]
  rw [er, cd_int, sd_int, ec, es]
  refine ⟨fun _ => (-1) ^ k, fun _ => hsg, fun i j => ?_⟩
  fin_cases i <;> fin_cases j <;> simp [h2, h3] <;> ring

/-- **C76** (two dimensions): the major and the minor axis are turned by the rotation, clockwise from the coordinate axes. -/
theorem C76_row2 {es : Solver 2} (hes : IsSolver es) {c : Cov 2} (hk : isCovarianceFunction c.k = true) (hq : 0 < c.q) (hdet : c.a.det ≠ 0) {r : Row 2}
    (h : row2 es c = .ok r) : r.type = c.k ∧ r.psill = c.p ∧ ∃ rot, r.angles = [rot] ∧ 0 ≤ rot ∧ rot < 180 ∧ Describes c r (r2 (-rot)) := by
  obtain ⟨⟨rot, scale⟩, h1, h2⟩ := Outcome.bind_eq_ok.1 h
  obtain rfl := Outcome.ok.inj h2
  have hd := decompose_spec hes hdet h1
  obtain ⟨b1, b2⟩ := wrap_bounds (-atan2 (rot 1 0) (rot 0 0) / deg) (y := 180) (by norm_num)
  exact ⟨rfl, rfl, _, rfl, b1, b2, describes hk hq hd (same2 hd.orthogonal hd.det) _⟩

/-- **C76** (three dimensions): the axes are turned about the third axis by the rotation, about the first by the dip and about the third by the dip azimuth, all
clockwise. -/
theorem C76_row3 {es : Solver 3} (hes : IsSolver es) {angles : Matrix (Fin 3) (Fin 3) ℝ → ℝ × ℝ × ℝ} (hang : IsEuler angles) {c : Cov 3}
    (hk : isCovarianceFunction c.k = true) (hq : 0 < c.q) (hdet : c.a.det ≠ 0) {r : Row 3} (h : row3 es angles c = .ok r) :
    r.type = c.k ∧ r.psill = c.p ∧ ∃ az dip rot, r.angles = [az, dip, rot] ∧ (0 ≤ az ∧ az < 360) ∧ (0 ≤ dip ∧ dip ≤ 90) ∧ (0 ≤ rot ∧ rot < 180) ∧
      Describes c r (rz (-az) * rx (-dip) * rz (-rot)) := by
  obtain ⟨⟨rot, scale⟩, h1, h2⟩ := Outcome.bind_eq_ok.1 h
  obtain rfl := Outcome.ok.inj h2
  have hd := decompose_spec hes hdet h1
  obtain ⟨b1, b2, b3⟩ := normalise_bounds (angles rot)
  refine ⟨rfl, rfl, _, _, _, rfl, b1, b2, b3, describes hk hq hd ?_ _⟩
  have e := hang rot hd.orthogonal hd.det
  have hdeg : ∀ x : ℝ, -(-x / deg) = x * 180 / Real.pi := fun x => by unfold deg; have := Real.pi_pos; field_simp
  have e2 : eul (-(angles rot).1 / deg, -(angles rot).2.1 / deg, -(angles rot).2.2 / deg) = rot := by
    unfold eul
    dsimp only
    rw [hdeg, hdeg, hdeg]
    exact e.symm
  have := normalise_same (angles rot)
  rw [e2] at this
  exact this

/-! ## The table -/

/-- **C76**: a table is refused for a model with a function that is not a covariance function. -/
theorem C76_refused (row : Cov d → Outcome (Row d)) (m : Mdl d) (h : ∃ c ∈ m.rbfs, isCovarianceFunction c.k = false) : description row m = .throws .runtimeError := by
  obtain ⟨c, hc, hk⟩ := h
  have : isCovarianceModel m = false := by
    unfold isCovarianceModel
    rw [List.all_eq_false]
    exact ⟨c, hc, by simp [hk]⟩
  unfold description
  rw [if_pos (by rw [this]; rfl)]

/-- the table has the nugget and the rows of the functions, in this order -/
theorem rows_of {row : Cov d → Outcome (Row d)} {m : Mdl d} {nug : ℝ} {rows : List (Row d)} (h : description row m = .ok (nug, rows)) :
    nug = m.nugget ∧ (∀ c ∈ m.rbfs, isCovarianceFunction c.k = true) ∧ List.Forall₂ (fun c r => row c = .ok r) m.rbfs rows := by
  unfold description at h
  cases e : isCovarianceModel m with
  | false => rw [e] at h; cases h
  | true =>
    rw [e] at h
    obtain ⟨rs, h1, h2⟩ := Outcome.bind_eq_ok.1 h
    obtain ⟨rfl, rfl⟩ := Prod.mk.inj (Outcome.ok.inj h2)
    exact ⟨rfl, fun c hc => List.all_eq_true.1 e c hc, Verif.Poly.traverse_eq_ok_map h1⟩

theorem forall2_mem {α β : Type} {R S : α → β → Prop} {l : List α} {l' : List β} (h : List.Forall₂ R l l') (hRS : ∀ a ∈ l, ∀ b, R a b → S a b) : List.Forall₂ S l l' := by
  induction h with
  | nil => exact .nil
  | cons h1 h2 ih => exact .cons (hRS _ List.mem_cons_self _ h1) (ih fun a ha => hRS a (List.mem_cons_of_mem _ ha))

/-- What the setters of a model and its functions enforce for the covariance functions, and that no range is zero. -/
def Proper (m : Mdl d) : Prop := ∀ c ∈ m.rbfs, 0 < c.q ∧ c.a.det ≠ 0

/-- **C76** (one dimension): the table shows the nugget and, in order, a row for each function, which describes it. -/
theorem C76_description1 {es : Solver 1} (hes : IsSolver es) {m : Mdl 1} (hm : Proper m) {nug : ℝ} {rows : List (Row 1)}
    (h : description (row1 es) m = .ok (nug, rows)) :
    nug = m.nugget ∧ List.Forall₂ (fun c r => r.type = c.k ∧ r.psill = c.p ∧ r.angles = [] ∧ Describes c r 1) m.rbfs rows := by
  obtain ⟨h1, h2, h3⟩ := rows_of h
  exact ⟨h1, forall2_mem h3 fun c hc r hr => C76_row1 hes (h2 c hc) (hm c hc).1 (hm c hc).2 hr⟩

/-- **C76** (two dimensions) -/
theorem C76_description2 {es : Solver 2} (hes : IsSolver es) {m : Mdl 2} (hm : Proper m) {nug : ℝ} {rows : List (Row 2)}
    (h : description (row2 es) m = .ok (nug, rows)) :
    nug = m.nugget ∧ List.Forall₂ (fun c r => r.type = c.k ∧ r.psill = c.p ∧ ∃ rot, r.angles = [rot] ∧ 0 ≤ rot ∧ rot < 180 ∧ Describes c r (r2 (-rot))) m.rbfs rows := by
  obtain ⟨h1, h2, h3⟩ := rows_of h
  exact ⟨h1, forall2_mem h3 fun c hc r hr => C76_row2 hes (h2 c hc) (hm c hc).1 (hm c hc).2 hr⟩

/-- **C76** (three dimensions) -/
theorem C76_description3 {es : Solver 3} (hes : IsSolver es) {angles : Matrix (Fin 3) (Fin 3) ℝ → ℝ × ℝ × ℝ} (hang : IsEuler angles) {m : Mdl 3} (hm : Proper m)
    {nug : ℝ} {rows : List (Row 3)} (h : description (row3 es angles) m = .ok (nug, rows)) :
    nug = m.nugget ∧ List.Forall₂ (fun c r => r.type = c.k ∧ r.psill = c.p ∧ ∃ az dip rot, r.angles = [az, dip, rot] ∧ (0 ≤ az ∧ az < 360) ∧ (0 ≤ dip ∧ dip ≤ 90) ∧
      (0 ≤ rot ∧ rot < 180) ∧ Describes c r (rz (-az) * rx (-dip) * rz (-rot))) m.rbfs rows := by
  obtain ⟨h1, h2, h3⟩ := rows_of h
  exact ⟨h1, forall2_mem h3 fun c hc r hr => C76_row3 hes hang (h2 c hc) (hm c hc).1 (hm c hc).2 hr⟩

/-- **C76**: for a covariance model there is always a table, unless the eigenvalue solver fails. -/
theorem C76_total {es : Solver 3} (hes : ∀ m, m.transpose = m → es m ≠ none) (angles : Matrix (Fin 3) (Fin 3) ℝ → ℝ × ℝ × ℝ) (m : Mdl 3)
    (hm : ∀ c ∈ m.rbfs, isCovarianceFunction c.k = true) : ∃ t, description (row3 es angles) m = .ok t := by
  have hall : isCovarianceModel m = true := List.all_eq_true.2 hm
  have hrow : ∀ c, ∃ r, row3 es angles c = .ok r := by
    intro c
    unfold row3 decompose
    cases e : es (c.a.transpose * c.a) with
    | none => exact absurd e (hes _ (by rw [Matrix.transpose_mul, Matrix.transpose_transpose]))
    | some p => exact ⟨_, rfl⟩
  have := Outcome.traverse_ok (f := row3 es angles) (g := fun c => (hrow c).choose) (xs := m.rbfs) fun c _ => (hrow c).choose_spec
  unfold description
  rw [if_neg (by rw [hall]; decide), this]
  exact ⟨_, rfl⟩

/-- **C76**: models with the same table have the same covariance functions. -/
theorem C76_faithful {es : Solver 3} (hes : IsSolver es) {angles : Matrix (Fin 3) (Fin 3) ℝ → ℝ × ℝ × ℝ} (hang : IsEuler angles) {m m' : Mdl 3} (hm : Proper m)
    (hm' : Proper m') {t : ℝ × List (Row 3)} (h : description (row3 es angles) m = .ok t) (h' : description (row3 es angles) m' = .ok t) :
    m.nugget = m'.nugget ∧ List.Forall₂ (fun c c' => ∀ v, Kernel.evaluate c.k c.p c.q c.a v = Kernel.evaluate c'.k c'.p c'.q c'.a v) m.rbfs m'.rbfs := by
  obtain ⟨nug, rows⟩ := t
  obtain ⟨h1, h2⟩ := C76_description3 hes hang hm h
  obtain ⟨h1', h2'⟩ := C76_description3 hes hang hm' h'
  refine ⟨by rw [← h1, h1'], ?_⟩
  generalize m.rbfs = l at h2
  generalize m'.rbfs = l' at h2'
  clear h h'
  induction h2 generalizing l' with
  | nil => cases h2'; exact .nil
  | cons a b ih =>
    cases h2' with
    | cons a' b' =>
      refine .cons (fun v => ?_) (ih _ b')
      obtain ⟨-, -, az, dip, rot, e, -, -, -, D⟩ := a
      obtain ⟨-, -, az', dip', rot', e', -, -, -, D'⟩ := a'
      rw [e] at e'
      simp only [List.cons.injEq, and_true] at e'
      obtain ⟨rfl, rfl, rfl⟩ := e'
      rw [D.same, D'.same]

end Verif.Description
