import Verif.Props.Variogram
import Verif.Lemmas.Directions
import Mathlib.Analysis.SpecialFunctions.Trigonometric.Bounds
import Mathlib.Analysis.Real.Pi.Bounds

/-! # C89: the directions of anisotropic variograms -/

namespace Verif.Variogram

open Verif BigOperators Classical

variable {dim : Nat}

/-- The angle between the lines along `u` and `v` is at most `θ`. -/
def Within (θ : ℝ) (u v : Vec dim) : Prop := Real.sqrt (∑ i, u i ^ 2) * Real.sqrt (∑ i, v i ^ 2) * Real.cos θ ≤ |∑ i, u i * v i|

/-- Degrees -/
noncomputable def deg (x : ℝ) : ℝ := x * Real.pi / 180

theorem within_of_sq {κ θ : ℝ} {u v : Vec dim} (hk : Real.cos θ ^ 2 ≤ κ) (h : κ * ((∑ i, u i ^ 2) * ∑ i, v i ^ 2) ≤ (∑ i, u i * v i) ^ 2) : Within θ u v := by
  unfold Within
  have hu : 0 ≤ ∑ i, u i ^ 2 := Finset.sum_nonneg fun i _ => sq_nonneg _
  have hv : 0 ≤ ∑ i, v i ^ 2 := Finset.sum_nonneg fun i _ => sq_nonneg _
  refine le_trans (le_abs_self _) ?_
  rw [← sq_le_sq, mul_pow, mul_pow, Real.sq_sqrt hu, Real.sq_sqrt hv]
  refine le_trans ?_ h
  rw [mul_comm]
  exact mul_le_mul_of_nonneg_right hk (mul_nonneg hu hv)

theorem cos_sq_le {x lo κ : ℝ} (h0 : 0 ≤ lo) (hlo : lo ≤ x) (hx : x ≤ Real.pi / 2) (h1 : lo ≤ 1) (hκ : (1 - lo ^ 2 / 2 + lo ^ 4 * (5 / 96)) ^ 2 ≤ κ) :
    Real.cos x ^ 2 ≤ κ := by
  have hc : Real.cos x ≤ Real.cos lo := Real.cos_le_cos_of_nonneg_of_le_pi h0 (by linarith [Real.pi_pos]) hlo
  have hn : 0 ≤ Real.cos x := Real.cos_nonneg_of_neg_pi_div_two_le_of_le (by linarith [Real.pi_pos]) hx
  have hb := Real.cos_bound (x := lo) (by rw [abs_of_nonneg h0]; exact h1)
  rw [abs_of_nonneg h0] at hb
  have := (abs_le.1 hb).2
  exact (pow_le_pow_left₀ hn (by linarith) 2).trans hκ

theorem le_cos_sq {x hi κ : ℝ} (h0 : 0 ≤ x) (hhi : x ≤ hi) (h1 : hi ≤ 1) (hκ : κ ≤ (1 - hi ^ 2 / 2) ^ 2) : κ ≤ Real.cos x ^ 2 := by
  have hb := Real.one_sub_sq_div_two_le_cos (x := x)
  have hx2 : x ^ 2 ≤ hi ^ 2 := pow_le_pow_left₀ h0 hhi 2
  have hle : hi ^ 2 ≤ 1 := by nlinarith
  refine hκ.trans (pow_le_pow_left₀ (by linarith) ?_ 2)
  linarith

theorem cos_deg_13_7 {x : ℝ} (h : deg 13.7 ≤ x) (hx : x ≤ Real.pi / 2) : Real.cos x ^ 2 ≤ 0.944 := by
  refine cos_sq_le (lo := 0.2391) (by norm_num) (le_trans ?_ h) hx (by norm_num) (by norm_num)
  unfold deg
  linarith [Real.pi_gt_d4]

theorem cos_deg_11_4 {x : ℝ} (h : deg 11.4 ≤ x) (hx : x ≤ Real.pi / 2) : Real.cos x ^ 2 ≤ 0.961 := by
  refine cos_sq_le (lo := 0.19896) (by norm_num) (le_trans ?_ h) hx (by norm_num) (by norm_num)
  unfold deg
  linarith [Real.pi_gt_d4]

theorem cos_deg_9_9 {x : ℝ} (h0 : 0 ≤ x) (h : x ≤ deg 9.9) : 0.97 ≤ Real.cos x ^ 2 := by
  refine le_cos_sq (hi := 0.1729) h0 (h.trans ?_) (by norm_num) (by norm_num)
  unfold deg
  linarith [Real.pi_lt_d4]

theorem cos_deg_11 {x : ℝ} (h0 : 0 ≤ x) (h : x ≤ deg 11) : 0.9625 ≤ Real.cos x ^ 2 := by
  refine le_cos_sq (hi := 0.192) h0 (h.trans ?_) (by norm_num) (by norm_num)
  unfold deg
  linarith [Real.pi_lt_d4]

/-! ## The tables as vectors -/

theorem near_3 (v : Vec 3) : ∃ d ∈ kAnisotropicDirections3, 0.944 * ((∑ i, v i ^ 2) * ∑ i, d i ^ 2) ≤ (∑ i, v i * d i) ^ 2 := by
  obtain ⟨d, hd, h⟩ := Dir.near3 v
  refine ⟨_, List.mem_map_of_mem hd, ?_⟩
  unfold Dir.dot3 Dir.ev3 at h
  push_cast at h
  simp only [Fin.sum_univ_three, Matrix.cons_val_zero, Matrix.cons_val_one, Matrix.cons_val]
  ring_nf at h ⊢
  linarith

theorem near_2 (v : Vec 2) : ∃ d ∈ kAnisotropicDirections2, 0.961 * ((∑ i, v i ^ 2) * ∑ i, d i ^ 2) ≤ (∑ i, v i * d i) ^ 2 := by
  obtain ⟨d, hd, h⟩ := Dir.near2 v
  refine ⟨_, List.mem_map_of_mem hd, ?_⟩
  unfold Dir.dot2 Dir.ev2 at h
  push_cast at h
  simp only [Fin.sum_univ_two, Matrix.cons_val_zero, Matrix.cons_val_one]
  ring_nf at h ⊢
  linarith

theorem apart_3 : kAnisotropicDirections3.Pairwise fun d e => (∑ i, d i * e i) ^ 2 ≤ 0.8823 * ((∑ i, d i ^ 2) * ∑ i, e i ^ 2) := by
  unfold kAnisotropicDirections3
  rw [List.pairwise_map]
  refine Dir.apart3.imp ?_
  intro d e h
  have h' : (10000 : ℝ) * (Dir.dot3 d e : ℝ) ^ 2 ≤ 8823 * ((Dir.dot3 d d : ℝ) * Dir.dot3 e e) := by exact_mod_cast h
  unfold Dir.dot3 at h'
  push_cast at h'
  simp only [Fin.sum_univ_three, Matrix.cons_val_zero, Matrix.cons_val_one, Matrix.cons_val]
  ring_nf at h' ⊢
  linarith

theorem apart_2 : kAnisotropicDirections2.Pairwise fun d e => (∑ i, d i * e i) ^ 2 ≤ 0.8536 * ((∑ i, d i ^ 2) * ∑ i, e i ^ 2) := by
  unfold kAnisotropicDirections2
  rw [List.pairwise_map]
  refine Dir.apart2.imp ?_
  intro d e h
  have h' : (10000 : ℝ) * (Dir.dot2 d e : ℝ) ^ 2 ≤ 8536 * ((Dir.dot2 d d : ℝ) * Dir.dot2 e e) := by exact_mod_cast h
  unfold Dir.dot2 at h'
  push_cast at h'
  simp only [Fin.sum_univ_two, Matrix.cons_val_zero, Matrix.cons_val_one]
  ring_nf at h' ⊢
  linarith

theorem nonzero_3 : ∀ d ∈ kAnisotropicDirections3, d ≠ 0 := by
  intro d hd h0
  obtain ⟨e, he, rfl⟩ := List.mem_map.1 hd
  have h := Dir.nonzero3 e he
  have h1 := congrFun h0 0
  have h2 := congrFun h0 1
  have h3 := congrFun h0 2
  simp at h1 h2 h3
  simp [Dir.dot3, h1, h2, h3] at h

theorem nonzero_2 : ∀ d ∈ kAnisotropicDirections2, d ≠ 0 := by
  intro d hd h0
  obtain ⟨e, he, rfl⟩ := List.mem_map.1 hd
  have h := Dir.nonzero2 e he
  have h1 := congrFun h0 0
  have h2 := congrFun h0 1
  simp at h1 h2
  simp [Dir.dot2, h1, h2] at h

/-- **C89**: no direction in space is more than 13.7 degrees from one of the 46 of the table, none in the plane more than 11.4 degrees from one of the 8. -/
theorem C89_every_direction_is_close : (∀ v : Vec 3, ∃ d ∈ kAnisotropicDirections3, Within (deg 13.7) v d) ∧
    (∀ v : Vec 2, ∃ d ∈ kAnisotropicDirections2, Within (deg 11.4) v d) ∧ ∀ v : Vec 1, ∃ d ∈ kAnisotropicDirections1, Within 0 v d := by
  have h1 : deg 13.7 ≤ Real.pi / 2 := by unfold deg; linarith [Real.pi_pos]
  have h2 : deg 11.4 ≤ Real.pi / 2 := by unfold deg; linarith [Real.pi_pos]
  refine ⟨fun v => ?_, fun v => ?_, fun v => ?_⟩
  · obtain ⟨d, hd, h⟩ := near_3 v
    exact ⟨d, hd, within_of_sq (cos_deg_13_7 (le_refl _) h1) h⟩
  · obtain ⟨d, hd, h⟩ := near_2 v
    exact ⟨d, hd, within_of_sq (cos_deg_11_4 (le_refl _) h2) h⟩
  · refine ⟨![1], List.mem_singleton_self _, ?_⟩
    unfold Within
    simp [Real.sqrt_sq_eq_abs]

/-! ## What the calculator does with them -/

theorem setDirections_eq (c : Calculator dim) {ds : List (Vec dim)} (hds : ds ≠ []) :
    c.setDirections ds = ({ c with directions := ds.map normalized }, .ok ()) := by
  unfold Calculator.setDirections
  rw [if_neg (by simpa using hds)]

theorem dot_normalized_sq (v : Vec dim) {d : Vec dim} (hd : d ≠ 0) : dot v (normalized d) ^ 2 * ∑ i, d i ^ 2 = (∑ i, v i * d i) ^ 2 := by
  have e : sqNorm d = ∑ i, d i ^ 2 := Finset.sum_congr rfl fun i _ => (sq _).symm
  have hpos : 0 < sqNorm d := by
    obtain ⟨i, hi⟩ := Function.ne_iff.1 hd
    exact Finset.sum_pos' (fun i _ => mul_self_nonneg _) ⟨i, Finset.mem_univ _, mul_self_pos.2 hi⟩
  have hn : 0 < norm d := Real.sqrt_pos.2 hpos
  have hdot : dot v (normalized d) = (∑ i, v i * d i) / norm d := by
    unfold normalized
    rw [if_pos hpos, dot, div_eq_mul_inv, Finset.sum_mul]
    exact Finset.sum_congr rfl fun i _ => by ring
  have hsq : norm d ^ 2 = ∑ i, d i ^ 2 := by rw [norm, Real.sq_sqrt hpos.le, e]
  rw [hdot, ← hsq, div_pow]
  field_simp

theorem sum_sq_pos {d : Vec dim} (hd : d ≠ 0) : 0 < ∑ i, d i ^ 2 := by
  obtain ⟨i, hi⟩ := Function.ne_iff.1 hd
  exact Finset.sum_pos' (fun i _ => sq_nonneg _) ⟨i, Finset.mem_univ _, by have : d i ≠ 0 := hi; positivity⟩

theorem automatic_of {c : Calculator dim} {ds : List (Vec dim)} (hne : ∀ d ∈ ds, d ≠ 0) {κ : ℝ} (v : Vec dim)
    (hn : ∃ d ∈ ds, κ * ((∑ i, v i ^ 2) * ∑ i, d i ^ 2) ≤ (∑ i, v i * d i) ^ 2) {argmax : List ℝ → Nat} (ha : ArgmaxOk argmax) (hc : c.angleTol = kAutomatic) :
    ∃ k d, (c.setDirections ds).1.selected argmax v = [k] ∧ ds[k]? = some d ∧ κ * ((∑ i, v i ^ 2) * ∑ i, d i ^ 2) ≤ (∑ i, v i * d i) ^ 2 := by
  obtain ⟨d0, hd0, h0⟩ := hn
  have hds : ds ≠ [] := List.ne_nil_of_mem hd0
  rw [setDirections_eq c hds]
  obtain ⟨k, hk, hlt, hall⟩ := C29_automatic_direction ({ c with directions := ds.map normalized } : Calculator dim) ha (by simpa using hds) hc v
  dsimp only at hlt hall
  rw [List.length_map] at hlt
  refine ⟨k, ds[k], hk, List.getElem?_eq_getElem hlt, ?_⟩
  have hm := hall _ (List.mem_map_of_mem hd0)
  have hget : (ds.map normalized).getD k 0 = normalized ds[k] := by simp [hlt]
  rw [hget, ← sq_le_sq] at hm
  have hd := hne _ (List.getElem_mem hlt)
  have p0 := sum_sq_pos (hne _ hd0)
  have p1 := sum_sq_pos hd
  rw [← dot_normalized_sq v hd]
  rw [← dot_normalized_sq v (hne _ hd0), ← mul_assoc] at h0
  have h1 := le_of_mul_le_mul_right h0 p0
  rw [← mul_assoc]
  exact mul_le_mul_of_nonneg_right (h1.trans hm) p1.le

theorem none_left_of {c : Calculator dim} {ds : List (Vec dim)} (hne : ∀ d ∈ ds, d ≠ 0) {κ : ℝ} (v : Vec dim)
    (hn : ∃ d ∈ ds, κ * ((∑ i, v i ^ 2) * ∑ i, d i ^ 2) ≤ (∑ i, v i * d i) ^ 2) (argmax : List ℝ → Nat) (hc : c.angleTol ≠ kAutomatic)
    (hk : Real.cos c.angleTol ^ 2 ≤ κ) : (c.setDirections ds).1.selected argmax v ≠ [] := by
  obtain ⟨d, hd, h⟩ := hn
  obtain ⟨k, hkd⟩ := List.getElem?_of_mem hd
  have hu : 0 ≤ ∑ i, v i ^ 2 := Finset.sum_nonneg fun i _ => sq_nonneg _
  have hv : 0 ≤ ∑ i, d i ^ 2 := Finset.sum_nonneg fun i _ => sq_nonneg _
  refine List.ne_nil_of_mem (a := k) ((C29_given_directions_within_angle c ds (List.ne_nil_of_mem hd) argmax hc v k d hkd (hne d hd)).2.2 ?_)
  refine le_trans (le_abs_self _) ?_
  rw [← sq_le_sq, mul_pow, mul_pow, Real.sq_sqrt hu, Real.sq_sqrt hv, sq_abs, mul_comm]
  exact (mul_le_mul_of_nonneg_right hk (mul_nonneg hu hv)).trans h

/-- The angles at a vector add up at most. -/
theorem gram_le (v d e : Vec dim) :
    ((∑ i, v i ^ 2) * (∑ i, d i * e i) - (∑ i, v i * d i) * ∑ i, v i * e i) ^ 2 ≤
      ((∑ i, v i ^ 2) * (∑ i, d i ^ 2) - (∑ i, v i * d i) ^ 2) * ((∑ i, v i ^ 2) * (∑ i, e i ^ 2) - (∑ i, v i * e i) ^ 2) := by
  set p := ∑ i, v i ^ 2 with hp
  set x := ∑ i, v i * d i with hx
  set y := ∑ i, v i * e i with hy
  have hp0 : 0 ≤ p := Finset.sum_nonneg fun i _ => sq_nonneg _
  have expand : ∀ (a b : Vec dim), ∑ i, (p * a i - (∑ j, v j * a j) * v i) * (p * b i - (∑ j, v j * b j) * v i) =
      p * (p * (∑ i, a i * b i) - (∑ j, v j * a j) * ∑ j, v j * b j) := by
    intro a b
    have : ∀ i, (p * a i - (∑ j, v j * a j) * v i) * (p * b i - (∑ j, v j * b j) * v i) =
        p ^ 2 * (a i * b i) - p * (∑ j, v j * b j) * (v i * a i) - p * (∑ j, v j * a j) * (v i * b i) + (∑ j, v j * a j) * (∑ j, v j * b j) * v i ^ 2 := by
      intro i; ring
    rw [Finset.sum_congr rfl fun i _ => this i, Finset.sum_add_distrib, Finset.sum_sub_distrib, Finset.sum_sub_distrib, ← Finset.mul_sum, ← Finset.mul_sum,
      ← Finset.mul_sum, ← Finset.mul_sum, ← hp]
    ring
  have e1 : ∀ a : Vec dim, ∑ i, (p * a i - (∑ j, v j * a j) * v i) ^ 2 = p * (p * (∑ i, a i ^ 2) - (∑ j, v j * a j) ^ 2) := by
    intro a
    have := expand a a
    simp only [← sq] at this
    exact this
  have cs := Finset.sum_mul_sq_le_sq_mul_sq Finset.univ (fun i => p * d i - x * v i) (fun i => p * e i - y * v i)
  rw [hx, hy, expand d e, e1 d, e1 e, ← hx, ← hy] at cs
  rcases hp0.eq_or_lt with h0 | hpos
  · have hv : ∀ i, v i = 0 := by
      intro i
      have := (Finset.sum_eq_zero_iff_of_nonneg (fun i _ => sq_nonneg (v i))).1 (hp ▸ h0.symm) i (Finset.mem_univ _)
      exact pow_eq_zero_iff (two_ne_zero) |>.1 this
    have hx0 : x = 0 := by rw [hx]; exact Finset.sum_eq_zero fun i _ => by rw [hv i, zero_mul]
    rw [← h0, hx0]
    simp
  · have : p ^ 2 * (p * (∑ i, d i * e i) - x * y) ^ 2 ≤ p ^ 2 * ((p * (∑ i, d i ^ 2) - x ^ 2) * (p * (∑ i, e i ^ 2) - y ^ 2)) := by
      calc _ = (p * (p * (∑ i, d i * e i) - x * y)) ^ 2 := by ring
        _ ≤ _ := cs
        _ = _ := by ring
    exact le_of_mul_le_mul_left this (by positivity)

theorem close_pair {κ : ℝ} (hκ : 1 / 2 ≤ κ) (hκ1 : κ ≤ 1) {v d e : Vec dim} (hv : v ≠ 0) (hd : κ * ((∑ i, v i ^ 2) * ∑ i, d i ^ 2) ≤ (∑ i, v i * d i) ^ 2)
    (he : κ * ((∑ i, v i ^ 2) * ∑ i, e i ^ 2) ≤ (∑ i, v i * e i) ^ 2) :
    (2 * κ - 1) ^ 2 * ((∑ i, d i ^ 2) * ∑ i, e i ^ 2) ≤ (∑ i, d i * e i) ^ 2 := by
  have hg := gram_le v d e
  have hp : 0 < ∑ i, v i ^ 2 := sum_sq_pos hv
  have hD : 0 ≤ ∑ i, d i ^ 2 := Finset.sum_nonneg fun i _ => sq_nonneg _
  have hE : 0 ≤ ∑ i, e i ^ 2 := Finset.sum_nonneg fun i _ => sq_nonneg _
  have c1 : (∑ i, v i * d i) ^ 2 ≤ (∑ i, v i ^ 2) * ∑ i, d i ^ 2 := Finset.sum_mul_sq_le_sq_mul_sq _ _ _
  have c2 : (∑ i, v i * e i) ^ 2 ≤ (∑ i, v i ^ 2) * ∑ i, e i ^ 2 := Finset.sum_mul_sq_le_sq_mul_sq _ _ _
  generalize (∑ i, v i ^ 2) = p at *
  generalize (∑ i, d i ^ 2) = D at *
  generalize (∑ i, e i ^ 2) = E at *
  generalize (∑ i, v i * d i) = x at *
  generalize (∑ i, v i * e i) = y at *
  generalize (∑ i, d i * e i) = g at *
  set s := Real.sqrt (D * E) with hs
  have hs2 : s ^ 2 = D * E := Real.sq_sqrt (mul_nonneg hD hE)
  have hs0 : 0 ≤ s := Real.sqrt_nonneg _
  have h1 : |p * g - x * y| ≤ (1 - κ) * (p * s) := by
    apply abs_le_of_sq_le_sq _ (by have : 0 ≤ 1 - κ := by linarith
                                   positivity)
    refine hg.trans ?_
    have a1 : p * D - x ^ 2 ≤ (1 - κ) * (p * D) := by linarith
    have a2 : p * E - y ^ 2 ≤ (1 - κ) * (p * E) := by linarith
    calc _ ≤ ((1 - κ) * (p * D)) * ((1 - κ) * (p * E)) :=
            mul_le_mul a1 a2 (by linarith) (mul_nonneg (by linarith) (mul_nonneg hp.le hD))
      _ = (1 - κ) ^ 2 * p ^ 2 * (D * E) := by ring
      _ = ((1 - κ) * (p * s)) ^ 2 := by rw [← hs2]; ring
  have h2 : κ * (p * s) ≤ |x * y| := by
    refine le_trans (le_abs_self _) ?_
    rw [← sq_le_sq, mul_pow x y]
    calc (κ * (p * s)) ^ 2 = (κ * (p * D)) * (κ * (p * E)) := by
            rw [mul_pow, mul_pow, hs2]; ring
      _ ≤ x ^ 2 * y ^ 2 := mul_le_mul hd he (mul_nonneg (by linarith) (mul_nonneg hp.le hE)) (sq_nonneg _)
  have h3 : (2 * κ - 1) * (p * s) ≤ |p * g| := by
    have := abs_sub_abs_le_abs_sub (x * y) (p * g)
    rw [abs_sub_comm] at this
    linarith
  have h4 : (2 * κ - 1) * s ≤ |g| := by
    rw [abs_mul, abs_of_pos hp] at h3
    have : p * ((2 * κ - 1) * s) ≤ p * |g| := by linarith
    exact le_of_mul_le_mul_left this hp
  rw [← hs2, ← mul_pow, ← sq_abs g]
  exact pow_le_pow_left₀ (mul_nonneg (by linarith) hs0) h4 2

theorem none_twice_of {c : Calculator dim} {ds : List (Vec dim)} (hds : ds ≠ []) (hne : ∀ d ∈ ds, d ≠ 0) {κ μ : ℝ} (hκ : 1 / 2 ≤ κ) (hκ1 : κ ≤ 1) (hμ : μ < (2 * κ - 1) ^ 2)
    (hap : ds.Pairwise fun d e => (∑ i, d i * e i) ^ 2 ≤ μ * ((∑ i, d i ^ 2) * ∑ i, e i ^ 2)) (argmax : List ℝ → Nat) (hc : c.angleTol ≠ kAutomatic)
    (hcos : κ ≤ Real.cos c.angleTol ^ 2) {v : Vec dim} (hv : v ≠ 0) {k l : Nat} (hk : k ∈ (c.setDirections ds).1.selected argmax v)
    (hl : l ∈ (c.setDirections ds).1.selected argmax v) : k = l := by
  have hlen : ∀ m ∈ (c.setDirections ds).1.selected argmax v, m < ds.length := by
    intro m hm
    rw [setDirections_eq c hds] at hm
    have := ((C29_directions_within_angle ({ c with directions := ds.map normalized } : Calculator dim) argmax hc v m).1 hm).1
    simpa using this
  have hclose : ∀ m (hm : m ∈ (c.setDirections ds).1.selected argmax v), κ * ((∑ i, v i ^ 2) * ∑ i, (ds[m]'(hlen m hm)) i ^ 2) ≤ (∑ i, v i * (ds[m]'(hlen m hm)) i) ^ 2 := by
    intro m hm
    have hml := hlen m hm
    have h := (C29_given_directions_within_angle c ds hds argmax hc v m _ (List.getElem?_eq_getElem hml) (hne _ (List.getElem_mem hml))).2.1 hm
    have hu : 0 ≤ ∑ i, v i ^ 2 := Finset.sum_nonneg fun i _ => sq_nonneg _
    have hw : 0 ≤ ∑ i, (ds[m]'hml) i ^ 2 := Finset.sum_nonneg fun i _ => sq_nonneg _
    have h2 := pow_le_pow_left₀ (by positivity) h 2
    rw [mul_pow, mul_pow, Real.sq_sqrt hu, Real.sq_sqrt hw, sq_abs, sq_abs] at h2
    refine le_trans ?_ h2
    rw [mul_comm]
    exact mul_le_mul_of_nonneg_left hcos (mul_nonneg hu hw)
  have key : ∀ a b (ha : a ∈ (c.setDirections ds).1.selected argmax v) (hb : b ∈ (c.setDirections ds).1.selected argmax v), ¬ a < b := by
    intro a b ha hb hab
    have h1 := close_pair hκ hκ1 hv (hclose a ha) (hclose b hb)
    have h2 := List.pairwise_iff_getElem.1 hap a b (hlen a ha) (hlen b hb) hab
    have p1 := sum_sq_pos (hne _ (List.getElem_mem (hlen a ha)))
    have p2 := sum_sq_pos (hne _ (List.getElem_mem (hlen b hb)))
    have := mul_lt_mul_of_pos_right hμ (mul_pos p1 p2)
    linarith
  rcases Nat.lt_trichotomy k l with h | h | h
  · exact absurd h (key k l hk hl)
  · exact h
  · exact absurd h (key l k hl hk)

/-- **C89**, automatic tolerance: every pair of points is counted in exactly one direction of the table, and that is at most 13.7 degrees from the line through the points (11.4
in the plane). -/
theorem C89_automatic {argmax : List ℝ → Nat} (ha : ArgmaxOk argmax) :
    (∀ (c : Calculator 3) (v : Vec 3), c.angleTol = kAutomatic → (c.setDirections kAnisotropicDirections3).2 = .ok () ∧
      ∃ k d, (c.setDirections kAnisotropicDirections3).1.selected argmax v = [k] ∧ kAnisotropicDirections3[k]? = some d ∧ Within (deg 13.7) v d) ∧
    (∀ (c : Calculator 2) (v : Vec 2), c.angleTol = kAutomatic → (c.setDirections kAnisotropicDirections2).2 = .ok () ∧
      ∃ k d, (c.setDirections kAnisotropicDirections2).1.selected argmax v = [k] ∧ kAnisotropicDirections2[k]? = some d ∧ Within (deg 11.4) v d) := by
  have h1 : deg 13.7 ≤ Real.pi / 2 := by unfold deg; linarith [Real.pi_pos]
  have h2 : deg 11.4 ≤ Real.pi / 2 := by unfold deg; linarith [Real.pi_pos]
  refine ⟨fun c v hc => ⟨?_, ?_⟩, fun c v hc => ⟨?_, ?_⟩⟩
  · rw [setDirections_eq c (by simp [kAnisotropicDirections3, table3])]
  · obtain ⟨k, d, e1, e2, e3⟩ := automatic_of (c := c) nonzero_3 v (near_3 v) ha hc
    exact ⟨k, d, e1, e2, within_of_sq (cos_deg_13_7 (le_refl _) h1) e3⟩
  · rw [setDirections_eq c (by simp [kAnisotropicDirections2, table2])]
  · obtain ⟨k, d, e1, e2, e3⟩ := automatic_of (c := c) nonzero_2 v (near_2 v) ha hc
    exact ⟨k, d, e1, e2, within_of_sq (cos_deg_11_4 (le_refl _) h2) e3⟩

/-- **C89**, a given tolerance: from 13.7 to 90 degrees (11.4 in the plane) it leaves out no pair; up to 9.9 degrees (11 in the plane) it counts no pair of different points twice. -/
theorem C89_tolerance (argmax : List ℝ → Nat) :
    (∀ (c : Calculator 3) (v : Vec 3), deg 13.7 ≤ c.angleTol → c.angleTol ≤ deg 90 → (c.setDirections kAnisotropicDirections3).1.selected argmax v ≠ []) ∧
    (∀ (c : Calculator 2) (v : Vec 2), deg 11.4 ≤ c.angleTol → c.angleTol ≤ deg 90 → (c.setDirections kAnisotropicDirections2).1.selected argmax v ≠ []) ∧
    (∀ (c : Calculator 3) (v : Vec 3), v ≠ 0 → 0 < c.angleTol → c.angleTol ≤ deg 9.9 → ∀ k l, k ∈ (c.setDirections kAnisotropicDirections3).1.selected argmax v →
      l ∈ (c.setDirections kAnisotropicDirections3).1.selected argmax v → k = l) ∧
    (∀ (c : Calculator 2) (v : Vec 2), v ≠ 0 → 0 < c.angleTol → c.angleTol ≤ deg 11 → ∀ k l, k ∈ (c.setDirections kAnisotropicDirections2).1.selected argmax v →
      l ∈ (c.setDirections kAnisotropicDirections2).1.selected argmax v → k = l) := by
  have hpi := Real.pi_pos
  have h90 : deg 90 = Real.pi / 2 := by unfold deg; ring
  have hauto : ∀ x : ℝ, 0 < x → x ≠ kAutomatic := by
    intro x hx h
    rw [h] at hx
    unfold kAutomatic at hx
    linarith
  refine ⟨fun c v h1 h2 => ?_, fun c v h1 h2 => ?_, fun c v hv h0 h1 k l hk hl => ?_, fun c v hv h0 h1 k l hk hl => ?_⟩
  · refine none_left_of nonzero_3 v (near_3 v) argmax (hauto _ (lt_of_lt_of_le ?_ h1)) (cos_deg_13_7 h1 (h2.trans h90.le))
    unfold deg; positivity
  · refine none_left_of nonzero_2 v (near_2 v) argmax (hauto _ (lt_of_lt_of_le ?_ h1)) (cos_deg_11_4 h1 (h2.trans h90.le))
    unfold deg; positivity
  · exact none_twice_of (by simp [kAnisotropicDirections3, table3]) nonzero_3 (κ := 0.97) (by norm_num) (by norm_num) (by norm_num) apart_3 argmax (hauto _ h0)
      (cos_deg_9_9 h0.le h1) hv hk hl
  · exact none_twice_of (by simp [kAnisotropicDirections2, table2]) nonzero_2 (κ := 0.9625) (by norm_num) (by norm_num) (by norm_num) apart_2 argmax (hauto _ h0)
      (cos_deg_11 h0.le h1) hv hk hl

/-- **C89**, a defect: a tolerance above 90 degrees is accepted but taken as its difference from 180 degrees: with 180 degrees only pairs exactly along a direction are counted, so all pairs along
the first axis are left out. -/
theorem C89_tolerance_wraps (argmax : List ℝ → Nat) (c : Calculator 3) :
    (c.setAngleTolerance (some (deg 180))).2 = .ok () ∧
    ((c.setAngleTolerance (some (deg 180))).1.setDirections kAnisotropicDirections3).1.selected argmax ![1, 0, 0] = [] := by
  have h180 : deg 180 = Real.pi := by unfold deg; ring
  have hne : Real.pi ≠ kAutomatic := by
    intro h
    have := Real.pi_pos
    rw [h] at this
    unfold kAutomatic at this
    linarith
  have hset : c.setAngleTolerance (some (deg 180)) = ({ c with angleTol := Real.pi }, .ok ()) := by
    unfold Calculator.setAngleTolerance
    rw [h180]
    dsimp only
    rw [if_neg]
    rintro ⟨-, h⟩
    exact h Real.pi_pos
  rw [hset]
  refine ⟨rfl, ?_⟩
  have hds : kAnisotropicDirections3 ≠ [] := by simp [kAnisotropicDirections3, table3]
  rw [List.eq_nil_iff_forall_not_mem]
  intro k hk
  dsimp only at hk
  have hlt : k < kAnisotropicDirections3.length := by
    rw [setDirections_eq _ hds] at hk
    have := ((C29_directions_within_angle ({ c with angleTol := Real.pi, directions := kAnisotropicDirections3.map normalized } : Calculator 3) argmax hne _ k).1 hk).1
    simpa using this
  have h := (C29_given_directions_within_angle ({ c with angleTol := Real.pi } : Calculator 3) kAnisotropicDirections3 hds argmax hne _ k _ (List.getElem?_eq_getElem hlt)
    (nonzero_3 _ (List.getElem_mem hlt))).2.1 hk
  have hmem := List.getElem_mem hlt
  generalize kAnisotropicDirections3[k] = d at h hmem
  obtain ⟨e, he, rfl⟩ := List.mem_map.1 hmem
  have hoff : 0 < e.2.1 ^ 2 + e.2.2 ^ 2 := by
    have hall : ∀ e ∈ table3, 0 < e.2.1 ^ 2 + e.2.2 ^ 2 := by decide +kernel
    exact hall e he
  have hoff' : (0 : ℝ) < (e.2.1 : ℝ) ^ 2 + (e.2.2 : ℝ) ^ 2 := by exact_mod_cast hoff
  dsimp only at h
  have hu : (0 : ℝ) ≤ ∑ i, (![(e.1 : ℝ) / 10 ^ 9, e.2.1 / 10 ^ 9, e.2.2 / 10 ^ 9] : Vec 3) i ^ 2 := Finset.sum_nonneg fun i _ => sq_nonneg _
  have h2 := pow_le_pow_left₀ (by positivity) h 2
  rw [mul_pow, mul_pow, Real.sq_sqrt hu, Real.sq_sqrt (Finset.sum_nonneg fun i _ => sq_nonneg _), sq_abs, sq_abs, Real.cos_pi] at h2
  simp [Fin.sum_univ_three] at h2
  ring_nf at h2
  linarith

/-- The hypotheses of the theorems are met: the calculator of the command line with `--aniso`, and with an angle tolerance of 15 or 5 degrees. -/
example (argmax : List ℝ → Nat) (ha : ArgmaxOk argmax) :
    (∃ k, ((Calculator.new 1 10 : Calculator 3).setDirections kAnisotropicDirections3).1.selected argmax ![1, 2, 3] = [k]) ∧
    (((({ (Calculator.new 1 10 : Calculator 3) with angleTol := deg 15 }).setDirections kAnisotropicDirections3).1.selected argmax ![1, 2, 3]) ≠ []) ∧
    (∀ k l, k ∈ ((({ (Calculator.new 1 10 : Calculator 3) with angleTol := deg 5 }).setDirections kAnisotropicDirections3).1.selected argmax ![1, 2, 3]) →
      l ∈ ((({ (Calculator.new 1 10 : Calculator 3) with angleTol := deg 5 }).setDirections kAnisotropicDirections3).1.selected argmax ![1, 2, 3]) → k = l) := by
  have hpi := Real.pi_pos
  have hv : (![1, 2, 3] : Vec 3) ≠ 0 := by
    intro h
    have := congrFun h 0
    simp at this
  refine ⟨?_, ?_, ?_⟩
  · obtain ⟨-, k, -, hk, -⟩ := (C89_automatic ha).1 (Calculator.new 1 10) ![1, 2, 3] rfl
    exact ⟨k, hk⟩
  · refine (C89_tolerance argmax).1 _ _ ?_ ?_ <;> (dsimp only; unfold deg; linarith)
  · refine (C89_tolerance argmax).2.2.1 _ _ hv ?_ ?_ <;> (dsimp only; unfold deg; linarith)

end Verif.Variogram
