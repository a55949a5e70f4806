import Verif.Lemmas.PlaneEstimator
import Verif.Lemmas.PlaneSvd
import Verif.Props.NormalEstimator

/-!
# C68: the plane estimator fits a best plane, and estimated normals are those of best planes of the nearest points
-/

namespace Verif.Plane

open Verif Verif.Plane.Spec
open Verif.Normals (V3 dot Cloud State estimateWithKnn estimateWithRadius)

/-- The decomposition used by the estimator is one. -/
def Svd.Correct (svd : Svd) : Prop := ∀ A, SvdOf A (svd A).1 (svd A).2

/-- there is a correct decomposition, for all matrices -/
theorem exists_correct_svd : ∃ svd : Svd, svd.Correct := by
  choose s V h using exists_svd
  exact ⟨fun A => (s A, V A), h⟩

theorem rms_div {f : V3 → ℝ} {points : List V3} {x : ℝ} (h : (points.map f).sum = x) (hx : 0 ≤ x) :
    rms f points = Real.sqrt x / Real.sqrt points.length := by
  unfold rms
  rw [h, Real.sqrt_div hx]

theorem rms_le {f g : V3 → ℝ} {points : List V3} (h : (points.map f).sum ≤ (points.map g).sum) : rms f points ≤ rms g points :=
  Real.sqrt_le_sqrt (div_le_div_of_nonneg_right h (Nat.cast_nonneg _))

/-- C68: fewer than three points read a singular value that is not there. -/
theorem C68_few_points (svd : Svd) (points : List V3) (h : points.length < 3) : estimate svd points = .ub := by
  unfold estimate; rw [if_pos h]

/-- C68, what is reported: for at least three points the errors are the root mean square distances from the barycenter, from the line
through it along the first direction and from the plane through it with the reported normal, each but not less than the stated fraction of
the one before; the directions are orthonormal; the plane factor is `line² / (plane * point)`. -/
theorem C68_errors (svd : Svd) (hsvd : svd.Correct) (points : List V3) (h : 3 ≤ points.length) :
    ∃ e, estimate svd points = .ok e ∧ (∀ k l, dot (e.basis k) (e.basis l) = if k = l then 1 else 0) ∧
      e.pointErr = max (rms (distPoint2 (barycenter points)) points) 1e-10 ∧
      e.lineErr = max (rms (distLine2 (barycenter points) (e.basis 0)) points) (1e-10 * e.pointErr) ∧
      e.planeErr = max (rms (distPlane2 (barycenter points) e.planeNormal) points) (1e-10 * e.lineErr) ∧
      e.planeFactor = e.lineErr ^ 2 / (e.planeErr * e.pointErr) := by
  have S := hsvd (centred points)
  unfold estimate
  rw [if_neg (by omega)]
  refine ⟨_, rfl, S.orthonormal, ?_, ?_, ?_, ?_⟩
  · dsimp only
    rw [rms_div (x := (svd (centred points)).1 0 ^ 2 + (svd (centred points)).1 1 ^ 2 + (svd (centred points)).1 2 ^ 2) ?_ (by positivity)]
    rw [← sum_norm S, centred_map]
    rfl
  · dsimp only
    rw [rms_div (x := (svd (centred points)).1 1 ^ 2 + (svd (centred points)).1 2 ^ 2) ?_ (by positivity)]
    have h1 := sum_norm S
    have h2 := along_basis S 0
    rw [centred_map] at h1 h2
    unfold distLine2
    rw [sum_sub, h1, h2]; ring
  · dsimp only [Estimate.planeNormal]
    rw [rms_div (x := (svd (centred points)).1 2 ^ 2) ?_ (by positivity), Real.sqrt_sq_eq_abs]
    have h2 := along_basis S 2
    rw [centred_map] at h2
    exact h2
  · dsimp only; ring

/-- C68: the barycenter fits best among all points, the line through it along the first direction among all lines, and the plane through it
with the reported normal among all planes. -/
theorem C68_best (svd : Svd) (hsvd : svd.Correct) (points : List V3) (h : 3 ≤ points.length) (e : Estimate)
    (he : estimate svd points = .ok e) (c d : V3) (hd : dot d d = 1) :
    rms (distPoint2 (barycenter points)) points ≤ rms (distPoint2 c) points ∧
    rms (distLine2 (barycenter points) (e.basis 0)) points ≤ rms (distLine2 c d) points ∧
    rms (distPlane2 (barycenter points) e.planeNormal) points ≤ rms (distPlane2 c d) points := by
  have S := hsvd (centred points)
  have hne : points ≠ [] := by intro h'; subst h'; simp at h
  have hb : e.basis = (svd (centred points)).2 := by
    unfold estimate at he
    rw [if_neg (by omega)] at he
    simp only [Outcome.ok.injEq] at he
    rw [← he]
  have hnn : ∀ v : V3, 0 ≤ dot v v := fun v => by rw [dot3]; nlinarith [mul_self_nonneg (v 0), mul_self_nonneg (v 1), mul_self_nonneg (v 2)]
  have hl : (0 : ℝ) ≤ points.length := Nat.cast_nonneg _
  refine ⟨rms_le ?_, rms_le ?_, rms_le ?_⟩
  · unfold distPoint2
    rw [sum_shift_norm hne c]
    have := mul_nonneg hl (hnn (barycenter points - c))
    linarith
  · unfold distLine2
    rw [sum_sub, sum_sub, sum_shift_norm hne c, sum_shift hne c d, hb]
    have h1 := along_basis S 0
    have h2 := along_le S d hd
    rw [centred_map] at h1 h2
    have := mul_nonneg hl (sub_nonneg.2 (cauchy (barycenter points - c) d hd))
    linarith
  · unfold distPlane2 Estimate.planeNormal
    rw [sum_shift hne c d, hb]
    have h1 := along_basis S 2
    have h2 := along_ge S d hd
    rw [centred_map] at h1 h2
    have := mul_nonneg hl (sq_nonneg (dot (barycenter points - c) d))
    linarith

/-- C68: the errors are positive and ordered, and the plane factor lies between `1e-10` and `1e10`. -/
theorem C68_factor (svd : Svd) (hsvd : svd.Correct) (points : List V3) (e : Estimate) (he : estimate svd points = .ok e) :
    0 < e.planeErr ∧ e.planeErr ≤ e.lineErr ∧ e.lineErr ≤ e.pointErr ∧ 1e-10 ≤ e.planeFactor ∧ e.planeFactor ≤ 1e10 := by
  have S := hsvd (centred points)
  unfold estimate at he
  by_cases h : points.length < 3
  · rw [if_pos h] at he; cases he
  rw [if_neg h] at he
  simp only [Outcome.ok.injEq] at he
  subst he
  dsimp only
  generalize (svd (centred points)).1 = s at S ⊢
  have hlen : 0 < points.length := by omega
  have hn : (0 : ℝ) < Real.sqrt points.length := Real.sqrt_pos.2 (by exact_mod_cast hlen)
  have h01 : Real.sqrt (s 1 ^ 2 + s 2 ^ 2) / Real.sqrt points.length ≤ Real.sqrt (s 0 ^ 2 + s 1 ^ 2 + s 2 ^ 2) / Real.sqrt points.length :=
    div_le_div_of_nonneg_right (Real.sqrt_le_sqrt (by nlinarith [sq_nonneg (s 0)])) hn.le
  have h12 : |s 2| / Real.sqrt points.length ≤ Real.sqrt (s 1 ^ 2 + s 2 ^ 2) / Real.sqrt points.length := by
    refine div_le_div_of_nonneg_right ?_ hn.le
    rw [← Real.sqrt_sq_eq_abs]
    exact Real.sqrt_le_sqrt (by nlinarith [sq_nonneg (s 1)])
  generalize Real.sqrt (s 0 ^ 2 + s 1 ^ 2 + s 2 ^ 2) / Real.sqrt points.length = P at *
  generalize Real.sqrt (s 1 ^ 2 + s 2 ^ 2) / Real.sqrt points.length = L at *
  generalize |s 2| / Real.sqrt points.length = Q at *
  have hP : (1e-10 : ℝ) ≤ max P 1e-10 := le_max_right _ _
  have hL : 1e-10 * max P 1e-10 ≤ max L (1e-10 * max P 1e-10) := le_max_right _ _
  have hLP : max L (1e-10 * max P 1e-10) ≤ max P 1e-10 := max_le (h01.trans (le_max_left _ _)) (by linarith)
  have hQ := le_max_right Q (1e-10 * max L (1e-10 * max P 1e-10))
  have hQL : max Q (1e-10 * max L (1e-10 * max P 1e-10)) ≤ max L (1e-10 * max P 1e-10) :=
    max_le (h12.trans (le_max_left _ _)) (by linarith)
  generalize max P 1e-10 = p at *
  generalize max L (1e-10 * p) = l at *
  generalize max Q (1e-10 * l) = q at *
  have hp : 0 < p := by linarith
  have hl : 0 < l := by nlinarith
  have hq : 0 < q := by nlinarith
  refine ⟨hq, hQL, hLP, ?_, ?_⟩
  · rw [le_div_iff₀ (by positivity)]
    nlinarith [mul_le_mul_of_nonneg_right hQL hp.le, mul_le_mul_of_nonneg_left hL hl.le]
  · rw [div_le_iff₀ (by positivity)]
    nlinarith [mul_le_mul_of_nonneg_right hQ hp.le, mul_le_mul_of_nonneg_left hLP hl.le]

/-- C68: if the points lie in a plane, they lie in the plane through the barycenter with the reported normal. -/
theorem C68_flat (svd : Svd) (hsvd : svd.Correct) (points : List V3) (h : 3 ≤ points.length) (e : Estimate)
    (he : estimate svd points = .ok e) (c w : V3) (hw : dot w w = 1) (hflat : ∀ p ∈ points, dot (p - c) w = 0) :
    ∀ p ∈ points, dot (p - barycenter points) e.planeNormal = 0 := by
  have h1 := (C68_best svd hsvd points h e he c w hw).2.2
  have h0 : (points.map (distPlane2 c w)).sum = 0 := by
    rw [sum_congr (g := fun _ => 0) (fun p hp => by unfold distPlane2; rw [hflat p hp]; ring), sum_const]; ring
  have hlen' : 0 < points.length := by omega
  have hlen : (0 : ℝ) < points.length := by exact_mod_cast hlen'
  have h2 : (points.map (distPlane2 (barycenter points) e.planeNormal)).sum ≤ 0 := by
    unfold rms at h1
    rw [h0, zero_div, Real.sqrt_zero] at h1
    have := Real.sqrt_eq_zero'.1 (le_antisymm h1 (Real.sqrt_nonneg _))
    by_contra hc
    exact absurd this (not_le.2 (div_pos (not_le.1 hc) hlen))
  intro p hp
  have key : ∀ (l : List V3) (f : V3 → ℝ), (∀ q, 0 ≤ f q) → (l.map f).sum ≤ 0 → ∀ q ∈ l, f q = 0 := by
    intro l f hf
    induction l with
    | nil => intro _ q hq; cases hq
    | cons a l ih =>
        intro hs q hq
        simp only [List.map_cons, List.sum_cons] at hs
        have := sum_nonneg hf l
        rcases List.mem_cons.1 hq with rfl | hq
        · linarith [hf q]
        · exact ih (by linarith [hf a]) q hq
  have := key points _ (fun q => sq_nonneg _) h2 p hp
  exact pow_eq_zero_iff (two_ne_zero) |>.1 this

theorem best_of_factor {svd : Svd} (hsvd : svd.Correct) {points : List V3} (h : 3 ≤ points.length) :
    BestNormal points (factorAndNormal svd points).2 := by
  obtain ⟨e, he, h1, _⟩ := C68_errors svd hsvd points h
  unfold factorAndNormal
  rw [he]
  refine ⟨?_, barycenter points, ?_⟩
  · have := h1 2 2
    rw [if_pos rfl] at this
    exact this
  · intro c' w' hw'
    exact (C68_best svd hsvd points h e he c' w' hw').2.2

theorem nearest_of_order {n : Nat} {point : Nat → V3} {i : Nat} {l : List Nat} (h : ByDistance n point i l) {k : Nat} (hk : k ≤ n) :
    Nearest n point i k (l.take k) := by
  have hnd : l.Nodup := h.1.nodup_iff.2 List.nodup_range
  have hlen : l.length = n := by rw [h.1.length_eq, List.length_range]
  refine ⟨hnd.sublist (List.take_sublist _ _), by rw [List.length_take]; omega, ?_, ?_⟩
  · intro j hj
    exact List.mem_range.1 (h.1.mem_iff.1 (List.mem_of_mem_take hj))
  · intro j hj m hm hmn
    have hml : m ∈ l := h.1.mem_iff.2 (List.mem_range.2 hm)
    rw [← List.take_append_drop k l] at hml
    have hmd : m ∈ l.drop k := by
      rcases List.mem_append.1 hml with h' | h'
      · exact absurd h' hmn
      · exact h'
    have hp := h.2
    rw [← List.take_append_drop k l, List.pairwise_append] at hp
    exact hp.2.2 j hj m hmd

/-- C68, normals from neighbour counts: if the tree answers with the nearest points, nearest first, then after `estimate_with_knn` every normal
is a unit normal of a plane that fits the nearest `min(k, n)` points best, for one of the given `k`. -/
theorem C68_knn (svd : Svd) (hsvd : svd.Correct) (n : Nat) (point : Nat → V3) (knn : Nat → Nat → List Nat)
    (radius : Nat → ℝ → List (Nat × ℝ)) (order : Nat → List Nat)
    (horder : ∀ i < n, ByDistance n point i (order i) ∧ ∀ m, knn i m = (order i).take m)
    (ks : List Int) (hne : ks ≠ []) (h3 : ∀ k ∈ ks, 3 ≤ k) (hn : 3 ≤ n) (s : State) :
    ∃ s', estimateWithKnn (cloud svd n point knn radius) ks s = .ok s' ∧ ∀ i < n, ∃ k ∈ ks, ∃ nn,
      Nearest n point i (min k.toNat n) nn ∧ BestNormal (nn.map point) (s'.normals i) := by
  obtain ⟨s', h1, _, h2⟩ := Normals.C46_knn (cloud svd n point knn radius) ks hne h3 hn order
    (fun i hi => ⟨by rw [(horder i hi).1.1.length_eq, List.length_range]; rfl, (horder i hi).2⟩) s
  refine ⟨s', h1, fun i hi => ?_⟩
  obtain ⟨k, hk, he⟩ := (h2 i hi).1
  refine ⟨k, hk, (order i).take (min k.toNat n), nearest_of_order (horder i hi).1 (by omega), ?_⟩
  have hN := nearest_of_order (horder i hi).1 (k := min k.toNat n) (by omega)
  have e : s'.normals i = (factorAndNormal svd (((order i).take (min k.toNat n)).map point)).2 := congrArg Prod.snd he
  rw [e]
  refine best_of_factor hsvd ?_
  rw [List.length_map, hN.count]
  have := h3 k hk
  omega

open Classical in
/-- C68, normals from radii: if the tree answers with the points within the radius and every given radius holds at least three points around
the point `i`, or none does, then after `estimate_with_radius` the normal of `i` is a unit normal of a plane that fits the points within one of the radii best, or
zero. -/
theorem C68_radius (svd : Svd) (hsvd : svd.Correct) (n : Nat) (point : Nat → V3) (knn : Nat → Nat → List Nat)
    (radius : Nat → ℝ → List (Nat × ℝ)) (order : Nat → List Nat)
    (horder : ∀ i < n, ByDistance n point i (order i) ∧ ∀ r, radius i r =
      ((order i).map (fun j => (j, Real.sqrt (distPoint2 (point i) (point j))))).filter (fun p => decide (p.2 ≤ r)))
    (rs : List ℝ) (hne : rs ≠ []) (hpos : ∀ r ∈ rs, 0 < r)
    (hfew : ∀ i < n, (∀ r ∈ rs, ((List.range n).filter (fun j => decide (Real.sqrt (distPoint2 (point i) (point j)) ≤ r))).length < 3) ∨
      ∀ r ∈ rs, 3 ≤ ((List.range n).filter (fun j => decide (Real.sqrt (distPoint2 (point i) (point j)) ≤ r))).length) (s : State) :
    ∃ s', estimateWithRadius (cloud svd n point knn radius) rs s = .ok s' ∧ ∀ i < n,
      ((∀ r ∈ rs, ((List.range n).filter (fun j => decide (Real.sqrt (distPoint2 (point i) (point j)) ≤ r))).length < 3) → s'.normals i = 0) ∧
      ((∀ r ∈ rs, 3 ≤ ((List.range n).filter (fun j => decide (Real.sqrt (distPoint2 (point i) (point j)) ≤ r))).length) →
        ∃ r ∈ rs, ∃ nn : List Nat, nn.Nodup ∧ (∀ j, j ∈ nn ↔ j < n ∧ Real.sqrt (distPoint2 (point i) (point j)) ≤ r) ∧
          BestNormal (nn.map point) (s'.normals i)) := by
  let near : Nat → List (Nat × ℝ) := fun i => (order i).map (fun j => (j, Real.sqrt (distPoint2 (point i) (point j))))
  have hw : ∀ i r, Normals.within (near i) r = (order i).filter (fun j => decide (Real.sqrt (distPoint2 (point i) (point j)) ≤ r)) := by
    intro i r
    show ((near i).filter _).map Prod.fst = _
    show (((order i).map _).filter _).map Prod.fst = _
    rw [List.filter_map, List.map_map]
    have : (Prod.fst ∘ fun j => (j, Real.sqrt (distPoint2 (point i) (point j)))) = id := rfl
    rw [this, List.map_id]
    rfl
  have hperm : ∀ i < n, ∀ r, (Normals.within (near i) r).Perm
      ((List.range n).filter (fun j => decide (Real.sqrt (distPoint2 (point i) (point j)) ≤ r))) := by
    intro i hi r
    rw [hw]
    exact (horder i hi).1.1.filter _
  obtain ⟨s', h1, _, h2⟩ := Normals.C46_radius (cloud svd n point knn radius) rs hne hpos near
    (fun i hi => ⟨List.pairwise_map.2 ((horder i hi).1.2.imp (fun h => Real.sqrt_le_sqrt h)), (horder i hi).2⟩)
    (fun i hi => (hfew i hi).imp (fun h r hr => by rw [(hperm i hi r).length_eq]; exact h r hr)
      (fun h r hr => by rw [(hperm i hi r).length_eq]; exact h r hr)) s
  refine ⟨s', h1, fun i hi => ⟨fun h => ?_, fun h => ?_⟩⟩
  · exact ((h2 i hi).1 (fun r hr => by rw [(hperm i hi r).length_eq]; exact h r hr)).1
  · obtain ⟨r, hr, he⟩ := ((h2 i hi).2 (fun r hr => by rw [(hperm i hi r).length_eq]; exact h r hr)).1
    refine ⟨r, hr, Normals.within (near i) r, ?_, ?_, ?_⟩
    · exact (hperm i hi r).nodup_iff.2 (List.nodup_range.filter _)
    · intro j
      rw [(hperm i hi r).mem_iff, List.mem_filter, List.mem_range, decide_eq_true_eq]
    · have e : s'.normals i = (factorAndNormal svd ((Normals.within (near i) r).map point)).2 := congrArg Prod.snd he
      rw [e]
      refine best_of_factor hsvd ?_
      rw [List.length_map, (hperm i hi r).length_eq]
      exact h r hr

/-- Non-vacuity: three points in the plane `z = x` - the reported plane contains them. -/
example : ∃ svd : Svd, ∃ e, estimate svd [![0, 0, 0], ![1, 0, 1], ![0, 1, 0]] = .ok e ∧
    dot e.planeNormal e.planeNormal = 1 ∧ ∀ p ∈ [![0, 0, 0], ![1, 0, 1], (![0, 1, 0] : V3)],
      dot (p - barycenter [![0, 0, 0], ![1, 0, 1], ![0, 1, 0]]) e.planeNormal = 0 := by
  obtain ⟨svd, hsvd⟩ := exists_correct_svd
  obtain ⟨e, he, h1, _⟩ := C68_errors svd hsvd [![0, 0, 0], ![1, 0, 1], ![0, 1, 0]] (by simp)
  refine ⟨svd, e, he, by have := h1 2 2; rw [if_pos rfl] at this; exact this, ?_⟩
  refine C68_flat svd hsvd _ (by simp) e he 0 (fun j => ![1, 0, -1] j / Real.sqrt 2) ?_ ?_
  · rw [dot3]
    have := Real.mul_self_sqrt (show (0 : ℝ) ≤ 2 by norm_num)
    have h0 : Real.sqrt 2 ≠ 0 := by positivity
    simp
    field_simp
    nlinarith
  · intro p hp
    fin_cases hp <;> simp [dot3]
    ring

end Verif.Plane
