import Verif.Props.InequalityOrder
import Mathlib.Data.List.Sort

/-!
# C19: once a bound is active, the worst offender may be passed over
-/

namespace Verif.Inequality

open Verif DistanceFilter Incremental

open Classical in
/-- Three points, one unit apart, with the lower bounds 5, 6 and 5.  The fitted function is 0 without centers; it takes the
prescribed values at the centers and elsewhere 2, 0 and 1. -/
noncomputable def three : Problem where
  n := 3
  l := 0
  values := fun _ => none
  lb := fun i => if i = 1 then some 6 else some 5
  ub := fun _ => none
  tol := 1 / 2
  d0 := 10
  w0 := fun _ => 0
  q0 := []
  search := fun d i => (List.range 3).filter (fun j => decide ((if i = j then (0 : ℝ) else 1) ≤ d))
  solve := fun c v _ => .ok ((List.range c.length).map (fun k => ((v[k]?).join).getD 0))
  eval := fun c w i => if i ∈ c then w.getD (c.idxOf i) 0 else if c = [] then 0 else if i = 0 then 2 else if i = 2 then 1 else 0
  sortD := fun l => l.mergeSort (fun a b => decide (b.2 ≤ a.2))

/-- the distance between two of the points -/
def threeDist (i j : Nat) : ℝ := if i = j then 0 else 1

theorem three_search : ExactSearch three.n threeDist three.search := by
  intro d i j _
  simp [three, threeDist]

theorem three_sort (l : List (Nat × ℝ)) :
    (three.sortD l).Perm l ∧ (three.sortD l).Pairwise (fun a b => b.2 ≤ a.2) := by
  refine ⟨List.mergeSort_perm _ _, ?_⟩
  have := List.pairwise_mergeSort (le := fun a b : Nat × ℝ => decide (b.2 ≤ a.2))
    (fun a b c h1 h2 => by simp only [decide_eq_true_eq] at *; linarith)
    (fun a b => by simpa using le_total b.2 a.2) l
  exact this.imp (fun h => by simpa using h)

theorem three_solve : SolverOk three := by
  intro c v w0 w hnd h
  simp only [three, Outcome.ok.injEq] at h ⊢
  subst h
  refine ⟨by simp, fun k idx x h1 h2 => ?_⟩
  obtain ⟨hk, hk'⟩ := List.getElem?_eq_some_iff.1 h1
  rw [if_pos (List.mem_of_getElem? h1), ← hk', hnd.idxOf_getElem k hk]
  simp only [List.getD_eq_getElem?_getD, List.getElem?_map, List.getElem?_range hk,
    Option.map_some, Option.getD_some, h2, Option.join_some]
  norm_num

theorem three_ineq : ineqIdcs three = [0, 1, 2] := by
  have : argWhere three.n three.lb = [0, 1, 2] := by
    simp [argWhere, three, List.range_succ]
  have h2 : argWhere three.n three.ub = [] := by
    simp [argWhere, three]
  rw [ineqIdcs, this, h2]; simp [setUnion]

theorem round_inl_centers {pb : Problem} {s : St} {c : List Nat} {w : List ℝ} (h : round pb s = .ok (.inl (c, w))) :
    c = centers pb s := by
  unfold round at h
  obtain ⟨⟨w', vf, wp, wq⟩, g1, hA⟩ := Outcome.bind_eq_ok.1 h
  obtain ⟨indices, g2, hB⟩ := Outcome.bind_eq_ok.1 hA
  obtain ⟨res', g3, hC⟩ := Outcome.bind_eq_ok.1 hB
  obtain ⟨flt', g4, hD⟩ := Outcome.bind_eq_ok.1 hC
  obtain ⟨a, g5, hE⟩ := Outcome.bind_eq_ok.1 hD
  split at hE
  · simp only [Outcome.pure_eq, Outcome.ok.injEq, Sum.inl.injEq, Prod.mk.injEq] at hE
    exact hE.1.symm
  · simp at hE

theorem three_all : ∀ i < three.n, (three.values i).isSome ∨ (three.lb i).isSome ∨ (three.ub i).isSome := by
  intro i _
  refine Or.inr (Or.inl ?_)
  simp only [three]; split <;> rfl

/-- the first pass makes the second point the only center -/
theorem three_first : ∃ s, round three (init three) = .ok (.inr s) ∧ Inv three s ∧ centers three s = [1] ∧
    (∀ i, s.actUb i = false) ∧ (∀ i, s.actLb i = true ↔ i = 1) ∧ s.fd = 5 := by
  have hsafe := C19_safe_if_all_points_constrained three_solve (fun c v w0 => by simp [three])
    (fun l => (three_sort l).1) three_all 1
  have hc0 : centers three (init three) = [] := by rw [centers_init]; rfl
  obtain ⟨x, hx⟩ : ∃ x, round three (init three) = .ok x := by
    rw [fit, loop] at hsafe
    cases hr : round three (init three) with
    | ok x => exact ⟨x, rfl⟩
    | throws e =>
        rw [hr] at hsafe
        obtain ⟨c, v, w0, h⟩ := hsafe.2 e rfl
        simp [three] at h
    | ub => rw [hr] at hsafe; exact absurd rfl hsafe.1
  rcases round_spec three_solve (fun l => (three_sort l).1) _ inv_init x hx with ⟨c, w, rfl, hr, -⟩ | ⟨s, rfl, hi⟩
  · exfalso
    have hc := round_inl_centers hx
    rw [hc0] at hc
    subst hc
    have := hr.lbFit (by simp [three]) 1 (by simp [three]) 6 (by simp [three])
    simp only [three] at this
    norm_num at this
  · obtain ⟨f, -, hf, h1, h2, h3⟩ := C19_worst_offenders_first three_search
      (fun i j => by simp [threeDist, eq_comm]) three_sort (by simp [three])
      (fun i _ => ⟨fun _ => Or.inl (by simp only [three]; split <;> rfl), fun _ => rfl⟩) _ s inv_init
      (fun _ => ⟨rfl, rfl⟩) hx
    have heq : eqIdcs three = [] := by rfl
    obtain ⟨w, v0, -, hfe⟩ := hf (by simp [three])
    have hf0 : ∀ i, f i = 0 := by
      intro i; rw [hfe, heq]; simp [three]
    have hv1 : violation three f 1 = 6 := by
      rw [violation, hf0]; simp [three]
    have hv : ∀ i, i ≠ 1 → violation three f i = 5 := by
      intro i hi; rw [violation, hf0]; simp [three, hi]
    have hfd : (init three).fd = 10 := by
      show max (10 : ℝ) kMinDistance = 10
      apply max_eq_left
      unfold kMinDistance; norm_num
    have hin1 : 1 ∈ centers three s := by
      obtain ⟨k, hk, -, hle, -⟩ := h1 1 (by simp [three]) (by rw [hv1]; simp only [three]; norm_num)
      by_cases hk1 : k = 1
      · rwa [hk1] at hk
      · rw [hv1, hv k hk1] at hle; norm_num at hle
    have honly : ∀ k ∈ centers three s, k = 1 := by
      intro k hk
      by_contra hne
      have := h3 k hk 1 hin1 (by rw [heq]; simp) (by rw [heq]; simp) hne
      rw [hfd, threeDist, if_neg hne] at this
      norm_num at this
    have hub : ∀ i, s.actUb i = false := by
      intro i
      by_contra h
      have := (hi.ub i (by simpa using h)).2.2
      simp [three] at this
    have hlb : ∀ i, s.actLb i = true ↔ i = 1 := by
      intro i
      constructor
      · intro h
        exact honly i (mem_centers.2 ⟨(hi.lb i h).1, Or.inr (Or.inl h)⟩)
      · rintro rfl
        rcases (mem_centers.1 hin1).2 with h | h | h
        · simp [three] at h
        · exact h
        · rw [hub] at h; simp at h
    refine ⟨s, hx, hi, ?_, hub, hlb, ?_⟩
    · have hnd := nodup_centers hi
      have hl : ∀ l : List Nat, l.Nodup → 1 ∈ l → (∀ k ∈ l, k = 1) → l = [1] := by
        intro l hn hm ho
        match l, hn, hm, ho with
        | [a], _, _, ho => rw [ho a (by simp)]
        | a :: b :: r, hn, _, ho =>
            have ha := ho a (by simp)
            have hb := ho b (by simp)
            rw [ha, hb] at hn
            simp at hn
      exact hl _ hnd hin1 honly
    · obtain ⟨-, -, -, -, -, -, -, -, -, -, -, -, -, e⟩ := round_inr inv_init hx
      rw [e, hfd, max_eq_left (by unfold kMinDistance; norm_num)]
      norm_num

/-- C19, a violation of what the ordering is for: in the second pass of this fit the fitted function is `f`; the third point
breaks its bound by 4, the first only by 3, and they are within the spacing of each other; yet the first becomes a center and
the third does not, because its residual was computed from the fitted value of the second point. -/
theorem C19_worse_offender_passed_over : ∃ (s s' : St) (w : List ℝ), round three (init three) = .ok (.inr s) ∧
    round three s = .ok (.inr s') ∧
    three.solve (centers three s) (centerValues three s (centers three s)) ((centers three s).map s.wp ++ s.wq) = .ok w ∧
    violation three (three.eval (centers three s) w) 0 = 3 ∧ violation three (three.eval (centers three s) w) 2 = 4 ∧
    threeDist 0 2 ≤ s.fd ∧ 0 ∈ centers three s' ∧ 2 ∉ centers three s' := by
  obtain ⟨s, hx, hi, hc, hub, hlb, hfd⟩ := three_first
  have hsafe := C19_safe_if_all_points_constrained three_solve (fun c v w0 => by simp [three])
    (fun l => (three_sort l).1) three_all 2
  obtain ⟨y, hy⟩ : ∃ y, round three s = .ok y := by
    rw [fit, loop, hx] at hsafe
    simp only [loop] at hsafe
    cases hr : round three s with
    | ok x => exact ⟨x, rfl⟩
    | throws e =>
        rw [hr] at hsafe
        obtain ⟨c, v, w0, h⟩ := hsafe.2 e rfl
        simp [three] at h
    | ub => rw [hr] at hsafe; exact absurd rfl hsafe.1
  have he0 : ∀ w, three.eval [1] w 0 = 2 := by intro w; simp [three]
  have he2 : ∀ w, three.eval [1] w 2 = 1 := by intro w; simp [three]
  rcases round_spec three_solve (fun l => (three_sort l).1) _ hi y hy with ⟨c, w, rfl, hr, -⟩ | ⟨s', rfl, hi'⟩
  · exfalso
    have hcc := round_inl_centers hy
    rw [hc] at hcc
    subst hcc
    have := hr.lbFit (by simp [three]) 2 (by simp [three]) 5 (by simp [three])
    rw [he2] at this
    simp only [three] at this
    norm_num at this
  · obtain ⟨w, vf, wp, wq, res, flt, h1, h3, h4, e1, e2, e3, e4, -⟩ := round_inr hi hy
    have hflt := flt_sub (fun l => (three_sort l).1) h4
    obtain ⟨f1, f2, -⟩ := fitStep_ok h1
    have hs := (f2 (by simp [three])).2
    have hl : three.l ≤ (centers three s).length := by simp [three]
    have hfit : ∀ i, fitted three (centers three s) w i = three.eval [1] w i := by
      intro i; rw [fitted, if_pos hl, hc]
    have hfix : |three.eval [1] w 1 - 6| ≤ 1 / 2 := by
      have h := (three_solve _ _ _ _ (nodup_centers hi) hs).2 0 1 6 (by rw [hc]; rfl) (by
        rw [centerValues_at hi (k := 0) (i := 1) (by rw [hc]; rfl)]
        simp [three, (hlb 1).2 rfl])
      rw [hc] at h; exact h
    rw [three_ineq] at f1
    have hidx : (List.range three.n).filter (fun i => !(centers three s).contains i) = [0, 2] := by
      rw [hc]; rfl
    rw [hidx] at h3 h4
    have r0 : residual three vf (0, 0) = .ok 3 := by
      rw [residual_eq (f := fun _ => 2) (by rw [f1]; simp [hfit, he0])]
      simp [violation, three]; norm_num
    have r2 : residual three vf (2, 1) = .ok 0 := by
      rw [residual_eq (f := fun _ => three.eval [1] w 1) (by rw [f1]; simp [hfit])]
      have : (5 : ℝ) - three.eval [1] w 1 ≤ 0 := by have := (abs_le.1 hfix).1; linarith
      have hl2 : three.lb 2 = some 5 := by simp [three]
      have hu2 : three.ub 2 = none := rfl
      simp [violation, hl2, hu2, this]
    have hres : res = [3, 0] := by
      simp only [List.zipIdx_cons, List.zipIdx_nil, Outcome.traverse, Nat.zero_add, r0, r2, Outcome.ok_bind,
        Outcome.pure_eq, Outcome.ok.injEq] at h3
      exact h3.symm
    subst hres
    have hsorted : three.sortD ([0, 2].zip [3, 0]) = [(0, 3), (2, 0)] := by
      obtain ⟨p1, p2⟩ := three_sort ([0, 2].zip [3, 0])
      apply List.Perm.eq_of_pairwise (le := fun a b : Nat × ℝ => b.2 ≤ a.2) _ p2 (by simp) p1
      intro a b ha hb hab hba
      have ha' := p1.mem_iff.1 ha
      have hab' := le_antisymm hba hab
      simp only [List.zip_cons_cons, List.zip_nil_left, List.mem_cons, List.not_mem_nil, or_false] at ha' hb
      rcases ha' with rfl | rfl <;> rcases hb with rfl | rfl
      · rfl
      · norm_num at hab'
      · norm_num at hab'
      · rfl
    rw [hsorted] at h4
    obtain ⟨g1, g2⟩ := filterIndices_spec three_search (fun i j => by simp [threeDist, eq_comm]) hi.fd
      (by intro p hp; simp only [List.mem_cons, List.not_mem_nil, or_false] at hp
          rcases hp with rfl | rfl <;> simp [three]) h4
    have hk0 : 0 ∈ flt := by
      by_contra h
      obtain ⟨j, hj, -⟩ := g2 [] 0 [2] (by simp) h
      simp at hj
    have hk2 : 2 ∉ flt := by
      intro h
      have := g1 0 hk0 2 h (by norm_num)
      rw [hfd] at this
      simp only [threeDist] at this
      norm_num at this
    refine ⟨s, s', w, hx, hy, hs, ?_, ?_, ?_, ?_, ?_⟩
    · rw [hc, violation, he0]; simp [three]; norm_num
    · rw [hc, violation, he2]; simp [three]; norm_num
    · rw [hfd]; simp only [threeDist]; norm_num
    · have := (fold_activates (pb := three) (f := fitted three (centers three s) w) hk0 (ineqIdcs three)
        ⟨s.actLb, s.actUb, wp, false⟩ (by rw [three_ineq]; simp) (by rw [three_ineq]; simp)
        (by simpa using (hlb 0).not.2 (by norm_num)) (hub 0)).1
        ⟨5, by simp [three], by rw [hfit, he0]; simp only [three]; norm_num⟩
      rw [← e3] at this
      exact mem_centers.2 ⟨by simp [three], Or.inr (Or.inl this)⟩
    · intro hm
      have hn : New three flt (fitted three (centers three s) w) 2
          ((ineqIdcs three).foldl (upd three flt (fitted three (centers three s) w)) ⟨s.actLb, s.actUb, wp, false⟩) :=
        fold_new _ _ ⟨fun hh => absurd ((hlb 2).1 hh) (by norm_num), fun hh => absurd (hh : s.actUb 2 = true) (by simp [hub])⟩
      rcases (mem_centers.1 hm).2 with hh | hh | hh
      · simp [three] at hh
      · exact hk2 (hn.1 (e3 ▸ hh)).2.1
      · exact hk2 (hn.2 (e4 ▸ hh)).2.1

end Verif.Inequality
