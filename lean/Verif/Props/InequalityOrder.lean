import Verif.Props.InequalityFitter

/-!
# C19: which points a pass adds, and what the next pass starts from
-/

namespace Verif.Inequality

open Verif DistanceFilter Incremental

variable {pb : Problem}

/-- By how much the value `f i` breaks the worse of the bounds of point `i`; 0 if it breaks none. -/
noncomputable def violation (pb : Problem) (f : Nat → ℝ) (i : Nat) : ℝ :=
  max 0 (max ((pb.lb i).elim 0 (fun b => b - f i)) ((pb.ub i).elim 0 (fun b => f i - b)))

/-- the update of one point -/
noncomputable def upd (pb : Problem) (flt : List Nat) (f : Nat → ℝ) (a : Act) (i : Nat) : Act :=
  updUb pb flt (f i) i (updLb pb flt (f i) i a)

theorem upd_wp {flt : List Nat} {f : Nat → ℝ} {a : Act} {i x : Nat} (h : i ∉ flt) :
    (upd pb flt f a x).wp i = a.wp i := by
  have hne : ∀ {y}, flt.contains y = true → i ≠ y := by
    rintro y hy rfl; exact h (by simpa using hy)
  have h1 : (updLb pb flt (f x) x a).wp i = a.wp i := by
    unfold updLb
    cases pb.lb x with
    | none => rfl
    | some b =>
        simp only
        split
        · split <;> rfl
        · split
          · split
            · rename_i hc; exact Function.update_of_ne (hne hc) ..
            · rfl
          · rfl
  rw [upd, ← h1]
  unfold updUb
  cases pb.ub x with
  | none => rfl
  | some b =>
      simp only
      split
      · split <;> rfl
      · split
        · split
          · rename_i hc; exact Function.update_of_ne (hne hc) ..
          · rfl
        · rfl

theorem fold_wp {flt : List Nat} {f : Nat → ℝ} {i : Nat} (h : i ∉ flt) : ∀ (l : List Nat) (a : Act),
    (l.foldl (upd pb flt f) a).wp i = a.wp i
  | [], _ => rfl
  | x :: l, a => by rw [List.foldl_cons, fold_wp h l, upd_wp h]

/-- What a point that was not active at the start of the pass satisfies from then on. -/
def New (pb : Problem) (flt : List Nat) (f : Nat → ℝ) (i : Nat) (a : Act) : Prop :=
  (a.actLb i = true → a.wp i = 0 ∧ i ∈ flt ∧ ∃ b, pb.lb i = some b ∧ f i < b - pb.tol) ∧
  (a.actUb i = true → a.wp i = 0 ∧ i ∈ flt ∧ ∃ b, pb.ub i = some b ∧ b + pb.tol < f i)

theorem updLb_new {flt : List Nat} {f : Nat → ℝ} {a : Act} {i x : Nat} (h : New pb flt f i a) :
    New pb flt f i (updLb pb flt (f x) x a) := by
  unfold updLb
  cases hb : pb.lb x with
  | none => exact h
  | some b =>
      simp only
      split
      · split
        · refine ⟨fun hi => ?_, h.2⟩
          by_cases hx : i = x
          · subst hx; simp at hi
          · simp only [Function.update_of_ne hx] at hi; exact h.1 hi
        · exact h
      · split
        · rename_i hlt
          split
          · rename_i hc
            by_cases hx : i = x
            · subst hx
              have hm : i ∈ flt := by simpa using hc
              exact ⟨fun _ => ⟨by simp, hm, b, hb, hlt⟩, fun hi => ⟨by simp, hm, (h.2 hi).2.2⟩⟩
            · refine ⟨fun hi => ?_, fun hi => ?_⟩
              · simp only [Function.update_of_ne hx] at hi ⊢; exact h.1 hi
              · simp only [Function.update_of_ne hx]; exact h.2 hi
          · exact h
        · exact h

theorem updUb_new {flt : List Nat} {f : Nat → ℝ} {a : Act} {i x : Nat} (h : New pb flt f i a) :
    New pb flt f i (updUb pb flt (f x) x a) := by
  unfold updUb
  cases hb : pb.ub x with
  | none => exact h
  | some b =>
      simp only
      split
      · split
        · refine ⟨h.1, fun hi => ?_⟩
          by_cases hx : i = x
          · subst hx; simp at hi
          · simp only [Function.update_of_ne hx] at hi; exact h.2 hi
        · exact h
      · split
        · rename_i hlt
          split
          · rename_i hc
            by_cases hx : i = x
            · subst hx
              have hm : i ∈ flt := by simpa using hc
              exact ⟨fun hi => ⟨by simp, hm, (h.1 hi).2.2⟩, fun _ => ⟨by simp, hm, b, hb, hlt⟩⟩
            · refine ⟨fun hi => ?_, fun hi => ?_⟩
              · simp only [Function.update_of_ne hx]; exact h.1 hi
              · simp only [Function.update_of_ne hx] at hi ⊢; exact h.2 hi
          · exact h
        · exact h

theorem fold_new {flt : List Nat} {f : Nat → ℝ} {i : Nat} : ∀ (l : List Nat) (a : Act), New pb flt f i a →
    New pb flt f i (l.foldl (upd pb flt f) a)
  | [], _, h => h
  | _ :: l, _, h => fold_new l _ (updUb_new (updLb_new h))

theorem updLb_actUb {flt : List Nat} {v : ℝ} {a : Act} {x : Nat} : (updLb pb flt v x a).actUb = a.actUb := by
  unfold updLb
  cases pb.lb x with
  | none => rfl
  | some b => simp only; split_ifs <;> rfl

theorem updUb_actLb {flt : List Nat} {v : ℝ} {a : Act} {x : Nat} : (updUb pb flt v x a).actLb = a.actLb := by
  unfold updUb
  cases pb.ub x with
  | none => rfl
  | some b => simp only; split_ifs <;> rfl

theorem updLb_other {flt : List Nat} {v : ℝ} {a : Act} {i x : Nat} (h : i ≠ x) :
    (updLb pb flt v x a).actLb i = a.actLb i := by
  unfold updLb
  cases pb.lb x with
  | none => rfl
  | some b => simp only; split_ifs <;> first | rfl | exact Function.update_of_ne h ..

theorem updUb_other {flt : List Nat} {v : ℝ} {a : Act} {i x : Nat} (h : i ≠ x) :
    (updUb pb flt v x a).actUb i = a.actUb i := by
  unfold updUb
  cases pb.ub x with
  | none => rfl
  | some b => simp only; split_ifs <;> first | rfl | exact Function.update_of_ne h ..

theorem upd_other {flt : List Nat} {f : Nat → ℝ} {a : Act} {i x : Nat} (h : i ≠ x) :
    (upd pb flt f a x).actLb i = a.actLb i ∧ (upd pb flt f a x).actUb i = a.actUb i := by
  unfold upd
  exact ⟨by rw [updUb_actLb, updLb_other h], by rw [updUb_other h, updLb_actUb]⟩

theorem fold_other {flt : List Nat} {f : Nat → ℝ} {i : Nat} : ∀ (l : List Nat) (a : Act), i ∉ l →
    (l.foldl (upd pb flt f) a).actLb i = a.actLb i ∧ (l.foldl (upd pb flt f) a).actUb i = a.actUb i
  | [], _, _ => ⟨rfl, rfl⟩
  | x :: l, a, h => by
      obtain ⟨h1, h2⟩ := fold_other (flt := flt) (f := f) l (upd pb flt f a x) (fun hh => h (List.mem_cons_of_mem _ hh))
      obtain ⟨h3, h4⟩ := upd_other (pb := pb) (flt := flt) (f := f) (a := a) (i := i) (x := x) (fun e => h (by simp [e]))
      exact ⟨h1.trans h3, h2.trans h4⟩

theorem fold_activates {flt : List Nat} {f : Nat → ℝ} {i : Nat} (hi : i ∈ flt) : ∀ (l : List Nat) (a : Act), i ∈ l →
    l.Nodup → a.actLb i = false → a.actUb i = false →
    ((∃ b, pb.lb i = some b ∧ f i < b - pb.tol) → (l.foldl (upd pb flt f) a).actLb i = true) ∧
    ((∃ b, pb.ub i = some b ∧ b + pb.tol < f i) → (l.foldl (upd pb flt f) a).actUb i = true)
  | [], _, h, _, _, _ => by simp at h
  | x :: l, a, h, hnd, h1, h2 => by
      rw [List.foldl_cons]
      have hnd' := List.nodup_cons.1 hnd
      by_cases hx : i = x
      · subst hx
        obtain ⟨e1, e2⟩ := fold_other (flt := flt) (f := f) l (upd pb flt f a i) hnd'.1
        rw [e1, e2]
        refine ⟨?_, ?_⟩
        · rintro ⟨b, hb, hlt⟩
          rw [upd, updUb_actLb]
          unfold updLb
          rw [hb]
          simp only
          rw [if_neg (by simp [h1]), if_pos hlt, if_pos (by simpa using hi)]
          simp
        · rintro ⟨b, hb, hlt⟩
          rw [upd]
          unfold updUb
          rw [hb]
          simp only [updLb_actUb]
          rw [if_neg (by simp [h2]), if_pos hlt, if_pos (by simpa using hi)]
          simp
      · obtain ⟨e1, e2⟩ := upd_other (pb := pb) (flt := flt) (f := f) (a := a) (i := i) (x := x) hx
        exact fold_activates hi l _ ((List.mem_cons.1 h).resolve_left hx) hnd'.2 (e1.trans h1) (e2.trans h2)

theorem filterIndices_spec {dist : Nat → Nat → ℝ} (hs : ExactSearch pb.n dist pb.search)
    (hsym : ∀ i j, dist i j = dist j i) {fd : ℝ} (hfd : kMinDistance ≤ fd) {sorted : List (Nat × ℝ)}
    (hlt : ∀ p ∈ sorted, p.1 < pb.n) {k : List Nat} (h : filterIndices pb fd sorted = .ok k) :
    (∀ i ∈ k, ∀ j ∈ k, i ≠ j → fd < dist i j) ∧
      ∀ pre x post, sorted.map Prod.fst = pre ++ x :: post → x ∉ k → ∃ j ∈ pre, j ∈ k ∧ j ≠ x ∧ dist j x ≤ fd := by
  obtain ⟨kept, h1, _, h3, h4⟩ := filter_spec hs hsym (DF.new pb.n) rfl fd hfd (sorted.map Prod.fst) (by
    intro i hi; obtain ⟨p, hp, rfl⟩ := List.mem_map.1 hi; exact hlt p hp)
  unfold filterIndices at h
  rw [h1] at h
  simp only [DF.filteredIndices, if_true, Outcome.ok.injEq] at h
  subst h
  exact ⟨h3, h4⟩

/-- a pass that does not end the fit, taken apart -/
theorem round_inr {s s' : St} (hi : Inv pb s) (h : round pb s = .ok (.inr s')) :
    ∃ w vf wp wq res flt, fitStep pb s (centers pb s) = .ok (w, vf, wp, wq) ∧
      Outcome.traverse (residual pb vf)
        ((List.range pb.n).filter (fun i => !(centers pb s).contains i)).zipIdx = .ok res ∧
      filterIndices pb s.fd
        (pb.sortD (((List.range pb.n).filter (fun i => !(centers pb s).contains i)).zip res)) = .ok flt ∧
      s'.wq = wq ∧
      s'.wp = ((ineqIdcs pb).foldl (upd pb flt (fitted pb (centers pb s) w)) ⟨s.actLb, s.actUb, wp, false⟩).wp ∧
      s'.actLb = ((ineqIdcs pb).foldl (upd pb flt (fitted pb (centers pb s) w)) ⟨s.actLb, s.actUb, wp, false⟩).actLb ∧
      s'.actUb = ((ineqIdcs pb).foldl (upd pb flt (fitted pb (centers pb s) w)) ⟨s.actLb, s.actUb, wp, false⟩).actUb ∧
      s'.fd = max (1 / 2 * s.fd) kMinDistance := by
  unfold round at h
  obtain ⟨⟨w, vf, wp, wq⟩, h1, hA⟩ := Outcome.bind_eq_ok.1 h
  obtain ⟨indices, h2, hB⟩ := Outcome.bind_eq_ok.1 hA
  obtain ⟨res, h3, hC⟩ := Outcome.bind_eq_ok.1 hB
  obtain ⟨flt, h4, hD⟩ := Outcome.bind_eq_ok.1 hC
  obtain ⟨a, h5, hE⟩ := Outcome.bind_eq_ok.1 hD
  rw [compl_centers hi] at h2
  simp only [Outcome.ok.injEq] at h2
  subst h2
  obtain ⟨f1, f2, f3⟩ := fitStep_ok h1
  rw [updLoop_eq (f := fitted pb (centers pb s) w) _ 0 _ (by
    intro j idx hj; rw [Nat.zero_add, f1, List.getElem?_map, hj]; rfl)] at h5
  simp only [Outcome.ok.injEq] at h5
  cases hc : a.changed with
  | false => rw [hc] at hE; simp at hE
  | true =>
      rw [hc] at hE
      simp only [Bool.not_true, Bool.false_eq_true, if_false, Outcome.pure_eq, Outcome.ok.injEq, Sum.inr.injEq] at hE
      subst hE
      subst h5
      exact ⟨w, vf, wp, wq, res, flt, h1, h3, h4, rfl, rfl, rfl, rfl, rfl⟩

theorem flt_sub {s : St} {res : List ℝ} {flt : List Nat} (hsort : ∀ l, (pb.sortD l).Perm l)
    (h : filterIndices pb s.fd
        (pb.sortD (((List.range pb.n).filter (fun i => !(centers pb s).contains i)).zip res)) = .ok flt) :
    ∀ i ∈ flt, i < pb.n ∧ i ∉ centers pb s := by
  intro i hi
  obtain ⟨p, hp, rfl⟩ := List.mem_map.1 (filterIndices_sub h i hi)
  have hp' := (List.of_mem_zip ((hsort _).mem_iff.1 hp)).1
  rw [List.mem_filter, List.mem_range] at hp'
  exact ⟨hp'.1, by simpa using hp'.2⟩

/-- C19: each pass starts from the result of the pass before: a point that was a center starts with the weight just
solved for, the polynomial part starts with its coefficients just solved for, and a point that becomes a center starts
with weight 0. -/
theorem C19_warm_start (hsolve : SolverOk pb) (hsort : ∀ l, (pb.sortD l).Perm l) (s s' : St) (hi : Inv pb s)
    (h : round pb s = .ok (.inr s')) (hl : pb.l ≤ (centers pb s).length) :
    ∃ w : List ℝ, pb.solve (centers pb s) (centerValues pb s (centers pb s)) ((centers pb s).map s.wp ++ s.wq) = .ok w ∧
      (∀ k i : Nat, (centers pb s)[k]? = some i → w[k]? = some (s'.wp i)) ∧
      s'.wq = w.drop (centers pb s).length ∧
      ∀ i ∈ centers pb s', i ∉ centers pb s → s'.wp i = 0 := by
  obtain ⟨w, vf, wp, wq, res, flt, h1, h3, h4, e1, e2, e3, e4, -⟩ := round_inr hi h
  obtain ⟨f1, f2, f3⟩ := fitStep_ok h1
  obtain ⟨f4, f5⟩ := f2 hl
  have hlen := (hsolve _ _ _ _ (nodup_centers hi) f5).1
  have hflt := flt_sub hsort h4
  refine ⟨w, f5, fun k i hk => ?_, ?_, fun i hm hn => ?_⟩
  · rw [e2, fold_wp (fun hh => (hflt i hh).2 (List.mem_of_getElem? hk))]
    rw [f4]
    exact scatter_eq k i (nodup_centers hi) (by omega) hk
  · rw [e1]
    unfold fitStep at h1
    rw [if_pos hl] at h1
    obtain ⟨w', g1, g2⟩ := Outcome.bind_eq_ok.1 h1
    simp only [Outcome.pure_eq, Outcome.ok.injEq, Prod.mk.injEq] at g2
    obtain ⟨rfl, -, -, rfl⟩ := g2
    congr 1; omega
  · have hn' : s.actLb i ≠ true ∧ s.actUb i ≠ true ∧ pb.values i = none := by
      have hlt := (mem_centers.1 hm).1
      refine ⟨fun hh => hn (mem_centers.2 ⟨hlt, Or.inr (Or.inl hh)⟩), fun hh => hn (mem_centers.2 ⟨hlt, Or.inr (Or.inr hh)⟩), ?_⟩
      by_contra hv
      exact hn (mem_centers.2 ⟨hlt, Or.inl (Option.isSome_iff_ne_none.2 hv)⟩)
    have hnew : New pb flt (fitted pb (centers pb s) w) i
        ((ineqIdcs pb).foldl (upd pb flt (fitted pb (centers pb s) w)) ⟨s.actLb, s.actUb, wp, false⟩) :=
      fold_new _ _ ⟨fun hh => absurd hh hn'.1, fun hh => absurd hh hn'.2.1⟩
    rw [e2]
    rcases (mem_centers.1 hm).2 with hh | hh | hh
    · rw [hn'.2.2] at hh; simp at hh
    · exact (hnew.1 (e3 ▸ hh)).1
    · exact (hnew.2 (e4 ▸ hh)).1

theorem residual_eq {vf : List ℝ} {f : Nat → ℝ} {p : Nat × Nat} (h : vf[p.2]? = some (f p.1)) :
    residual pb vf p = .ok (violation pb f p.1) := by
  have hg : Outcome.get vf p.2 = .ok (f p.1) := by simp [Outcome.get, h]
  unfold residual violation
  rw [hg]
  cases pb.lb p.1 with
  | none => cases pb.ub p.1 <;> simp [max_comm]
  | some a =>
      cases pb.ub p.1 with
      | none => simp
      | some b =>
          simp only [Option.elim_some, Outcome.ok_bind, Outcome.pure_eq, Outcome.ok.injEq]
          rw [max_comm (a - f p.1) 0, max_comm (f p.1 - b) 0, max_assoc, max_left_comm (a - f p.1), ← max_assoc 0 0, max_self]

theorem traverse_eq {f : α → Outcome β} {g : α → β} : ∀ (l : List α), (∀ x ∈ l, f x = .ok (g x)) →
    Outcome.traverse f l = .ok (l.map g)
  | [], _ => rfl
  | x :: l, h => by simp [Outcome.traverse, h x (by simp), traverse_eq l (fun z hz => h z (by simp [hz]))]

/-- C19: while no bound is active and every point has a value or bounds but not both, a pass adds the worst offenders:
whichever point breaks its bounds by more than the tolerance, a point that breaks its bounds at least as badly becomes a
center, either the point itself or one within the current spacing of it; the points added all break their bounds by more
than the tolerance and are further apart than the spacing.  (Once a bound is active the ordering reads the fitted values
of other points, see `C19_worse_offender_passed_over`.) -/
theorem C19_worst_offenders_first {dist : Nat → Nat → ℝ} (hs : ExactSearch pb.n dist pb.search)
    (hsym : ∀ i j, dist i j = dist j i)
    (hsort : ∀ l, (pb.sortD l).Perm l ∧ (pb.sortD l).Pairwise (fun a b => b.2 ≤ a.2)) (htol : 0 ≤ pb.tol)
    (hall : ∀ i < pb.n, pb.values i = none ↔ ((pb.lb i).isSome ∨ (pb.ub i).isSome)) (s s' : St) (hi : Inv pb s)
    (hnone : ∀ i, s.actLb i = false ∧ s.actUb i = false) (h : round pb s = .ok (.inr s')) :
    ∃ f : Nat → ℝ,
      ((eqIdcs pb).length < pb.l → f = fun _ => 0) ∧
      (pb.l ≤ (eqIdcs pb).length → ∃ w v0, pb.solve (eqIdcs pb) ((eqIdcs pb).map pb.values) v0 = .ok w ∧
        f = pb.eval (eqIdcs pb) w) ∧
      (∀ i < pb.n, pb.tol < violation pb f i → ∃ k ∈ centers pb s', k ∉ eqIdcs pb ∧
        violation pb f i ≤ violation pb f k ∧ (k = i ∨ dist k i ≤ s.fd)) ∧
      (∀ k ∈ centers pb s', k ∉ eqIdcs pb → pb.tol < violation pb f k) ∧
      (∀ k ∈ centers pb s', ∀ j ∈ centers pb s', k ∉ eqIdcs pb → j ∉ eqIdcs pb → k ≠ j → s.fd < dist k j) := by
  obtain ⟨w, vf, wp, wq, res, flt, h1, h3, h4, e1, e2, e3, e4, -⟩ := round_inr hi h
  have hc : centers pb s = eqIdcs pb := by
    have a1 : s.actLb = fun _ => false := funext fun i => (hnone i).1
    have a2 : s.actUb = fun _ => false := funext fun i => (hnone i).2
    simp [centers, a1, a2, setUnion]
  have hflt := flt_sub (fun l => (hsort l).1) h4
  rw [hc] at h1 h3 h4 e2 e3 e4 hflt
  obtain ⟨f1, f2, f3⟩ := fitStep_ok h1
  set f := fitted pb (eqIdcs pb) w with hf
  -- the points that are not centers are those with bounds
  have hidx : (List.range pb.n).filter (fun i => !(eqIdcs pb).contains i) = ineqIdcs pb := by
    have hsorted : (ineqIdcs pb).Pairwise (· < ·) :=
      sorted_setUnion (sorted_filter_range _ _) (sorted_filter_range _ _)
    apply List.Perm.eq_of_pairwise (le := (· < ·)) (fun a b _ _ h1 h2 => by omega) (sorted_filter_range _ _) hsorted
    rw [List.perm_ext_iff_of_nodup ((sorted_filter_range _ _).imp (fun h => ne_of_lt h))
      (hsorted.imp (fun h => ne_of_lt h))]
    intro i
    rw [mem_ineq, List.mem_filter, List.mem_range]
    constructor
    · rintro ⟨a, b⟩
      refine ⟨a, (hall i a).1 ?_⟩
      by_contra hv
      have : i ∈ eqIdcs pb := mem_eq.2 ⟨a, Option.isSome_iff_ne_none.2 hv⟩
      simp [this] at b
    · rintro ⟨a, b⟩
      refine ⟨a, ?_⟩
      have : i ∉ eqIdcs pb := fun hm => by
        have := (mem_eq.1 hm).2
        rw [(hall i a).2 b] at this; simp at this
      simpa using this
  rw [hidx] at h3 h4
  have hres : res = (ineqIdcs pb).map (violation pb f) := by
    rw [traverse_eq (g := fun p => violation pb f p.1) _ (by
      intro p hp
      apply residual_eq
      rw [f1, List.getElem?_map]
      have := List.mem_zipIdx_iff_getElem?.1 hp
      rw [this]; rfl)] at h3
    simp only [Outcome.ok.injEq] at h3
    rw [← h3]
    conv_rhs => rw [← List.zipIdx_map_fst 0 (ineqIdcs pb), List.map_map]
    rfl
  have hmem : ∀ p, p ∈ pb.sortD ((ineqIdcs pb).zip res) ↔ p.1 ∈ ineqIdcs pb ∧ p.2 = violation pb f p.1 := by
    intro p
    rw [(hsort _).1.mem_iff, hres, mem_zip_map]
  have hlt : ∀ p ∈ pb.sortD ((ineqIdcs pb).zip res), p.1 < pb.n := fun p hp => (mem_ineq.1 ((hmem p).1 hp).1).1
  obtain ⟨g1, g2⟩ := filterIndices_spec hs hsym hi.fd hlt h4
  have hnd : (ineqIdcs pb).Nodup :=
    (sorted_setUnion (sorted_filter_range _ _) (sorted_filter_range _ _)).imp (fun h => ne_of_lt h)
  have hviol : ∀ k, pb.tol < violation pb f k → (∃ b, pb.lb k = some b ∧ f k < b - pb.tol) ∨
      (∃ b, pb.ub k = some b ∧ b + pb.tol < f k) := by
    intro k hk
    unfold violation at hk
    rcases lt_max_iff.1 hk with h | h
    · linarith
    · rcases lt_max_iff.1 h with h | h
      · cases hb : pb.lb k with
        | none => rw [hb] at h; simp at h; linarith
        | some b => rw [hb] at h; simp only [Option.elim_some] at h; exact Or.inl ⟨b, rfl, by linarith⟩
      · cases hb : pb.ub k with
        | none => rw [hb] at h; simp at h; linarith
        | some b => rw [hb] at h; simp only [Option.elim_some] at h; exact Or.inr ⟨b, rfl, by linarith⟩
  -- a kept point that breaks its bounds becomes a center
  have hact : ∀ k ∈ flt, pb.tol < violation pb f k → k ∈ centers pb s' := by
    intro k hk hv
    have hki : k ∈ ineqIdcs pb := by
      obtain ⟨p, hp, rfl⟩ := List.mem_map.1 (filterIndices_sub h4 k hk)
      exact ((hmem p).1 hp).1
    obtain ⟨a1, a2⟩ := fold_activates (pb := pb) (f := f) hk (ineqIdcs pb) ⟨s.actLb, s.actUb, wp, false⟩ hki hnd
      (hnone k).1 (hnone k).2
    rw [← e3] at a1; rw [← e4] at a2
    rcases hviol k hv with hh | hh
    · exact mem_centers.2 ⟨(hflt k hk).1, Or.inr (Or.inl (a1 hh))⟩
    · exact mem_centers.2 ⟨(hflt k hk).1, Or.inr (Or.inr (a2 hh))⟩
  -- and every new center is such a point
  have hnew : ∀ k ∈ centers pb s', k ∉ eqIdcs pb → k ∈ flt ∧ pb.tol < violation pb f k := by
    intro k hk hke
    have hn : New pb flt f k ((ineqIdcs pb).foldl (upd pb flt f) ⟨s.actLb, s.actUb, wp, false⟩) :=
      fold_new _ _ ⟨fun hh => absurd (hh : s.actLb k = true) (by simp [(hnone k).1]),
        fun hh => absurd (hh : s.actUb k = true) (by simp [(hnone k).2])⟩
    rcases (mem_centers.1 hk).2 with hh | hh | hh
    · exact absurd (mem_eq.2 ⟨(mem_centers.1 hk).1, hh⟩) hke
    · obtain ⟨-, a, b, hb, hlt⟩ := hn.1 (e3 ▸ hh)
      refine ⟨a, lt_max_of_lt_right (lt_max_of_lt_left ?_)⟩
      rw [hb]; simp only [Option.elim_some]; linarith
    · obtain ⟨-, a, b, hb, hlt⟩ := hn.2 (e4 ▸ hh)
      refine ⟨a, lt_max_of_lt_right (lt_max_of_lt_right ?_)⟩
      rw [hb]; simp only [Option.elim_some]; linarith
  refine ⟨f, fun hl => ?_, fun hl => ?_, ?_, fun k hk hke => (hnew k hk hke).2, ?_⟩
  · funext i; rw [hf, fitted, if_neg (by omega)]
  · refine ⟨w, (eqIdcs pb).map s.wp ++ s.wq, ?_, ?_⟩
    · have := (f2 hl).2
      rw [← this]
      congr 1
      unfold centerValues
      rw [← List.zipIdx_map_fst 0 (eqIdcs pb)]
      rw [List.map_map, List.zipIdx_map_fst]
      apply List.map_congr_left
      rintro ⟨x, k⟩ hk
      have := List.mem_zipIdx hk
      have hk' : k < (eqIdcs pb).length := by omega
      simp only [Function.comp]
      rw [if_pos hk']
    · funext i; rw [hf, fitted, if_pos hl]
  · intro i hin hv
    have hii : i ∈ ineqIdcs pb := by
      rcases hviol i hv with ⟨b, hb, _⟩ | ⟨b, hb, _⟩
      · exact mem_ineq.2 ⟨hin, Or.inl (by rw [hb]; rfl)⟩
      · exact mem_ineq.2 ⟨hin, Or.inr (by rw [hb]; rfl)⟩
    have hie : ∀ k ∈ flt, k ∉ eqIdcs pb := fun k hk => (hflt k hk).2
    by_cases hif : i ∈ flt
    · exact ⟨i, hact i hif hv, hie i hif, le_refl _, Or.inl rfl⟩
    · have hp : (i, violation pb f i) ∈ pb.sortD ((ineqIdcs pb).zip res) := (hmem _).2 ⟨hii, rfl⟩
      obtain ⟨pre, post, he⟩ := List.append_of_mem hp
      obtain ⟨j, hj, hjf, -, hd⟩ := g2 (pre.map Prod.fst) i (post.map Prod.fst) (by rw [he]; simp) hif
      obtain ⟨q, hq, rfl⟩ := List.mem_map.1 hj
      have hord := (hsort ((ineqIdcs pb).zip res)).2
      rw [he, List.pairwise_append] at hord
      have hle := hord.2.2 q hq _ (List.mem_cons_self ..)
      have hq2 := ((hmem q).1 (by rw [he]; simp [hq])).2
      rw [hq2] at hle
      exact ⟨q.1, hact _ hjf (lt_of_lt_of_le hv hle), hie _ hjf, hle, Or.inr hd⟩
  · intro k hk j hj hke hje hne
    exact g1 k (hnew k hk hke).1 j (hnew j hj hje).1 hne

/-- two points: the first with lower bound 0, the second with lower bound 5; no values, no polynomial part: the pass that starts
the fit goes on, and the second point, which breaks its bound by 5, becomes a center -/
theorem round_demo : ∃ s', round (demo [none, none] [some 0, some 5] [none, none] 0)
    (init (demo [none, none] [some 0, some 5] [none, none] 0)) = .ok (.inr s') := by
  set pb := demo [none, none] [some 0, some 5] [none, none] 0 with hpb
  have hc : centers pb (init pb) = [] := by rw [centers_init]; rfl
  have h1 : ineqIdcs pb = [0, 1] := by simp [hpb, ineqIdcs, argWhere, demo, setUnion, List.range_succ]
  have hfs : fitStep pb (init pb) [] = .ok ([], [0, 0], fun _ => 0, []) := by
    unfold fitStep
    rw [h1]
    simp [hpb, demo, init, centerValues, scatter]
  obtain ⟨res, hres⟩ := traverse_exists (f := residual pb [0, 0]) [0, 1].zipIdx (by
    intro p hp
    apply residual_ok
    left
    have := List.mem_zipIdx hp
    simp at this ⊢; omega)
  obtain ⟨flt, hflt⟩ := filterIndices_ok (pb := pb) (inv_init (pb := pb)).fd
    (sorted := pb.sortD ([0, 1].zip res)) (by
      intro p hp
      have : p ∈ [0, 1].zip res := hp
      have := (List.of_mem_zip this).1
      show p.1 < 2
      simp at this; omega)
  have hrange : (List.range pb.n).filter (fun i => !([] : List Nat).contains i) = [0, 1] := by
    simp [hpb, demo, List.range_succ]
  have hround : ∃ x, round pb (init pb) = .ok x := by
    unfold round
    dsimp only
    rw [hc, hfs, Outcome.ok_bind]
    dsimp only
    rw [compl_ok (by simp) (by simp), Outcome.ok_bind, hrange, hres, Outcome.ok_bind, hflt, Outcome.ok_bind, h1,
      updLoop_eq (f := fun _ => 0) _ 0 _ (by
        intro j idx hj
        have : j < 2 := (List.getElem?_eq_some_iff.1 hj).1
        obtain rfl | rfl : j = 0 ∨ j = 1 := by omega
        all_goals rfl), Outcome.ok_bind]
    split <;> exact ⟨_, rfl⟩
  obtain ⟨x, hx⟩ := hround
  rcases round_spec (demo_solve _ _ _ _) (fun l => List.Perm.refl l) _ inv_init x hx with ⟨c, w, rfl, hr, -⟩ | ⟨s', rfl, -⟩
  · exfalso
    have hcw : c = [] := by
      unfold round at hx
      obtain ⟨⟨w', vf, wp, wq⟩, g1, hA⟩ := Outcome.bind_eq_ok.1 hx
      obtain ⟨indices, g2, hB⟩ := Outcome.bind_eq_ok.1 hA
      obtain ⟨res', g3, hC⟩ := Outcome.bind_eq_ok.1 hB
      obtain ⟨flt', g4, hD⟩ := Outcome.bind_eq_ok.1 hC
      obtain ⟨a, g5, hE⟩ := Outcome.bind_eq_ok.1 hD
      split at hE
      · simp only [Outcome.pure_eq, Outcome.ok.injEq, Sum.inl.injEq, Prod.mk.injEq] at hE
        rw [← hE.1, hc]
      · simp at hE
    subst hcw
    have := hr.lbFit (by simp [hpb, demo]) 1 (by simp [hpb, demo]) 5 (by simp [hpb, demo])
    simp only [demo] at this
    norm_num at this
  · exact ⟨s', hx⟩

/-- the hypotheses of the two theorems above are met -/
example : ∃ (pb : Problem) (s s' : St), SolverOk pb ∧ Inv pb s ∧ round pb s = .ok (.inr s') ∧
    pb.l ≤ (centers pb s).length ∧ 0 ≤ pb.tol ∧ (∀ i, s.actLb i = false ∧ s.actUb i = false) ∧
    ∀ i < pb.n, pb.values i = none ↔ ((pb.lb i).isSome ∨ (pb.ub i).isSome) := by
  obtain ⟨s', h⟩ := round_demo
  refine ⟨_, _, s', demo_solve _ _ _ _, inv_init, h, by simp [demo], by simp [demo], fun _ => ⟨rfl, rfl⟩, fun i hi => ?_⟩
  have hi' : i < 2 := hi
  obtain rfl | rfl : i = 0 ∨ i = 1 := by omega
  all_goals simp [demo]

end Verif.Inequality
