import Verif.Model.InequalityFitter
import Verif.Props.IncrementalFitter
import Mathlib.Tactic.Linarith

/-!
# C19: inequality fitting
-/

namespace Verif.Inequality

open Verif DistanceFilter Incremental

variable {pb : Problem}

theorem mem_setUnion : ∀ {a b : List Nat} {x : Nat}, x ∈ setUnion a b ↔ x ∈ a ∨ x ∈ b
  | [], b, x => by simp [setUnion]
  | y :: a, [], x => by simp [setUnion]
  | y :: a, z :: b, x => by
      rw [setUnion]
      split
      · rw [List.mem_cons, mem_setUnion, List.mem_cons (a := x) (b := y)]; tauto
      · split
        · rw [List.mem_cons, mem_setUnion, List.mem_cons (a := x) (b := z)]; tauto
        · have : y = z := by omega
          subst this
          rw [List.mem_cons, mem_setUnion]; simp only [List.mem_cons]; tauto

theorem sorted_setUnion : ∀ {a b : List Nat}, a.Pairwise (· < ·) → b.Pairwise (· < ·) →
    (setUnion a b).Pairwise (· < ·)
  | [], b, _, h => by simpa [setUnion] using h
  | y :: a, [], h, _ => by simpa [setUnion] using h
  | y :: a, z :: b, h1, h2 => by
      rw [setUnion]
      have h1' := List.pairwise_cons.1 h1
      have h2' := List.pairwise_cons.1 h2
      split
      · rename_i hlt
        refine List.pairwise_cons.2 ⟨fun x hx => ?_, sorted_setUnion h1'.2 h2⟩
        rcases mem_setUnion.1 hx with h | h
        · exact h1'.1 x h
        · rcases List.mem_cons.1 h with rfl | h
          · exact hlt
          · exact lt_trans hlt (h2'.1 x h)
      · split
        · rename_i hlt
          refine List.pairwise_cons.2 ⟨fun x hx => ?_, sorted_setUnion h1 h2'.2⟩
          rcases mem_setUnion.1 hx with h | h
          · rcases List.mem_cons.1 h with rfl | h
            · exact hlt
            · exact lt_trans hlt (h1'.1 x h)
          · exact h2'.1 x h
        · have : y = z := by omega
          subst this
          refine List.pairwise_cons.2 ⟨fun x hx => ?_, sorted_setUnion h1'.2 h2'.2⟩
          rcases mem_setUnion.1 hx with h | h
          · exact h1'.1 x h
          · exact h2'.1 x h

theorem sorted_filter_range (n : Nat) (p : Nat → Bool) : ((List.range n).filter p).Pairwise (· < ·) :=
  List.pairwise_lt_range.filter _

theorem mem_eq {i : Nat} : i ∈ eqIdcs pb ↔ i < pb.n ∧ (pb.values i).isSome := by simp [eqIdcs, argWhere]

theorem mem_ineq {i : Nat} : i ∈ ineqIdcs pb ↔ i < pb.n ∧ ((pb.lb i).isSome ∨ (pb.ub i).isSome) := by
  simp only [ineqIdcs, argWhere, mem_setUnion, List.mem_filter, List.mem_range]; tauto

theorem mem_centers {s : St} {i : Nat} : i ∈ centers pb s ↔
    i < pb.n ∧ ((pb.values i).isSome ∨ s.actLb i ∨ s.actUb i) := by
  simp only [centers, List.mem_append, mem_eq, mem_setUnion, List.mem_filter, List.mem_range]; tauto

/-- What holds at the head of the loop. -/
structure Inv (pb : Problem) (s : St) : Prop where
  lb : ∀ i, s.actLb i = true → i < pb.n ∧ pb.values i = none ∧ (pb.lb i).isSome
  ub : ∀ i, s.actUb i = true → i < pb.n ∧ pb.values i = none ∧ (pb.ub i).isSome
  fd : kMinDistance ≤ s.fd

theorem inv_init : Inv pb (init pb) := ⟨by simp [init], by simp [init], le_max_right _ _⟩

theorem nodup_centers {s : St} (hi : Inv pb s) : (centers pb s).Nodup := by
  unfold centers
  rw [List.nodup_append']
  refine ⟨(sorted_filter_range _ _).imp (fun h => ne_of_lt h),
    (sorted_setUnion (sorted_filter_range _ _) (sorted_filter_range _ _)).imp (fun h => ne_of_lt h), ?_⟩
  intro x hx hx'
  have h1 := (mem_eq.1 hx).2
  rcases mem_setUnion.1 hx' with h | h
  · rw [(hi.lb x (List.mem_filter.1 h).2).2.1] at h1; simp at h1
  · rw [(hi.ub x (List.mem_filter.1 h).2).2.1] at h1; simp at h1

theorem compl_centers {s : St} (hi : Inv pb s) :
    compl (centers pb s) pb.n = .ok ((List.range pb.n).filter (fun i => !(centers pb s).contains i)) :=
  compl_ok (nodup_centers hi) (fun i h => (mem_centers.1 h).1)

theorem scatter_ne {c : List Nat} : ∀ {w : List ℝ} {wp : Nat → ℝ} {i : Nat}, i ∉ c → scatter c w wp i = wp i := by
  induction c with
  | nil => intro w wp i _; simp [scatter]
  | cons a c ih =>
      intro w wp i h
      cases w with
      | nil => simp [scatter]
      | cons x w =>
          have := ih (w := w) (wp := Function.update wp a x) (i := i) (by simp at h; exact h.2)
          simp only [scatter, List.zip_cons_cons, List.foldl_cons] at this ⊢
          rw [this, Function.update_of_ne (by simp at h; exact h.1)]

theorem scatter_eq {c : List Nat} : ∀ {w : List ℝ} {wp : Nat → ℝ} (k i : Nat), c.Nodup → c.length ≤ w.length →
    c[k]? = some i → w[k]? = some (scatter c w wp i) := by
  induction c with
  | nil => intro w wp k i _ _ h; simp at h
  | cons a c ih =>
      intro w wp k i hnd hl h
      cases w with
      | nil => simp at hl
      | cons x w =>
          have hnd' := List.nodup_cons.1 hnd
          cases k with
          | zero =>
              simp only [List.getElem?_cons_zero, Option.some.injEq] at h
              subst h
              have := scatter_ne (w := w) (wp := Function.update wp a x) hnd'.1
              simp only [scatter, List.zip_cons_cons, List.foldl_cons] at this ⊢
              rw [this]; simp
          | succ k =>
              simp only [List.getElem?_cons_succ] at h ⊢
              have := ih (w := w) (wp := Function.update wp a x) k i hnd'.2 (by simpa using hl) h
              simpa [scatter] using this

/-- For distinct centers the solver returns one weight per unknown, and only weights that fit the given values within
the tolerance. -/
def SolverOk (pb : Problem) : Prop :=
  ∀ c v w0 w, c.Nodup → pb.solve c v w0 = .ok w → w.length = c.length + pb.l ∧
    ∀ (k idx : Nat) (x : ℝ), c[k]? = some idx → v[k]? = some (some x) → |pb.eval c w idx - x| ≤ pb.tol

/-- The fitted function during a pass: the evaluator, or zero while there are too few centers. -/
noncomputable def fitted (pb : Problem) (c : List Nat) (w : List ℝ) (i : Nat) : ℝ :=
  if pb.l ≤ c.length then pb.eval c w i else 0

theorem fitStep_ok {s : St} {c : List Nat} {w vf : List ℝ} {wp : Nat → ℝ} {wq : List ℝ}
    (h : fitStep pb s c = .ok (w, vf, wp, wq)) : vf = (ineqIdcs pb).map (fitted pb c w) ∧
      (pb.l ≤ c.length → wp = scatter c w s.wp ∧ pb.solve c (centerValues pb s c) (c.map s.wp ++ s.wq) = .ok w) ∧
      (c.length < pb.l → w = List.replicate pb.l 0 ∧ wp = s.wp) := by
  unfold fitStep at h
  split at h
  · rename_i hl
    obtain ⟨w', h1, h2⟩ := Outcome.bind_eq_ok.1 h
    simp only [Outcome.pure_eq, Outcome.ok.injEq, Prod.mk.injEq] at h2
    obtain ⟨rfl, rfl, rfl, rfl⟩ := h2
    refine ⟨?_, fun _ => ⟨rfl, h1⟩, fun h => by omega⟩
    apply List.map_congr_left; intro i _; rw [fitted, if_pos hl]
  · rename_i hl
    simp only [Outcome.pure_eq, Outcome.ok.injEq, Prod.mk.injEq] at h
    obtain ⟨rfl, rfl, rfl, rfl⟩ := h
    refine ⟨?_, fun h => by omega, fun _ => ⟨rfl, rfl⟩⟩
    apply List.ext_getElem (by simp)
    intro i _ _
    simp only [List.getElem_replicate, List.getElem_map, fitted]
    rw [if_neg hl]

theorem filterIndices_sub {fd : ℝ} {sorted : List (Nat × ℝ)} {k : List Nat}
    (h : filterIndices pb fd sorted = .ok k) : ∀ i ∈ k, i ∈ sorted.map Prod.fst := by
  unfold filterIndices DF.filter at h
  simp only at h
  split at h
  · rename_i f heq
    split at heq
    · simp at heq
    · split at heq <;> simp at heq
      subst heq
      simp only [DF.filteredIndices, if_true, Outcome.ok.injEq] at h
      subst h
      intro i hi
      exact (List.mem_filter.1 hi).1
  · simp at h
  · simp at h

theorem updLoop_eq {filtered : List Nat} {vf : List ℝ} {f : Nat → ℝ} : ∀ (l : List Nat) (k : Nat) (a : Act),
    (∀ (j idx : Nat), l[j]? = some idx → vf[k + j]? = some (f idx)) →
    updLoop pb filtered vf (l.zipIdx k) a =
      .ok (l.foldl (fun a idx => updUb pb filtered (f idx) idx (updLb pb filtered (f idx) idx a)) a)
  | [], _, _, _ => rfl
  | x :: l, k, a, h => by
      simp only [List.zipIdx_cons, updLoop, List.foldl_cons]
      have h0 := h 0 x (by simp)
      simp only [Nat.add_zero] at h0
      rw [Outcome.get, h0]
      simp only [Outcome.ok_bind]
      apply updLoop_eq l (k + 1)
      intro j idx hj
      have := h (j + 1) idx (by simpa using hj)
      rwa [show k + (j + 1) = k + 1 + j by omega] at this

theorem updLb_changed {flt : List Nat} {f : ℝ} {idx : Nat} {a : Act} (h : (updLb pb flt f idx a).changed = false) :
    updLb pb flt f idx a = a ∧ a.changed = false ∧ ∀ b, pb.lb idx = some b →
      (a.actLb idx = true ∧ 0 < a.wp idx) ∨ (a.actLb idx = false ∧ b - pb.tol ≤ f) := by
  unfold updLb at h ⊢
  cases hb : pb.lb idx with
  | none => simp only [hb] at h ⊢; exact ⟨trivial, h, by simp⟩
  | some b =>
      simp only [hb] at h ⊢
      by_cases h1 : a.actLb idx = true
      · rw [if_pos h1] at h ⊢
        by_cases h2 : a.wp idx ≤ 0
        · rw [if_pos h2] at h; simp at h
        · rw [if_neg h2] at h ⊢
          exact ⟨rfl, h, fun b' _ => Or.inl ⟨h1, not_le.1 h2⟩⟩
      · rw [if_neg h1] at h ⊢
        by_cases h2 : f < b - pb.tol
        · rw [if_pos h2] at h; split at h <;> simp at h
        · rw [if_neg h2] at h ⊢
          refine ⟨rfl, h, fun b' hb' => Or.inr ⟨by simpa using h1, ?_⟩⟩
          simp only [Option.some.injEq] at hb'; rw [← hb']; exact not_lt.1 h2

theorem updUb_changed {flt : List Nat} {f : ℝ} {idx : Nat} {a : Act} (h : (updUb pb flt f idx a).changed = false) :
    updUb pb flt f idx a = a ∧ a.changed = false ∧ ∀ b, pb.ub idx = some b →
      (a.actUb idx = true ∧ a.wp idx < 0) ∨ (a.actUb idx = false ∧ f ≤ b + pb.tol) := by
  unfold updUb at h ⊢
  cases hb : pb.ub idx with
  | none => simp only [hb] at h ⊢; exact ⟨trivial, h, by simp⟩
  | some b =>
      simp only [hb] at h ⊢
      by_cases h1 : a.actUb idx = true
      · rw [if_pos h1] at h ⊢
        by_cases h2 : a.wp idx ≥ 0
        · rw [if_pos h2] at h; simp at h
        · rw [if_neg h2] at h ⊢
          exact ⟨rfl, h, fun b' _ => Or.inl ⟨h1, not_le.1 h2⟩⟩
      · rw [if_neg h1] at h ⊢
        by_cases h2 : f > b + pb.tol
        · rw [if_pos h2] at h; split at h <;> simp at h
        · rw [if_neg h2] at h ⊢
          refine ⟨rfl, h, fun b' hb' => Or.inr ⟨by simpa using h1, ?_⟩⟩
          simp only [Option.some.injEq] at hb'; rw [← hb']; exact not_lt.1 h2

theorem fold_changed {flt : List Nat} {f : Nat → ℝ} : ∀ (l : List Nat) (a : Act),
    (l.foldl (fun a idx => updUb pb flt (f idx) idx (updLb pb flt (f idx) idx a)) a).changed = false →
    a.changed = false ∧ ∀ idx ∈ l,
      (∀ b, pb.lb idx = some b → (a.actLb idx = true ∧ 0 < a.wp idx) ∨ (a.actLb idx = false ∧ b - pb.tol ≤ f idx)) ∧
      (∀ b, pb.ub idx = some b → (a.actUb idx = true ∧ a.wp idx < 0) ∨ (a.actUb idx = false ∧ f idx ≤ b + pb.tol))
  | [], a, h => ⟨by simpa using h, by simp⟩
  | x :: l, a, h => by
      simp only [List.foldl_cons] at h
      obtain ⟨h1, h2⟩ := fold_changed l _ h
      obtain ⟨u1, u2, u3⟩ := updUb_changed h1
      obtain ⟨v1, v2, v3⟩ := updLb_changed u2
      rw [u1, v1] at h2
      rw [v1] at u3
      refine ⟨v2, fun idx hidx => ?_⟩
      rcases List.mem_cons.1 hidx with rfl | hidx
      · exact ⟨v3, u3⟩
      · exact h2 idx hidx

/-- the invariant of the active sets -/
def ActInv (pb : Problem) (a : Act) : Prop :=
  (∀ i, a.actLb i = true → i < pb.n ∧ pb.values i = none ∧ (pb.lb i).isSome) ∧
  (∀ i, a.actUb i = true → i < pb.n ∧ pb.values i = none ∧ (pb.ub i).isSome)

theorem updLb_inv {flt : List Nat} (hf : ∀ i ∈ flt, i < pb.n ∧ pb.values i = none) {f : ℝ} {idx : Nat} {a : Act}
    (h : ActInv pb a) : ActInv pb (updLb pb flt f idx a) := by
  unfold updLb
  cases hb : pb.lb idx with
  | none => exact h
  | some b =>
      simp only
      split
      · split
        · refine ⟨fun i hi => ?_, h.2⟩
          by_cases hii : i = idx
          · subst hii; simp at hi
          · simp only [Function.update_of_ne hii] at hi; exact h.1 i hi
        · exact h
      · split
        · split
          · rename_i hc
            refine ⟨fun i hi => ?_, h.2⟩
            by_cases hii : i = idx
            · subst hii
              have := hf i (by simpa using hc)
              exact ⟨this.1, this.2, by rw [hb]; rfl⟩
            · simp only [Function.update_of_ne hii] at hi; exact h.1 i hi
          · exact h
        · exact h

theorem updUb_inv {flt : List Nat} (hf : ∀ i ∈ flt, i < pb.n ∧ pb.values i = none) {f : ℝ} {idx : Nat} {a : Act}
    (h : ActInv pb a) : ActInv pb (updUb pb flt f idx a) := by
  unfold updUb
  cases hb : pb.ub idx with
  | none => exact h
  | some b =>
      simp only
      split
      · split
        · refine ⟨h.1, fun i hi => ?_⟩
          by_cases hii : i = idx
          · subst hii; simp at hi
          · simp only [Function.update_of_ne hii] at hi; exact h.2 i hi
        · exact h
      · split
        · split
          · rename_i hc
            refine ⟨h.1, fun i hi => ?_⟩
            by_cases hii : i = idx
            · subst hii
              have := hf i (by simpa using hc)
              exact ⟨this.1, this.2, by rw [hb]; rfl⟩
            · simp only [Function.update_of_ne hii] at hi; exact h.2 i hi
          · exact h
        · exact h

theorem fold_inv {flt : List Nat} (hf : ∀ i ∈ flt, i < pb.n ∧ pb.values i = none) {f : Nat → ℝ} :
    ∀ (l : List Nat) (a : Act), ActInv pb a →
    ActInv pb (l.foldl (fun a idx => updUb pb flt (f idx) idx (updLb pb flt (f idx) idx a)) a)
  | [], _, h => h
  | _ :: l, _, h => fold_inv hf l _ (updUb_inv hf (updLb_inv hf h))

/-- The meaning of a returned pair. -/
structure Result (pb : Problem) (c : List Nat) (w : List ℝ) : Prop where
  nodup : c.Nodup
  lt : ∀ i ∈ c, i < pb.n
  /-- every point with a value is a center -/
  eqCenter : ∀ i < pb.n, (pb.values i).isSome → i ∈ c
  wlen : pb.l ≤ c.length → w.length = c.length + pb.l
  /-- every value and every bound holds within the tolerance -/
  eqFit : pb.l ≤ c.length → ∀ i < pb.n, ∀ x, pb.values i = some x → |pb.eval c w i - x| ≤ pb.tol
  lbFit : pb.l ≤ c.length → ∀ i < pb.n, ∀ x, pb.lb i = some x → x - pb.tol ≤ pb.eval c w i
  ubFit : pb.l ≤ c.length → ∀ i < pb.n, ∀ x, pb.ub i = some x → pb.eval c w i ≤ x + pb.tol
  /-- every other center sits on one of its bounds, and its weight has the sign that pushes away from it -/
  active : pb.l ≤ c.length → ∀ (k i : Nat), c[k]? = some i → pb.values i = none → ∃ u, w[k]? = some u ∧
    ((∃ x, pb.lb i = some x ∧ |pb.eval c w i - x| ≤ pb.tol ∧ 0 < u) ∨
     (∃ x, pb.ub i = some x ∧ |pb.eval c w i - x| ≤ pb.tol ∧ u < 0))

theorem centerValues_at {s : St} (hi : Inv pb s) {k i : Nat} (h : (centers pb s)[k]? = some i) :
    (centerValues pb s (centers pb s))[k]? =
      some (if (pb.values i).isSome then pb.values i else if s.actLb i then pb.lb i else pb.ub i) := by
  have hz : (centers pb s).zipIdx[k]? = some (i, k) := by rw [List.getElem?_zipIdx, h]; simp
  unfold centerValues
  rw [List.getElem?_map, hz]
  simp only [Option.map_some, Option.some.injEq]
  unfold centers at h
  by_cases hk : k < (eqIdcs pb).length
  · rw [List.getElem?_append_left hk] at h
    have := (mem_eq.1 (List.mem_of_getElem? h)).2
    rw [if_pos hk, if_pos this]
  · rw [List.getElem?_append_right (by omega)] at h
    have hm := mem_setUnion.1 (List.mem_of_getElem? h)
    have hv : pb.values i = none := by
      rcases hm with h | h
      · exact (hi.lb i (List.mem_filter.1 h).2).2.1
      · exact (hi.ub i (List.mem_filter.1 h).2).2.1
    rw [if_neg hk, hv]
    simp

theorem round_spec (hsolve : SolverOk pb) (hsort : ∀ l, (pb.sortD l).Perm l) (s : St) (hi : Inv pb s)
    (x : (List Nat × List ℝ) ⊕ St) (h : round pb s = .ok x) :
    (∃ c w, x = .inl (c, w) ∧ Result pb c w ∧ (c.length < pb.l → w = List.replicate pb.l 0)) ∨
      (∃ s', x = .inr s' ∧ Inv pb s') := by
  unfold round at h
  obtain ⟨⟨w, vf, wp, wq⟩, h1, h⟩ := Outcome.bind_eq_ok.1 h
  obtain ⟨indices, h2, h⟩ := Outcome.bind_eq_ok.1 h
  obtain ⟨res, h3, h⟩ := Outcome.bind_eq_ok.1 h
  obtain ⟨flt, h4, h⟩ := Outcome.bind_eq_ok.1 h
  obtain ⟨a, h5, h⟩ := Outcome.bind_eq_ok.1 h
  rw [compl_centers hi] at h2
  simp only [Outcome.ok.injEq] at h2
  obtain ⟨f1, f2, f3⟩ := fitStep_ok h1
  rw [updLoop_eq (f := fitted pb (centers pb s) w) _ 0 _ (by
    intro j idx hj; rw [Nat.zero_add, f1, List.getElem?_map, hj]; rfl)] at h5
  simp only [Outcome.ok.injEq] at h5
  have hflt : ∀ i ∈ flt, i < pb.n ∧ pb.values i = none := by
    intro i hi'
    obtain ⟨p, hp, rfl⟩ := List.mem_map.1 (filterIndices_sub h4 i hi')
    have hp' := (List.of_mem_zip ((hsort _).mem_iff.1 hp)).1
    rw [← h2, List.mem_filter, List.mem_range] at hp'
    refine ⟨hp'.1, ?_⟩
    have hnc : p.1 ∉ centers pb s := by simpa using hp'.2
    cases hv : pb.values p.1 with
    | none => rfl
    | some v => exact absurd (mem_centers.2 ⟨hp'.1, Or.inl (by rw [hv]; rfl)⟩) hnc
  cases hc : a.changed with
  | true =>
      rw [hc] at h
      simp only [Bool.not_true, Bool.false_eq_true, if_false, Outcome.pure_eq, Outcome.ok.injEq] at h
      right
      have := fold_inv hflt (f := fitted pb (centers pb s) w) (ineqIdcs pb) ⟨s.actLb, s.actUb, wp, false⟩ ⟨hi.lb, hi.ub⟩
      rw [h5] at this
      exact ⟨_, h.symm, this.1, this.2, le_max_right _ _⟩
  | false =>
      rw [hc] at h
      simp only [Bool.not_false, if_true, Outcome.pure_eq, Outcome.ok.injEq] at h
      left
      refine ⟨_, _, h.symm, ?_, fun hlt => (f3 hlt).1⟩
      rw [← h5] at hc
      have hfold := (fold_changed _ _ hc).2
      simp only at hfold
      set c := centers pb s with hcdef
      have hnd : c.Nodup := nodup_centers hi
      have hfit : pb.l ≤ c.length → ∀ i, fitted pb c w i = pb.eval c w i := by
        intro hl i; rw [fitted, if_pos hl]
      have key : pb.l ≤ c.length → ∀ (k i : Nat) (x : ℝ), c[k]? = some i →
          (if (pb.values i).isSome then pb.values i else if s.actLb i then pb.lb i else pb.ub i) = some x →
          |pb.eval c w i - x| ≤ pb.tol := by
        intro hl k i x hk hx
        exact (hsolve _ _ _ _ hnd (f2 hl).2).2 k i x hk (by rw [← hx]; exact centerValues_at hi hk)
      have key2 : pb.l ≤ c.length → ∀ (i : Nat) (x : ℝ), i ∈ c →
          (if (pb.values i).isSome then pb.values i else if s.actLb i then pb.lb i else pb.ub i) = some x →
          |pb.eval c w i - x| ≤ pb.tol := by
        intro hl i x hm hx
        obtain ⟨k, hk⟩ := List.mem_iff_getElem?.1 hm
        exact key hl k i x hk hx
      have hexcl : ∀ i, s.actLb i = true → s.actUb i = true → False := by
        intro i h1 h2
        obtain ⟨a1, a2, a3⟩ := hi.lb i h1
        obtain ⟨b1, b2, b3⟩ := hi.ub i h2
        obtain ⟨x, hx⟩ := Option.isSome_iff_exists.1 a3
        obtain ⟨y, hy⟩ := Option.isSome_iff_exists.1 b3
        have hf := hfold i (mem_ineq.2 ⟨a1, Or.inl a3⟩)
        rcases hf.1 x hx with ⟨_, h⟩ | ⟨h, _⟩
        · rcases hf.2 y hy with ⟨_, h'⟩ | ⟨h', _⟩
          · linarith
          · rw [h2] at h'; simp at h'
        · rw [h1] at h; simp at h
      constructor
      · exact hnd
      · exact fun i hi => (mem_centers.1 hi).1
      · exact fun i hi hv => mem_centers.2 ⟨hi, Or.inl hv⟩
      · exact fun hl => (hsolve _ _ _ _ hnd (f2 hl).2).1
      · intro hl i hlt x hx
        exact key2 hl i x (mem_centers.2 ⟨hlt, Or.inl (by rw [hx]; rfl)⟩) (by rw [hx]; rfl)
      · intro hl i hlt x hx
        rcases (hfold i (mem_ineq.2 ⟨hlt, Or.inl (by rw [hx]; rfl)⟩)).1 x hx with ⟨ha, _⟩ | ⟨_, hb⟩
        · have := key2 hl i x (mem_centers.2 ⟨hlt, Or.inr (Or.inl ha)⟩) (by rw [(hi.lb i ha).2.1, ha]; simpa using hx)
          have := (abs_le.1 this).1
          linarith
        · rw [hfit hl] at hb; exact hb
      · intro hl i hlt x hx
        rcases (hfold i (mem_ineq.2 ⟨hlt, Or.inr (by rw [hx]; rfl)⟩)).2 x hx with ⟨ha, _⟩ | ⟨_, hb⟩
        · have hnl : s.actLb i = false := by
            rw [Bool.eq_false_iff]; exact fun h => hexcl i h ha
          have := key2 hl i x (mem_centers.2 ⟨hlt, Or.inr (Or.inr ha)⟩) (by rw [(hi.ub i ha).2.1, hnl]; simpa using hx)
          have := (abs_le.1 this).2
          linarith
        · rw [hfit hl] at hb; exact hb
      · intro hl k i hk hv
        have hm := mem_centers.1 (List.mem_of_getElem? hk)
        have hw : w[k]? = some (wp i) := by
          rw [(f2 hl).1]
          apply scatter_eq k i hnd _ hk
          rw [(hsolve _ _ _ _ hnd (f2 hl).2).1]; omega
        refine ⟨_, hw, ?_⟩
        have hact : s.actLb i = true ∨ s.actUb i = true := by
          rcases hm.2 with h | h | h
          · rw [hv] at h; simp at h
          · exact Or.inl h
          · exact Or.inr h
        rcases hact with ha | ha
        · obtain ⟨x, hx⟩ := Option.isSome_iff_exists.1 (hi.lb i ha).2.2
          refine Or.inl ⟨x, hx, key hl k i x hk (by rw [hv, ha]; simpa using hx), ?_⟩
          rcases (hfold i (mem_ineq.2 ⟨hm.1, Or.inl (by rw [hx]; rfl)⟩)).1 x hx with ⟨_, h⟩ | ⟨h, _⟩
          · exact h
          · rw [ha] at h; simp at h
        · have hnl : s.actLb i = false := by
            rw [Bool.eq_false_iff]; exact fun h => hexcl i h ha
          obtain ⟨x, hx⟩ := Option.isSome_iff_exists.1 (hi.ub i ha).2.2
          refine Or.inr ⟨x, hx, key hl k i x hk (by rw [hv, hnl]; simpa using hx), ?_⟩
          rcases (hfold i (mem_ineq.2 ⟨hm.1, Or.inr (by rw [hx]; rfl)⟩)).2 x hx with ⟨_, h⟩ | ⟨h, _⟩
          · exact h
          · rw [ha] at h; simp at h

/-- C19, the part that holds: a returned pair with at least as many centers as the polynomial part needs has every
point with a value among its centers, and every value, lower bound and upper bound holds within the tolerance at its own
point; each other center sits on a bound with a weight of the right sign.  (Missing from the property: nothing is fitted
when there are fewer centers than the polynomial part needs, `C19_too_few_values_are_ignored`; and the call may have read
outside its arrays before returning, `C19_unconstrained_point_reads_out_of_bounds`.) -/
theorem C19_result_partial (hsolve : SolverOk pb) (hsort : ∀ l, (pb.sortD l).Perm l) (fuel : Nat) (c : List Nat)
    (w : List ℝ) (h : fit pb fuel = some (.ok (c, w))) : Result pb c w := by
  unfold fit at h
  suffices hh : ∀ fuel s, Inv pb s → loop pb fuel s = some (.ok (c, w)) → Result pb c w from hh fuel _ inv_init h
  intro fuel
  induction fuel with
  | zero => intro s _ h; simp [loop] at h
  | succ n ih =>
      intro s hi h
      rw [loop] at h
      cases hr : round pb s with
      | throws e => rw [hr] at h; simp at h
      | ub => rw [hr] at h; simp at h
      | ok x =>
          rw [hr] at h
          rcases round_spec hsolve hsort s hi x hr with ⟨c', w', rfl, hres, _⟩ | ⟨s', rfl, hi'⟩
          · simp only [Option.some.injEq, Outcome.ok.injEq, Prod.mk.injEq] at h
            obtain ⟨rfl, rfl⟩ := h
            exact hres
          · exact ih s' hi' h

/-- C19: constraints that contradict each other beyond the tolerance are never reported as fitted: the call throws or
runs for ever.  (Model without polynomial part.) -/
theorem C19_infeasible_never_returns (hsolve : SolverOk pb) (hsort : ∀ l, (pb.sortD l).Perm l) (hl : pb.l = 0) (i : Nat)
    (hi : i < pb.n) (x y : ℝ)
    (hbad : (pb.values i = some x ∧ pb.lb i = some y ∧ x + 2 * pb.tol < y) ∨
            (pb.values i = some x ∧ pb.ub i = some y ∧ y < x - 2 * pb.tol) ∨
            (pb.lb i = some x ∧ pb.ub i = some y ∧ y < x - 2 * pb.tol)) (fuel : Nat) (c : List Nat) (w : List ℝ) :
    fit pb fuel ≠ some (.ok (c, w)) := by
  intro h
  have hr := C19_result_partial hsolve hsort fuel c w h
  have hlc : pb.l ≤ c.length := by omega
  rcases hbad with ⟨h1, h2, h3⟩ | ⟨h1, h2, h3⟩ | ⟨h1, h2, h3⟩
  · have a := abs_le.1 (hr.eqFit hlc i hi x h1); have b := hr.lbFit hlc i hi y h2; linarith [a.2]
  · have a := abs_le.1 (hr.eqFit hlc i hi x h1); have b := hr.ubFit hlc i hi y h2; linarith [a.1]
  · have a := hr.lbFit hlc i hi x h1; have b := hr.ubFit hlc i hi y h2; linarith

theorem df_loop_ok {n : Nat} {search : Nat → List Nat} : ∀ (l R : List Nat), (∀ i ∈ l, i < n) →
    ∃ r, DistanceFilter.loop n search l R = .ok r
  | [], R, _ => ⟨R, rfl⟩
  | i :: l, R, h => by
      rw [DistanceFilter.loop]
      split
      · exact df_loop_ok l _ (fun j hj => h j (by simp [hj]))
      · rw [if_pos (h i (by simp))]
        exact df_loop_ok l _ (fun j hj => h j (by simp [hj]))

theorem filterIndices_ok {fd : ℝ} (hfd : kMinDistance ≤ fd) {sorted : List (Nat × ℝ)}
    (h : ∀ p ∈ sorted, p.1 < pb.n) : ∃ k, filterIndices pb fd sorted = .ok k := by
  obtain ⟨r, hr⟩ := df_loop_ok (search := pb.search fd) (n := pb.n) (sorted.map Prod.fst) [] (by
    intro i hi; obtain ⟨p, hp, rfl⟩ := List.mem_map.1 hi; exact h p hp)
  unfold filterIndices DF.filter
  simp only [DF.new]
  rw [if_neg (not_not.2 hfd), hr]
  exact ⟨_, rfl⟩

theorem residual_ok {vf : List ℝ} {p : Nat × Nat} (h : p.2 < vf.length ∨ (pb.lb p.1 = none ∧ pb.ub p.1 = none)) :
    ∃ r, residual pb vf p = .ok r := by
  unfold residual
  rcases h with h | ⟨h1, h2⟩
  · have hg : Outcome.get vf p.2 = .ok vf[p.2] := by simp [Outcome.get, List.getElem?_eq_getElem h]
    rw [hg]
    cases pb.lb p.1 <;> cases pb.ub p.1 <;> exact ⟨_, rfl⟩
  · rw [h1, h2]; exact ⟨_, rfl⟩

theorem traverse_exists {f : α → Outcome β} : ∀ (l : List α), (∀ x ∈ l, ∃ y, f x = .ok y) → ∃ r, Outcome.traverse f l = .ok r
  | [], _ => ⟨[], rfl⟩
  | x :: l, h => by
      obtain ⟨y, hy⟩ := h x (by simp)
      obtain ⟨r, hr⟩ := traverse_exists l (fun z hz => h z (by simp [hz]))
      exact ⟨y :: r, by simp [Outcome.traverse, hy, hr]⟩

theorem residual_cases {vf : List ℝ} {p : Nat × Nat} : (∃ r, residual pb vf p = .ok r) ∨ residual pb vf p = .ub := by
  by_cases h : p.2 < vf.length
  · exact Or.inl (residual_ok (Or.inl h))
  · have hg : Outcome.get vf p.2 = .ub := by simp [Outcome.get, List.getElem?_eq_none (by omega : vf.length ≤ p.2)]
    unfold residual
    rw [hg]
    cases pb.lb p.1 <;> cases pb.ub p.1 <;> simp

theorem traverse_ub {f : α → Outcome β} : ∀ (l : List α), (∀ x ∈ l, (∃ y, f x = .ok y) ∨ f x = .ub) →
    (∃ x ∈ l, f x = .ub) → Outcome.traverse f l = .ub
  | [], _, h => by simp at h
  | x :: l, h, h' => by
      rw [Outcome.traverse]
      rcases h x (by simp) with ⟨y, hy⟩ | hy
      · rw [hy]
        obtain ⟨z, hz, hz'⟩ := h'
        rcases List.mem_cons.1 hz with rfl | hz
        · rw [hy] at hz'; simp at hz'
        · rw [Outcome.ok_bind, traverse_ub l (fun z hz => h z (by simp [hz])) ⟨z, hz, hz'⟩]; rfl
      · rw [hy]; rfl

/-- C19: if every point carries a value or a bound, no call reads outside its arrays, and the only exceptions are the
solver's. -/
theorem C19_safe_if_all_points_constrained (hsolve : SolverOk pb) (hub : ∀ c v w0, pb.solve c v w0 ≠ .ub)
    (hsort : ∀ l, (pb.sortD l).Perm l)
    (hall : ∀ i < pb.n, (pb.values i).isSome ∨ (pb.lb i).isSome ∨ (pb.ub i).isSome) (fuel : Nat) :
    fit pb fuel ≠ some .ub ∧ ∀ e, fit pb fuel = some (.throws e) → ∃ c v w0, pb.solve c v w0 = .throws e := by
  unfold fit
  suffices hh : ∀ fuel s, Inv pb s → loop pb fuel s ≠ some .ub ∧
      ∀ e, loop pb fuel s = some (.throws e) → ∃ c v w0, pb.solve c v w0 = .throws e from hh fuel _ inv_init
  intro fuel
  induction fuel with
  | zero => intro s _; simp [loop]
  | succ n ih =>
      intro s hi
      have hround : (∃ x, round pb s = .ok x) ∨ ∃ e c v w0, round pb s = .throws e ∧ pb.solve c v w0 = .throws e := by
        unfold round
        dsimp only
        have hfs : (∃ r, fitStep pb s (centers pb s) = .ok r) ∨
            ∃ e c v w0, fitStep pb s (centers pb s) = .throws e ∧ pb.solve c v w0 = .throws e := by
          unfold fitStep
          split
          · cases hs : pb.solve (centers pb s) (centerValues pb s (centers pb s)) ((centers pb s).map s.wp ++ s.wq) with
            | ok w => left; exact ⟨_, rfl⟩
            | throws e => right; exact ⟨e, _, _, _, rfl, hs⟩
            | ub => exact absurd hs (hub _ _ _)
          · left; exact ⟨_, rfl⟩
        rcases hfs with ⟨⟨w, vf, wp, wq⟩, h1⟩ | ⟨e, c, v, w0, h1, h2⟩
        · left
          obtain ⟨f1, -, -⟩ := fitStep_ok h1
          rw [h1, Outcome.ok_bind]
          simp only
          rw [compl_centers hi, Outcome.ok_bind]
          set indices := (List.range pb.n).filter (fun i => !(centers pb s).contains i) with hind
          have hlen : indices.length ≤ vf.length := by
            rw [f1, List.length_map]
            apply List.Subperm.length_le
            apply List.Nodup.subperm (List.nodup_range.filter _)
            intro i hi'
            rw [List.mem_filter, List.mem_range] at hi'
            have hnc : i ∉ centers pb s := by simpa using hi'.2
            apply mem_ineq.2 ⟨hi'.1, _⟩
            rcases hall i hi'.1 with h | h
            · exact absurd (mem_centers.2 ⟨hi'.1, Or.inl h⟩) hnc
            · exact h
          obtain ⟨res, hres⟩ := traverse_exists (f := residual pb vf) indices.zipIdx (by
            intro p hp
            apply residual_ok
            left
            have := List.mem_zipIdx hp
            omega)
          rw [hres, Outcome.ok_bind]
          obtain ⟨flt, hflt⟩ := filterIndices_ok (pb := pb) hi.fd (sorted := pb.sortD (indices.zip res)) (by
            intro p hp
            have := (List.of_mem_zip ((hsort _).mem_iff.1 hp)).1
            rw [hind, List.mem_filter, List.mem_range] at this
            exact this.1)
          rw [hflt, Outcome.ok_bind, updLoop_eq (f := fitted pb (centers pb s) w) _ 0 _ (by
            intro j idx hj; rw [Nat.zero_add, f1, List.getElem?_map, hj]; rfl), Outcome.ok_bind]
          split <;> exact ⟨_, rfl⟩
        · right
          exact ⟨e, c, v, w0, by rw [h1]; rfl, h2⟩
      rw [loop]
      rcases hround with ⟨x, hx⟩ | ⟨e, c, v, w0, h1, h2⟩
      · rw [hx]
        rcases round_spec hsolve hsort s hi x hx with ⟨c', w', rfl, _⟩ | ⟨s', rfl, hi'⟩
        · simp
        · exact ih s' hi'
      · rw [h1]
        exact ⟨by simp, fun e' he => by simp at he; exact ⟨c, v, w0, by rw [← he]; exact h2⟩⟩

theorem centers_init : centers pb (init pb) = eqIdcs pb := by
  simp [centers, init, setUnion]

/-- C19, a violation: the residuals are computed from the entries of the fitted values at the *positions* of the
non-centers, although these entries belong to the points with bounds.  If some point with a bound comes after at least
as many non-centers as there are points with bounds, the very first pass reads past the end of the array. -/
theorem C19_unconstrained_point_reads_out_of_bounds (r) (hfit : fitStep pb (init pb) (eqIdcs pb) = .ok r) (j i : Nat)
    (hji : ((List.range pb.n).filter (fun k => !(eqIdcs pb).contains k))[j]? = some i)
    (hj : (ineqIdcs pb).length ≤ j) (hb : (pb.lb i).isSome ∨ (pb.ub i).isSome) :
    fit pb 1 = some .ub := by
  obtain ⟨w, vf, wp, wq⟩ := r
  obtain ⟨f1, -, -⟩ := fitStep_ok hfit
  have hround : round pb (init pb) = .ub := by
    unfold round
    dsimp only
    rw [centers_init, hfit, Outcome.ok_bind]
    simp only
    have := compl_centers (inv_init (pb := pb))
    rw [centers_init] at this
    rw [this, Outcome.ok_bind]
    rw [traverse_ub]
    · rfl
    · intro p _; exact residual_cases
    · refine ⟨(i, j), ?_, ?_⟩
      · rw [List.mem_iff_getElem?]
        exact ⟨j, by rw [List.getElem?_zipIdx, hji]; simp⟩
      · have hg : Outcome.get vf j = .ub := by
          simp [Outcome.get, List.getElem?_eq_none (by rw [f1, List.length_map]; exact hj : vf.length ≤ j)]
        unfold residual
        simp only [hg]
        revert hb
        cases pb.lb i <;> cases pb.ub i <;> simp
  rw [fit, loop, hround]

/-- C19, another violation: with fewer values than the polynomial part needs, and bounds that zero satisfies, the call
returns at once; the values are not fitted at all, and the weights it returns have no entries for the centers. -/
theorem C19_too_few_values_are_ignored (hsort : ∀ l, (pb.sortD l).Perm l) (hfew : (eqIdcs pb).length < pb.l)
    (hall : ∀ i < pb.n, (pb.values i).isSome ∨ (pb.lb i).isSome ∨ (pb.ub i).isSome)
    (hlb : ∀ i x, pb.lb i = some x → x - pb.tol ≤ 0) (hubd : ∀ i x, pb.ub i = some x → 0 ≤ x + pb.tol) :
    fit pb 1 = some (.ok (eqIdcs pb, List.replicate pb.l 0)) := by
  have hround : round pb (init pb) = .ok (.inl (eqIdcs pb, List.replicate pb.l 0)) := by
    unfold round
    dsimp only
    rw [centers_init]
    have hfs : fitStep pb (init pb) (eqIdcs pb) =
        .ok (List.replicate pb.l 0, List.replicate (ineqIdcs pb).length 0, (init pb).wp, (init pb).wq) := by
      unfold fitStep; rw [if_neg (by omega)]; rfl
    rw [hfs, Outcome.ok_bind]
    simp only
    have hco := compl_centers (inv_init (pb := pb))
    rw [centers_init] at hco
    rw [hco, Outcome.ok_bind]
    set indices := (List.range pb.n).filter (fun k => !(eqIdcs pb).contains k) with hind
    have hlen : indices.length ≤ (ineqIdcs pb).length := by
      apply List.Subperm.length_le
      apply List.Nodup.subperm (List.nodup_range.filter _)
      intro i hi'
      rw [List.mem_filter, List.mem_range] at hi'
      have hnc : i ∉ eqIdcs pb := by simpa using hi'.2
      apply mem_ineq.2 ⟨hi'.1, _⟩
      rcases hall i hi'.1 with h | h
      · exact absurd (mem_eq.2 ⟨hi'.1, h⟩) hnc
      · exact h
    obtain ⟨res, hres⟩ := traverse_exists (f := residual pb (List.replicate (ineqIdcs pb).length 0)) indices.zipIdx (by
      intro p hp
      apply residual_ok
      left
      have := List.mem_zipIdx hp
      simp only [List.length_replicate]
      omega)
    rw [hres, Outcome.ok_bind]
    obtain ⟨flt, hflt⟩ := filterIndices_ok (pb := pb) (le_max_right pb.d0 kMinDistance)
      (sorted := pb.sortD (indices.zip res)) (by
      intro p hp
      have := (List.of_mem_zip ((hsort _).mem_iff.1 hp)).1
      rw [hind, List.mem_filter, List.mem_range] at this
      exact this.1)
    have hfd : (init pb).fd = max pb.d0 kMinDistance := rfl
    rw [hfd, hflt, Outcome.ok_bind, updLoop_eq (f := fun _ => 0) _ 0 _ (by
      intro j idx hj
      have := (List.getElem?_eq_some_iff.1 hj).1
      rw [Nat.zero_add, List.getElem?_replicate, if_pos this]), Outcome.ok_bind]
    have hun : ∀ (l : List Nat) (wp : Nat → ℝ), l.foldl (fun a idx => updUb pb flt 0 idx (updLb pb flt 0 idx a))
        ⟨fun _ => false, fun _ => false, wp, false⟩ = ⟨fun _ => false, fun _ => false, wp, false⟩ := by
      intro l
      induction l with
      | nil => intro wp; rfl
      | cons x l ih =>
          intro wp
          have h1 : updLb pb flt 0 x ⟨fun _ => false, fun _ => false, wp, false⟩ =
              ⟨fun _ => false, fun _ => false, wp, false⟩ := by
            unfold updLb
            cases hb : pb.lb x with
            | none => rfl
            | some b => simp only; rw [if_neg (by simp), if_neg (not_lt.2 (hlb x b hb))]
          have h2 : updUb pb flt 0 x ⟨fun _ => false, fun _ => false, wp, false⟩ =
              ⟨fun _ => false, fun _ => false, wp, false⟩ := by
            unfold updUb
            cases hb : pb.ub x with
            | none => rfl
            | some b => simp only; rw [if_neg (by simp), if_neg (not_lt.2 (hubd x b hb))]
          rw [List.foldl_cons, h1, h2]
          exact ih wp
    have : (init pb).actLb = fun _ => false := rfl
    rw [this]
    have : (init pb).actUb = fun _ => false := rfl
    rw [this, hun]
    rfl
  rw [fit, loop, hround]

/-- A demonstration problem on `n` points: the 'interpolant' takes the weight of the center at the point, 0 elsewhere. -/
noncomputable def demo (values lb ub : List (Option ℝ)) (l : Nat) : Problem where
  n := values.length
  l := l
  values := fun i => (values[i]?).join
  lb := fun i => (lb[i]?).join
  ub := fun i => (ub[i]?).join
  tol := 1
  d0 := 10
  w0 := fun _ => 0
  q0 := List.replicate l 0
  search := fun _ i => [i]
  solve := fun c v _ => .ok ((List.range (c.length + l)).map (fun k => ((v[k]?).join).getD 0))
  eval := fun c w i => if i ∈ c then w.getD (c.idxOf i) 0 else 0
  sortD := fun x => x

theorem demo_solve (values lb ub : List (Option ℝ)) (l : Nat) : SolverOk (demo values lb ub l) := by
  intro c v w0 w hnd h
  simp only [demo, Outcome.ok.injEq] at h ⊢
  subst h
  refine ⟨by simp, fun k idx x h1 h2 => ?_⟩
  obtain ⟨hk, hk'⟩ := List.getElem?_eq_some_iff.1 h1
  rw [if_pos (List.mem_of_getElem? h1), ← hk', hnd.idxOf_getElem k hk]
  simp only [List.getD_eq_getElem?_getD, List.getElem?_map, List.getElem?_range (show k < c.length + l by omega),
    Option.map_some, Option.getD_some, h2, Option.join_some]
  norm_num

/-- a value 5 at the second point and a lower bound 0 at the first one: fitted in one pass, one center -/
theorem fit_demo : fit (demo [none, some 5] [some 0, none] [none, none] 0) 1 = some (.ok ([1], [5])) := by
  have hc : centers (demo [none, some 5] [some 0, none] [none, none] 0)
      (init (demo [none, some 5] [some 0, none] [none, none] 0)) = [1] := by rw [centers_init]; rfl
  have h1 : ineqIdcs (demo [none, some 5] [some 0, none] [none, none] 0) = [0] := by
    simp [ineqIdcs, argWhere, demo, setUnion, List.range_succ]
  have hround : round (demo [none, some 5] [some 0, none] [none, none] 0)
      (init (demo [none, some 5] [some 0, none] [none, none] 0)) = .ok (.inl ([1], [5])) := by
    have hfs : fitStep (demo [none, some 5] [some 0, none] [none, none] 0)
      (init (demo [none, some 5] [some 0, none] [none, none] 0)) [1] =
        .ok ([5], [0], scatter [1] [5] (fun _ => 0), []) := by
      unfold fitStep
      rw [h1]
      simp [demo, init, centerValues, eqIdcs, argWhere, List.range_succ]
    unfold round
    dsimp only
    rw [hc, hfs, Outcome.ok_bind]
    dsimp only
    rw [compl_ok (by simp) (by simp [demo]), Outcome.ok_bind,
      show (List.range (demo [none, some 5] [some 0, none] [none, none] 0).n).filter (fun i => ![1].contains i) = [0]
        from rfl]
    have hres : Outcome.traverse (residual (demo [none, some 5] [some 0, none] [none, none] 0) [0]) [0].zipIdx =
        .ok [0] := by
      simp [Outcome.traverse, residual, demo, Outcome.get]
    rw [hres, Outcome.ok_bind]
    obtain ⟨flt, hflt⟩ := filterIndices_ok (pb := demo [none, some 5] [some 0, none] [none, none] 0)
      (inv_init (pb := demo [none, some 5] [some 0, none] [none, none] 0)).fd
      (sorted := (demo [none, some 5] [some 0, none] [none, none] 0).sortD ([0].zip [0])) (by simp [demo])
    rw [hflt, Outcome.ok_bind, h1]
    simp [updLoop, Outcome.get, updLb, updUb, demo, init]
    rw [if_neg (by norm_num)]
  rw [fit, loop, hround]

/-- a point with neither value nor bound before a bounded one: undefined behaviour in the first pass -/
example : fit (demo [none, none] [none, some 5] [none, none] 1) 1 = some .ub := by
  refine C19_unconstrained_point_reads_out_of_bounds (_, _, _, _) (by
    unfold fitStep; rw [if_neg (by decide +kernel)]; rfl) 1 1 (by rfl)
    (by simp [ineqIdcs, argWhere, demo, setUnion, List.range_succ]) (Or.inl rfl)

/-- one value, linear polynomial: ignored -/
example : fit (demo [some 5, none] [none, some 0] [none, none] 2) 1 = some (.ok ([0], [0, 0])) := by
  refine C19_too_few_values_are_ignored (fun l => List.Perm.refl l) (by decide +kernel) ?_ ?_ ?_
  · intro i hi
    simp only [demo, List.length_cons, List.length_nil] at hi
    obtain rfl | rfl : i = 0 ∨ i = 1 := by omega
    · exact Or.inl rfl
    · exact Or.inr (Or.inl rfl)
  · intro i x hx
    have : i < 2 := by
      by_contra h
      simp [demo, List.getElem?_eq_none (show ([none, some (0:ℝ)] : List (Option ℝ)).length ≤ i by simp; omega)] at hx
    obtain rfl | rfl : i = 0 ∨ i = 1 := by omega
    · simp [demo] at hx
    · simp [demo] at hx; subst hx; simp [demo]
  · intro i x hx
    have : i < 2 := by
      by_contra h
      simp [demo, List.getElem?_eq_none (show ([none, none] : List (Option ℝ)).length ≤ i by simp; omega)] at hx
    obtain rfl | rfl : i = 0 ∨ i = 1 := by omega
    · simp [demo] at hx
    · simp [demo] at hx

end Verif.Inequality
