import Verif.Model.Solver
import Mathlib.Tactic.Linarith
import Mathlib.Data.List.Perm.Basic

/-!
# C20: the solver returns only converged solutions within the iteration budget
-/

namespace Verif.Solver

open Verif

variable {pb : Prob}

/-- The shuffle and the partition permute. -/
structure Prob.Ok (pb : Prob) : Prop where
  shuffle : ∀ l, (pb.shuffle l).Perm l
  partition : ∀ p l, (pb.partition p l).Perm l

theorem absErr_le {t : ℝ} (a : Nat → Num) (b : Nat → Num) (l : List Nat) (ha : ∀ i ∈ l, (a i).isSome)
    (hb : ∀ i ∈ l, (b i).isSome) (h : gt (absErr (l.map a) (l.map b)) t = false) :
    ∀ i ∈ l, ∀ x y, a i = some x → b i = some y → |x - y| ≤ t := by
  have key : ∀ l : List Nat, (∀ i ∈ l, (a i).isSome) → (∀ i ∈ l, (b i).isSome) →
      ∃ m, absErr (l.map a) (l.map b) = some m ∧ ∀ i ∈ l, ∀ x y, a i = some x → b i = some y → |x - y| ≤ m := by
    intro l
    induction l with
    | nil => intro _ _; exact ⟨0, rfl, by simp⟩
    | cons j l ih =>
        intro ha hb
        obtain ⟨m, h1, h2⟩ := ih (fun i hi => ha i (by simp [hi])) (fun i hi => hb i (by simp [hi]))
        obtain ⟨x, hx⟩ := Option.isSome_iff_exists.1 (ha j (by simp))
        obtain ⟨y, hy⟩ := Option.isSome_iff_exists.1 (hb j (by simp))
        refine ⟨max |x - y| m, ?_, ?_⟩
        · unfold absErr at h1 ⊢
          have hs : sub (some x) (some y) = some (x - y) := rfl
          simp only [List.map_cons, List.zipWith_cons_cons, List.foldr_cons, hx, hy, hs, h1, Option.map₂_some_some]
        · intro i hi x' y' hx' hy'
          rcases List.mem_cons.1 hi with rfl | hi
          · rw [hx] at hx'; rw [hy] at hy'
            simp only [Option.some.injEq] at hx' hy'
            rw [← hx', ← hy']; exact le_max_left _ _
          · exact le_trans (h2 i hi x' y' hx' hy') (le_max_right _ _)
  obtain ⟨m, h1, h2⟩ := key l ha hb
  rw [h1] at h
  have hm : m ≤ t := by simpa [gt] using h
  intro i hi x y hx hy
  exact le_trans (h2 i hi x y hx hy) hm

theorem absErr_none (a b : List Num) (h : none ∈ List.zipWith sub a b) : absErr a b = none := by
  unfold absErr
  generalize List.zipWith sub a b = l at h
  induction l with
  | nil => simp at h
  | cons x l ih =>
      rcases List.mem_cons.1 h with h | h
      · subst h; simp
      · rw [List.foldr_cons, ih h]; simp

/-- `converged` over gradient components: pairs of a point and a component. -/
theorem absErr_le_grad {t : ℝ} {dim : Nat} (a b : Nat → Nat → Num) (l : List Nat)
    (ha : ∀ i ∈ l, ∀ k < dim, (a i k).isSome) (hb : ∀ i ∈ l, ∀ k < dim, (b i k).isSome)
    (h : gt (absErr (l.flatMap (fun i => (List.range dim).map (a i))) (l.flatMap (fun i => (List.range dim).map (b i)))) t
      = false) :
    ∀ i ∈ l, ∀ k < dim, ∀ x y, a i k = some x → b i k = some y → |x - y| ≤ t := by
  have key : ∀ l : List Nat, (∀ i ∈ l, ∀ k < dim, (a i k).isSome) → (∀ i ∈ l, ∀ k < dim, (b i k).isSome) →
      ∃ m, absErr (l.flatMap (fun i => (List.range dim).map (a i))) (l.flatMap (fun i => (List.range dim).map (b i)))
        = some m ∧ ∀ i ∈ l, ∀ k < dim, ∀ x y, a i k = some x → b i k = some y → |x - y| ≤ m := by
    intro l
    induction l with
    | nil => intro _ _; exact ⟨0, rfl, by simp⟩
    | cons j l ih =>
        intro ha hb
        obtain ⟨m, h1, h2⟩ := ih (fun i hi => ha i (by simp [hi])) (fun i hi => hb i (by simp [hi]))
        -- one row in front of what is known
        have row : ∀ r : List Nat, (∀ k ∈ r, k < dim) → ∃ m', m ≤ m' ∧
            (List.zipWith sub (r.map (a j) ++ l.flatMap (fun i => (List.range dim).map (a i)))
              (r.map (b j) ++ l.flatMap (fun i => (List.range dim).map (b i)))).foldr
                (Option.map₂ (fun x m => max |x| m)) (some 0) = some m' ∧
            ∀ k ∈ r, ∀ x y, a j k = some x → b j k = some y → |x - y| ≤ m' := by
          intro r
          induction r with
          | nil => intro _; exact ⟨m, le_refl _, by simpa [absErr] using h1, by simp⟩
          | cons k r ihr =>
              intro hr
              obtain ⟨m', hm, e, hh⟩ := ihr (fun k' hk' => hr k' (by simp [hk']))
              obtain ⟨x, hx⟩ := Option.isSome_iff_exists.1 (ha j (by simp) k (hr k (by simp)))
              obtain ⟨y, hy⟩ := Option.isSome_iff_exists.1 (hb j (by simp) k (hr k (by simp)))
              refine ⟨max |x - y| m', le_trans hm (le_max_right _ _), ?_, ?_⟩
              · have hs : sub (some x) (some y) = some (x - y) := rfl
                simp only [List.map_cons, List.cons_append, List.zipWith_cons_cons, List.foldr_cons, hx, hy, hs, e,
                  Option.map₂_some_some]
              · intro k' hk' x' y' hx' hy'
                rcases List.mem_cons.1 hk' with rfl | hk'
                · rw [hx] at hx'; rw [hy] at hy'
                  simp only [Option.some.injEq] at hx' hy'
                  rw [← hx', ← hy']; exact le_max_left _ _
                · exact le_trans (hh k' hk' x' y' hx' hy') (le_max_right _ _)
        obtain ⟨m', hm, e, hh⟩ := row (List.range dim) (fun k hk => List.mem_range.1 hk)
        refine ⟨m', by simpa [absErr] using e, ?_⟩
        intro i hi k hk x y hx hy
        rcases List.mem_cons.1 hi with rfl | hi
        · exact hh k (List.mem_range.2 hk) x y hx hy
        · exact le_trans (h2 i hi k hk x y hx hy) hm
  obtain ⟨m, h1, h2⟩ := key l ha hb
  rw [h1] at h
  have hm : m ≤ t := by simpa [gt] using h
  intro i hi k hk x y hx hy
  exact le_trans (h2 i hi k hk x y hx hy) hm

/-- Everything that enters the residuals of the weights `w` is a number. -/
structure Numbers (pb : Prob) (w : List Num) : Prop where
  weight : ∀ i < pb.mu, (w.getD i none).isSome
  value : ∀ i < pb.mu, (pb.values.getD i none).isSome
  gradValue : ∀ i < pb.sigma, ∀ k < pb.dim, (pb.values.getD (pb.mu + (pb.dim * i + k)) none).isSome
  directP : ∀ i < pb.mu, (pb.directP w i).isSome
  directG : ∀ i < pb.sigma, ∀ k < pb.dim, (pb.directG w i k).isSome
  fastP : ∀ i < pb.mu, (pb.fastP w i).isSome
  fastG : ∀ i < pb.sigma, ∀ k < pb.dim, (pb.fastG w i k).isSome

/-- The fast evaluator is accurate to `acc` for values and `gacc` for gradients. -/
def Accurate (pb : Prob) (acc gacc : ℝ) : Prop :=
  (∀ w, ∀ i < pb.mu, ∀ x y, pb.fastP w i = some x → pb.directP w i = some y → |x - y| ≤ acc) ∧
  (∀ w, ∀ i < pb.sigma, ∀ k < pb.dim, ∀ x y, pb.fastG w i k = some x → pb.directG w i k = some y → |x - y| ≤ gacc)

/-- Weights `w` fit all values within `t` and all gradients within `gt`, by exact evaluation (the value at a point includes
the nugget times the weight of the point). -/
def FitsAll (pb : Prob) (w : List Num) (t gt : ℝ) : Prop :=
  (∀ i < pb.mu, ∀ f u v, pb.directP w i = some f → w.getD i none = some u → pb.values.getD i none = some v →
    |f + u * pb.nugget - v| ≤ t) ∧
  (∀ i < pb.sigma, ∀ k < pb.dim, ∀ f v, pb.directG w i k = some f → pb.values.getD (pb.mu + (pb.dim * i + k)) none = some v → |f - v| ≤ gt)

theorem full_of_min (hok : pb.Ok) (h : min pb.mu kTarget = pb.mu) : ∀ i < pb.mu, i ∈ directIndices pb := by
  intro i hi
  unfold directIndices
  have hp : (pb.partition (fun i => nonzero (value pb i)) (pb.shuffle (List.range pb.mu))).Perm (List.range pb.mu) :=
    (hok.partition _ _).trans (hok.shuffle _)
  rw [h, List.take_of_length_le (by rw [hp.length_eq]; simp), hp.mem_iff]
  exact List.mem_range.2 hi

theorem full_of_min_grad (hok : pb.Ok) (h : min pb.sigma kTarget = pb.sigma) :
    ∀ i < pb.sigma, i ∈ directGradIndices pb := by
  intro i hi
  unfold directGradIndices
  have hp : (pb.partition (fun i => (List.range pb.dim).any (fun k => nonzero (gradValue pb i k)))
      (pb.shuffle (List.range pb.sigma))).Perm (List.range pb.sigma) := (hok.partition _ _).trans (hok.shuffle _)
  rw [h, List.take_of_length_le (by rw [hp.length_eq]; simp), hp.mem_iff]
  exact List.mem_range.2 hi

theorem directIndices_lt (hok : pb.Ok) : ∀ i ∈ directIndices pb, i < pb.mu := by
  intro i hi
  have := List.mem_of_mem_take hi
  rw [(hok.partition _ _).mem_iff, (hok.shuffle _).mem_iff] at this
  exact List.mem_range.1 this

theorem directGradIndices_lt (hok : pb.Ok) : ∀ i ∈ directGradIndices pb, i < pb.sigma := by
  intro i hi
  have := List.mem_of_mem_take hi
  rw [(hok.partition _ _).mem_iff, (hok.shuffle _).mem_iff] at this
  exact List.mem_range.1 this

theorem withNugget_some {w : List Num} {i : Nat} {x : Num} (h : (w.getD i none).isSome) (hx : x.isSome) :
    (withNugget pb w i x).isSome := by
  obtain ⟨u, hu⟩ := Option.isSome_iff_exists.1 h
  obtain ⟨y, rfl⟩ := Option.isSome_iff_exists.1 hx
  rw [withNugget, hu]; rfl

theorem withNugget_eq {w : List Num} {i : Nat} {f u : ℝ} (h : w.getD i none = some u) :
    withNugget pb w i (some f) = some (f + u * pb.nugget) := by
  simp only [withNugget, h, mul, add, Option.map₂_some_some]

theorem converged_fits (hok : pb.Ok) {acc gacc : ℝ} (hacc : Accurate pb acc gacc) (ha : 0 ≤ acc) (hga : 0 ≤ gacc)
    {w : List Num} (hn : Numbers pb w) (h : converged pb w = true) :
    FitsAll pb w (pb.tol + acc) (pb.gtol + gacc) ∧
    (pb.mu ≤ kTarget → pb.sigma ≤ kTarget → FitsAll pb w pb.tol pb.gtol) := by
  unfold converged at h
  simp only at h
  split at h
  · simp at h
  · rename_i hd
    simp only [Bool.or_eq_true, not_or, Bool.not_eq_true] at hd
    have hdir : (∀ i ∈ directIndices pb, ∀ f u v, pb.directP w i = some f → w.getD i none = some u →
          value pb i = some v → |f + u * pb.nugget - v| ≤ pb.tol) ∧
        (∀ i ∈ directGradIndices pb, ∀ k < pb.dim, ∀ f v, pb.directG w i k = some f → gradValue pb i k = some v →
          |f - v| ≤ pb.gtol) := by
      constructor
      · intro i hi f u v hf hu hv
        refine absErr_le (fun i => withNugget pb w i (pb.directP w i)) (value pb) (directIndices pb)
          (fun j hj => withNugget_some (hn.weight j (directIndices_lt hok j hj)) (hn.directP j (directIndices_lt hok j hj)))
          (fun j hj => hn.value j (directIndices_lt hok j hj)) hd.1 i hi _ _ ?_ hv
        rw [hf]; exact withNugget_eq hu
      · intro i hi k hk f v hf hv
        exact absErr_le_grad (pb.directG w) (gradValue pb) (directGradIndices pb)
          (fun j hj => hn.directG j (directGradIndices_lt hok j hj))
          (fun j hj => hn.gradValue j (directGradIndices_lt hok j hj)) hd.2 i hi k hk _ _ hf hv
    split at h
    · rename_i hall
      have hexact : FitsAll pb w pb.tol pb.gtol :=
        ⟨fun i hi => hdir.1 i (full_of_min hok hall.1 i hi), fun i hi => hdir.2 i (full_of_min_grad hok hall.2 i hi)⟩
      refine ⟨⟨fun i hi f u v h1 h2 h3 => ?_, fun i hi k hk f v h1 h2 => ?_⟩, fun _ _ => hexact⟩
      · linarith [hexact.1 i hi f u v h1 h2 h3]
      · linarith [hexact.2 i hi k hk f v h1 h2]
    · rename_i hnall
      split at h
      · simp at h
      · rename_i hf
        simp only [Bool.or_eq_true, not_or, Bool.not_eq_true] at hf
        refine ⟨⟨fun i hi f u v h1 h2 h3 => ?_, fun i hi k hk f v h1 h2 => ?_⟩, fun h1 h2 => ?_⟩
        · obtain ⟨x, hx⟩ := Option.isSome_iff_exists.1 (hn.fastP i hi)
          have hm := absErr_le (fun i => withNugget pb w i (pb.fastP w i)) (value pb) (List.range pb.mu)
            (fun j hj => withNugget_some (hn.weight j (List.mem_range.1 hj)) (hn.fastP j (List.mem_range.1 hj)))
            (fun j hj => hn.value j (List.mem_range.1 hj)) hf.1 i (List.mem_range.2 hi) (x + u * pb.nugget) v
            (by rw [hx]; exact withNugget_eq h2) h3
          have hacc' := hacc.1 w i hi x f hx h1
          rw [abs_le] at hm hacc' ⊢
          constructor <;> linarith [hm.1, hm.2, hacc'.1, hacc'.2]
        · obtain ⟨x, hx⟩ := Option.isSome_iff_exists.1 (hn.fastG i hi k hk)
          have hm := absErr_le_grad (pb.fastG w) (gradValue pb) (List.range pb.sigma)
            (fun j hj => hn.fastG j (List.mem_range.1 hj)) (fun j hj => hn.gradValue j (List.mem_range.1 hj)) hf.2 i
            (List.mem_range.2 hi) k hk _ _ hx h2
          have hacc' := hacc.2 w i hi k hk x f hx h1
          rw [abs_le] at hm hacc' ⊢
          constructor <;> linarith [hm.1, hm.2, hacc'.1, hacc'.2]
        · exact absurd ⟨min_eq_left h1, min_eq_left h2⟩ hnall

theorem iterate_spec : ∀ (fuel k : Nat), k + fuel = pb.maxIter + 1 → 0 < fuel →
    (∃ j, k ≤ j ∧ j ≤ pb.maxIter ∧ iterate pb fuel k = .ok (pb.sol j) ∧ converged pb (pb.sol j) = true ∧
      ∀ i, k ≤ i → i < j → converged pb (pb.sol i) = false) ∨
    (iterate pb fuel k = .throws .runtimeError ∧ ∀ i, k ≤ i → i ≤ pb.maxIter → converged pb (pb.sol i) = false) := by
  intro fuel
  induction fuel with
  | zero => intro k _ h; omega
  | succ n ih =>
      intro k hk _
      rw [iterate]
      by_cases hc : converged pb (pb.sol k) = true
      · rw [if_pos hc]
        exact Or.inl ⟨k, le_refl _, by omega, rfl, hc, fun i h1 h2 => by omega⟩
      · rw [if_neg hc]
        by_cases hm : k = pb.maxIter
        · rw [if_pos hm]
          refine Or.inr ⟨rfl, fun i h1 h2 => ?_⟩
          have : i = k := by omega
          rw [this]; simpa using hc
        · rw [if_neg hm]
          have hc' : converged pb (pb.sol k) = false := by simpa using hc
          rcases ih (k + 1) (by omega) (by omega) with ⟨j, h1, h2, h3, h4, h5⟩ | ⟨h1, h2⟩
          · refine Or.inl ⟨j, by omega, h2, h3, h4, fun i h6 h7 => ?_⟩
            by_cases hik : i = k
            · rw [hik]; exact hc'
            · exact h5 i (by omega) h7
          · refine Or.inr ⟨h1, fun i h6 h7 => ?_⟩
            by_cases hik : i = k
            · rw [hik]; exact hc'
            · exact h2 i (by omega) h7

/-- C20: `solve` never performs more than `max_iter` iterations.  It returns the initial weights if the Krylov residual is
exactly zero there; else the first iterate that is measured as converged; and throws if there is none among the first
`max_iter + 1`. -/
theorem C20_within_budget :
    (pb.rel0 = some 0 ∧ solve pb = .ok pb.w0) ∨
    (pb.rel0 ≠ some 0 ∧ ∃ j ≤ pb.maxIter, solve pb = .ok (pb.sol j) ∧ converged pb (pb.sol j) = true ∧
      ∀ i < j, converged pb (pb.sol i) = false) ∨
    (pb.rel0 ≠ some 0 ∧ solve pb = .throws .runtimeError ∧ ∀ i ≤ pb.maxIter, converged pb (pb.sol i) = false) := by
  unfold solve
  by_cases h : pb.rel0 = some 0
  · left; rw [if_pos h]; exact ⟨h, rfl⟩
  · right
    rw [if_neg h]
    rcases iterate_spec (pb := pb) (pb.maxIter + 1) 0 (by omega) (by omega) with ⟨j, -, h2, h3, h4, h5⟩ | ⟨h1, h2⟩
    · exact Or.inl ⟨h, j, h2, h3, h4, fun i hi => h5 i (by omega) hi⟩
    · exact Or.inr ⟨h, h1, fun i hi => h2 i (by omega) hi⟩

/-- C20: returned weights fit.  If nothing measured was a NaN, then evaluated exactly they fit every value within the
tolerance plus the accuracy of the fast evaluator, and within the tolerance alone for at most 1024 points and at most 1024
gradient points; the only exception are initial weights whose Krylov residual is exactly zero. -/
theorem C20_returned_weights_fit (hok : pb.Ok) {acc gacc : ℝ} (hacc : Accurate pb acc gacc) (ha : 0 ≤ acc) (hga : 0 ≤ gacc)
    (w : List Num) (h : solve pb = .ok w) (hn : Numbers pb w) :
    (pb.rel0 = some 0 ∧ w = pb.w0) ∨
    (FitsAll pb w (pb.tol + acc) (pb.gtol + gacc) ∧
      (pb.mu ≤ 1024 → pb.sigma ≤ 1024 → FitsAll pb w pb.tol pb.gtol)) := by
  rcases C20_within_budget (pb := pb) with ⟨h1, h2⟩ | ⟨_, j, _, h2, h3, _⟩ | ⟨_, h2, _⟩
  · rw [h2] at h; simp only [Outcome.ok.injEq] at h; exact Or.inl ⟨h1, h.symm⟩
  · rw [h2] at h
    simp only [Outcome.ok.injEq] at h
    subst h
    exact Or.inr (converged_fits hok hacc ha hga hn h3)
  · rw [h2] at h; simp at h

/-- C20, the hazard behind the word 'number' above: for up to 1024 points, one fitted value that is a NaN makes the first
iterate count as converged, whatever the other residuals are. -/
theorem C20_nan_counts_as_converged (hok : pb.Ok) (hmu : pb.mu ≤ 1024) (hsigma : pb.sigma = 0) (hgt : 0 ≤ pb.gtol)
    (hrel : pb.rel0 ≠ some 0) (i : Nat) (hi : i < pb.mu) (hnan : pb.directP (pb.sol 0) i = none) :
    solve pb = .ok (pb.sol 0) := by
  have hmem := full_of_min hok (min_eq_left hmu : min pb.mu kTarget = pb.mu) i hi
  have hg0 : directGradIndices pb = [] := by simp [directGradIndices, hsigma]
  have h1 : (directResiduals pb (pb.sol 0)).1 = none := by
    unfold directResiduals
    apply absErr_none
    rw [List.zipWith_map_left, List.zipWith_map_right, List.zipWith_self]
    refine List.mem_map.2 ⟨i, hmem, ?_⟩
    rw [hnan]; simp [withNugget, add, sub]
  have h2 : (directResiduals pb (pb.sol 0)).2 = some 0 := by
    unfold directResiduals; simp [hg0, absErr]
  have hc : converged pb (pb.sol 0) = true := by
    unfold converged
    simp only [h1, h2]
    rw [if_neg (by simp [gt, hgt]), if_pos ⟨min_eq_left hmu, by simp [hsigma]⟩]
  unfold solve
  rw [if_neg hrel, iterate]
  rw [if_pos hc]

/-- The hypotheses have a model: two points, the second iterate fits. -/
noncomputable def demo (nan : Bool) : Prob where
  dim := 1
  mu := 2
  sigma := 0
  nugget := 0
  tol := 1
  gtol := 1
  maxIter := 5
  values := [some 3, some 4]
  shuffle := fun l => l.reverse
  partition := fun p l => l.filter p ++ l.filter (fun x => !p x)
  directP := fun w i => if nan then none else w.getD i none
  directG := fun _ _ _ => some 0
  fastP := fun w i => w.getD i none
  fastG := fun _ _ _ => some 0
  w0 := [some 0, some 0]
  rel0 := some 1
  sol := fun k => if k = 0 then [some 0, some 0] else [some 3, some 4]

theorem demo_ok (b : Bool) : (demo b).Ok where
  shuffle := fun l => List.reverse_perm l
  partition := fun p l => by simpa [demo] using List.filter_append_perm p l

example : solve (demo true) = .ok [some 0, some 0] :=
  C20_nan_counts_as_converged (demo_ok true) (by simp [demo]) rfl (by simp [demo]) (by simp [demo]) 0 (by simp [demo]) rfl

example : ∃ j ≤ 5, solve (demo false) = .ok ((demo false).sol j) ∧ j ≠ 0 := by
  have hd : directIndices (demo false) = [1, 0] := by
    simp [directIndices, demo, nonzero, value, kTarget, List.range_succ]
  have hc0 : converged (demo false) ((demo false).sol 0) = false := by
    unfold converged directResiduals
    rw [hd]
    simp [demo, gt, absErr, withNugget, add, mul, sub, value]
  have hc1 : converged (demo false) ((demo false).sol 1) = true := by
    unfold converged directResiduals
    rw [hd]
    simp [demo, gt, absErr, withNugget, add, mul, sub, value, kTarget, directGradIndices]
  rcases C20_within_budget (pb := demo false) with ⟨h1, _⟩ | ⟨_, j, hj, h2, h3, _⟩ | ⟨_, _, h⟩
  · simp [demo] at h1
  · refine ⟨j, hj, h2, ?_⟩
    rintro rfl
    rw [hc0] at h3; simp at h3
  · have := h 1 (by simp [demo]); rw [hc1] at this; simp at this

end Verif.Solver
