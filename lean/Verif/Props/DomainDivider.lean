import Verif.Lemmas.DomainDivider
import Mathlib.Data.List.Nodup
import Mathlib.Data.List.Sort
import Mathlib.Algebra.BigOperators.Group.List.Basic

/-! # C22: domain division -/

namespace Verif.DomainDivider

open Verif

/-! ## counting -/

theorem toDomain_mixedPoints (d : Domain) : toDomain (mixedPoints d) = d := by
  cases d with
  | mk p g =>
    simp only [toDomain, mixedPoints, List.filter_append, List.filter_map, Function.comp_def, Bool.not_false,
      Bool.not_true, List.map_append, List.map_map]
    simp

theorem count_pts (l : List MixedPoint) (i : Nat) (b : Bool) :
    (toDomain l).pts.count (i, b) = l.count ⟨i, b, false⟩ := by
  induction l with
  | nil => rfl
  | cons m ms ih =>
      obtain ⟨j, f, g⟩ := m
      simp only [toDomain] at ih ⊢
      cases g
      · simp only [List.filter_cons, Bool.not_false, if_true, List.map_cons, List.count_cons, ih]
        simp
      · simp only [List.filter_cons, Bool.not_true, Bool.false_eq_true, if_false, List.count_cons, ih]
        simp

theorem count_grads (l : List MixedPoint) (i : Nat) (b : Bool) :
    (toDomain l).grads.count (i, b) = l.count ⟨i, b, true⟩ := by
  induction l with
  | nil => rfl
  | cons m ms ih =>
      obtain ⟨j, f, g⟩ := m
      simp only [toDomain] at ih ⊢
      cases g
      · simp only [List.filter_cons, Bool.false_eq_true, if_false, List.count_cons, ih]
        simp
      · simp only [List.filter_cons, if_true, List.map_cons, List.count_cons, ih]
        simp

theorem count_pts_fst (l : List MixedPoint) (i : Nat) :
    ((toDomain l).pts.map Prod.fst).count i = l.countP (fun m => !m.grad && (m.index == i)) := by
  induction l with
  | nil => rfl
  | cons m ms ih =>
      obtain ⟨j, f, g⟩ := m
      simp only [toDomain] at ih ⊢
      cases g
      · simp only [List.filter_cons, Bool.not_false, if_true, List.map_cons, List.count_cons, ih, List.countP_cons,
          Bool.true_and]
      · simp only [List.filter_cons, Bool.not_true, Bool.false_eq_true, if_false, List.countP_cons, ih,
          Bool.false_and, Nat.add_zero]

theorem count_grads_fst (l : List MixedPoint) (i : Nat) :
    ((toDomain l).grads.map Prod.fst).count i = l.countP (fun m => m.grad && (m.index == i)) := by
  induction l with
  | nil => rfl
  | cons m ms ih =>
      obtain ⟨j, f, g⟩ := m
      simp only [toDomain] at ih ⊢
      cases g
      · simp only [List.filter_cons, Bool.false_eq_true, if_false, List.countP_cons, ih,
          Bool.false_and, Nat.add_zero]
      · simp only [List.filter_cons, if_true, List.map_cons, List.count_cons, ih, List.countP_cons,
          Bool.true_and]

theorem count_map_out (l : List MixedPoint) (i : Nat) (g : Bool) : (l.map out).count ⟨i, true, g⟩ = 0 := by
  rw [List.count_eq_zero]
  simp [out]

theorem countP_map_out (l : List MixedPoint) (p : Bool → Nat → Bool) :
    (l.map out).countP (fun m => p m.grad m.index) = l.countP (fun m => p m.grad m.index) := by
  rw [List.countP_map]; rfl

/-- in how many domains (with repetition) the value point `i` is inner -/
def innerCount (ds : List Domain) (i : Nat) : Nat := (ds.map (fun d => d.pts.count (i, true))).sum

/-- in how many domains (with repetition) the gradient point `i` is inner -/
def innerGradCount (ds : List Domain) (i : Nat) : Nat := (ds.map (fun d => d.grads.count (i, true))).sum

/-- loop invariant of the division -/
structure Inv (r : Domain) (ds : List Domain) : Prop where
  inner : ∀ i, innerCount ds i = r.pts.count (i, true)
  innerGrad : ∀ i, innerGradCount ds i = r.grads.count (i, true)
  sub : ∀ d ∈ ds, ∀ i, (d.pts.map Prod.fst).count i ≤ (r.pts.map Prod.fst).count i
  subGrad : ∀ d ∈ ds, ∀ i, (d.grads.map Prod.fst).count i ≤ (r.grads.map Prod.fst).count i

theorem divide_inv {env : Env} (he : env.Ok) {d l r : Domain} (hN : kMaxLeafSize < d.dof env.dim)
    (h : divideDomain env d = .ok (l, r)) : Inv d [l, r] := by
  obtain ⟨ms, a, m, b, hp, ham, hmb, hb, heq, _⟩ := divideDomain_eq he d hN
  rw [heq] at h
  injection h with h
  injection h with hl hr
  have hd := toDomain_mixedPoints d
  have hwL : (ms.take m ++ (ms.drop m).take (b - m)).Sublist ms := by
    have := List.take_add (l := ms) (i := m) (j := b - m)
    rw [← this]; exact List.take_sublist _ _
  have hwR : ((ms.drop a).take (m - a) ++ ms.drop m).Sublist ms := by
    have := List.take_append_drop (m - a) (ms.drop a)
    rw [List.drop_drop, show a + (m - a) = m by omega] at this
    rw [this]; exact List.drop_sublist _ _
  constructor
  · intro i
    simp only [innerCount, List.map_cons, List.map_nil, List.sum_cons, List.sum_nil, ← hl, ← hr, count_pts,
      List.count_append, count_map_out, Nat.add_zero, Nat.zero_add]
    rw [← List.count_append, List.take_append_drop, hp.count_eq, ← count_pts, hd]
  · intro i
    simp only [innerGradCount, List.map_cons, List.map_nil, List.sum_cons, List.sum_nil, ← hl, ← hr, count_grads,
      List.count_append, count_map_out, Nat.add_zero, Nat.zero_add]
    rw [← List.count_append, List.take_append_drop, hp.count_eq, ← count_grads, hd]
  · intro e hE i
    have hR : (d.pts.map Prod.fst).count i = ms.countP (fun m => !m.grad && (m.index == i)) := by
      conv_lhs => rw [← hd]
      rw [count_pts_fst, hp.countP_eq]
    rw [hR]
    simp only [List.mem_cons, List.not_mem_nil, or_false] at hE
    rcases hE with rfl | rfl
    · rw [← hl, count_pts_fst, List.countP_append, countP_map_out _ (fun g j => !g && (j == i)), ← List.countP_append]
      exact hwL.countP_le
    · rw [← hr, count_pts_fst, List.countP_append, countP_map_out _ (fun g j => !g && (j == i)), ← List.countP_append]
      exact hwR.countP_le
  · intro e hE i
    have hR : (d.grads.map Prod.fst).count i = ms.countP (fun m => m.grad && (m.index == i)) := by
      conv_lhs => rw [← hd]
      rw [count_grads_fst, hp.countP_eq]
    rw [hR]
    simp only [List.mem_cons, List.not_mem_nil, or_false] at hE
    rcases hE with rfl | rfl
    · rw [← hl, count_grads_fst, List.countP_append, countP_map_out _ (fun g j => g && (j == i)), ← List.countP_append]
      exact hwL.countP_le
    · rw [← hr, count_grads_fst, List.countP_append, countP_map_out _ (fun g j => g && (j == i)), ← List.countP_append]
      exact hwR.countP_le

theorem divide_smaller {env : Env} (he : env.Ok) {d : Domain} (hN : kMaxLeafSize < d.dof env.dim) :
    ∃ l r, divideDomain env d = .ok (l, r) ∧ l.dof env.dim < d.dof env.dim ∧ r.dof env.dim < d.dof env.dim ∧
      766 ≤ l.dof env.dim ∧ 766 ≤ r.dof env.dim := by
  obtain ⟨ms, a, m, b, hp, ham, hmb, hb, heq, h1, h2, h3, h4⟩ := divideDomain_eq he d hN
  have hl : (toDomain (ms.take m ++ ((ms.drop m).take (b - m)).map out)).dof env.dim = multSum env.dim (ms.take b) := by
    rw [dof_toDomain, multSum_append, multSum_map_out, ← multSum_append]
    have := List.take_add (l := ms) (i := m) (j := b - m)
    rw [show m + (b - m) = b by omega] at this
    rw [← this]
  have hr : (toDomain (((ms.drop a).take (m - a)).map out ++ ms.drop m)).dof env.dim = multSum env.dim (ms.drop a) := by
    rw [dof_toDomain, multSum_append, multSum_map_out, ← multSum_append]
    have := List.take_append_drop (m - a) (ms.drop a)
    rw [List.drop_drop, show a + (m - a) = m by omega] at this
    rw [this]
  refine ⟨_, _, heq, ?_⟩
  rw [hl, hr]
  exact ⟨h1, h2, h3, h4⟩

/-- variant of the loop -/
def variant (dim : Nat) (todo : List Domain) : Nat := (todo.map (fun d => 3 ^ d.dof dim)).sum

theorem variant_cons (dim : Nat) (d : Domain) (ds : List Domain) :
    variant dim (d :: ds) = 3 ^ d.dof dim + variant dim ds := by simp [variant]

theorem variant_append (dim : Nat) (a b : List Domain) :
    variant dim (a ++ b) = variant dim a + variant dim b := by simp [variant]

theorem inv_step {R d l r : Domain} {done rest : List Domain} (h : Inv R (done ++ d :: rest)) (hs : Inv d [l, r]) :
    Inv R (done ++ (rest ++ [l, r])) := by
  constructor
  · intro i
    have h1 := h.inner i
    have h2 := hs.inner i
    simp only [innerCount, List.map_append, List.map_cons, List.sum_append, List.sum_cons, List.map_nil,
      List.sum_nil] at h1 h2 ⊢
    omega
  · intro i
    have h1 := h.innerGrad i
    have h2 := hs.innerGrad i
    simp only [innerGradCount, List.map_append, List.map_cons, List.sum_append, List.sum_cons, List.map_nil,
      List.sum_nil] at h1 h2 ⊢
    omega
  · intro e hE i
    simp only [List.mem_append] at hE
    rcases hE with hE | hE | hE
    · exact h.sub e (by simp [hE]) i
    · exact h.sub e (by simp [hE]) i
    · exact (hs.sub e hE i).trans (h.sub d (by simp) i)
  · intro e hE i
    simp only [List.mem_append] at hE
    rcases hE with hE | hE | hE
    · exact h.subGrad e (by simp [hE]) i
    · exact h.subGrad e (by simp [hE]) i
    · exact (hs.subGrad e hE i).trans (h.subGrad d (by simp) i)

theorem divideLoop_spec {env : Env} (he : env.Ok) (R : Domain) : ∀ (n : Nat) (done todo : List Domain),
    variant env.dim todo ≤ n → Inv R (done ++ todo) → (∀ d ∈ done, d.dof env.dim ≤ kMaxLeafSize) →
    (kMaxLeafSize < R.dof env.dim → ∀ d ∈ done ++ todo, 766 ≤ d.dof env.dim) →
    ∃ ds, (∀ fuel, n < fuel → divideLoop env fuel done todo = some (.ok ds)) ∧ Inv R ds ∧
      (∀ d ∈ ds, d.dof env.dim ≤ kMaxLeafSize) ∧ (kMaxLeafSize < R.dof env.dim → ∀ d ∈ ds, 766 ≤ d.dof env.dim) := by
  intro n
  induction n with
  | zero =>
      intro done todo hv hI hs hmn
      cases todo with
      | nil =>
          refine ⟨done, ?_, by simpa using hI, hs, by simpa using hmn⟩
          intro fuel hf
          obtain ⟨f, rfl⟩ : ∃ f, fuel = f + 1 := ⟨fuel - 1, by omega⟩
          rfl
      | cons d rest =>
          rw [variant_cons] at hv
          have := Nat.pow_pos (n := d.dof env.dim) (show 0 < 3 by omega)
          omega
  | succ n ih =>
      intro done todo hv hI hs hmn
      cases todo with
      | nil =>
          refine ⟨done, ?_, by simpa using hI, hs, by simpa using hmn⟩
          intro fuel hf
          obtain ⟨f, rfl⟩ : ∃ f, fuel = f + 1 := ⟨fuel - 1, by omega⟩
          rfl
      | cons d rest =>
          rw [variant_cons] at hv
          have hpow := Nat.pow_pos (n := d.dof env.dim) (show 0 < 3 by omega)
          by_cases hd : d.dof env.dim ≤ kMaxLeafSize
          · obtain ⟨ds, h1, h2, h3⟩ := ih (done ++ [d]) rest (by omega) (by simpa using hI) (by
              intro e hE
              simp only [List.mem_append, List.mem_singleton] at hE
              rcases hE with hE | rfl
              · exact hs e hE
              · exact hd) (by simpa using hmn)
            refine ⟨ds, ?_, h2, h3⟩
            intro fuel hf
            obtain ⟨f, rfl⟩ : ∃ f, fuel = f + 1 := ⟨fuel - 1, by omega⟩
            simp only [divideLoop, if_pos hd]
            exact h1 f (by omega)
          · obtain ⟨l, r, heq, hl, hr, hl2, hr2⟩ := divide_smaller he (d := d) (by omega)
            have hvar : variant env.dim (rest ++ [l, r]) ≤ n := by
              have hl' : 3 ^ l.dof env.dim ≤ 3 ^ (d.dof env.dim - 1) := Nat.pow_le_pow_right (by omega) (by omega)
              have hr' : 3 ^ r.dof env.dim ≤ 3 ^ (d.dof env.dim - 1) := Nat.pow_le_pow_right (by omega) (by omega)
              have h3 : 3 ^ d.dof env.dim = 3 * 3 ^ (d.dof env.dim - 1) := by
                rw [← Nat.pow_succ']; congr 1; omega
              have hpos := Nat.pow_pos (n := d.dof env.dim - 1) (show 0 < 3 by omega)
              rw [variant_append, variant_cons, variant_cons]
              simp only [variant, List.map_nil, List.sum_nil] at hv ⊢
              omega
            obtain ⟨ds, h1, h2, h3⟩ := ih done (rest ++ [l, r]) hvar
              (inv_step hI (divide_inv he (by omega) heq)) hs (by
                intro hR e hE
                simp only [List.mem_append, List.mem_cons, List.not_mem_nil, or_false] at hE
                rcases hE with hE | hE | rfl | rfl
                · exact hmn hR e (by simp [hE])
                · exact hmn hR e (by simp [hE])
                · exact hl2
                · exact hr2)
            refine ⟨ds, ?_, h2, h3⟩
            intro fuel hf
            obtain ⟨f, rfl⟩ : ∃ f, fuel = f + 1 := ⟨fuel - 1, by omega⟩
            simp only [divideLoop, if_neg hd, heq]
            exact h1 f (by omega)

/-! ## merging the polynomial points -/

theorem lowerBound_spec (idx : Nat) : ∀ (tail : List (Nat × Bool)), tail.Pairwise (fun a b => a.1 < b.1) →
    (∃ f, tail[lowerBound tail idx]? = some (idx, f) ∧ (idx, f) ∈ tail ∧
      tail.eraseIdx (lowerBound tail idx) = tail.filter (fun p => p.1 != idx)) ∨
    ((∀ p ∈ tail, p.1 ≠ idx) ∧ ∀ f, tail[lowerBound tail idx]? ≠ some (idx, f)) := by
  intro tail
  induction tail with
  | nil => intro _; right; simp
  | cons p ps ih =>
      intro hs
      obtain ⟨hp, hps⟩ := List.pairwise_cons.1 hs
      rcases lt_trichotomy p.1 idx with h | h | h
      · have hlb : lowerBound (p :: ps) idx = lowerBound ps idx + 1 := by
          unfold lowerBound
          rw [List.takeWhile_cons_of_pos (by simpa using h)]; rfl
        rw [hlb]
        rcases ih hps with ⟨f, h1, h2, h3⟩ | ⟨h1, h2⟩
        · left
          refine ⟨f, by simpa using h1, by simp [h2], ?_⟩
          rw [List.eraseIdx_cons_succ, h3, List.filter_cons_of_pos (by simp; omega)]
        · right
          refine ⟨?_, by simpa using h2⟩
          intro q hq
          rcases List.mem_cons.1 hq with rfl | hq
          · omega
          · exact h1 q hq
      · left
        have hlb : lowerBound (p :: ps) idx = 0 := by
          unfold lowerBound
          rw [List.takeWhile_cons_of_neg (by simp; omega)]; rfl
        rw [hlb]
        refine ⟨p.2, by rw [← h]; simp, by rw [← h]; simp, ?_⟩
        rw [List.eraseIdx_cons_zero, List.filter_cons_of_neg (by simp [h])]
        symm
        rw [List.filter_eq_self]
        intro q hq
        have := hp q hq
        simp; omega
      · right
        have hlb : lowerBound (p :: ps) idx = 0 := by
          unfold lowerBound
          rw [List.takeWhile_cons_of_neg (by simp; omega)]; rfl
        rw [hlb]
        refine ⟨?_, ?_⟩
        · intro q hq
          rcases List.mem_cons.1 hq with rfl | hq
          · omega
          · have := hp q hq; omega
        · intro f hf
          simp at hf
          rw [hf] at h
          simp at h

theorem mergeLoop_spec : ∀ (poly : List Nat) (tail : List (Nat × Bool)), poly.Nodup →
    tail.Pairwise (fun a b => a.1 < b.1) →
    mergeLoop poly tail =
      poly.map (fun i => (i, decide ((i, true) ∈ tail))) ++ tail.filter (fun p => decide (p.1 ∉ poly)) := by
  intro poly
  induction poly with
  | nil => intro tail _ _; simp [mergeLoop]
  | cons idx poly ih =>
      intro tail hn hs
      obtain ⟨hn1, hn2⟩ := List.nodup_cons.1 hn
      rcases lowerBound_spec idx tail hs with ⟨f, h1, h2, h3⟩ | ⟨h1, h2⟩
      · have hinj : ∀ g, (idx, g) ∈ tail → g = f := by
          intro g hg
          by_contra hne
          rcases List.pairwise_iff_getElem.1 hs with hpw
          obtain ⟨a, ha, hae⟩ := List.getElem_of_mem hg
          obtain ⟨b, hb, hbe⟩ := List.getElem_of_mem h2
          rcases lt_trichotomy a b with h | h | h
          · have := hpw a b ha hb h; rw [hae, hbe] at this; simp at this
          · subst h; rw [hae] at hbe; injection hbe with _ h'; exact hne h'
          · have := hpw b a hb ha h; rw [hae, hbe] at this; simp at this
        simp only [mergeLoop, h1, if_true, h3]
        rw [ih _ hn2 (hs.sublist List.filter_sublist)]
        simp only [List.map_cons, List.cons_append, List.filter_filter]
        congr 1
        · congr 1
          cases f
          · symm; simp only [decide_eq_false_iff_not]; intro hc; have := hinj _ hc; simp at this
          · symm; simpa using h2
        · congr 1
          · apply List.map_congr_left
            intro i hi
            have : i ≠ idx := by rintro rfl; exact hn1 hi
            simp [this]
          · apply List.filter_congr
            intro p _
            simp only [List.mem_cons, not_or]
            by_cases hp : p.1 = idx <;> simp [hp]
      · have hmerge : mergeLoop (idx :: poly) tail = (idx, false) :: mergeLoop poly tail := by
          simp only [mergeLoop]
          cases hg : tail[lowerBound tail idx]? with
          | none => rfl
          | some q =>
              obtain ⟨j, f⟩ := q
              have hj : j ≠ idx := by rintro rfl; exact h2 f hg
              simp [hj]
        rw [hmerge, ih _ hn2 hs]
        simp only [List.map_cons, List.cons_append]
        congr 1
        · congr 1
          symm; simp only [decide_eq_false_iff_not]; intro hc; exact h1 _ hc rfl
        · congr 1
          apply List.filter_congr
          intro p hp
          have := h1 p hp
          simp [this]

theorem sorted_strict {l : List (Nat × Bool)} (hs : l.Pairwise (fun a b => a.1 ≤ b.1)) (hn : (l.map Prod.fst).Nodup) :
    l.Pairwise (fun a b => a.1 < b.1) := by
  have hn' : l.Pairwise (fun a b => a.1 ≠ b.1) := by
    rw [List.Nodup, List.pairwise_map] at hn; exact hn
  exact (hs.and hn').imp (fun h => by omega)

theorem merge_eq {env : Env} (he : env.Ok) (d : Domain) {poly : List Nat} (hp : poly.Nodup)
    (hn : (d.pts.map Prod.fst).Nodup) :
    ∃ tail : List (Nat × Bool), tail.Perm d.pts ∧ tail.Pairwise (fun a b => a.1 < b.1) ∧
    (d.mergePolyPoints env poly).pts =
      poly.map (fun i => (i, decide ((i, true) ∈ d.pts))) ++ tail.filter (fun p => decide (p.1 ∉ poly)) := by
  have hperm := he.sortIdx_perm d.pts
  have hst := sorted_strict (he.sortIdx_sorted d.pts) ((hperm.map Prod.fst).nodup_iff.2 hn)
  refine ⟨_, hperm, hst, ?_⟩
  unfold Domain.mergePolyPoints
  dsimp only
  rw [mergeLoop_spec _ _ hp hst]
  simp only [hperm.mem_iff]

theorem count_map_pair (poly : List Nat) (hp : poly.Nodup) (f : Nat → Bool) (i : Nat) :
    (poly.map (fun j => (j, f j))).count (i, true) = if i ∈ poly ∧ f i = true then 1 else 0 := by
  induction poly with
  | nil => simp
  | cons j poly ih =>
      obtain ⟨h1, h2⟩ := List.nodup_cons.1 hp
      rw [List.map_cons, List.count_cons, ih h2]
      by_cases hij : j = i
      · subst hij
        cases hf : f j <;> simp [h1, hf]
      · have : ¬ i = j := fun h => hij h.symm
        simp [hij, this]

theorem merge_inner {env : Env} (he : env.Ok) (d : Domain) {poly : List Nat} (hp : poly.Nodup)
    (hn : (d.pts.map Prod.fst).Nodup) (i : Nat) :
    (d.mergePolyPoints env poly).pts.count (i, true) = d.pts.count (i, true) := by
  obtain ⟨tail, hperm, hst, heq⟩ := merge_eq he d hp hn
  have hnd : d.pts.Nodup := List.Nodup.of_map _ hn
  rw [heq, List.count_append, count_map_pair _ hp (fun i => decide ((i, true) ∈ d.pts)), ← hperm.count_eq]
  by_cases hi : i ∈ poly
  · have h0 : (tail.filter (fun p => decide (p.1 ∉ poly))).count (i, true) = 0 := by
      rw [List.count_eq_zero]; simp [hi]
    rw [h0, Nat.add_zero, hperm.count_eq]
    by_cases hm : (i, true) ∈ d.pts
    · rw [List.count_eq_one_of_mem hnd hm]; simp [hi, hm]
    · rw [List.count_eq_zero_of_not_mem hm]; simp [hm]
  · have h0 : (tail.filter (fun p => decide (p.1 ∉ poly))).count (i, true) = tail.count (i, true) :=
      List.count_filter (by simpa using hi)
    rw [h0]; simp [hi]

theorem merge_fst {env : Env} (he : env.Ok) (d : Domain) {poly : List Nat} (hp : poly.Nodup)
    (hn : (d.pts.map Prod.fst).Nodup) :
    ∃ rest, ((d.mergePolyPoints env poly).pts.map Prod.fst) = poly ++ rest ∧ rest.Pairwise (· < ·) ∧
      (∀ i, i ∈ rest ↔ i ∈ d.pts.map Prod.fst ∧ i ∉ poly) ∧ rest.length ≤ d.pts.length := by
  obtain ⟨tail, hperm, hst, heq⟩ := merge_eq he d hp hn
  refine ⟨(tail.filter (fun p => decide (p.1 ∉ poly))).map Prod.fst, ?_, ?_, ?_, ?_⟩
  · rw [heq, List.map_append, List.map_map]; simp [Function.comp_def]
  · rw [List.pairwise_map]; exact hst.sublist List.filter_sublist
  · intro i
    simp only [List.mem_map, List.mem_filter, decide_eq_true_eq, hperm.mem_iff]
    constructor
    · rintro ⟨p, ⟨h1, h2⟩, rfl⟩; exact ⟨⟨p, h1, rfl⟩, h2⟩
    · rintro ⟨⟨p, h1, rfl⟩, h2⟩; exact ⟨p, ⟨h1, h2⟩, rfl⟩
  · rw [List.length_map, ← hperm.length_eq]; exact List.length_filter_le _ _

theorem root_inv (pts grads : List Nat) : Inv (root pts grads) [root pts grads] := by
  constructor
  · intro i; simp [innerCount]
  · intro i; simp [innerGradCount]
  · intro d hd i; simp only [List.mem_singleton] at hd; subst hd; exact le_rfl
  · intro d hd i; simp only [List.mem_singleton] at hd; subst hd; exact le_rfl

/-- C22: for every set of value points, gradient points and polynomial points (each without repetition) the divider
terminates without an exception or an out-of-bounds access, and in the domains it yields

* every value point and every gradient point is an inner point of exactly one domain (exactly one occurrence over all
  domains), and nothing else is ever inner;
* every domain lists the polynomial points first, in the given order, then other value points in increasing order;
* no domain lists a point twice or lists a point that was not given;
* apart from the polynomial points, a domain has at most 1024 degrees of freedom;
* if anything had to be divided at all, no domain has fewer than 766 degrees of freedom. -/
theorem C22_division {env : Env} (he : env.Ok) {pts grads poly : List Nat} (hpts : pts.Nodup) (hgr : grads.Nodup)
    (hpoly : poly.Nodup) :
    ∃ n ds, (∀ fuel, n < fuel → domains env fuel pts grads poly = some (.ok ds)) ∧
      (∀ i, (ds.map (fun d => d.pts.count (i, true))).sum = if i ∈ pts then 1 else 0) ∧
      (∀ i, (ds.map (fun d => d.grads.count (i, true))).sum = if i ∈ grads then 1 else 0) ∧
      ∀ d ∈ ds, ∃ rest, d.pts.map Prod.fst = poly ++ rest ∧ rest.Pairwise (· < ·) ∧
        (∀ i ∈ rest, i ∈ pts ∧ i ∉ poly) ∧ (d.grads.map Prod.fst).Nodup ∧
        (∀ i ∈ d.grads.map Prod.fst, i ∈ grads) ∧
        rest.length + env.dim * d.grads.length ≤ 1024 ∧
        (1024 < pts.length + env.dim * grads.length → 766 ≤ d.pts.length + env.dim * d.grads.length) := by
  obtain ⟨ds, hrun, hI, hsz, hmn⟩ := divideLoop_spec he (root pts grads) _ [] [root pts grads] le_rfl
    (by simpa using root_inv pts grads) (by simp) (by
      intro hR d hd
      simp only [List.nil_append, List.mem_singleton] at hd
      subst hd
      simp only [kMaxLeafSize] at hR
      omega)
  have hrp : ∀ i, (root pts grads).pts.count (i, true) = if i ∈ pts then 1 else 0 := by
    intro i
    have := count_map_pair pts hpts (fun _ => true) i
    simpa [root] using this
  have hrg : ∀ i, (root pts grads).grads.count (i, true) = if i ∈ grads then 1 else 0 := by
    intro i
    have := count_map_pair grads hgr (fun _ => true) i
    simpa [root] using this
  have hrpf : (root pts grads).pts.map Prod.fst = pts := by simp [root, Function.comp_def]
  have hrgf : (root pts grads).grads.map Prod.fst = grads := by simp [root, Function.comp_def]
  have hnp : ∀ d ∈ ds, (d.pts.map Prod.fst).Nodup := by
    intro d hd
    rw [List.nodup_iff_count_le_one]
    intro i
    refine (hI.sub d hd i).trans ?_
    rw [hrpf]
    exact List.nodup_iff_count_le_one.1 hpts i
  have hng : ∀ d ∈ ds, (d.grads.map Prod.fst).Nodup := by
    intro d hd
    rw [List.nodup_iff_count_le_one]
    intro i
    refine (hI.subGrad d hd i).trans ?_
    rw [hrgf]
    exact List.nodup_iff_count_le_one.1 hgr i
  refine ⟨variant env.dim [root pts grads], ds.map (fun d => d.mergePolyPoints env poly), ?_, ?_, ?_, ?_⟩
  · intro fuel hf
    simp only [domains, divideDomains, hrun fuel hf, Option.map_some, Outcome.ok_bind]
  · intro i
    rw [List.map_map, ← hrp i, ← hI.inner i, innerCount]
    congr 1
    apply List.map_congr_left
    intro d hd
    exact merge_inner he d hpoly (hnp d hd) i
  · intro i
    rw [List.map_map, ← hrg i, ← hI.innerGrad i, innerGradCount]
    rfl
  · intro e hE
    obtain ⟨d, hd, rfl⟩ := List.mem_map.1 hE
    obtain ⟨rest, h1, h2, h3, h4⟩ := merge_fst he d hpoly (hnp d hd)
    refine ⟨rest, h1, h2, ?_, hng d hd, ?_, ?_, ?_⟩
    · intro i hi
      obtain ⟨h5, h6⟩ := (h3 i).1 hi
      refine ⟨?_, h6⟩
      have := hI.sub d hd i
      rw [hrpf] at this
      have h7 := List.count_pos_iff.2 h5
      exact List.count_pos_iff.1 (by omega)
    · intro i hi
      have hi' : i ∈ d.grads.map Prod.fst := hi
      have := hI.subGrad d hd i
      rw [hrgf] at this
      have h7 := List.count_pos_iff.2 hi'
      exact List.count_pos_iff.1 (by omega)
    · have := hsz d hd
      simp only [Domain.dof, kMaxLeafSize] at this
      show rest.length + env.dim * d.grads.length ≤ 1024
      omega
    · intro hbig
      have h8 := hmn (by simpa [Domain.dof, root, kMaxLeafSize] using hbig) d hd
      have h9 : d.pts.length ≤ (d.mergePolyPoints env poly).pts.length := by
        have e1 : (d.mergePolyPoints env poly).pts.length = (poly ++ rest).length := by rw [← h1, List.length_map]
        rw [e1]
        have e2 : (d.pts.map Prod.fst).Subperm (poly ++ rest) := by
          apply List.subperm_of_subset (hnp d hd)
          intro i hi
          by_cases hip : i ∈ poly
          · simp [hip]
          · simp [(h3 i).2 ⟨hi, hip⟩]
        simpa using e2.length_le
      simp only [Domain.dof] at h8
      show 766 ≤ (d.mergePolyPoints env poly).pts.length + env.dim * d.grads.length
      omega

/-- C22: `round_half_to_even` rounds to a nearest integer, and ties go to the even one. -/
theorem C22_round_half_to_even (d : ℚ) :
    |((roundHalfToEven d : Int) : ℚ) - d| ≤ 1 / 2 ∧ ∀ n : Int, d = n + 1 / 2 → Even (roundHalfToEven d) := by
  refine ⟨roundHalfToEven_near d, ?_⟩
  rintro n rfl
  unfold roundHalfToEven
  have e1 : ((n : ℚ) + 1 / 2 - 1 / 2) / 2 = (n : ℚ) / 2 := by ring
  have e2 : ((n : ℚ) + 1 / 2 + 1 / 2) / 2 = ((n + 1 : Int) : ℚ) / 2 := by push_cast; ring
  rw [e1, e2]
  rcases Int.even_or_odd' n with ⟨k, rfl | rfl⟩
  · have h1 : (((2 * k : Int) : ℚ)) / 2 = (k : ℚ) := by push_cast; ring
    have h2 : (((2 * k + 1 : Int) : ℚ)) / 2 = (k : ℚ) + 1 / 2 := by push_cast; ring
    rw [h1, h2, Int.ceil_intCast]
    have : ⌊(k : ℚ) + 1 / 2⌋ = k := by rw [Int.floor_eq_iff]; constructor <;> linarith
    rw [this]; exact ⟨k, rfl⟩
  · have h1 : (((2 * k + 1 : Int) : ℚ)) / 2 = (k : ℚ) + 1 / 2 := by push_cast; ring
    have h2 : (((2 * k + 1 + 1 : Int) : ℚ)) / 2 = ((k + 1 : Int) : ℚ) := by push_cast; ring
    rw [h1, h2, Int.floor_intCast]
    have : ⌈(k : ℚ) + 1 / 2⌉ = k + 1 := by
      rw [Int.ceil_eq_iff]; push_cast; constructor <;> linarith
    rw [this]; exact ⟨k + 1, rfl⟩

/-- An environment meeting the assumptions: any order of the mixed points will do, the subdomain size in exact arithmetic,
a real sort by index, the first point as centre. -/
noncomputable def demoEnv : Env where
  dim := 3
  sort := fun l => l.reverse
  nsub := nsubExact
  sortIdx := fun l => l.mergeSort (fun a b => decide (a.1 ≤ b.1))
  center := fun l => l.headD ⟨0, false, false⟩

theorem demoEnv_ok : demoEnv.Ok where
  dim_pos := by simp [demoEnv]
  dim_le := by simp [demoEnv]
  sort := fun l => List.reverse_perm l
  nsub := fun n hn => nsubExact_spec n (by simp only [kMaxLeafSize] at hn; omega)
  sortIdx_perm := fun l => List.mergeSort_perm l _
  sortIdx_sorted := fun l => by
    have := List.pairwise_mergeSort (le := fun a b : Nat × Bool => decide (a.1 ≤ b.1))
      (by intro a b c; simp; omega) (by intro a b; simp; omega) l
    exact this.imp (by intro a b h; simpa using h)
  center := by
    intro l hl
    cases l with
    | nil => exact absurd rfl hl
    | cons a l => simp [demoEnv]

/-- 2000 value points and 500 gradient points are divided. -/
example : ∃ n ds, (∀ fuel, n < fuel → domains demoEnv fuel (List.range 2000) (List.range 500) [3, 7, 20, 90] = some (.ok ds))
    ∧ (ds.map (fun d => d.pts.count (7, true))).sum = 1 := by
  obtain ⟨n, ds, h1, h2, _⟩ := C22_division demoEnv_ok (pts := List.range 2000) (grads := List.range 500)
    (poly := [3, 7, 20, 90]) List.nodup_range List.nodup_range (by decide)
  exact ⟨n, ds, h1, by rw [h2 7]; simp⟩

end Verif.DomainDivider
