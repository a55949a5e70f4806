import Verif.Model.NormalEstimator
import Verif.Props.InequalityFitter
import Mathlib.Tactic.Linarith
import Mathlib.Tactic.Ring
import Mathlib.Tactic.NormNum
import Mathlib.Tactic.FinCases
import Mathlib.Tactic.Push

/-!
# C46: normal orientation only flips signs and achieves the requested side
-/

namespace Verif.Normals

open Verif

theorem dot_neg (a b : V3) : dot (-a) b = -dot a b := by unfold dot; simp

/-- C46: before an estimation every call that needs normals throws. -/
theorem C46_before_estimation (c : Cloud) (pick : List (Nat × Nat) → Nat) (s : State) (hs : s.estimated = false) (t : ℝ)
    (d p : V3) (k : Int) :
    filterByPlaneFactor t s = .throws .runtimeError ∧ orientTowardDirection d s = .throws .runtimeError ∧
    orientTowardPoint c p s = .throws .runtimeError ∧ orientClosedSurface c pick k s = .throws .runtimeError ∧
    s.read = .throws .runtimeError := by
  simp [filterByPlaneFactor, orientTowardDirection, orientTowardPoint, orientClosedSurface, State.read, hs]

/-- C46: `orient_toward_direction` keeps a normal on the side of the direction, negates the others, and leaves every product
with the direction non-negative. -/
theorem C46_direction (d : V3) (s : State) (hs : s.estimated = true) :
    ∃ s', orientTowardDirection d s = .ok s' ∧ s'.estimated = true ∧ s'.factors = s.factors ∧
      ∀ i, 0 ≤ dot (s'.normals i) d ∧ (0 ≤ dot (s.normals i) d → s'.normals i = s.normals i) ∧
        (dot (s.normals i) d < 0 → s'.normals i = -s.normals i) := by
  unfold orientTowardDirection
  rw [if_neg (by simp [hs])]
  refine ⟨_, rfl, hs, rfl, ?_⟩
  intro i
  dsimp only
  split
  · rename_i h
    exact ⟨by rw [dot_neg]; linarith, fun h' => absurd h (not_lt.2 h'), fun _ => rfl⟩
  · rename_i h
    exact ⟨not_lt.1 h, fun _ => rfl, fun h' => absurd h' h⟩

/-- C46: `orient_toward_point` does the same for the direction from each point towards the given point. -/
theorem C46_point (c : Cloud) (p : V3) (s : State) (hs : s.estimated = true) :
    ∃ s', orientTowardPoint c p s = .ok s' ∧ s'.estimated = true ∧ s'.factors = s.factors ∧
      ∀ i, 0 ≤ dot (s'.normals i) (p - c.point i) ∧
        (0 ≤ dot (s.normals i) (p - c.point i) → s'.normals i = s.normals i) ∧
        (dot (s.normals i) (p - c.point i) < 0 → s'.normals i = -s.normals i) := by
  unfold orientTowardPoint
  rw [if_neg (by simp [hs])]
  refine ⟨_, rfl, hs, rfl, ?_⟩
  intro i
  dsimp only
  split
  · rename_i h
    exact ⟨by rw [dot_neg]; linarith, fun h' => absurd h (not_lt.2 h'), fun _ => rfl⟩
  · rename_i h
    exact ⟨not_lt.1 h, fun _ => rfl, fun h' => absurd h' h⟩

/-- C46: filtering zeroes exactly the normals whose plane factor is below the threshold and leaves the others. -/
theorem C46_filter (t : ℝ) (s : State) (hs : s.estimated = true) :
    ∃ s', filterByPlaneFactor t s = .ok s' ∧ s'.estimated = true ∧ s'.factors = s.factors ∧
      ∀ i, (s.factors i < t → s'.normals i = 0) ∧ (t ≤ s.factors i → s'.normals i = s.normals i) := by
  unfold filterByPlaneFactor
  rw [if_neg (by simp [hs])]
  refine ⟨_, rfl, hs, rfl, ?_⟩
  intro i
  exact ⟨fun h => if_pos h, fun h => if_neg (not_lt.2 h)⟩

/-! ## Closed surfaces -/

/-- What the loop over the queue keeps, since the start of a component with normals `n0` and oriented points `o0`. -/
structure PInv (n : Nat) (knn : Nat → List Nat) (n0 : Nat → V3) (o0 : Nat → Bool) (root : Nat) (w : Work) : Prop where
  nodup : w.component.Nodup
  lt : ∀ i ∈ w.component, i < n
  rootMem : root ∈ w.component
  fresh : ∀ i ∈ w.component, o0 i = false
  oriented : ∀ i, w.oriented i = true ↔ o0 i = true ∨ i ∈ w.component
  sign : ∀ i, w.normals i = n0 i ∨ (i ∈ w.component ∧ w.normals i = -n0 i)
  parent : ∀ i ∈ w.component, i ≠ root → ∃ p ∈ w.component, i ∈ knn p ∧ 0 ≤ dot (w.normals i) (w.normals p)
  queue : ∀ q ∈ w.queue, q.1 ∈ w.component ∧ q.2 ∈ knn q.1
  closed : ∀ p ∈ w.component, ∀ i ∈ knn p, w.oriented i = true ∨ (p, i) ∈ w.queue

theorem mem_pushNeighbors {knn : Nat → List Nat} {o : Nat → Bool} {cur : Nat} {queue : List (Nat × Nat)} {q : Nat × Nat} :
    q ∈ pushNeighbors knn o cur queue ↔ q ∈ queue ∨ (q.1 = cur ∧ q.2 ∈ knn cur ∧ o q.2 = false) := by
  obtain ⟨a, b⟩ := q
  simp only [pushNeighbors, List.mem_append, List.mem_map, List.mem_filter, Bool.not_eq_true', Prod.mk.injEq]
  constructor
  · rintro (h | ⟨i, ⟨h1, h2⟩, h3, h4⟩)
    · exact Or.inl h
    · subst h3; subst h4; exact Or.inr ⟨rfl, h1, h2⟩
  · rintro (h | ⟨h1, h2, h3⟩)
    · exact Or.inl h
    · exact Or.inr ⟨b, ⟨h2, h3⟩, h1.symm, rfl⟩

theorem start_inv {n : Nat} {knn : Nat → List Nat} {n0 : Nat → V3} {o0 : Nat → Bool} {cur : Nat} (hc : cur < n)
    (ho : o0 cur = false) : PInv n knn n0 o0 cur (startComponent knn n0 o0 cur) := by
  have hor : ∀ i, Function.update o0 cur true i = true ↔ o0 i = true ∨ i ∈ [cur] := by
    intro i
    by_cases h : i = cur
    · subst h; simp
    · rw [Function.update_of_ne h]; simp [h]
  refine ⟨by simp [startComponent], ?_, by simp [startComponent], ?_, hor, fun i => Or.inl rfl, ?_, ?_, ?_⟩
  · intro i hi; simp only [startComponent, List.mem_singleton] at hi; subst hi; exact hc
  · intro i hi; simp only [startComponent, List.mem_singleton] at hi; subst hi; exact ho
  · intro i hi hne; simp only [startComponent, List.mem_singleton] at hi; exact absurd hi hne
  · intro q hq
    simp only [startComponent, mem_pushNeighbors, List.not_mem_nil, false_or] at hq
    simp only [startComponent, List.mem_singleton]
    exact ⟨hq.1, by rw [hq.1]; exact hq.2.1⟩
  · intro p hp i hi
    simp only [startComponent, List.mem_singleton] at hp
    subst hp
    simp only [startComponent, mem_pushNeighbors]
    by_cases h : Function.update o0 p true i = true
    · exact Or.inl h
    · exact Or.inr (Or.inr ⟨trivial, hi, by simpa using h⟩)

theorem mem_eraseIdx_or {α : Type} {l : List α} {k : Nat} (hk : k < l.length) {x : α} (hx : x ∈ l) :
    x = l[k] ∨ x ∈ l.eraseIdx k := by
  obtain ⟨j, hj, rfl⟩ := List.getElem_of_mem hx
  by_cases h : j = k
  · subst h; exact Or.inl rfl
  · right
    rw [List.mem_eraseIdx_iff_getElem]
    exact ⟨j, hj, h, rfl⟩

open Classical in
theorem propagate_inv {n : Nat} {knn : Nat → List Nat} (hknn : ∀ p, ∀ i ∈ knn p, i < n) (pick : List (Nat × Nat) → Nat)
    {n0 : Nat → V3} {o0 : Nat → Bool} {root : Nat} : ∀ w, PInv n knn n0 o0 root w →
    ∃ w', propagate n knn pick w = .ok w' ∧ PInv n knn n0 o0 root w' ∧ w'.queue = [] := by
  intro w
  induction w using propagate.induct n knn pick with
  | case1 w hq =>
      intro h
      exact ⟨w, by rw [propagate, dif_pos hq], h, hq⟩
  | case2 w hq at_ pair cur hn =>
      intro h
      exfalso
      apply hn
      have := h.queue pair (List.getElem_mem _)
      exact hknn _ _ this.2
  | case3 w hq at_ pair rest cur hn ho ih =>
      intro h
      have hlt : at_ < w.queue.length := Nat.mod_lt _ (List.length_pos_of_ne_nil hq)
      have : PInv n knn n0 o0 root { w with queue := rest } := by
        refine ⟨h.nodup, h.lt, h.rootMem, h.fresh, h.oriented, h.sign, h.parent, ?_, ?_⟩
        · intro q hq'; exact h.queue q (List.mem_of_mem_eraseIdx hq')
        · intro p hp i hi
          rcases h.closed p hp i hi with h1 | h1
          · exact Or.inl h1
          · rcases mem_eraseIdx_or hlt h1 with h2 | h2
            · left
              have : i = cur := by
                have : (p, i) = pair := h2
                change i = pair.2
                rw [← this]
              rw [this]; exact ho
            · exact Or.inr h2
      obtain ⟨w', h1, h2, h3⟩ := ih this
      refine ⟨w', ?_, h2, h3⟩
      rw [propagate, dif_neg hq]
      dsimp only
      rw [dif_neg hn, dif_pos ho]
      exact h1
  | case4 w hq at_ pair rest prev cur hn ho normals oriented ih =>
      intro h
      have hlt : at_ < w.queue.length := Nat.mod_lt _ (List.length_pos_of_ne_nil hq)
      have hpair := h.queue pair (List.getElem_mem _)
      have ho' : w.oriented cur = false := by simpa using ho
      have hcur : cur ∉ w.component := by
        intro hc
        have := (h.oriented cur).2 (Or.inr hc)
        rw [ho'] at this; cases this
      have ho0 : o0 cur = false := by
        cases hh : o0 cur with
        | false => rfl
        | true => have := (h.oriented cur).2 (Or.inl hh); rw [ho'] at this; cases this
      have hnc : w.normals cur = n0 cur := by
        rcases h.sign cur with h1 | ⟨h1, -⟩
        · exact h1
        · exact absurd h1 hcur
      have nrm_ne : ∀ i, i ≠ cur → normals i = w.normals i := by
        intro i hi
        simp only [normals]
        split
        · rw [Function.update_of_ne hi]
        · rfl
      have hprevne : prev ≠ cur := fun hh => hcur (hh ▸ hpair.1)
      have nrm_cur : (normals cur = n0 cur ∨ normals cur = -n0 cur) ∧ 0 ≤ dot (normals cur) (normals prev) := by
        rw [nrm_ne prev hprevne]
        simp only [normals]
        split
        · rename_i hlt0
          rw [Function.update_self, hnc]
          refine ⟨Or.inr rfl, ?_⟩
          rw [dot_neg, ← hnc]; linarith
        · rename_i hlt0
          exact ⟨Or.inl hnc, not_lt.1 hlt0⟩
      have hor : ∀ i, oriented i = true ↔ w.oriented i = true ∨ i = cur := by
        intro i
        simp only [oriented]
        by_cases hi : i = cur
        · subst hi; simp
        · rw [Function.update_of_ne hi]; simp [hi]
      have : PInv n knn n0 o0 root ⟨normals, oriented, pushNeighbors knn oriented cur rest, w.component ++ [cur]⟩ := by
        refine ⟨?_, ?_, ?_, ?_, ?_, ?_, ?_, ?_, ?_⟩
        · rw [List.nodup_append]
          refine ⟨h.nodup, by simp, ?_⟩
          intro a ha b hb
          rw [List.mem_singleton] at hb
          rintro rfl
          exact hcur (hb ▸ ha)
        · intro i hi
          rcases List.mem_append.1 hi with hi | hi
          · exact h.lt i hi
          · rw [List.mem_singleton] at hi; subst hi; simpa using hn
        · exact List.mem_append_left _ h.rootMem
        · intro i hi
          rcases List.mem_append.1 hi with hi | hi
          · exact h.fresh i hi
          · rw [List.mem_singleton] at hi; subst hi; exact ho0
        · intro i
          dsimp only
          rw [hor, h.oriented, List.mem_append, List.mem_singleton, or_assoc]
        · intro i
          dsimp only
          by_cases hi : i = cur
          · subst hi
            rcases nrm_cur.1 with h1 | h1
            · exact Or.inl h1
            · exact Or.inr ⟨by simp, h1⟩
          · rw [nrm_ne i hi]
            rcases h.sign i with h1 | ⟨h1, h2⟩
            · exact Or.inl h1
            · exact Or.inr ⟨List.mem_append_left _ h1, h2⟩
        · intro i hi hne
          dsimp only at hi ⊢
          rcases List.mem_append.1 hi with hi | hi
          · obtain ⟨p, hp, h1, h2⟩ := h.parent i hi hne
            have hic : i ≠ cur := fun hh => hcur (hh ▸ hi)
            have hpc : p ≠ cur := fun hh => hcur (hh ▸ hp)
            exact ⟨p, List.mem_append_left _ hp, h1, by rw [nrm_ne i hic, nrm_ne p hpc]; exact h2⟩
          · rw [List.mem_singleton] at hi
            subst hi
            exact ⟨prev, List.mem_append_left _ hpair.1, hpair.2, nrm_cur.2⟩
        · intro q hq'
          rw [mem_pushNeighbors] at hq'
          rcases hq' with h1 | ⟨h1, h2, -⟩
          · have := h.queue q (List.mem_of_mem_eraseIdx h1)
            exact ⟨List.mem_append_left _ this.1, this.2⟩
          · exact ⟨by dsimp only; rw [h1]; simp, by rw [h1]; exact h2⟩
        · intro p hp i hi
          dsimp only at hp ⊢
          rw [mem_pushNeighbors]
          rcases List.mem_append.1 hp with hp | hp
          · rcases h.closed p hp i hi with h1 | h1
            · exact Or.inl ((hor i).2 (Or.inl h1))
            · rcases mem_eraseIdx_or hlt h1 with h2 | h2
              · left
                have : i = cur := by
                  have : (p, i) = pair := h2
                  change i = pair.2
                  rw [← this]
                exact (hor i).2 (Or.inr this)
              · exact Or.inr (Or.inl h2)
          · rw [List.mem_singleton] at hp
            subst hp
            by_cases hh : oriented i = true
            · exact Or.inl hh
            · exact Or.inr (Or.inr ⟨rfl, hi, by simpa using hh⟩)
      obtain ⟨w', h1, h2, h3⟩ := ih this
      refine ⟨w', ?_, h2, h3⟩
      rw [propagate, dif_neg hq]
      dsimp only
      rw [dif_neg hn, dif_neg ho]
      exact h1

open Classical in
theorem seed_spec (c : Cloud) : ∀ (xs : List Nat) (x : Nat),
    let seed := xs.foldl (fun b i => if c.point b 2 < c.point i 2 then i else b) x
    seed ∈ x :: xs ∧ ∀ i ∈ x :: xs, c.point i 2 ≤ c.point seed 2 := by
  intro xs
  induction xs with
  | nil => intro x; simp
  | cons y xs ih =>
      intro x
      rw [List.foldl_cons]
      obtain ⟨h1, h2⟩ := ih (if c.point x 2 < c.point y 2 then y else x)
      refine ⟨?_, ?_⟩
      · rcases List.mem_cons.1 h1 with h1 | h1
        · rw [h1]; split <;> simp
        · simp [h1]
      · intro i hi
        have hx := h2 (if c.point x 2 < c.point y 2 then y else x) (by simp)
        rcases List.mem_cons.1 hi with rfl | hi
        · refine le_trans ?_ hx
          split
          · rename_i h; exact h.le
          · exact le_refl _
        · rcases List.mem_cons.1 hi with rfl | hi
          · refine le_trans ?_ hx
            split
            · exact le_refl _
            · rename_i h; exact not_lt.1 h
          · exact h2 i (by simp [hi])

open Classical in
theorem flip_spec (c : Cloud) (nm : Nat → V3) (comp : List Nat) (hne : comp ≠ []) :
    ((∀ i, flipComponent c nm comp i = nm i) ∨
      ((∀ i ∈ comp, flipComponent c nm comp i = -nm i) ∧ ∀ i, i ∉ comp → flipComponent c nm comp i = nm i)) ∧
    ∃ seed ∈ comp, (∀ i ∈ comp, c.point i 2 ≤ c.point seed 2) ∧ 0 ≤ flipComponent c nm comp seed 2 := by
  cases comp with
  | nil => exact absurd rfl hne
  | cons x xs =>
      obtain ⟨h1, h2⟩ := seed_spec c xs x
      have hred : flipComponent c nm (x :: xs) = if nm (xs.foldl (fun b i => if c.point b 2 < c.point i 2 then i else b) x) 2 < 0
          then fun i => if i ∈ x :: xs then -nm i else nm i else nm := rfl
      rw [hred]
      clear hred
      set seed := xs.foldl (fun b i => if c.point b 2 < c.point i 2 then i else b) x
      by_cases hlt : nm seed 2 < 0
      · rw [if_pos hlt]
        refine ⟨Or.inr ⟨fun i hi => if_pos hi, fun i hi => if_neg hi⟩, seed, h1, h2, ?_⟩
        rw [if_pos h1]
        simp only [Pi.neg_apply]; linarith
      · rw [if_neg hlt]
        exact ⟨Or.inl (fun _ => rfl), seed, h1, h2, not_lt.1 hlt⟩

/-- A component after the call: there is a point from which all others are reached through neighbours whose normals agree
(non-negative product); the neighbours of its points are in it or were dealt with before; and the normal at (one of) its
highest point(s) does not point down. -/
structure Consistent (c : Cloud) (knn : Nat → List Nat) (normals : Nat → V3) (comp : List Nat) : Prop where
  tree : ∃ root ∈ comp, ∀ i ∈ comp, i ≠ root → ∃ p ∈ comp, i ∈ knn p ∧ 0 ≤ dot (normals i) (normals p)
  top : ∃ seed ∈ comp, (∀ i ∈ comp, c.point i 2 ≤ c.point seed 2) ∧ 0 ≤ normals seed 2

/-- What the loop over components keeps, for the normals `n0` and the zero normals `z0` at the start. -/
structure CInv (c : Cloud) (knn : Nat → List Nat) (n0 : Nat → V3) (z0 : Nat → Bool) (nm : Nat → V3) (o : Nat → Bool)
    (acc : List (List Nat)) : Prop where
  nodup : acc.flatten.Nodup
  lt : ∀ i ∈ acc.flatten, i < c.n
  oriented : ∀ i, o i = true ↔ z0 i = true ∨ i ∈ acc.flatten
  fresh : ∀ i ∈ acc.flatten, z0 i = false
  sign : ∀ i, nm i = n0 i ∨ (i ∈ acc.flatten ∧ nm i = -n0 i)
  cons : ∀ comp ∈ acc, Consistent c knn nm comp

theorem neg_neg_dot (a b : V3) : dot (-a) (-b) = dot a b := by unfold dot; simp

open Classical in
theorem components_inv (c : Cloud) (knn : Nat → List Nat) (hknn : ∀ p, ∀ i ∈ knn p, i < c.n) (pick : List (Nat × Nat) → Nat)
    (n0 : Nat → V3) (z0 : Nat → Bool) : ∀ (nm : Nat → V3) (o : Nat → Bool) (acc : List (List Nat)),
    CInv c knn n0 z0 nm o acc →
    ∃ r, components c knn pick nm o acc = .ok r ∧ ∃ o', CInv c knn n0 z0 r.1 o' r.2 ∧ ∀ i < c.n, o' i = true := by
  intro nm o acc
  induction hcount : openCount c.n o using Nat.strong_induction_on generalizing nm o acc with
  | _ k ih =>
  intro h
  cases hf : (List.range c.n).find? (fun i => !o i) with
  | none =>
      refine ⟨(nm, acc), ?_, o, h, ?_⟩
      · rw [components]
        split
        · rfl
        · rename_i cur hcur; rw [hf] at hcur; cases hcur
      · intro i hi
        have := List.find?_eq_none.1 hf i (List.mem_range.2 hi)
        simpa using this
  | some cur =>
      obtain ⟨hcn, hco⟩ := find_lt hf
      obtain ⟨w, hw, hinv, hqueue⟩ := propagate_inv hknn pick _ (start_inv (knn := knn) (n0 := nm) hcn hco)
      have hne : w.component ≠ [] := List.ne_nil_of_mem hinv.rootMem
      obtain ⟨hflip, htop⟩ := flip_spec c w.normals w.component hne
      set nm' := flipComponent c w.normals w.component with hnm'
      have hdisj : ∀ i ∈ w.component, i ∉ acc.flatten := by
        intro i hi hacc
        have h1 := hinv.fresh i hi
        have h2 := (h.oriented i).2 (Or.inr hacc)
        rw [h1] at h2; cases h2
      have hout : ∀ i, i ∉ w.component → nm' i = nm i := by
        intro i hi
        have hw' : w.normals i = nm i := by
          rcases hinv.sign i with h1 | ⟨h1, -⟩
          · exact h1
          · exact absurd h1 hi
        rcases hflip with h1 | ⟨-, h1⟩
        · rw [h1, hw']
        · rw [h1 i hi, hw']
      have hnew : CInv c knn n0 z0 nm' w.oriented (w.component :: acc) := by
        refine ⟨?_, ?_, ?_, ?_, ?_, ?_⟩
        · rw [List.flatten_cons, List.nodup_append]
          refine ⟨hinv.nodup, h.nodup, ?_⟩
          rintro a ha b hb rfl
          exact hdisj a ha hb
        · intro i hi
          rw [List.flatten_cons] at hi
          rcases List.mem_append.1 hi with hi | hi
          · exact hinv.lt i hi
          · exact h.lt i hi
        · intro i
          rw [hinv.oriented, h.oriented, List.flatten_cons, List.mem_append]
          tauto
        · intro i hi
          rw [List.flatten_cons] at hi
          rcases List.mem_append.1 hi with hi | hi
          · cases hz : z0 i with
            | false => rfl
            | true =>
                have h1 := hinv.fresh i hi
                have h2 := (h.oriented i).2 (Or.inl hz)
                rw [h1] at h2; cases h2
          · exact h.fresh i hi
        · intro i
          rw [List.flatten_cons, List.mem_append]
          by_cases hi : i ∈ w.component
          · have hnm : nm i = n0 i := by
              rcases h.sign i with h1 | ⟨h1, -⟩
              · exact h1
              · exact absurd h1 (hdisj i hi)
            have h2 : w.normals i = n0 i ∨ w.normals i = -n0 i := by
              rcases hinv.sign i with h1 | ⟨-, h1⟩
              · exact Or.inl (h1.trans hnm)
              · exact Or.inr (by rw [h1, hnm])
            have h3 : nm' i = w.normals i ∨ nm' i = -w.normals i := by
              rcases hflip with h1 | ⟨h1, -⟩
              · exact Or.inl (h1 i)
              · exact Or.inr (h1 i hi)
            rcases h3 with h3 | h3 <;> rcases h2 with h2 | h2 <;> rw [h3, h2]
            · exact Or.inl rfl
            · exact Or.inr ⟨Or.inl hi, rfl⟩
            · exact Or.inr ⟨Or.inl hi, rfl⟩
            · exact Or.inl (neg_neg _)
          · rw [hout i hi]
            rcases h.sign i with h1 | ⟨h1, h2⟩
            · exact Or.inl h1
            · exact Or.inr ⟨Or.inr h1, h2⟩
        · intro comp hcomp
          rcases List.mem_cons.1 hcomp with rfl | hcomp
          · refine ⟨⟨cur, hinv.rootMem, ?_⟩, htop⟩
            intro i hi hic
            obtain ⟨p, hp, h1, h2⟩ := hinv.parent i hi hic
            refine ⟨p, hp, h1, ?_⟩
            rcases hflip with h3 | ⟨h3, -⟩
            · rw [h3, h3]; exact h2
            · rw [h3 i hi, h3 p hp, neg_neg_dot]; exact h2
          · obtain ⟨⟨root, hroot, htree⟩, ⟨seed, hseed, hs1, hs2⟩⟩ := h.cons comp hcomp
            have hsub : ∀ i ∈ comp, nm' i = nm i := by
              intro i hi
              apply hout
              intro hi'
              exact hdisj i hi' (List.mem_flatten.2 ⟨comp, hcomp, hi⟩)
            refine ⟨⟨root, hroot, ?_⟩, seed, hseed, hs1, by rw [hsub seed hseed]; exact hs2⟩
            intro i hi hne'
            obtain ⟨p, hp, h1, h2⟩ := htree i hi hne'
            exact ⟨p, hp, h1, by rw [hsub i hi, hsub p hp]; exact h2⟩
      have hlt : openCount c.n w.oriented < k := by
        rw [← hcount]
        refine lt_of_le_of_lt ?_ (openCount_update hcn hco)
        unfold openCount
        apply Finset.card_le_card
        intro j hj
        simp only [Finset.mem_filter, Finset.mem_range] at hj ⊢
        refine ⟨hj.1, ?_⟩
        by_contra hne'
        have hj2 : Function.update o cur true j = true := by
          cases hh : Function.update o cur true j with
          | true => rfl
          | false => exact absurd hh hne'
        have : w.oriented j = true := by
          rw [hinv.oriented]
          by_cases hjc : j = cur
          · subst hjc; exact Or.inr hinv.rootMem
          · rw [Function.update_of_ne hjc] at hj2; exact Or.inl hj2
        rw [this] at hj; cases hj.2
      obtain ⟨r, hr, o', hr1, hr2⟩ := ih _ hlt nm' w.oriented (w.component :: acc) rfl hnew
      refine ⟨r, ?_, o', hr1, hr2⟩
      rw [components]
      split
      · rename_i hcur; rw [hf] at hcur; cases hcur
      · rename_i cur' hcur
        rw [hf] at hcur
        cases hcur
        split
        · rename_i e he; rw [hw] at he; cases he
        · rename_i he; rw [hw] at he; cases he
        · rename_i w' he
          rw [hw] at he
          cases he
          exact hr

/-- **C46**, closed surfaces: for every cloud, every tree that reports points of the cloud, whatever order the queue gives its
pairs back in, and every `k ≥ 1`: the call returns; every normal is unchanged or negated; the points with a non-zero normal are
divided into components, each oriented consistently and with a normal at its highest point that does not point down; the other
normals are unchanged. -/
theorem C46_closed_surface (c : Cloud) (pick : List (Nat × Nat) → Nat) (k : Int) (hk : 0 < k)
    (hknn : ∀ p m, ∀ i ∈ c.knn p m, i < c.n) (s : State) (hs : s.estimated = true) :
    ∃ s' comps, orientClosedSurface c pick k s = .ok (s', comps) ∧ s'.estimated = true ∧ s'.factors = s.factors ∧
      comps.flatten.Nodup ∧ (∀ i, i ∈ comps.flatten ↔ i < c.n ∧ ¬ isZero (s.normals i)) ∧
      (∀ i, s'.normals i = s.normals i ∨ (i ∈ comps.flatten ∧ s'.normals i = -s.normals i)) ∧
      ∀ comp ∈ comps, Consistent c (fun i => c.knn i (min k c.n).toNat) s'.normals comp := by
  classical
  unfold orientClosedSurface
  rw [if_neg (by simp [hs])]
  dsimp only
  by_cases hn : c.n = 0
  · rw [if_neg (by simp [hn])]
    have hcomp : components c (fun i => c.knn i (min k c.n).toNat) pick s.normals
        (fun i => decide (isZero (s.normals i))) [] = .ok (s.normals, []) := by
      rw [components]
      split
      · rfl
      · rename_i cur hcur
        have := (find_lt hcur).1
        omega
    rw [hcomp]
    refine ⟨s, [], rfl, hs, rfl, by simp, ?_, fun i => Or.inl rfl, by simp⟩
    intro i; simp [hn]
  · rw [if_neg (by
      rintro ⟨h, -⟩
      have : (0 : Int) < c.n := by exact_mod_cast Nat.pos_of_ne_zero hn
      omega)]
    have hinit : CInv c (fun i => c.knn i (min k c.n).toNat) s.normals (fun i => decide (isZero (s.normals i))) s.normals
        (fun i => decide (isZero (s.normals i))) [] :=
      ⟨by simp, by simp, by simp, by simp, fun i => Or.inl rfl, by simp⟩
    obtain ⟨r, hr, o', h1, h2⟩ := components_inv c (fun i => c.knn i (min k c.n).toNat) (fun p i hi => hknn p _ i hi) pick
      s.normals (fun i => decide (isZero (s.normals i))) s.normals _ [] hinit
    rw [hr]
    refine ⟨{ s with normals := r.1 }, r.2, rfl, hs, rfl, h1.nodup, ?_, h1.sign, h1.cons⟩
    intro i
    constructor
    · intro hi
      refine ⟨h1.lt i hi, ?_⟩
      have := h1.fresh i hi
      simpa using this
    · rintro ⟨hi, hz⟩
      have := (h1.oriented i).1 (h2 i hi)
      rcases this with h | h
      · simp only [decide_eq_true_eq] at h; exact absurd h hz
      · exact h

/-! ## Estimation -/

/-- C46: an empty list of neighbour counts or radii, a count below three and a radius that is not positive are refused, whatever
the state. -/
theorem C46_bad_arguments (c : Cloud) (s : State) :
    estimateWithKnn c [] s = .throws .runtimeError ∧ estimateWithRadius c [] s = .throws .runtimeError ∧
    (∀ ks : List Int, (∃ k ∈ ks, k < 3) → estimateWithKnn c ks s = .throws .runtimeError) ∧
    ∀ rs : List ℝ, (∃ r ∈ rs, r ≤ 0) → estimateWithRadius c rs s = .throws .runtimeError := by
  refine ⟨if_pos rfl, if_pos rfl, ?_, ?_⟩
  · rintro ks ⟨k, hk, hk3⟩
    unfold estimateWithKnn
    rw [if_neg (List.ne_nil_of_mem hk), if_pos (List.any_eq_true.2 ⟨k, hk, by simpa using hk3⟩)]
  · rintro ks ⟨k, hk, hk3⟩
    unfold estimateWithRadius
    rw [if_neg (List.ne_nil_of_mem hk), if_pos (List.any_eq_true.2 ⟨k, hk, by simpa using hk3⟩)]

open Classical in
theorem best_spec : ∀ (l : List (ℝ × V3)), l ≠ [] → ∃ b, best l = some b ∧ b ∈ l ∧ ∀ e ∈ l, e.1 ≤ b.1 := by
  intro l hl
  cases l with
  | nil => exact absurd rfl hl
  | cons x xs =>
      refine ⟨_, rfl, ?_⟩
      clear hl
      induction xs generalizing x with
      | nil => simp
      | cons y xs ih =>
          rw [List.foldl_cons]
          obtain ⟨h1, h2⟩ := ih (if x.1 < y.1 then y else x)
          refine ⟨?_, ?_⟩
          · rcases List.mem_cons.1 h1 with h1 | h1
            · rw [h1]; split <;> simp
            · simp [h1]
          · intro e he
            have hx := h2 (if x.1 < y.1 then y else x) (by simp)
            rcases List.mem_cons.1 he with rfl | he
            · refine le_trans ?_ hx
              split
              · rename_i h; exact h.le
              · exact le_refl _
            · rcases List.mem_cons.1 he with rfl | he
              · refine le_trans ?_ hx
                split
                · exact le_refl _
                · rename_i h; exact not_lt.1 h
              · exact h2 e (by simp [he])

theorem knnPlanes_eq (c : Cloud) (l : List Nat) : ∀ (ks : List Nat) (m : Nat), ks.Pairwise (fun a b => b ≤ a) →
    (∀ k ∈ ks, 3 ≤ min k c.n ∧ min k c.n ≤ m) → m ≤ l.length →
    knnPlanes c ks (l.take m) = .ok (ks.map (fun k => c.plane (l.take (min k c.n)))) := by
  intro ks
  induction ks with
  | nil => intros; rfl
  | cons k ks ih =>
      intro m hs hm hl
      obtain ⟨h1, h2⟩ := List.pairwise_cons.1 hs
      obtain ⟨h3, h4⟩ := hm k (by simp)
      have ht : (l.take m).take (min k c.n) = l.take (min k c.n) := by rw [List.take_take, min_eq_left h4]
      rw [knnPlanes]
      rw [ht, Cloud.planeEst, if_neg (by rw [List.length_take]; omega), Outcome.ok_bind,
        ih (min k c.n) h2 (fun k' hk' => ⟨(hm k' (by simp [hk'])).1, by have := h1 k' hk'; omega⟩) (by omega), Outcome.ok_bind]
      rfl

/-- C46, estimation with neighbour counts: for at least three points and a tree that reports as many points as are asked for (and
the same nearest points whatever the count), every normal is the normal of the plane fitted to the nearest `min(k, n)` points
for one of the given `k`, with the largest plane factor among all the given `k`. -/
theorem C46_knn (c : Cloud) (ks : List Int) (hne : ks ≠ []) (h3 : ∀ k ∈ ks, 3 ≤ k) (hn : 3 ≤ c.n) (order : Nat → List Nat)
    (horder : ∀ i < c.n, (order i).length = c.n ∧ ∀ m, c.knn i m = (order i).take m) (s : State) :
    ∃ s', estimateWithKnn c ks s = .ok s' ∧ s'.estimated = true ∧ ∀ i < c.n,
      (∃ k ∈ ks, (s'.factors i, s'.normals i) = c.plane ((order i).take (min k.toNat c.n))) ∧
      ∀ k ∈ ks, (c.plane ((order i).take (min k.toNat c.n))).1 ≤ s'.factors i := by
  unfold estimateWithKnn
  rw [if_neg hne, if_neg (by simp only [List.any_eq_true, decide_eq_true_eq]; rintro ⟨k, hk, h⟩; exact absurd (h3 k hk) (by omega)),
    if_neg (by omega)]
  dsimp only
  set sorted := (ks.map Int.toNat).mergeSort (fun a b => decide (b ≤ a)) with hsorted
  have hmem : ∀ k, k ∈ sorted ↔ k ∈ ks.map Int.toNat := fun k => List.mem_mergeSort
  have hpw : sorted.Pairwise (fun a b => b ≤ a) := by
    have := List.pairwise_mergeSort (le := fun a b : Nat => decide (b ≤ a))
      (fun a b c h1 h2 => by simp only [decide_eq_true_eq] at *; omega)
      (fun a b => by simp only [Bool.or_eq_true, decide_eq_true_eq]; omega) (ks.map Int.toNat)
    exact this.imp (by simp)
  have hsne : sorted ≠ [] := by
    intro h
    obtain ⟨k, hk⟩ := List.exists_mem_of_ne_nil _ hne
    have := (hmem k.toNat).2 (List.mem_map_of_mem hk)
    rw [h] at this; cases this
  have h3' : ∀ k ∈ sorted, 3 ≤ k := by
    intro k hk
    obtain ⟨k', hk', rfl⟩ := List.mem_map.1 ((hmem k).1 hk)
    have := h3 k' hk'
    omega
  have hpt : ∀ i ∈ List.range c.n, ∃ b, knnPoint c sorted i = .ok b ∧
      (∃ k ∈ ks, b = c.plane ((order i).take (min k.toNat c.n))) ∧
      ∀ k ∈ ks, (c.plane ((order i).take (min k.toNat c.n))).1 ≤ b.1 := by
    intro i hi
    obtain ⟨h1, h2⟩ := horder i (List.mem_range.1 hi)
    have hpl := knnPlanes_eq c (order i) sorted (min (sorted.headD 0) c.n) hpw (by
      intro k hk
      have := h3' k hk
      have hle : k ≤ sorted.headD 0 := by
        cases hsd : sorted with
        | nil => exact absurd hsd hsne
        | cons x xs =>
            rw [hsd] at hk hpw
            rcases List.mem_cons.1 hk with rfl | hk
            · exact le_refl _
            · exact (List.pairwise_cons.1 hpw).1 k hk
      omega) (by omega)
    obtain ⟨b, hb, hb1, hb2⟩ := best_spec (sorted.map (fun k => c.plane ((order i).take (min k c.n)))) (by simpa using hsne)
    refine ⟨b, ?_, ?_, ?_⟩
    · unfold knnPoint
      dsimp only
      rw [h2, hpl, Outcome.ok_bind, hb]
    · obtain ⟨k, hk, rfl⟩ := List.mem_map.1 hb1
      obtain ⟨k', hk', rfl⟩ := List.mem_map.1 ((hmem k).1 hk)
      exact ⟨k', hk', rfl⟩
    · intro k hk
      exact hb2 _ (List.mem_map.2 ⟨k.toNat, (hmem _).2 (List.mem_map_of_mem hk), rfl⟩)
  choose! f hf using hpt
  rw [Outcome.traverse_ok (g := f) (fun i hi => (hf i hi).1), Outcome.ok_bind]
  refine ⟨_, rfl, rfl, ?_⟩
  intro i hi
  have hget : ((List.range c.n).map f).getD i (0, 0) = f i := by
    simp [List.getD, hi]
  dsimp only
  rw [hget]
  exact (hf i (List.mem_range.2 hi)).2

/-- C46: with fewer than three points the call succeeds with zero normals. -/
theorem C46_knn_few_points (c : Cloud) (ks : List Int) (hne : ks ≠ []) (h3 : ∀ k ∈ ks, 3 ≤ k) (hn : c.n < 3) (s : State) :
    estimateWithKnn c ks s = .ok ⟨true, 0, 0⟩ := by
  unfold estimateWithKnn
  rw [if_neg hne, if_neg (by simp only [List.any_eq_true, decide_eq_true_eq]; rintro ⟨k, hk, h⟩; exact absurd (h3 k hk) (by omega)),
    if_pos hn]

open Classical in
/-- The points of a result at a distance of at most `r`. -/
noncomputable def within (l : List (Nat × ℝ)) (r : ℝ) : List Nat := (l.filter (fun p => decide (p.2 ≤ r))).map Prod.fst

open Classical in
theorem takeWhile_sorted (r : ℝ) : ∀ (l : List (Nat × ℝ)), l.Pairwise (fun a b => a.2 ≤ b.2) →
    l.takeWhile (fun p => decide (p.2 ≤ r)) = l.filter (fun p => decide (p.2 ≤ r)) := by
  intro l
  induction l with
  | nil => intro _; rfl
  | cons x l ih =>
      intro h
      obtain ⟨h1, h2⟩ := List.pairwise_cons.1 h
      by_cases hx : x.2 ≤ r
      · rw [List.takeWhile_cons_of_pos (by simpa using hx), List.filter_cons_of_pos (by simpa using hx), ih h2]
      · rw [List.takeWhile_cons_of_neg (by simpa using hx), List.filter_cons_of_neg (by simpa using hx), eq_comm,
          List.filter_eq_nil_iff]
        intro y hy
        have := h1 y hy
        simp only [decide_eq_true_eq]
        intro h'; exact hx (this.trans h')

open Classical in
theorem radiusPlanes_eq (c : Cloud) (l : List (Nat × ℝ)) (hl : l.Pairwise (fun a b => a.2 ≤ b.2)) : ∀ (rs : List ℝ) (m : ℝ),
    rs.Pairwise (fun a b => b ≤ a) → (∀ r ∈ rs, r ≤ m) →
    radiusPlanes c rs (l.filter (fun p => decide (p.2 ≤ m))) =
      if ∀ r ∈ rs, 3 ≤ (within l r).length then .ok (rs.map (fun r => c.plane (within l r))) else .ub := by
  intro rs
  induction rs with
  | nil => intros; simp [radiusPlanes]
  | cons r rs ih =>
      intro m hs hm
      obtain ⟨h1, h2⟩ := List.pairwise_cons.1 hs
      have ht : (l.filter (fun p => decide (p.2 ≤ m))).takeWhile (fun p => decide (p.2 ≤ r)) =
          l.filter (fun p => decide (p.2 ≤ r)) := by
        rw [takeWhile_sorted r _ (hl.filter _), List.filter_filter]
        apply List.filter_congr
        intro x _
        rw [Bool.eq_iff_iff]
        simp only [Bool.and_eq_true, decide_eq_true_eq, and_iff_left_iff_imp]
        intro h; exact h.trans (hm r (by simp))
      rw [radiusPlanes]
      rw [ht, Cloud.planeEst]
      by_cases h3 : (within l r).length < 3
      · unfold within at h3
        rw [if_pos h3, if_neg (by
          intro hh
          have := hh r (by simp)
          unfold within at this; omega)]
        rfl
      · have h3' := h3
        unfold within at h3
        rw [if_neg h3, Outcome.ok_bind, ih r h2 h1]
        by_cases hall : ∀ r ∈ rs, 3 ≤ (within l r).length
        · rw [if_pos hall, if_pos (by
            intro r' hr'
            rcases List.mem_cons.1 hr' with rfl | hr'
            · omega
            · exact hall r' hr')]
          rfl
        · rw [if_neg hall, if_neg (fun hh => hall (fun r' hr' => hh r' (by simp [hr'])))]
          rfl

open Classical in
/-- C46, estimation with radii.  `near i` lists the points with their distances, by increasing distance; the tree reports those
within the radius.  If, for every point, either the largest radius holds fewer than three points or every given radius holds at
least three, the call succeeds: the former get a zero normal and the latter the normal of the plane through the points within
one of the radii, with the largest plane factor. -/
theorem C46_radius (c : Cloud) (rs : List ℝ) (hne : rs ≠ []) (hpos : ∀ r ∈ rs, 0 < r) (near : Nat → List (Nat × ℝ))
    (hnear : ∀ i < c.n, (near i).Pairwise (fun a b => a.2 ≤ b.2) ∧
      ∀ r, c.radius i r = (near i).filter (fun p => decide (p.2 ≤ r)))
    (hfew : ∀ i < c.n, (∀ r ∈ rs, (within (near i) r).length < 3) ∨ ∀ r ∈ rs, 3 ≤ (within (near i) r).length) (s : State) :
    ∃ s', estimateWithRadius c rs s = .ok s' ∧ s'.estimated = true ∧ ∀ i < c.n,
      ((∀ r ∈ rs, (within (near i) r).length < 3) → s'.normals i = 0 ∧ s'.factors i = 0) ∧
      ((∀ r ∈ rs, 3 ≤ (within (near i) r).length) →
        (∃ r ∈ rs, (s'.factors i, s'.normals i) = c.plane (within (near i) r)) ∧
        ∀ r ∈ rs, (c.plane (within (near i) r)).1 ≤ s'.factors i) := by
  unfold estimateWithRadius
  rw [if_neg hne, if_neg (by
    simp only [List.any_eq_true, decide_eq_true_eq]
    rintro ⟨r, hr, h⟩; exact h (hpos r hr))]
  dsimp only
  set sorted := rs.mergeSort (fun a b => decide (b ≤ a)) with hsorted
  have hmem : ∀ k, k ∈ sorted ↔ k ∈ rs := fun k => List.mem_mergeSort
  have hpw : sorted.Pairwise (fun a b => b ≤ a) := by
    have := List.pairwise_mergeSort (le := fun a b : ℝ => decide (b ≤ a))
      (fun a b c h1 h2 => by simp only [decide_eq_true_eq] at *; linarith)
      (fun a b => by simp only [Bool.or_eq_true, decide_eq_true_eq]; exact le_total b a) rs
    exact this.imp (by simp)
  have hsne : sorted ≠ [] := by
    intro h
    obtain ⟨k, hk⟩ := List.exists_mem_of_ne_nil _ hne
    have := (hmem k).2 hk
    rw [h] at this; cases this
  have hhead : sorted.headD 0 ∈ sorted ∧ ∀ r ∈ sorted, r ≤ sorted.headD 0 := by
    cases hsd : sorted with
    | nil => exact absurd hsd hsne
    | cons x xs =>
        rw [hsd] at hpw
        refine ⟨by simp, ?_⟩
        intro r hr
        rcases List.mem_cons.1 hr with rfl | hr
        · exact le_refl _
        · exact (List.pairwise_cons.1 hpw).1 r hr
  have hpt : ∀ i ∈ List.range c.n, ∃ b, radiusPoint c sorted i = .ok b ∧
      ((∀ r ∈ rs, (within (near i) r).length < 3) → b = (0, 0)) ∧
      ((∀ r ∈ rs, 3 ≤ (within (near i) r).length) →
        (∃ r ∈ rs, b = c.plane (within (near i) r)) ∧ ∀ r ∈ rs, (c.plane (within (near i) r)).1 ≤ b.1) := by
    intro i hi
    obtain ⟨h1, h2⟩ := hnear i (List.mem_range.1 hi)
    have hh := (hmem _).1 hhead.1
    have hlen : (c.radius i (sorted.headD 0)).length = (within (near i) (sorted.headD 0)).length := by
      rw [h2]; simp [within]
    unfold radiusPoint
    dsimp only
    rcases hfew i (List.mem_range.1 hi) with hf | hf
    · rw [if_pos (by rw [hlen]; exact hf _ hh)]
      refine ⟨_, rfl, fun _ => rfl, ?_⟩
      intro h
      have := hf _ hh
      have := h _ hh
      omega
    · rw [if_neg (by rw [hlen]; have := hf _ hh; omega), h2, radiusPlanes_eq c _ h1 sorted _ hpw hhead.2,
        if_pos (fun r hr => hf r ((hmem r).1 hr)), Outcome.ok_bind]
      obtain ⟨b, hb, hb1, hb2⟩ := best_spec (sorted.map (fun r => c.plane (within (near i) r))) (by simpa using hsne)
      rw [hb]
      refine ⟨b, rfl, ?_, ?_⟩
      · intro h
        have := hf _ hh
        have := h _ hh
        omega
      · intro _
        refine ⟨?_, ?_⟩
        · obtain ⟨r, hr, rfl⟩ := List.mem_map.1 hb1
          exact ⟨r, (hmem r).1 hr, rfl⟩
        · intro r hr
          exact hb2 _ (List.mem_map.2 ⟨r, (hmem r).2 hr, rfl⟩)
  choose! f hf using hpt
  rw [Outcome.traverse_ok (g := f) (fun i hi => (hf i hi).1), Outcome.ok_bind]
  refine ⟨_, rfl, rfl, ?_⟩
  intro i hi
  have hget : ((List.range c.n).map f).getD i (0, 0) = f i := by
    simp [List.getD, hi]
  dsimp only
  rw [hget]
  obtain ⟨-, h1, h2⟩ := hf i (List.mem_range.2 hi)
  exact ⟨fun h => by rw [h1 h]; exact ⟨rfl, rfl⟩, h2⟩

open Classical in
/-- C46, a defect: with several radii, a point that has three neighbours within the largest radius but not within a smaller one
makes the call read the third singular value of a matrix with fewer than three rows. -/
theorem C46_smaller_radius_undefined (c : Cloud) (i : Nat) (l : List (Nat × ℝ)) (hl : l.Pairwise (fun a b => a.2 ≤ b.2))
    (r1 r2 : ℝ) (hr : r2 ≤ r1) (hrad : c.radius i r1 = l.filter (fun p => decide (p.2 ≤ r1)))
    (h1 : 3 ≤ (within l r1).length) (h2 : (within l r2).length < 3) : radiusPoint c [r1, r2] i = .ub := by
  unfold radiusPoint
  dsimp only [List.headD_cons]
  rw [hrad, if_neg (by simp only [within, List.length_map] at h1; omega), radiusPlanes_eq c l hl [r1, r2] r1 (by simpa using hr)
    (by simpa using hr), if_neg (by
      intro h
      have := h r2 (by simp)
      omega)]
  rfl

/-! ## Histories -/

/-- A history of calls by a caller who catches exceptions: a call that throws leaves the estimator as it was (every check comes
before the first write); `none` if a call is undefined. -/
noncomputable def history (c : Cloud) (pick : List (Nat × Nat) → Nat) : State → List Op → Option State
  | s, [] => some s
  | s, op :: ops =>
      match op.run c pick s with
      | .ok s' => history c pick s' ops
      | .throws _ => history c pick s ops
      | .ub => none

/-- The calls that do not estimate. -/
def Op.adjusts : Op → Prop
  | .knn _ | .radius _ => False
  | _ => True

/-- `v` is zero, the estimated normal, or its negation. -/
def UpToSign (v e : V3) : Prop := v = 0 ∨ v = e ∨ v = -e

/-- **C46**, histories: after an estimation, any sequence of filtering and orientation calls - those that throw included - keeps
the plane factors, and every normal is the estimated one, its negation, or zero. -/
theorem C46_history (c : Cloud) (pick : List (Nat × Nat) → Nat) (hknn : ∀ p m, ∀ i ∈ c.knn p m, i < c.n) (e : State)
    (he : e.estimated = true) : ∀ (ops : List Op), (∀ op ∈ ops, op.adjusts) →
    ∃ s', history c pick e ops = some s' ∧ s'.estimated = true ∧ s'.factors = e.factors ∧
      ∀ i, UpToSign (s'.normals i) (e.normals i) := by
  suffices h : ∀ (ops : List Op) (s : State), s.estimated = true → s.factors = e.factors →
      (∀ i, UpToSign (s.normals i) (e.normals i)) → (∀ op ∈ ops, op.adjusts) →
      ∃ s', history c pick s ops = some s' ∧ s'.estimated = true ∧ s'.factors = e.factors ∧
        ∀ i, UpToSign (s'.normals i) (e.normals i) from
    fun ops hops => h ops e he rfl (fun i => Or.inr (Or.inl rfl)) hops
  have hneg : ∀ {v e : V3}, UpToSign v e → UpToSign (-v) e := by
    rintro v e (rfl | rfl | rfl)
    · exact Or.inl neg_zero
    · exact Or.inr (Or.inr rfl)
    · exact Or.inr (Or.inl (neg_neg e))
  intro ops
  induction ops with
  | nil => intro s h1 h2 h3 _; exact ⟨s, rfl, h1, h2, h3⟩
  | cons op ops ih =>
      intro s h1 h2 h3 hops
      have step : op.run c pick s = .throws .invalidArgument ∨ ∃ s', op.run c pick s = .ok s' ∧ s'.estimated = true ∧
          s'.factors = e.factors ∧ ∀ i, UpToSign (s'.normals i) (e.normals i) := by
        have hop := hops op (by simp)
        cases op with
        | knn _ => exact hop.elim
        | radius _ => exact hop.elim
        | filter t =>
            right
            obtain ⟨s', h, ha, hb, hc⟩ := C46_filter t s h1
            refine ⟨s', h, ha, hb.trans h2, fun i => ?_⟩
            by_cases hi : s.factors i < t
            · exact Or.inl ((hc i).1 hi)
            · rw [(hc i).2 (not_lt.1 hi)]; exact h3 i
        | direction d =>
            right
            obtain ⟨s', h, ha, hb, hc⟩ := C46_direction d s h1
            refine ⟨s', h, ha, hb.trans h2, fun i => ?_⟩
            by_cases hi : 0 ≤ dot (s.normals i) d
            · rw [(hc i).2.1 hi]; exact h3 i
            · rw [(hc i).2.2 (not_le.1 hi)]; exact hneg (h3 i)
        | point p =>
            right
            obtain ⟨s', h, ha, hb, hc⟩ := C46_point c p s h1
            refine ⟨s', h, ha, hb.trans h2, fun i => ?_⟩
            by_cases hi : 0 ≤ dot (s.normals i) (p - c.point i)
            · rw [(hc i).2.1 hi]; exact h3 i
            · rw [(hc i).2.2 (not_le.1 hi)]; exact hneg (h3 i)
        | closed k =>
            by_cases hk : 0 < k
            · right
              obtain ⟨s', comps, h, ha, hb, -, -, hc, -⟩ := C46_closed_surface c pick k hk hknn s h1
              refine ⟨s', by simp only [Op.run, h, Outcome.ok_bind], ha, hb.trans h2, fun i => ?_⟩
              rcases hc i with hi | ⟨-, hi⟩
              · rw [hi]; exact h3 i
              · rw [hi]; exact hneg (h3 i)
            · classical
              simp only [Op.run, orientClosedSurface]
              rw [if_neg (by simp [h1])]
              by_cases hany : (List.range c.n).any (fun i => !decide (isZero (s.normals i))) = true
              · left
                rw [if_pos ⟨by omega, hany⟩]; rfl
              · right
                rw [if_neg (fun h => hany h.2)]
                have hcomp : components c (fun i => c.knn i (min k c.n).toNat) pick s.normals
                    (fun i => decide (isZero (s.normals i))) [] = .ok (s.normals, []) := by
                  rw [components]
                  split
                  · rfl
                  · rename_i cur hcur
                    exfalso
                    apply hany
                    rw [List.any_eq_true]
                    exact ⟨cur, List.mem_range.2 (find_lt hcur).1, by simpa using (find_lt hcur).2⟩
                rw [hcomp]
                exact ⟨s, rfl, h1, h2, h3⟩
      rcases step with h | ⟨s', h, ha, hb, hc⟩
      · simp only [history, h]
        exact ih s h1 h2 h3 (fun o ho => hops o (by simp [ho]))
      · simp only [history, h]
        exact ih s' ha hb hc (fun o ho => hops o (by simp [ho]))

/-! ## Examples -/

/-- Three points in a row along `x`, at heights 0, 1, 0. -/
def tinyPt : Nat → V3 := fun i => ![i, if i = 1 then 1 else 0, if i = 1 then 1 else 0]

/-- A cloud of three points; the plane estimator reports the upward normal and the number of points. -/
noncomputable def tiny : Cloud :=
  ⟨3, tinyPt, fun _ m => [0, 1, 2].take m, fun _ r => ([(0, 0), (1, 1), (2, 2)] : List (Nat × ℝ)).filter (fun p => p.2 ≤ r),
    fun l => (l.length, ![0, 0, 1])⟩

/-- The hypotheses of `C46_knn` are met: two neighbour counts, one beyond the number of points. -/
example : ∃ s', estimateWithKnn tiny [3, 5] State.new = .ok s' ∧ s'.factors 1 = 3 := by
  obtain ⟨s', h1, -, h2⟩ := C46_knn tiny [3, 5] (by simp) (by simp) (by simp [tiny]) (fun _ => [0, 1, 2])
    (by intro i hi; exact ⟨rfl, fun m => rfl⟩) State.new
  refine ⟨s', h1, ?_⟩
  obtain ⟨⟨k, hk, h⟩, -⟩ := h2 1 (by simp [tiny])
  have := congrArg Prod.fst h
  simp only [List.mem_cons, List.not_mem_nil, or_false] at hk
  rcases hk with rfl | rfl <;> simpa [tiny] using this

/-- The hypotheses of `C46_smaller_radius_undefined` are met: three points within 2, two within 1. -/
example : radiusPoint tiny [2, 1] 0 = .ub := by
  classical
  refine C46_smaller_radius_undefined tiny 0 [(0, 0), (1, 1), (2, 2)] (by norm_num) 2 1 (by norm_num) ?_ ?_ ?_
  · simp only [tiny]
  · norm_num [within]
  · norm_num [within, List.filter]

/-- The hypotheses of `C46_closed_surface` are met by normals that disagree. -/
example (pick : List (Nat × Nat) → Nat) : ∃ s' comps, orientClosedSurface tiny pick 2
    ⟨true, fun i => if i = 1 then ![0, 0, -1] else ![0, 0, 1], 0⟩ = .ok (s', comps) ∧ ∀ i, i ∈ comps.flatten ↔ i < 3 := by
  obtain ⟨s', comps, h1, -, -, -, h2, -⟩ := C46_closed_surface tiny pick 2 (by norm_num)
    (by intro p m i hi; have := List.mem_of_mem_take hi; simp at this; simp [tiny]; omega)
    ⟨true, fun i => if i = 1 then ![0, 0, -1] else ![0, 0, 1], 0⟩ rfl
  refine ⟨s', comps, h1, fun i => ?_⟩
  rw [h2]
  have : ¬ isZero (if i = 1 then ![0, 0, -1] else ![0, 0, 1]) := by
    intro h
    have := h 2
    split at this
    · change |(-1 : ℝ)| ≤ _ at this; norm_num at this
    · change |(1 : ℝ)| ≤ _ at this; norm_num at this
  simp [this, tiny]

end Verif.Normals
