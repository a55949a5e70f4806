import Verif.Spec.SpatialGrid
import Mathlib.Data.List.Basic
import Mathlib.Data.List.Induction
import Mathlib.Order.Monotone.Defs
import Mathlib.Data.Int.Order.Basic

namespace Verif.SpatialGrid

open Verif Spec

variable {R : Type} (cellOf : R → Int)

theorem mem_intRange {a b x : Int} : x ∈ intRange a b ↔ a ≤ x ∧ x ≤ b := by
  unfold intRange
  simp only [List.mem_map, List.mem_range]
  constructor
  · rintro ⟨k, hk, rfl⟩
    simp only [Int.ofNat_eq_natCast]; omega
  · rintro ⟨h1, h2⟩
    exact ⟨(x - a).toNat, by omega, by simp only [Int.ofNat_eq_natCast]; omega⟩

theorem mem_cellsOf {b : Box R} {c : Cell} : c ∈ cellsOf cellOf b ↔
    (cellOf b.lo.1 ≤ c.1 ∧ c.1 ≤ cellOf b.hi.1) ∧ (cellOf b.lo.2.1 ≤ c.2.1 ∧ c.2.1 ≤ cellOf b.hi.2.1) ∧
    (cellOf b.lo.2.2 ≤ c.2.2 ∧ c.2.2 ≤ cellOf b.hi.2.2) := by
  unfold cellsOf
  simp only [List.mem_flatMap, List.mem_map, mem_intRange]
  constructor
  · rintro ⟨i, hi, j, hj, k, hk, rfl⟩; exact ⟨hi, hj, hk⟩
  · rintro ⟨h1, h2, h3⟩; exact ⟨c.1, h1, c.2.1, h2, c.2.2, h3, rfl⟩

/-- contents of a cell -/
def Grid.at (g : Grid) (c : Cell) : List Nat := (g.grid c).getD []

/-! ### insert / remove -/

theorem foldl_push (cs : List Cell) (g : Grid) (item : Nat) :
    (∀ c i, i ∈ (cs.foldl (fun g c => g.push c item) g).at c ↔ i ∈ g.at c ∨ (i = item ∧ c ∈ cs)) ∧
    (cs.foldl (fun g c => g.push c item) g).visitedSize = g.visitedSize ∧
    (cs.foldl (fun g c => g.push c item) g).visited = g.visited ∧
    (cs.foldl (fun g c => g.push c item) g).guard = g.guard := by
  induction cs generalizing g with
  | nil => simp
  | cons a cs ih =>
    obtain ⟨h1, h2, h3, h4⟩ := ih (g.push a item)
    refine ⟨?_, h2, h3, h4⟩
    intro c i
    simp only [List.foldl_cons, h1, List.mem_cons]
    by_cases e : c = a
    · subst e
      simp only [Grid.at, Grid.push, if_true, Option.getD_some, List.mem_append, List.mem_singleton, true_or, and_true]
      tauto
    · simp [Grid.at, Grid.push, e]

theorem foldl_erase (cs : List Cell) (g : Grid) (item : Nat) :
    (∀ c i, i ∈ (cs.foldl (fun g c => g.eraseIn c item) g).at c ↔ i ∈ g.at c ∧ ¬ (i = item ∧ c ∈ cs)) ∧
    (cs.foldl (fun g c => g.eraseIn c item) g).visitedSize = g.visitedSize ∧
    (cs.foldl (fun g c => g.eraseIn c item) g).visited = g.visited ∧
    (cs.foldl (fun g c => g.eraseIn c item) g).guard = g.guard := by
  induction cs generalizing g with
  | nil => simp
  | cons a cs ih =>
    obtain ⟨h1, h2, h3, h4⟩ := ih (g.eraseIn a item)
    have hsame : (g.eraseIn a item).visitedSize = g.visitedSize ∧ (g.eraseIn a item).visited = g.visited ∧
        (g.eraseIn a item).guard = g.guard := by
      unfold Grid.eraseIn; split <;> exact ⟨rfl, rfl, rfl⟩
    refine ⟨?_, h2.trans hsame.1, h3.trans hsame.2.1, h4.trans hsame.2.2⟩
    intro c i
    simp only [List.foldl_cons, h1, List.mem_cons]
    have : i ∈ (g.eraseIn a item).at c ↔ i ∈ g.at c ∧ ¬ (i = item ∧ c = a) := by
      unfold Grid.eraseIn
      cases hg : g.grid a with
      | none =>
        simp only
        constructor
        · intro h
          refine ⟨h, ?_⟩
          rintro ⟨_, rfl⟩
          simp [Grid.at, hg] at h
        · exact fun h => h.1
      | some l =>
        by_cases e : c = a
        · subst e
          simp [Grid.at, hg]
        · simp [Grid.at, e]
    rw [this]; tauto

/-! ### visiting -/

/-- Keeps the first occurrences of the items not yet seen. -/
def keepFirst (p : Nat → Bool) : List Nat → List Nat
  | [] => []
  | x :: xs => if p x then keepFirst p xs else x :: keepFirst (fun y => y == x || p y) xs

theorem mem_keepFirst (p : Nat → Bool) (l : List Nat) (x : Nat) :
    x ∈ keepFirst p l ↔ x ∈ l ∧ p x = false := by
  induction l generalizing p with
  | nil => simp [keepFirst]
  | cons a l ih =>
    unfold keepFirst
    by_cases h : p a = true
    · rw [if_pos h, ih, List.mem_cons]
      constructor
      · rintro ⟨h1, h2⟩; exact ⟨Or.inr h1, h2⟩
      · rintro ⟨rfl | h1, h2⟩
        · rw [h] at h2; cases h2
        · exact ⟨h1, h2⟩
    · rw [if_neg h, List.mem_cons, ih, List.mem_cons]
      have h' : p a = false := by simpa using h
      by_cases e : x = a
      · subst e; simp [h']
      · simp [e]

theorem nodup_keepFirst (p : Nat → Bool) (l : List Nat) : (keepFirst p l).Nodup := by
  induction l generalizing p with
  | nil => simp [keepFirst]
  | cons a l ih =>
    unfold keepFirst
    split
    · exact ih p
    · rw [List.nodup_cons]
      refine ⟨?_, ih _⟩
      rw [mem_keepFirst]; simp

theorem visitItems_spec {σ : Type} (fn : σ → Nat → σ × Bool) (items : List Nat) (g : Grid) (s : σ)
    (hr : ∀ i ∈ items, i < g.visitedSize) (hb : ∀ i, g.visited i ≤ g.guard) :
    ∃ g', g'.grid = g.grid ∧ g'.visitedSize = g.visitedSize ∧ g'.guard = g.guard ∧ (∀ i, g'.visited i ≤ g'.guard) ∧
      visitItems fn items g s = .ok
        (if (callUntil fn (keepFirst (fun i => g.visited i == g.guard) items) s).2
         then .go g' (callUntil fn (keepFirst (fun i => g.visited i == g.guard) items) s).1
         else .stop g' (callUntil fn (keepFirst (fun i => g.visited i == g.guard) items) s).1) := by
  induction items generalizing g s with
  | nil => exact ⟨g, rfl, rfl, rfl, hb, by simp [visitItems, keepFirst, callUntil]⟩
  | cons a items ih =>
    have ha := hr a (by simp)
    unfold visitItems
    rw [if_pos ha]
    by_cases hv : g.visited a = g.guard
    · rw [if_pos hv]
      obtain ⟨g', h1, h2, h3, h4, h5⟩ := ih g s (fun i hi => hr i (by simp [hi])) hb
      refine ⟨g', h1, h2, h3, h4, ?_⟩
      rw [h5]
      have : keepFirst (fun i => g.visited i == g.guard) (a :: items)
          = keepFirst (fun i => g.visited i == g.guard) items := by
        rw [keepFirst]; simp [hv]
      rw [this]
    · rw [if_neg hv]
      have hk : keepFirst (fun i => g.visited i == g.guard) (a :: items)
          = a :: keepFirst (fun y => y == a || g.visited y == g.guard) items := by
        rw [keepFirst]; simp [hv]
      rw [hk]
      set g1 : Grid := { g with visited := fun i => if i = a then g.guard else g.visited i } with hg1
      have hb1 : ∀ i, g1.visited i ≤ g1.guard := by
        intro i; simp only [hg1]; split
        · exact Nat.le_refl _
        · exact hb i
      have hp : (fun i => g1.visited i == g1.guard) = (fun y => y == a || g.visited y == g.guard) := by
        funext y
        simp only [hg1]
        by_cases e : y = a <;> simp [e]
      cases hf : fn s a with
      | mk s' c =>
        cases c with
        | true =>
          simp only [callUntil, hf]
          obtain ⟨g', h1, h2, h3, h4, h5⟩ := ih g1 s' (fun i hi => hr i (by simp [hi])) hb1
          rw [hp] at h5
          exact ⟨g', h1, h2, h3, h4, h5⟩
        | false =>
          refine ⟨g1, rfl, rfl, rfl, hb1, ?_⟩
          simp [callUntil, hf]

theorem visitItems_grid {σ : Type} (fn : σ → Nat → σ × Bool) (items : List Nat) (g g' : Grid) (s s' : σ)
    (h : visitItems fn items g s = .ok (.go g' s')) : g'.grid = g.grid := by
  induction items generalizing g s with
  | nil => simp only [visitItems, Outcome.ok.injEq, Flow.go.injEq] at h; rw [h.1]
  | cons a items ih =>
    unfold visitItems at h
    split at h
    · split at h
      · exact ih g s h
      · split at h
        · rename_i s1 _
          exact ih { g with visited := fun i => if i = a then g.guard else g.visited i } s1 h
        · cases h
    · cases h

theorem visitItems_append {σ : Type} (fn : σ → Nat → σ × Bool) (xs ys : List Nat) (g : Grid) (s : σ) :
    visitItems fn (xs ++ ys) g s = match visitItems fn xs g s with
      | .ok (.go g' s') => visitItems fn ys g' s'
      | r => r := by
  induction xs generalizing g s with
  | nil => simp [visitItems]
  | cons a xs ih =>
    rw [List.cons_append, visitItems, visitItems]
    by_cases h1 : a < g.visitedSize
    · simp only [if_pos h1]
      by_cases h2 : g.visited a = g.guard
      · simp only [if_pos h2]; exact ih g s
      · simp only [if_neg h2]
        cases hf : fn s a with
        | mk s' c =>
          cases c with
          | true => exact ih _ _
          | false => rfl
    · simp only [if_neg h1]

theorem visitCells_eq {σ : Type} (fn : σ → Nat → σ × Bool) (cs : List Cell) (g : Grid) (s : σ) :
    visitCells fn cs g s = match visitItems fn (cs.flatMap (fun c => g.at c)) g s with
      | .ok (.go g' s') => .ok (g', s')
      | .ok (.stop g' s') => .ok (g', s')
      | .throws e => .throws e
      | .ub => .ub := by
  induction cs generalizing g s with
  | nil => simp [visitCells, visitItems]
  | cons c cs ih =>
    rw [List.flatMap_cons, visitItems_append]
    unfold visitCells
    cases hg : g.grid c with
    | none =>
      simp only [Grid.at, hg, Option.getD_none, visitItems]
      exact ih g s
    | some items =>
      simp only [Grid.at, hg, Option.getD_some]
      cases hv : visitItems fn items g s with
      | ok fl =>
        cases fl with
        | go g' s' =>
          simp only
          rw [ih g' s']
          have := visitItems_grid fn items g g' s s' hv
          simp only [Grid.at, this]
        | stop g' s' => rfl
      | throws e => rfl
      | ub => rfl

/-- Well-formed grid storing `l`. -/
structure GInv (g : Grid) (l : Nat → Option (Box R)) : Prop where
  cells : ∀ c i, i ∈ g.at c ↔ ∃ b, l i = some b ∧ c ∈ cellsOf cellOf b
  size : ∀ i b, l i = some b → i < g.visitedSize
  stamps : ∀ i, g.visited i ≤ g.guard
  guard : g.guard ≤ intMax

theorem forEach_spec {σ : Type} {g : Grid} {l : Nat → Option (Box R)} (h : GInv cellOf g l) (q : Box R)
    (fn : σ → Nat → σ × Bool) (s : σ) :
    ∃ g', GInv cellOf g' l ∧
      g.forEach cellOf q fn s = .ok (g', (callUntil fn
        (keepFirst (fun _ => false) ((cellsOf cellOf q).flatMap (fun c => g.at c))) s).1) := by
  unfold Grid.forEach
  set g1 : Grid := if g.guard = intMax then { g with visited := fun _ => 0, guard := 0 } else g with hg1
  set g2 : Grid := { g1 with guard := g1.guard + 1 } with hg2
  have hgrid : g2.grid = g.grid := by
    simp only [hg2, hg1]; split <;> rfl
  have hat : ∀ c, g2.at c = g.at c := fun c => by simp only [Grid.at, hgrid]
  have hsz : g2.visitedSize = g.visitedSize := by
    simp only [hg2, hg1]; split <;> rfl
  have hlt : ∀ i, g2.visited i < g2.guard := by
    intro i
    simp only [hg2, hg1]
    split
    · simp
    · have := h.stamps i; simp; omega
  have hgd : g2.guard ≤ intMax := by
    simp only [hg2, hg1]
    split
    · simp [intMax]
    · have := h.guard; simp; omega
  have hitems : ∀ i ∈ (cellsOf cellOf q).flatMap (fun c => g2.at c), i < g2.visitedSize := by
    intro i hi
    rw [List.mem_flatMap] at hi
    obtain ⟨c, _, hi⟩ := hi
    rw [hat] at hi
    obtain ⟨b, hb, _⟩ := (h.cells c i).1 hi
    rw [hsz]; exact h.size i b hb
  obtain ⟨g', e1, e2, e3, e4, e5⟩ := visitItems_spec fn ((cellsOf cellOf q).flatMap (fun c => g2.at c)) g2 s hitems
    (fun i => Nat.le_of_lt (hlt i))
  have hp : (fun i => g2.visited i == g2.guard) = fun _ => false := by
    funext i; simpa using Nat.ne_of_lt (hlt i)
  rw [hp] at e5
  refine ⟨g', ⟨?_, ?_, e4, by rw [e3]; exact hgd⟩, ?_⟩
  · intro c i
    have : g'.at c = g.at c := by simp only [Grid.at, e1, hgrid]
    rw [this]; exact h.cells c i
  · intro i b hb; rw [e2, hsz]; exact h.size i b hb
  · simp only
    rw [visitCells_eq, e5]
    simp only [hat]
    split <;> rename_i heq <;> split at heq <;> simp_all

theorem insert_inv {g : Grid} {l : Nat → Option (Box R)} (h : GInv cellOf g l) (fi : Nat) (b : Box R)
    (hl : l fi = none) : GInv cellOf (g.insert cellOf fi b) (fun i => if i = fi then some b else l i) := by
  unfold Grid.insert
  obtain ⟨h1, h2, h3, h4⟩ := foldl_push (cellsOf cellOf b) (g.reserve (fi + 1)) fi
  have hat : ∀ c, (g.reserve (fi + 1)).at c = g.at c := by
    intro c; unfold Grid.reserve; split <;> rfl
  have hsz : g.visitedSize ≤ (g.reserve (fi + 1)).visitedSize ∧ fi < (g.reserve (fi + 1)).visitedSize := by
    unfold Grid.reserve; split <;> simp <;> omega
  refine ⟨?_, ?_, ?_, ?_⟩
  · intro c i
    rw [h1, hat, h.cells]
    by_cases e : i = fi
    · subst e; simp [hl]
    · simp [e]
  · intro i b' hb'
    rw [h2]
    by_cases e : i = fi
    · subst e; exact hsz.2
    · simp only [if_neg e] at hb'
      have := h.size i b' hb'; omega
  · intro i
    rw [h3, h4]
    unfold Grid.reserve
    split
    · simp only; split
      · exact h.stamps i
      · omega
    · exact h.stamps i
  · rw [h4]
    have : (g.reserve (fi + 1)).guard = g.guard := by unfold Grid.reserve; split <;> rfl
    rw [this]; exact h.guard

theorem remove_inv {g : Grid} {l : Nat → Option (Box R)} (h : GInv cellOf g l) (fi : Nat) (b : Box R)
    (hl : ∀ b', l fi = some b' → b' = b) : GInv cellOf (g.remove cellOf fi b) (fun i => if i = fi then none else l i) := by
  unfold Grid.remove
  obtain ⟨h1, h2, h3, h4⟩ := foldl_erase (cellsOf cellOf b) g fi
  refine ⟨?_, ?_, ?_, ?_⟩
  · intro c i
    rw [h1, h.cells]
    by_cases e : i = fi
    · subst e
      simp only [true_and, if_true, reduceCtorEq, false_and, exists_false, iff_false, not_and, not_not]
      rintro ⟨b', hb1, hb2⟩
      rw [hl b' hb1] at hb2; exact hb2
    · simp [e]
  · intro i b' hb'
    rw [h2]
    by_cases e : i = fi
    · simp [e] at hb'
    · simp only [if_neg e] at hb'; exact h.size i b' hb'
  · intro i; rw [h3, h4]; exact h.stamps i
  · rw [h4]; exact h.guard

/-- Reserving is invisible. -/
theorem reserve_inv {g : Grid} {l : Nat → Option (Box R)} (h : GInv cellOf g l) (n : Nat) :
    GInv cellOf (g.reserve n) l := by
  unfold Grid.reserve
  split
  · refine ⟨h.cells, ?_, ?_, h.guard⟩
    · intro i b hb; have := h.size i b hb; simp only; omega
    · intro i; simp only; split
      · exact h.stamps i
      · omega
  · exact h

structure FInv (f : FaceGrid R) (ops : List (Op R)) : Prop where
  g : GInv cellOf f.g (live ops)
  box : ∀ i b, live ops i = some b → f.box i = b
  size : ∀ i b, Op.insert i b ∈ ops → i < f.boxSize

theorem live_append (ops : List (Op R)) (op : Op R) : live (ops ++ [op]) =
    (match op with
    | .insert fi b => fun i => if i = fi then some b else live ops i
    | .remove fi => fun i => if i = fi then none else live ops i
    | .query _ _ => live ops) := by
  unfold live
  rw [List.foldl_append]
  rfl

theorem live_inserted (ops : List (Op R)) (i : Nat) (b : Box R) (h : live ops i = some b) : Op.insert i b ∈ ops := by
  induction ops using List.reverseRecOn with
  | nil => simp [live] at h
  | append_singleton ops op ih =>
    rw [live_append] at h
    cases op with
    | insert fi b' =>
      simp only at h
      split at h
      · rename_i e; subst e; cases h; simp
      · simp [ih h]
    | remove fi =>
      simp only at h
      split at h
      · cases h
      · simp [ih h]
    | query q k => simp [ih h]

theorem finv_init (dflt : Box R) (capacity : Nat) : FInv cellOf (FaceGrid.init dflt capacity) [] := by
  refine ⟨⟨?_, ?_, ?_, ?_⟩, ?_, ?_⟩ <;> simp [FaceGrid.init, Grid.init, Grid.at, live]

theorem step_inv (dflt : Box R) {f : FaceGrid R} {ops : List (Op R)} (h : FInv cellOf f ops) (op : Op R)
    (hv : match op with
      | .insert fi _ => live ops fi = none
      | .remove fi => ∃ b, Op.insert fi b ∈ ops
      | .query _ _ => True) :
    ∃ f', step cellOf dflt f op = .ok f' ∧ FInv cellOf f' (ops ++ [op]) := by
  cases op with
  | insert fi b =>
    refine ⟨_, rfl, ⟨?_, ?_, ?_⟩⟩
    · rw [live_append]
      exact insert_inv cellOf (reserve_inv cellOf h.g (fi + 1)) fi b hv
    · intro i b' hb'
      rw [live_append] at hb'
      simp only [FaceGrid.insert] at hb' ⊢
      by_cases e : i = fi
      · simp only [e, if_true] at hb' ⊢; exact Option.some.inj hb'
      · simp only [if_neg e] at hb' ⊢
        rw [if_pos (h.size i b' (live_inserted _ _ _ hb'))]
        exact h.box i b' hb'
    · intro i b' hm
      simp only [FaceGrid.insert]
      rcases List.mem_append.1 hm with hm | hm
      · have := h.size i b' hm; split <;> omega
      · simp at hm; obtain ⟨rfl, rfl⟩ := hm; split <;> omega
  | remove fi =>
    obtain ⟨b0, hb0⟩ := hv
    have hlt := h.size fi b0 hb0
    refine ⟨{ f with g := f.g.remove cellOf fi (f.box fi) }, by simp [step, FaceGrid.remove, hlt], ⟨?_, ?_, ?_⟩⟩
    · rw [live_append]
      exact remove_inv cellOf h.g fi (f.box fi) (fun b' hb' => (h.box fi b' hb').symm)
    · intro i b' hb'
      rw [live_append] at hb'
      simp only at hb'
      split at hb'
      · cases hb'
      · exact h.box i b' hb'
    · intro i b' hm
      exact h.size i b' (by simpa using hm)
  | query q k =>
    obtain ⟨g', h1, h2⟩ := forEach_spec cellOf h.g q (recorder k) []
    refine ⟨{ f with g := g' }, by simp [step, FaceGrid.forEach, h2], ⟨?_, ?_, ?_⟩⟩
    · rw [live_append]; exact h1
    · intro i b' hb'; rw [live_append] at hb'; exact h.box i b' hb'
    · intro i b' hm; exact h.size i b' (by simpa using hm)

theorem run_inv (dflt : Box R) {f : FaceGrid R} (pre ops : List (Op R)) (h : FInv cellOf f pre)
    (hv : Valid (pre ++ ops)) : ∃ f', run cellOf dflt f ops = .ok f' ∧ FInv cellOf f' (pre ++ ops) := by
  induction ops generalizing f pre with
  | nil => exact ⟨f, rfl, by simpa using h⟩
  | cons op ops ih =>
    obtain ⟨f1, h1, h2⟩ := step_inv cellOf dflt h op (hv pre op ops rfl)
    obtain ⟨f2, h3, h4⟩ := ih (pre ++ [op]) h2 (by simpa using hv)
    exact ⟨f2, by simp [run, h1, h3], by simpa using h4⟩

/-- Boxes that overlap share a cell, for every monotone cell function: this is why the broad phase misses nothing. -/
theorem shares_cell [LinearOrder R] (hm : Monotone cellOf) {a b : Box R} (ha : Proper a) (hb : Proper b)
    (h : Overlap a b) : ∃ c, c ∈ cellsOf cellOf a ∧ c ∈ cellsOf cellOf b := by
  obtain ⟨⟨h1, h1'⟩, ⟨h2, h2'⟩, h3, h3'⟩ := h
  obtain ⟨a1, a2, a3⟩ := ha
  obtain ⟨b1, b2, b3⟩ := hb
  refine ⟨(max (cellOf a.lo.1) (cellOf b.lo.1), max (cellOf a.lo.2.1) (cellOf b.lo.2.1),
    max (cellOf a.lo.2.2) (cellOf b.lo.2.2)), ?_, ?_⟩ <;> rw [mem_cellsOf]
  · exact ⟨⟨le_max_left _ _, max_le (hm a1) (hm h1')⟩, ⟨le_max_left _ _, max_le (hm a2) (hm h2')⟩,
      ⟨le_max_left _ _, max_le (hm a3) (hm h3')⟩⟩
  · exact ⟨⟨le_max_right _ _, max_le (hm h1) (hm b1)⟩, ⟨le_max_right _ _, max_le (hm h2) (hm b2)⟩,
      ⟨le_max_right _ _, max_le (hm h3) (hm b3)⟩⟩

end Verif.SpatialGrid
