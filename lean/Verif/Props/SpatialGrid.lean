import Verif.Lemmas.SpatialGrid
import Mathlib.Data.Int.Order.Basic
import Mathlib.Data.Rat.Floor
import Mathlib.Algebra.Order.Floor.Ring

/-!
# C36: the face grid is a complete broad phase

`run cellOf dflt (FaceGrid.init dflt cap) ops` is the state of a face grid after an arbitrary history of insertions,
removals and (possibly interrupted) queries that respects the callers' protocol `Valid`.
-/

namespace Verif.SpatialGrid

open Verif Spec

variable {R : Type} (cellOf : R → Int)

/-- The history never fails, and any further query calls the callback on a duplicate-free sequence consisting of exactly
the stored items whose box shares a cell with the query, up to the first call that answers false (`callUntil`).  In
particular an item removed and not inserted again is never visited. -/
theorem C36_query_visits_each_candidate_once (dflt : Box R) (cap : Nat) (ops : List (Op R)) (hv : Valid ops) :
    ∃ f, run cellOf dflt (FaceGrid.init dflt cap) ops = .ok f ∧
      ∀ q : Box R, ∃ order : List Nat, order.Nodup ∧
        (∀ i, i ∈ order ↔ ∃ b, live ops i = some b ∧ ∃ c, c ∈ cellsOf cellOf b ∧ c ∈ cellsOf cellOf q) ∧
        ∀ (σ : Type) (fn : σ → Nat → σ × Bool) (s : σ), ∃ f',
          f.forEach cellOf q fn s = .ok (f', (callUntil fn order s).1) := by
  obtain ⟨f, h1, h2⟩ := run_inv cellOf dflt [] ops (finv_init cellOf dflt cap) (by simpa using hv)
  refine ⟨f, h1, fun q => ⟨keepFirst (fun _ => false) ((cellsOf cellOf q).flatMap (fun c => f.g.at c)),
    nodup_keepFirst _ _, ?_, ?_⟩⟩
  · intro i
    rw [mem_keepFirst, List.mem_flatMap]
    simp only [and_true]
    constructor
    · rintro ⟨c, hc, hi⟩
      obtain ⟨b, hb, hcb⟩ := (h2.g.cells c i).1 hi
      exact ⟨b, by simpa using hb, c, hcb, hc⟩
    · rintro ⟨b, hb, c, hcb, hc⟩
      exact ⟨c, hc, (h2.g.cells c i).2 ⟨b, by simpa using hb, hcb⟩⟩
  · intro σ fn s
    obtain ⟨g', _, e⟩ := forEach_spec cellOf h2.g q fn s
    exact ⟨{ f with g := g' }, by simp [FaceGrid.forEach, e]⟩

/-- Every stored item whose box overlaps the query box is visited, exactly once, by a query that never stops. -/
theorem C36_broad_phase_complete [LinearOrder R] (hm : Monotone cellOf) (dflt : Box R) (cap : Nat) (ops : List (Op R))
    (hv : Valid ops) (q : Box R) (hq : Proper q) (hp : ∀ i b, live ops i = some b → Proper b) :
    ∃ f f' seen, run cellOf dflt (FaceGrid.init dflt cap) ops = .ok f ∧
      f.forEach cellOf q (fun (seen : List Nat) i => (seen ++ [i], true)) [] = .ok (f', seen) ∧
      seen.Nodup ∧ (∀ i, (∃ b, live ops i = some b ∧ Overlap b q) → i ∈ seen) ∧
      (∀ i ∈ seen, live ops i ≠ none) := by
  obtain ⟨f, h1, h2⟩ := C36_query_visits_each_candidate_once cellOf dflt cap ops hv
  obtain ⟨order, hn, hmem, hrun⟩ := h2 q
  obtain ⟨f', e⟩ := hrun _ (fun (seen : List Nat) i => (seen ++ [i], true)) []
  have hcall : ∀ (l acc : List Nat), (callUntil (fun (seen : List Nat) i => (seen ++ [i], true)) l acc).1 = acc ++ l := by
    intro l
    induction l with
    | nil => intro acc; simp [callUntil]
    | cons x l ih => intro acc; simp [callUntil, ih]
  rw [hcall] at e
  refine ⟨f, f', order, h1, by simpa using e, hn, ?_, ?_⟩
  · rintro i ⟨b, hb, ho⟩
    obtain ⟨c, hc1, hc2⟩ := shares_cell cellOf hm (hp i b hb) hq ho
    exact (hmem i).2 ⟨b, hb, c, hc1, hc2⟩
  · intro i hi hl
    obtain ⟨b, hb, _⟩ := (hmem i).1 hi
    rw [hl] at hb; cases hb

/-- `any_of` answers whether some candidate hits. -/
theorem C36_any_of (dflt : Box R) (cap : Nat) (ops : List (Op R)) (hv : Valid ops) (q : Box R) (hits : Nat → Bool) :
    ∃ f f' r, run cellOf dflt (FaceGrid.init dflt cap) ops = .ok f ∧ f.anyOf cellOf q hits = .ok (f', r) ∧
      (r = true ↔ ∃ i b, live ops i = some b ∧ (∃ c, c ∈ cellsOf cellOf b ∧ c ∈ cellsOf cellOf q) ∧ hits i = true) := by
  obtain ⟨f, h1, h2⟩ := C36_query_visits_each_candidate_once cellOf dflt cap ops hv
  obtain ⟨order, hn, hmem, hrun⟩ := h2 q
  obtain ⟨f', e⟩ := hrun Bool (fun hit fi => if hits fi then (true, false) else (hit, true)) false
  refine ⟨f, f', _, h1, e, ?_⟩
  have hcall : ∀ l : List Nat, (callUntil (fun hit fi => if hits fi then (true, false) else (hit, true)) l false).1 = true
      ↔ ∃ i ∈ l, hits i = true := by
    intro l
    induction l with
    | nil => simp [callUntil]
    | cons x l ih =>
      by_cases hx : hits x = true
      · simp [callUntil, hx]
      · simp [callUntil, hx, ih]
  rw [hcall]
  constructor
  · rintro ⟨i, hi, hh⟩
    obtain ⟨b, hb, c⟩ := (hmem i).1 hi
    exact ⟨i, b, hb, c, hh⟩
  · rintro ⟨i, b, hb, c, hh⟩
    exact ⟨i, (hmem i).2 ⟨b, hb, c⟩, hh⟩

/-- `floor(x / resolution)` over the rationals is a monotone cell function. -/
example (res : Rat) (h : 0 < res) : Monotone (fun x : Rat => ⌊x / res⌋) := by
  intro a b hab
  exact Int.floor_le_floor (div_le_div_of_nonneg_right hab h.le)

/-- The hypotheses are met by a history with an interrupted query, a removal and a re-insertion; the final query sees
item 0 in its new place and item 1. -/
def exOps : List (Op Int) :=
  [.insert 0 ⟨(0, 0, 0), (2, 0, 0)⟩, .insert 1 ⟨(1, 0, 0), (1, 3, 0)⟩, .query ⟨(0, 0, 0), (5, 5, 5)⟩ 1, .remove 0,
   .insert 0 ⟨(1, 1, 0), (2, 1, 0)⟩]

example : (run (fun x : Int => x / 2) ⟨(0, 0, 0), (0, 0, 0)⟩ (FaceGrid.init ⟨(0, 0, 0), (0, 0, 0)⟩ 1) exOps).bind
    (fun f => (f.forEach (fun x : Int => x / 2) ⟨(0, 0, 0), (0, 3, 0)⟩
      (fun (seen : List Nat) i => (seen ++ [i], true)) []).bind (fun r => .ok r.2)) = .ok [1, 0] := by
  decide

example : Valid exOps := by
  intro pre op post h
  match pre, h with
  | [], h => cases h; rfl
  | [_], h => cases h; rfl
  | [_, _], h => cases h; trivial
  | [_, _, _], h => cases h; exact ⟨_, List.mem_cons_self⟩
  | [_, _, _, _], h => cases h; rfl
  | _ :: _ :: _ :: _ :: _ :: pre, h =>
    simp only [exOps, List.cons_append, List.cons.injEq] at h
    obtain ⟨_, _, _, _, _, h⟩ := h
    simp at h

end Verif.SpatialGrid
