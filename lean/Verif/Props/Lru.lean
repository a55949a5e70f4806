import Verif.Lemmas.Lru

/-!
# C06: the LRU cache is a bounded least-recently-used map
-/

namespace Verif.Lru

open Verif

variable {K V : Type} [DecidableEq K]

/-- **C06.** For every capacity and every history of client operations the cache never runs into undefined
behaviour and everything the client observes is what the time-stamped specification (`Spec.step`, which evicts the
entry with the oldest insertion/use time) gives. -/
theorem C06_lru_refines_spec (capacity : Nat) (ops : List (Op K V)) :
    ∃ c, run (init capacity) ops = .ok (c, (Spec.run (Spec.init capacity) ops).2) := by
  obtain ⟨c, h, _⟩ := run_rel (rel_init capacity) ops
  exact ⟨c, h⟩

/-- **C06, bound and uniqueness.** After every history: at most `capacity` entries, at most one entry per key, `find`
succeeds exactly for the stored keys and its iterator refers to the entry of that key. -/
theorem C06_lru_bounded (capacity : Nat) (ops : List (Op K V)) (c : Cache K V) (os : List (Out V))
    (h : run (init capacity) ops = .ok (c, os)) :
    size c ≤ capacity ∧ (c.list.map Node.key).Nodup ∧
      (∀ k, (∃ n ∈ c.list, n.key = k) ↔ (find c k).isSome) ∧
      (∀ k it, find c k = some it → ∃ v, deref c (some it) = .ok (k, v)) := by
  obtain ⟨c', h', r⟩ := run_rel (rel_init (K := K) (V := V) capacity) ops
  rw [h] at h'
  obtain ⟨rfl, -⟩ : c = c' ∧ _ := by simpa using h'
  have hcap : ∀ (s : Spec.State K V) (ops : List (Op K V)), (Spec.run s ops).1.capacity = s.capacity := by
    intro s ops
    induction ops generalizing s with
    | nil => rfl
    | cons op ops ih =>
      simp only [Spec.run]
      rw [ih]
      cases op <;> simp only [Spec.step]
      split <;> rfl
  refine ⟨?_, r.inv.keys, ?_, ?_⟩
  · have := r.inv.len
    rw [r.cap, hcap] at this
    exact this
  · intro k
    unfold find
    cases hm : c.map k with
    | none =>
      have := (map_none r.inv.inv' k).1 hm
      simpa using this
    | some i =>
      obtain ⟨n, h1, h2, _⟩ := (r.inv.map k i).1 hm
      simpa using ⟨n, h1, h2⟩
  · intro k i hf
    have hm : c.map k = some i := by
      unfold find at hf; split at hf <;> simp_all
    obtain ⟨n, h1, rfl, rfl⟩ := (r.inv.map k i).1 hm
    exact ⟨n.val, by simp [deref, find?_node r.inv.ids h1]⟩

/-- Non-vacuity and a sanity test of the specification: capacity 2, key 1 is used, so key 2 is the one evicted. -/
example : (Spec.run (Spec.init 2) [.emplace 1 10, .emplace 2 20, .use 1, .emplace 3 30, .find 2, .find 1, .find 3]
    : Spec.State Nat Nat × List (Out Nat)).2
    = [.emplaced (some 10) true, .emplaced (some 20) true, .value (some 10), .emplaced (some 30) true,
       .value none, .value (some 10), .value (some 30)] := by decide

/-- With capacity 0 the iterator returned by a successful `try_emplace` is `end()`. -/
theorem C06_lru_capacity_zero (k : K) (v : V) :
    (tryEmplace (init 0 : Cache K V) k v).2 = (none, true) := by
  simp [tryEmplace, find, init, pushFront, evict, begin]

/-- A plain `find` or a failed `try_emplace` does not refresh an entry. -/
theorem C06_lru_find_does_not_refresh (c : Cache K V) (k : K) (v : V) (h : (find c k).isSome) :
    (tryEmplace c k v).1 = c ∧ (tryEmplace c k v).2 = (find c k, false) := by
  unfold tryEmplace
  cases hf : find c k with
  | none => rw [hf] at h; cases h
  | some i => simp

end Verif.Lru
