import Verif.Lemmas.BinaryCache

/-!
# C07: the on-disk cache returns exactly the bytes stored, under every interleaving
-/

namespace Verif.BinaryCache

open Verif Spec

/-- **C07.** Under every schedule of any number of threads calling `put` and `get` (interleaved at system-call
granularity) in which the OS never writes short, every completed call gave the result the append-only store
specifies. -/
theorem C07_all_calls_correct (sch : Schedule) (hw : FullWrites init sch) : Correct (run init sch).log :=
  (run_inv inv_init sch hw).correct

/-- Stored data only grows, and the data of a `put` stays at its id. -/
theorem correct_put_mem {l : List Event} (h : Correct l) {id : Nat} {d : Bytes} (hm : Event.put id d ∈ l) :
    1 ≤ id ∧ (stored l)[id - 1]? = some d := by
  induction l with
  | nil => cases hm
  | cons e l ih =>
    cases e with
    | get i r =>
      rcases List.mem_cons.1 hm with h' | h'
      · cases h'
      · exact ih h.2 h'
    | put i d' =>
      rcases List.mem_cons.1 hm with h' | h'
      · cases h'
        have := h.1
        subst this
        simp [stored]
      · obtain ⟨h1, h2⟩ := ih h.2 h'
        refine ⟨h1, ?_⟩
        simp only [stored]
        rw [List.getElem?_append_left]
        · exact h2
        · exact (List.getElem?_eq_some_iff.1 h2).1

/-- **C07, read-back.** A completed `get id` after a completed `put` that returned `id` gives exactly that data. -/
theorem C07_get_returns_put (sch : Schedule) (hw : FullWrites init sch) (newer older : List Event) (id : Nat)
    (r : Outcome Bytes) (hlog : (run init sch).log = newer ++ .get id r :: older) (d : Bytes)
    (hput : Event.put id d ∈ older) : r = .ok d := by
  have h := C07_all_calls_correct sch hw
  rw [hlog] at h
  have h' : Correct (.get id r :: older) := by
    clear hlog
    induction newer with
    | nil => exact h
    | cons e l ih => cases e <;> exact ih h.2
  obtain ⟨h1, h2⟩ := correct_put_mem h'.2 hput
  rw [h'.1, Spec.get, if_neg (by omega), h2]

/-- **C07, unknown ids.** A completed `get id` with `id ≠ 0` not returned by any earlier `put` throws `out_of_range`.
(Id 0 names a built-in empty record and is accepted.) -/
theorem C07_get_unknown_throws (sch : Schedule) (hw : FullWrites init sch) (newer older : List Event) (id : Nat)
    (r : Outcome Bytes) (hlog : (run init sch).log = newer ++ .get id r :: older) (hid : id ≠ 0)
    (hput : ∀ d, Event.put id d ∉ older) : r = .throws .outOfRange := by
  have h := C07_all_calls_correct sch hw
  rw [hlog] at h
  have h' : Correct (.get id r :: older) := by
    clear hlog
    induction newer with
    | nil => exact h
    | cons e l ih => cases e <;> exact ih h.2
  rw [h'.1, Spec.get, if_neg hid]
  have hno : ∀ l : List Event, Correct l → (∀ d, Event.put id d ∉ l) → (stored l)[id - 1]? = none := by
    intro l
    induction l with
    | nil => intro _ _; simp [stored]
    | cons e l ih =>
      intro hc hn
      have hn' : ∀ d, Event.put id d ∉ l := fun d hd => hn d (List.mem_cons_of_mem _ hd)
      cases e with
      | get i r => exact ih hc.2 hn'
      | put i d =>
        have hi := hc.1
        have hne : i ≠ id := fun e => hn d (by rw [e]; simp)
        have := ih hc.2 hn'
        rw [List.getElem?_eq_none_iff] at this ⊢
        simp only [stored, List.length_append, List.length_singleton]
        omega
  rw [hno older h'.2 hput]

/-- The ids returned by completed `put` calls. -/
def putIds : List Event → List Nat
  | [] => []
  | .get _ _ :: l => putIds l
  | .put id _ :: l => id :: putIds l

/-- **C07, distinct ids.** No two completed `put` calls return the same id. -/
theorem C07_ids_distinct (sch : Schedule) (hw : FullWrites init sch) : (putIds (run init sch).log).Nodup := by
  have h := C07_all_calls_correct sch hw
  generalize (run init sch).log = l at h
  have hb : ∀ l : List Event, Correct l → (putIds l).Nodup ∧ ∀ i ∈ putIds l, i ≤ (stored l).length := by
    intro l
    induction l with
    | nil => intro _; simp [putIds]
    | cons e l ih =>
      intro hc
      cases e with
      | get i r => exact ih hc.2
      | put i d =>
        obtain ⟨h1, h2⟩ := ih hc.2
        have hi := hc.1
        simp only [putIds, List.nodup_cons, List.mem_cons, stored, List.length_append, List.length_singleton]
        refine ⟨⟨fun hm => ?_, h1⟩, ?_⟩
        · have := h2 i hm; omega
        · rintro j (rfl | hj)
          · omega
          · have := h2 j hj; omega
  exact (hb l h).1

/-- Two threads whose system calls are interleaved: thread 1 tries to start a `put` while thread 0 is between `lseek`
and `write`; later both read back, including a zero-length record. -/
def demo : Schedule :=
  [(0, .put [1, 2, 3], 9), (0, .get 0, 9), (1, .put [], 9), (0, .get 0, 9), (1, .put [], 9), (0, .get 0, 9),
   (1, .put [], 9), (0, .get 1, 9), (1, .get 7, 9), (1, .get 7, 9), (1, .get 7, 9),
   (0, .get 1, 9), (1, .put [], 9), (0, .get 1, 9), (0, .get 1, 9)]

/-- Non-vacuity: the interleaved schedule meets the hypothesis and contains completed puts and gets. -/
example : FullWrites init demo ∧
    (run init demo).log = [.get 1 (.ok [1, 2, 3]), .put 2 [], .put 1 [1, 2, 3]] := by
  refine ⟨?_, rfl⟩
  simp [demo, FullWrites, step, init, setPc, osWrite]

/-- **Limit of C07 (runtime).** The result of `write` is ignored: after one short write every later record is read back
wrong.  Two puts, the first cut to one byte, then the second read back: wrong bytes. -/
theorem C07_short_write_corrupts :
    (run init [(0, .put [1, 2], 0), (0, .get 0, 0), (0, .get 0, 1), (0, .get 0, 0),
               (0, .put [3, 4], 0), (0, .get 0, 0), (0, .get 0, 2), (0, .get 0, 0),
               (0, .get 2, 0), (0, .get 0, 0), (0, .get 0, 0)]).log
      = [.get 2 (.ok [4]), .put 2 [3, 4], .put 1 [1, 2]] := rfl

end Verif.BinaryCache
