import Verif.Spec.Lru
import Mathlib.Data.List.Perm.Basic
import Mathlib.Data.List.Nodup

namespace Verif.Lru

open Verif

variable {K V : Type} [DecidableEq K]

/-- Structural invariant of the cache. -/
structure Inv (c : Cache K V) : Prop where
  len : c.list.length ≤ c.capacity
  keys : (c.list.map Node.key).Nodup
  ids : (c.list.map Node.id).Nodup
  fresh : ∀ n ∈ c.list, n.id < c.fresh
  map : ∀ k i, c.map k = some i ↔ ∃ n ∈ c.list, n.key = k ∧ n.id = i

/-- The invariant except for the length bound, as it holds between insertion and eviction. -/
structure Inv' (c : Cache K V) : Prop where
  keys : (c.list.map Node.key).Nodup
  ids : (c.list.map Node.id).Nodup
  fresh : ∀ n ∈ c.list, n.id < c.fresh
  map : ∀ k i, c.map k = some i ↔ ∃ n ∈ c.list, n.key = k ∧ n.id = i

theorem Inv.inv' {c : Cache K V} (h : Inv c) : Inv' c := ⟨h.keys, h.ids, h.fresh, h.map⟩

theorem _root_.List.mem_of_mem_dropLast' {l : List α} {a : α} (h : a ∈ l.dropLast) : a ∈ l :=
  (List.dropLast_sublist l).subset h

theorem eq_of_map_nodup {f : α → β} {l : List α} (h : (l.map f).Nodup) {a b : α} (ha : a ∈ l) (hb : b ∈ l)
    (e : f a = f b) : a = b := List.inj_on_of_nodup_map h ha hb e

theorem find?_node {l : List (Node K V)} (h : (l.map Node.id).Nodup) {n : Node K V} (hn : n ∈ l) :
    l.find? (fun m => m.id == n.id) = some n := by
  cases hf : l.find? (fun m => m.id == n.id) with
  | none => simpa using (List.find?_eq_none.1 hf) n hn
  | some m =>
    have h1 := List.mem_of_find?_eq_some hf
    have h2 := List.find?_some hf
    rw [eq_of_map_nodup h h1 hn (by simpa using h2)]

theorem map_none {c : Cache K V} (h : Inv' c) (k : K) : c.map k = none ↔ ∀ n ∈ c.list, n.key ≠ k := by
  constructor
  · intro hn n hm e
    have := (h.map k n.id).2 ⟨n, hm, e, rfl⟩
    rw [hn] at this; cases this
  · intro hn
    cases hc : c.map k with
    | none => rfl
    | some i =>
      obtain ⟨n, h1, h2, _⟩ := (h.map k i).1 hc
      exact absurd h2 (hn n h1)

/-- the value stored under a key -/
def valOf (l : List (Node K V)) (k : K) : Option V := (l.find? (fun n => n.key = k)).map Node.val

theorem valOf_some {l : List (Node K V)} (h : (l.map Node.key).Nodup) {n : Node K V} (hn : n ∈ l) :
    valOf l n.key = some n.val := by
  unfold valOf
  cases hf : l.find? (fun m => m.key = n.key) with
  | none => simpa using (List.find?_eq_none.1 hf) n hn
  | some m =>
    have h1 := List.mem_of_find?_eq_some hf
    have h2 := List.find?_some hf
    rw [eq_of_map_nodup h h1 hn (by simpa using h2)]; rfl

theorem valOf_none {l : List (Node K V)} {k : K} (h : ∀ n ∈ l, n.key ≠ k) : valOf l k = none := by
  unfold valOf
  rw [List.find?_eq_none.2]; · rfl
  intro n hn; simpa using h n hn

theorem read_find {c : Cache K V} (h : Inv' c) (k : K) : read c (find c k) = .ok (valOf c.list k) := by
  unfold find
  cases hm : c.map k with
  | none => simp [read, valOf_none ((map_none h k).1 hm)]
  | some i =>
    obtain ⟨n, h1, rfl, rfl⟩ := (h.map k i).1 hm
    simp [read, deref, find?_node h.ids h1, valOf_some h.keys h1]

theorem pushFront_inv' {c : Cache K V} (h : Inv' c) (k : K) (v : V) (hk : c.map k = none) :
    Inv' (pushFront c k v) := by
  have hk' := (map_none h k).1 hk
  refine ⟨?_, ?_, ?_, ?_⟩
  · simp only [pushFront, List.map_cons, List.nodup_cons, List.mem_map, not_exists, not_and]
    exact ⟨hk', h.keys⟩
  · simp only [pushFront, List.map_cons, List.nodup_cons, List.mem_map, not_exists, not_and]
    exact ⟨fun n hn e => by have := h.fresh n hn; omega, h.ids⟩
  · intro n hn
    simp only [pushFront, List.mem_cons] at hn ⊢
    rcases hn with rfl | hn
    · simp
    · have := h.fresh n hn; omega
  · intro k' i
    simp only [pushFront, hk, List.mem_cons, exists_eq_or_imp]
    by_cases e : k' = k
    · subst e
      simp only [if_true, Option.some.injEq, true_and]
      constructor
      · exact Or.inl
      · rintro (h1 | ⟨n, h1, h2, _⟩)
        · exact h1
        · exact absurd h2 (hk' n h1)
    · simp only [if_neg e, h.map, Ne.symm e, false_and, false_or]

theorem evict_spec {c : Cache K V} (h : Inv' c) (hl : c.list.length ≤ c.capacity + 1) :
    Inv (evict c) ∧ (evict c).capacity = c.capacity ∧
      (evict c).list = if c.list.length > c.capacity then c.list.dropLast else c.list := by
  unfold evict
  by_cases hc : c.list.length > c.capacity
  · rw [if_pos hc, if_pos hc]
    cases hg : c.list.getLast? with
    | none => simp at hg; rw [hg] at hc; simp at hc
    | some b =>
      have hne : c.list ≠ [] := by intro e; rw [e] at hc; simp at hc
      have hb : c.list.getLast hne = b := by
        rw [List.getLast?_eq_some_getLast hne] at hg; exact Option.some.inj hg
      have hsplit : c.list = c.list.dropLast ++ [b] := by
        rw [← hb]; exact (List.dropLast_append_getLast hne).symm
      have hkeys := h.keys
      have hids := h.ids
      rw [hsplit, List.map_append, List.nodup_append] at hkeys hids
      have hbm : b ∈ c.list := by rw [hsplit]; simp
      refine ⟨⟨?_, hkeys.1, hids.1, ?_, ?_⟩, rfl, rfl⟩
      · simp; omega
      · intro n hn; exact h.fresh n (List.mem_of_mem_dropLast' hn)
      · intro k i
        by_cases e : k = b.key
        · simp only [e, if_true]
          constructor
          · intro h'; cases h'
          · rintro ⟨n, h1, h2, _⟩
            exact absurd h2 (hkeys.2.2 _ (List.mem_map_of_mem h1) _ (by simp))
        · simp only [if_neg e, h.map]
          constructor
          · rintro ⟨n, h1, h2, h3⟩
            rw [hsplit, List.mem_append] at h1
            rcases h1 with h1 | h1
            · exact ⟨n, h1, h2, h3⟩
            · simp at h1; subst h1; exact absurd h2.symm e
          · rintro ⟨n, h1, h2⟩
            exact ⟨n, List.mem_of_mem_dropLast' h1, h2⟩
  · rw [if_neg hc, if_neg hc]
    exact ⟨⟨by omega, h.keys, h.ids, h.fresh, h.map⟩, rfl, rfl⟩

/-! ### Specification side -/

namespace Spec

theorem lookup_some {es : List (Entry K V)} (h : (es.map Entry.key).Nodup) {e : Entry K V} (he : e ∈ es) :
    (es.find? (fun x => x.key = e.key)).map Entry.val = some e.val := by
  cases hf : es.find? (fun x => x.key = e.key) with
  | none => simpa using (List.find?_eq_none.1 hf) e he
  | some m =>
    have h1 := List.mem_of_find?_eq_some hf
    have h2 := List.find?_some hf
    rw [eq_of_map_nodup h h1 he (by simpa using h2)]; rfl

theorem lookup_none {es : List (Entry K V)} {k : K} (h : ∀ e ∈ es, e.key ≠ k) :
    (es.find? (fun x => x.key = k)).map Entry.val = none := by
  rw [List.find?_eq_none.2]; · rfl
  intro n hn; simpa using h n hn

theorem removeOldest_perm {l es : List (Entry K V)} (h : l.Perm es) :
    (removeOldest l).Perm (removeOldest es) := by
  unfold removeOldest
  have : (fun e : Entry K V => l.any (fun e' => decide (e'.stamp < e.stamp)))
      = (fun e => es.any (fun e' => decide (e'.stamp < e.stamp))) := by
    funext e
    rw [Bool.eq_iff_iff]
    simp only [List.any_eq_true, h.mem_iff]
  rw [this]
  exact h.filter _

theorem removeOldest_desc {l : List (Entry K V)} (h : l.Pairwise (fun a b => b.stamp < a.stamp)) :
    removeOldest l = l.dropLast := by
  by_cases hne : l = []
  · subst hne; rfl
  · have hs : l = l.dropLast ++ [l.getLast hne] := (List.dropLast_append_getLast hne).symm
    generalize l.getLast hne = b at hs
    generalize l.dropLast = i at hs ⊢
    subst hs
    rw [List.pairwise_append] at h
    obtain ⟨h1, -, h3⟩ := h
    simp only [List.mem_singleton, forall_eq] at h3
    unfold removeOldest
    rw [List.filter_append]
    have e1 : i.filter (fun e => (i ++ [b]).any (fun e' => decide (e'.stamp < e.stamp))) = i := by
      rw [List.filter_eq_self]
      intro a ha
      simp only [List.any_append, Bool.or_eq_true, List.any_cons, List.any_nil, Bool.or_false]
      right; simpa using h3 a ha
    rw [e1]
    have e2 : [b].filter (fun e => (i ++ [b]).any (fun e' => decide (e'.stamp < e.stamp))) = [] := by
      rw [List.filter_eq_nil_iff]
      intro a ha
      simp only [List.mem_singleton] at ha
      subst ha
      simp only [List.any_append, List.any_cons, List.any_nil, Bool.or_false, Bool.or_eq_true,
        List.any_eq_true, decide_eq_true_eq, not_or, not_exists, not_and, Nat.lt_irrefl, not_false_eq_true,
        and_true]
      intro x hx; have := h3 x hx; omega
    rw [e2]; simp

end Spec

/-- The concrete list, newest first, is the bag of entries sorted by stamp. -/
structure Rel (c : Cache K V) (s : Spec.State K V) : Prop where
  inv : Inv c
  cap : c.capacity = s.capacity
  ord : ∃ l : List (Spec.Entry K V), l.Perm s.entries ∧
    l.map (fun e => (e.key, e.val)) = c.list.map (fun n => (n.key, n.val)) ∧
    l.Pairwise (fun a b => b.stamp < a.stamp) ∧ ∀ e ∈ l, e.stamp < s.clock

theorem pair_mem_iff {c : List (Node K V)} {l es : List (Spec.Entry K V)} (hp : l.Perm es)
    (hm : l.map (fun e => (e.key, e.val)) = c.map (fun n => (n.key, n.val))) (k : K) (v : V) :
    (∃ e ∈ es, e.key = k ∧ e.val = v) ↔ ∃ n ∈ c, n.key = k ∧ n.val = v := by
  have : (k, v) ∈ l.map (fun e => (e.key, e.val)) ↔ (k, v) ∈ c.map (fun n => (n.key, n.val)) := by rw [hm]
  simp only [List.mem_map, Prod.mk.injEq] at this
  simpa [hp.mem_iff] using this

theorem lookup_eq {c : List (Node K V)} {l es : List (Spec.Entry K V)} (hk : (c.map Node.key).Nodup)
    (hp : l.Perm es) (hm : l.map (fun e => (e.key, e.val)) = c.map (fun n => (n.key, n.val))) (k : K) :
    (es.find? (fun x => x.key = k)).map Spec.Entry.val = valOf c k := by
  have hk2 : (es.map Spec.Entry.key).Nodup := by
    rw [← (hp.map _).nodup_iff]
    have := congrArg (List.map Prod.fst) hm
    simp only [List.map_map] at this
    change l.map Spec.Entry.key = c.map Node.key at this
    rw [this]; exact hk
  by_cases h : ∃ n ∈ c, n.key = k
  · obtain ⟨n, h1, rfl⟩ := h
    obtain ⟨e, h2, h3, h4⟩ := (pair_mem_iff hp hm n.key n.val).2 ⟨n, h1, rfl, rfl⟩
    rw [valOf_some hk h1, ← h3, Spec.lookup_some hk2 h2, h4]
  · have h' : ∀ n ∈ c, n.key ≠ k := fun n hn e => h ⟨n, hn, e⟩
    rw [valOf_none h', Spec.lookup_none]
    intro e he hek
    obtain ⟨n, h1, h2, _⟩ := (pair_mem_iff hp hm k e.val).1 ⟨e, he, hek, rfl⟩
    exact h' n h1 h2

theorem Rel.lookup {c : Cache K V} {s : Spec.State K V} (h : Rel c s) (k : K) :
    Spec.lookup s k = valOf c.list k := by
  obtain ⟨l, h1, h2, _⟩ := h.ord
  exact lookup_eq h.inv.keys h1 h2 k

theorem rel_init (cap : Nat) : Rel (init cap : Cache K V) (Spec.init cap) := by
  refine ⟨⟨?_, ?_, ?_, ?_, ?_⟩, rfl, [], ?_, ?_, ?_, ?_⟩ <;> simp [init, Spec.init]

/-- Moving a node to the front, at the level of the (ordered) entry list. -/
theorem use_ord {c : List (Node K V)} {l : List (Spec.Entry K V)} (hk : (c.map Node.key).Nodup)
    (hi : (c.map Node.id).Nodup) (hm : l.map (fun e => (e.key, e.val)) = c.map (fun n => (n.key, n.val)))
    {n : Node K V} (hn : n ∈ c) :
    ∃ e ∈ l, e.key = n.key ∧ e.val = n.val ∧ (l.filter (fun x => !decide (x.key = n.key))).map (fun e => (e.key, e.val))
      = (c.filter (fun m => !(m.id == n.id))).map (fun n => (n.key, n.val)) := by
  obtain ⟨e, h1, h2, h3⟩ := (pair_mem_iff (List.Perm.refl l) hm n.key n.val).2 ⟨n, hn, rfl, rfl⟩
  refine ⟨e, h1, h2, h3, ?_⟩
  have e1 : c.filter (fun m => !(m.id == n.id)) = c.filter (fun m => !decide (m.key = n.key)) := by
    apply List.filter_congr
    intro m hmm
    have : m.id = n.id ↔ m.key = n.key :=
      ⟨fun h => by rw [eq_of_map_nodup hi hmm hn h], fun h => by rw [eq_of_map_nodup hk hmm hn h]⟩
    rw [Bool.eq_iff_iff]
    simp [this]
  rw [e1]
  have f1 : (l.filter (fun x => !decide (x.key = n.key))).map (fun e => (e.key, e.val))
      = (l.map (fun e => (e.key, e.val))).filter (fun p => !decide (p.1 = n.key)) := by
    rw [List.filter_map]; rfl
  have f2 : (c.filter (fun x => !decide (x.key = n.key))).map (fun e => (e.key, e.val))
      = (c.map (fun e => (e.key, e.val))).filter (fun p => !decide (p.1 = n.key)) := by
    rw [List.filter_map]; rfl
  rw [f1, f2, hm]

theorem perm_use {l : List (Spec.Entry K V)} (hk : (l.map Spec.Entry.key).Nodup) {e : Spec.Entry K V} (he : e ∈ l)
    (t : Nat) :
    (({ e with stamp := t } : Spec.Entry K V) :: l.filter (fun x => !decide (x.key = e.key))).Perm
      (l.map (fun x => if x.key = e.key then { x with stamp := t } else x)) := by
  induction l with
  | nil => simp at he
  | cons a l ih =>
    simp only [List.map_cons, List.nodup_cons, List.mem_map, not_exists, not_and] at hk
    rcases List.mem_cons.1 he with rfl | he
    · have h1 : l.filter (fun x => !decide (x.key = e.key)) = l := by
        rw [List.filter_eq_self]; intro x hx; simpa using hk.1 x hx
      have h2 : l.map (fun x => if x.key = e.key then { x with stamp := t } else x) = l := by
        conv_rhs => rw [← List.map_id l]
        apply List.map_congr_left
        intro x hx; simp [hk.1 x hx]
      simp [h1, h2]
    · have hne : a.key ≠ e.key := fun h => hk.1 e he h.symm
      simp only [List.filter_cons, hne, decide_false, Bool.not_false, if_true, List.map_cons, if_false]
      exact (List.Perm.swap _ _ _).trans ((ih hk.2 he).cons _)

theorem keys_of_map {c : List (Node K V)} {l : List (Spec.Entry K V)}
    (hm : l.map (fun e => (e.key, e.val)) = c.map (fun n => (n.key, n.val))) :
    l.map Spec.Entry.key = c.map Node.key := by
  have := congrArg (List.map Prod.fst) hm
  simp only [List.map_map] at this
  exact this

theorem step_rel {c : Cache K V} {s : Spec.State K V} (h : Rel c s) (op : Op K V) :
    ∃ c', step c op = .ok (c', (Spec.step s op).2) ∧ Rel c' (Spec.step s op).1 := by
  cases op with
  | find k => exact ⟨c, by simp [step, read_find h.inv.inv', Spec.step, h.lookup], h⟩
  | clear =>
    refine ⟨clear c, by simp [step, Spec.step], ⟨⟨?_, ?_, ?_, ?_, ?_⟩, h.cap, [], ?_, ?_, ?_, ?_⟩⟩ <;>
      simp [clear, Spec.step]
  | use k =>
    have hr := read_find h.inv.inv' k
    have hlk := h.lookup k
    obtain ⟨l, h1, h2, h3, h4⟩ := h.ord
    cases hf : find c k with
    | none =>
      rw [hf] at hr
      have hv : valOf c.list k = none := by simpa [read] using hr.symm
      have hnone : c.map k = none := by
        unfold find at hf; split at hf <;> simp_all
      have hno : ∀ n ∈ c.list, n.key ≠ k := (map_none h.inv.inv' k).1 hnone
      have hno' : ∀ e ∈ s.entries, e.key ≠ k := by
        intro e he hek
        obtain ⟨n, a, b, _⟩ := (pair_mem_iff h1 h2 k e.val).1 ⟨e, he, hek, rfl⟩
        exact hno n a b
      refine ⟨c, by simp [step, hf, Spec.step, hlk, hv], h.inv, h.cap, l, ?_, h2, h3, ?_⟩
      · simp only [Spec.step]
        have : s.entries.map (fun e => if e.key = k then { e with stamp := s.clock } else e) = s.entries := by
          conv_rhs => rw [← List.map_id s.entries]
          apply List.map_congr_left
          intro x hx; simp [hno' x hx]
        rw [this]; exact h1
      · intro e he; have := h4 e he; simp [Spec.step]; omega
    | some i =>
      have hs : c.map k = some i := by
        unfold find at hf; split at hf <;> simp_all
      obtain ⟨n, hn, rfl, rfl⟩ := (h.inv.map k i).1 hs
      obtain ⟨e, he, hek, hev, hfl⟩ := use_ord h.inv.keys h.inv.ids h2 hn
      have hfind := find?_node h.inv.ids hn
      rw [hf] at hr
      refine ⟨{ c with list := n :: c.list.filter (fun m => !(m.id == n.id)) }, ?_, ?_⟩
      · simp only [step, hf, hr, touch, hfind, Outcome.ok_bind, Outcome.pure_eq, Spec.step, hlk]
      · have hperm : (n :: c.list.filter (fun m => !(m.id == n.id))).Perm c.list := by
          have hnd : c.list.Nodup := List.Nodup.of_map _ h.inv.ids
          classical
          have h5 : c.list.filter (fun m => !(m.id == n.id)) = c.list.erase n := by
            rw [hnd.erase_eq_filter]
            apply List.filter_congr; intro m hm
            have : m.id = n.id ↔ m = n :=
              ⟨fun h' => eq_of_map_nodup h.inv.ids hm hn h', fun h' => by rw [h']⟩
            rw [Bool.eq_iff_iff, bne_iff_ne, Bool.not_eq_true', beq_eq_false_iff_ne, Ne, Ne, this]
          rw [h5]
          exact (List.perm_cons_erase hn).symm
        refine ⟨⟨?_, ?_, ?_, ?_, ?_⟩, h.cap, ({ e with stamp := s.clock } :: l.filter (fun x => !decide (x.key = e.key))), ?_, ?_, ?_, ?_⟩
        · simp only; rw [hperm.length_eq]; exact h.inv.len
        · exact (hperm.map Node.key).nodup_iff.2 h.inv.keys
        · exact (hperm.map Node.id).nodup_iff.2 h.inv.ids
        · intro m hm; exact h.inv.fresh m (hperm.mem_iff.1 hm)
        · intro k' i'
          simp only [hperm.mem_iff]
          exact h.inv.map k' i'
        · simp only [Spec.step]
          have hkl : (l.map Spec.Entry.key).Nodup := by rw [keys_of_map h2]; exact h.inv.keys
          refine (perm_use hkl he s.clock).trans ?_
          rw [hek]
          exact h1.map _
        · simp only [List.map_cons, hek, hev, hfl]
        · rw [List.pairwise_cons]
          refine ⟨fun x hx => ?_, h3.filter _⟩
          exact h4 x (List.mem_filter.1 hx).1
        · intro x hx
          rcases List.mem_cons.1 hx with rfl | hx
          · simp [Spec.step]
          · have := h4 x (List.mem_filter.1 hx).1; simp [Spec.step]; omega
  | emplace k v =>
    have hlk := h.lookup k
    have hr := read_find h.inv.inv' k
    obtain ⟨l, h1, h2, h3, h4⟩ := h.ord
    cases hf : find c k with
    | some i =>
      have hs : c.map k = some i := by
        unfold find at hf; split at hf <;> simp_all
      obtain ⟨n, hn, rfl, rfl⟩ := (h.inv.map k i).1 hs
      have hv := valOf_some h.inv.keys hn
      rw [hf] at hr
      refine ⟨c, ?_, ?_⟩
      · simp [step, tryEmplace, hf, hr, Spec.step, hlk, hv]
      · simp only [Spec.step, hlk, hv, Option.isSome_some, if_true]; exact h
    | none =>
      have hnone : c.map k = none := by
        unfold find at hf; split at hf <;> simp_all
      have hno := (map_none h.inv.inv' k).1 hnone
      have hv : valOf c.list k = none := valOf_none hno
      have hp := pushFront_inv' h.inv.inv' k v hnone
      have hle := h.inv.len
      obtain ⟨g1, g2, g3⟩ := evict_spec hp (by simp [pushFront]; omega)
      set es := s.entries ++ [(⟨k, v, s.clock⟩ : Spec.Entry K V)] with hes
      set l' : List (Spec.Entry K V) := ⟨k, v, s.clock⟩ :: l with hl'
      have hperm : l'.Perm es := by
        rw [hes, hl']
        exact (h1.cons _).trans (List.perm_append_singleton _ _).symm
      have hlen : es.length = (pushFront c k v).list.length := by
        have := congrArg List.length h2
        rw [← hperm.length_eq, hl']; simp [pushFront] at this ⊢; omega
      have hdesc : l'.Pairwise (fun a b => b.stamp < a.stamp) := by
        rw [hl', List.pairwise_cons]; exact ⟨h4, h3⟩
      have hmap : l'.map (fun e => (e.key, e.val)) = (pushFront c k v).list.map (fun n => (n.key, n.val)) := by
        simp [hl', pushFront, h2]
      have hcap : (pushFront c k v).capacity = s.capacity := h.cap
      have hnew : Rel (evict (pushFront c k v)) { s with
          entries := if es.length > s.capacity then Spec.removeOldest es else es
          clock := s.clock + 1 } := by
        refine ⟨g1, by rw [g2]; exact hcap, if es.length > s.capacity then l'.dropLast else l', ?_, ?_, ?_, ?_⟩
        · by_cases hc : es.length > s.capacity
          · simp only [if_pos hc]
            rw [← Spec.removeOldest_desc hdesc]
            exact Spec.removeOldest_perm hperm
          · simpa only [if_neg hc] using hperm
        · rw [g3, hcap, ← hlen]
          by_cases hc : es.length > s.capacity
          · simp only [if_pos hc, List.map_dropLast, hmap]
          · simp only [if_neg hc, hmap]
        · split
          · exact hdesc.sublist (List.dropLast_sublist _)
          · exact hdesc
        · intro e he
          have he' : e ∈ l' := by
            split at he
            · exact List.mem_of_mem_dropLast' he
            · exact he
          rw [hl', List.mem_cons] at he'
          rcases he' with rfl | he'
          · simp
          · have := h4 e he'; simp; omega
      refine ⟨evict (pushFront c k v), ?_, ?_⟩
      · have hrd : read (evict (pushFront c k v)) (begin (evict (pushFront c k v)))
            = .ok (valOf (evict (pushFront c k v)).list k) := by
          by_cases h0 : (evict (pushFront c k v)).list = []
          · simp [begin, h0, read, valOf]
          · have : ∃ rest, (evict (pushFront c k v)).list = ⟨c.fresh, k, v⟩ :: rest := by
              rw [g3] at h0 ⊢
              split at h0
              · rename_i hc; rw [if_pos hc]
                simp only [pushFront] at h0 ⊢
                cases hcl : c.list with
                | nil => rw [hcl] at h0; simp at h0
                | cons a b => exact ⟨_, rfl⟩
              · rename_i hc; rw [if_neg hc]; exact ⟨_, rfl⟩
            obtain ⟨rest, hrest⟩ := this
            simp [begin, hrest, read, deref, valOf]
        have hlk2 := hnew.lookup k
        simp only [step, tryEmplace, hf, hrd, Outcome.ok_bind, Outcome.pure_eq, Spec.step, hlk, hv,
          Option.isSome_none, Bool.false_eq_true, if_false]
        rw [← hlk2]
      · simp only [Spec.step, hlk, hv, Option.isSome_none, Bool.false_eq_true, if_false]
        exact hnew

theorem run_rel {c : Cache K V} {s : Spec.State K V} (h : Rel c s) (ops : List (Op K V)) :
    ∃ c', run c ops = .ok (c', (Spec.run s ops).2) ∧ Rel c' (Spec.run s ops).1 := by
  induction ops generalizing c s with
  | nil => exact ⟨c, rfl, h⟩
  | cons op ops ih =>
    obtain ⟨c1, e1, r1⟩ := step_rel h op
    obtain ⟨c2, e2, r2⟩ := ih r1
    exact ⟨c2, by simp [run, e1, e2, Spec.run], r2⟩

end Verif.Lru
