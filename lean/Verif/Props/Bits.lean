import Verif.Model.Bits
import Mathlib.Data.List.Sort
import Mathlib.Tactic.Linarith

/-!
# C51: bit iteration enumerates the set bits; C53: the packed vertex storage of a lattice node is a map
-/

namespace Verif.Bits

open Verif

/-- The positions of the one bits, in increasing order. -/
def oneBits (x : BitVec w) : List Nat := (List.range w).filter (fun i => x.getLsbD i)

theorem mem_oneBits {x : BitVec w} {i : Nat} : i ∈ oneBits x ↔ x.getLsbD i = true := by
  simp only [oneBits, List.mem_filter, List.mem_range, and_iff_right_iff_imp]
  intro h
  by_contra hc
  rw [BitVec.getLsbD_of_ge x i (by omega)] at h
  cases h

theorem oneBits_sorted (x : BitVec w) : (oneBits x).Pairwise (· < ·) :=
  List.Pairwise.filter _ List.pairwise_lt_range

theorem oneBits_eq_nil {x : BitVec w} : oneBits x = [] ↔ x = 0 := by
  constructor
  · intro h
    apply BitVec.eq_of_getLsbD_eq
    intro i hi
    have : i ∉ oneBits x := by rw [h]; simp
    rw [mem_oneBits] at this
    simpa using this
  · rintro rfl
    rw [List.eq_nil_iff_forall_not_mem]
    intro i
    rw [mem_oneBits]
    simp

theorem findIdx_range_filter (w : Nat) (p : Nat → Bool) (i : Nat) (l : List Nat)
    (h : (List.range w).filter p = i :: l) : (List.range w).findIdx p = i := by
  have hi : i ∈ (List.range w).filter p := by rw [h]; simp
  rw [List.mem_filter, List.mem_range] at hi
  rw [List.findIdx_eq (by simpa using hi.1)]
  refine ⟨by simpa using hi.2, ?_⟩
  intro j hj
  simp only [List.getElem_range]
  by_contra hc
  have hm : j ∈ (List.range w).filter p := by
    rw [List.mem_filter, List.mem_range]; exact ⟨by omega, by simpa using hc⟩
  have hs : ((List.range w).filter p).Pairwise (· < ·) := List.Pairwise.filter _ List.pairwise_lt_range
  rw [h] at hm hs
  rw [List.pairwise_cons] at hs
  rcases List.mem_cons.mp hm with e | e
  · omega
  · have := hs.1 j e; omega

/-- `bit_count` is the number of one bits; `bit_peek` the lowest one, or -1. -/
theorem C51_count_peek (x : BitVec w) :
    bitCount x = (oneBits x).length ∧
    (x = 0 → bitPeek x = -1) ∧
    (x ≠ 0 → ∃ i : Nat, bitPeek x = i ∧ x.getLsbD i = true ∧ ∀ j < i, x.getLsbD j = false) := by
  refine ⟨by simp [bitCount, popcount, oneBits, List.countP_eq_length_filter], fun h => by simp [bitPeek, h], ?_⟩
  intro h
  have hne : oneBits x ≠ [] := fun e => h (oneBits_eq_nil.mp e)
  obtain ⟨i, l, hil⟩ := List.exists_cons_of_ne_nil hne
  refine ⟨i, ?_, ?_, ?_⟩
  · simp only [bitPeek, if_neg h, countrZero]
    rw [findIdx_range_filter w _ i l hil]
  · rw [← mem_oneBits, hil]; simp
  · intro j hj
    by_contra hc
    have hm : j ∈ oneBits x := mem_oneBits.mpr (by simpa using hc)
    have hs := oneBits_sorted x
    rw [hil] at hm hs
    rw [List.pairwise_cons] at hs
    rcases List.mem_cons.mp hm with e | e
    · omega
    · have := hs.1 j e; omega

theorem getLsbD_bit {w : Nat} (i j : Nat) (hi : i < w) : (1#w <<< i).getLsbD j = decide (i = j) := by
  by_cases h : i = j
  · subst h; simp [hi]
  · simp [h]
    omega

/-- One call of `bit_pop` removes exactly the lowest one bit and returns its position. -/
theorem C51_pop (x : BitVec w) :
    (x = 0 → bitPop x = (-1, x)) ∧
    (∀ i l, oneBits x = i :: l → (bitPop x).1 = i ∧ oneBits (bitPop x).2 = l) := by
  refine ⟨fun h => by simp [bitPop, h], ?_⟩
  intro i l hil
  have hx : x ≠ 0 := by intro h; rw [oneBits_eq_nil.mpr h] at hil; cases hil
  have hpk : bitPeek x = i := by
    simp only [bitPeek, if_neg hx, countrZero]
    rw [findIdx_range_filter w _ i l hil]
  have hset : x.getLsbD i = true := by rw [← mem_oneBits, hil]; simp
  have hiw : i < w := by
    by_contra hc
    rw [BitVec.getLsbD_of_ge x i (by omega)] at hset; cases hset
  have hpop : bitPop x = ((i : Int), x ^^^ (1#w <<< i)) := by
    unfold bitPop
    rw [if_neg hx, hpk]
    rfl
  rw [hpop]
  refine ⟨rfl, ?_⟩
  have hs := oneBits_sorted x
  rw [hil, List.pairwise_cons] at hs
  have hp : (fun j => (x ^^^ 1#w <<< i).getLsbD j) = fun j => (x.getLsbD j && decide (j ≠ i)) := by
    funext j
    rw [BitVec.getLsbD_xor, getLsbD_bit i j hiw]
    by_cases h : i = j
    · subst h; simp [hset]
    · simp [h, Ne.symm h]
  unfold oneBits
  rw [hp]
  rw [show (fun j => (x.getLsbD j && decide (j ≠ i))) = (fun j => (decide (j ≠ i) && x.getLsbD j)) from by
    funext j; rw [Bool.and_comm]]
  rw [← List.filter_filter]
  show List.filter (fun j => decide (j ≠ i)) (oneBits x) = l
  rw [hil, List.filter_cons]
  simp only [ne_eq, not_true_eq_false, decide_false, Bool.false_eq_true, if_false]
  rw [List.filter_eq_self]
  intro j hj
  have := hs.1 j hj
  simp; omega

/-- Popping until -1 is returned yields every one bit exactly once, in increasing order, and empties the set; `w + 1`
calls always suffice. -/
theorem C51_drain (x : BitVec w) (fuel : Nat) (h : (oneBits x).length < fuel) :
    drain fuel x = ((oneBits x).map Int.ofNat, 0) := by
  induction fuel generalizing x with
  | zero => omega
  | succ fuel ih =>
      cases hx : oneBits x with
      | nil =>
          have h0 := oneBits_eq_nil.mp hx
          have := (C51_pop x).1 h0
          rw [drain, this]
          simp [h0]
      | cons i l =>
          obtain ⟨h1, h2⟩ := (C51_pop x).2 i l hx
          have hl : (oneBits (bitPop x).2).length < fuel := by rw [h2]; rw [hx] at h; simp at h; omega
          have hne : ¬((bitPop x).1 = -1) := by rw [h1]; omega
          simp only [drain, hne, if_false, ih _ hl, h1, h2, List.map_cons]
          rfl

theorem C51_drain_fuel (x : BitVec w) : (oneBits x).length < w + 1 := by
  have := List.length_filter_le (fun i => x.getLsbD i) (List.range w)
  simp [oneBits] at *; omega

example : drain 9 (0b10110010#8) = ([1, 4, 5, 7], 0) := by decide

/-! ## C53

The specification: a partial map from edges to vertices. -/

/-- The vertex stored for edge `e`, if any. -/
def NodeV.abs (n : NodeV) (e : Nat) : Option Int :=
  if n.hasVertex e then n.vis[((oneBits n.intersections).filter (· < e)).length]? else none

/-- A node reachable by insertions: one packed vertex for each bit. -/
def NodeV.Ok (n : NodeV) : Prop := n.vis.length = (oneBits n.intersections).length ∧ ∀ e ∈ oneBits n.intersections, e < 14

theorem hasVertex_iff (n : NodeV) (e : Nat) (he : e < 16) : n.hasVertex e = n.intersections.getLsbD e := by
  unfold NodeV.hasVertex edgeBit
  by_cases h : n.intersections.getLsbD e = true
  · rw [h]
    have : n.intersections &&& 1#16 <<< e ≠ 0 := by
      intro hc
      have h2 := congrArg (fun v => BitVec.getLsbD v e) hc
      simp [BitVec.getLsbD_and, getLsbD_bit e e he, h] at h2
    simpa using this
  · have h' : n.intersections.getLsbD e = false := by simpa using h
    rw [h']
    have : n.intersections &&& 1#16 <<< e = 0 := by
      apply BitVec.eq_of_getLsbD_eq
      intro i hi
      rw [BitVec.getLsbD_and, getLsbD_bit e i he]
      by_cases hh : e = i
      · subst hh; simp [h']
      · simp [hh]
    simp [this]

theorem getLsbD_mask (e i : Nat) (he : e < 16) (hi : i < 16) : (edgeBit e - 1).getLsbD i = decide (i < e) := by
  have : ∀ (e i : Fin 16), (edgeBit e - 1).getLsbD i = decide (i.val < e.val) := by decide
  exact this ⟨e, he⟩ ⟨i, hi⟩

theorem popcount_mask (x : BitVec 16) (e : Nat) (he : e < 16) :
    popcount (x &&& (edgeBit e - 1)) = ((oneBits x).filter (· < e)).length := by
  unfold popcount oneBits
  rw [List.countP_eq_length_filter, List.filter_filter]
  congr 1
  apply List.filter_congr
  intro i hi
  rw [List.mem_range] at hi
  rw [BitVec.getLsbD_and, getLsbD_mask e i he hi, Bool.and_comm]

/-- Inserting a number into an increasing list that does not contain it. -/
theorem filter_or (x : BitVec 16) (e : Nat) (he : e < 16) :
    oneBits (x ||| edgeBit e) = (oneBits x).filter (· < e) ++ e :: (oneBits x).filter (fun i => e < i) := by
  have hs : ((oneBits x).filter (· < e) ++ e :: (oneBits x).filter (fun i => e < i)).Pairwise (· < ·) := by
    rw [List.pairwise_append]
    refine ⟨List.Pairwise.filter _ (oneBits_sorted x), ?_, ?_⟩
    · rw [List.pairwise_cons]
      refine ⟨?_, List.Pairwise.filter _ (oneBits_sorted x)⟩
      intro a ha
      simpa using (List.mem_filter.mp ha).2
    · intro a ha b hb
      have h1 : a < e := by simpa using (List.mem_filter.mp ha).2
      rcases List.mem_cons.mp hb with rfl | hb
      · exact h1
      · have h2 : e < b := by simpa using (List.mem_filter.mp hb).2
        omega
  have hp : (oneBits (x ||| edgeBit e)).Perm
      ((oneBits x).filter (· < e) ++ e :: (oneBits x).filter (fun i => e < i)) := by
    rw [List.perm_ext_iff_of_nodup ((oneBits_sorted _).imp (fun h => Nat.ne_of_lt h))
      (hs.imp (fun h => Nat.ne_of_lt h))]
    intro i
    simp only [mem_oneBits, BitVec.getLsbD_or, edgeBit, List.mem_append, List.mem_cons, List.mem_filter,
      getLsbD_bit e i he, decide_eq_true_eq, Bool.or_eq_true]
    constructor
    · rintro (h | h)
      · rcases Nat.lt_trichotomy i e with hh | hh | hh
        · exact Or.inl ⟨h, hh⟩
        · exact Or.inr (Or.inl hh)
        · exact Or.inr (Or.inr ⟨h, hh⟩)
      · exact Or.inr (Or.inl h.symm)
    · rintro (h | h | h)
      · exact Or.inl h.1
      · exact Or.inr h.symm
      · exact Or.inl h.1
  exact hp.eq_of_pairwise (fun a b _ _ h1 h2 => absurd h1 (by omega)) (oneBits_sorted _) hs

/-- The vertex storage refines a map: a new node is the empty map; inserting a vertex on a free edge adds exactly that
entry (and keeps all the others); `has_vertex` and `vertex` look it up, and `vertex` never throws for a stored edge. -/
theorem C53_node_is_map (n : NodeV) (h : n.Ok) :
    (∀ e, NodeV.new.abs e = none) ∧
    (∀ e < 14, (n.hasVertex e = true ↔ ∃ v, n.abs e = some v) ∧ (∀ v, n.abs e = some v → n.vertex e = .ok v)) ∧
    (∀ e < 14, ∀ vi, n.hasVertex e = false →
      (n.insertVertex vi e).Ok ∧ ∀ e' < 14, (n.insertVertex vi e).abs e' = if e' = e then some vi else n.abs e') := by
  obtain ⟨hl, hb⟩ := h
  refine ⟨?_, ?_, ?_⟩
  · intro e; simp [NodeV.abs, NodeV.new, NodeV.hasVertex]
  · intro e he
    have hlt : n.hasVertex e = true → ((oneBits n.intersections).filter (· < e)).length < n.vis.length := by
      intro hv
      rw [hasVertex_iff n e (by omega), ← mem_oneBits] at hv
      rw [hl]
      apply lt_of_le_of_ne (List.length_filter_le _ _)
      intro heq
      rw [List.length_filter_eq_length_iff] at heq
      have := heq e hv
      simp at this
    constructor
    · constructor
      · intro hv
        refine ⟨n.vis[((oneBits n.intersections).filter (· < e)).length]'(hlt hv), ?_⟩
        simp only [NodeV.abs, hv, if_true]
        exact List.getElem?_eq_getElem _
      · rintro ⟨v, hv⟩
        by_contra hc
        simp [NodeV.abs, hc] at hv
    · intro v hv
      have hh : n.hasVertex e = true := by by_contra hc; simp [NodeV.abs, hc] at hv
      simp only [NodeV.abs, hh, if_true] at hv
      simp only [NodeV.vertex, popcount_mask n.intersections e (by omega), hv]
  · intro e he vi hfree
    have hni : e ∉ oneBits n.intersections := by
      rw [mem_oneBits, ← hasVertex_iff n e (by omega), hfree]; simp
    have hsplit : oneBits n.intersections =
        (oneBits n.intersections).filter (· < e) ++ (oneBits n.intersections).filter (fun i => e < i) := by
      have hs := oneBits_sorted n.intersections
      have hs' : ((oneBits n.intersections).filter (· < e) ++ (oneBits n.intersections).filter (fun i => e < i)).Pairwise
          (· < ·) := by
        rw [List.pairwise_append]
        refine ⟨List.Pairwise.filter _ hs, List.Pairwise.filter _ hs, ?_⟩
        intro a ha b hb
        have h1 : a < e := by simpa using (List.mem_filter.mp ha).2
        have h2 : e < b := by simpa using (List.mem_filter.mp hb).2
        omega
      refine List.Perm.eq_of_pairwise (fun a b _ _ h1 h2 => absurd h1 (by omega)) hs hs' ?_
      rw [List.perm_ext_iff_of_nodup (hs.imp (fun h => Nat.ne_of_lt h)) (hs'.imp (fun h => Nat.ne_of_lt h))]
      intro i
      simp only [List.mem_append, List.mem_filter, decide_eq_true_eq]
      constructor
      · intro hi
        rcases Nat.lt_trichotomy i e with hh | hh | hh
        · exact Or.inl ⟨hi, hh⟩
        · exact absurd (hh ▸ hi) hni
        · exact Or.inr ⟨hi, hh⟩
      · rintro (h | h) <;> exact h.1
    have hones := filter_or n.intersections e (by omega)
    have hpos : popcount ((n.intersections ||| edgeBit e) &&& (edgeBit e - 1)) =
        ((oneBits n.intersections).filter (· < e)).length := by
      rw [popcount_mask _ e (by omega), hones, List.filter_append, List.filter_cons]
      simp only [lt_irrefl, decide_false, Bool.false_eq_true, if_false, List.filter_filter]
      have : (List.filter (fun a => decide (a < e) && decide (e < a)) (oneBits n.intersections)) = [] := by
        rw [List.filter_eq_nil_iff]; intro a _; simp; omega
      simp [this]
    set A := (oneBits n.intersections).filter (· < e) with hA
    set B := (oneBits n.intersections).filter (fun i => e < i) with hB
    have hAlen : A.length ≤ n.vis.length := by
      rw [hl]; exact List.length_filter_le _ _
    have hvis : (n.insertVertex vi e).vis = n.vis.insertIdx A.length vi := by
      simp only [NodeV.insertVertex, hpos]
    have hint : (n.insertVertex vi e).intersections = n.intersections ||| edgeBit e := rfl
    refine ⟨⟨?_, ?_⟩, ?_⟩
    · rw [hvis, hint, hones, List.length_insertIdx, if_pos hAlen, hl]
      conv_lhs => rw [hsplit]
      simp; omega
    · intro i hi
      rw [hint, hones] at hi
      rcases List.mem_append.mp hi with h | h
      · exact hb i (List.mem_filter.mp h).1
      · rcases List.mem_cons.mp h with rfl | h
        · exact he
        · exact hb i (List.mem_filter.mp h).1
    · intro e' he'
      have hhas : (n.insertVertex vi e).hasVertex e' = (n.hasVertex e' || decide (e = e')) := by
        rw [hasVertex_iff _ e' (by omega), hasVertex_iff _ e' (by omega), hint, BitVec.getLsbD_or]
        rw [show edgeBit e = 1#16 <<< e from rfl, getLsbD_bit e e' (by omega)]
      simp only [NodeV.abs, hhas, hvis, hint, hones]
      by_cases heq : e' = e
      · subst heq
        have h1 : (List.filter (fun x => decide (x < e')) (A ++ e' :: B)).length = A.length := by
          rw [List.filter_append, List.filter_cons]
          simp only [lt_irrefl, decide_false, Bool.false_eq_true, if_false]
          have : List.filter (fun x => decide (x < e')) B = [] := by
            rw [List.filter_eq_nil_iff]; intro a ha
            have := (List.mem_filter.mp ha).2
            simp at this ⊢; omega
          have h2 : List.filter (fun x => decide (x < e')) A = A := by
            rw [List.filter_eq_self]; intro a ha; exact (List.mem_filter.mp ha).2
          rw [this, h2]; simp
        simp only [decide_true, Bool.or_true, if_true, h1]
        rw [List.getElem?_insertIdx_self, if_pos hAlen]
      · have hd : decide (e = e') = false := by simp; omega
        simp only [hd, Bool.or_false, if_neg heq]
        by_cases hv : n.hasVertex e' = true
        · simp only [hv, if_true]
          have hmem : e' ∈ oneBits n.intersections := by
            rw [mem_oneBits, ← hasVertex_iff n e' (by omega)]; exact hv
          rcases Nat.lt_or_gt_of_ne heq with hlt | hgt
          · -- before the inserted one
            have h1 : (List.filter (fun x => decide (x < e')) (A ++ e :: B)).length =
                (List.filter (fun x => decide (x < e')) (oneBits n.intersections)).length := by
              conv_rhs => rw [hsplit]
              rw [List.filter_append, List.filter_cons, List.filter_append]
              have : decide (e < e') = false := by simp; omega
              simp [this]
            have h2 : (List.filter (fun x => decide (x < e')) (oneBits n.intersections)).length < A.length := by
              have : (List.filter (fun x => decide (x < e')) (oneBits n.intersections)) =
                  List.filter (fun x => decide (x < e')) A := by
                rw [hA, List.filter_filter]
                apply List.filter_congr
                intro a _
                by_cases h : a < e' <;> simp [h]
                omega
              rw [this]
              apply lt_of_le_of_ne (List.length_filter_le _ _)
              intro hh
              rw [List.length_filter_eq_length_iff] at hh
              have := hh e' (List.mem_filter.mpr ⟨hmem, by simpa using hlt⟩)
              simp at this
            rw [h1, List.getElem?_insertIdx_of_lt h2]
          · have h1 : (List.filter (fun x => decide (x < e')) (A ++ e :: B)).length =
                (List.filter (fun x => decide (x < e')) (oneBits n.intersections)).length + 1 := by
              conv_rhs => rw [hsplit]
              rw [List.filter_append, List.filter_cons, List.filter_append]
              have : decide (e < e') = true := by simp; omega
              simp [this]; omega
            have h2 : A.length < (List.filter (fun x => decide (x < e')) (oneBits n.intersections)).length + 1 := by
              have : A = List.filter (fun x => decide (x < e)) (List.filter (fun x => decide (x < e')) (oneBits n.intersections)) := by
                rw [hA, List.filter_filter]
                apply List.filter_congr
                intro a _
                by_cases h : a < e <;> simp [h]
                omega
              have h3 := List.length_filter_le (fun x => decide (x < e)) (List.filter (fun x => decide (x < e')) (oneBits n.intersections))
              rw [← this] at h3; omega
            rw [h1, List.getElem?_insertIdx_of_gt h2]
            rfl
        · simp [hv]

example : ((NodeV.new.insertVertex 7 5).insertVertex 3 2).vertex 5 = .ok 7 ∧
    ((NodeV.new.insertVertex 7 5).insertVertex 3 2).vertex 2 = .ok 3 ∧
    ((NodeV.new.insertVertex 7 5).insertVertex 3 2).vertex 1 ≠ .throws .invalidArgument := by decide

theorem C53_reachable (ops : List (Int × Nat)) (hops : ∀ o ∈ ops, o.2 < 14) (hnd : (ops.map Prod.snd).Nodup) :
    (ops.foldl (fun n o => n.insertVertex o.1 o.2) NodeV.new).Ok ∧
    ∀ e < 14, (ops.foldl (fun n o => n.insertVertex o.1 o.2) NodeV.new).abs e =
      (ops.find? (fun o => o.2 = e)).map Prod.fst := by
  have gen : ∀ (ops : List (Int × Nat)) (n : NodeV), n.Ok → (∀ o ∈ ops, o.2 < 14) → (ops.map Prod.snd).Nodup →
      (∀ o ∈ ops, n.hasVertex o.2 = false) →
      (ops.foldl (fun n o => n.insertVertex o.1 o.2) n).Ok ∧
      ∀ e < 14, (ops.foldl (fun n o => n.insertVertex o.1 o.2) n).abs e =
        ((ops.find? (fun o => o.2 = e)).map Prod.fst).or (n.abs e) := by
    intro ops
    induction ops with
    | nil => intro n hn _ _ _; exact ⟨hn, fun e _ => by simp⟩
    | cons o ops ih =>
        intro n hn h1 h2 h3
        obtain ⟨hok, habs⟩ := (C53_node_is_map n hn).2.2 o.2 (h1 o (by simp)) o.1 (h3 o (by simp))
        rw [List.map_cons, List.nodup_cons] at h2
        have h3' : ∀ p ∈ ops, (n.insertVertex o.1 o.2).hasVertex p.2 = false := by
          intro p hp
          have hne : p.2 ≠ o.2 := by
            intro h; apply h2.1; rw [← h]; exact List.mem_map_of_mem hp
          have hp14 := h1 p (by simp [hp])
          have hA := habs p.2 hp14
          rw [if_neg hne] at hA
          by_contra hc
          have hc' : (n.insertVertex o.1 o.2).hasVertex p.2 = true := by simpa using hc
          obtain ⟨v, hv⟩ := ((C53_node_is_map _ hok).2.1 p.2 hp14).1.mp hc'
          rw [hA] at hv
          have := ((C53_node_is_map n hn).2.1 p.2 hp14).1.mpr ⟨v, hv⟩
          rw [h3 p (by simp [hp])] at this; cases this
        obtain ⟨r1, r2⟩ := ih _ hok (fun p hp => h1 p (by simp [hp])) h2.2 h3'
        refine ⟨r1, ?_⟩
        intro e he
        rw [List.foldl_cons, r2 e he, habs e he, List.find?_cons]
        by_cases heq : o.2 = e
        · have : ops.find? (fun p => decide (p.2 = e)) = none := by
            rw [List.find?_eq_none]
            intro p hp
            simp only [decide_eq_true_eq]
            intro hpe
            apply h2.1; rw [heq, ← hpe]; exact List.mem_map_of_mem hp
          simp [heq, this]
        · have : ¬(e = o.2) := fun h => heq h.symm
          simp [heq, this]
  have := gen ops NodeV.new ⟨rfl, by decide⟩ hops hnd (fun o _ => by simp [NodeV.hasVertex, NodeV.new])
  refine ⟨this.1, ?_⟩
  intro e he
  rw [this.2 e he]
  simp [NodeV.abs, NodeV.hasVertex, NodeV.new]

end Verif.Bits
