import Verif.Lemmas.Lattice
import Verif.Props.Bits

/-! # The node list and the vertices of a lattice -/

namespace Verif.Lattice

open Verif Bits

theorem mapO_ok {f : α → Outcome β} {g : α → β} : ∀ {xs : List α}, (∀ x ∈ xs, f x = .ok (g x)) → mapO f xs = .ok (xs.map g)
  | [], _ => rfl
  | x :: xs, h => by
      simp only [mapO, h x (by simp), Outcome.ok_bind, mapO_ok (xs := xs) (fun y hy => h y (by simp [hy])), Outcome.pure_eq, List.map_cons]

/-- the keys of a node list -/
def keys (nl : NodeList) : List LC := nl.map Prod.fst

theorem ptr_cons (p : LC × Node) (nl : NodeList) (lc : LC) :
    NodeList.ptr (p :: nl) lc = if p.1 = lc then some p.2 else NodeList.ptr nl lc := by
  unfold NodeList.ptr
  rw [List.find?_cons]
  by_cases h : p.1 = lc
  · simp [h]
  · have : (p.1 == lc) = false := by simpa using h
    rw [this]
    simp [h]

theorem ptr_nil (lc : LC) : NodeList.ptr [] lc = none := rfl

theorem ptr_isSome {nl : NodeList} {lc : LC} : (nl.ptr lc).isSome = true ↔ lc ∈ keys nl := by
  induction nl with
  | nil => simp [ptr_nil, keys]
  | cons p nl ih =>
    rw [ptr_cons]
    by_cases h : p.1 = lc
    · simp [h, keys]
    · rw [if_neg h, ih]
      simp only [keys, List.map_cons, List.mem_cons]
      constructor
      · exact Or.inr
      · rintro (e | e)
        · exact absurd e.symm h
        · exact e

theorem has_iff {nl : NodeList} {lc : LC} : nl.has lc = true ↔ lc ∈ keys nl := ptr_isSome

theorem ptr_none {nl : NodeList} {lc : LC} : nl.ptr lc = none ↔ lc ∉ keys nl := by
  rw [← ptr_isSome, Bool.not_eq_true, Option.isSome_eq_false_iff, Option.isNone_iff_eq_none]

theorem ptr_some_mem {nl : NodeList} {lc : LC} {n : Node} (h : nl.ptr lc = some n) : lc ∈ keys nl := by
  rw [← ptr_isSome, h]; rfl

theorem ptr_exists {nl : NodeList} {lc : LC} (h : lc ∈ keys nl) : ∃ n, nl.ptr lc = some n := by
  rw [← ptr_isSome] at h
  exact Option.isSome_iff_exists.1 h

theorem ptr_mem {nl : NodeList} (hn : (keys nl).Nodup) {lc : LC} {n : Node} : nl.ptr lc = some n ↔ (lc, n) ∈ nl := by
  induction nl with
  | nil => simp [ptr_nil]
  | cons p nl ih =>
    simp only [keys, List.map_cons, List.nodup_cons] at hn
    rw [ptr_cons, List.mem_cons]
    by_cases h : p.1 = lc
    · rw [if_pos h]
      constructor
      · intro e
        left
        rw [Option.some.injEq] at e
        rw [← h, ← e]
      · rintro (e | e)
        · rw [← e]
        · exact absurd (h ▸ List.mem_map_of_mem e) hn.1
    · rw [if_neg h, ih hn.2]
      constructor
      · exact Or.inr
      · rintro (e | e)
        · exact absurd (by rw [← e]) h
        · exact e

theorem at_eq {nl : NodeList} {lc : LC} {n : Node} (h : nl.ptr lc = some n) : nl.at lc = .ok n := by
  simp [NodeList.at, h]

theorem keys_upd (nl : NodeList) (lc : LC) (f : Node → Node) : keys (nl.upd lc f) = keys nl := by
  unfold keys NodeList.upd
  rw [List.map_map]
  apply List.map_congr_left
  intro p _
  simp only [Function.comp_apply]
  split <;> rfl

theorem ptr_upd (nl : NodeList) (lc lc' : LC) (f : Node → Node) :
    (nl.upd lc f).ptr lc' = if lc' = lc then (nl.ptr lc').map f else nl.ptr lc' := by
  induction nl with
  | nil => simp [NodeList.upd, ptr_nil]
  | cons p nl ih =>
    have e : NodeList.upd (p :: nl) lc f = (if p.1 == lc then (p.1, f p.2) else p) :: NodeList.upd nl lc f := rfl
    rw [e, ptr_cons, ptr_cons, ih]
    by_cases h : p.1 = lc
    · simp only [h, beq_self_eq_true, if_true]
      by_cases h2 : lc = lc'
      · simp [h2]
      · simp [h2, Ne.symm h2]
    · have : (p.1 == lc) = false := by simpa using h
      simp only [this]
      by_cases h2 : p.1 = lc'
      · have : lc' ≠ lc := by rw [← h2]; exact h
        simp [h2, this]
      · simp [h2]

theorem keys_erase (nl : NodeList) (lc : LC) : keys (nl.erase lc) = (keys nl).filter (fun x => !(x == lc)) := by
  unfold keys NodeList.erase
  rw [List.filter_map]
  rfl

theorem ptr_erase (nl : NodeList) (lc lc' : LC) : (nl.erase lc).ptr lc' = if lc' = lc then none else nl.ptr lc' := by
  induction nl with
  | nil => simp [NodeList.erase, ptr_nil]
  | cons p nl ih =>
    unfold NodeList.erase at ih ⊢
    rw [List.filter_cons]
    by_cases h : p.1 = lc
    · have : (p.1 == lc) = true := by simpa using h
      rw [this, ptr_cons, h]
      simp only [Bool.not_true, Bool.false_eq_true, if_false, ih]
      by_cases h2 : lc' = lc
      · simp [h2]
      · simp [h2, Ne.symm h2]
    · have : (p.1 == lc) = false := by simpa using h
      rw [this]
      simp only [Bool.not_false, if_true]
      rw [ptr_cons, ptr_cons, ih]
      by_cases h2 : p.1 = lc'
      · have : lc' ≠ lc := by rw [← h2]; exact h
        simp [h2, this]
      · simp [h2]

theorem keys_emplace (nl : NodeList) (lc : LC) (n : Node) : keys (nl.emplace lc n) = if lc ∈ keys nl then keys nl else keys nl ++ [lc] := by
  unfold NodeList.emplace
  by_cases h : lc ∈ keys nl
  · rw [if_pos (has_iff.2 h), if_pos h]
  · rw [if_neg (by rw [has_iff]; exact h), if_neg h]
    simp [keys]

theorem ptr_append (nl nl' : NodeList) (lc : LC) : (NodeList.ptr (nl ++ nl') lc) = (nl.ptr lc).or (NodeList.ptr nl' lc) := by
  induction nl with
  | nil => simp [ptr_nil]
  | cons p nl ih =>
    rw [List.cons_append, ptr_cons, ptr_cons, ih]
    by_cases h : p.1 = lc <;> simp [h]

theorem ptr_emplace (nl : NodeList) (lc lc' : LC) (n : Node) :
    (nl.emplace lc n).ptr lc' = if lc' = lc ∧ lc ∉ keys nl then some n else nl.ptr lc' := by
  unfold NodeList.emplace
  by_cases h : lc ∈ keys nl
  · rw [if_pos (has_iff.2 h), if_neg (by simp [h])]
  · rw [if_neg (by rw [has_iff]; exact h), ptr_append, ptr_cons, ptr_nil]
    by_cases h2 : lc = lc'
    · subst h2
      rw [if_pos rfl, if_pos ⟨rfl, h⟩, ptr_none.2 h]
      rfl
    · rw [if_neg h2, if_neg (by rintro ⟨e, -⟩; exact h2 e.symm)]
      cases nl.ptr lc' <;> rfl

/-! ## Edges -/

theorem opp_lt {e : Nat} (h : e < 14) : oppositeEdge e < 14 := by
  have : ∀ e < 14, oppositeEdge e < 14 := by decide
  exact this e h

theorem opp_opp {e : Nat} (h : e < 14) : oppositeEdge (oppositeEdge e) = e := by
  have : ∀ e < 14, oppositeEdge (oppositeEdge e) = e := by decide
  exact this e h

theorem delta_opp {e : Nat} (h : e < 14) : delta e + delta (oppositeEdge e) = ⟨0, 0, 0⟩ := by
  have : ∀ e < 14, delta e + delta (oppositeEdge e) = ⟨0, 0, 0⟩ := by decide
  exact this e h

theorem delta_inj {e e' : Nat} (h : e < 14) (h' : e' < 14) (hd : delta e = delta e') : e = e' := by
  have : ∀ e < 14, ∀ e' < 14, delta e = delta e' → e = e' := by decide
  exact this e h e' h' hd

theorem neighbor_opp {e : Nat} (h : e < 14) (lc : LC) : neighbor (neighbor lc e) (oppositeEdge e) = lc := by
  unfold neighbor
  rw [add_assoc', delta_opp h, add_zero']

theorem neighbor_inj {lc : LC} {e e' : Nat} (h : e < 14) (h' : e' < 14) (hn : neighbor lc e = neighbor lc e') : e = e' :=
  delta_inj h h' (add_right_cancel' hn)

theorem delta_ne {e : Nat} (h : e < 14) : delta e ≠ ⟨0, 0, 0⟩ := by
  have : ∀ e < 14, delta e ≠ ⟨0, 0, 0⟩ := by decide
  exact this e h

theorem neighbor_ne {lc : LC} {e : Nat} (h : e < 14) : neighbor lc e ≠ lc := by
  intro hn
  apply delta_ne h
  apply add_right_cancel' (c := lc)
  rw [add_zero']
  exact hn

theorem less_irrefl (a : LC) : a.less a = false := by simp [LC.less]

theorem less_total {a b : LC} (h : a ≠ b) : a.less b = true ∨ b.less a = true := by
  by_contra hc
  apply h
  simp only [LC.less, Bool.or_eq_true, Bool.and_eq_true, decide_eq_true_eq, not_or, not_and] at hc
  apply LC.ext' <;> omega

theorem less_asymm {a b : LC} (h : a.less b = true) : b.less a = false := by
  by_contra hc
  simp only [LC.less, Bool.or_eq_true, Bool.and_eq_true, decide_eq_true_eq, Bool.not_eq_false] at h hc
  omega

theorem mkEdge_comm (a b : LC) : mkEdge a b = mkEdge b a := by
  unfold mkEdge
  by_cases h : a = b
  · rw [h]
  · rcases less_total h with h1 | h1
    · rw [if_pos h1, if_neg (by rw [less_asymm h1]; simp)]
    · rw [if_neg (by rw [less_asymm h1]; simp), if_pos h1]

/-! ## Crossings -/

/-- where the vertex of a crossing is stored -/
def stored (near : LC → LC → Bool) (c : Crossing) : LC × Nat :=
  if near c.lc0 c.lc1 then (c.lc0, c.e) else (c.lc1, oppositeEdge c.e)

/-- the crossing is at the edge `e` of the node `lc` -/
def Touch (c : Crossing) (lc : LC) (e : Nat) : Prop := (c.lc0 = lc ∧ c.e = e) ∨ (c.lc1 = lc ∧ oppositeEdge c.e = e)

/-- a crossing as the program lists them -/
structure GoodCrossing (c : Crossing) : Prop where
  lt : c.e < 14
  nb : c.lc1 = neighbor c.lc0 c.e
  less : c.lc1.less c.lc0 = true

/-- the state of the node at `lc` when `V` are the vertices and `P` the crossings so far -/
structure NodeOk (σ : LC → Bool) (V : List (LC × Nat)) (P : List Crossing) (lc : LC) (n : Node) : Prop where
  neg : n.neg = some (σ lc)
  ok : n.v.Ok
  abs : ∀ e < 14, ∀ v, n.v.abs e = some v ↔ ∃ i : Nat, v = (i : Int) ∧ V[i]? = some (lc, e)
  all : ∀ e, n.v.allIntersections.getLsbD e = true ↔ ∃ c ∈ P, Touch c lc e

/-- what `addCrossing` does to a node -/
def nodeStep (near : LC → LC → Bool) (vi : Int) (c : Crossing) (lc : LC) (n : Node) : Node :=
  let n := if lc = (stored near c).1 then { n with v := n.v.insertVertex vi (stored near c).2 } else n
  let n := if lc = c.lc0 then { n with v := n.v.setIntersection c.e } else n
  if lc = c.lc1 then { n with v := n.v.setIntersection (oppositeEdge c.e) } else n

theorem addCrossing_eq {near : LC → LC → Bool} {l : Lat} {c : Crossing} (h0 : c.lc0 ∈ keys l.nodes) (h1 : c.lc1 ∈ keys l.nodes) :
    ∃ l', l.addCrossing near c = .ok l' ∧ l'.toEval = l.toEval ∧ l'.verts = l.verts ++ [stored near c] ∧ keys l'.nodes = keys l.nodes ∧
      ∀ lc, l'.nodes.ptr lc = (l.nodes.ptr lc).map (nodeStep near l.verts.length c lc) := by
  obtain ⟨n0, e0⟩ := ptr_exists h0
  obtain ⟨n1, e1⟩ := ptr_exists h1
  unfold Lat.addCrossing
  simp only [at_eq e0, at_eq e1, Outcome.ok_bind, Outcome.pure_eq]
  refine ⟨_, rfl, ?_, ?_, ?_, ?_⟩
  · by_cases hn : near c.lc0 c.lc1 = true <;> simp [hn]
  · by_cases hn : near c.lc0 c.lc1 = true <;> simp [hn, stored]
  · by_cases hn : near c.lc0 c.lc1 = true <;> simp [hn, keys_upd]
  · intro lc
    cases hp : l.nodes.ptr lc with
    | none => by_cases hn : near c.lc0 c.lc1 = true <;> simp [hn, ptr_upd, hp]
    | some n =>
      by_cases hn : near c.lc0 c.lc1 = true <;> simp only [hn, if_true, if_false, ptr_upd, hp, Option.map_some, nodeStep, stored, Bool.false_eq_true] <;>
        by_cases a : lc = c.lc0 <;> by_cases b : lc = c.lc1 <;> simp only [a, b, if_true, if_false, Option.map_some] <;> (try split_ifs) <;> simp_all

theorem setIntersection_ok {n : NodeV} {e : Nat} (h : n.Ok) : (n.setIntersection e).Ok := h
theorem setIntersection_abs {n : NodeV} {e : Nat} : (n.setIntersection e).abs = n.abs := rfl
theorem setIntersection_all {n : NodeV} {e e' : Nat} (he : e < 14) :
    (n.setIntersection e).allIntersections.getLsbD e' = (n.allIntersections.getLsbD e' || decide (e = e')) := by
  unfold NodeV.setIntersection edgeBit
  rw [BitVec.getLsbD_or, getLsbD_bit e e' (by omega)]
theorem insertVertex_all {n : NodeV} {vi : Int} {e : Nat} : (n.insertVertex vi e).allIntersections = n.allIntersections := rfl

theorem touch_unique {c : Crossing} (hc : GoodCrossing c) {e e' : Nat} {lc : LC} (h : Touch c lc e) (h' : Touch c lc e') : e = e' := by
  have hne : c.lc0 ≠ c.lc1 := by rw [hc.nb]; exact (neighbor_ne hc.lt).symm
  rcases h with ⟨a, b⟩ | ⟨a, b⟩ <;> rcases h' with ⟨a', b'⟩ | ⟨a', b'⟩
  · rw [← b, ← b']
  · exact absurd (a.trans a'.symm) hne
  · exact absurd (a'.trans a.symm) hne
  · rw [← b, ← b']

theorem nodeStep_ok {σ : LC → Bool} {near : LC → LC → Bool} {V : List (LC × Nat)} {P : List Crossing} {lc : LC} {n : Node} {c : Crossing}
    (hc : GoodCrossing c) (hV : stored near c ∉ V) (h : NodeOk σ V P lc n) :
    NodeOk σ (V ++ [stored near c]) (P ++ [c]) lc (nodeStep near V.length c lc n) := by
  have hne : c.lc0 ≠ c.lc1 := by rw [hc.nb]; exact (neighbor_ne hc.lt).symm
  have hst : (stored near c).2 < 14 := by
    unfold stored
    split
    · exact hc.lt
    · exact opp_lt hc.lt
  have hVget : ∀ (e : Nat) (i : Nat), (V ++ [stored near c])[i]? = some (lc, e) ↔ V[i]? = some (lc, e) ∨ (i = V.length ∧ stored near c = (lc, e)) := by
    intro e i
    rcases Nat.lt_trichotomy i V.length with hi | hi | hi
    · rw [List.getElem?_append_left hi]
      constructor
      · exact Or.inl
      · rintro (h | h)
        · exact h
        · omega
    · subst hi
      rw [List.getElem?_append_right (Nat.le_refl _)]
      simp
    · rw [List.getElem?_eq_none (by simp; omega), List.getElem?_eq_none (by omega)]
      simp
      omega
  -- the insertion
  obtain ⟨m, hm⟩ : ∃ m, m = (if lc = (stored near c).1 then { n with v := n.v.insertVertex V.length (stored near c).2 } else n : Node) := ⟨_, rfl⟩
  have hm1 : m.neg = n.neg := by rw [hm]; split <;> rfl
  have hm2 : m.v.allIntersections = n.v.allIntersections := by rw [hm]; split <;> rfl
  have hm3 : m.v.Ok ∧ ∀ e < 14, ∀ v, m.v.abs e = some v ↔ ∃ i : Nat, v = (i : Int) ∧ (V ++ [stored near c])[i]? = some (lc, e) := by
    by_cases hl : lc = (stored near c).1
    · rw [if_pos hl] at hm
      obtain ⟨-, f2, f3⟩ := C53_node_is_map n.v h.ok
      have hfree : n.v.hasVertex (stored near c).2 = false := by
        by_contra hc'
        rw [Bool.not_eq_false, (f2 _ hst).1] at hc'
        obtain ⟨v, hv⟩ := hc'
        rw [h.abs _ hst] at hv
        obtain ⟨i, -, hi⟩ := hv
        apply hV
        have := List.mem_of_getElem? hi
        rwa [hl] at this
      obtain ⟨g1, g2⟩ := f3 _ hst V.length hfree
      rw [hm]
      refine ⟨g1, ?_⟩
      intro e he v
      simp only
      rw [g2 e he]
      by_cases hee : e = (stored near c).2
      · rw [if_pos hee]
        constructor
        · intro hv
          simp only [Option.some.injEq] at hv
          exact ⟨V.length, hv.symm, (hVget e _).2 (Or.inr ⟨rfl, by rw [hl, hee]⟩)⟩
        · rintro ⟨i, hv, hi⟩
          rcases (hVget e i).1 hi with hi | ⟨hi, -⟩
          · exfalso
            apply hV
            have := List.mem_of_getElem? hi
            rwa [hl, hee] at this
          · rw [hv, hi]
      · rw [if_neg hee, h.abs e he]
        constructor
        · rintro ⟨i, hv, hi⟩
          exact ⟨i, hv, (hVget e i).2 (Or.inl hi)⟩
        · rintro ⟨i, hv, hi⟩
          rcases (hVget e i).1 hi with hi | ⟨-, hs⟩
          · exact ⟨i, hv, hi⟩
          · exact absurd (by rw [hs]) hee
    · rw [if_neg hl] at hm
      rw [hm]
      refine ⟨h.ok, ?_⟩
      intro e he v
      rw [h.abs e he]
      constructor
      · rintro ⟨i, hv, hi⟩
        exact ⟨i, hv, (hVget e i).2 (Or.inl hi)⟩
      · rintro ⟨i, hv, hi⟩
        rcases (hVget e i).1 hi with hi | ⟨-, hs⟩
        · exact ⟨i, hv, hi⟩
        · exact absurd (by rw [hs]) hl
  have hstep : nodeStep near V.length c lc n = (if lc = c.lc1 then
      { (if lc = c.lc0 then { m with v := m.v.setIntersection c.e } else m : Node) with
        v := (if lc = c.lc0 then { m with v := m.v.setIntersection c.e } else m : Node).v.setIntersection (oppositeEdge c.e) }
      else (if lc = c.lc0 then { m with v := m.v.setIntersection c.e } else m)) := by rw [hm]; rfl
  have hall : ∀ e, (n.v.allIntersections.getLsbD e = true ∨ Touch c lc e) ↔ ∃ c' ∈ P ++ [c], Touch c' lc e := by
    intro e
    rw [h.all e]
    simp only [List.mem_append, List.mem_singleton]
    constructor
    · rintro (⟨c', h1, h2⟩ | h1)
      · exact ⟨c', Or.inl h1, h2⟩
      · exact ⟨c, Or.inr rfl, h1⟩
    · rintro ⟨c', h1 | rfl, h2⟩
      · exact Or.inl ⟨c', h1, h2⟩
      · exact Or.inr h2
  rw [hstep]
  by_cases a : lc = c.lc0
  · have b : lc ≠ c.lc1 := by rw [a]; exact hne
    rw [if_pos a, if_neg b]
    refine ⟨by rw [← h.neg, ← hm1], hm3.1, hm3.2, ?_⟩
    intro e
    rw [← hall e, setIntersection_all hc.lt, hm2, Bool.or_eq_true, decide_eq_true_eq]
    apply or_congr Iff.rfl
    constructor
    · intro he; exact Or.inl ⟨a.symm, he⟩
    · rintro (⟨-, he⟩ | ⟨he, -⟩)
      · exact he
      · exact absurd he.symm b
  · by_cases b : lc = c.lc1
    · rw [if_neg a, if_pos b]
      refine ⟨by rw [← h.neg, ← hm1], hm3.1, hm3.2, ?_⟩
      intro e
      rw [← hall e, setIntersection_all (opp_lt hc.lt), hm2, Bool.or_eq_true, decide_eq_true_eq]
      apply or_congr Iff.rfl
      constructor
      · intro he; exact Or.inr ⟨b.symm, he⟩
      · rintro (⟨he, -⟩ | ⟨-, he⟩)
        · exact absurd he.symm a
        · exact he
    · rw [if_neg a, if_neg b]
      refine ⟨by rw [← h.neg, ← hm1], hm3.1, hm3.2, ?_⟩
      intro e
      rw [← hall e, hm2]
      constructor
      · exact Or.inl
      · rintro (he | ⟨he, -⟩ | ⟨he, -⟩)
        · exact he
        · exact absurd he.symm a
        · exact absurd he.symm b

end Verif.Lattice
