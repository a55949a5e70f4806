import Verif.Lemmas.LatticeNodes
import Mathlib.Data.List.Perm.Basic
import Mathlib.Data.List.Perm.Subperm

/-! # Building the node list -/

namespace Verif.Lattice

open Verif Bits

theorem stored_inj {near : LC → LC → Bool} {c c' : Crossing} (hc : GoodCrossing c) (hc' : GoodCrossing c') (h : stored near c = stored near c') :
    c = c' := by
  have h1 : ∀ c : Crossing, GoodCrossing c → Touch c (stored near c).1 (stored near c).2 := by
    intro c _
    unfold stored
    split
    · exact Or.inl ⟨rfl, rfl⟩
    · exact Or.inr ⟨rfl, rfl⟩
  have key : ∀ c c' : Crossing, GoodCrossing c → GoodCrossing c' → ∀ lc e, Touch c lc e → Touch c' lc e → c = c' := by
    rintro ⟨a0, a1, e⟩ ⟨b0, b1, e'⟩ ⟨l1, n1, s1⟩ ⟨l2, n2, s2⟩ lc x t1 t2
    simp only at l1 n1 s1 l2 n2 s2
    subst n1 n2
    rcases t1 with ⟨u, v⟩ | ⟨u, v⟩ <;> rcases t2 with ⟨u', v'⟩ | ⟨u', v'⟩ <;> simp only at u v u' v'
    · subst u v u' v'; rfl
    · exfalso
      subst u v
      rw [← u', ← v', neighbor_opp l2] at s1
      rw [u'] at s1 s2
      rw [← u'] at s1
      have := less_asymm s1
      rw [u'] at this
      rw [s2] at this
      cases this
    · exfalso
      subst u' v'
      rw [← u, ← v, neighbor_opp l1] at s2
      have := less_asymm s2
      rw [s1] at this
      cases this
    · have he : e = e' := by rw [← opp_opp l1, ← opp_opp l2, v, v']
      subst he
      have : a0 = b0 := by rw [← neighbor_opp l1 a0, ← neighbor_opp l1 b0, u, u']
      subst this
      rfl
  exact key c c' hc hc' _ _ (h1 c hc) (by rw [h]; exact h1 c' hc')

/-- the crossings listed for the node `lc` among the nodes `S` -/
def crs (S : LC → Bool) (σ : LC → Bool) (lc : LC) : List Crossing :=
  ((List.range 14).filter (fun e => (neighbor lc e).less lc && S (neighbor lc e) && !(σ lc == σ (neighbor lc e)))).map
    (fun e => ⟨lc, neighbor lc e, e⟩)

theorem mem_crs {S σ : LC → Bool} {lc : LC} {c : Crossing} :
    c ∈ crs S σ lc ↔ c.lc0 = lc ∧ GoodCrossing c ∧ S c.lc1 = true ∧ σ c.lc0 ≠ σ c.lc1 := by
  unfold crs
  rw [List.mem_map]
  constructor
  · rintro ⟨e, he, rfl⟩
    rw [List.mem_filter, List.mem_range] at he
    simp only [Bool.and_eq_true, Bool.not_eq_true', beq_eq_false_iff_ne, ne_eq] at he
    exact ⟨rfl, ⟨he.1, rfl, he.2.1.1⟩, he.2.1.2, he.2.2⟩
  · rintro ⟨rfl, hg, hs, hσ⟩
    refine ⟨c.e, ?_, ?_⟩
    · rw [List.mem_filter, List.mem_range]
      simp only [Bool.and_eq_true, Bool.not_eq_true', beq_eq_false_iff_ne, ne_eq]
      rw [← hg.nb]
      exact ⟨hg.lt, ⟨hg.less, hs⟩, hσ⟩
    · rw [← hg.nb]

theorem crs_nodup {S σ : LC → Bool} {lc : LC} : (crs S σ lc).Nodup := by
  unfold crs
  apply List.Nodup.map
  · intro e e' h
    simp only [Crossing.mk.injEq] at h
    exact h.2.2
  · exact List.nodup_range.filter _

theorem flatMap_crs_nodup {S σ : LC → Bool} {lcs : List LC} (h : lcs.Nodup) : (lcs.flatMap (crs S σ)).Nodup := by
  rw [List.nodup_flatMap]
  refine ⟨fun _ _ => crs_nodup, ?_⟩
  refine h.imp ?_
  intro a b hab c ha hb
  rw [mem_crs] at ha hb
  exact hab (ha.1.symm.trans hb.1)

theorem flatten_filter {p : Nat → Bool} {f : Nat → α} : ∀ l : List Nat, (l.map (fun e => if p e then [f e] else [])).flatten = (l.filter p).map f
  | [] => rfl
  | e :: l => by
      rw [List.map_cons, List.flatten_cons, flatten_filter l, List.filter_cons]
      by_cases h : p e = true <;> simp [h]

theorem crossingsOf_eq {nl : NodeList} {σ : LC → Bool} (hneg : ∀ lc n, nl.ptr lc = some n → n.neg = some (σ lc)) {lc : LC}
    (h : lc ∈ keys nl) : crossingsOf nl lc = .ok (crs (fun x => decide (x ∈ keys nl)) σ lc) := by
  obtain ⟨n, hn⟩ := ptr_exists h
  have hs : ∀ {n : Node} {b : Bool}, n.neg = some b → n.valueSign = .ok b := by
    intro n b hb; simp [Node.valueSign, hb]
  unfold crossingsOf
  rw [at_eq hn, Outcome.ok_bind, hs (hneg _ _ hn), Outcome.ok_bind]
  rw [mapO_ok (g := fun e => if (neighbor lc e).less lc && decide (neighbor lc e ∈ keys nl) && !(σ lc == σ (neighbor lc e)) then
      [(⟨lc, neighbor lc e, e⟩ : Crossing)] else [])]
  · rw [Outcome.ok_bind, flatten_filter]
    rfl
  · intro e _
    simp only
    by_cases h1 : (neighbor lc e).less lc = true
    · rw [if_neg (by simp [h1])]
      cases h2 : nl.ptr (neighbor lc e) with
      | none =>
        have := ptr_none.1 h2
        simp [this]
      | some n1 =>
        have h3 := ptr_some_mem h2
        simp only
        rw [hs (hneg _ _ h2), Outcome.ok_bind]
        by_cases h4 : (σ lc == σ (neighbor lc e)) = true
        · rw [if_pos h4, h4]; simp
        · rw [if_neg h4]
          simp [h1, h3, h4]
    · rw [if_pos (by simp [h1])]
      simp [h1]

theorem foldO_append {f : σ → α → Outcome σ} : ∀ (l l' : List α) (s : σ), foldO f s (l ++ l') = (foldO f s l).bind (fun s => foldO f s l')
  | [], _, s => rfl
  | x :: l, l', s => by
      rw [List.cons_append]
      show (f s x).bind _ = ((f s x).bind _).bind _
      cases h : f s x with
      | ok s' => exact foldO_append l l' s'
      | throws e => rfl
      | ub => rfl

theorem foldO_flatten {f : σ → α → Outcome σ} : ∀ (ls : List (List α)) (s : σ), foldO (fun s l => foldO f s l) s ls = foldO f s ls.flatten
  | [], _ => rfl
  | l :: ls, s => by
      rw [List.flatten_cons, foldO_append]
      show (foldO f s l).bind _ = _
      cases foldO f s l with
      | ok s' => exact foldO_flatten ls s'
      | throws e => rfl
      | ub => rfl

/-- The lattice after the crossings `P`. -/
structure GInv (σ : LC → Bool) (near : LC → LC → Bool) (l : Lat) (P : List Crossing) : Prop where
  nodup : (keys l.nodes).Nodup
  node : ∀ lc n, l.nodes.ptr lc = some n → NodeOk σ l.verts P lc n
  verts : l.verts = P.map (stored near)
  good : ∀ c ∈ P, GoodCrossing c
  pnodup : P.Nodup

theorem addCrossings {σ : LC → Bool} {near : LC → LC → Bool} : ∀ (Q : List Crossing) {l : Lat} {P : List Crossing} (_ : GInv σ near l P)
    (_ : ∀ c ∈ Q, GoodCrossing c ∧ c.lc0 ∈ keys l.nodes ∧ c.lc1 ∈ keys l.nodes) (_ : (P ++ Q).Nodup),
    ∃ l', foldO (Lat.addCrossing near) l Q = .ok l' ∧ GInv σ near l' (P ++ Q) ∧ keys l'.nodes = keys l.nodes ∧ l'.toEval = l.toEval
  | [], l, P, h, _, _ => ⟨l, rfl, by rwa [List.append_nil], rfl, rfl⟩
  | c :: Q, l, P, h, hQ, hn => by
      obtain ⟨gc, k0, k1⟩ := hQ c (by simp)
      obtain ⟨l', e1, e2, e3, e4, e5⟩ := addCrossing_eq (near := near) k0 k1
      have hmem : c ∉ P := by
        intro hc
        rw [List.nodup_append] at hn
        exact hn.2.2 c hc c (by simp) rfl
      have hV : stored near c ∉ l.verts := by
        rw [h.verts, List.mem_map]
        rintro ⟨c', hc', e⟩
        exact hmem (stored_inj (h.good c' hc') gc e ▸ hc')
      have h' : GInv σ near l' (P ++ [c]) := by
        refine ⟨by rw [e4]; exact h.nodup, ?_, by rw [e3, h.verts, List.map_append]; rfl, ?_, ?_⟩
        · intro lc n hp
          rw [e5, Option.map_eq_some_iff] at hp
          obtain ⟨n0, hp0, rfl⟩ := hp
          rw [e3]
          exact nodeStep_ok gc hV (h.node lc n0 hp0)
        · intro c' hc'
          rw [List.mem_append, List.mem_singleton] at hc'
          rcases hc' with hc' | rfl
          · exact h.good c' hc'
          · exact gc
        · refine List.Nodup.sublist ?_ hn
          exact List.Sublist.append_left (by simp) _
      obtain ⟨l'', f1, f2, f3, f4⟩ := addCrossings Q h' (fun x hx => by
        rw [e4]; exact hQ x (by simp [hx])) (by rw [List.append_assoc]; exact hn)
      refine ⟨l'', ?_, by rw [List.append_assoc] at f2; exact f2, by rw [f3, e4], by rw [f4, e2]⟩
      show (l.addCrossing near c).bind _ = _
      rw [e1]
      exact f1

/-- `generate_vertices` -/
theorem generateVertices_spec {σ : LC → Bool} {near : LC → LC → Bool} {l : Lat} {P : List Crossing} (h : GInv σ near l P) (lcs : List LC)
    (hl : ∀ lc ∈ lcs, lc ∈ keys l.nodes) (hn : (P ++ lcs.flatMap (crs (fun x => decide (x ∈ keys l.nodes)) σ)).Nodup) :
    ∃ l', l.generateVertices near lcs = .ok l' ∧ GInv σ near l' (P ++ lcs.flatMap (crs (fun x => decide (x ∈ keys l.nodes)) σ)) ∧
      keys l'.nodes = keys l.nodes ∧ l'.toEval = l.toEval := by
  unfold Lat.generateVertices
  rw [mapO_ok (g := crs (fun x => decide (x ∈ keys l.nodes)) σ) (fun lc hlc => crossingsOf_eq (fun lc n hp => (h.node lc n hp).neg) (hl lc hlc)),
    Outcome.ok_bind, foldO_flatten]
  rw [show (lcs.map (crs (fun x => decide (x ∈ keys l.nodes)) σ)).flatten = lcs.flatMap (crs (fun x => decide (x ∈ keys l.nodes)) σ) from
    (List.flatMap_def ..).symm]
  refine addCrossings _ h ?_ hn
  intro c hc
  rw [List.mem_flatMap] at hc
  obtain ⟨lc, hlc, hc⟩ := hc
  rw [mem_crs] at hc
  exact ⟨hc.2.1, hc.1 ▸ hl lc hlc, of_decide_eq_true hc.2.2.1⟩

theorem isFree_iff {σ : LC → Bool} {V : List (LC × Nat)} {P : List Crossing} {lc : LC} {n : Node} (h : NodeOk σ V P lc n) :
    n.v.isFree = true ↔ ∀ c ∈ P, ∀ e, ¬ Touch c lc e := by
  unfold NodeV.isFree
  rw [beq_iff_eq]
  constructor
  · intro h0 c hc e ht
    have := (h.all e).2 ⟨c, hc, ht⟩
    rw [h0] at this
    simp at this
  · intro hf
    apply BitVec.eq_of_getLsbD_eq
    intro i hi
    have : ¬ n.v.allIntersections.getLsbD i = true := by
      rw [h.all i]
      rintro ⟨c, hc, ht⟩
      exact hf c hc i ht
    simpa using this

/-- `remove_free_nodes` -/
theorem removeFreeNodes_spec {σ : LC → Bool} {near : LC → LC → Bool} {P : List Crossing} : ∀ (lcs : List LC) {l : Lat} (_ : GInv σ near l P)
    (_ : ∀ lc ∈ lcs, lc ∈ keys l.nodes) (_ : lcs.Nodup),
    ∃ l', l.removeFreeNodes lcs = .ok l' ∧ GInv σ near l' P ∧ l'.toEval = l.toEval ∧
      ∀ lc, lc ∈ keys l'.nodes ↔ lc ∈ keys l.nodes ∧ (lc ∈ lcs → ∃ c ∈ P, ∃ e, Touch c lc e)
  | [], l, h, _, _ => ⟨l, rfl, h, rfl, by simp⟩
  | x :: lcs, l, h, hl, hn => by
      rw [List.nodup_cons] at hn
      obtain ⟨n, hp⟩ := ptr_exists (hl x (by simp))
      have hfree := isFree_iff (h.node x n hp)
      have hstep : l.removeFreeNodes (x :: lcs) =
          Lat.removeFreeNodes (if n.v.isFree then { l with nodes := l.nodes.erase x } else l) lcs := by
        unfold Lat.removeFreeNodes
        simp only [foldO, hp, Outcome.ok_bind]
      rw [hstep]
      by_cases hf : n.v.isFree = true
      · rw [if_pos hf]
        have hk : ∀ lc, lc ∈ keys (l.nodes.erase x) ↔ lc ∈ keys l.nodes ∧ lc ≠ x := by
          intro lc
          rw [keys_erase, List.mem_filter]
          simp
        have h' : GInv σ near { l with nodes := l.nodes.erase x } P := by
          refine ⟨?_, ?_, h.verts, h.good, h.pnodup⟩
          · show (keys (l.nodes.erase x)).Nodup
            rw [keys_erase]; exact h.nodup.filter _
          · intro lc m hm
            have hm' : (l.nodes.erase x).ptr lc = some m := hm
            rw [ptr_erase] at hm'
            split at hm'
            · cases hm'
            · exact h.node lc m hm'
        obtain ⟨l', e1, e2, e3, e4⟩ := removeFreeNodes_spec lcs h' (fun lc hlc => (hk lc).2 ⟨hl lc (by simp [hlc]), by
          rintro rfl; exact hn.1 hlc⟩) hn.2
        refine ⟨l', e1, e2, e3, ?_⟩
        intro lc
        rw [e4, hk lc]
        rw [hfree] at hf
        constructor
        · rintro ⟨⟨a, b⟩, c⟩
          refine ⟨a, fun hm => ?_⟩
          rw [List.mem_cons] at hm
          exact c (hm.resolve_left b)
        · rintro ⟨a, b⟩
          refine ⟨⟨a, ?_⟩, fun hm => b (by simp [hm])⟩
          rintro rfl
          obtain ⟨c, hc, e, ht⟩ := b (by simp)
          exact hf c hc e ht
      · rw [if_neg hf]
        obtain ⟨l', e1, e2, e3, e4⟩ := removeFreeNodes_spec lcs h (fun lc hlc => hl lc (by simp [hlc])) hn.2
        refine ⟨l', e1, e2, e3, ?_⟩
        intro lc
        rw [e4]
        rw [hfree] at hf
        constructor
        · rintro ⟨a, b⟩
          refine ⟨a, fun hm => ?_⟩
          rw [List.mem_cons] at hm
          rcases hm with rfl | hm
          · by_contra hc
            apply hf
            intro c hc' e ht
            exact hc ⟨c, hc', e, ht⟩
          · exact b hm
        · rintro ⟨a, b⟩
          exact ⟨a, fun hm => b (by simp [hm])⟩

end Verif.Lattice
