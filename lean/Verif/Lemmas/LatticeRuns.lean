import Verif.Model.LatticeRuns
import Verif.Lemmas.LatticeMesh

/-! # Filling a lattice from seeds -/

namespace Verif.Lattice

open Verif Bits

/-- evaluated nodes in the box, no vertices yet -/
structure SInv (inBox σ : LC → Bool) (l : Lat) : Prop where
  nodup : (keys l.nodes).Nodup
  ev : l.toEval = []
  verts : l.verts = []
  node : ∀ lc n, l.nodes.ptr lc = some n → n = ⟨some (σ lc), NodeV.new⟩
  box : ∀ lc ∈ keys l.nodes, inBox lc = true

theorem SInv.ginv {inBox σ : LC → Bool} {l : Lat} (h : SInv inBox σ l) (near : LC → LC → Bool) : GInv σ near l [] := by
  refine ⟨h.nodup, ?_, h.verts, by simp, List.nodup_nil⟩
  intro lc n hp
  rw [h.node lc n hp, h.verts]
  exact new_ok (by simp) (by simp)

theorem addNodes_spec {inBox : LC → Bool} : ∀ (lcs : List LC) (l : Lat), ∃ l' added, l.addNodes inBox lcs = (l', added) ∧
    keys l'.nodes = keys l.nodes ++ added ∧ l'.toEval = l.toEval ++ added ∧ l'.verts = l.verts ∧ added.Nodup ∧
    (∀ lc, lc ∈ added ↔ lc ∈ lcs ∧ inBox lc = true ∧ lc ∉ keys l.nodes) ∧
    ∀ lc, l'.nodes.ptr lc = if lc ∈ added then some ⟨none, NodeV.new⟩ else l.nodes.ptr lc
  | [], l => ⟨l, [], rfl, by simp, by simp, rfl, List.nodup_nil, by simp, by simp⟩
  | x :: lcs, l => by
      unfold Lat.addNodes
      by_cases hx : x ∈ keys l.nodes
      · have e1 : l.addNode inBox x = (l, false) := by unfold Lat.addNode; rw [if_pos (has_iff.2 hx)]
        obtain ⟨l', added, h1, h2, h3, h4, h5, h6, h7⟩ := addNodes_spec (inBox := inBox) lcs l
        refine ⟨l', added, by simp only [e1, h1]; rfl, h2, h3, h4, h5, ?_, h7⟩
        intro lc
        rw [h6, List.mem_cons]
        constructor
        · rintro ⟨a, b⟩; exact ⟨Or.inr a, b⟩
        · rintro ⟨rfl | a, b, c⟩
          · exact absurd hx c
          · exact ⟨a, b, c⟩
      · have hh : ¬ l.nodes.has x = true := by rw [has_iff]; exact hx
        by_cases hb : inBox x = true
        · have e1 : l.addNode inBox x = ({ l with nodes := l.nodes.emplace x ⟨none, NodeV.new⟩, toEval := l.toEval ++ [x] }, true) := by
            unfold Lat.addNode Lat.addNodeUnchecked
            rw [if_neg hh]
            simp [hb]
          obtain ⟨l', added, h1, h2, h3, h4, h5, h6, h7⟩ := addNodes_spec (inBox := inBox) lcs
            { l with nodes := l.nodes.emplace x ⟨none, NodeV.new⟩, toEval := l.toEval ++ [x] }
          have hk : keys (l.nodes.emplace x ⟨none, NodeV.new⟩) = keys l.nodes ++ [x] := by rw [keys_emplace, if_neg hx]
          simp only [hk] at h2 h3 h6
          have hxa : x ∉ added := by
            intro hc
            have := ((h6 x).1 hc).2.2
            simp at this
          refine ⟨l', x :: added, by simp only [e1, h1]; rfl, by rw [h2]; simp, by rw [h3]; simp, h4, List.nodup_cons.2 ⟨hxa, h5⟩, ?_, ?_⟩
          · intro lc
            rw [List.mem_cons, h6, List.mem_cons]
            simp only [List.mem_append, List.mem_singleton, not_or]
            constructor
            · rintro (rfl | ⟨a, b, c, d⟩)
              · exact ⟨Or.inl rfl, hb, hx⟩
              · exact ⟨Or.inr a, b, c⟩
            · rintro ⟨a, b, c⟩
              by_cases hlx : lc = x
              · exact Or.inl hlx
              · exact Or.inr ⟨a.resolve_left hlx, b, c, hlx⟩
          · intro lc
            rw [h7, ptr_emplace]
            by_cases hlx : lc = x
            · subst hlx
              rw [if_neg hxa, if_pos ⟨rfl, hx⟩, if_pos (by simp)]
            · rw [if_neg (c := lc = x ∧ _) (by rintro ⟨a, -⟩; exact hlx a)]
              simp only [List.mem_cons, hlx, false_or]
        · have e1 : l.addNode inBox x = (l, false) := by
            unfold Lat.addNode Lat.addNodeUnchecked
            rw [if_neg hh]
            simp [hb]
          obtain ⟨l', added, h1, h2, h3, h4, h5, h6, h7⟩ := addNodes_spec (inBox := inBox) lcs l
          refine ⟨l', added, by simp only [e1, h1]; rfl, h2, h3, h4, h5, ?_, h7⟩
          intro lc
          rw [h6, List.mem_cons]
          constructor
          · rintro ⟨a, b⟩; exact ⟨Or.inr a, b⟩
          · rintro ⟨rfl | a, b, c⟩
            · exact absurd b hb
            · exact ⟨a, b, c⟩

/-- adding nodes and evaluating them -/
theorem growS {inBox σ : LC → Bool} {l : Lat} (h : SInv inBox σ l) (lcs : List LC) :
    ∃ l1 added l2, l.addNodes inBox lcs = (l1, added) ∧ l1.evaluateField σ = .ok l2 ∧ SInv inBox σ l2 ∧ keys l2.nodes = keys l.nodes ++ added ∧
      ∀ lc, lc ∈ added ↔ lc ∈ lcs ∧ inBox lc = true ∧ lc ∉ keys l.nodes := by
  obtain ⟨l1, added, e1, e2, e3, e4, e5, e6, e7⟩ := addNodes_spec (inBox := inBox) lcs l
  rw [h.ev, List.nil_append] at e3
  obtain ⟨l2, f1, f2, f3, f4, f5⟩ := evaluateField_eq (σ := σ) (l := l1) (by
    intro lc hlc
    rw [e3] at hlc
    rw [e2]
    exact List.mem_append_right _ hlc)
  refine ⟨l1, added, l2, e1, f1, ⟨?_, f2, by rw [f3, e4, h.verts], ?_, ?_⟩, by rw [f4, e2], e6⟩
  · rw [f4, e2, List.nodup_append]
    refine ⟨h.nodup, e5, ?_⟩
    rintro a ha b hb rfl
    exact ((e6 a).1 hb).2.2 ha
  · intro lc n hp
    rw [f5, e7, e3] at hp
    by_cases hm : lc ∈ added
    · simp only [hm, if_true, Option.map_some, Option.some.injEq] at hp
      exact hp.symm
    · simp only [hm, if_false, Option.map_id'] at hp
      exact h.node lc n hp
  · intro lc hlc
    rw [f4, e2, List.mem_append] at hlc
    rcases hlc with hlc | hlc
    · exact h.box lc hlc
    · exact ((e6 lc).1 hlc).2.1

open Classical in
theorem isSurfaceNode_eq {inBox σ : LC → Bool} {l : Lat} (h : SInv inBox σ l) {lc : LC} (hlc : lc ∈ keys l.nodes) :
    isSurfaceNode l.nodes lc = .ok (decide (OnSurface σ (· ∈ keys l.nodes) lc)) := by
  have hs : ∀ {n : Node} {lc : LC}, l.nodes.ptr lc = some n → n.valueSign = .ok (σ lc) := by
    intro n lc hp; rw [h.node lc n hp]; rfl
  obtain ⟨n, hn⟩ := ptr_exists hlc
  unfold isSurfaceNode
  rw [at_eq hn]
  simp only [Outcome.ok_bind, hs hn]
  rw [mapO_ok (g := fun e => decide (neighbor lc e ∈ keys l.nodes ∧ σ lc ≠ σ (neighbor lc e)))]
  · simp only [Outcome.ok_bind, Outcome.pure_eq, Outcome.ok.injEq]
    rw [Bool.eq_iff_iff, decide_eq_true_eq]
    simp only [List.any_map, List.any_eq_true, List.mem_range, Function.comp_apply, id, decide_eq_true_eq]
    rfl
  · intro e _
    cases hp : l.nodes.ptr (neighbor lc e) with
    | none =>
      have := ptr_none.1 hp
      simp [this]
    | some m =>
      have hm := ptr_some_mem hp
      simp only [hs hp, Outcome.ok_bind, Outcome.pure_eq, Outcome.ok.injEq, hm, true_and]
      cases σ lc <;> cases σ (neighbor lc e) <;> simp

open Classical in
theorem surfaceNodes_eq {inBox σ : LC → Bool} {l : Lat} (h : SInv inBox σ l) : ∀ (lcs : List LC) (_ : ∀ lc ∈ lcs, lc ∈ keys l.nodes),
    surfaceNodes l.nodes lcs = .ok (lcs.filter (fun lc => decide (OnSurface σ (· ∈ keys l.nodes) lc)))
  | [], _ => rfl
  | x :: lcs, hk => by
      unfold surfaceNodes
      rw [isSurfaceNode_eq h (hk x (by simp)), surfaceNodes_eq h lcs (fun y hy => hk y (by simp [hy]))]
      simp only [Outcome.ok_bind, Outcome.pure_eq, List.filter_cons]

/-- every crossed lattice edge between nodes has an end in `E` -/
def Covers (σ : LC → Bool) (N : LC → Prop) (E : LC → Prop) : Prop :=
  ∀ a e, e < 14 → N a → N (neighbor a e) → σ a ≠ σ (neighbor a e) → E a ∨ E (neighbor a e)

/-- all neighbours in the box are nodes -/
def Full (inBox : LC → Bool) (N : LC → Prop) (lc : LC) : Prop := ∀ e < 14, inBox (neighbor lc e) = true → N (neighbor lc e)

open Classical in
theorem completeLoop_spec {inBox σ : LC → Bool} (B : List LC) (hB : ∀ lc, inBox lc = true → lc ∈ B) :
    ∀ (fuel : Nat) (l : Lat) (frontier : List LC) (E : LC → Prop) (_ : SInv inBox σ l) (_ : ∀ lc ∈ frontier, lc ∈ keys l.nodes)
    (_ : Covers σ (· ∈ keys l.nodes) (fun lc => E lc ∨ lc ∈ frontier)) (_ : ∀ lc, E lc → Full inBox (· ∈ keys l.nodes) lc)
    (_ : frontier = [] ∨ B.length + 1 ≤ fuel + (keys l.nodes).length),
    ∃ l', l.completeLoop inBox σ fuel frontier = .ok (some l') ∧ SInv inBox σ l' ∧ (∀ lc ∈ keys l.nodes, lc ∈ keys l'.nodes) ∧
      ∃ E', Covers σ (· ∈ keys l'.nodes) E' ∧ ∀ lc, E' lc → Full inBox (· ∈ keys l'.nodes) lc := by
  intro fuel
  induction fuel with
  | zero =>
    intro l frontier E h hf hc hE hfuel
    have hle : (keys l.nodes).length ≤ B.length := (h.nodup.subperm (fun lc hlc => hB lc (h.box lc hlc))).length_le
    cases frontier with
    | nil =>
      refine ⟨l, rfl, h, fun _ h => h, E, ?_, hE⟩
      intro a e he ha hb hs
      simpa using hc a e he ha hb hs
    | cons x xs =>
      exfalso
      rcases hfuel with h1 | h1
      · cases h1
      · omega
  | succ fuel ih =>
    intro l frontier E h hf hc hE hfuel
    cases frontier with
    | nil =>
      refine ⟨l, rfl, h, fun _ h => h, E, ?_, hE⟩
      intro a e he ha hb hs
      simpa using hc a e he ha hb hs
    | cons x xs =>
      have hfuel := hfuel.resolve_left (by simp)
      obtain ⟨l1, added, l2, e1, e2, h2, k2, m2⟩ := growS h (allNeighbors (x :: xs))
      have hsn := surfaceNodes_eq h2 added (fun lc hlc => by rw [k2]; exact List.mem_append_right _ hlc)
      have hmem : ∀ lc, lc ∈ keys l2.nodes ↔ lc ∈ keys l.nodes ∨ lc ∈ added := fun lc => by rw [k2, List.mem_append]
      obtain ⟨fr, hfr⟩ : ∃ fr, fr = added.filter (fun lc => decide (OnSurface σ (· ∈ keys l2.nodes) lc)) := ⟨_, rfl⟩
      rw [← hfr] at hsn
      have hfrm : ∀ lc, lc ∈ fr ↔ lc ∈ added ∧ OnSurface σ (· ∈ keys l2.nodes) lc := by
        intro lc; rw [hfr, List.mem_filter, decide_eq_true_eq]
      obtain ⟨l', r1, r2, r3, r4⟩ := ih l2 fr (fun lc => E lc ∨ lc ∈ x :: xs) h2
        (fun lc hlc => (hmem lc).2 (Or.inr ((hfrm lc).1 hlc).1))
        (by
          intro a e he ha hb hs
          rw [hmem] at ha hb
          by_cases ha' : a ∈ added
          · exact Or.inl (Or.inr ((hfrm a).2 ⟨ha', e, he, (hmem _).2 hb, hs⟩))
          · by_cases hb' : neighbor a e ∈ added
            · refine Or.inr (Or.inr ((hfrm _).2 ⟨hb', oppositeEdge e, opp_lt he, ?_, ?_⟩))
              · rw [neighbor_opp he]; exact (hmem _).2 ha
              · rw [neighbor_opp he]; exact hs.symm
            · rcases hc a e he (ha.resolve_right ha') (hb.resolve_right hb') hs with h1 | h1
              · exact Or.inl (Or.inl h1)
              · exact Or.inr (Or.inl h1))
        (by
          rintro lc (hl | hl) e he hb
          · exact (hmem _).2 (Or.inl (hE lc hl e he hb))
          · rw [hmem]
            by_cases hk : neighbor lc e ∈ keys l.nodes
            · exact Or.inl hk
            · refine Or.inr ((m2 _).2 ⟨?_, hb, hk⟩)
              unfold allNeighbors
              rw [List.mem_flatMap]
              exact ⟨lc, hl, List.mem_map_of_mem (List.mem_range.2 he)⟩)
        (by
          cases added with
          | nil => left; rw [hfr]; rfl
          | cons y ys =>
            right
            rw [k2, List.length_append, List.length_cons]
            omega)
      refine ⟨l', ?_, r2, fun lc hlc => r3 lc ((hmem lc).2 (Or.inl hlc)), r4⟩
      unfold Lat.completeLoop
      simp only [e1, e2, hsn, Outcome.ok_bind]
      exact r1

theorem completeSurface_spec {inBox σ : LC → Bool} {ord : List LC → List LC} (hord : ∀ l, (ord l).Perm l) (B : List LC)
    (hB : ∀ lc, inBox lc = true → lc ∈ B) {l : Lat} (h : SInv inBox σ l) :
    ∃ l', l.completeSurface inBox σ ord (B.length + 1) = .ok (some l') ∧ SInv inBox σ l' ∧ (∀ lc ∈ keys l.nodes, lc ∈ keys l'.nodes) ∧
      ∃ E, Covers σ (· ∈ keys l'.nodes) E ∧ ∀ lc, E lc → Full inBox (· ∈ keys l'.nodes) lc := by
  classical
  unfold Lat.completeSurface
  have hk : ∀ lc, lc ∈ ord (l.nodes.map Prod.fst) ↔ lc ∈ keys l.nodes := fun lc => (hord _).mem_iff
  rw [surfaceNodes_eq h _ (fun lc hlc => (hk lc).1 hlc)]
  simp only [Outcome.ok_bind]
  apply completeLoop_spec B hB _ _ _ (fun _ => False) h
  · intro lc hlc
    exact (hk lc).1 (List.mem_of_mem_filter hlc)
  · intro a e he ha hb hs
    left; right
    rw [List.mem_filter, hk, decide_eq_true_eq]
    exact ⟨ha, e, he, hb, hs⟩
  · intro lc hf; exact hf.elim
  · right; omega

theorem addBatches_spec {inBox σ : LC → Bool} : ∀ (bs : List (List LC)) {l : Lat} (_ : SInv inBox σ l),
    ∃ l', l.addBatches inBox σ bs = .ok l' ∧ SInv inBox σ l' ∧ (∀ lc, lc ∈ keys l'.nodes ↔ lc ∈ keys l.nodes ∨ lc ∈ bs.flatten ∧ inBox lc = true)
  | [], l, h => ⟨l, rfl, h, by simp⟩
  | b :: bs, l, h => by
      obtain ⟨l1, added, l2, e1, e2, h2, k2, m2⟩ := growS h b
      obtain ⟨l', f1, f2, f3⟩ := addBatches_spec bs h2
      refine ⟨l', ?_, f2, ?_⟩
      · unfold Lat.addBatches
        simp only [e1, e2, Outcome.ok_bind]
        exact f1
      · intro lc
        rw [f3, k2, List.mem_append, m2, List.flatten_cons, List.mem_append]
        tauto

theorem crs_iff {σ : LC → Bool} {nl : NodeList} {all : List LC} (h : ∀ lc, lc ∈ all ↔ lc ∈ keys nl) (c : Crossing) :
    c ∈ all.flatMap (crs (fun x => decide (x ∈ keys nl)) σ) ↔ CrossIn σ (· ∈ keys nl) c := by
  rw [List.mem_flatMap]
  constructor
  · rintro ⟨lc, hlc, hc⟩
    rw [mem_crs] at hc
    obtain ⟨rfl, g, hk, s⟩ := hc
    exact ⟨g, (h _).1 hlc, by simpa using hk, s⟩
  · rintro ⟨g, a, b, s⟩
    exact ⟨c.lc0, (h _).2 a, mem_crs.2 ⟨rfl, g, by simpa using b, s⟩⟩

/-- generating the vertices of all nodes and removing the free ones -/
theorem finish_spec {inBox σ : LC → Bool} {near : LC → LC → Bool} {l : Lat} (h : SInv inBox σ l) {all : List LC} (hall : all.Perm (keys l.nodes)) :
    ∃ l1 l2 P, l.generateVertices near all = .ok l1 ∧ l1.removeFreeNodes all = .ok l2 ∧ GInv σ near l2 P ∧
      (∀ c, c ∈ P ↔ CrossIn σ (· ∈ keys l.nodes) c) ∧ ∀ lc, lc ∈ keys l2.nodes ↔ lc ∈ keys l.nodes ∧ OnSurface σ (· ∈ keys l.nodes) lc := by
  have hn : all.Nodup := hall.nodup_iff.2 h.nodup
  obtain ⟨l1, e1, g1, k1, -⟩ := generateVertices_spec (h.ginv near) all (fun lc hlc => hall.mem_iff.1 hlc) (by
    rw [List.nil_append]; exact flatMap_crs_nodup hn)
  rw [List.nil_append] at g1
  have hcr := crs_iff (σ := σ) (nl := l.nodes) (all := all) (fun lc => hall.mem_iff)
  obtain ⟨l2, e2, g2, -, m2⟩ := removeFreeNodes_spec all g1 (fun lc hlc => by rw [k1]; exact hall.mem_iff.1 hlc) hn
  refine ⟨l1, l2, _, e1, e2, g2, hcr, ?_⟩
  intro lc
  rw [m2, k1]
  constructor
  · rintro ⟨a, b⟩
    exact ⟨a, (touch_iff hcr a).1 (b (hall.mem_iff.2 a))⟩
  · rintro ⟨a, b⟩
    exact ⟨a, fun _ => (touch_iff hcr a).2 b⟩

theorem mem_loopRange {r : Int × Int} {x : Int} : x ∈ loopRange r ↔ r.1 ≤ x ∧ x ≤ r.2 := by
  unfold loopRange
  rw [List.mem_map]
  constructor
  · rintro ⟨i, hi, rfl⟩
    rw [List.mem_range] at hi
    omega
  · rintro ⟨a, b⟩
    exact ⟨(x - r.1).toNat, by rw [List.mem_range]; omega, by omega⟩

theorem loopRange_nodup (r : Int × Int) : (loopRange r).Nodup := by
  unfold loopRange
  apply List.Nodup.map
  · intro a b h
    simp only at h
    omega
  · exact List.nodup_range

theorem loopRange_getElem? {r : Int × Int} {i : Nat} {x : Int} (h : (loopRange r)[i]? = some x) : x = r.1 + i := by
  unfold loopRange at h
  rw [List.getElem?_map, Option.map_eq_some_iff] at h
  obtain ⟨j, hj, rfl⟩ := h
  rw [List.getElem?_eq_some_iff] at hj
  obtain ⟨h1, h2⟩ := hj
  rw [List.getElem_range] at h2
  rw [h2]

theorem mem_candidates {r1 : Int → Int × Int} {r0 : Int → Int → Int × Int} {lc2 : Int} {lc : LC} :
    lc ∈ candidates r1 r0 lc2 ↔ lc.z = lc2 ∧ (r1 lc2).1 ≤ lc.y ∧ lc.y ≤ (r1 lc2).2 ∧ (r0 lc.y lc2).1 ≤ lc.x ∧ lc.x ≤ (r0 lc.y lc2).2 := by
  unfold candidates
  simp only [List.mem_flatMap, List.mem_map, mem_loopRange]
  constructor
  · rintro ⟨y, ⟨a, b⟩, x, ⟨c, d⟩, rfl⟩
    exact ⟨rfl, a, b, c, d⟩
  · rintro ⟨rfl, a, b, c, d⟩
    exact ⟨lc.y, ⟨a, b⟩, lc.x, ⟨c, d⟩, rfl⟩

theorem candidates_nodup (r1 : Int → Int × Int) (r0 : Int → Int → Int × Int) (lc2 : Int) : (candidates r1 r0 lc2).Nodup := by
  unfold candidates
  rw [List.nodup_flatMap]
  constructor
  · intro y _
    apply List.Nodup.map
    · intro a b h
      simpa using h
    · exact loopRange_nodup _
  · refine (loopRange_nodup _).imp ?_
    intro y y' hne lc h h'
    rw [List.mem_map] at h h'
    obtain ⟨_, _, rfl⟩ := h
    obtain ⟨_, _, h⟩ := h'
    simp only [LC.mk.injEq] at h
    exact hne h.2.1.symm

end Verif.Lattice
