import Verif.Lemmas.LatticeGenerate

/-! # The layers of a lattice -/

namespace Verif.Lattice

open Verif Bits

theorem addLayer_spec {inBox : LC → Bool} : ∀ (layer : List LC) (l : Lat) (acc : List LC) (_ : layer.Nodup) (_ : ∀ lc ∈ layer, lc ∉ keys l.nodes),
    ∃ l', layer.foldl (fun (x : Lat × List LC) lc =>
        ((x.1.addNodeUnchecked inBox lc).1, if (x.1.addNodeUnchecked inBox lc).2 then x.2 ++ [lc] else x.2)) (l, acc) =
          (l', acc ++ layer.filter inBox) ∧
      l'.toEval = l.toEval ++ layer.filter inBox ∧ l'.verts = l.verts ∧ keys l'.nodes = keys l.nodes ++ layer.filter inBox ∧
      ∀ lc, l'.nodes.ptr lc = if lc ∈ layer.filter inBox then some ⟨none, NodeV.new⟩ else l.nodes.ptr lc
  | [], l, acc, _, _ => ⟨l, by simp, by simp, rfl, by simp, by simp⟩
  | x :: layer, l, acc, hn, hd => by
      rw [List.nodup_cons] at hn
      rw [List.foldl_cons]
      by_cases hb : inBox x = true
      · have e1 : l.addNodeUnchecked inBox x = ({ l with nodes := l.nodes.emplace x ⟨none, NodeV.new⟩, toEval := l.toEval ++ [x] }, true) := by
          simp [Lat.addNodeUnchecked, hb]
        have hx := hd x (by simp)
        have hk : keys (l.nodes.emplace x ⟨none, NodeV.new⟩) = keys l.nodes ++ [x] := by rw [keys_emplace, if_neg hx]
        obtain ⟨l', f1, f2, f3, f4, f5⟩ := addLayer_spec (inBox := inBox) layer
          { l with nodes := l.nodes.emplace x ⟨none, NodeV.new⟩, toEval := l.toEval ++ [x] } (acc ++ [x]) hn.2 (by
            intro lc hlc
            show lc ∉ keys (l.nodes.emplace x ⟨none, NodeV.new⟩)
            rw [hk, List.mem_append, List.mem_singleton, not_or]
            exact ⟨hd lc (by simp [hlc]), by rintro rfl; exact hn.1 hlc⟩)
        refine ⟨l', ?_, ?_, f3, ?_, ?_⟩
        · simp only [e1, if_true]
          rw [f1]
          simp [hb]
        · rw [f2]; simp [hb]
        · rw [f4]
          show keys (l.nodes.emplace x ⟨none, NodeV.new⟩) ++ _ = _
          rw [hk]
          simp [hb]
        · intro lc
          rw [f5 lc]
          show (if _ then _ else (l.nodes.emplace x ⟨none, NodeV.new⟩).ptr lc) = _
          rw [ptr_emplace, List.filter_cons, if_pos hb]
          by_cases hlx : lc = x
          · simp [hlx, hx]
          · simp [hlx]
      · have e1 : l.addNodeUnchecked inBox x = (l, false) := by
          simp [Lat.addNodeUnchecked, hb]
        obtain ⟨l', f1, f2, f3, f4, f5⟩ := addLayer_spec (inBox := inBox) layer l acc hn.2 (fun lc hlc => hd lc (by simp [hlc]))
        refine ⟨l', ?_, ?_, f3, ?_, ?_⟩
        · simp only [e1, Bool.false_eq_true, if_false]
          rw [f1]
          simp [hb]
        · rw [f2]; simp [hb]
        · rw [f4]; simp [hb]
        · intro lc
          rw [f5 lc]
          simp [hb]

theorem addLayer_eq {inBox : LC → Bool} {layer : List LC} {l : Lat} (hn : layer.Nodup) (hd : ∀ lc ∈ layer, lc ∉ keys l.nodes) :
    ∃ l', l.addLayer inBox layer = (l', layer.filter inBox) ∧
      l'.toEval = l.toEval ++ layer.filter inBox ∧ l'.verts = l.verts ∧ keys l'.nodes = keys l.nodes ++ layer.filter inBox ∧
      ∀ lc, l'.nodes.ptr lc = if lc ∈ layer.filter inBox then some ⟨none, NodeV.new⟩ else l.nodes.ptr lc := by
  obtain ⟨l', f1, f2⟩ := addLayer_spec (inBox := inBox) layer l [] hn hd
  exact ⟨l', by rw [List.nil_append] at f1; exact f1, f2⟩

theorem evaluateField_eq {σ : LC → Bool} {l : Lat} (h : ∀ lc ∈ l.toEval, lc ∈ keys l.nodes) :
    ∃ l', l.evaluateField σ = .ok l' ∧ l'.toEval = [] ∧ l'.verts = l.verts ∧ keys l'.nodes = keys l.nodes ∧
      ∀ lc, l'.nodes.ptr lc = (l.nodes.ptr lc).map (fun n => if lc ∈ l.toEval then { n with neg := some (σ lc) } else n) := by
  unfold Lat.evaluateField
  rw [if_pos (by
    rw [List.all_eq_true]
    intro lc hlc
    exact has_iff.2 (h lc hlc))]
  refine ⟨_, rfl, rfl, rfl, ?_, ?_⟩
  · have : ∀ (ls : List LC) (nl : NodeList), keys (ls.foldl (fun nl lc => nl.upd lc (fun n => { n with neg := some (σ lc) })) nl) = keys nl := by
      intro ls
      induction ls with
      | nil => intro nl; rfl
      | cons x ls ih => intro nl; rw [List.foldl_cons, ih, keys_upd]
    exact this _ _
  · intro lc
    have : ∀ (ls : List LC) (nl : NodeList), (ls.foldl (fun nl lc => nl.upd lc (fun n => { n with neg := some (σ lc) })) nl).ptr lc =
        (nl.ptr lc).map (fun n => if lc ∈ ls then { n with neg := some (σ lc) } else n) := by
      intro ls
      induction ls with
      | nil => intro nl; cases h : nl.ptr lc <;> simp [h]
      | cons x ls ih =>
        intro nl
        rw [List.foldl_cons, ih, ptr_upd]
        cases h : nl.ptr lc with
        | none => simp
        | some n =>
          by_cases hx : lc = x
          · by_cases hl : x ∈ ls <;> simp [hx, hl]
          · by_cases hl : lc ∈ ls <;> simp [hx, hl]
    exact this _ _

theorem new_ok {σ : LC → Bool} {V : List (LC × Nat)} {P : List Crossing} {lc : LC} (hV : ∀ e, (lc, e) ∉ V) (hP : ∀ c ∈ P, ∀ e, ¬ Touch c lc e) :
    NodeOk σ V P lc ⟨some (σ lc), NodeV.new⟩ := by
  refine ⟨rfl, ?_, ?_, ?_⟩
  · constructor
    · show NodeV.new.vis.length = (oneBits NodeV.new.intersections).length
      decide
    · intro e he
      have : oneBits NodeV.new.intersections = [] := by decide
      rw [this] at he
      cases he
  · intro e _ v
    constructor
    · intro h
      simp [NodeV.abs, NodeV.new, NodeV.hasVertex] at h
    · rintro ⟨i, -, hi⟩
      exact absurd (List.mem_of_getElem? hi) (hV e)
  · intro e
    constructor
    · intro h
      simp [NodeV.new] at h
    · rintro ⟨c, hc, ht⟩
      exact absurd ht (hP c hc e)

/-- adding nodes and evaluating them -/
theorem grow {inBox σ : LC → Bool} {near : LC → LC → Bool} {l : Lat} {P : List Crossing} {layer : List LC} (h : GInv σ near l P)
    (he : l.toEval = []) (hn : layer.Nodup) (hd : ∀ lc ∈ layer, lc ∉ keys l.nodes) (ht : ∀ lc ∈ layer, ∀ c ∈ P, ∀ e, ¬ Touch c lc e) :
    ∃ l1 l2, l.addLayer inBox layer = (l1, layer.filter inBox) ∧ l1.evaluateField σ = .ok l2 ∧ GInv σ near l2 P ∧ l2.toEval = [] ∧
      keys l2.nodes = keys l.nodes ++ layer.filter inBox := by
  obtain ⟨l1, e1, e2, e3, e4, e5⟩ := addLayer_eq (inBox := inBox) (l := l) hn hd
  rw [he, List.nil_append] at e2
  obtain ⟨l2, f1, f2, f3, f4, f5⟩ := evaluateField_eq (σ := σ) (l := l1) (by
    intro lc hlc
    rw [e2] at hlc
    rw [e4]
    exact List.mem_append_right _ hlc)
  refine ⟨l1, l2, e1, f1, ⟨?_, ?_, by rw [f3, e3, h.verts], h.good, h.pnodup⟩, f2, by rw [f4, e4]⟩
  · rw [f4, e4, List.nodup_append]
    refine ⟨h.nodup, hn.filter _, ?_⟩
    rintro a ha b hb rfl
    exact hd a (List.mem_of_mem_filter hb) ha
  · intro lc n hp
    rw [f5, e5] at hp
    rw [f3, e3]
    by_cases hm : lc ∈ layer.filter inBox
    · rw [if_pos hm] at hp
      simp only [Option.map_some, e2, hm, if_true, Option.some.injEq] at hp
      subst hp
      have hl := List.mem_of_mem_filter hm
      refine new_ok ?_ (ht lc hl)
      intro e hv
      rw [h.verts, List.mem_map] at hv
      obtain ⟨c, hc, hs⟩ := hv
      apply ht lc hl c hc e
      unfold stored at hs
      split at hs
      · rw [Prod.mk.injEq] at hs; exact Or.inl hs
      · rw [Prod.mk.injEq] at hs; exact Or.inr hs
    · rw [if_neg hm, e2] at hp
      simp only [hm, if_false, Option.map_id'] at hp
      exact h.node lc n hp

/-- `c` is a crossing between two nodes of `D` -/
def CrossIn (σ : LC → Bool) (D : LC → Prop) (c : Crossing) : Prop := GoodCrossing c ∧ D c.lc0 ∧ D c.lc1 ∧ σ c.lc0 ≠ σ c.lc1

/-- a node with a crossed edge to another node of `D` -/
def OnSurface (σ : LC → Bool) (D : LC → Prop) (lc : LC) : Prop := ∃ e < 14, D (neighbor lc e) ∧ σ lc ≠ σ (neighbor lc e)

theorem touch_iff {σ : LC → Bool} {D : LC → Prop} {P : List Crossing} (hP : ∀ c, c ∈ P ↔ CrossIn σ D c) {lc : LC} (hlc : D lc) :
    (∃ c ∈ P, ∃ e, Touch c lc e) ↔ OnSurface σ D lc := by
  constructor
  · rintro ⟨c, hc, e, ht⟩
    obtain ⟨g, h0, h1, hs⟩ := (hP c).1 hc
    rcases ht with ⟨rfl, -⟩ | ⟨rfl, -⟩
    · exact ⟨c.e, g.lt, by rw [← g.nb]; exact h1, by rw [← g.nb]; exact hs⟩
    · refine ⟨oppositeEdge c.e, opp_lt g.lt, ?_, ?_⟩
      · rw [g.nb, neighbor_opp g.lt]; exact h0
      · rw [g.nb, neighbor_opp g.lt, ← g.nb]; exact hs.symm
  · rintro ⟨e, he, hd, hs⟩
    rcases less_total (neighbor_ne (lc := lc) he) with h | h
    · exact ⟨⟨lc, neighbor lc e, e⟩, (hP _).2 ⟨⟨he, rfl, h⟩, hlc, hd, hs⟩, e, Or.inl ⟨rfl, rfl⟩⟩
    · refine ⟨⟨neighbor lc e, lc, oppositeEdge e⟩, (hP _).2 ⟨⟨opp_lt he, (neighbor_opp he lc).symm, h⟩, hd, hlc, hs.symm⟩, e, Or.inr ⟨rfl, ?_⟩⟩
      exact opp_opp he

theorem delta_z {e : Nat} (h : e < 14) : (delta e).z = 0 ∨ ((delta e).z = 1 ∧ (⟨0, 0, 0⟩ : LC).less (delta e) = true) ∨
    ((delta e).z = -1 ∧ (delta e).less ⟨0, 0, 0⟩ = true) := by
  have : ∀ e < 14, (delta e).z = 0 ∨ ((delta e).z = 1 ∧ (⟨0, 0, 0⟩ : LC).less (delta e) = true) ∨
    ((delta e).z = -1 ∧ (delta e).less ⟨0, 0, 0⟩ = true) := by decide
  exact this e h

theorem neighbor_z {lc : LC} {e : Nat} : (neighbor lc e).z = lc.z + (delta e).z := rfl

/-- The state between two layers; `z` is the third coordinate of the last one, `D` are all nodes so far. -/
structure LInv (σ : LC → Bool) (near : LC → LC → Bool) (l : Lat) (prev : List LC) (D : LC → Prop) (z : Int) (P : List Crossing) : Prop where
  g : GInv σ near l P
  ev : l.toEval = []
  cross : ∀ c, c ∈ P ↔ CrossIn σ D c
  prevD : ∀ lc, lc ∈ prev ↔ D lc ∧ lc.z = z
  le : ∀ lc, D lc → lc.z ≤ z
  pn : prev.Nodup
  mem : ∀ lc, lc ∈ keys l.nodes ↔ D lc ∧ (lc ∈ prev ∨ OnSurface σ D lc)

theorem layers_spec {inBox σ : LC → Bool} {near : LC → LC → Bool} : ∀ (ls : List (List LC)) (l : Lat) (prev : List LC) (D : LC → Prop) (z : Int)
    (P : List Crossing) (_ : LInv σ near l prev D z P)
    (_ : ∀ (i : Nat) layer, ls[i]? = some layer → layer.Nodup ∧ ∀ lc ∈ layer, lc.z = z + 1 + i) (_ : ls ≠ [] ∨ ∀ lc, D lc → OnSurface σ D lc),
    ∃ l' P', Lat.layers inBox σ near l prev ls = .ok l' ∧ GInv σ near l' P' ∧
      (∀ c, c ∈ P' ↔ CrossIn σ (fun lc => D lc ∨ (lc ∈ ls.flatten ∧ inBox lc = true)) c) ∧
      ∀ lc, lc ∈ keys l'.nodes ↔ (D lc ∨ (lc ∈ ls.flatten ∧ inBox lc = true)) ∧
        OnSurface σ (fun lc => D lc ∨ (lc ∈ ls.flatten ∧ inBox lc = true)) lc
  | [], l, prev, D, z, P, h, _, hlast => by
      refine ⟨l, P, rfl, h.g, ?_, ?_⟩
      · intro c; rw [h.cross]; simp
      · intro lc
        rw [h.mem]
        simp only [List.flatten_nil, List.not_mem_nil, false_and, or_false]
        constructor
        · rintro ⟨a, -⟩; exact ⟨a, (hlast.resolve_left (by simp)) lc a⟩
        · rintro ⟨a, b⟩; exact ⟨a, Or.inr b⟩
  | layer :: rest, l, prev, D, z, P, h, hls, _ => by
      obtain ⟨hn, hz⟩ := hls 0 layer rfl
      simp only [Nat.cast_zero, Int.add_zero] at hz
      have hnew : ∀ lc ∈ layer, ¬ D lc := by
        intro lc hlc hD
        have := h.le lc hD
        rw [hz lc hlc] at this
        omega
      have hkD : ∀ lc ∈ keys l.nodes, D lc := fun lc hlc => ((h.mem lc).1 hlc).1
      obtain ⟨l1, l2, e1, e2, g2, v2, k2⟩ := grow (inBox := inBox) (layer := layer) h.g h.ev hn (fun lc hlc hk => hnew lc hlc (hkD lc hk)) (by
        rintro lc hlc c hc e (⟨rfl, -⟩ | ⟨rfl, -⟩)
        · exact hnew _ hlc ((h.cross c).1 hc).2.1
        · exact hnew _ hlc ((h.cross c).1 hc).2.2.1)
      obtain ⟨new, hnewdef⟩ : ∃ new, new = layer.filter inBox := ⟨_, rfl⟩
      rw [← hnewdef] at e1 k2
      have nz : ∀ lc ∈ new, lc.z = z + 1 := fun lc hlc => hz lc (List.mem_of_mem_filter (hnewdef ▸ hlc))
      have nD : ∀ lc ∈ new, ¬ D lc := fun lc hlc => hnew lc (List.mem_of_mem_filter (hnewdef ▸ hlc))
      have nn : new.Nodup := by rw [hnewdef]; exact hn.filter _
      let D' : LC → Prop := fun lc => D lc ∨ lc ∈ new
      have k2m : ∀ lc, lc ∈ keys l2.nodes ↔ lc ∈ keys l.nodes ∨ lc ∈ new := by
        intro lc; rw [k2, List.mem_append]
      -- an old neighbour of a new node is still there
      have hold : ∀ lc ∈ new, ∀ e < 14, D (neighbor lc e) → neighbor lc e ∈ prev := by
        intro lc hlc e he hD
        rw [h.prevD]
        refine ⟨hD, ?_⟩
        have h1 := h.le _ hD
        have h2 := nz lc hlc
        rw [neighbor_z] at h1 ⊢
        rcases delta_z he with h3 | ⟨h3, -⟩ | ⟨h3, -⟩ <;> omega
      have hcr : ∀ c, c ∈ P ++ new.flatMap (crs (fun x => decide (x ∈ keys l2.nodes)) σ) ↔ CrossIn σ D' c := by
        intro c
        rw [List.mem_append, h.cross, List.mem_flatMap]
        constructor
        · rintro (⟨g, a, b, s⟩ | ⟨lc, hlc, hc⟩)
          · exact ⟨g, Or.inl a, Or.inl b, s⟩
          · rw [mem_crs] at hc
            obtain ⟨rfl, g, hk, s⟩ := hc
            rw [decide_eq_true_eq, k2m] at hk
            exact ⟨g, Or.inr hlc, hk.imp (hkD _) id, s⟩
        · rintro ⟨g, a, b, s⟩
          rcases a with a | a
          · rcases b with b | b
            · exact Or.inl ⟨g, a, b, s⟩
            · exfalso
              -- a new node is never less than an old neighbour
              have h1 := h.le _ a
              have h2 := nz _ b
              have h3 := g.less
              have h4 : c.lc0.less c.lc1 = true := by
                rw [g.nb]
                rw [g.nb, neighbor_z] at h2
                rcases delta_z g.lt with h5 | ⟨h5, h6⟩ | ⟨h5, -⟩
                · omega
                · have := less_add c.lc0 ⟨0, 0, 0⟩ (delta c.e)
                  rw [add_zero', h6] at this
                  exact this
                · omega
              rw [less_asymm h4] at h3
              cases h3
          · refine Or.inr ⟨c.lc0, a, mem_crs.2 ⟨rfl, g, ?_, s⟩⟩
            rw [decide_eq_true_eq, k2m]
            rcases b with b | b
            · left
              rw [h.mem]
              rw [g.nb] at b ⊢
              exact ⟨b, Or.inl (hold _ a _ g.lt b)⟩
            · exact Or.inr b
      have hnd : (P ++ new.flatMap (crs (fun x => decide (x ∈ keys l2.nodes)) σ)).Nodup := by
        rw [List.nodup_append]
        refine ⟨h.g.pnodup, flatMap_crs_nodup nn, ?_⟩
        rintro c hc c' hc' rfl
        rw [List.mem_flatMap] at hc'
        obtain ⟨lc, hlc, hc'⟩ := hc'
        rw [mem_crs] at hc'
        rw [h.cross] at hc
        exact nD lc hlc (hc'.1 ▸ hc.2.1)
      obtain ⟨l3, e3, g3, k3, v3⟩ := generateVertices_spec g2 new (fun lc hlc => (k2m lc).2 (Or.inr hlc)) hnd
      generalize P ++ new.flatMap (crs (fun x => decide (x ∈ keys l2.nodes)) σ) = P' at hcr g3 hnd
      obtain ⟨l4, e4, g4, v4, m4⟩ := removeFreeNodes_spec prev g3 (by
        intro lc hlc
        rw [k3, k2m]
        left
        rw [h.mem]
        exact ⟨((h.prevD lc).1 hlc).1, Or.inl hlc⟩) h.pn
      have m4' : ∀ lc, lc ∈ keys l4.nodes ↔ D' lc ∧ (lc ∈ new ∨ OnSurface σ D' lc) := by
        intro lc
        rw [m4, k3, k2m]
        constructor
        · rintro ⟨a | a, b⟩
          · have hD := hkD _ a
            refine ⟨Or.inl hD, Or.inr ?_⟩
            by_cases hp : lc ∈ prev
            · exact (touch_iff hcr (Or.inl hD)).1 (b hp)
            · obtain ⟨-, h1 | ⟨e, he, h2, h3⟩⟩ := (h.mem lc).1 a
              · exact absurd h1 hp
              · exact ⟨e, he, Or.inl h2, h3⟩
          · exact ⟨Or.inr a, Or.inl a⟩
        · rintro ⟨a, b⟩
          rcases a with a | a
          · have hnn : lc ∉ new := fun hc => nD lc hc a
            have b := b.resolve_left hnn
            refine ⟨Or.inl ?_, fun _ => (touch_iff hcr (Or.inl a)).2 b⟩
            rw [h.mem]
            refine ⟨a, ?_⟩
            by_cases hp : lc ∈ prev
            · exact Or.inl hp
            · right
              obtain ⟨e, he, h2, h3⟩ := b
              refine ⟨e, he, h2.resolve_right ?_, h3⟩
              intro hc
              have h4 := nz _ hc
              have h5 := h.le lc a
              have h6 : lc.z ≠ z := fun hh => hp ((h.prevD lc).2 ⟨a, hh⟩)
              rw [neighbor_z] at h4
              rcases delta_z he with h7 | ⟨h7, -⟩ | ⟨h7, -⟩ <;> omega
          · exact ⟨Or.inr a, fun hp => absurd ((h.prevD lc).1 hp).1 (nD lc a)⟩
      have hD'z : ∀ lc, D' lc → lc.z ≤ z + 1 := by
        rintro lc (a | a)
        · have := h.le lc a; omega
        · rw [nz lc a]
      have hnewD' : ∀ lc, lc ∈ new ↔ D' lc ∧ lc.z = z + 1 := by
        intro lc
        constructor
        · intro a; exact ⟨Or.inr a, nz lc a⟩
        · rintro ⟨a | a, b⟩
          · have := h.le lc a; omega
          · exact a
      have hset : ∀ lc, (D' lc ∨ (lc ∈ rest.flatten ∧ inBox lc = true)) ↔ (D lc ∨ (lc ∈ (layer :: rest).flatten ∧ inBox lc = true)) := by
        intro lc
        show ((D lc ∨ lc ∈ new) ∨ _) ↔ _
        rw [hnewdef, List.mem_filter, List.flatten_cons, List.mem_append]
        tauto
      have hseteq : (fun lc => D' lc ∨ (lc ∈ rest.flatten ∧ inBox lc = true)) = (fun lc => D lc ∨ (lc ∈ (layer :: rest).flatten ∧ inBox lc = true)) :=
        funext fun lc => propext (hset lc)
      have hls' : ∀ (i : Nat) layer', rest[i]? = some layer' → layer'.Nodup ∧ ∀ lc ∈ layer', lc.z = z + 1 + 1 + i := by
        intro i layer' hi
        obtain ⟨a, b⟩ := hls (i + 1) layer' (by simpa using hi)
        refine ⟨a, fun lc hlc => ?_⟩
        rw [b lc hlc]
        push_cast
        omega
      -- the last layer
      have hfin : ∃ l5, (if rest.isEmpty then l4.removeFreeNodes new else .ok l4) = .ok l5 ∧ LInv σ near l5 (if rest.isEmpty then [] else new) D'
          (if rest.isEmpty then z + 2 else z + 1) P' ∧ (rest ≠ [] ∨ ∀ lc, D' lc → lc ∈ keys l5.nodes ∨ ¬ OnSurface σ D' lc) := by
        cases rest with
        | nil =>
          obtain ⟨l5, e5, g5, v5, m5⟩ := removeFreeNodes_spec new g4 (fun lc hlc => (m4' lc).2 ⟨Or.inr hlc, Or.inl hlc⟩) nn
          refine ⟨l5, e5, ?_, Or.inr ?_⟩
          · refine ⟨g5, by rw [v5, v4, v3, v2], hcr, ?_, ?_, List.nodup_nil, ?_⟩
            · intro lc
              simp only [List.isEmpty_nil, if_true, List.not_mem_nil, false_iff, not_and]
              intro a
              have := hD'z lc a
              omega
            · intro lc a
              simp only [List.isEmpty_nil, if_true]
              have := hD'z lc a
              omega
            · intro lc
              rw [m5, m4']
              simp only [List.isEmpty_nil, if_true, List.not_mem_nil, false_or]
              constructor
              · rintro ⟨⟨a, b⟩, c⟩
                refine ⟨a, ?_⟩
                rcases b with b | b
                · exact (touch_iff hcr a).1 (c b)
                · exact b
              · rintro ⟨a, b⟩
                exact ⟨⟨a, Or.inr b⟩, fun _ => (touch_iff hcr a).2 b⟩
          · intro lc a
            by_cases hs : OnSurface σ D' lc
            · left
              rw [m5, m4']
              exact ⟨⟨a, Or.inr hs⟩, fun _ => (touch_iff hcr a).2 hs⟩
            · exact Or.inr hs
        | cons r rs =>
          refine ⟨l4, rfl, ?_, Or.inl (by simp)⟩
          exact ⟨g4, by rw [v4, v3, v2], hcr, hnewD', hD'z, nn, m4'⟩
      obtain ⟨l5, e5, h5, -⟩ := hfin
      cases rest with
      | nil =>
        have hunf : Lat.layers inBox σ near l prev [layer] = .ok l5 := by
          rw [Lat.layers, e1]
          have e5' : l4.removeFreeNodes new = .ok l5 := e5
          simp only [e2, e3, e4, e5', Outcome.ok_bind, List.isEmpty_nil, if_true]
          rfl
        refine ⟨l5, P', hunf, h5.g, ?_, ?_⟩
        · intro c
          rw [← hseteq, h5.cross]
          simp
        · intro lc
          rw [← hseteq, ← hset lc, h5.mem]
          simp
      | cons r rs =>
        have hunf : Lat.layers inBox σ near l prev (layer :: r :: rs) = Lat.layers inBox σ near l5 new (r :: rs) := by
          rw [Lat.layers, e1]
          have e5' : l4 = l5 := by simpa using e5
          simp only [e2, e3, e4, e5', Outcome.ok_bind, List.isEmpty_cons, Bool.false_eq_true, if_false]
        rw [hunf]
        obtain ⟨l', P'', f1, f2, f3, f4⟩ := layers_spec (r :: rs) l5 new D' (z + 1) P' h5 hls' (Or.inl (by simp))
        refine ⟨l', P'', f1, f2, ?_, ?_⟩
        · intro c; rw [← hseteq]; exact f3 c
        · intro lc
          rw [← hseteq, f4]
          exact and_congr (hset lc) Iff.rfl

end Verif.Lattice
