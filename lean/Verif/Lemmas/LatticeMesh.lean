import Verif.Lemmas.LatticeLayers
import Verif.Props.Lattice
import Verif.Spec.LatticeMesh

/-! # The mesh of a node list -/

namespace Verif.Lattice

open Verif Bits

theorem edgeAt_of_getElem? {V : List (LC × Nat)} {i : Nat} {p : LC × Nat} (h : V[i]? = some p) :
    edgeAt V i = edgeOf p ∧ ValidIdx V i := by
  refine ⟨?_, Int.natCast_nonneg i, ?_⟩
  · unfold edgeAt
    rw [Int.toNat_natCast, List.getD_eq_getElem?_getD, h, Option.getD_some]
  · have := (List.getElem?_eq_some_iff.1 h).1
    omega

theorem mapO_rel {f : α → Outcome β} {h : β → γ} {g : α → γ} {Q : β → Prop} : ∀ {xs : List α},
    (∀ x ∈ xs, ∃ y, f x = .ok y ∧ h y = g x ∧ Q y) → ∃ ys, mapO f xs = .ok ys ∧ ys.map h = xs.map g ∧ ∀ y ∈ ys, Q y
  | [], _ => ⟨[], rfl, rfl, by simp⟩
  | x :: xs, H => by
      obtain ⟨y, e1, e2, e3⟩ := H x (by simp)
      obtain ⟨ys, f1, f2, f3⟩ := mapO_rel (xs := xs) (fun z hz => H z (by simp [hz]))
      refine ⟨y :: ys, ?_, by rw [List.map_cons, List.map_cons, e2, f2], ?_⟩
      · simp only [mapO, e1, f1, Outcome.ok_bind, Outcome.pure_eq]
      · intro z hz
        rw [List.mem_cons] at hz
        rcases hz with rfl | hz
        · exact e3
        · exact f3 z hz

theorem edgeOf_stored {near : LC → LC → Bool} {c : Crossing} (hc : GoodCrossing c) : edgeOf (stored near c) = (c.lc1, c.lc0) := by
  have h1 : mkEdge c.lc0 c.lc1 = (c.lc1, c.lc0) := by
    unfold mkEdge
    rw [if_neg (by rw [less_asymm hc.less]; decide)]
  unfold edgeOf stored
  split
  · rw [← hc.nb, h1]
  · have : neighbor c.lc1 (oppositeEdge c.e) = c.lc0 := by rw [hc.nb, neighbor_opp hc.lt]
    simp only [this]
    rw [mkEdge_comm, h1]

theorem edges_nodup {σ : LC → Bool} {near : LC → LC → Bool} {l : Lat} {P : List Crossing} (h : GInv σ near l P) : (l.verts.map edgeOf).Nodup := by
  rw [h.verts, List.map_map]
  apply List.Nodup.map_on _ h.pnodup
  intro c hc c' hc' he
  have g := h.good c hc
  have g' := h.good c' hc'
  simp only [Function.comp_apply, edgeOf_stored g, edgeOf_stored g', Prod.mk.injEq] at he
  obtain ⟨a0, a1, ae⟩ := c
  obtain ⟨b0, b1, be⟩ := c'
  simp only at he
  obtain ⟨rfl, rfl⟩ := he
  have h1 := g.nb
  have h2 := g'.nb
  have h3 := g.lt
  have h4 := g'.lt
  simp only at h1 h2 h3 h4
  rw [neighbor_inj h3 h4 (h1.symm.trans h2)]

/-- which vertices there are -/
theorem mem_edges {σ : LC → Bool} {near : LC → LC → Bool} {l : Lat} {P : List Crossing} {D : LC → Prop} (h : GInv σ near l P)
    (hP : ∀ c, c ∈ P ↔ CrossIn σ D c) (u : UEdge) : u ∈ l.verts.map edgeOf ↔ Crossed σ u ∧ D u.1 ∧ D u.2 := by
  rw [h.verts, List.map_map, List.mem_map]
  constructor
  · rintro ⟨c, hc, rfl⟩
    obtain ⟨g, a, b, s⟩ := (hP c).1 hc
    rw [Function.comp_apply, edgeOf_stored g]
    refine ⟨⟨⟨oppositeEdge c.e, opp_lt g.lt, ?_⟩, g.less, s.symm⟩, b, a⟩
    show c.lc0 = neighbor c.lc1 _
    rw [g.nb, neighbor_opp g.lt]
  · rintro ⟨⟨⟨i, hi, he⟩, hl, hs⟩, a, b⟩
    have g : GoodCrossing ⟨u.2, u.1, oppositeEdge i⟩ := ⟨opp_lt hi, by rw [he, neighbor_opp hi], hl⟩
    exact ⟨_, (hP _).2 ⟨g, b, a, hs.symm⟩, edgeOf_stored g⟩

theorem vertexOnEdge_spec {σ : LC → Bool} {near : LC → LC → Bool} {V : List (LC × Nat)} {P : List Crossing} {D : LC → Prop}
    (hV : V = P.map (stored near)) (hP : ∀ c, c ∈ P ↔ CrossIn σ D c) {a b : LC} {e : Nat} (he : e < 14) (hb : b = neighbor a e)
    {na nb : Node} (ha : NodeOk σ V P a na) (hnb : NodeOk σ V P b nb) (hDa : D a) (hDb : D b) :
    ∃ w, vertexOnEdge na e nb = .ok w ∧ (σ a ≠ σ b → ∃ v, w = some v ∧ edgeAt V v = mkEdge a b ∧ ValidIdx V v) := by
  obtain ⟨-, h1, -⟩ := C53_node_is_map na.v ha.ok
  obtain ⟨-, h2, -⟩ := C53_node_is_map nb.v hnb.ok
  obtain ⟨p1, q1⟩ := h1 e he
  obtain ⟨p2, q2⟩ := h2 (oppositeEdge e) (opp_lt he)
  have hnb' : neighbor b (oppositeEdge e) = a := by rw [hb, neighbor_opp he]
  unfold vertexOnEdge
  by_cases c1 : na.v.hasVertex e = true
  · obtain ⟨v, hv⟩ := p1.1 c1
    refine ⟨some v, ?_, ?_⟩
    · rw [if_pos c1, q1 v hv]; rfl
    · intro _
      obtain ⟨i, rfl, hi⟩ := (ha.abs e he v).1 hv
      obtain ⟨r1, r2⟩ := edgeAt_of_getElem? hi
      exact ⟨i, rfl, by rw [r1, edgeOf, ← hb], r2⟩
  · rw [if_neg c1]
    by_cases c2 : nb.v.hasVertex (oppositeEdge e) = true
    · obtain ⟨v, hv⟩ := p2.1 c2
      refine ⟨some v, ?_, ?_⟩
      · rw [if_pos c2, q2 v hv]; rfl
      · intro _
        obtain ⟨i, rfl, hi⟩ := (hnb.abs _ (opp_lt he) v).1 hv
        obtain ⟨r1, r2⟩ := edgeAt_of_getElem? hi
        refine ⟨i, rfl, ?_, r2⟩
        rw [r1, edgeOf]
        show mkEdge b (neighbor b (oppositeEdge e)) = _
        rw [hnb', mkEdge_comm]
    · rw [if_neg c2]
      refine ⟨none, rfl, ?_⟩
      intro hs
      exfalso
      have key : ∃ c ∈ P, Touch c a e := by
        rcases less_total (neighbor_ne (lc := a) he) with hl | hl
        · exact ⟨⟨a, b, e⟩, (hP _).2 ⟨⟨he, hb, by rw [hb]; exact hl⟩, hDa, hDb, hs⟩, Or.inl ⟨rfl, rfl⟩⟩
        · exact ⟨⟨b, a, oppositeEdge e⟩, (hP _).2 ⟨⟨opp_lt he, hnb'.symm, by rw [hb]; exact hl⟩, hDb, hDa, hs.symm⟩, Or.inr ⟨rfl, opp_opp he⟩⟩
      obtain ⟨c, hc, ht⟩ := key
      have hg := ((hP c).1 hc).1
      have hst : stored near c ∈ V := by rw [hV]; exact List.mem_map_of_mem hc
      obtain ⟨i, hi⟩ := List.mem_iff_getElem?.1 hst
      have hst' : stored near c = (a, e) ∨ stored near c = (b, oppositeEdge e) := by
        unfold stored
        rcases ht with ⟨t1, t2⟩ | ⟨t1, t2⟩
        · split
          · left; rw [t1, t2]
          · right; rw [← t2, hg.nb, hb, t1, t2]
        · split
          · right
            have : c.lc0 = b := by rw [hb, ← t1, ← t2, hg.nb, neighbor_opp hg.lt]
            rw [this, ← t2, opp_opp hg.lt]
          · left; rw [t1, t2]
      rcases hst' with h | h
      · rw [h] at hi
        exact c1 (p1.2 ⟨i, (ha.abs e he i).2 ⟨i, rfl, hi⟩⟩)
      · rw [h] at hi
        exact c2 (p2.2 ⟨i, (hnb.abs _ (opp_lt he) i).2 ⟨i, rfl, hi⟩⟩)

/-- the tables of edges -/
theorem tables (k : Nat) (hk : k < 6) :
    ((tetEdges k).1 < 14 ∧ (tetEdges k).2.1 < 14 ∧ (tetEdges k).2.2 < 14) ∧
    ((tetOuterEdges k).1 < 14 ∧ (tetOuterEdges k).2.1 < 14 ∧ (tetOuterEdges k).2.2 < 14) ∧
    delta (tetEdges k).1 + delta (tetOuterEdges k).1 = delta (tetEdges k).2.1 ∧
    delta (tetEdges k).2.1 + delta (tetOuterEdges k).2.1 = delta (tetEdges k).2.2 ∧
    delta (tetEdges k).2.2 + delta (tetOuterEdges k).2.2 = delta (tetEdges k).1 := by
  have : ∀ k < 6, ((tetEdges k).1 < 14 ∧ (tetEdges k).2.1 < 14 ∧ (tetEdges k).2.2 < 14) ∧
    ((tetOuterEdges k).1 < 14 ∧ (tetOuterEdges k).2.1 < 14 ∧ (tetOuterEdges k).2.2 < 14) ∧
    delta (tetEdges k).1 + delta (tetOuterEdges k).1 = delta (tetEdges k).2.1 ∧
    delta (tetEdges k).2.1 + delta (tetOuterEdges k).2.1 = delta (tetEdges k).2.2 ∧
    delta (tetEdges k).2.2 + delta (tetOuterEdges k).2.2 = delta (tetEdges k).1 := by decide
  exact this k hk

theorem slots_crossed (c : Cls) : ∀ f ∈ slots c, ∀ s, s = f.1 ∨ s = f.2.1 ∨ s = f.2.2 → s < 6 ∧ Cls.get c (slotEnds s).1 ≠ Cls.get c (slotEnds s).2 := by
  have : ∀ c ∈ allCls, ∀ f ∈ slots c, (f.1 < 6 ∧ Cls.get c (slotEnds f.1).1 ≠ Cls.get c (slotEnds f.1).2) ∧
      (f.2.1 < 6 ∧ Cls.get c (slotEnds f.2.1).1 ≠ Cls.get c (slotEnds f.2.1).2) ∧
      (f.2.2 < 6 ∧ Cls.get c (slotEnds f.2.2).1 ≠ Cls.get c (slotEnds f.2.2).2) := by decide
  intro f hf s hs
  obtain ⟨a, b, d⟩ := this c (mem_allCls c) f hf
  rcases hs with rfl | rfl | rfl
  · exact a
  · exact b
  · exact d

theorem slotEnds_lt (s : Nat) : (slotEnds s).1 < 4 ∧ (slotEnds s).2 < 4 := by unfold slotEnds; split <;> decide

theorem getFaces_spec {σ : LC → Bool} {near : LC → LC → Bool} {V : List (LC × Nat)} {nl : NodeList} {P : List Crossing} {D : LC → Prop}
    (hV : V = P.map (stored near)) (hP : ∀ c, c ∈ P ↔ CrossIn σ D c) (hnode : ∀ lc n, nl.ptr lc = some n → NodeOk σ V P lc n)
    (hD : ∀ lc ∈ keys nl, D lc) {lc : LC} {k : Nat} (hk : k < 6) (hin : ∀ i < 4, tetNode lc k i ∈ keys nl) :
    ∃ fs, getFaces nl lc k = .ok fs ∧ fs.map (map3 (edgeAt V)) = tetFaces σ lc k ∧ ∀ f ∈ fs, All3 (ValidIdx V) f := by
  have h0 := hin 0 (by omega)
  have h1 := hin 1 (by omega)
  have h2 := hin 2 (by omega)
  have h3 := hin 3 (by omega)
  obtain ⟨n0, p0⟩ := ptr_exists h0
  obtain ⟨n1, p1⟩ := ptr_exists h1
  obtain ⟨n2, p2⟩ := ptr_exists h2
  obtain ⟨n3, p3⟩ := ptr_exists h3
  have e0 : tetNode lc k 0 = lc := add_zero' lc
  have e1 : tetNode lc k 1 = neighbor lc (tetEdges k).1 := rfl
  have e2 : tetNode lc k 2 = neighbor lc (tetEdges k).2.1 := rfl
  have e3 : tetNode lc k 3 = neighbor lc (tetEdges k).2.2 := rfl
  obtain ⟨⟨a0, a1, a2⟩, ⟨b0, b1, b2⟩, d0, d1, d2⟩ := tables k hk
  have o0 : tetNode lc k 2 = neighbor (tetNode lc k 1) (tetOuterEdges k).1 := by
    rw [e1, e2]; unfold neighbor; rw [add_assoc', d0]
  have o1 : tetNode lc k 3 = neighbor (tetNode lc k 2) (tetOuterEdges k).2.1 := by
    rw [e2, e3]; unfold neighbor; rw [add_assoc', d1]
  have o2 : tetNode lc k 1 = neighbor (tetNode lc k 3) (tetOuterEdges k).2.2 := by
    rw [e1, e3]; unfold neighbor; rw [add_assoc', d2]
  have k0 := hnode _ _ p0
  have k1 := hnode _ _ p1
  have k2 := hnode _ _ p2
  have k3 := hnode _ _ p3
  obtain ⟨w0, v0, r0⟩ := vertexOnEdge_spec hV hP a0 (by rw [e0, e1]) k0 k1 (hD _ h0) (hD _ h1)
  obtain ⟨w1, v1, r1⟩ := vertexOnEdge_spec hV hP a1 (by rw [e0, e2]) k0 k2 (hD _ h0) (hD _ h2)
  obtain ⟨w2, v2, r2⟩ := vertexOnEdge_spec hV hP a2 (by rw [e0, e3]) k0 k3 (hD _ h0) (hD _ h3)
  obtain ⟨w3, v3, r3⟩ := vertexOnEdge_spec hV hP b0 o0 k1 k2 (hD _ h1) (hD _ h2)
  obtain ⟨w4, v4, r4⟩ := vertexOnEdge_spec hV hP b1 o1 k2 k3 (hD _ h2) (hD _ h3)
  obtain ⟨w5, v5, r5⟩ := vertexOnEdge_spec hV hP b2 o2 k3 k1 (hD _ h3) (hD _ h1)
  have hs : ∀ {n : Node} {b : Bool}, n.neg = some b → n.valueSign = .ok b := by
    intro n b hb; simp [Node.valueSign, hb]
  have hW : ∀ s < 6, σ (tetNode lc k (slotEnds s).1) ≠ σ (tetNode lc k (slotEnds s).2) →
      ∃ v, ([w0, w1, w2, w3, w4, w5].getD s none) = some v ∧ edgeAt V v = tetEdge lc k s ∧ ValidIdx V v := by
    intro s hs6
    match s, hs6 with
    | 0, _ => exact r0
    | 1, _ => exact r1
    | 2, _ => exact r2
    | 3, _ => exact r3
    | 4, _ => exact r4
    | 5, _ => exact r5
  have hgf : getFaces nl lc k = mapO (mkFace [w0, w1, w2, w3, w4, w5]) (slots (cls σ lc k)) := by
    rw [e0] at p0
    rw [e1] at p1
    rw [e2] at p2
    rw [e3] at p3
    unfold getFaces
    simp only [at_eq p0, at_eq p1, at_eq p2, at_eq p3, v0, v1, v2, v3, v4, v5, hs k0.neg, hs k1.neg, hs k2.neg, hs k3.neg, Outcome.ok_bind]
    rfl
  obtain ⟨fs, f1, f2, f3⟩ := mapO_rel (f := mkFace [w0, w1, w2, w3, w4, w5]) (h := map3 (edgeAt V)) (g := map3 (tetEdge lc k))
    (Q := All3 (ValidIdx V)) (xs := slots (cls σ lc k)) (by
      intro f hf
      have hx := slots_crossed (cls σ lc k) f hf
      have hy : ∀ s, s = f.1 ∨ s = f.2.1 ∨ s = f.2.2 → ∃ v, ([w0, w1, w2, w3, w4, w5].getD s none) = some v ∧ edgeAt V v = tetEdge lc k s ∧ ValidIdx V v := by
        intro s hs'
        obtain ⟨l1, l2⟩ := hx s hs'
        rw [cls_get σ lc k _ (slotEnds_lt s).1, cls_get σ lc k _ (slotEnds_lt s).2] at l2
        exact hW s l1 l2
      obtain ⟨x1, y1, z1, u1⟩ := hy _ (Or.inl rfl)
      obtain ⟨x2, y2, z2, u2⟩ := hy _ (Or.inr (Or.inl rfl))
      obtain ⟨x3, y3, z3, u3⟩ := hy _ (Or.inr (Or.inr rfl))
      refine ⟨(x1, x2, x3), ?_, by simp only [map3, z1, z2, z3], u1, u2, u3⟩
      unfold mkFace
      rw [y1, y2, y3]
      rfl)
  exact ⟨fs, by rw [hgf, f1], f2, f3⟩

theorem tetExists_iff {nl : NodeList} {lc : LC} (h : lc ∈ keys nl) (k : Nat) : tetExists nl lc k = tetIn (fun p => decide (p ∈ keys nl)) lc k := by
  rw [Bool.eq_iff_iff]
  unfold tetExists tetIn
  simp only [Bool.and_eq_true, has_iff, List.all_eq_true, List.mem_range, decide_eq_true_eq]
  constructor
  · rintro ⟨⟨a, b⟩, c⟩ i hi
    match i, hi with
    | 0, _ => rw [show tetNode lc k 0 = lc from add_zero' lc]; exact h
    | 1, _ => exact a
    | 2, _ => exact b
    | 3, _ => exact c
  · intro H
    exact ⟨⟨H 1 (by omega), H 2 (by omega)⟩, H 3 (by omega)⟩

/-- The mesh of a node list whose nodes have their signs and vertices is the surface of its nodes. -/
theorem getMeshFaces_spec {σ : LC → Bool} {near : LC → LC → Bool} {V : List (LC × Nat)} {nl : NodeList} {P : List Crossing} {D : LC → Prop}
    (hV : V = P.map (stored near)) (hP : ∀ c, c ∈ P ↔ CrossIn σ D c) (hnode : ∀ lc n, nl.ptr lc = some n → NodeOk σ V P lc n)
    (hD : ∀ lc ∈ keys nl, D lc) :
    ∃ fs, getMeshFaces nl = .ok fs ∧ fs.map (map3 (edgeAt V)) = surface (keys nl) σ ∧ ∀ f ∈ fs, All3 (ValidIdx V) f := by
  obtain ⟨fss, f1, f2, f3⟩ := mapO_rel (f := fun p : LC × Node => do
      let gs ← mapO (getFaces nl p.1) ((List.range 6).filter (tetExists nl p.1))
      return gs.flatten) (h := List.map (map3 (edgeAt V)))
    (g := fun p => ((List.range 6).filter (tetIn (fun q => decide (q ∈ keys nl)) p.1)).flatMap (tetFaces σ p.1))
    (Q := fun fs => ∀ f ∈ fs, All3 (ValidIdx V) f) (xs := nl) (by
      intro p hp
      have hk : p.1 ∈ keys nl := List.mem_map_of_mem hp
      obtain ⟨gs, g1, g2, g3⟩ := mapO_rel (f := getFaces nl p.1) (h := List.map (map3 (edgeAt V))) (g := tetFaces σ p.1)
        (Q := fun fs => ∀ f ∈ fs, All3 (ValidIdx V) f) (xs := (List.range 6).filter (tetExists nl p.1)) (by
          intro k hkf
          rw [List.mem_filter, List.mem_range, tetExists_iff hk] at hkf
          obtain ⟨k6, kin⟩ := hkf
          simp only [tetIn, List.all_eq_true, List.mem_range, decide_eq_true_eq] at kin
          exact getFaces_spec hV hP hnode hD k6 kin)
      refine ⟨gs.flatten, ?_, ?_, ?_⟩
      · simp only [g1, Outcome.ok_bind, Outcome.pure_eq]
      · rw [List.map_flatten, g2, List.flatMap_def]
        congr 2
        apply List.filter_congr
        intro k _
        exact tetExists_iff hk k
      · intro f hf
        rw [List.mem_flatten] at hf
        obtain ⟨g, hg, hf⟩ := hf
        exact g3 g hg f hf)
  refine ⟨fss.flatten, ?_, ?_, ?_⟩
  · unfold getMeshFaces
    rw [f1]
    rfl
  · rw [List.map_flatten, f2]
    unfold surface keys
    rw [List.flatMap_def, List.map_map]
    rfl
  · intro f hf
    rw [List.mem_flatten] at hf
    obtain ⟨g, hg, hf⟩ := hf
    exact f3 g hg f hf

/-! ## Nodes without a crossed edge do not matter -/

theorem surface_perm {N N' : List LC} (h : N.Perm N') (σ : LC → Bool) : (surface N σ).Perm (surface N' σ) := by
  unfold surface
  have : (fun p => decide (p ∈ N)) = (fun p => decide (p ∈ N')) := by
    funext p
    rw [decide_eq_decide]
    exact h.mem_iff
  rw [this]
  exact h.flatMap_right _

/-- any two different corners of a tetrahedron are neighbours -/
theorem corners_adjacent (lc : LC) (k i j : Nat) (hk : k < 6) (hi : i < 4) (hj : j < 4) (hij : i ≠ j) :
    ∃ e < 14, tetNode lc k j = neighbor (tetNode lc k i) e := by
  have : ∀ k < 6, ∀ i < 4, ∀ j < 4, i ≠ j → ∃ e < 14, corner k j = corner k i + delta e := by decide
  obtain ⟨e, he, h⟩ := this k hk i hi j hj hij
  refine ⟨e, he, ?_⟩
  unfold tetNode neighbor
  rw [h, add_assoc']

theorem tetFaces_nil_of_free {σ : LC → Bool} {D : LC → Prop} {lc : LC} {k : Nat} (hk : k < 6) (hin : ∀ i < 4, D (tetNode lc k i)) {i : Nat}
    (hi : i < 4) (hfree : ¬ OnSurface σ D (tetNode lc k i)) : tetFaces σ lc k = [] := by
  rw [(C34_faces_on_crossed_edges σ lc k hk).1]
  have key : ∀ j < 4, σ (tetNode lc k j) = σ (tetNode lc k i) := by
    intro j hj
    by_cases hij : i = j
    · rw [hij]
    · obtain ⟨e, he, h⟩ := corners_adjacent lc k i j hk hi hj hij
      by_contra hne
      exact hfree ⟨e, he, by rw [← h]; exact hin j hj, by rw [← h]; exact fun hh => hne hh.symm⟩
  intro j hj
  rw [key j hj, key 0 (by omega)]

theorem surface_free {N R : List LC} {σ : LC → Bool} (hN : N.Nodup) (hR : R.Nodup)
    (h : ∀ lc, lc ∈ N ↔ lc ∈ R ∧ OnSurface σ (· ∈ R) lc) : (surface N σ).Perm (surface R σ) := by
  have hperm : N.Perm (R.filter (fun lc => decide (lc ∈ N))) := by
    rw [List.perm_ext_iff_of_nodup hN (hR.filter _)]
    intro lc
    rw [List.mem_filter, decide_eq_true_eq]
    constructor
    · intro hlc; exact ⟨((h lc).1 hlc).1, hlc⟩
    · exact fun hlc => hlc.2
  let F (S : List LC) (lc : LC) := (((List.range 6).filter (tetIn (fun p => decide (p ∈ S)) lc)).flatMap (tetFaces σ lc))
  have hF : ∀ lc ∈ R, F R lc = if lc ∈ N then F N lc else [] := by
    intro lc hlc
    have hin : ∀ {S : List LC} {k : Nat}, tetIn (fun p => decide (p ∈ S)) lc k = true → ∀ i < 4, tetNode lc k i ∈ S := by
      intro S k ht
      simpa only [tetIn, List.all_eq_true, List.mem_range, decide_eq_true_eq] using ht
    by_cases hn : lc ∈ N
    · rw [if_pos hn]
      show List.flatMap _ _ = List.flatMap _ _
      have : ∀ ks : List Nat, (∀ k ∈ ks, k < 6) → (ks.filter (tetIn (fun p => decide (p ∈ R)) lc)).flatMap (tetFaces σ lc) =
          (ks.filter (tetIn (fun p => decide (p ∈ N)) lc)).flatMap (tetFaces σ lc) := by
        intro ks
        induction ks with
        | nil => intro _; rfl
        | cons k ks ih =>
          intro hks
          have hk := hks k (by simp)
          have ih := ih (fun x hx => hks x (by simp [hx]))
          rw [List.filter_cons, List.filter_cons]
          by_cases c1 : tetIn (fun p => decide (p ∈ R)) lc k = true
          · rw [if_pos c1, List.flatMap_cons, ih]
            by_cases c2 : tetIn (fun p => decide (p ∈ N)) lc k = true
            · rw [if_pos c2, List.flatMap_cons]
            · rw [if_neg c2]
              have : ∃ i < 4, tetNode lc k i ∉ N := by
                by_contra hc
                apply c2
                simp only [tetIn, List.all_eq_true, List.mem_range, decide_eq_true_eq]
                intro i hi
                by_contra hh
                exact hc ⟨i, hi, hh⟩
              obtain ⟨i, hi, hni⟩ := this
              rw [tetFaces_nil_of_free (σ := σ) (D := (· ∈ R)) hk (hin c1) hi (fun ho => hni ((h _).2 ⟨hin c1 i hi, ho⟩)), List.nil_append]
          · have c2 : ¬ tetIn (fun p => decide (p ∈ N)) lc k = true := by
              intro c2
              apply c1
              simp only [tetIn, List.all_eq_true, List.mem_range, decide_eq_true_eq]
              exact fun i hi => ((h _).1 (hin c2 i hi)).1
            rw [if_neg c1, if_neg c2, ih]
      exact this _ (fun k hk => List.mem_range.1 hk)
    · rw [if_neg hn]
      show List.flatMap _ _ = []
      rw [List.flatMap_eq_nil_iff]
      intro k hk
      rw [List.mem_filter, List.mem_range] at hk
      refine tetFaces_nil_of_free (σ := σ) (D := (· ∈ R)) hk.1 (hin hk.2) (i := 0) (by omega) ?_
      rw [show tetNode lc k 0 = lc from add_zero' lc]
      exact fun ho => hn ((h _).2 ⟨hlc, ho⟩)
  have hflat : ∀ (ps : List LC), (∀ p ∈ ps, p ∈ R) → ps.flatMap (F R) = (ps.filter (fun lc => decide (lc ∈ N))).flatMap (F N) := by
    intro ps
    induction ps with
    | nil => intro _; rfl
    | cons p ps ih =>
      intro hp
      rw [List.flatMap_cons, ih (fun x hx => hp x (by simp [hx])), hF p (hp p (by simp)), List.filter_cons]
      by_cases hn : p ∈ N
      · rw [if_pos hn, if_pos (by simpa using hn), List.flatMap_cons]
      · rw [if_neg hn, if_neg (by simpa using hn), List.nil_append]
  show (N.flatMap (F N)).Perm (R.flatMap (F R))
  rw [hflat R (fun _ hp => hp)]
  exact hperm.flatMap_right _

end Verif.Lattice
