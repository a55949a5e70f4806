import Verif.Lemmas.Lattice

/-!
# C34: marching tetrahedra gives an oriented mesh closed inside the sampled region
-/

namespace Verif.Lattice

open Verif

/-- the directed edges contributed by one tetrahedron -/
theorem tetFaces_dir (σ : LC → Bool) (lc : LC) (k : Nat) :
    (tetFaces σ lc k).flatMap dirEdges = (dirSlots (cls σ lc k)).map (fun p => (tetEdge lc k p.1, tetEdge lc k p.2)) := by
  simp only [tetFaces, dirSlots, slots, cls, List.flatMap_map, List.map_flatMap]
  rfl

theorem tetEdge_inj {lc : LC} {k s s' : Nat} (hk : k < 6) (hs : s < 6) (hs' : s' < 6)
    (h : tetEdge lc k s = tetEdge lc k s') : s = s' := by
  rw [tetEdge_eq, tetEdge_eq, Prod.mk.injEq] at h
  apply edge0_inj k s s' hk hs hs'
  exact Prod.ext (add_right_cancel' h.1) (add_right_cancel' h.2)

theorem dir_nodup (σ : LC → Bool) (lc : LC) (k : Nat) (hk : k < 6) :
    ((tetFaces σ lc k).flatMap dirEdges).Nodup := by
  rw [tetFaces_dir]
  apply List.Nodup.map_on _ (dirSlots_nodup _)
  intro p hp q hq h
  have hp' := dirSlots_lt _ p hp
  have hq' := dirSlots_lt _ q hq
  rw [Prod.mk.injEq] at h
  exact Prod.ext (tetEdge_inj hk hp'.1 hq'.1 h.1) (tetEdge_inj hk hp'.2.1 hq'.2.1 h.2)

theorem dir_disjoint (σ : LC → Bool) (lc lc' : LC) (k k' : Nat) (hk : k < 6) (hk' : k' < 6) (u : UEdge × UEdge)
    (h : u ∈ (tetFaces σ lc k).flatMap dirEdges) (h' : u ∈ (tetFaces σ lc' k').flatMap dirEdges) :
    lc = lc' ∧ k = k' := by
  rw [tetFaces_dir, List.mem_map] at h h'
  obtain ⟨⟨s, t⟩, hp, rfl⟩ := h
  obtain ⟨⟨s', t'⟩, hq, heq⟩ := h'
  obtain ⟨hs, ht, hst⟩ := dirSlots_lt _ _ hp
  obtain ⟨hs', ht', _⟩ := dirSlots_lt _ _ hq
  simp only at hs ht hst hs' ht'
  simp only [Prod.mk.injEq, tetEdge_eq] at heq
  have e1 := shiftOf_of_eq (l := lc) (l' := lc') (E := edge0 k s) (E' := edge0 k' s')
    (by rw [Prod.mk.injEq]; exact ⟨heq.1.1.symm, heq.1.2.symm⟩)
  have e2 := shiftOf_of_eq (l := lc) (l' := lc') (E := edge0 k t) (E' := edge0 k' t')
    (by rw [Prod.mk.injEq]; exact ⟨heq.2.1.symm, heq.2.2.symm⟩)
  have hd : lc + (lc' - lc) = lc' := by
    simp only [add_def, sub_def]; apply LC.ext' <;> simp
  have hc := chkUnique_true
  simp only [chkUnique, List.all_eq_true, List.mem_range] at hc
  have h1 := hc k hk k' hk' s hs s' hs'
  rw [e1] at h1
  simp only [Bool.or_eq_true, Bool.and_eq_true, beq_iff_eq, List.all_eq_true, List.mem_range,
    Bool.not_eq_true', beq_eq_false_iff_ne, ne_eq] at h1
  rcases h1 with ⟨h1, h2⟩ | h1
  · refine ⟨?_, h1⟩
    rw [← hd, h2]; simp
  · exfalso
    rcases h1 t ht t' ht' with (h2 | h2) | h2
    · exact hst h2
    · exact h2 e2
    · rcases h2 (cls σ lc k) (mem_allCls _) with h3 | h3
      · have : (dirSlots (cls σ lc k)).contains (s, t) = true := by simpa using hp
        rw [this] at h3; cases h3
      · rcases h3 (cls σ lc' k') (mem_allCls _) with h4 | h4
        · have := compat_cls σ lc (lc' - lc) k k'
          rw [hd, h4] at this; cases this
        · have : (dirSlots (cls σ lc' k')).contains (s', t') = true := by simpa using hq
          rw [this] at h4; cases h4

/-- For every set of nodes and every assignment of signs, each directed edge occurs at most once in the surface: no two
faces have the same directed edge and no face has it twice. -/
theorem C34_directed_edges_unique (nodes : List LC) (hn : nodes.Nodup) (σ : LC → Bool) :
    ((surface nodes σ).flatMap dirEdges).Nodup := by
  unfold surface
  rw [List.flatMap_assoc, List.nodup_flatMap]
  constructor
  · intro lc _
    rw [List.flatMap_assoc, List.nodup_flatMap]
    constructor
    · intro k hk
      exact dir_nodup σ lc k (List.mem_range.mp (List.mem_filter.mp hk).1)
    · have hnd : ((List.range 6).filter (tetIn (fun p => decide (p ∈ nodes)) lc)).Nodup :=
        List.Nodup.filter _ List.nodup_range
      rw [List.nodup_iff_pairwise_ne] at hnd
      apply List.Pairwise.imp_of_mem _ hnd
      intro k k' hk hk' hne u hu hu'
      exact hne (dir_disjoint σ lc lc k k' (List.mem_range.mp (List.mem_filter.mp hk).1)
        (List.mem_range.mp (List.mem_filter.mp hk').1) u hu hu').2
  · rw [List.nodup_iff_pairwise_ne] at hn
    apply List.Pairwise.imp _ hn
    intro lc lc' hne u hu hu'
    simp only [List.flatMap_assoc] at hu hu'
    rw [List.mem_flatMap] at hu hu'
    obtain ⟨k, hk, hu⟩ := hu
    obtain ⟨k', hk', hu'⟩ := hu'
    exact hne (dir_disjoint σ lc lc' k k' (List.mem_range.mp (List.mem_filter.mp hk).1)
      (List.mem_range.mp (List.mem_filter.mp hk').1) u hu hu').1

theorem mem_surface_dir {nodes : List LC} {σ : LC → Bool} {u : UEdge × UEdge} :
    u ∈ (surface nodes σ).flatMap dirEdges ↔
      ∃ lc k, k < 6 ∧ lc ∈ nodes ∧ tetIn (fun p => decide (p ∈ nodes)) lc k = true ∧
        u ∈ (tetFaces σ lc k).flatMap dirEdges := by
  unfold surface
  simp only [List.flatMap_assoc, List.mem_flatMap (l := nodes), List.mem_flatMap (l := List.filter _ _),
    List.mem_filter, List.mem_range]
  constructor
  · rintro ⟨lc, h1, k, ⟨h2, h3⟩, h4⟩
    exact ⟨lc, k, h2, h1, h3, h4⟩
  · rintro ⟨lc, k, h2, h1, h3, h4⟩
    exact ⟨lc, h1, k, ⟨h2, h3⟩, h4⟩

/-- Tetrahedron `k` of the cell at `lc` has the two lattice edges `e` and `f`. -/
def TetHas (lc : LC) (k : Nat) (e f : UEdge) : Prop := (∃ s < 6, tetEdge lc k s = e) ∧ ∃ t < 6, tetEdge lc k t = f

/-- If all the tetrahedra having both ends of a mesh edge among their edges are completely sampled, then the mesh edge
is shared by exactly two faces, in opposite directions. -/
theorem C34_closed_inside (nodes : List LC) (hn : nodes.Nodup) (σ : LC → Bool) (e f : UEdge)
    (h : (e, f) ∈ (surface nodes σ).flatMap dirEdges)
    (hall : ∀ lc k, k < 6 → TetHas lc k e f → ∀ i < 4, tetNode lc k i ∈ nodes) :
    ((surface nodes σ).flatMap dirEdges).count (e, f) = 1 ∧ ((surface nodes σ).flatMap dirEdges).count (f, e) = 1 := by
  have hnd := C34_directed_edges_unique nodes hn σ
  suffices hrev : (f, e) ∈ (surface nodes σ).flatMap dirEdges from
    ⟨List.count_eq_one_of_mem hnd h, List.count_eq_one_of_mem hnd hrev⟩
  rw [mem_surface_dir] at h ⊢
  obtain ⟨lc, k, hk, hmem, hin, hu⟩ := h
  rw [tetFaces_dir, List.mem_map] at hu
  obtain ⟨⟨s, t⟩, hp, heq⟩ := hu
  rw [Prod.mk.injEq] at heq
  obtain ⟨rfl, rfl⟩ := heq
  obtain ⟨hs, ht, hst⟩ := dirSlots_lt _ _ hp
  simp only at hs ht
  have hc := chkClosed_true
  simp only [chkClosed, List.all_eq_true, List.mem_range] at hc
  have h1 := hc k hk (cls σ lc k) (mem_allCls _) (s, t) hp
  rw [Bool.or_eq_true] at h1
  rcases h1 with h1 | h1
  · refine ⟨lc, k, hk, hmem, hin, ?_⟩
    rw [tetFaces_dir, List.mem_map]
    exact ⟨(t, s), by simpa using h1, rfl⟩
  · simp only [List.any_eq_true, List.mem_range] at h1
    obtain ⟨k', hk', s', hs', t', ht', h1⟩ := h1
    split at h1
    · cases h1
    · rename_i d hd
      simp only [Bool.and_eq_true, beq_iff_eq, List.all_eq_true, Bool.or_eq_true, Bool.not_eq_true'] at h1
      obtain ⟨hd2, h2⟩ := h1
      have he : tetEdge lc k s = tetEdge (lc + d) k' s' := by
        rw [tetEdge_eq, tetEdge_eq]; exact eq_of_shiftOf hd
      have hf : tetEdge lc k t = tetEdge (lc + d) k' t' := by
        rw [tetEdge_eq, tetEdge_eq]; exact eq_of_shiftOf hd2
      have hcorners := hall (lc + d) k' hk' ⟨⟨s', hs', he.symm⟩, ⟨t', ht', hf.symm⟩⟩
      refine ⟨lc + d, k', hk', ?_, ?_, ?_⟩
      · have := hcorners 0 (by omega)
        simpa [tetNode, corner] using this
      · simp only [tetIn, List.all_eq_true, List.mem_range, decide_eq_true_eq]
        exact hcorners
      · rw [tetFaces_dir, List.mem_map]
        refine ⟨(t', s'), ?_, by rw [he, hf]⟩
        rcases h2 (cls σ (lc + d) k') (mem_allCls _) with h3 | h3
        · rw [compat_cls] at h3; cases h3
        · simpa using h3

/-- No tetrahedron crossed by the surface is left without a face, an uncrossed one has none, and the vertices of every
face are three different lattice edges that the surface crosses, between corners of one sampled tetrahedron. -/
theorem C34_faces_on_crossed_edges (σ : LC → Bool) (lc : LC) (k : Nat) (hk : k < 6) :
    (tetFaces σ lc k = [] ↔ ∀ i < 4, σ (tetNode lc k i) = σ (tetNode lc k 0)) ∧
    (∀ fc ∈ tetFaces σ lc k, fc.1 ≠ fc.2.1 ∧ fc.2.1 ≠ fc.2.2 ∧ fc.2.2 ≠ fc.1 ∧
      Crossed σ fc.1 ∧ Crossed σ fc.2.1 ∧ Crossed σ fc.2.2) := by
  constructor
  · have : ∀ c ∈ allCls, slots c = [] ↔ ∀ i < 4, Cls.get c i = Cls.get c 0 := by decide
    have h := this (cls σ lc k) (mem_allCls _)
    rw [tetFaces, List.map_eq_nil_iff]
    refine Iff.trans h ?_
    constructor
    · intro h i hi
      rw [← cls_get σ lc k i hi, ← cls_get σ lc k 0 (by omega)]; exact h i hi
    · intro h i hi
      rw [cls_get σ lc k i hi, cls_get σ lc k 0 (by omega)]; exact h i hi
  · intro fc hfc
    have hsl : ∀ c ∈ allCls, ∀ f ∈ slots c, (f.1 < 6 ∧ f.2.1 < 6 ∧ f.2.2 < 6) ∧
        (f.1 ≠ f.2.1 ∧ f.2.1 ≠ f.2.2 ∧ f.2.2 ≠ f.1) ∧
        Cls.get c (slotEnds f.1).1 ≠ Cls.get c (slotEnds f.1).2 ∧
        Cls.get c (slotEnds f.2.1).1 ≠ Cls.get c (slotEnds f.2.1).2 ∧
        Cls.get c (slotEnds f.2.2).1 ≠ Cls.get c (slotEnds f.2.2).2 := by decide
    have hadj : ∀ k < 6, ∀ s < 6, (∃ i < 14, (edge0 k s).2 = neighbor (edge0 k s).1 i) ∧
        (edge0 k s).1.less (edge0 k s).2 = true := by decide
    simp only [tetFaces, List.mem_map] at hfc
    obtain ⟨f, hf, rfl⟩ := hfc
    obtain ⟨⟨b1, b2, b3⟩, ⟨d1, d2, d3⟩, c1, c2, c3⟩ := hsl (cls σ lc k) (mem_allCls _) f hf
    have hends : ∀ s, (slotEnds s).1 < 4 ∧ (slotEnds s).2 < 4 := by
      intro s; unfold slotEnds; split <;> decide
    have hx : ∀ s < 6, Cls.get (cls σ lc k) (slotEnds s).1 ≠ Cls.get (cls σ lc k) (slotEnds s).2 →
        Crossed σ (tetEdge lc k s) := by
      intro s hs hne
      rw [cls_get σ lc k _ (hends s).1, cls_get σ lc k _ (hends s).2] at hne
      obtain ⟨⟨i, hi, h1⟩, h2⟩ := hadj k hk s hs
      refine ⟨⟨i, hi, ?_⟩, ?_, ?_⟩
      · rw [tetEdge_eq]; simp only [neighbor] at h1 ⊢; rw [h1, add_assoc']
      · rw [tetEdge_eq]; simp only [less_add]; exact h2
      · unfold tetEdge mkEdge
        split
        · exact hne
        · exact hne.symm
    refine ⟨fun h => d1 (tetEdge_inj hk b1 b2 h), fun h => d2 (tetEdge_inj hk b2 b3 h),
      fun h => d3 (tetEdge_inj hk b3 b1 h), hx _ b1 c1, hx _ b2 c2, hx _ b3 c3⟩

/-- A cube of nodes with one negative corner in the middle has a non-empty closed surface. -/
def exampleNodes : List LC :=
  ([-1, 0, 1] : List Int).flatMap fun x => ([-1, 0, 1] : List Int).flatMap fun y => ([-1, 0, 1] : List Int).map fun z => ⟨x, y, z⟩

set_option maxRecDepth 100000 in
example : exampleNodes.Nodup ∧ (surface exampleNodes (fun p => p == ⟨0, 0, 0⟩)).length = 24 := by decide +kernel

end Verif.Lattice
