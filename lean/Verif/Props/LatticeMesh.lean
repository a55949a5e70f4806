import Verif.Lemmas.LatticeRuns

/-!
# C34 end to end: the mesh of a lattice is the surface of all its nodes

`addAllNodesOf` and `addFromSeeds` are the two ways a lattice is filled, `getMeshFaces` reads the mesh off the node list in
whatever order the hash map gives.
-/

namespace Verif.Lattice

open Verif Bits

theorem keys_perm {nl nl' : NodeList} (h : nl'.Perm nl) : (keys nl').Perm (keys nl) := h.map _

theorem ptr_perm {nl nl' : NodeList} (h : nl'.Perm nl) (hn : (keys nl).Nodup) (lc : LC) : nl'.ptr lc = nl.ptr lc := by
  have hn' : (keys nl').Nodup := (keys_perm h).nodup_iff.2 hn
  apply Option.ext
  intro n
  rw [ptr_mem hn', ptr_mem hn]
  exact h.mem_iff

/-- from the invariants of the node list to the mesh -/
theorem meshOf {σ : LC → Bool} {near : LC → LC → Bool} {l : Lat} {P : List Crossing} {R : List LC} (h : GInv σ near l P) (hR : R.Nodup)
    (hP : ∀ c, c ∈ P ↔ CrossIn σ (· ∈ R) c) (hk : ∀ lc, lc ∈ keys l.nodes ↔ lc ∈ R ∧ OnSurface σ (· ∈ R) lc) {nl : NodeList}
    (hnl : nl.Perm l.nodes) :
    (∃ fs, getMeshFaces nl = .ok fs ∧ MeshOf σ R l.verts fs) ∧ ∀ p ∈ l.verts, nl.has p.1 = true ∧ nl.has (neighbor p.1 p.2) = true := by
  have hkk := keys_perm hnl
  constructor
  · obtain ⟨fs, f1, f2, f3⟩ := getMeshFaces_spec (nl := nl) (D := (· ∈ R)) h.verts hP
      (fun lc n hp => h.node lc n (by rw [← ptr_perm hnl h.nodup]; exact hp)) (fun lc hlc => ((hk lc).1 (hkk.mem_iff.1 hlc)).1)
    refine ⟨fs, f1, edges_nodup h, mem_edges h hP, f3, ?_⟩
    rw [f2]
    apply surface_free (hkk.nodup_iff.2 h.nodup) hR
    intro lc
    rw [hkk.mem_iff, hk]
  · intro p hp
    rw [has_iff, has_iff, hkk.mem_iff, hkk.mem_iff, hk, hk]
    rw [h.verts, List.mem_map] at hp
    obtain ⟨c, hc, rfl⟩ := hp
    obtain ⟨g, a, b, s⟩ := (hP c).1 hc
    have h0 : OnSurface σ (· ∈ R) c.lc0 := ⟨c.e, g.lt, by rw [← g.nb]; exact b, by rw [← g.nb]; exact s⟩
    have hn : neighbor c.lc1 (oppositeEdge c.e) = c.lc0 := by rw [g.nb, neighbor_opp g.lt]
    have h1 : OnSurface σ (· ∈ R) c.lc1 := ⟨oppositeEdge c.e, opp_lt g.lt, by rw [hn]; exact a, by rw [hn]; exact s.symm⟩
    unfold stored
    split
    · simp only
      rw [← g.nb]
      exact ⟨⟨a, h0⟩, b, h1⟩
    · simp only
      rw [hn]
      exact ⟨⟨b, h1⟩, a, h0⟩

/-- `add_all_nodes` visits `lc` -/
def Visited (r2 : Int × Int) (r1 : Int → Int × Int) (r0 : Int → Int → Int × Int) (lc : LC) : Prop :=
  (r2.1 ≤ lc.z ∧ lc.z ≤ r2.2) ∧ ((r1 lc.z).1 ≤ lc.y ∧ lc.y ≤ (r1 lc.z).2) ∧ (r0 lc.y lc.z).1 ≤ lc.x ∧ lc.x ≤ (r0 lc.y lc.z).2

/-- `add_all_nodes` and `get_mesh`: although the nodes of a layer without a crossing are dropped as soon as the next layer is
there, and the vertices are made layer by layer, the mesh is that of all visited nodes in the box at once.  Nothing throws,
for any signs, any choice of the nearer end and any iteration order of the hash map; and both ends of the edge of every
vertex are still there when its position is computed. -/
theorem C34_all_nodes_mesh (inBox σ : LC → Bool) (near : LC → LC → Bool) (r2 : Int × Int) (r1 : Int → Int × Int) (r0 : Int → Int → Int × Int) :
    ∃ l, addAllNodesOf inBox σ near r2 r1 r0 = .ok l ∧ ∃ R : List LC, R.Nodup ∧ (∀ lc, lc ∈ R ↔ inBox lc = true ∧ Visited r2 r1 r0 lc) ∧
      ∀ nl : NodeList, nl.Perm l.nodes →
        (∃ fs, getMeshFaces nl = .ok fs ∧ MeshOf σ R l.verts fs) ∧ ∀ p ∈ l.verts, nl.has p.1 = true ∧ nl.has (neighbor p.1 p.2) = true := by
  obtain ⟨ls, hls⟩ : ∃ ls, ls = (loopRange r2).map (candidates r1 r0) := ⟨_, rfl⟩
  have hcand : ∀ lc, lc ∈ ls.flatten ↔ Visited r2 r1 r0 lc := by
    intro lc
    rw [hls, ← List.flatMap_def, List.mem_flatMap]
    constructor
    · rintro ⟨z, hz, hlc⟩
      rw [mem_candidates] at hlc
      rw [mem_loopRange] at hz
      obtain ⟨rfl, a, b, c, d⟩ := hlc
      exact ⟨hz, ⟨a, b⟩, c, d⟩
    · rintro ⟨hz, ⟨a, b⟩, c, d⟩
      exact ⟨lc.z, mem_loopRange.2 hz, mem_candidates.2 ⟨rfl, a, b, c, d⟩⟩
  have hlay : ∀ (i : Nat) layer, ls[i]? = some layer → layer.Nodup ∧ ∀ lc ∈ layer, lc.z = (r2.1 - 1) + 1 + i := by
    intro i layer hi
    rw [hls, List.getElem?_map, Option.map_eq_some_iff] at hi
    obtain ⟨z, hz, rfl⟩ := hi
    refine ⟨candidates_nodup _ _ _, ?_⟩
    intro lc hlc
    rw [(mem_candidates.1 hlc).1, loopRange_getElem? hz]
    omega
  obtain ⟨l, P, h1, h2, h3, h4⟩ := layers_spec (inBox := inBox) (σ := σ) (near := near) ls ⟨[], [], []⟩ [] (fun _ => False) (r2.1 - 1) []
    ⟨⟨List.nodup_nil, (by intro lc n hp; cases hp), rfl, by simp, List.nodup_nil⟩, rfl, by
      intro c
      simp only [List.not_mem_nil, false_iff]
      exact fun h => h.2.1, by simp, by simp, List.nodup_nil, by simp [keys]⟩ hlay (Or.inr (fun _ h => h.elim))
  have hnd : (ls.flatten.filter inBox).Nodup := by
    apply List.Nodup.filter
    rw [hls, ← List.flatMap_def, List.nodup_flatMap]
    refine ⟨fun z _ => candidates_nodup _ _ _, ?_⟩
    refine (loopRange_nodup r2).imp ?_
    intro z z' hne lc h h'
    rw [mem_candidates] at h h'
    exact hne (h.1.symm.trans h'.1)
  have hset : (fun lc => False ∨ lc ∈ ls.flatten ∧ inBox lc = true) = (· ∈ ls.flatten.filter inBox) := by
    funext lc
    rw [false_or, List.mem_filter]
  rw [hset] at h3
  have h4' : ∀ lc, lc ∈ keys l.nodes ↔ lc ∈ ls.flatten.filter inBox ∧ OnSurface σ (· ∈ ls.flatten.filter inBox) lc := by
    intro lc
    rw [h4, hset, false_or, List.mem_filter]
  refine ⟨l, by unfold addAllNodesOf addAllNodes; rw [← hls]; exact h1, ls.flatten.filter inBox, hnd, ?_, ?_⟩
  · intro lc
    rw [List.mem_filter, hcand]
    exact and_comm
  · intro nl hnl
    exact meshOf h2 hnd h3 h4' hnl

/-- The seeded filling: for a finite box the loop of `complete_surface` ends, nothing throws, and the mesh is the surface of a
set of nodes `R` that holds every requested node in the box; and if two nodes of `R` joined by an edge of a tetrahedron have
different signs and the tetrahedron lies in the box, then its corners all belong to `R`. -/
theorem C34_seeded_mesh (inBox σ : LC → Bool) (near : LC → LC → Bool) (ord : List LC → List LC) (hord : ∀ l, (ord l).Perm l) (B : List LC)
    (hB : ∀ lc, inBox lc = true → lc ∈ B) (batches : List (List LC)) :
    ∃ l, addFromSeeds inBox σ near ord (B.length + 1) batches = .ok (some l) ∧ ∃ R : List LC, R.Nodup ∧ (∀ lc ∈ R, inBox lc = true) ∧
      (∀ lc ∈ batches.flatten, inBox lc = true → lc ∈ R) ∧
      (∀ lc k, k < 6 → (∀ i < 4, inBox (tetNode lc k i) = true) →
        (∃ i < 4, ∃ j < 4, tetNode lc k i ∈ R ∧ tetNode lc k j ∈ R ∧ σ (tetNode lc k i) ≠ σ (tetNode lc k j)) → ∀ i < 4, tetNode lc k i ∈ R) ∧
      ∀ nl : NodeList, nl.Perm l.nodes →
        (∃ fs, getMeshFaces nl = .ok fs ∧ MeshOf σ R l.verts fs) ∧ ∀ p ∈ l.verts, nl.has p.1 = true ∧ nl.has (neighbor p.1 p.2) = true := by
  have h0 : SInv inBox σ ⟨[], [], []⟩ := ⟨List.nodup_nil, rfl, rfl, (by intro lc n hp; cases hp), by simp [keys]⟩
  obtain ⟨l1, e1, s1, m1⟩ := addBatches_spec batches h0
  obtain ⟨l2, e2, s2, m2, E, hc, hE⟩ := completeSurface_spec hord B hB s1
  obtain ⟨l3, l4, P, e3, e4, g4, hP, hk⟩ := finish_spec (near := near) s2 (hord (keys l2.nodes))
  refine ⟨l4, ?_, keys l2.nodes, s2.nodup, s2.box, ?_, ?_, fun nl hnl => meshOf g4 s2.nodup hP hk hnl⟩
  · unfold addFromSeeds
    rw [e1]
    simp only [Outcome.ok_bind, e2]
    have e3' : l2.generateVertices near (ord (l2.nodes.map Prod.fst)) = .ok l3 := e3
    have e4' : l3.removeFreeNodes (ord (l2.nodes.map Prod.fst)) = .ok l4 := e4
    simp only [e3', e4', Outcome.ok_bind, Outcome.pure_eq]
  · intro lc hlc hb
    exact m2 lc ((m1 lc).2 (Or.inr ⟨hlc, hb⟩))
  · rintro lc k hk6 hbox ⟨i, hi, j, hj, hi', hj', hs⟩ m hm
    have key : ∀ a < 4, tetNode lc k a ∈ keys l2.nodes → E (tetNode lc k a) → tetNode lc k m ∈ keys l2.nodes := by
      intro a ha hin hEa
      by_cases ham : a = m
      · rw [← ham]; exact hin
      · obtain ⟨e, he, hn⟩ := corners_adjacent lc k a m hk6 ha hm ham
        rw [hn]
        refine hE _ hEa e he ?_
        rw [← hn]; exact hbox m hm
    have hij : i ≠ j := by rintro rfl; exact hs rfl
    obtain ⟨e, he, hn⟩ := corners_adjacent lc k i j hk6 hi hj hij
    rcases hc (tetNode lc k i) e he hi' (by rw [← hn]; exact hj') (by rw [← hn]; exact hs) with h | h
    · exact key i hi hi' h
    · exact key j hj hj' (by rw [hn]; exact h)

/-! ## What this means for the indexed mesh -/

theorem map3_dir (g : α → β) (f : α × α × α) : dirEdges (map3 g f) = (dirEdges f).map (fun p => (g p.1, g p.2)) := rfl

theorem dir_map (g : α → β) (fs : List (α × α × α)) : (fs.map (map3 g)).flatMap dirEdges = (fs.flatMap dirEdges).map (fun p => (g p.1, g p.2)) := by
  rw [List.flatMap_map, List.map_flatMap]
  rfl

theorem edgeAt_inj {V : List (LC × Nat)} (h : (V.map edgeOf).Nodup) {i j : Int} (hi : ValidIdx V i) (hj : ValidIdx V j)
    (he : edgeAt V i = edgeAt V j) : i = j := by
  obtain ⟨i0, i1⟩ := hi
  obtain ⟨j0, j1⟩ := hj
  have key : ∀ {i : Int}, 0 ≤ i → i < V.length → ∃ h : i.toNat < (V.map edgeOf).length, (V.map edgeOf)[i.toNat] = edgeAt V i := by
    intro i h0 h1
    refine ⟨by rw [List.length_map]; omega, ?_⟩
    have : i.toNat < V.length := by omega
    rw [List.getElem_map]
    unfold edgeAt
    rw [List.getD_eq_getElem?_getD, List.getElem?_eq_getElem this, Option.getD_some]
  obtain ⟨a, a'⟩ := key i0 i1
  obtain ⟨b, b'⟩ := key j0 j1
  have := (List.Nodup.getElem_inj_iff h (hi := a) (hj := b)).1 (by rw [a', b', he])
  omega

theorem mem_dir_valid {V : List (LC × Nat)} {fs : List Face} (h : ∀ f ∈ fs, All3 (ValidIdx V) f) {p : Int × Int} (hp : p ∈ fs.flatMap dirEdges) :
    ValidIdx V p.1 ∧ ValidIdx V p.2 := by
  rw [List.mem_flatMap] at hp
  obtain ⟨f, hf, hp⟩ := hp
  obtain ⟨a, b, c⟩ := h f hf
  simp only [dirEdges, List.mem_cons, List.not_mem_nil, or_false] at hp
  rcases hp with rfl | rfl | rfl
  · exact ⟨a, b⟩
  · exact ⟨b, c⟩
  · exact ⟨c, a⟩

/-- In the mesh as the user gets it, no directed edge occurs twice, and an edge whose surrounding tetrahedra were all sampled
is shared by exactly two faces, which run along it in opposite directions: the mesh has no hole there. -/
theorem C34_indexed_mesh_closed (σ : LC → Bool) (R : List LC) (hR : R.Nodup) (V : List (LC × Nat)) (fs : List Face) (h : MeshOf σ R V fs) :
    (fs.flatMap dirEdges).Nodup ∧
    ∀ i j, (i, j) ∈ fs.flatMap dirEdges → (∀ lc k, k < 6 → TetHas lc k (edgeAt V i) (edgeAt V j) → ∀ m < 4, tetNode lc k m ∈ R) →
      (fs.flatMap dirEdges).count (i, j) = 1 ∧ (fs.flatMap dirEdges).count (j, i) = 1 := by
  have hp : ((fs.flatMap dirEdges).map (fun p => (edgeAt V p.1, edgeAt V p.2))).Perm ((surface R σ).flatMap dirEdges) := by
    rw [← dir_map]
    exact h.faces.flatMap_right _
  have hnd : (fs.flatMap dirEdges).Nodup := List.Nodup.of_map _ (hp.nodup_iff.2 (C34_directed_edges_unique R hR σ))
  refine ⟨hnd, ?_⟩
  intro i j hij hall
  obtain ⟨c1, c2⟩ := C34_closed_inside R hR σ (edgeAt V i) (edgeAt V j) (hp.mem_iff.1 (List.mem_map.2 ⟨(i, j), hij, rfl⟩)) hall
  have hrev : (edgeAt V j, edgeAt V i) ∈ (surface R σ).flatMap dirEdges := List.count_pos_iff.1 (by omega)
  rw [← hp.mem_iff, List.mem_map] at hrev
  obtain ⟨⟨j', i'⟩, hm, he⟩ := hrev
  simp only [Prod.mk.injEq] at he
  obtain ⟨vi, vj⟩ := mem_dir_valid h.valid hij
  obtain ⟨vj', vi'⟩ := mem_dir_valid h.valid hm
  have e1 := edgeAt_inj h.once vj' vj he.1
  have e2 := edgeAt_inj h.once vi' vi he.2
  simp only at e1 e2
  subst e1 e2
  exact ⟨List.count_eq_one_of_mem hnd hij, List.count_eq_one_of_mem hnd hm⟩

theorem mem_surface {nodes : List LC} {σ : LC → Bool} {f : UEdge × UEdge × UEdge} :
    f ∈ surface nodes σ ↔ ∃ lc k, k < 6 ∧ (∀ i < 4, tetNode lc k i ∈ nodes) ∧ f ∈ tetFaces σ lc k := by
  unfold surface
  simp only [List.mem_flatMap, List.mem_filter, List.mem_range, tetIn, List.all_eq_true, decide_eq_true_eq]
  constructor
  · rintro ⟨lc, -, k, ⟨hk, hin⟩, hf⟩
    exact ⟨lc, k, hk, hin, hf⟩
  · rintro ⟨lc, k, hk, hin, hf⟩
    refine ⟨lc, ?_, k, ⟨hk, hin⟩, hf⟩
    have := hin 0 (by omega)
    rwa [show tetNode lc k 0 = lc from add_zero' lc] at this

/-- The seeded mesh has whole pieces of the full surface: a face of the surface of the whole box that has a vertex in common
with the mesh is in the mesh, and the mesh is closed wherever the surrounding tetrahedra lie in the box. -/
theorem C34_seeded_whole_components (inBox σ : LC → Bool) (near : LC → LC → Bool) (ord : List LC → List LC) (hord : ∀ l, (ord l).Perm l)
    (B : List LC) (hB : ∀ lc, inBox lc = true ↔ lc ∈ B) (batches : List (List LC)) :
    ∃ l, addFromSeeds inBox σ near ord (B.length + 1) batches = .ok (some l) ∧ ∀ nl : NodeList, nl.Perm l.nodes →
      ∃ fs, getMeshFaces nl = .ok fs ∧
        (∀ f ∈ fs, map3 (edgeAt l.verts) f ∈ surface B σ) ∧
        (∀ g ∈ surface B σ, (g.1 ∈ l.verts.map edgeOf ∨ g.2.1 ∈ l.verts.map edgeOf ∨ g.2.2 ∈ l.verts.map edgeOf) →
          ∃ f ∈ fs, map3 (edgeAt l.verts) f = g) ∧
        (∀ i j, (i, j) ∈ fs.flatMap dirEdges →
          (∀ lc k, k < 6 → TetHas lc k (edgeAt l.verts i) (edgeAt l.verts j) → ∀ m < 4, tetNode lc k m ∈ B) →
          (fs.flatMap dirEdges).count (i, j) = 1 ∧ (fs.flatMap dirEdges).count (j, i) = 1) := by
  obtain ⟨l, e, R, hR, hbox, -, hclosed, hmesh⟩ := C34_seeded_mesh inBox σ near ord hord B (fun lc h => (hB lc).1 h) batches
  have hclosed' : ∀ lc k, k < 6 → (∀ i < 4, tetNode lc k i ∈ B) → ∀ s < 6, tetEdge lc k s ∈ l.verts.map edgeOf →
      ∀ i < 4, tetNode lc k i ∈ R := by
    intro lc k hk hin s hs hv
    obtain ⟨⟨fs, -, hm⟩, -⟩ := hmesh l.nodes (List.Perm.refl _)
    obtain ⟨⟨-, -, hne⟩, h1, h2⟩ := (hm.vertices _).1 hv
    refine hclosed lc k hk (fun i hi => (hB _).2 (hin i hi)) ⟨(slotEnds s).1, (slotEnds_lt s).1, (slotEnds s).2, (slotEnds_lt s).2, ?_⟩
    unfold tetEdge mkEdge at h1 h2 hne
    split at h1 <;> rename_i hl
    · rw [if_pos hl] at h2 hne
      exact ⟨h1, h2, hne⟩
    · rw [if_neg hl] at h2 hne
      exact ⟨h2, h1, hne.symm⟩
  refine ⟨l, e, fun nl hnl => ?_⟩
  obtain ⟨⟨fs, f1, hm⟩, -⟩ := hmesh nl hnl
  refine ⟨fs, f1, ?_, ?_, ?_⟩
  · intro f hf
    have := hm.faces.mem_iff.1 (List.mem_map_of_mem hf)
    rw [mem_surface] at this ⊢
    obtain ⟨lc, k, hk, hin, hf⟩ := this
    exact ⟨lc, k, hk, fun i hi => (hB _).1 (hbox _ (hin i hi)), hf⟩
  · intro g hg hv
    rw [mem_surface] at hg
    obtain ⟨lc, k, hk, hin, hf⟩ := hg
    have hg' : g ∈ surface R σ := by
      rw [mem_surface]
      refine ⟨lc, k, hk, ?_, hf⟩
      simp only [tetFaces, List.mem_map] at hf
      obtain ⟨s, hs, rfl⟩ := hf
      have hx := slots_crossed (cls σ lc k) s hs
      rcases hv with hv | hv | hv
      · exact hclosed' lc k hk hin _ (hx _ (Or.inl rfl)).1 hv
      · exact hclosed' lc k hk hin _ (hx _ (Or.inr (Or.inl rfl))).1 hv
      · exact hclosed' lc k hk hin _ (hx _ (Or.inr (Or.inr rfl))).1 hv
    rw [← hm.faces.mem_iff, List.mem_map] at hg'
    exact hg'
  · intro i j hij hall
    refine (C34_indexed_mesh_closed σ R hR l.verts fs hm).2 i j hij ?_
    intro lc k hk ht
    have hin := hall lc k hk ht
    obtain ⟨⟨s, hs, he⟩, -⟩ := ht
    refine hclosed' lc k hk hin s hs ?_
    rw [he]
    obtain ⟨v, -⟩ := mem_dir_valid hm.valid hij
    unfold edgeAt
    rw [List.mem_map]
    refine ⟨_, ?_, rfl⟩
    obtain ⟨v0, v1⟩ := v
    have : i.toNat < l.verts.length := by
      simp only at v0 v1
      omega
    rw [List.getD_eq_getElem?_getD, List.getElem?_eq_getElem this, Option.getD_some]
    exact List.getElem_mem this

/-! ## A concrete case: a cube of 27 nodes with one negative node in the middle -/

def boxE (lc : LC) : Bool := decide (-1 ≤ lc.x ∧ lc.x ≤ 1 ∧ -1 ≤ lc.y ∧ lc.y ≤ 1 ∧ -1 ≤ lc.z ∧ lc.z ≤ 1)
def sigE (lc : LC) : Bool := lc == ⟨0, 0, 0⟩

/-- the number of vertices and faces of a result -/
def sizes (r : Outcome Lat) : Option (Nat × Nat) :=
  match r with
  | .ok l => match getMeshFaces l.nodes with
    | .ok fs => some (l.verts.length, fs.length)
    | _ => none
  | _ => none

set_option maxRecDepth 100000 in
example : sizes (addAllNodesOf boxE sigE (fun _ _ => true) (-1, 1) (fun _ => (-1, 1)) (fun _ _ => (-2, 2))) = some (14, 24) := by decide +kernel

set_option maxRecDepth 100000 in
example : sizes ((addFromSeeds boxE sigE (fun _ _ => false) id 28 [[⟨0, 0, 0⟩, ⟨1, 0, 0⟩]]).bind
    (fun r => match r with | some l => .ok l | none => .ub)) = some (14, 24) := by decide +kernel

end Verif.Lattice
