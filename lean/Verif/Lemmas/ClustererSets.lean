import Verif.Spec.Clusterer
import Verif.Lemmas.DisjointSets

/-!
# The candidates for merging
-/

namespace Verif.Clusterer

open Verif Verif.AbstractMesh
open Verif.DisjointSets (DS Inv)
open Verif.DisjointSets.Spec (Conn IsClasses)
open Verif.Clusterer.Spec
open Verif.Snapper.Spec (sides)

theorem sides_eq (fs : List Face) : fs.flatMap sidesOf = sides fs := rfl

theorem node_eq (I : Input) (v : Nat) : node I v = I.L.rounded (pos I.vertices v) := rfl

open Classical in
/-- The pairs that are united. -/
noncomputable def joined (I : Input) (es : List (Nat × Nat)) : List (Nat × Nat) := es.filter fun e => node I e.1 = node I e.2

theorem uniteAll_spec (I : Input) {n : Nat} : ∀ (es : List (Nat × Nat)) (s : DS) (us : List (Nat × Nat)), Inv s n us → (∀ e ∈ es, e.1 < n ∧ e.2 < n) →
    ∃ s', uniteAll I es s = .ok s' ∧ Inv s' n (us ++ joined I es) := by
  intro es
  induction es with
  | nil => intro s us h _; exact ⟨s, rfl, by simpa [joined] using h⟩
  | cons e es ih =>
      intro s us h hr
      obtain ⟨u, v⟩ := e
      have hb := hr _ (List.mem_cons_self ..)
      have hr' : ∀ e ∈ es, e.1 < n ∧ e.2 < n := fun e he => hr e (List.mem_cons_of_mem _ he)
      unfold uniteAll
      by_cases hn : node I u = node I v
      · rw [if_pos hn]
        obtain ⟨h1, h2⟩ := (DisjointSets.unite_inv h u v).1 hb
        have e1 : uniteO s u v = .ok (DisjointSets.unite s u v).1 := by
          unfold uniteO
          rcases e : DisjointSets.unite s u v with ⟨s', r⟩
          rw [e] at h1
          dsimp only at h1 ⊢
          rw [h1]
        rw [e1, Outcome.ok_bind]
        obtain ⟨s', e2, h3⟩ := ih _ _ h2 hr'
        refine ⟨s', e2, ?_⟩
        have : joined I ((u, v) :: es) = (u, v) :: joined I es := by simp [joined, hn]
        rw [this]
        simpa using h3
      · rw [if_neg hn]
        obtain ⟨s', e2, h3⟩ := ih _ _ h hr'
        refine ⟨s', e2, ?_⟩
        have : joined I ((u, v) :: es) = joined I es := by simp [joined, hn]
        rw [this]; exact h3

theorem mem_sides {fs : List Face} {e : Nat × Nat} : e ∈ sides fs ↔ ∃ f ∈ fs, e = (f.1, f.2.1) ∨ e = (f.2.1, f.2.2) ∨ e = (f.2.2, f.1) := by
  simp [sides, List.mem_flatMap]

theorem conn_joined (I : Input) : Conn (joined I (sides I.faces)) = Relation.EqvGen (Link I) := by
  unfold Conn
  congr 1
  funext a b
  refine propext ⟨fun h => ?_, fun h => ?_⟩
  · obtain ⟨h1, h2⟩ := List.mem_filter.1 h
    exact ⟨h1, of_decide_eq_true h2⟩
  · exact List.mem_filter.2 ⟨h.1, decide_eq_true (p := node I a = node I b) h.2⟩

theorem conn_node {I : Input} {u v : Nat} (h : Relation.EqvGen (Link I) u v) : node I u = node I v := by
  induction h with
  | rel _ _ h => exact h.2
  | refl => rfl
  | symm _ _ _ ih => exact ih.symm
  | trans _ _ _ _ _ ih1 ih2 => exact ih1.trans ih2

/-- The components. -/
theorem components_spec {I : Input} (hI : ∀ f ∈ I.faces, f.1 < I.vertices.length ∧ f.2.1 < I.vertices.length ∧ f.2.2 < I.vertices.length) :
    ∃ sets gs, uniteAll I (I.faces.flatMap sidesOf) (DisjointSets.init I.vertices.length) = .ok sets ∧ groupsO sets = .ok gs ∧
      IsClasses I.vertices.length (joined I (sides I.faces)) gs := by
  obtain ⟨s, e1, h1⟩ := uniteAll_spec I (sides I.faces) _ [] (DisjointSets.inv_init I.vertices.length) (by
    intro e he
    obtain ⟨f, hf, h⟩ := mem_sides.1 he
    obtain ⟨a, b, c⟩ := hI f hf
    rcases h with rfl | rfl | rfl
    · exact ⟨a, b⟩
    · exact ⟨b, c⟩
    · exact ⟨c, a⟩)
  obtain ⟨gs, e2, h2, -⟩ := DisjointSets.groups_inv h1
  exact ⟨s, gs, e1, e2, h2⟩

/-- The clusters: their members are the candidates. -/
structure Clusters (I : Input) (vf : Nat → List Nat) (cs : List Cluster) : Prop where
  candidate : ∀ c ∈ cs, Candidate I c.vertices
  all : ∀ vs, Candidate I vs → ∃ c ∈ cs, c.vertices = vs
  rep : ∀ c ∈ cs, c.rep = c.vertices.headD 0
  disjoint : cs.Pairwise fun c d => ∀ v ∈ c.vertices, v ∉ d.vertices
  position : ∀ c ∈ cs, c.position = clusteredPosition I vf c.vertices (node I (c.vertices.headD 0))

theorem minElement_ascending {l : List Nat} (h : l.Pairwise (· < ·)) : minElement l = l.headD 0 := by
  cases l with
  | nil => rfl
  | cons a l =>
      rw [List.pairwise_cons] at h
      show l.foldl min a = a
      have : ∀ (l : List Nat), (∀ x ∈ l, a < x) → l.foldl min a = a := by
        intro l
        induction l with
        | nil => intro _; rfl
        | cons b l ih =>
            intro hl
            rw [List.foldl_cons, Nat.min_eq_left (hl b (List.mem_cons_self ..)).le]
            exact ih fun x hx => hl x (List.mem_cons_of_mem _ hx)
      exact this l h.1

theorem inside_iff {I : Input} {v : Nat} : ¬ onOrOutside I (I.L.position (node I v)) ↔
    (let p := I.L.position (I.L.rounded (pos I.vertices v)); let lo := I.L.extLo 1; let hi := I.L.extHi 1
    (lo.1 < p.1 ∧ p.1 < hi.1) ∧ (lo.2.1 < p.2.1 ∧ p.2.1 < hi.2.1) ∧ (lo.2.2 < p.2.2 ∧ p.2.2 < hi.2.2)) := by
  unfold onOrOutside
  rw [node_eq]
  simp only [not_or, not_le, ge_iff_le]

theorem clusters_spec {I : Input} {vf : Nat → List Nat} {gs : List (List Nat)} (h : IsClasses I.vertices.length (joined I (sides I.faces)) gs) :
    Clusters I vf (makeClusters I vf gs) := by
  have hr : ∀ g ∈ gs, ∀ v ∈ g, v < I.vertices.length := by
    intro g hg v hv
    exact List.mem_range.1 (h.cover.mem_iff.1 (List.mem_flatten.2 ⟨g, hg, hv⟩))
  have hdis : gs.Pairwise fun g g' => ∀ v ∈ g, v ∉ g' := by
    have := h.cover.nodup_iff.2 List.nodup_range
    rw [List.nodup_flatten] at this
    refine this.2.imp ?_
    intro a b hab v h1 h2
    exact hab h1 h2
  have hmem : ∀ g ∈ gs, ∀ u ∈ g, ∀ v, v < I.vertices.length → (v ∈ g ↔ Relation.EqvGen (Link I) u v) := by
    intro g hg u hu v hv
    rw [← conn_joined, ← h.same u v (hr g hg u hu) hv]
    constructor
    · intro h'; exact ⟨g, hg, hu, h'⟩
    · rintro ⟨g', hg', hu', hv'⟩
      by_cases hgg : g = g'
      · rw [hgg]; exact hv'
      · obtain ⟨i, hi, rfl⟩ := List.mem_iff_getElem.1 hg
        obtain ⟨j, hj, rfl⟩ := List.mem_iff_getElem.1 hg'
        rw [List.pairwise_iff_getElem] at hdis
        rcases Nat.lt_trichotomy i j with hij | hij | hij
        · exact absurd hu' (hdis i j hi hj hij u hu)
        · subst hij; exact absurd rfl hgg
        · exact absurd hu (hdis j i hj hi hij u hu')
  have hinside : ∀ g ∈ gs, ∀ u ∈ g, ∀ v ∈ g, node I u = node I v := by
    intro g hg u hu v hv
    exact conn_node ((hmem g hg u hu v (hr g hg v hv)).1 hv)
  have hhead : ∀ g ∈ gs, g.headD 0 ∈ g := fun g hg => DisjointSets.headD_mem (h.nonempty g hg)
  have hc : ∀ {c}, c ∈ makeClusters I vf gs → ∃ g ∈ gs, clusterOfComponent I vf g = some c := by
    intro c hc
    exact List.mem_filterMap.1 hc
  have hco : ∀ {g c}, clusterOfComponent I vf g = some c → 2 ≤ g.length ∧ ¬ onOrOutside I (I.L.position (node I (g.headD 0))) ∧
      c = ⟨g, minElement g, clusteredPosition I vf g (node I (minElement g))⟩ := by
    intro g c e
    unfold clusterOfComponent at e
    split at e
    · cases e
    · split at e
      · cases e
      · cases e
        exact ⟨by omega, by assumption, rfl⟩
  refine ⟨?_, ?_, ?_, ?_, ?_⟩
  · intro c hcm
    obtain ⟨g, hg, e⟩ := hc hcm
    obtain ⟨e1, e2, rfl⟩ := hco e
    refine ⟨h.increasing g hg, e1, hr g hg, hmem g hg, ?_⟩
    intro v hv
    rw [← inside_iff, hinside g hg v hv _ (hhead g hg)]
    exact e2
  · intro vs hvs
    have hne : vs ≠ [] := by rintro rfl; have := hvs.two; simp at this
    have hv0 := DisjointSets.headD_mem hne
    obtain ⟨g, hg, hvg⟩ := List.mem_flatten.1 (h.cover.mem_iff.2 (List.mem_range.2 (hvs.bound _ hv0)))
    have hgv : g = vs := by
      have hp : g.Perm vs := by
        rw [List.perm_ext_iff_of_nodup ((h.increasing g hg).imp Nat.ne_of_lt) (hvs.ascending.imp Nat.ne_of_lt)]
        intro a
        constructor
        · intro ha
          exact (hvs.connected _ hv0 a (hr g hg a ha)).2 ((hmem g hg _ hvg a (hr g hg a ha)).1 ha)
        · intro ha
          exact (hmem g hg _ hvg a (hvs.bound a ha)).2 ((hvs.connected _ hv0 a (hvs.bound a ha)).1 ha)
      exact hp.eq_of_pairwise (fun a b _ _ x y => absurd (Nat.lt_trans x y) (Nat.lt_irrefl _)) (h.increasing g hg) hvs.ascending
    subst hgv
    refine ⟨⟨g, minElement g, clusteredPosition I vf g (node I (minElement g))⟩, List.mem_filterMap.2 ⟨g, hg, ?_⟩, rfl⟩
    unfold clusterOfComponent
    rw [if_neg (by have := hvs.two; omega), if_neg (inside_iff.2 (hvs.inside _ hv0))]
  · intro c hcm
    obtain ⟨g, hg, e⟩ := hc hcm
    obtain ⟨e1, e2, rfl⟩ := hco e
    exact minElement_ascending (h.increasing g hg)
  · unfold makeClusters
    rw [List.pairwise_filterMap]
    refine hdis.imp ?_
    intro a b hab c ec d ed
    obtain ⟨-, -, rfl⟩ := hco ec
    obtain ⟨-, -, rfl⟩ := hco ed
    exact hab
  · intro c hcm
    obtain ⟨g, hg, e⟩ := hc hcm
    obtain ⟨e1, e2, rfl⟩ := hco e
    dsimp only
    rw [minElement_ascending (h.increasing g hg)]

end Verif.Clusterer
