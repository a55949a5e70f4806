import Verif.Lemmas.ClustererNet
import Verif.Props.Tetrahedron
import Verif.Props.AbstractMesh
import Verif.Props.Predicates

/-!
# C65: merging the vertices of each lattice node
-/

namespace Verif.Clusterer

open Verif Verif.AbstractMesh
open Verif.Clusterer.Spec
open Verif.Predicates (P3 narrow kTinyFactor kTinyFactor_nonneg)
open Verif.Geometry (Cross cornerSet)
open Verif.Thinner (dotP crossP)
open Verif.Snapper.Spec (sides net Embedded)
open Verif.MeshDefects.Spec (Incident DistinctCorners PathOrCycle link)

variable {I : Input} {out : Out}

/-- **C65, what happens.** For every mesh whose faces have their corners in three different places, every schedule and every order, the call returns:
first all candidates are merged, each in the fitted place, and folded faces are dropped; as long as a merged vertex is to blame for a defect, all
the merges to blame are undone and merging starts again. -/
theorem C65_rounds (hI : Valid I) (hsafe : SnapSafe I) (hes : ∀ a, Spec.Symmetric a → IsEigen a (I.es a)) :
    ∃ out K place, clusterVertices I = .ok out ∧ (∀ c, Candidate I c → IsPlace I c (place c)) ∧ Rounds I place (Candidate I) out K := by
  obtain ⟨vf, out, K, e0, e, h⟩ := cluster_spec hI hsafe
  exact ⟨out, K, Clusterer.place I vf, e, fun c hc => place_spec hI hes e0 hc, h⟩

theorem rounds_done {place : List Nat → P3} {K K' : List Nat → Prop} (h : Rounds I place K out K') :
    (∀ c, K' c → K c) ∧ ∃ num, Quotient I K' place num out ∧ ∀ a c, Flagged out a → ¬ Blamed K' num out a c := by
  induction h with
  | done hq hd => exact ⟨fun _ h => h, _, hq, hd⟩
  | undo hq hb hk hr ih => exact ⟨fun c h => ((hk c).1 (ih.1 c h)).1, ih.2⟩

/-- **C65, the result.** The result is the mesh with some of the candidates merged, each near its node; a vertex with a defect is neither merged nor
does it share a face with a merged one. -/
theorem C65_result (hI : Valid I) (hsafe : SnapSafe I) (e : clusterVertices I = .ok out) :
    ∃ K place num, (∀ c, K c → Candidate I c) ∧ Quotient I K place num out ∧ (∀ a c, Flagged out a → ¬ Blamed K num out a c) ∧
      ∀ v, Incident I.faces v → I.L.rounded (pos out.vertices (num v)) = I.L.rounded (pos I.vertices v) := by
  obtain ⟨vf, out', K, -, e', h⟩ := cluster_spec hI hsafe
  rw [e] at e'
  cases e'
  obtain ⟨hK, num, hq, hd⟩ := rounds_done h
  refine ⟨K, _, num, hK, hq, hd, ?_⟩
  intro v hv
  by_cases hc : ∃ c, K c ∧ v ∈ c
  · obtain ⟨c, k, hm⟩ := hc
    rw [hq.numbering.merged c v k hm, place_node hsafe, node_eq]
    exact (hK c k).node (hK c k).head hm
  · push Not at hc
    rw [hq.numbering.kept v hv hc]

/-- **C65, the exceptions.** A face that refers to no vertex is refused. -/
theorem C65_refused (h : ∃ f ∈ I.faces, ¬ (f.1 < I.vertices.length ∧ f.2.1 < I.vertices.length ∧ f.2.2 < I.vertices.length)) :
    clusterVertices I = .throws .outOfRange := by
  unfold clusterVertices
  rw [MeshDefects.fillVf_fail I.vertices.length I.faces 0 (fun _ => []) (by
    obtain ⟨f, hf, h⟩ := h
    exact fun h' => h (h' f hf))]
  rfl

/-- **C65, the faces.** The corners of each face are three different vertices in three different places. -/
theorem C65_corners (hI : Valid I) (hsafe : SnapSafe I) (e : clusterVertices I = .ok out) : ∀ f ∈ out.faces, Nondeg f ∧
    (f.1 < out.vertices.length ∧ f.2.1 < out.vertices.length ∧ f.2.2 < out.vertices.length) ∧ DistinctCorners (corners out.vertices f) := by
  obtain ⟨vf, out', K, -, e', h⟩ := cluster_spec hI hsafe
  rw [e] at e'
  cases e'
  obtain ⟨hK, num, hq, -⟩ := rounds_done h
  intro f hf
  obtain ⟨f0, hf0, rfl, hn, -⟩ := out_face hq hf
  obtain ⟨i1, i2, i3⟩ := corner_incident hf0
  exact ⟨hn, ⟨hq.numbering.bound _ i1, hq.numbering.bound _ i2, hq.numbering.bound _ i3⟩,
    quotient_distinct hI hsafe hK hq.numbering _ (renamed_mem.2 ⟨f0, hf0, rfl, hn⟩)⟩

/-- **C65, directed edges.** The surplus of faces on one side of an edge of the result is the sum of the surpluses of the edges that were merged
into it: collapsed and dropped faces do not matter. -/
theorem C65_edges (hI : Valid I) (hsafe : SnapSafe I) (e : clusterVertices I = .ok out) :
    ∃ num : Nat → Nat, (∀ u v, Incident I.faces u → Incident I.faces v → num u = num v → I.L.rounded (pos I.vertices u) = I.L.rounded (pos I.vertices v)) ∧
      ∀ a b, a ≠ b → net out.faces a b =
        ((sides I.faces).countP (fun e => num e.1 = a ∧ num e.2 = b) : ℤ) - ((sides I.faces).countP (fun e => num e.1 = b ∧ num e.2 = a) : ℤ) := by
  obtain ⟨K, place, num, hK, hq, -, hr⟩ := C65_result hI hsafe e
  exact ⟨num, fun u v hu hv h => by rw [← hr u hu, ← hr v hv, h], fun a b hab => net_out hq hab⟩

/-- **C65, closed stays closed.** -/
theorem C65_closed (hI : Valid I) (hsafe : SnapSafe I) (e : clusterVertices I = .ok out) (h : ∀ u v, net I.faces u v = 0) : ∀ a b, net out.faces a b = 0 := by
  obtain ⟨K, place, num, hK, hq, -, -⟩ := C65_result hI hsafe e
  intro a b
  by_cases hab : a = b
  · subst hab; exact sub_self _
  · exact net_balanced hq hab fun u v _ _ => h u v

/-- **C65, no singular vertices arise.** If the faces around every vertex are a fan, they are so in the result. -/
theorem C65_no_singular (hI : Valid I) (hsafe : SnapSafe I) (e : clusterVertices I = .ok out) (h : ∀ v, Incident I.faces v → PathOrCycle (link I.faces v)) :
    ∀ a, Incident out.faces a → PathOrCycle (link out.faces a) := by
  obtain ⟨K, place, num, hK, hq, hd, -⟩ := C65_result hI hsafe e
  exact no_singular hI hK hq hd h

/-- **C65, a manifold stays a manifold.** If no directed edge is a side of two faces, the faces around every vertex are a fan, and no boundary
vertex is in a candidate, then the same holds in the result; so a halfedge mesh can be made of it. -/
theorem C65_manifold (hI : Valid I) (hsafe : SnapSafe I) (e : clusterVertices I = .ok out) (hm : Manifold (fun i => I.faces[i]?))
    (h : ∀ v, Incident I.faces v → PathOrCycle (link I.faces v)) (hb : ∀ u v c, net I.faces u v ≠ 0 → Candidate I c → u ∉ c ∧ v ∉ c) :
    Manifold (fun i => out.faces[i]?) ∧ ∃ m, Mesh.ofFaces out.faces = .ok m ∧ Reachable m ∧ ∀ i, faceAt m i = out.faces[i]? := by
  obtain ⟨K, place, num, hK, hq, hd, -⟩ := C65_result hI hsafe e
  have := manifold_out hI hK hq hd hm h (fun u v hne => ⟨fun c k => (hb u v c hne (hK c k)).1, fun c k => (hb u v c hne (hK c k)).2⟩)
  exact ⟨this, (C35_construct out.faces fun f hf => (C65_corners hI hsafe e f hf).1).1 this⟩

/-! ## Intersections -/

theorem meet_of_cross {s t : P3 × P3 × P3} (hs : DistinctCorners s) (ht : DistinctCorners t) (h : Cross s t) : Meet s t :=
  Predicates.C55_faces kTinyFactor_nonneg s t hs ht h

/-- **C65, intersections.** Two faces that intersect in the result (by the code's test) are faces of the mesh in their given places, in the
same order. -/
theorem C65_intersections (hI : Valid I) (hsafe : SnapSafe I) (e : clusterVertices I = .ok out) {i j : Nat} {f g : Face} (hij : i < j)
    (hf : out.faces[i]? = some f) (hg : out.faces[j]? = some g) (h : Meet (corners out.vertices f) (corners out.vertices g)) :
    ∃ (i' j' : Nat) (f' g' : Face), i' < j' ∧ I.faces[i']? = some f' ∧ I.faces[j']? = some g' ∧
      corners I.vertices f' = corners out.vertices f ∧ corners I.vertices g' = corners out.vertices g := by
  obtain ⟨K, place, num, hK, hq, hd, -⟩ := C65_result hI hsafe e
  have hN := hq.numbering
  have hsub : List.Sublist out.faces (I.faces.map (rename num)) := by
    obtain ⟨p, -, e⟩ := hq.faces
    rw [e]
    exact List.filter_sublist.trans List.filter_sublist
  obtain ⟨em, hem⟩ := List.sublist_iff_exists_orderEmbedding_getElem?_eq.1 hsub
  have hfi : Intersecting out.vertices out.faces f := ⟨i, j, g, by omega, hf, hg, by rw [if_pos hij]; exact h⟩
  have hgi : Intersecting out.vertices out.faces g := ⟨j, i, f, by omega, hg, hf, by rw [if_neg (by omega)]; exact h⟩
  have key : ∀ {k : Nat} {f : Face}, out.faces[k]? = some f → Intersecting out.vertices out.faces f → ∃ f', I.faces[em k]? = some f' ∧ corners I.vertices f' = corners out.vertices f := by
    intro k f hk hint
    have h1 := hem k
    rw [hk, List.getElem?_map] at h1
    obtain ⟨f', h2, h3⟩ := Option.map_eq_some_iff.1 h1.symm
    refine ⟨f', h2, ?_⟩
    have hf' : f' ∈ I.faces := List.mem_of_getElem? h2
    have hm : f ∈ out.faces := List.mem_of_getElem? hk
    have hs : ∀ w, Corner f' w → pos out.vertices (num w) = pos I.vertices w := by
      intro w hw
      have iw := incident_corner hf' hw
      refine hN.kept w iw ((single_iff hN hK iw).2 fun c hmg => ?_)
      have hc : Corner f (num w) := by rw [← h3]; exact rename_corner hw
      exact hd (num w) c (Or.inr ⟨f, hm, hc, hint⟩) (Or.inl hmg)
    rw [← h3]
    unfold Spec.corners rename
    dsimp only
    rw [hs _ (Or.inl rfl), hs _ (Or.inr (Or.inl rfl)), hs _ (Or.inr (Or.inr rfl))]
  obtain ⟨f', h1, h2⟩ := key hf hfi
  obtain ⟨g', h3, h4⟩ := key hg hgi
  exact ⟨em i, em j, f', g', em.lt_iff_lt.2 hij, h1, h3, h2, h4⟩

theorem cross_symm {s t : P3 × P3 × P3} (h : Cross s t) : Cross t s := Thinner.cross_symm h

/-- **C65, an embedded mesh stays embedded.** -/
theorem C65_embedded (hI : Valid I) (hsafe : SnapSafe I) (e : clusterVertices I = .ok out) (h : Embedded I.vertices I.faces) : Embedded out.vertices out.faces := by
  have key : ∀ (i j : Nat) (f g : Face), i < j → out.faces[i]? = some f → out.faces[j]? = some g → DistinctCorners (corners out.vertices f) →
      DistinctCorners (corners out.vertices g) → ¬ Cross (corners out.vertices f) (corners out.vertices g) := by
    intro i j f g hij hf hg df dg hc
    obtain ⟨i', j', f', g', hij', hf', hg', e1, e2⟩ := C65_intersections hI hsafe e hij hf hg (meet_of_cross df dg hc)
    have t1 : Thinner.Spec.tri I.vertices f' = corners out.vertices f := e1
    have t2 : Thinner.Spec.tri I.vertices g' = corners out.vertices g := e2
    refine h i' j' f' g' (by omega) hf' hg' ?_ ?_ ?_
    · rw [t1]; exact df
    · rw [t2]; exact dg
    · rw [t1, t2]; exact hc
  intro i j f g hij hf hg df dg hc
  rcases Nat.lt_or_gt_of_ne hij with hlt | hgt
  · exact key i j f g hlt hf hg df dg hc
  · exact key j i g f hgt hg hf dg df (cross_symm hc)

/-! ## Snapping -/

theorem snap_near {tiny lo hi x y : ℝ} (ht : 0 < tiny) (h : Refiner.Spec.SnapsTo tiny lo hi x y) : |y - x| ≤ 3 * tiny := by
  obtain ⟨h1, h2, h3, h4⟩ := h
  rcases le_or_gt tiny |x - lo| with hl | hl
  · rcases le_or_gt tiny |x - hi| with hh | hh
    · rw [h3 hl hh, sub_self, abs_zero]; linarith
    · rcases le_or_gt (2 * tiny) |lo - hi| with hb | hb
      · rw [h2 hh hb, abs_sub_comm]; linarith
      · have := abs_sub_le lo hi x
        rw [abs_sub_comm hi x] at this
        rcases h4 with rfl | rfl | rfl
        · rw [sub_self, abs_zero]; linarith
        · linarith
        · rw [abs_sub_comm]; linarith
  · rcases le_or_gt (2 * tiny) |lo - hi| with hb | hb
    · rw [h1 hl hb, abs_sub_comm]; linarith
    · have := abs_sub_le hi lo x
      rw [abs_sub_comm lo x, abs_sub_comm hi lo] at this
      rcases h4 with rfl | rfl | rfl
      · rw [sub_self, abs_zero]; linarith
      · rw [abs_sub_comm]; linarith
      · linarith

/-- **C65, when merged vertices stay in their cells.** It is enough that the cells of the lattice are not ten million times thinner than the
resolution. -/
theorem C65_snap_safe (hdet : I.L.det ≠ 0) (hres : 0 < I.resolution)
    (h : ∀ w ∈ [PrimLattice.cross I.L.b1 I.L.b2, PrimLattice.cross I.L.b2 I.L.b0, PrimLattice.cross I.L.b0 I.L.b1],
      (|w.1| + |w.2.1| + |w.2.2|) * I.resolution ≤ 10 ^ 7 * |I.L.det|) : SnapSafe I := by
  intro p lc q hq
  obtain ⟨q1, q2, q3⟩ := hq
  have ht : 0 < I.resolution / 10 ^ 10 := by positivity
  have n1 := snap_near ht q1
  have n2 := snap_near ht q2
  have n3 := snap_near ht q3
  have hd : 0 < |I.L.det| := abs_pos.2 hdet
  have hco : ∀ w ∈ [PrimLattice.cross I.L.b1 I.L.b2, PrimLattice.cross I.L.b2 I.L.b0, PrimLattice.cross I.L.b0 I.L.b1],
      |PrimLattice.dot q w / I.L.det - PrimLattice.dot (I.L.clampToNode p lc) w / I.L.det| ≤ 3 / 1000 := by
    intro w hw
    have hw' := h w hw
    generalize I.L.clampToNode p lc = r at *
    have e : PrimLattice.dot q w / I.L.det - PrimLattice.dot r w / I.L.det = ((q.1 - r.1) * w.1 + (q.2.1 - r.2.1) * w.2.1 + (q.2.2 - r.2.2) * w.2.2) / I.L.det := by
      unfold PrimLattice.dot; ring
    rw [e, abs_div, div_le_iff₀ hd]
    have a := abs_add_three ((q.1 - r.1) * w.1) ((q.2.1 - r.2.1) * w.2.1) ((q.2.2 - r.2.2) * w.2.2)
    rw [abs_mul, abs_mul, abs_mul] at a
    have b1 := mul_le_mul_of_nonneg_right n1 (abs_nonneg w.1)
    have b2 := mul_le_mul_of_nonneg_right n2 (abs_nonneg w.2.1)
    have b3 := mul_le_mul_of_nonneg_right n3 (abs_nonneg w.2.2)
    have hk : 3 * (I.resolution / 10 ^ 10) * |w.1| + 3 * (I.resolution / 10 ^ 10) * |w.2.1| + 3 * (I.resolution / 10 ^ 10) * |w.2.2| =
        3 / 10 ^ 10 * ((|w.1| + |w.2.1| + |w.2.2|) * I.resolution) := by ring
    nlinarith
  have c1 := hco _ (List.mem_cons_self ..)
  have c2 := hco _ (List.mem_cons_of_mem _ (List.mem_cons_self ..))
  have c3 := hco _ (List.mem_cons_of_mem _ (List.mem_cons_of_mem _ (List.mem_cons_self ..)))
  have hu := PrimLattice.Prim.unrounded_at hdet (PrimLattice.Prim.clamp1 (I.L.unrounded p).1 lc.x, PrimLattice.Prim.clamp1 (I.L.unrounded p).2.1 lc.y, PrimLattice.Prim.clamp1 (I.L.unrounded p).2.2 lc.z)
  have hc : ∀ (u : ℝ) (c : ℤ), |PrimLattice.Prim.clamp1 u c - c| ≤ 0.495 := by
    intro u c
    unfold PrimLattice.Prim.clamp1
    rw [abs_le]
    constructor
    · have : (c : ℝ) - 0.495 ≤ min (max u ((c : ℝ) - 0.495)) ((c : ℝ) + 0.495) := le_min (le_max_right _ _) (by linarith)
      linarith
    · have : min (max u ((c : ℝ) - 0.495)) ((c : ℝ) + 0.495) ≤ (c : ℝ) + 0.495 := min_le_right _ _
      linarith
  have hu' : I.L.unrounded (I.L.clampToNode p lc) = _ := hu
  unfold PrimLattice.Prim.unrounded PrimLattice.Prim.coords at hu'
  have u1 := congrArg Prod.fst hu'
  have u2 := congrArg (fun x : P3 => x.2.1) hu'
  have u3 := congrArg (fun x : P3 => x.2.2) hu'
  dsimp only at u1 u2 u3
  have fin : ∀ {x y o cl : ℝ} {c : ℤ}, |x - y| ≤ 3 / 1000 → y - o = cl → |cl - c| ≤ 0.495 → PrimLattice.Prim.roundAway (x - o) = c := by
    intro x y o cl c hxy hy hcl
    apply PrimLattice.Prim.round_unique
    have := abs_add_le (x - y) (cl - c)
    have e : x - o - c = (x - y) + (cl - c) := by rw [← hy]; ring
    rw [e]
    norm_num at hcl ⊢
    linarith
  unfold PrimLattice.Prim.rounded PrimLattice.Prim.unrounded PrimLattice.Prim.coords
  dsimp only
  rw [fin c1 u1 (hc _ _), fin c2 u2 (hc _ _), fin c3 u3 (hc _ _)]

/-- **C65, without anisotropy.** For the lattice as it is made by default, merged vertices stay in their cells. -/
theorem C65_snap_safe_isotropic {lo hi : P3} (hres : 0 < I.resolution) (h : I.L = PrimLattice.Prim.make lo hi I.resolution (1, 0, 0) (0, 1, 0) (0, 0, 1)) :
    I.L.det ≠ 0 ∧ SnapSafe I := by
  have hdet : I.L.det = 2 * 0.5773502691896258 * 0.816496580927726 ^ 2 * I.resolution ^ 3 := by
    rw [h]
    simp only [PrimLattice.Prim.det, PrimLattice.Prim.make, PrimLattice.Prim.invMul, PrimLattice.Prim.latticeBasis, PrimLattice.dot, PrimLattice.cross]
    ring
  have hpos : 0 < I.L.det := by rw [hdet]; positivity
  refine ⟨hpos.ne', C65_snap_safe hpos.ne' hres ?_⟩
  rw [abs_of_pos hpos, hdet]
  have h3 : 0 < I.resolution ^ 3 := by positivity
  have hb : ∀ x y z : ℝ, |x| ≤ 1 → |y| ≤ 1 → |z| ≤ 1 → (|x * I.resolution ^ 2| + |y * I.resolution ^ 2| + |z * I.resolution ^ 2|) * I.resolution ≤
      10 ^ 7 * (2 * 0.5773502691896258 * 0.816496580927726 ^ 2 * I.resolution ^ 3) := by
    intro x y z hx hy hz
    have hs : |I.resolution ^ 2| = I.resolution ^ 2 := abs_of_nonneg (by positivity)
    rw [abs_mul, abs_mul, abs_mul, hs]
    have e : (|x| * I.resolution ^ 2 + |y| * I.resolution ^ 2 + |z| * I.resolution ^ 2) * I.resolution = (|x| + |y| + |z|) * I.resolution ^ 3 := by ring
    rw [e]
    have : (|x| + |y| + |z|) ≤ 10 ^ 7 * (2 * 0.5773502691896258 * 0.816496580927726 ^ 2) := by norm_num; linarith
    nlinarith
  rw [h]
  intro w hw
  simp only [List.mem_cons, List.not_mem_nil, or_false, PrimLattice.Prim.make, PrimLattice.Prim.invMul, PrimLattice.Prim.latticeBasis, PrimLattice.cross, PrimLattice.dot] at hw
  rcases hw with rfl | rfl | rfl
  · refine le_trans (le_of_eq ?_) (hb (0.816496580927726 ^ 2) (0.816496580927726 * 0.5773502691896258) (0.5773502691896258 * 0.816496580927726) ?_ ?_ ?_)
    · dsimp only
      congr 2
      · congr 1 <;> congr 1 <;> ring
      · congr 1; ring
    all_goals rw [abs_of_pos] <;> norm_num
  · refine le_trans (le_of_eq ?_) (hb 0 0 (0.5773502691896258 * 0.816496580927726 + 0.5773502691896258 * 0.816496580927726) ?_ ?_ ?_)
    · dsimp only
      congr 2
      · congr 1 <;> congr 1 <;> ring
      · congr 1; ring
    all_goals norm_num [abs_of_pos]
  · refine le_trans (le_of_eq ?_) (hb (0.816496580927726 ^ 2) (-(0.816496580927726 * 0.5773502691896258)) (0.5773502691896258 * 0.816496580927726) ?_ ?_ ?_)
    · dsimp only
      congr 2
      · congr 1 <;> congr 1 <;> ring
      · congr 1; ring
    all_goals norm_num [abs_of_pos, abs_neg]

end Verif.Clusterer
