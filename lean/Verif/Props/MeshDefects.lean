import Verif.Lemmas.MeshIntersect

/-!
# C10: singular_vertices, C11: intersecting_faces
-/

namespace Verif.MeshDefects

open Verif Spec SpatialGrid SpatialGrid.Spec

/-- The constructor succeeds iff every face refers to existing vertices; otherwise it throws `std::out_of_range`. -/
theorem C10_constructor {R : Type} (vertices : List (Point R)) (faces : List Face) :
    ((∀ f ∈ faces, f.1 < vertices.length ∧ f.2.1 < vertices.length ∧ f.2.2 < vertices.length) →
      ∃ M, mk vertices faces = .ok M) ∧
    ((¬ ∀ f ∈ faces, f.1 < vertices.length ∧ f.2.1 < vertices.length ∧ f.2.2 < vertices.length) →
      mk vertices faces = .throws .outOfRange) := by
  constructor
  · intro h
    obtain ⟨vf, e, _⟩ := fillVf_spec vertices.length faces 0 (fun _ => []) h
    exact ⟨⟨vertices, faces, vf⟩, by simp [mk, e]⟩
  · intro h
    simp [mk, fillVf_fail vertices.length faces 0 (fun _ => []) h]

theorem mk_ok {R : Type} {vertices : List (Point R)} {faces : List Face} {M : Finder R}
    (h : mk vertices faces = .ok M) : M.vertices = vertices ∧ M.faces = faces ∧ (∀ v, M.vf v = occ faces 0 v) ∧
      ∀ f ∈ faces, InRange vertices.length f := by
  by_cases hr : ∀ f ∈ faces, InRange vertices.length f
  · obtain ⟨vf, e1, e2⟩ := fillVf_spec vertices.length faces 0 (fun _ => []) hr
    simp only [mk, e1, Outcome.ok_bind, Outcome.pure_eq, Outcome.ok.injEq] at h
    subst h
    exact ⟨rfl, rfl, by simpa using e2, hr⟩
  · rw [(C10_constructor vertices faces).2 hr] at h; cases h

theorem iter_ok {R : Type} {vertices : List (Point R)} {faces : List Face} {M : Finder R}
    (h : mk vertices faces = .ok M) (hnd : ∀ f ∈ faces, NonDegenerate f) (v : Nat) :
    ∃ b, singularIter M v = .ok b ∧ (b = true ↔ Incident faces v ∧ ¬ PathOrCycle (link faces v)) := by
  obtain ⟨h1, h2, h3, h4⟩ := mk_ok h
  have hf : ∀ fi ∈ M.vf v, M.faces[fi]? = some ((faces[fi]?).getD (0, 0, 0)) := by
    intro fi hfi
    rw [h3] at hfi
    obtain ⟨f, hf, _⟩ := mem_occ hfi
    rw [h2, hf]; rfl
  obtain ⟨b, e1, e2⟩ := singularIter_raw M v (fun fi => (faces[fi]?).getD (0, 0, 0)) hf
  refine ⟨b, e1, ?_⟩
  rw [e2]
  have hlink : (M.vf v).map (fun fi => (nextVertex ((faces[fi]?).getD (0, 0, 0)) v,
      prevVertex ((faces[fi]?).getD (0, 0, 0)) v)) = link faces v := by
    rw [← occ_filterMap faces v 0 hnd (fun i => faces[i]?) (fun i => by simp), ← h3, ← List.filterMap_eq_map]
    apply List.filterMap_congr
    intro fi hfi
    have := hf fi hfi
    rw [h2] at this
    simp only [Function.comp_apply]
    rw [this]; rfl
  rw [hlink, h3, Ne, occ_nil, not_not]

/-- **C10.** For every mesh whose faces have three different vertices and every schedule of the parallel loop,
`singular_vertices()` returns each vertex at most once, and exactly the vertices with at least one incident face whose
link is not a single path or cycle.  The set therefore does not depend on the schedule (the order may). -/
theorem C10_singular_vertices {R : Type} (vertices : List (Point R)) (faces : List Face) (M : Finder R)
    (h : mk vertices faces = .ok M) (hnd : ∀ f ∈ faces, NonDegenerate f) (sched : List (List Nat))
    (hs : IsSchedule vertices.length sched) :
    ∃ l, singularVertices M sched = .ok l ∧ l.Nodup ∧
      ∀ v, v ∈ l ↔ v < vertices.length ∧ Incident faces v ∧ ¬ PathOrCycle (link faces v) := by
  obtain ⟨l, e1, e2, e3⟩ := singularVertices_spec M (fun v => Incident faces v ∧ ¬ PathOrCycle (link faces v)) sched
    (fun v _ => iter_ok h hnd v)
  refine ⟨l, e1, e2.nodup (hs.nodup_iff.2 List.nodup_range), ?_⟩
  intro v
  rw [e3, hs.mem_iff, List.mem_range]

theorem C10_schedule_independent {R : Type} (vertices : List (Point R)) (faces : List Face) (M : Finder R)
    (h : mk vertices faces = .ok M) (hnd : ∀ f ∈ faces, NonDegenerate f) (s1 s2 : List (List Nat))
    (h1 : IsSchedule vertices.length s1) (h2 : IsSchedule vertices.length s2) :
    ∃ l1 l2, singularVertices M s1 = .ok l1 ∧ singularVertices M s2 = .ok l2 ∧ l1.Perm l2 := by
  obtain ⟨l1, a1, a2, a3⟩ := C10_singular_vertices vertices faces M h hnd s1 h1
  obtain ⟨l2, b1, b2, b3⟩ := C10_singular_vertices vertices faces M h hnd s2 h2
  exact ⟨l1, l2, a1, b1, (List.perm_ext_iff_of_nodup a2 b2).2 (fun v => by rw [a3, b3])⟩

/-- **C10, degenerate faces.** Without any assumption on the mesh: every vertex of a face that repeats a vertex is
reported. -/
theorem C10_degenerate_face_reported {R : Type} (vertices : List (Point R)) (faces : List Face) (M : Finder R)
    (h : mk vertices faces = .ok M) (sched : List (List Nat)) (hs : IsSchedule vertices.length sched) :
    ∃ l, singularVertices M sched = .ok l ∧ l.Nodup ∧ (∀ v ∈ l, v < vertices.length ∧ Incident faces v) ∧
      ∀ f ∈ faces, ¬ NonDegenerate f → f.1 ∈ l ∧ f.2.1 ∈ l ∧ f.2.2 ∈ l := by
  obtain ⟨h1, h2, h3, h4⟩ := mk_ok h
  have hf : ∀ v, ∀ fi ∈ M.vf v, M.faces[fi]? = some ((faces[fi]?).getD (0, 0, 0)) := by
    intro v fi hfi
    rw [h3] at hfi
    obtain ⟨f, hf, _⟩ := mem_occ hfi
    rw [h2, hf]; rfl
  obtain ⟨l, e1, e2, e3⟩ := singularVertices_spec M _ sched
    (fun v _ => singularIter_raw M v (fun fi => (faces[fi]?).getD (0, 0, 0)) (hf v))
  refine ⟨l, e1, e2.nodup (hs.nodup_iff.2 List.nodup_range), ?_, ?_⟩
  · intro v hv
    obtain ⟨a, b, _⟩ := (e3 v).1 hv
    rw [hs.mem_iff, List.mem_range] at a
    refine ⟨a, ?_⟩
    rw [h3] at b
    by_contra hc
    exact b ((occ_nil faces v 0).2 hc)
  · intro f hfm hdeg
    have key : ∀ v, v < vertices.length → (f.1 = v ∨ f.2.1 = v ∨ f.2.2 = v) → v ∈ l := by
      intro v hv hinc
      rw [e3, hs.mem_iff, List.mem_range]
      refine ⟨hv, ?_, ?_⟩
      · rw [h3, Ne, occ_nil, not_not]; exact ⟨f, hfm, hinc⟩
      · intro hpc
        obtain ⟨fi, hfi⟩ := List.mem_iff_getElem?.1 hfm
        rw [h3] at hpc
        have hsub : ((if f.1 = v then [fi] else []) ++ (if f.2.1 = v then [fi] else [])
            ++ (if f.2.2 = v then [fi] else [])).Sublist (occ faces 0 v) := by
          unfold occ
          have hmem : (f, fi) ∈ faces.zipIdx 0 := by rw [List.mem_zipIdx_iff_getElem?]; exact hfi
          obtain ⟨l1, l2, hl⟩ := List.append_of_mem hmem
          rw [hl, List.flatMap_append, List.flatMap_cons]
          exact (List.sublist_append_left _ _).trans (List.sublist_append_right _ _)
        set E : Nat → Nat × Nat := fun fi => (nextVertex ((faces[fi]?).getD (0, 0, 0)) v,
          prevVertex ((faces[fi]?).getD (0, 0, 0)) v) with hE
        have hEfi : E fi = (nextVertex f v, prevVertex f v) := by simp only [hE, hfi]; rfl
        have hsub' := hsub.map E
        obtain ⟨⟨hloop, hmul⟩, _⟩ := hpc
        have hmult := hmul (nextVertex f v) (prevVertex f v)
        have hge := hsub'.countP_le (p := fun e => decide ((e.1 = nextVertex f v ∧ e.2 = prevVertex f v) ∨
          (e.1 = prevVertex f v ∧ e.2 = nextVertex f v)))
        have hle := hge.trans hmult
        have hone : E fi ∈ (occ faces 0 v).map E := by
          apply hsub'.subset
          rcases hinc with e | e | e <;> simp [e]
        have hnl : nextVertex f v ≠ prevVertex f v := by
          intro e
          rw [hEfi, e] at hone
          exact hloop _ hone
        clear hge hmult hmul hloop hsub' hsub
        have hdeg' : ¬ (f.1 ≠ f.2.1 ∧ f.2.1 ≠ f.2.2 ∧ f.2.2 ≠ f.1) := hdeg
        by_cases a1 : f.1 = v <;> by_cases a2 : f.2.1 = v <;> by_cases a3 : f.2.2 = v <;>
          simp [a1, a2, a3, hEfi, nextVertex, prevVertex] at hle hnl hdeg' hinc
        all_goals simp_all
    obtain ⟨r1, r2, r3⟩ := h4 f hfm
    exact ⟨key _ r1 (Or.inl rfl), key _ r2 (Or.inr (Or.inl rfl)), key _ r3 (Or.inr (Or.inr rfl))⟩

/-- Two triangles glued at one vertex only: that vertex (2) is singular.  The isolated vertex 5 is not. -/
def bowtie : List Face := [(0, 1, 2), (2, 3, 4)]

example : ∃ M, mk (List.replicate 6 ((0, 0, 0) : Point Int)) bowtie = .ok M ∧
    singularVertices M [[3, 4, 5], [0, 2, 1]] = .ok [2] := ⟨_, rfl, by decide⟩

example : (∀ f ∈ bowtie, NonDegenerate f) ∧ IsSchedule 6 [[3, 4, 5], [0, 2, 1]] := by
  constructor
  · simp [bowtie, NonDegenerate]
  · unfold IsSchedule; decide

/-! ## C11 -/

section
variable {R : Type} [LinearOrder R] (cellOf : R → Int) (dflt : Box R) (N : Narrow R)

/-- **C11.** For every mesh whose faces have corners at three different positions, every monotone cell function (grid
resolution), every narrow-phase test and every schedule of the parallel loop, `intersecting_faces()` returns, in strictly
increasing order, exactly the faces that take part in a pair `fi < fj` of intersecting faces. -/
theorem C11_intersecting_faces (hcell : Monotone cellOf) (vertices : List (Point R)) (faces : List Face) (M : Finder R)
    (h : mk vertices faces = .ok M)
    (hd : ∀ fi t, IsTriangle vertices faces fi t → DistinctCorners t)
    (sched : Nat → List (List Nat)) (hs : ∀ n, IsSchedule n (sched n)) :
    ∃ l, intersectingFaces cellOf dflt N M sched = .ok l ∧ l.Pairwise (· < ·) ∧
      ∀ x, x ∈ l ↔ ∃ fi fj ta tb, fi < fj ∧ IsTriangle vertices faces fi ta ∧ IsTriangle vertices faces fj tb ∧
        trianglesIntersect N ta tb = .ok true ∧ (x = fi ∨ x = fj) := by
  obtain ⟨h1, h2, h3, h4⟩ := mk_ok h
  -- the corner positions
  have hex : ∀ fi, fi < faces.length → ∃ t, IsTriangle vertices faces fi t := by
    intro fi hfi
    obtain ⟨r1, r2, r3⟩ := h4 _ (List.getElem_mem hfi)
    exact ⟨(vertices[faces[fi].1], vertices[faces[fi].2.1], vertices[faces[fi].2.2]), faces[fi],
      List.getElem?_eq_getElem hfi, List.getElem?_eq_getElem r1, List.getElem?_eq_getElem r2,
      List.getElem?_eq_getElem r3⟩
  have huniq : ∀ fi t t', IsTriangle vertices faces fi t → IsTriangle vertices faces fi t' → t = t' := by
    rintro fi ⟨a, b, c⟩ ⟨a', b', c'⟩ ⟨f, hf, x1, x2, x3⟩ ⟨f', hf', y1, y2, y3⟩
    rw [hf] at hf'; cases hf'
    simp only at x1 x2 x3 y1 y2 y3
    rw [x1] at y1; rw [x2] at y2; rw [x3] at y3
    cases y1; cases y2; cases y3; rfl
  have hlt : ∀ fi t, IsTriangle vertices faces fi t → fi < faces.length := by
    rintro fi t ⟨f, hf, _⟩
    exact (List.getElem?_eq_some_iff.1 hf).1
  let tri : Nat → Point R × Point R × Point R := fun fi =>
    if hfi : fi < faces.length then Classical.choose (hex fi hfi) else (dflt.lo, dflt.lo, dflt.lo)
  have htri : ∀ fi, fi < faces.length → IsTriangle vertices faces fi (tri fi) := by
    intro fi hfi
    simp only [tri, dif_pos hfi]
    exact Classical.choose_spec (hex fi hfi)
  have htri' : ∀ fi, fi < M.faces.length → IsTriangle M.vertices M.faces fi (tri fi) := by
    rw [h1, h2]; exact htri
  have htd : ∀ fi, fi < M.faces.length → IsTriangle M.vertices M.faces fi (tri fi) ∧ DistinctCorners (tri fi) := by
    intro fi hfi
    exact ⟨htri' fi hfi, by rw [h2] at hfi; exact hd fi _ (htri fi hfi)⟩
  -- fill the grid
  obtain ⟨g, e1, hg⟩ := insertFaces_inv cellOf dflt tri htri' M.faces.length (Nat.le_refl _) 0 (Nat.zero_le _)
    (FaceGrid.init dflt M.faces.length) (by simpa [insertOps] using finv_init cellOf dflt M.faces.length)
  rw [Nat.sub_zero, ← List.range_eq_range'] at e1
  -- collect
  obtain ⟨pairs, e2, hp⟩ := collectPairs_spec cellOf tri M.faces.length (List.range M.faces.length)
    (fun fi hfi => by simpa using hfi) g (fun i hi => ⟨hg.size i (bboxOf (tri i)) (by
      simp only [insertOps, List.mem_map, List.mem_range]
      exact ⟨i, hi, rfl⟩), hg.box i _ (by rw [live_insertOps, if_pos hi])⟩) hg.g []
  have hp' : ∀ p ∈ pairs, p.1 < M.faces.length ∧ p.2 < M.faces.length := by
    intro p hpm
    have := (hp p).1 hpm
    simp only [List.not_mem_nil, false_or, List.mem_range] at this
    exact ⟨this.1, this.2.2.1⟩
  have hflat : ∀ i, i ∈ (sched pairs.length).flatten ↔ i < pairs.length := fun i => by
    rw [(hs pairs.length).mem_iff, List.mem_range]
  obtain ⟨r, e3, hr⟩ := intersectThreads_spec N tri htd pairs hp' (sched pairs.length) (fun i hi => (hflat i).1 hi)
  have hsorted : (r.insertionSort (· ≤ ·)).Pairwise (· ≤ ·) := by
    exact List.pairwise_insertionSort _ _
  obtain ⟨u1, u2⟩ := unique_spec _ hsorted
  refine ⟨unique (r.insertionSort (· ≤ ·)), ?_, u1, ?_⟩
  · simp only [intersectingFaces, e1, e2, e3, Outcome.ok_bind, Outcome.pure_eq]
  · intro x
    rw [u2, List.mem_insertionSort, hr]
    constructor
    · rintro ⟨i, p, _, hpi, hint, hx⟩
      have hm := List.mem_of_getElem? hpi
      obtain ⟨q1, q2⟩ := hp' p hm
      rw [h2] at q1 q2
      have := (hp p).1 hm
      simp only [List.not_mem_nil, false_or] at this
      exact ⟨p.1, p.2, tri p.1, tri p.2, this.2.1, htri _ q1, htri _ q2, hint, hx⟩
    · rintro ⟨fi, fj, ta, tb, hij, hta, htb, hint, hx⟩
      have li := hlt _ _ hta
      have lj := hlt _ _ htb
      obtain rfl := huniq fi ta (tri fi) hta (htri fi li)
      obtain rfl := huniq fj tb (tri fj) htb (htri fj lj)
      obtain ⟨c, c1, c2⟩ := shares_cell cellOf hcell (bboxOf_proper (tri fi)) (bboxOf_proper (tri fj))
        (intersect_overlap N _ _ hint)
      have hm : (fi, fj) ∈ pairs := (hp (fi, fj)).2 (Or.inr ⟨by rw [List.mem_range, h2]; exact li, hij, by rw [h2]; exact lj,
        c, c1, c2⟩)
      obtain ⟨i, hi⟩ := List.mem_iff_getElem?.1 hm
      have hil : i < pairs.length := (List.getElem?_eq_some_iff.1 hi).1
      exact ⟨i, (fi, fj), (hflat i).2 hil, hi, hint, hx⟩

/-- In particular the result does not depend on the schedule at all. -/
theorem C11_schedule_independent (hcell : Monotone cellOf) (vertices : List (Point R)) (faces : List Face)
    (M : Finder R) (h : mk vertices faces = .ok M) (hd : ∀ fi t, IsTriangle vertices faces fi t → DistinctCorners t)
    (s1 s2 : Nat → List (List Nat)) (h1 : ∀ n, IsSchedule n (s1 n)) (h2 : ∀ n, IsSchedule n (s2 n)) :
    intersectingFaces cellOf dflt N M s1 = intersectingFaces cellOf dflt N M s2 := by
  obtain ⟨l1, a1, a2, a3⟩ := C11_intersecting_faces cellOf dflt N hcell vertices faces M h hd s1 h1
  obtain ⟨l2, b1, b2, b3⟩ := C11_intersecting_faces cellOf dflt N hcell vertices faces M h hd s2 h2
  rw [a1, b1]
  congr 1
  have p : l1.Perm l2 := (List.perm_ext_iff_of_nodup (a2.imp (fun h => Nat.ne_of_lt h))
    (b2.imp (fun h => Nat.ne_of_lt h))).2 (fun v => by rw [a3, b3])
  exact p.eq_of_pairwise (fun a b _ _ x y => absurd (Nat.lt_trans x y) (Nat.lt_irrefl _)) a2 b2

end

/-- Three triangles on a line of cells: the first two intersect (according to a narrow phase that always says yes),
the third is far away. -/
def exVertices : List (Point Int) :=
  [(0, 0, 0), (2, 0, 0), (0, 2, 0), (1, 1, -1), (1, 1, 1), (3, 1, 0), (20, 0, 0), (22, 0, 0), (20, 2, 0)]
def exFaces : List Face := [(0, 1, 2), (6, 7, 8), (3, 4, 5)]

example : ∃ M, mk exVertices exFaces = .ok M ∧
    intersectingFaces (fun x : Int => x / 2) ⟨(0, 0, 0), (0, 0, 0)⟩ ⟨fun _ _ _ _ _ => true, fun _ _ _ _ => true⟩ M
      (fun n => [[], List.range n]) = .ok [0, 2] := ⟨_, rfl, by decide⟩

example : ∀ n, IsSchedule n [[], List.range n] := by intro n; simp [IsSchedule]

/-- **A hazard found while modelling.** Faces with repeated corner positions can overflow the fixed-capacity vectors of
`triangles_intersect`: two zero-width triangles sharing a doubled corner throw `std::bad_alloc` inside of the parallel
region, which ends the program.  This is why C11 needs distinct corners. -/
theorem C11_degenerate_faces_overflow (N : Narrow Int) : ∃ M,
    mk [((0, 0, 0) : Point Int), (0, 0, 0), (1, 0, 0), (0, 1, 0)] [(0, 1, 2), (0, 1, 3)] = .ok M ∧
      intersectingFaces (fun x : Int => x) ⟨(0, 0, 0), (0, 0, 0)⟩ N M (fun n => [List.range n]) = .throws .badAlloc :=
  ⟨_, rfl, rfl⟩

end Verif.MeshDefects
