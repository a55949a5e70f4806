import Verif.Lemmas.PrimitiveLatticeBox
import Verif.Props.LatticeMesh
import Verif.Props.Clip

/-!
# C56: the sampled region is large enough
-/

namespace Verif.PrimLattice

open Verif Verif.Lattice

namespace Prim

/-- the box has its corners in order -/
def Ordered (L : Prim) : Prop := L.lo.1 ≤ L.hi.1 ∧ L.lo.2.1 ≤ L.hi.2.1 ∧ L.lo.2.2 ≤ L.hi.2.2

variable {L : Prim}

/-- The three loops of `add_all_nodes` leave no lattice point of the extended box out: their ranges are defined where such a point is,
and contain it. -/
theorem C56_ranges_cover (L : Prim) (h : L.det ≠ 0) (hb : L.Ordered) :
    ∃ r2, L.thirdRange = .ok r2 ∧ ∀ lc : LC, L.InExt (L.position lc) → (r2.1 ≤ lc.z ∧ lc.z ≤ r2.2) ∧
      ∃ r1, L.secondRange lc.z = .ok r1 ∧ (r1.1 ≤ lc.y ∧ lc.y ≤ r1.2) ∧ ∃ r0, L.firstRange lc.y lc.z = .ok r0 ∧ r0.1 ≤ lc.x ∧ lc.x ≤ r0.2 := by
  obtain ⟨r2, e2, c2⟩ := third_cover h
  obtain ⟨w0, w1, w2⟩ := widths h hb
  refine ⟨r2, e2, fun lc hlc => ?_⟩
  have hin := inBox_iff.2 hlc
  obtain ⟨r1, e1, c1⟩ := second_cover h w0 w1 w2 hin
  obtain ⟨r0, e0, c0⟩ := first_cover h hin
  exact ⟨c2 lc hin, r1, e1, c1, r0, e0, c0⟩

theorem visited_of (h : L.det ≠ 0) (hb : L.Ordered) {r2 : Int × Int} {r1 : Int → Int × Int} {r0 : Int → Int → Int × Int}
    (h2 : ∀ r, L.thirdRange = .ok r → r2 = r) (h1 : ∀ z r, L.secondRange z = .ok r → r1 z = r) (h0 : ∀ y z r, L.firstRange y z = .ok r → r0 y z = r)
    {lc : LC} (hin : L.inBox lc = true) : Visited r2 r1 r0 lc := by
  obtain ⟨s2, e2, c⟩ := C56_ranges_cover L h hb
  obtain ⟨c2, s1, e1, c1, s0, e0, c0⟩ := c lc (inBox_iff.1 hin)
  rw [← h2 _ e2] at c2
  rw [← h1 _ _ e1] at c1
  rw [← h0 _ _ _ e0] at c0
  exact ⟨c2, c1, c0⟩

/-- The mesh of `add_all_nodes` is the surface of the lattice points in the extended box: all of them and no others.  The ranges
`r2`, `r1` and `r0` are those of the code where it defines them and arbitrary elsewhere. -/
theorem C56_all_nodes (L : Prim) (h : L.det ≠ 0) (hb : L.Ordered) (σ : LC → Bool) (near : LC → LC → Bool)
    (r2 : Int × Int) (r1 : Int → Int × Int) (r0 : Int → Int → Int × Int)
    (h2 : ∀ r, L.thirdRange = .ok r → r2 = r) (h1 : ∀ z r, L.secondRange z = .ok r → r1 z = r) (h0 : ∀ y z r, L.firstRange y z = .ok r → r0 y z = r) :
    ∃ l, addAllNodesOf L.inBox σ near r2 r1 r0 = .ok l ∧ ∃ R : List LC, R.Nodup ∧ (∀ lc, lc ∈ R ↔ L.InExt (L.position lc)) ∧
      ∀ nl : NodeList, nl.Perm l.nodes → ∃ fs, getMeshFaces nl = .ok fs ∧ MeshOf σ R l.verts fs := by
  obtain ⟨l, e, R, hR, hmem, hm⟩ := C34_all_nodes_mesh L.inBox σ near r2 r1 r0
  refine ⟨l, e, R, hR, fun lc => ?_, fun nl hnl => (hm nl hnl).1⟩
  rw [hmem, ← inBox_iff]
  exact ⟨fun h => h.1, fun hin => ⟨hin, visited_of h hb h2 h1 h0 hin⟩⟩

/-- But where a plane of the lattice misses the extended box, the code converts an infinite value to `int`: undefined. -/
theorem C56_missing_plane_undefined (L : Prim) (h : L.det ≠ 0) (hb : L.Ordered) (lc2 : Int) (hm : ¬∃ p, L.InExt p ∧ (L.unrounded p).2.2 = lc2) :
    L.secondRange lc2 = .ub := by
  have hnil : L.planeVertices lc2 = [] := by
    rw [List.eq_nil_iff_forall_not_mem]
    intro v hv
    apply hm
    unfold planeVertices at hv
    dsimp only at hv
    rw [List.mem_filterMap] at hv
    obtain ⟨e, -, hv⟩ := hv
    have hc : ∀ i, L.InExt (Prim.corner (L.extLo 2) (L.extHi 2) i) := by
      intro i
      obtain ⟨w0, w1, w2⟩ := widths h hb
      unfold InExt Prim.corner
      refine ⟨⟨?_, ?_, ?_⟩, ?_, ?_, ?_⟩ <;> simp only <;> split <;> first | exact le_rfl | exact w0.le | exact w1.le | exact w2.le
    have h1 := hc e.1
    have h2 := hc e.2
    generalize Prim.corner (L.extLo 2) (L.extHi 2) e.1 = p at hv h1
    generalize Prim.corner (L.extLo 2) (L.extHi 2) e.2 = q at hv h2
    unfold meet at hv
    dsimp only at hv
    split at hv
    · cases hv
    · rename_i hne
      split at hv
      · rename_i ht
        obtain rfl := Option.some.inj hv
        generalize ht' : -(dot (cross L.b0 L.b1) p + _) / _ = t at ht
        rw [div_eq_iff hne] at ht'
        refine ⟨(p.1 + t * (q.1 - p.1), p.2.1 + t * (q.2.1 - p.2.1), p.2.2 + t * (q.2.2 - p.2.2)), ?_, ?_⟩
        · obtain ⟨⟨a1, a2, a3⟩, b1, b2, b3⟩ := h1
          obtain ⟨⟨c1, c2, c3⟩, d1, d2, d3⟩ := h2
          have key : ∀ {l u x y : ℝ}, l ≤ x → l ≤ y → x ≤ u → y ≤ u → l ≤ x + t * (y - x) ∧ x + t * (y - x) ≤ u := by
            intro l u x y i1 i2 i3 i4
            constructor
            · nlinarith [mul_le_mul_of_nonneg_left i2 ht.1, mul_le_mul_of_nonneg_left i1 (sub_nonneg.2 ht.2)]
            · nlinarith [mul_le_mul_of_nonneg_left i4 ht.1, mul_le_mul_of_nonneg_left i3 (sub_nonneg.2 ht.2)]
          exact ⟨⟨(key a1 c1 b1 d1).1, (key a2 c2 b2 d2).1, (key a3 c3 b3 d3).1⟩, (key a1 c1 b1 d1).2, (key a2 c2 b2 d2).2, (key a3 c3 b3 d3).2⟩
        · unfold unrounded coords
          simp only
          rw [sub_eq_iff_eq_add, div_eq_iff h]
          unfold det
          unfold dot cross at *
          simp only at *
          linear_combination (-1) * ht'
      · cases hv
  unfold secondRange
  rw [hnil]
  rfl

/-- That happens in the very first round of the loops unless a corner of the extended box lies on a plane of the lattice. -/
theorem C56_loop_undefined (L : Prim) (h : L.det ≠ 0) (hb : L.Ordered)
    (hc : ∀ i < 8, ∀ k : ℤ, (L.unrounded (Prim.corner (L.extLo 2) (L.extHi 2) i)).2.2 ≠ k) : L.visit = .ub := by
  obtain ⟨-, β, -, b, -, hβ, -⟩ := unrounded_lin L
  obtain ⟨r, hr, -⟩ := third_cover h
  have hlow : (¬∃ p, L.InExt p ∧ (L.unrounded p).2.2 = r.1) ∧ r.1 ≤ r.2 := by
    unfold thirdRange at hr
    dsimp only at hr
    generalize hus : List.map _ (List.range 8) = us at hr
    have hmem : ∀ i < 8, (L.unrounded (Prim.corner (L.extLo 2) (L.extHi 2) i)).2.2 ∈ us := by
      intro i hi
      rw [← hus]
      exact List.mem_map.2 ⟨i, List.mem_range.2 hi, rfl⟩
    obtain ⟨m, h1, h2, -, h3⟩ := fold_minO us none ⟨_, Or.inl (hmem 0 (by norm_num))⟩
    obtain ⟨M, g1, g2, -, -⟩ := fold_maxO us none ⟨_, Or.inl (hmem 0 (by norm_num))⟩
    rw [h1, g1] at hr
    have hr' : (⌊m⌋, ⌈M⌉) = r := Outcome.ok.inj hr
    subst hr'
    have hmM : m ≤ M := (h2 _ (hmem 0 (by norm_num))).trans (g2 _ (hmem 0 (by norm_num)))
    constructor
    · rintro ⟨p, hp, e⟩
      obtain ⟨i, hi, hle⟩ := corner_le β hp.1 hp.2
      have a1 := h2 _ (hmem i hi)
      rw [hβ] at a1 e
      have h4 : m ∈ us := h3.resolve_right (by simp)
      rw [← hus, List.mem_map] at h4
      obtain ⟨j, hj, ej⟩ := h4
      have hne := hc j (List.mem_range.1 hj) ⌊m⌋
      rw [ej] at hne
      have := lt_of_le_of_ne (Int.floor_le m) (Ne.symm hne)
      simp only at e
      linarith
    · show ⌊m⌋ ≤ ⌈M⌉
      have : (⌊m⌋ : ℝ) ≤ ⌈M⌉ := (Int.floor_le m).trans (hmM.trans (Int.le_ceil M))
      exact_mod_cast this
  have hub := C56_missing_plane_undefined L h hb r.1 hlow.1
  unfold visit
  rw [hr]
  simp only [Outcome.ok_bind]
  obtain ⟨rest, hl⟩ : ∃ rest, loopRange r = r.1 :: rest := by
    unfold loopRange
    obtain ⟨n, hn⟩ : ∃ n, (r.2 - r.1 + 1).toNat = n + 1 := ⟨(r.2 - r.1).toNat, by have := hlow.2; omega⟩
    rw [hn, List.range_succ_eq_map, List.map_cons]
    refine ⟨(List.map Nat.succ (List.range n)).map (fun i : Nat => r.1 + (i : Int)), ?_⟩
    simp
  rw [hl]
  unfold Outcome.traverse
  rw [hub]
  rfl

/-! ## The extended box is large enough for clipping -/

/-- a coordinate of a lattice point -/
noncomputable def co (L : Prim) (a b c : ℝ) (lc : LC) : ℝ := ((L.origin.x : ℝ) + lc.x) * a + ((L.origin.y : ℝ) + lc.y) * b + ((L.origin.z : ℝ) + lc.z) * c

theorem co_near {a b c : ℝ} {lc : LC} {k : Nat} (hk : k < 6) {i j : Nat} (hi : i < 4) (hj : j < 4) :
    least (steps a b c) ≤ L.co a b c (tetNode lc k j) - L.co a b c (tetNode lc k i) ∧
    L.co a b c (tetNode lc k j) - L.co a b c (tetNode lc k i) ≤ greatest (steps a b c) := by
  obtain ⟨s1, s2, -⟩ := steps_sign a b c
  by_cases hij : i = j
  · subst hij; rw [sub_self]; exact ⟨s1, s2⟩
  · obtain ⟨e, he, hn⟩ := corners_adjacent lc k i j hk hi hj hij
    have hd : delta e ∈ deltas := by
      unfold delta
      rw [List.getD_eq_getElem?_getD, List.getElem?_eq_getElem (show e < deltas.length from he), Option.getD_some]
      exact List.getElem_mem _
    have hb := steps_bound (a := a) (b := b) (c := c) hd
    have e2 : L.co a b c (tetNode lc k j) - L.co a b c (tetNode lc k i) = ((delta e).x : ℝ) * a + ((delta e).y : ℝ) * b + ((delta e).z : ℝ) * c := by
      rw [hn]
      generalize tetNode lc k i = n
      have hx : (neighbor n e).x = n.x + (delta e).x := rfl
      have hy : (neighbor n e).y = n.y + (delta e).y := rfl
      have hz : (neighbor n e).z = n.z + (delta e).z := rfl
      unfold co
      rw [hx, hy, hz]
      push_cast
      ring
    rw [e2]
    exact hb

theorem slot_lt (s : Nat) : (slotEnds s).1 < 4 ∧ (slotEnds s).2 < 4 := slotEnds_lt s

/-- a point on an edge of a tetrahedron is as near to its corners as they are to each other -/
theorem tet_near {a b c : ℝ} {lc : LC} {k : Nat} (hk : k < 6) {j : Nat} (hj : j < 4) {v : LC × Nat} {t : ℝ} (h0 : 0 ≤ t) (h1 : t ≤ 1)
    {s : Nat} (hv : tetEdge lc k s = edgeOf v) :
    least (steps a b c) ≤ L.co a b c (tetNode lc k j) - (L.co a b c v.1 + t * (L.co a b c (neighbor v.1 v.2) - L.co a b c v.1)) ∧
    L.co a b c (tetNode lc k j) - (L.co a b c v.1 + t * (L.co a b c (neighbor v.1 v.2) - L.co a b c v.1)) ≤ greatest (steps a b c) := by
  obtain ⟨p, q, hp, hq, e1, e2⟩ : ∃ p q, p < 4 ∧ q < 4 ∧ v.1 = tetNode lc k p ∧ neighbor v.1 v.2 = tetNode lc k q := by
    have hs := slot_lt s
    unfold tetEdge edgeOf mkEdge at hv
    split at hv <;> split at hv <;> simp only [Prod.mk.injEq] at hv
    · exact ⟨_, _, hs.1, hs.2, hv.1.symm, hv.2.symm⟩
    · exact ⟨_, _, hs.2, hs.1, hv.2.symm, hv.1.symm⟩
    · exact ⟨_, _, hs.2, hs.1, hv.1.symm, hv.2.symm⟩
    · exact ⟨_, _, hs.1, hs.2, hv.2.symm, hv.1.symm⟩
  rw [e2, e1]
  obtain ⟨a1, a2⟩ := co_near (L := L) (a := a) (b := b) (c := c) (lc := lc) hk hp hj
  obtain ⟨b1, b2⟩ := co_near (L := L) (a := a) (b := b) (c := c) (lc := lc) hk hq hj
  generalize L.co a b c (tetNode lc k j) = x at *
  generalize L.co a b c (tetNode lc k p) = y at *
  generalize L.co a b c (tetNode lc k q) = z at *
  have e : x - (y + t * (z - y)) = (1 - t) * (x - y) + t * (x - z) := by ring
  rw [e]
  constructor
  · nlinarith [mul_le_mul_of_nonneg_left a1 (sub_nonneg.2 h1), mul_le_mul_of_nonneg_left b1 h0]
  · nlinarith [mul_le_mul_of_nonneg_left a2 (sub_nonneg.2 h1), mul_le_mul_of_nonneg_left b2 h0]

theorem snap_lt {tiny lo hi x : ℝ} (hw : tiny ≤ hi - lo) (h : snap1 tiny lo hi x < hi) : x < hi := by
  unfold snap1 at h
  dsimp only at h
  by_cases h1 : |x - lo| < tiny
  · have := (abs_lt.1 h1).2
    linarith
  · rw [if_neg h1] at h
    split at h
    · exact absurd h (lt_irrefl _)
    · exact h

theorem lt_snap {tiny lo hi x : ℝ} (hw : tiny ≤ hi - lo) (h : lo < snap1 tiny lo hi x) : lo < x := by
  unfold snap1 at h
  dsimp only at h
  by_cases h1 : |x - lo| < tiny
  · rw [if_pos h1] at h
    split at h
    · rename_i h2
      have := (abs_lt.1 h2).1
      linarith
    · exact absurd h (lt_irrefl _)
  · rw [if_neg h1] at h
    split at h
    · rename_i h2
      have := (abs_lt.1 h2).1
      linarith
    · exact h

/-- one coordinate of a corner of a tetrahedron with two mesh vertices on its edges that are not both beyond one side of the box -/
theorem co_in {a b c lo hi tiny : ℝ} (hlh : tiny ≤ hi - lo) {lc : LC} {k : Nat} (hk : k < 6) {j : Nat} (hj : j < 4) {v w : LC × Nat} {t u : ℝ}
    (ht : 0 ≤ t ∧ t ≤ 1) (hu : 0 ≤ u ∧ u ≤ 1) {s r : Nat} (hv : tetEdge lc k s = edgeOf v) (hw : tetEdge lc k r = edgeOf w)
    (h1 : ¬(hi ≤ snap1 tiny lo hi (L.co a b c v.1 + t * (L.co a b c (neighbor v.1 v.2) - L.co a b c v.1)) ∧
      hi ≤ snap1 tiny lo hi (L.co a b c w.1 + u * (L.co a b c (neighbor w.1 w.2) - L.co a b c w.1))))
    (h2 : ¬(snap1 tiny lo hi (L.co a b c v.1 + t * (L.co a b c (neighbor v.1 v.2) - L.co a b c v.1)) ≤ lo ∧
      snap1 tiny lo hi (L.co a b c w.1 + u * (L.co a b c (neighbor w.1 w.2) - L.co a b c w.1)) ≤ lo)) :
    lo + (2 : ℕ) * 1.01 * least (steps a b c) ≤ L.co a b c (tetNode lc k j) ∧ L.co a b c (tetNode lc k j) ≤ hi + (2 : ℕ) * 1.01 * greatest (steps a b c) := by
  obtain ⟨v1, v2⟩ := tet_near (L := L) (a := a) (b := b) (c := c) hk hj ht.1 ht.2 hv
  obtain ⟨w1, w2⟩ := tet_near (L := L) (a := a) (b := b) (c := c) hk hj hu.1 hu.2 hw
  obtain ⟨s1, s2, -⟩ := steps_sign a b c
  generalize L.co a b c v.1 + t * (L.co a b c (neighbor v.1 v.2) - L.co a b c v.1) = x at *
  generalize L.co a b c w.1 + u * (L.co a b c (neighbor w.1 w.2) - L.co a b c w.1) = y at *
  push_cast
  constructor
  · rw [not_and_or, not_le, not_le] at h2
    rcases h2 with h | h
    · have := lt_snap hlh h; linarith
    · have := lt_snap hlh h; linarith
  · rw [not_and_or, not_le, not_le] at h1
    rcases h1 with h | h
    · have := snap_lt hlh h; linarith
    · have := snap_lt hlh h; linarith

theorem clamp_unit (t : ℝ) : (0 : ℝ) ≤ max 1e-4 (min t (1 - 1e-4)) ∧ max 1e-4 (min t (1 - 1e-4)) ≤ (1 : ℝ) := by
  constructor
  · exact le_trans (by norm_num) (le_max_left _ _)
  · exact max_le (by norm_num) ((min_le_right _ _).trans (by norm_num))

/-- the box is not narrower than the tolerance for snapping vertices to it -/
def Wide (L : Prim) (res : ℝ) : Prop :=
  1e-10 * res ≤ L.hi.1 - L.lo.1 ∧ 1e-10 * res ≤ L.hi.2.1 - L.lo.2.1 ∧ 1e-10 * res ≤ L.hi.2.2 - L.lo.2.2

theorem tet_inExt {res : ℝ} (hw : L.Wide res) {τ : LC × Nat → ℝ} {v w : LC × Nat} {lc : LC} {k : Nat} (hk : k < 6)
    (ht : TetHas lc k (edgeOf v) (edgeOf w))
    (hb : ¬Clip.Beyond L.lo L.hi (L.snapToBox res (L.vertexPos v.1 v.2 (τ v))) (L.snapToBox res (L.vertexPos w.1 w.2 (τ w)))) :
    ∀ m < 4, L.InExt (L.position (tetNode lc k m)) := by
  intro m hm
  obtain ⟨⟨s, -, hs⟩, r, -, hr⟩ := ht
  unfold Clip.Beyond at hb
  push Not at hb
  obtain ⟨b1, b2, b3, b4, b5, b6⟩ := hb
  have hx := co_in (L := L) (a := L.b0.1) (b := L.b1.1) (c := L.b2.1) hw.1 hk hm (clamp_unit (τ v)) (clamp_unit (τ w)) hs hr
    (fun h => absurd h.2 (not_le.2 (b1 h.1))) (fun h => absurd h.2 (not_le.2 (b2 h.1)))
  have hy := co_in (L := L) (a := L.b0.2.1) (b := L.b1.2.1) (c := L.b2.2.1) hw.2.1 hk hm (clamp_unit (τ v)) (clamp_unit (τ w)) hs hr
    (fun h => absurd h.2 (not_le.2 (b3 h.1))) (fun h => absurd h.2 (not_le.2 (b4 h.1)))
  have hz := co_in (L := L) (a := L.b0.2.2) (b := L.b1.2.2) (c := L.b2.2.2) hw.2.2 hk hm (clamp_unit (τ v)) (clamp_unit (τ w)) hs hr
    (fun h => absurd h.2 (not_le.2 (b5 h.1))) (fun h => absurd h.2 (not_le.2 (b6 h.1)))
  exact ⟨⟨hx.1, hy.1, hz.1⟩, hx.2, hy.2, hz.2⟩

/-- the count of a directed edge survives the conversion of valid indices -/
theorem count_toNat {V : List (LC × Nat)} {fs : List Face} (hv : ∀ f ∈ fs, All3 (ValidIdx V) f) (i j : Nat) :
    ((fs.map fun f : Face => (f.1.toNat, f.2.1.toNat, f.2.2.toNat)).flatMap Clip.dirEdges).count (i, j) =
      (fs.flatMap dirEdges).count ((i : Int), (j : Int)) := by
  induction fs with
  | nil => simp
  | cons f fs ih =>
    simp only [List.map_cons, List.flatMap_cons, List.count_append]
    rw [ih fun g hg => hv g (List.mem_cons_of_mem _ hg)]
    congr 1
    obtain ⟨⟨a, -⟩, ⟨b, -⟩, ⟨c, -⟩⟩ := hv f List.mem_cons_self
    have key : ∀ x y : Int, 0 ≤ x → 0 ≤ y → ((x.toNat, y.toNat) = (i, j) ↔ (x, y) = ((i : Int), (j : Int))) := by
      intro x y hx hy
      simp only [Prod.mk.injEq]
      omega
    simp only [Clip.dirEdges, Lattice.dirEdges, List.count_cons, List.count_nil, beq_iff_eq]
    simp only [key _ _ a b, key _ _ b c, key _ _ c a]

/-- `MeshOf` gives the balance of all edges that are not beyond one side of the box. -/
theorem balanced {res : ℝ} (hw : L.Wide res) {σ : LC → Bool} {R : List LC} (hR : R.Nodup) (hmem : ∀ lc, L.InExt (L.position lc) → lc ∈ R)
    {V : List (LC × Nat)} {fs : List Face} (hm : MeshOf σ R V fs) (τ : LC × Nat → ℝ) (i j : Nat) (p q : P3)
    (hi : (L.mesh res τ V fs).vertices[i]? = some p) (hj : (L.mesh res τ V fs).vertices[j]? = some q) (hb : ¬Clip.Beyond L.lo L.hi p q) :
    ((L.mesh res τ V fs).faces.flatMap Clip.dirEdges).count (i, j) = ((L.mesh res τ V fs).faces.flatMap Clip.dirEdges).count (j, i) ∧
      ((L.mesh res τ V fs).faces.flatMap Clip.dirEdges).count (i, j) ≤ 1 := by
  unfold mesh at hi hj ⊢
  simp only [List.getElem?_map, Option.map_eq_some_iff] at hi hj
  obtain ⟨v, hv, rfl⟩ := hi
  obtain ⟨w, hw', rfl⟩ := hj
  simp only
  rw [count_toNat hm.valid, count_toNat hm.valid]
  have ev : edgeAt V (i : Int) = edgeOf v := by unfold edgeAt; rw [List.getD_eq_getElem?_getD, Int.toNat_natCast, hv]; rfl
  have ew : edgeAt V (j : Int) = edgeOf w := by unfold edgeAt; rw [List.getD_eq_getElem?_getD, Int.toNat_natCast, hw']; rfl
  obtain ⟨hnd, hcl⟩ := C34_indexed_mesh_closed σ R hR V fs hm
  by_cases h1 : ((i : Int), (j : Int)) ∈ fs.flatMap dirEdges
  · obtain ⟨c1, c2⟩ := hcl i j h1 (fun lc k hk ht m hm' => hmem _ (tet_inExt hw hk (ev ▸ ew ▸ ht) hb m hm'))
    rw [c1, c2]
    exact ⟨rfl, le_rfl⟩
  · by_cases h2 : ((j : Int), (i : Int)) ∈ fs.flatMap dirEdges
    · obtain ⟨c1, c2⟩ := hcl j i h2 (fun lc k hk ht m hm' => hmem _ (tet_inExt hw hk (ev ▸ ew ▸ ⟨ht.2, ht.1⟩) hb m hm'))
      rw [c1, c2]
      exact ⟨rfl, le_rfl⟩
    · rw [List.count_eq_zero_of_not_mem h1, List.count_eq_zero_of_not_mem h2]
      exact ⟨rfl, by omega⟩

/-- The mesh of `add_all_nodes` and `get_mesh` has no hole in the bounding box: an edge that is not on or beyond one side of the box
belongs to two faces that run along it in opposite directions, or to none; and so the mesh clipped to the box is closed except on
the sides of the box.  For every field, every position of the vertices on their edges, and every iteration order. -/
theorem C56_no_hole_inside (L : Prim) (h : L.det ≠ 0) (res : ℝ) (hres : 0 ≤ res) (hw : L.Wide res) (σ : LC → Bool) (near : LC → LC → Bool)
    (r2 : Int × Int) (r1 : Int → Int × Int) (r0 : Int → Int → Int × Int)
    (h2 : ∀ r, L.thirdRange = .ok r → r2 = r) (h1 : ∀ z r, L.secondRange z = .ok r → r1 z = r) (h0 : ∀ y z r, L.firstRange y z = .ok r → r0 y z = r)
    (τ : LC × Nat → ℝ) :
    ∃ l, addAllNodesOf L.inBox σ near r2 r1 r0 = .ok l ∧ ∀ nl : NodeList, nl.Perm l.nodes → ∃ fs, getMeshFaces nl = .ok fs ∧
      (∀ i j p q, (L.mesh res τ l.verts fs).vertices[i]? = some p → (L.mesh res τ l.verts fs).vertices[j]? = some q → ¬Clip.Beyond L.lo L.hi p q →
        ((L.mesh res τ l.verts fs).faces.flatMap Clip.dirEdges).count (i, j) = ((L.mesh res τ l.verts fs).faces.flatMap Clip.dirEdges).count (j, i) ∧
        ((L.mesh res τ l.verts fs).faces.flatMap Clip.dirEdges).count (i, j) ≤ 1) ∧
      ∀ A : Clip.Arith, A.Between → ∃ out, Clip.clip A (L.mesh res τ l.verts fs) L.lo L.hi = .ok out ∧
        ∀ i j p q, out.vertices[i]? = some p → out.vertices[j]? = some q → ¬Clip.OnSide L.lo L.hi p q →
          (out.faces.flatMap Clip.dirEdges).count (i, j) = (out.faces.flatMap Clip.dirEdges).count (j, i) := by
  have hb : L.Ordered := by
    obtain ⟨a, b, c⟩ := hw
    have : (0 : ℝ) ≤ 1e-10 * res := mul_nonneg (by norm_num) hres
    exact ⟨by linarith, by linarith, by linarith⟩
  obtain ⟨l, e, R, hR, hmem, hm⟩ := C56_all_nodes L h hb σ near r2 r1 r0 h2 h1 h0
  refine ⟨l, e, fun nl hnl => ?_⟩
  obtain ⟨fs, hf, hM⟩ := hm nl hnl
  have hbal := balanced hw hR (fun lc hlc => (hmem lc).2 hlc) hM τ
  refine ⟨fs, hf, hbal, fun A hA => ?_⟩
  have hvalid : (L.mesh res τ l.verts fs).Valid := by
    intro f hf
    unfold mesh at hf ⊢
    simp only [List.mem_map] at hf
    obtain ⟨g, hg, rfl⟩ := hf
    obtain ⟨⟨a, a'⟩, ⟨b, b'⟩, ⟨c, c'⟩⟩ := hM.valid g hg
    simp only [List.length_map]
    omega
  obtain ⟨out, ho, -⟩ := Clip.C37_defined A _ L.lo L.hi hvalid
  exact ⟨out, ho, Clip.C37_no_cracks A hA _ out L.lo L.hi ho fun i j p q hp hq hbey => (hbal i j p q hp hq hbey).1⟩

/-- The same for the mesh grown from seed points, wherever the tracking of the surface went (`batches`): it is cut off nowhere inside
the bounding box. -/
theorem C56_seeded_no_hole_inside (L : Prim) (h : L.det ≠ 0) (res : ℝ) (hres : 0 ≤ res) (hw : L.Wide res) (σ : LC → Bool) (near : LC → LC → Bool)
    (ord : List LC → List LC) (hord : ∀ l, (ord l).Perm l) (batches : List (List LC)) (τ : LC × Nat → ℝ) :
    ∃ fuel l, addFromSeeds L.inBox σ near ord fuel batches = .ok (some l) ∧ ∀ nl : NodeList, nl.Perm l.nodes → ∃ fs, getMeshFaces nl = .ok fs ∧
      (∀ i j p q, (L.mesh res τ l.verts fs).vertices[i]? = some p → (L.mesh res τ l.verts fs).vertices[j]? = some q → ¬Clip.Beyond L.lo L.hi p q →
        ((L.mesh res τ l.verts fs).faces.flatMap Clip.dirEdges).count (i, j) = ((L.mesh res τ l.verts fs).faces.flatMap Clip.dirEdges).count (j, i) ∧
        ((L.mesh res τ l.verts fs).faces.flatMap Clip.dirEdges).count (i, j) ≤ 1) ∧
      ∀ A : Clip.Arith, A.Between → ∃ out, Clip.clip A (L.mesh res τ l.verts fs) L.lo L.hi = .ok out ∧
        ∀ i j p q, out.vertices[i]? = some p → out.vertices[j]? = some q → ¬Clip.OnSide L.lo L.hi p q →
          (out.faces.flatMap Clip.dirEdges).count (i, j) = (out.faces.flatMap Clip.dirEdges).count (j, i) := by
  have hb : L.Ordered := by
    obtain ⟨a, b, c⟩ := hw
    have : (0 : ℝ) ≤ 1e-10 * res := mul_nonneg (by norm_num) hres
    exact ⟨by linarith, by linarith, by linarith⟩
  obtain ⟨B, hB⟩ : ∃ B : List LC, ∀ lc, L.inBox lc = true ↔ lc ∈ B := by
    let un : Outcome (Int × Int) → Int × Int := fun o => match o with | .ok r => r | _ => (0, 0)
    obtain ⟨-, -, B, -, hB, -⟩ := C56_all_nodes L h hb σ near (un L.thirdRange) (fun z => un (L.secondRange z)) (fun y z => un (L.firstRange y z))
      (fun r hr => by rw [hr]) (fun z r hr => by rw [hr]) (fun y z r hr => by rw [hr])
    exact ⟨B, fun lc => by rw [hB, inBox_iff]⟩
  obtain ⟨l, e, R, hR, -, -, -, hmesh⟩ := C34_seeded_mesh L.inBox σ near ord hord B (fun lc h => (hB lc).1 h) batches
  obtain ⟨l', e', hc⟩ := C34_seeded_whole_components L.inBox σ near ord hord B hB batches
  rw [e] at e'
  obtain rfl : l = l' := Option.some.inj (Outcome.ok.inj e')
  refine ⟨B.length + 1, l, e, fun nl hnl => ?_⟩
  obtain ⟨⟨fs, hf, hM⟩, -⟩ := hmesh nl hnl
  obtain ⟨fs', hf', -, -, hcl⟩ := hc nl hnl
  rw [hf] at hf'
  obtain rfl : fs = fs' := Outcome.ok.inj hf'
  have hbal : ∀ i j p q, (L.mesh res τ l.verts fs).vertices[i]? = some p → (L.mesh res τ l.verts fs).vertices[j]? = some q → ¬Clip.Beyond L.lo L.hi p q →
      ((L.mesh res τ l.verts fs).faces.flatMap Clip.dirEdges).count (i, j) = ((L.mesh res τ l.verts fs).faces.flatMap Clip.dirEdges).count (j, i) ∧
      ((L.mesh res τ l.verts fs).faces.flatMap Clip.dirEdges).count (i, j) ≤ 1 := by
    intro i j p q hi hj hbey
    unfold mesh at hi hj ⊢
    simp only [List.getElem?_map, Option.map_eq_some_iff] at hi hj
    obtain ⟨v, hv, rfl⟩ := hi
    obtain ⟨w, hw', rfl⟩ := hj
    simp only
    rw [count_toNat hM.valid, count_toNat hM.valid]
    have ev : edgeAt l.verts (i : Int) = edgeOf v := by unfold edgeAt; rw [List.getD_eq_getElem?_getD, Int.toNat_natCast, hv]; rfl
    have ew : edgeAt l.verts (j : Int) = edgeOf w := by unfold edgeAt; rw [List.getD_eq_getElem?_getD, Int.toNat_natCast, hw']; rfl
    by_cases h1 : ((i : Int), (j : Int)) ∈ fs.flatMap dirEdges
    · obtain ⟨c1, c2⟩ := hcl i j h1 (fun lc k hk ht m hm' => (hB _).1 (inBox_iff.2 (tet_inExt hw hk (ev ▸ ew ▸ ht) hbey m hm')))
      rw [c1, c2]
      exact ⟨rfl, le_rfl⟩
    · by_cases h2 : ((j : Int), (i : Int)) ∈ fs.flatMap dirEdges
      · obtain ⟨c1, c2⟩ := hcl j i h2 (fun lc k hk ht m hm' => (hB _).1 (inBox_iff.2 (tet_inExt hw hk (ev ▸ ew ▸ ⟨ht.2, ht.1⟩) hbey m hm')))
        rw [c1, c2]
        exact ⟨rfl, le_rfl⟩
      · rw [List.count_eq_zero_of_not_mem h1, List.count_eq_zero_of_not_mem h2]
        exact ⟨rfl, by omega⟩
  refine ⟨fs, hf, hbal, fun A hA => ?_⟩
  have hvalid : (L.mesh res τ l.verts fs).Valid := by
    intro f hf
    unfold mesh at hf ⊢
    simp only [List.mem_map] at hf
    obtain ⟨g, hg, rfl⟩ := hf
    obtain ⟨⟨a, a'⟩, ⟨b, b'⟩, ⟨c, c'⟩⟩ := hM.valid g hg
    simp only [List.length_map]
    omega
  obtain ⟨out, ho, -⟩ := Clip.C37_defined A _ L.lo L.hi hvalid
  exact ⟨out, ho, Clip.C37_no_cracks A hA _ out L.lo L.hi ho fun i j p q hp hq hbey => (hbal i j p q hp hq hbey).1⟩

/-! ## A concrete case: the unit box and the unit lattice -/

def unitL : Prim := ⟨(0, 0, 0), (1, 1, 1), (1, 0, 0), (0, 1, 0), (0, 0, 1)⟩

theorem unit_det : unitL.det = 1 := by
  norm_num [det, unitL, dot, cross]

example : unitL.det ≠ 0 ∧ unitL.Ordered ∧ unitL.Wide 1 := by
  refine ⟨by rw [unit_det]; norm_num, ?_, ?_⟩
  · norm_num [Ordered, unitL]
  · norm_num [Wide, unitL]

theorem unit_origin : unitL.origin = ⟨1, 1, 1⟩ := by
  have h : roundAway (1 / 2 : ℝ) = 1 := by
    unfold roundAway
    rw [if_pos (by norm_num)]
    norm_num
  have hc : unitL.coords unitL.center = (1 / 2, 1 / 2, 1 / 2) := by
    unfold coords
    rw [unit_det]
    norm_num [center, unitL, dot, cross]
  unfold origin
  rw [hc, h]

theorem unit_ext : unitL.extLo 2 = (-2.02, -2.02, -2.02) ∧ unitL.extHi 2 = (3.02, 3.02, 3.02) := by
  have h1 : least (steps 1 0 0) = -1 ∧ greatest (steps 1 0 0) = 1 := by norm_num [steps, deltas, least, greatest]
  have h2 : least (steps 0 1 0) = -1 ∧ greatest (steps 0 1 0) = 1 := by norm_num [steps, deltas, least, greatest]
  have h3 : least (steps 0 0 1) = -1 ∧ greatest (steps 0 0 1) = 1 := by norm_num [steps, deltas, least, greatest]
  constructor
  · refine Prod.ext ?_ (Prod.ext ?_ ?_)
    · rw [(ext0 2).1]; show (0 : ℝ) + _ * least (steps 1 0 0) = _; rw [h1.1]; norm_num
    · rw [(ext1 2).1]; show (0 : ℝ) + _ * least (steps 0 1 0) = _; rw [h2.1]; norm_num
    · rw [(ext2 2).1]; show (0 : ℝ) + _ * least (steps 0 0 1) = _; rw [h3.1]; norm_num
  · refine Prod.ext ?_ (Prod.ext ?_ ?_)
    · rw [(ext0 2).2]; show (1 : ℝ) + _ * greatest (steps 1 0 0) = _; rw [h1.2]; norm_num
    · rw [(ext1 2).2]; show (1 : ℝ) + _ * greatest (steps 0 1 0) = _; rw [h2.2]; norm_num
    · rw [(ext2 2).2]; show (1 : ℝ) + _ * greatest (steps 0 0 1) = _; rw [h3.2]; norm_num

/-- the loops of `generate` for the unit box at resolution 1 (with an isotropic basis replaced by the unit one) -/
example : unitL.visit = .ub := by
  refine C56_loop_undefined unitL (by rw [unit_det]; norm_num) (by norm_num [Ordered, unitL]) ?_
  intro i _ k hk
  rw [unit_ext.1, unit_ext.2] at hk
  unfold unrounded coords at hk
  rw [unit_det, unit_origin] at hk
  simp only [unitL, dot, cross, Prim.corner] at hk
  by_cases hb : i.testBit 2 = true
  · rw [if_pos hb] at hk
    have h1 : (2 : ℝ) < k := by rw [← hk]; norm_num
    have h2 : (k : ℝ) < 3 := by rw [← hk]; norm_num
    have h1' : (2 : ℤ) < k := by exact_mod_cast h1
    have h2' : k < (3 : ℤ) := by exact_mod_cast h2
    omega
  · rw [if_neg hb] at hk
    have h1 : (-4 : ℝ) < k := by rw [← hk]; norm_num
    have h2 : (k : ℝ) < -3 := by rw [← hk]; norm_num
    have h1' : (-4 : ℤ) < k := by exact_mod_cast h1
    have h2' : k < (-3 : ℤ) := by exact_mod_cast h2
    omega

end Prim

end Verif.PrimLattice
