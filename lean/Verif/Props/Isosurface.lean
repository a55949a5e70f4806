import Verif.Spec.Isosurface
import Verif.Lemmas.Isosurface
import Verif.Lemmas.IsosurfaceSign
import Verif.Props.PrimitiveLattice
import Mathlib.Algebra.Field.Rat
import Mathlib.Algebra.Order.Field.Rat

/-!
# C38: surface generation reports entire and empty correctly and leaves the generator reusable
-/

namespace Verif.Iso

set_option linter.unusedSectionVars false

open Verif Verif.Lattice Verif.PrimLattice Verif.PrimLattice.Prim

section Histories

variable {K : Type} [Field K] [LinearOrder K] {M Sn : Type} (T : Steps K M Sn) (G : Geo K)

/-- A generating call that returns leaves the lattice as a new object has it, whatever state it started in, and does not touch the
snap points. -/
theorem C38_call_cleans (g g' : Gen K Sn) (op : Op K Sn) (hop : op.usesLattice = true) (r : Option (Res M)) (h : step T G g op = .done r g') :
    g' = ⟨LatS.fresh, g.snap⟩ := by
  cases op with
  | all F refine =>
    obtain ⟨s, hs, rfl⟩ := onLattice_done h
    obtain ⟨_, s1, -, hs⟩ := bind_done hs
    obtain ⟨a, s2, h2, hs⟩ := bind_done hs
    simp only [Run.done.injEq] at hs
    rw [← hs.2, generateCommon_done h2]
  | seeds sd fuel F refine =>
    cases sd with
    | none => cases hop
    | some sd =>
      obtain ⟨first, batches⟩ := sd
      obtain ⟨s, hs, rfl⟩ := onLattice_done h
      obtain ⟨_, s1, -, hs⟩ := bind_done hs
      obtain ⟨a, s2, h2, hs⟩ := bind_done hs
      simp only [Run.done.injEq] at hs
      rw [← hs.2, generateCommon_done h2]
  | setSnap sn valid => cases hop
  | clear =>
    simp only [step, Run.done.injEq] at h
    exact h.2.symm

theorem step_snap {g g' : Gen K Sn} {op : Op K Sn} (h : (∃ r : Option (Res M), step T G g op = .done r g') ∨ step T G g op = .threw g') :
    g'.snap = lastSnap g.snap [op] := by
  cases op with
  | all F refine =>
    rcases h with ⟨r, h⟩ | h
    · rw [C38_call_cleans T G g g' _ rfl r h]; rfl
    · rw [onLattice_threw h]; rfl
  | seeds sd fuel F refine =>
    cases sd with
    | none =>
      rcases h with ⟨r, h⟩ | h
      · cases h
      · simp only [step, Run.threw.injEq] at h; rw [← h]; rfl
    | some sd =>
      rcases h with ⟨r, h⟩ | h
      · rw [C38_call_cleans T G g g' _ rfl r h]; rfl
      · rw [onLattice_threw h]; rfl
  | setSnap sn valid =>
    cases valid with
    | true =>
      rcases h with ⟨r, h⟩ | h
      · simp only [step, if_true, Run.done.injEq] at h; rw [← h.2]; rfl
      · cases h
    | false =>
      rcases h with ⟨r, h⟩ | h
      · cases h
      · simp [step] at h; rw [← h]; rfl
  | clear =>
    rcases h with ⟨r, h⟩ | h
    · rw [C38_call_cleans T G g g' _ rfl r h]; rfl
    · cases h

theorem step_keeps {g g' : Gen K Sn} {op : Op K Sn} (hop : op.usesLattice = false)
    (h : (∃ r : Option (Res M), step T G g op = .done r g') ∨ step T G g op = .threw g') : g'.lattice = g.lattice := by
  cases op with
  | all F refine => cases hop
  | seeds sd fuel F refine =>
    cases sd with
    | none =>
      rcases h with ⟨r, h⟩ | h
      · cases h
      · simp only [step, Run.threw.injEq] at h; rw [← h]
    | some sd => cases hop
  | setSnap sn valid =>
    cases valid with
    | true =>
      rcases h with ⟨r, h⟩ | h
      · simp only [step, if_true, Run.done.injEq] at h; rw [← h.2]
      · cases h
    | false =>
      rcases h with ⟨r, h⟩ | h
      · cases h
      · simp [step] at h; rw [← h]
  | clear => cases hop

theorem lastSnap_cons (sn : Option Sn) (op : Op K Sn) (ops : List (Op K Sn)) : lastSnap sn (op :: ops) = lastSnap (lastSnap sn [op]) ops := by
  cases op with
  | setSnap s v => cases v <;> rfl
  | _ => rfl

theorem history (ops : List (Op K Sn)) : ∀ (g g' : Gen K Sn) (b : Bool), (b = false → g.lattice = LatS.fresh) → runAll T G g ops = some g' →
    lastThrew T G g b ops = false → g' = ⟨LatS.fresh, lastSnap g.snap ops⟩ := by
  induction ops with
  | nil =>
    intro g g' b hb h hl
    simp only [runAll, Option.some.injEq] at h
    subst h
    have := hb hl
    cases g
    simp only at this
    rw [this]; rfl
  | cons op ops ih =>
    intro g g' b hb h hl
    unfold runAll at h
    unfold lastThrew at hl
    rw [lastSnap_cons]
    cases hs : step T G g op with
    | done r g1 =>
      rw [hs] at h hl
      simp only at h hl
      rw [← step_snap T G (Or.inl ⟨r, hs⟩)]
      refine ih g1 g' _ ?_ h hl
      intro hb1
      cases hu : op.usesLattice with
      | true => rw [C38_call_cleans T G g g1 op hu r hs]
      | false =>
        rw [hu] at hb1
        rw [step_keeps T G hu (Or.inl ⟨r, hs⟩)]
        exact hb hb1
    | threw g1 =>
      rw [hs] at h hl
      simp only at h hl
      rw [← step_snap T G (Or.inr hs)]
      refine ih g1 g' _ ?_ h hl
      intro hb1
      cases hu : op.usesLattice with
      | true => rw [hu] at hb1; cases hb1
      | false =>
        rw [hu] at hb1
        rw [step_keeps T G hu (Or.inr hs)]
        exact hb hb1
    | undef =>
      rw [hs] at h
      cases h

/-- The generator is reusable: after any history of calls of which the last one that uses the lattice did not throw, every further call does
what it does on a new object with the snap points that were last accepted. -/
theorem C38_reusable (ops : List (Op K Sn)) (g : Gen K Sn) (h : runAll T G Gen.new ops = some g) (hl : lastThrew T G Gen.new false ops = false) (op : Op K Sn) :
    step T G g op = step T G ⟨LatS.fresh, lastSnap none ops⟩ op := by
  rw [history T G ops Gen.new g false (fun _ => rfl) h hl]
  rfl

/-- `clear` restores it after any history. -/
theorem C38_clear_restores (ops : List (Op K Sn)) (g : Gen K Sn) (h : runAll T G Gen.new ops = some g) :
    step T G g .clear = .done none ⟨LatS.fresh, lastSnap none ops⟩ := by
  have : ∀ (ops : List (Op K Sn)) (g g' : Gen K Sn), runAll T G g ops = some g' → g'.snap = lastSnap g.snap ops := by
    intro ops
    induction ops with
    | nil =>
      intro g g' h
      simp only [runAll, Option.some.injEq] at h
      rw [h]; rfl
    | cons op ops ih =>
      intro g g' h
      unfold runAll at h
      rw [lastSnap_cons]
      cases hs : step T G g op with
      | done r g1 => rw [hs] at h; rw [← step_snap T G (Or.inl ⟨r, hs⟩)]; exact ih g1 g' h
      | threw g1 => rw [hs] at h; rw [← step_snap T G (Or.inr hs)]; exact ih g1 g' h
      | undef => rw [hs] at h; cases h
  have := this ops _ g h
  simp only [step, this]
  rfl

end Histories

/-! ## What `generate` returns -/

/-- The parameters of an `Isosurface` for the lattice `L`: the box, the loops over the lattice coordinates (with the ranges of the code where it
defines them), the centre of the box with its tetrahedron and weights, and an order of the nodes. -/
structure OfPrim (L : Prim) (rank : Nat × Nat × Nat) (G : Geo ℝ) : Prop where
  box : G.inBox = L.inBox
  loops : ∃ (r2 : Int × Int) (r1 : Int → Int × Int) (r0 : Int → Int → Int × Int), (∀ r, L.thirdRange = .ok r → r2 = r) ∧
    (∀ z r, L.secondRange z = .ok r → r1 z = r) ∧ (∀ y z r, L.firstRange y z = .ok r → r0 y z = r) ∧ G.ls = (loopRange r2).map (candidates r1 r0)
  ranked : Ranked (L.frac L.center) rank
  center : G.center = (L.tetrahedron L.center rank, L.weights L.center rank)
  order : ∀ nl, (G.ordN nl).Perm nl
  orderLc : ∀ l, (G.ord l).Perm l

/-- the field, interpolated linearly in the lattice tetrahedron of `p`, minus the isovalue -/
noncomputable def fieldAt (L : Prim) (F : Fld ℝ) (p : P3) (rank : Nat × Nat × Nat) : ℝ := interp F (L.tetrahedron p rank) (L.weights p rank)

theorem rowsNe (L : Prim) (p : P3) {rank : Nat × Nat × Nat} (hr : rank ∈ ranks) : RowsNe (L.tetrahedron p rank) := by
  unfold RowsNe tetrahedron
  dsimp only
  have key : ∀ rank ∈ ranks, (tetSwitch rank).1 < 14 ∧ (tetSwitch rank).2 < 14 ∧ (tetSwitch rank).1 ≠ (tetSwitch rank).2 ∧ (tetSwitch rank).1 ≠ 4 ∧
      (tetSwitch rank).2 ≠ 4 := by decide
  obtain ⟨h1, h2, h3, h4, h5⟩ := key rank hr
  exact ⟨(neighbor_ne h1).symm, (neighbor_ne h2).symm, (neighbor_ne (by omega)).symm, fun h => h3 (neighbor_inj h1 h2 h), fun h => h4 (neighbor_inj h1 (by omega) h),
    fun h => h5 (neighbor_inj h2 (by omega) h)⟩

theorem center_inBbox {L : Prim} (hb : L.Ordered) : L.InBbox L.center := by
  obtain ⟨h1, h2, h3⟩ := hb
  unfold InBbox center
  refine ⟨⟨?_, ?_, ?_⟩, ?_, ?_, ?_⟩ <;> simp only <;> linarith

/-- after the lattice is filled -/
theorem common_step {M Sn : Type} (T : Steps ℝ M Sn) {ordN : NodeList → NodeList} {F : Fld ℝ} {refine : Bool} {sn : Option Sn} {l : Lat} {a : Arb ℝ} {fs : List Face}
    {v : ℝ} (hfs : getMeshFaces (ordN l.nodes) = .ok fs) (hv : a.value = .ok v) :
    (∀ m, T.process F refine sn (T.raw F l.verts fs) = some m → generateCommon T ordN F refine sn ⟨l, some a⟩ = .done (expected T m v) LatS.fresh) ∧
    (T.process F refine sn (T.raw F l.verts fs) = none → generateCommon T ordN F refine sn ⟨l, some a⟩ = .threw ⟨l, some a⟩) := by
  unfold generateCommon expected
  simp only [hfs]
  constructor
  · intro m hm
    rw [hm]
    simp only [hv]
    by_cases h1 : T.faces m = 0
    · by_cases h2 : v < 0
      · rw [if_pos h1, if_pos h2, if_pos ⟨h1, h2⟩]
      · rw [if_pos h1, if_neg h2, if_neg (fun h => h2 h.2)]
    · rw [if_neg h1, if_neg (fun h => h1 h.1)]
  · intro hm
    rw [hm]

/-- `generate`, on a new object or after calls that returned, with a field that does not throw: the raw mesh is the surface of the lattice points of the
extended box; if no later step throws, the result is the processed mesh, or an entire mesh exactly if the processed mesh has no faces and the interpolated
field is below the isovalue at the centre of the box; and the lattice is cleared. -/
theorem C38_generate {M Sn : Type} (T : Steps ℝ M Sn) (L : Prim) (h : 0 < L.det) (hb : L.Ordered) (rank : Nat × Nat × Nat) (G : Geo ℝ) (hG : OfPrim L rank G)
    (F : Fld ℝ) (hF : ∀ b, F.fails b = false) (refine : Bool) (sn : Option Sn) :
    ∃ R V fs, R.Nodup ∧ (∀ lc, lc ∈ R ↔ L.InExt (L.position lc)) ∧ MeshOf F.neg R V fs ∧
      (∀ m, T.process F refine sn (T.raw F V fs) = some m →
        step T G ⟨LatS.fresh, sn⟩ (.all F refine) = .done (some (expected T m (fieldAt L F L.center rank))) ⟨LatS.fresh, sn⟩) ∧
      (T.process F refine sn (T.raw F V fs) = none → ∃ g, step T G ⟨LatS.fresh, sn⟩ (.all F refine) = .threw g) := by
  obtain ⟨r2, r1, r0, h2, h1, h0, hls⟩ := hG.loops
  obtain ⟨l, el, R, hR, hmem, hm⟩ := C56_all_nodes L h.ne' hb F.neg F.near r2 r1 r0 h2 h1 h0
  obtain ⟨fs, hfs, hmesh⟩ := hm (G.ordN l.nodes) (hG.order _)
  refine ⟨R, l.verts, fs, hR, hmem, hmesh, ?_⟩
  have hvis : ∀ n, L.InExt (L.position n) → n ∈ G.ls.flatten.filter G.inBox := by
    intro n hn
    have hin := inBox_iff.2 hn
    obtain ⟨hz, ⟨a, b⟩, c, d⟩ := visited_of h.ne' hb h2 h1 h0 hin
    rw [List.mem_filter, hG.box, hls, ← List.flatMap_def, List.mem_flatMap]
    exact ⟨⟨n.z, mem_loopRange.2 hz, mem_candidates.2 ⟨rfl, a, b, c, d⟩⟩, hin⟩
  have htold := layers_told (inBox := G.inBox) hF G.ls (l := ⟨[], [], []⟩) (l' := l) (prev := []) (Arb.new G.center.1 G.center.2) rfl (by
    rw [hls, hG.box]; exact el)
  obtain ⟨-, c2, c3⟩ := C57_near_nodes_sampled L h L.center (center_inBbox hb) rank hG.ranked
  have hval := value_told (F := F) (t := G.center.1) (w := G.center.2) (by rw [hG.center]; exact rowsNe L _ hG.ranked.1) (es := G.ls.flatten.filter G.inBox) (by
    intro n hn
    rw [hG.center] at hn
    exact hvis n (c3 n (c2 n hn)).1)
  have hv : interp F G.center.1 G.center.2 = fieldAt L F L.center rank := by rw [hG.center]; rfl
  rw [hv] at hval
  obtain ⟨k1, k2⟩ := common_step T (ordN := G.ordN) (F := F) (refine := refine) (sn := sn) hfs hval
  unfold Told at htold
  constructor
  · intro m hm
    simp only [step, addAllNodes]
    unfold LatS.fresh at *
    simp only [htold, Run.bind, k1 m hm, onLattice]
  · intro hm
    refine ⟨⟨⟨l, some (tellAll F (Arb.new G.center.1 G.center.2) (G.ls.flatten.filter G.inBox))⟩, sn⟩, ?_⟩
    simp only [step, addAllNodes]
    unfold LatS.fresh at *
    simp only [htold, Run.bind, k2 hm, onLattice]

theorem field_sign {L : Prim} (h : 0 < L.det) {F : Fld ℝ} {p : P3} {rank : Nat × Nat × Nat} (hr : Ranked (L.frac p) rank)
    (hc : ∀ n ∈ tetCorners (L.cell p) rank, F.neg n = F.neg (L.cell p)) : fieldAt L F p rank < 0 ↔ F.neg (L.cell p) = true := by
  obtain ⟨-, -, ⟨w0, w1, w2, w3⟩, ws, -⟩ := C57_tetrahedron_contains L h p rank hr
  unfold fieldAt interp
  have hmem : ∀ n ∈ (L.tetrahedron p rank).toList, F.neg n = F.neg (L.cell p) := fun n hn => hc n hn
  generalize L.weights p rank = w at *
  generalize L.tetrahedron p rank = t at *
  have m0 := hmem t.r0 (by simp [Rows.toList])
  have m1 := hmem t.r1 (by simp [Rows.toList])
  have m2 := hmem t.r2 (by simp [Rows.toList])
  have m3 := hmem t.r3 (by simp [Rows.toList])
  cases hs : F.neg (L.cell p) with
  | true =>
    rw [hs] at m0 m1 m2 m3
    simp only [Fld.neg, decide_eq_true_eq] at m0 m1 m2 m3
    simp only [iff_true]
    obtain ⟨M, hM, b0, b1, b2, b3⟩ : ∃ M < 0, F.val t.r0 ≤ M ∧ F.val t.r1 ≤ M ∧ F.val t.r2 ≤ M ∧ F.val t.r3 ≤ M :=
      ⟨max (max (F.val t.r0) (F.val t.r1)) (max (F.val t.r2) (F.val t.r3)), max_lt (max_lt m0 m1) (max_lt m2 m3),
        le_trans (le_max_left _ _) (le_max_left _ _), le_trans (le_max_right _ _) (le_max_left _ _), le_trans (le_max_left _ _) (le_max_right _ _),
        le_trans (le_max_right _ _) (le_max_right _ _)⟩
    have e : M = w.r0 * M + w.r1 * M + w.r2 * M + w.r3 * M := by linear_combination (-M) * ws
    linarith [mul_le_mul_of_nonneg_left b0 w0, mul_le_mul_of_nonneg_left b1 w1, mul_le_mul_of_nonneg_left b2 w2, mul_le_mul_of_nonneg_left b3 w3]
  | false =>
    rw [hs] at m0 m1 m2 m3
    simp only [Fld.neg, decide_eq_false_iff_not, not_lt] at m0 m1 m2 m3
    simp only [Bool.false_eq_true, iff_false, not_lt]
    positivity

/-- If the raw mesh has no faces, the interpolated field has one sign in the whole bounding box: negative everywhere or nowhere. -/
theorem C38_no_faces_one_sign (L : Prim) (h : 0 < L.det) (F : Fld ℝ) (R : List LC) (hR : ∀ lc, lc ∈ R ↔ L.InExt (L.position lc)) (V : List (LC × Nat))
    (hm : MeshOf F.neg R V []) (p q : P3) (hp : L.InBbox p) (hq : L.InBbox q) (rp rq : Nat × Nat × Nat) (hrp : Ranked (L.frac p) rp) (hrq : Ranked (L.frac q) rq) :
    fieldAt L F p rp < 0 ↔ fieldAt L F q rq < 0 := by
  have hs : surface R F.neg = [] := by
    have := hm.faces
    rw [List.map_nil] at this
    exact List.nil_perm.1 this
  have hR' : ∀ lc, L.InExtended 2 (L.position lc) → lc ∈ R := fun lc hlc => (hR lc).2 hlc
  have hin : ∀ {p rank}, L.InBbox p → Ranked (L.frac p) rank → ∀ n ∈ tetCorners (L.cell p) rank, n ∈ R := by
    intro p rank hp hr n hn
    obtain ⟨-, h2, h3⟩ := C57_near_nodes_sampled L h p hp rank hr
    exact hR' n (h3 n (h2 n hn)).1
  rw [field_sign h hrp (const_of_no_faces hs hrp.1 (hin hp hrp)), field_sign h hrq (const_of_no_faces hs hrq.1 (hin hq hrq)), one_sign h hR' hs hp hq hrp hrq]

/-- So when no surface is found, `generate` returns an entire mesh exactly if the interpolated field is below the isovalue in the whole bounding box,
and otherwise, with the field nowhere below it, a mesh without faces; in both cases whatever the other steps do. -/
theorem C38_entire_iff {M Sn : Type} (T : Steps ℝ M Sn) (hT : ∀ F V fs, T.faces (T.raw F V fs) = fs.length) (L : Prim) (h : 0 < L.det) (hb : L.Ordered)
    (rank : Nat × Nat × Nat) (G : Geo ℝ) (hG : OfPrim L rank G) (F : Fld ℝ) (hF : ∀ b, F.fails b = false) (refine : Bool) (sn : Option Sn)
    (hno : ∀ lc k, k < 6 → (∀ i < 4, L.InExt (L.position (tetNode lc k i))) → ∀ i < 4, F.neg (tetNode lc k i) = F.neg lc) :
    ∃ r, step T G ⟨LatS.fresh, sn⟩ (.all F refine) = .done (some r) ⟨LatS.fresh, sn⟩ ∧
      ((r = .entire ∧ ∀ p, L.InBbox p → ∀ rp, Ranked (L.frac p) rp → fieldAt L F p rp < 0) ∨
        ((∃ m, r = .mesh m ∧ T.faces m = 0) ∧ ∀ p, L.InBbox p → ∀ rp, Ranked (L.frac p) rp → 0 ≤ fieldAt L F p rp)) := by
  obtain ⟨R, V, fs, hR, hmem, hmesh, h1, -⟩ := C38_generate T L h hb rank G hG F hF refine sn
  have hfs : fs = [] := by
    have hs : surface R F.neg = [] := by
      rw [List.eq_nil_iff_forall_not_mem]
      intro f hf
      obtain ⟨lc, k, hk, hin, hf⟩ := mem_surface.1 hf
      have hc := hno lc k hk (fun i hi => (hmem _).1 (hin i hi))
      unfold tetFaces at hf
      rw [hc 0 (by omega), hc 1 (by omega), hc 2 (by omega), hc 3 (by omega)] at hf
      cases hs : F.neg lc <;> rw [hs] at hf <;> cases hf
    have := hmesh.faces
    rw [hs] at this
    exact List.map_eq_nil_iff.1 (List.perm_nil.1 this)
  subst hfs
  have hz : T.faces (T.raw F V []) = 0 := hT F V []
  have hp : T.process F refine sn (T.raw F V []) = some (T.raw F V []) := by unfold Steps.process; rw [if_pos hz]
  refine ⟨_, h1 _ hp, ?_⟩
  unfold expected
  have hone := fun p hp rp hrp => C38_no_faces_one_sign L h F R hmem V hmesh p L.center hp (center_inBbox hb) rp rank hrp hG.ranked
  by_cases hv : fieldAt L F L.center rank < 0
  · left
    rw [if_pos ⟨hz, hv⟩]
    exact ⟨rfl, fun p hp rp hrp => (hone p hp rp hrp).2 hv⟩
  · right
    rw [if_neg (fun h => hv h.2)]
    exact ⟨⟨_, rfl, hz⟩, fun p hp rp hrp => not_lt.1 (fun hlt => hv ((hone p hp rp hrp).1 hlt))⟩

/-- there are such parameters for every lattice -/
theorem ofPrim_exists (L : Prim) : ∃ rank G, OfPrim L rank G := by
  classical
  obtain ⟨rank, hr⟩ := ranked_exists (L.frac L.center)
  refine ⟨rank, ⟨L.inBox, (loopRange (match L.thirdRange with | .ok r => r | _ => (0, 0))).map (candidates (fun z => match L.secondRange z with | .ok r => r | _ => (0, 0))
    (fun y z => match L.firstRange y z with | .ok r => r | _ => (0, 0))), (L.tetrahedron L.center rank, L.weights L.center rank), id, id⟩, rfl,
    ⟨_, _, _, ?_, ?_, ?_, rfl⟩, hr, rfl, fun _ => List.Perm.refl _, fun _ => List.Perm.refl _⟩
  · intro r h; rw [h]
  · intro z r h; simp only [h]
  · intro y z r h; simp only [h]

/-- a concrete case: on the unit box with the unit lattice there are parameters, and every field that does not throw has a result -/
example {M Sn : Type} (T : Steps ℝ M Sn) (sn : Option Sn) (F : Fld ℝ) (hF : ∀ b, F.fails b = false) : ∃ rank G, OfPrim unitL rank G ∧
    step T G ⟨LatS.fresh, sn⟩ (.all F false) ≠ .undef := by
  obtain ⟨rank, G, hG⟩ := ofPrim_exists unitL
  refine ⟨rank, G, hG, ?_⟩
  obtain ⟨R, V, fs, -, -, -, h1, h2⟩ := C38_generate T unitL (by rw [unit_det]; norm_num) (by norm_num [Ordered, unitL]) rank G hG F hF false sn
  cases hp : T.process F false sn (T.raw F V fs) with
  | some m => rw [h1 m hp]; exact fun h => nomatch h
  | none => obtain ⟨g, hg⟩ := h2 hp; rw [hg]; exact fun h => nomatch h

/-- a field with one sign on the whole lattice meets the hypothesis of `C38_entire_iff` -/
example : ∀ lc k, k < 6 → (∀ i < 4, unitL.InExt (unitL.position (tetNode lc k i))) → ∀ i < 4,
    (⟨fun lc => -1 - (lc.x : ℝ) ^ 2, fun _ => false⟩ : Fld ℝ).neg (tetNode lc k i) = (⟨fun lc => -1 - (lc.x : ℝ) ^ 2, fun _ => false⟩ : Fld ℝ).neg lc := by
  have key : ∀ lc, (⟨fun lc => -1 - (lc.x : ℝ) ^ 2, fun _ => false⟩ : Fld ℝ).neg lc = true := by
    intro lc
    simp only [Fld.neg, decide_eq_true_eq]
    nlinarith [sq_nonneg (lc.x : ℝ)]
  intro lc k _ _ i _
  rw [key, key]

/-! ## From seed points -/

/-- the seeded run fills the lattice, with every evaluated value told -/
theorem seeds_told {inBox : LC → Bool} {ord : List LC → List LC} (hord : ∀ l, (ord l).Perm l) (B : List LC) (hB : ∀ lc, inBox lc = true → lc ∈ B) {F : Fld ℝ}
    (hF : ∀ b, F.fails b = false) (batches : List (List LC)) (first : Rows LC × Rows ℝ) :
    ∃ l es, addFromSeeds inBox ord (B.length + 1) batches first F LatS.fresh = .done () ⟨l, some (tellAll F (Arb.new first.1 first.2) es)⟩ ∧
      es.Nodup ∧ (∀ lc ∈ es, inBox lc = true) ∧ (∀ lc ∈ batches.flatten, inBox lc = true → lc ∈ es) ∧
      ((∀ lc ∈ es, lc ∈ batches.flatten) ∨ ∃ a ∈ es, ∃ b ∈ es, F.neg a ≠ F.neg b) ∧
      (∀ lc k, k < 6 → (∀ i < 4, inBox (tetNode lc k i) = true) →
        (∃ i < 4, ∃ j < 4, tetNode lc k i ∈ es ∧ tetNode lc k j ∈ es ∧ F.neg (tetNode lc k i) ≠ F.neg (tetNode lc k j)) → ∀ i < 4, tetNode lc k i ∈ es) ∧
      ∀ nl : NodeList, nl.Perm l.nodes → ∃ fs, getMeshFaces nl = .ok fs ∧ MeshOf F.neg es l.verts fs := by
  classical
  have h0 : SInv inBox F.neg ⟨[], [], []⟩ := ⟨List.nodup_nil, rfl, rfl, (by intro lc n hp; cases hp), by simp [keys]⟩
  obtain ⟨l1, e1, s1, m1⟩ := addBatches_spec batches h0
  obtain ⟨es1, t1, k1⟩ := addBatches_told hF batches (Arb.new first.1 first.2) h0 e1
  have k1' : keys l1.nodes = es1 := by rw [k1]; simp [keys]
  obtain ⟨l2, e2, s2, m2, E, hc, hE⟩ := completeSurface_spec hord B hB s1
  have hk : ∀ lc, lc ∈ ord (l1.nodes.map Prod.fst) ↔ lc ∈ keys l1.nodes := fun lc => (hord _).mem_iff
  have hsn := surfaceNodes_eq s1 (ord (l1.nodes.map Prod.fst)) (fun lc hlc => (hk lc).1 hlc)
  unfold Lat.completeSurface at e2
  rw [hsn] at e2
  simp only [Outcome.ok_bind] at e2
  obtain ⟨es2, t2, k2⟩ := completeLoop_told hF _ _ (tellAll F (Arb.new first.1 first.2) es1) s1 e2
  rw [k1'] at k2
  obtain ⟨l3, l4, P, e3, e4, g4, hP, hk4⟩ := finish_spec (near := F.near) s2 (hord (keys l2.nodes))
  refine ⟨l4, es1 ++ es2, ?_, ?_, ?_, ?_, ?_, ?_, ?_⟩
  · unfold addFromSeeds
    unfold Told at t1 t2
    unfold LatS.fresh
    simp only [t1, Run.bind, hsn, t2]
    have e3' : l2.generateVertices F.near (ord (l2.nodes.map Prod.fst)) = .ok l3 := e3
    have e4' : l3.removeFreeNodes (ord (l2.nodes.map Prod.fst)) = .ok l4 := e4
    simp only [lift, e3', e4', tellAll_append]
  · rw [← k2]; exact s2.nodup
  · rw [← k2]; exact s2.box
  · intro lc hlc hb
    rw [← k2]
    exact m2 lc ((m1 lc).2 (Or.inr ⟨hlc, hb⟩))
  · cases hfr : (ord (l1.nodes.map Prod.fst)).filter (fun lc => decide (OnSurface F.neg (· ∈ keys l1.nodes) lc)) with
    | nil =>
      left
      rw [hfr] at e2
      unfold Lat.completeLoop at e2
      simp only [Outcome.ok.injEq, Option.some.injEq] at e2
      subst e2
      rw [← k2]
      intro lc hlc
      rcases (m1 lc).1 hlc with h | h
      · simp [keys] at h
      · exact h.1
    | cons a rest =>
      right
      have ha : a ∈ (ord (l1.nodes.map Prod.fst)).filter (fun lc => decide (OnSurface F.neg (· ∈ keys l1.nodes) lc)) := by rw [hfr]; simp
      rw [List.mem_filter, hk, decide_eq_true_eq, k1'] at ha
      obtain ⟨ha, e, he, hb, hs⟩ := ha
      exact ⟨a, List.mem_append_left _ ha, _, List.mem_append_left _ hb, hs⟩
  · rw [← k2]
    rintro lc k hk6 hbox ⟨i, hi, j, hj, hi', hj', hs⟩ m hm
    have key : ∀ a < 4, tetNode lc k a ∈ keys l2.nodes → E (tetNode lc k a) → tetNode lc k m ∈ keys l2.nodes := by
      intro a ha hin hEa
      by_cases ham : a = m
      · rw [← ham]; exact hin
      · obtain ⟨e, he, hn⟩ := corners_adjacent lc k a m hk6 ha hm ham
        rw [hn]
        refine hE _ hEa e he ?_
        rw [← hn]; exact hbox m hm
    have hij : i ≠ j := by rintro rfl; exact hs rfl
    obtain ⟨e, he, hn⟩ := corners_adjacent lc k i j hk6 hi hj hij
    rcases hc (tetNode lc k i) e he hi' (by rw [← hn]; exact hj') (by rw [← hn]; exact hs) with h | h
    · exact key i hi hi' h
    · exact key j hj hj' (by rw [hn]; exact h)
  · intro nl hnl
    rw [← k2]
    exact (meshOf g4 s2.nodup hP hk4 hnl).1

/-- `generate_from_seed_points` with a field that does not throw.  `p` is the first seed point, moved into the box; the first nodes sampled are those around
the seed points.  If the node `p` rounds to is a corner of the tetrahedron of `p`, then the result is as for `generate`, with the interpolated field at `p`; a tetrahedron of the
extended box that the surface is seen to cross is sampled completely. -/
theorem C38_from_seeds {M Sn : Type} (T : Steps ℝ M Sn) (L : Prim) (h : 0 < L.det) (rank : Nat × Nat × Nat) (G : Geo ℝ) (hG : G.inBox = L.inBox)
    (hN : ∀ nl, (G.ordN nl).Perm nl) (hO : ∀ l, (G.ord l).Perm l) (B : List LC) (hB : ∀ lc, L.inBox lc = true → lc ∈ B) (F : Fld ℝ) (hF : ∀ b, F.fails b = false)
    (p : P3) (hp : L.InBbox p) (hr : Ranked (L.frac p) rank) (batches : List (List LC))
    (hbat : L.rounded p ∈ batches.flatten ∧ ∀ e < 14, L.inBox (neighbor (L.rounded p) e) = true → neighbor (L.rounded p) e ∈ batches.flatten)
    (htie : L.rounded p ∈ (L.tetrahedron p rank).toList) (refine : Bool) (sn : Option Sn) :
    ∃ R V fs, R.Nodup ∧ (∀ lc ∈ R, L.InExt (L.position lc)) ∧ (∀ lc ∈ batches.flatten, L.InExt (L.position lc) → lc ∈ R) ∧ MeshOf F.neg R V fs ∧
      (∀ lc k, k < 6 → (∀ i < 4, L.InExt (L.position (tetNode lc k i))) →
        (∃ i < 4, ∃ j < 4, tetNode lc k i ∈ R ∧ tetNode lc k j ∈ R ∧ F.neg (tetNode lc k i) ≠ F.neg (tetNode lc k j)) → ∀ i < 4, tetNode lc k i ∈ R) ∧
      (∀ m, T.process F refine sn (T.raw F V fs) = some m →
        step T G ⟨LatS.fresh, sn⟩ (.seeds (some ((L.tetrahedron p rank, L.weights p rank), batches)) (B.length + 1) F refine) =
          .done (some (expected T m (fieldAt L F p rank))) ⟨LatS.fresh, sn⟩) ∧
      (T.process F refine sn (T.raw F V fs) = none →
        ∃ g, step T G ⟨LatS.fresh, sn⟩ (.seeds (some ((L.tetrahedron p rank, L.weights p rank), batches)) (B.length + 1) F refine) = .threw g) := by
  obtain ⟨l, es, e, hnd, hin, hsub, -, hcomp, hm⟩ := seeds_told (inBox := G.inBox) hO B (by rw [hG]; exact hB) hF batches (L.tetrahedron p rank, L.weights p rank)
  rw [hG] at hin hsub hcomp
  obtain ⟨fs, hfs, hmesh⟩ := hm (G.ordN l.nodes) (hN _)
  obtain ⟨-, c2, c3⟩ := C57_near_nodes_sampled L h p hp rank hr
  have hval := value_told (F := F) (w := L.weights p rank) (rowsNe L p hr.1) (es := es) (by
    intro n hn
    have hext : L.inBox n = true := inBox_iff.2 (c3 n (c2 n hn)).1
    refine hsub n ?_ hext
    obtain ⟨k, hk, hmem⟩ := (C57_tetrahedron_contains L h p rank hr).1
    obtain ⟨i, hi, rfl⟩ := (hmem n).1 hn
    obtain ⟨j, hj, hrj⟩ := (hmem _).1 htie
    by_cases hij : j = i
    · subst hij; rw [← hrj]; exact hbat.1
    · obtain ⟨e, he, hne⟩ := corners_adjacent (L.cell p) k j i hk hj hi hij
      rw [hne, ← hrj]
      refine hbat.2 e he ?_
      rw [hrj, ← hne]; exact hext)
  obtain ⟨k1, k2⟩ := common_step T (ordN := G.ordN) (F := F) (refine := refine) (sn := sn) hfs hval
  refine ⟨es, l.verts, fs, hnd, fun lc hlc => inBox_iff.1 (hin lc hlc), fun lc hlc hb => hsub lc hlc (inBox_iff.2 hb), hmesh,
    fun lc k hk hall => hcomp lc k hk fun i hi => inBox_iff.2 (hall i hi), ?_, ?_⟩
  · intro m hm
    simp only [step, e, Run.bind, k1 m hm, onLattice]
    rfl
  · intro hm
    refine ⟨⟨⟨l, some (tellAll F (Arb.new (L.tetrahedron p rank) (L.weights p rank)) es)⟩, sn⟩, ?_⟩
    simp only [step, e, Run.bind, k2 hm, onLattice]

theorem round_cases (x : ℝ) : (roundAway x = ⌊x⌋ ∧ x - ⌊x⌋ ≤ 1 / 2) ∨ (roundAway x = ⌊x⌋ + 1 ∧ 1 / 2 ≤ x - ⌊x⌋) := by
  have h := round_near x
  rw [abs_le] at h
  have f1 := Int.floor_le x
  have f2 := Int.lt_floor_add_one x
  have g1 : ((⌊x⌋ : ℤ) : ℝ) - 1 < roundAway x := by linarith
  have g2 : (roundAway x : ℝ) < ⌊x⌋ + 2 := by linarith
  have g1' : ⌊x⌋ - 1 < roundAway x := by exact_mod_cast g1
  have g2' : roundAway x < ⌊x⌋ + 2 := by exact_mod_cast g2
  rcases (by omega : roundAway x = ⌊x⌋ ∨ roundAway x = ⌊x⌋ + 1) with e | e
  · left; refine ⟨e, ?_⟩; rw [e] at h; linarith
  · right; refine ⟨e, ?_⟩; rw [e] at h; push_cast at h; linarith

/-- The node a point rounds to is a corner of its tetrahedron unless two of its lattice coordinates are both exactly halfway between integers. -/
theorem C38_rounded_is_corner (L : Prim) (p : P3) (rank : Nat × Nat × Nat) (hr : Ranked (L.frac p) rank)
    (ht : ∀ i < 3, ∀ j < 3, i ≠ j → ¬(L.frac p i = 1 / 2 ∧ L.frac p j = 1 / 2)) : L.rounded p ∈ (L.tetrahedron p rank).toList := by
  obtain ⟨hm, h1, h2⟩ := hr
  have t01 := ht 0 (by omega) 1 (by omega) (by omega)
  have t02 := ht 0 (by omega) 2 (by omega) (by omega)
  have t12 := ht 1 (by omega) 2 (by omega) (by omega)
  have clash : ∀ {i j : Nat}, ¬(L.frac p i = 1 / 2 ∧ L.frac p j = 1 / 2) → L.frac p i ≤ L.frac p j → 1 / 2 ≤ L.frac p i → L.frac p j ≤ 1 / 2 → False := by
    intro i j ht hle hi hj
    exact ht ⟨by linarith, by linarith⟩
  have swap : ∀ {i j : Nat}, ¬(L.frac p i = 1 / 2 ∧ L.frac p j = 1 / 2) → ¬(L.frac p j = 1 / 2 ∧ L.frac p i = 1 / 2) := fun h h' => h ⟨h'.2, h'.1⟩
  have c0 : ((L.rounded p).x = (L.cell p).x ∧ L.frac p 0 ≤ 1 / 2) ∨ ((L.rounded p).x = (L.cell p).x + 1 ∧ 1 / 2 ≤ L.frac p 0) := round_cases _
  have c1 : ((L.rounded p).y = (L.cell p).y ∧ L.frac p 1 ≤ 1 / 2) ∨ ((L.rounded p).y = (L.cell p).y + 1 ∧ 1 / 2 ≤ L.frac p 1) := round_cases _
  have c2 : ((L.rounded p).z = (L.cell p).z ∧ L.frac p 2 ≤ 1 / 2) ∨ ((L.rounded p).z = (L.cell p).z + 1 ∧ 1 / 2 ≤ L.frac p 2) := round_cases _
  have h3 : L.frac p rank.1 ≤ L.frac p rank.2.2 := le_trans h1 h2
  show L.rounded p ∈ tetCorners (L.cell p) rank
  generalize L.rounded p = r at *
  generalize L.cell p = c at *
  obtain ⟨x, y, z⟩ := c
  obtain ⟨x', y', z'⟩ := r
  simp only at c0 c1 c2
  simp only [List.mem_cons, List.not_mem_nil, or_false] at hm
  rcases hm with rfl | rfl | rfl | rfl | rfl | rfl <;> simp only at h1 h2 h3 <;>
    rcases c0 with ⟨rfl, d0⟩ | ⟨rfl, d0⟩ <;> rcases c1 with ⟨rfl, d1⟩ | ⟨rfl, d1⟩ <;> rcases c2 with ⟨rfl, d2⟩ | ⟨rfl, d2⟩ <;>
    first
    | (simp [tetCorners, neighbor_xyz, tetSwitch, delta, deltas]; done)
    | (exfalso; exact clash t01 (by assumption) d0 d1)
    | (exfalso; exact clash t02 (by assumption) d0 d2)
    | (exfalso; exact clash t12 (by assumption) d1 d2)
    | (exfalso; exact clash (swap t01) (by assumption) d1 d0)
    | (exfalso; exact clash (swap t02) (by assumption) d2 d0)
    | (exfalso; exact clash (swap t12) (by assumption) d2 d1)

/-- a lattice with the unit vectors as basis and a box with the centre (1/2, -1/2, 1/2) -/
def tieL : Prim := ⟨(0, -1, 0), (1, 0, 1), (1, 0, 0), (0, 1, 0), (0, 0, 1)⟩

theorem tie_det : tieL.det = 1 := by norm_num [Prim.det, tieL, PrimLattice.dot, PrimLattice.cross]

theorem tie_coords (p : P3) : tieL.coords p = p := by
  unfold coords
  rw [tie_det]
  refine Prod.ext ?_ (Prod.ext ?_ ?_) <;> norm_num [tieL, PrimLattice.dot, PrimLattice.cross]

theorem roundAway_half : roundAway (1 / 2) = 1 := by
  unfold roundAway
  rw [if_pos (by norm_num), Int.floor_eq_iff]; norm_num

theorem roundAway_neg_half : roundAway (-1 / 2) = -1 := by
  unfold roundAway
  rw [if_neg (by norm_num), Int.ceil_eq_iff]; norm_num

theorem tie_center : tieL.center = (1 / 2, -1 / 2, 1 / 2) := by
  unfold center tieL
  norm_num

theorem tie_origin : tieL.origin = ⟨1, -1, 1⟩ := by
  unfold origin
  rw [tie_coords, tie_center]
  simp only [roundAway_half, roundAway_neg_half]

theorem tie_unrounded : tieL.unrounded tieL.center = (-1 / 2, 1 / 2, -1 / 2) := by
  unfold unrounded
  rw [tie_coords, tie_origin, tie_center]
  norm_num

theorem tie_floor : ⌊(-1 / 2 : ℝ)⌋ = -1 ∧ ⌊(1 / 2 : ℝ)⌋ = 0 := by
  constructor <;> rw [Int.floor_eq_iff] <;> norm_num

theorem tie_cell : tieL.cell tieL.center = ⟨-1, 0, -1⟩ := by
  unfold cell
  rw [tie_unrounded]
  simp only [tie_floor.1, tie_floor.2]

theorem tie_rounded : tieL.rounded tieL.center = ⟨-1, 1, -1⟩ := by
  unfold rounded
  rw [tie_unrounded]
  simp only [roundAway_half, roundAway_neg_half]

theorem tie_ranked : Ranked (tieL.frac tieL.center) (0, 1, 2) := by
  have h : ∀ i, tieL.frac tieL.center i = 1 / 2 := by
    intro i
    unfold frac
    rw [tie_unrounded]
    rcases i with _ | _ | _ <;> simp only [tie_floor.1, tie_floor.2] <;> norm_num
  exact ⟨by simp, by rw [h, h], by rw [h, h]⟩

/-- the centre of `tieL`'s box, as the only seed point: the nodes sampled first are those around the node it rounds to -/
noncomputable def tieBatch : List LC := tieL.rounded tieL.center :: (List.range 14).map (neighbor (tieL.rounded tieL.center))

/-- The condition in `C38_from_seeds` is needed.  With all lattice coordinates of the seed point halfway between integers, and a field that is the same positive
number everywhere, so that no further node is sampled (`lattice.hpp:121-137`), a corner of the tetrahedron is not among the nodes sampled, and the call throws
instead of returning a mesh without faces. -/
theorem C38_seed_tie_throws {M Sn : Type} (T : Steps ℝ M Sn) (hT : ∀ F V fs, T.faces (T.raw F V fs) = fs.length) (G : Geo ℝ) (hG : G.inBox = tieL.inBox)
    (hN : ∀ nl, (G.ordN nl).Perm nl) (hO : ∀ l, (G.ord l).Perm l) (B : List LC) (hB : ∀ lc, tieL.inBox lc = true → lc ∈ B) (c : ℝ) (hc : 0 < c)
    (refine : Bool) (sn : Option Sn) : Ranked (tieL.frac tieL.center) (0, 1, 2) ∧ tieL.InBbox tieL.center ∧
    ∃ g, step T G ⟨LatS.fresh, sn⟩ (.seeds (some ((tieL.tetrahedron tieL.center (0, 1, 2), tieL.weights tieL.center (0, 1, 2)), [tieBatch])) (B.length + 1)
      ⟨fun _ => c, fun _ => false⟩ refine) = .threw g := by
  refine ⟨tie_ranked, center_inBbox ⟨by norm_num [tieL], by norm_num [tieL], by norm_num [tieL]⟩, ?_⟩
  obtain ⟨F, hFd⟩ : ∃ F : Fld ℝ, F = ⟨fun _ => c, fun _ => false⟩ := ⟨_, rfl⟩
  have hneg : ∀ lc, F.neg lc = false := by
    intro lc
    rw [hFd]
    simp only [Fld.neg, decide_eq_false_iff_not, not_lt]
    exact hc.le
  rw [← hFd]
  obtain ⟨l, es, e, hnd, hin, hsub, hd, -, hm⟩ := seeds_told (inBox := G.inBox) hO B (by rw [hG]; exact hB) (F := F) (by rw [hFd]; intro _; rfl) [tieBatch]
    (tieL.tetrahedron tieL.center (0, 1, 2), tieL.weights tieL.center (0, 1, 2))
  have hes : ∀ lc ∈ es, lc ∈ tieBatch := by
    rcases hd with hd | ⟨a, -, b, -, hab⟩
    · intro lc hlc
      simpa using hd lc hlc
    · rw [hneg, hneg] at hab; exact absurd rfl hab
  obtain ⟨fs, hfs, hmesh⟩ := hm (G.ordN l.nodes) (hN _)
  have hfs0 : fs = [] := by
    have hs : surface es F.neg = [] := by
      rw [List.eq_nil_iff_forall_not_mem]
      intro f hf
      obtain ⟨lc, k, hk, -, hf⟩ := mem_surface.1 hf
      unfold tetFaces at hf
      simp only [hneg] at hf
      cases hf
    have := hmesh.faces
    rw [hs] at this
    exact List.map_eq_nil_iff.1 (List.perm_nil.1 this)
  subst hfs0
  have hz : T.faces (T.raw F l.verts []) = 0 := hT F _ []
  have hp : T.process F refine sn (T.raw F l.verts []) = some (T.raw F l.verts []) := by unfold Steps.process; rw [if_pos hz]
  have hval := value_untold (F := F) (w := tieL.weights tieL.center (0, 1, 2)) (rowsNe tieL tieL.center tie_ranked.1) (es := es) (by
    refine ⟨⟨-1, 0, 0⟩, ?_, ?_⟩
    · unfold tetrahedron
      rw [tie_cell]
      decide
    · intro h
      have := hes _ h
      unfold tieBatch at this
      rw [tie_rounded] at this
      revert this
      decide)
  refine ⟨⟨⟨l, some (tellAll F (Arb.new (tieL.tetrahedron tieL.center (0, 1, 2)) (tieL.weights tieL.center (0, 1, 2))) es)⟩, sn⟩, ?_⟩
  simp only [step, e, Run.bind, generateCommon, hfs, hp, hz, if_true, hval, onLattice]

/-- the hypotheses on the box and the orders can be met -/
example : ∃ (G : Geo ℝ) (B : List LC), G.inBox = tieL.inBox ∧ (∀ nl, (G.ordN nl).Perm nl) ∧ (∀ l, (G.ord l).Perm l) ∧ ∀ lc, tieL.inBox lc = true → lc ∈ B := by
  obtain ⟨rank, G, hG⟩ := ofPrim_exists tieL
  obtain ⟨r2, r1, r0, h2, h1, h0, -⟩ := hG.loops
  obtain ⟨-, -, R, -, hmem, -⟩ := C56_all_nodes tieL (by rw [tie_det]; norm_num) ⟨by norm_num [tieL], by norm_num [tieL], by norm_num [tieL]⟩ (fun _ => true)
    (fun _ _ => true) r2 r1 r0 h2 h1 h0
  exact ⟨G, R, hG.box, hG.order, hG.orderLc, fun lc hlc => (hmem lc).2 (inBox_iff.1 hlc)⟩

/-! ## A call that throws leaves the object unusable -/

/-- no changes to the raw mesh -/
def plain : Steps ℚ (List (LC × Nat) × List Face) Unit :=
  ⟨fun _ v f => (v, f), fun m => m.2.length, (), some, fun _ => some, fun _ => some, fun _ m => some (m, 0), fun _ => some, some, fun _ => 0⟩

/-- eight nodes in two layers -/
def cube : Geo ℚ :=
  ⟨fun lc => decide (0 ≤ lc.x ∧ lc.x ≤ 1 ∧ 0 ≤ lc.y ∧ lc.y ≤ 1 ∧ 0 ≤ lc.z ∧ lc.z ≤ 1), (loopRange (0, 1)).map (candidates (fun _ => (0, 1)) (fun _ _ => (0, 1))),
    (⟨⟨0, 0, 0⟩, ⟨1, 0, 0⟩, ⟨1, 1, 0⟩, ⟨1, 1, 1⟩⟩, ⟨1 / 4, 1 / 4, 1 / 4, 1 / 4⟩), id, id⟩

/-- one negative node -/
def spot : Fld ℚ := ⟨fun lc => if lc = ⟨0, 0, 0⟩ then -1 else 9, fun _ => false⟩

/-- the same, but the evaluation of the second layer throws -/
def flaky : Fld ℚ := { spot with fails := fun b => b.any (fun lc => lc.z == 1) }

/-- the mesh a call returns, or a number for other results -/
def meshOut (r : Run (Gen ℚ Unit) (Option (Res M))) : Sum M Nat :=
  match r with
  | .done (some (.mesh m)) _ => .inl m
  | .done (some .entire) _ => .inr 1
  | .done none _ => .inr 2
  | .threw _ => .inr 3
  | .undef => .inr 4

theorem meshOut_inl {r : Run (Gen ℚ Unit) (Option (Res M))} {m : M} (h : meshOut r = .inl m) : ∃ g, r = .done (some (.mesh m)) g := by
  unfold meshOut at h
  split at h
  · obtain rfl := Sum.inl.inj h
    exact ⟨_, rfl⟩
  all_goals cases h

theorem meshOut_threw {r : Run (Gen ℚ Unit) (Option (Res M))} (h : meshOut r = .inr 3) : ∃ g, r = .threw g := by
  unfold meshOut at h
  split at h <;> simp only [reduceCtorEq, Sum.inr.injEq] at h
  all_goals first | exact ⟨_, rfl⟩ | (exfalso; omega)

/-- what repeating the call after the exception returns -/
def retried : Sum (List (LC × Nat) × List Face) Nat :=
  match step plain cube Gen.new (.all flaky true) with
  | .threw g => meshOut (step plain cube g (.all spot true))
  | _ => .inr 5

set_option maxRecDepth 100000 in
theorem flaky_threw : meshOut (step plain cube Gen.new (.all flaky true)) = .inr 3 := by decide +kernel

def goodMesh : List (LC × Nat) × List Face :=
  ([(⟨0, 0, 0⟩, 0), (⟨0, 0, 0⟩, 6), (⟨0, 0, 0⟩, 3), (⟨0, 0, 0⟩, 2), (⟨0, 0, 0⟩, 1), (⟨0, 0, 0⟩, 5), (⟨0, 0, 0⟩, 4)],
    [(6, 5, 3), (6, 3, 4), (6, 4, 0), (6, 0, 2), (6, 2, 1), (6, 1, 5)])

def badMesh : List (LC × Nat) × List Face :=
  ([(⟨0, 0, 0⟩, 0), (⟨0, 0, 0⟩, 6), (⟨0, 0, 0⟩, 3), (⟨0, 0, 0⟩, 0), (⟨0, 0, 0⟩, 6), (⟨0, 0, 0⟩, 3), (⟨0, 0, 0⟩, 2), (⟨0, 0, 0⟩, 1), (⟨0, 0, 0⟩, 5), (⟨0, 0, 0⟩, 4)],
    [(9, 8, 6), (9, 6, 7), (9, 7, 3), (9, 3, 5), (9, 5, 0), (9, 0, 8)])

set_option maxRecDepth 100000 in
theorem good_spot : meshOut (step plain cube Gen.new (.all spot true)) = .inl goodMesh := by decide +kernel

set_option maxRecDepth 100000 in
theorem bad_spot : retried = .inl badMesh := by decide +kernel

/-- If the field function throws during `generate`, the lattice is not cleared.  Repeating the call with a field that does not throw any more then
returns a wrong mesh: a face that should have a vertex on the edge from the origin to (0, 1, 0) has the one on the edge to (1, 0, 0) instead. -/
theorem C38_stale_after_throw : ∃ g : Gen ℚ Unit, step plain cube Gen.new (.all flaky true) = .threw g ∧
    (∃ g1 V fs, step plain cube Gen.new (.all spot true) = .done (some (.mesh (V, fs))) g1 ∧
      fs.map (map3 (edgeAt V)) = surface [⟨0, 0, 0⟩, ⟨1, 0, 0⟩, ⟨0, 1, 0⟩, ⟨1, 1, 0⟩, ⟨0, 0, 1⟩, ⟨1, 0, 1⟩, ⟨0, 1, 1⟩, ⟨1, 1, 1⟩] spot.neg) ∧
    ∃ g2 V fs, step plain cube g (.all spot true) = .done (some (.mesh (V, fs))) g2 ∧
      (∃ f ∈ fs.map (map3 (edgeAt V)), f ∉ surface [⟨0, 0, 0⟩, ⟨1, 0, 0⟩, ⟨0, 1, 0⟩, ⟨1, 1, 0⟩, ⟨0, 0, 1⟩, ⟨1, 0, 1⟩, ⟨0, 1, 1⟩, ⟨1, 1, 1⟩] spot.neg) ∧
      step plain cube g .clear = .done none Gen.new := by
  obtain ⟨g, hg⟩ := meshOut_threw flaky_threw
  obtain ⟨g1, h1⟩ := meshOut_inl good_spot
  have hr := bad_spot
  unfold retried at hr
  rw [hg] at hr
  obtain ⟨g2, h2⟩ := meshOut_inl hr
  refine ⟨g, hg, ⟨g1, _, _, h1, ?_⟩, g2, _, _, h2, ?_, ?_⟩
  · decide +kernel
  · decide +kernel
  · have := C38_clear_restores plain cube [.all flaky true] g (by simp only [runAll, hg])
    exact this

end Verif.Iso
