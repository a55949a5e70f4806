import Verif.Spec.IsosurfaceCommand
import Verif.Props.Cli
import Verif.Props.Obj
import Verif.Props.Pipeline
import Verif.Props.PipelineOpen
import Verif.Props.SeedTracking

/-!
# C87: the commands isosurface and surface-25d
-/

namespace Verif.IsoCommand

open Verif Verif.Table Verif.Cli Verif.Lattice Verif.Iso Verif.Pipeline
open Verif.PrimLattice (Prim dot cross)
open Verif.PrimLattice.Prim (Ranked inBox_iff tetCorners)
open Verif.Predicates (P3)
open Verif.SeedTracking (track ctxOf startsOf clampPoint clamp_in starts_inner)

variable {N : Num}

/-! ## Reading the files -/

theorem readSeeds_eq (M : Machine N) {file : Option (List Char)} {seeds : List P3} (h : Seeds M file seeds) : readSeeds M file = .ok seeds := by
  rcases h with ⟨rfl, rfl⟩ | ⟨f, rows, n, rfl, hf, hn, rfl⟩
  · rfl
  · obtain ⟨m, h1, h2, h3⟩ := holds_read hf
    unfold readSeeds
    dsimp only
    rw [h1, Outcome.ok_bind, columns_ok h2 0 3 (by omega), Outcome.ok_bind]
    simp

/-- the tolerances of a table -/
theorem tolerances_eq (M : Machine N) {m : Mat N} {rows : List (List N.D)} (hm : rowsOf N m = rows) (hw : ∀ r ∈ rows, r.length = m.cols) :
    readTolerances M m = .ok (if 4 ≤ m.cols then fourth M rows else []) ∧ (4 ≤ m.cols → (fourth M rows).length = rows.length) := by
  have hcol : ∀ rs : List (List N.D), (∀ r ∈ rs, 4 ≤ r.length) → ((rs.map fun r => (r.drop 3).take 1).flatten.map M.toReal = fourth M rs ∧ (fourth M rs).length = rs.length) := by
    intro rs
    induction rs with
    | nil => intro _; exact ⟨rfl, rfl⟩
    | cons r rs ih =>
      intro h
      obtain ⟨i1, i2⟩ := ih fun r hr => h r (List.mem_cons_of_mem _ hr)
      have hr := h r List.mem_cons_self
      obtain ⟨x, t, hx⟩ : ∃ x t, r.drop 3 = x :: t := by
        cases hd : r.drop 3 with
        | nil => rw [List.drop_eq_nil_iff] at hd; omega
        | cons x t => exact ⟨x, t, rfl⟩
      unfold fourth at i1 i2 ⊢
      rw [List.map_cons, List.flatten_cons, List.map_append, i1, List.flatMap_cons, List.length_append, i2, hx]
      exact ⟨rfl, by simp [Nat.add_comm]⟩
  unfold readTolerances
  by_cases h4 : 4 ≤ m.cols
  · obtain ⟨h1, h2⟩ := hcol rows fun r hr => by rw [hw r hr]; exact h4
    rw [if_pos h4, if_pos h4, columns_ok hm 3 1 (by omega), Outcome.ok_bind, h1]
    exact ⟨rfl, fun _ => h2⟩
  · rw [if_neg h4, if_neg h4]
    exact ⟨rfl, fun h => absurd h h4⟩

theorem acceptable_iff {points : List P3} {tols : List ℝ} : acceptable points tols = true ↔ tols = [] ∨ (tols.length = points.length ∧ ∀ t ∈ tols, 0 ≤ t ∧ t ≤ 1) := by
  unfold acceptable
  by_cases h : tols = []
  · simp [h]
  · rw [if_neg h, decide_eq_true_iff]
    simp only [h, false_or]
    exact ⟨fun ⟨a, b, c⟩ => ⟨a, fun t ht => ⟨b t ht, c t ht⟩⟩, fun ⟨a, b⟩ => ⟨a, fun t ht => (b t ht).1, fun t ht => (b t ht).2⟩⟩

theorem setSnap_done {M : Machine N} {E : Env} {points : List P3} {tols : List ℝ} {g : Gen ℝ Snap}
    (h : after (Iso.step E.steps (M.geo E.L) newGen (.setSnap (snapOf points tols) (acceptable points tols))) = .ok g) :
    acceptable points tols = true ∧ g = ⟨LatS.fresh, snapOf points tols⟩ := by
  unfold Iso.step at h
  dsimp only at h
  by_cases ha : acceptable points tols = true
  · rw [if_pos ha] at h
    exact ⟨ha, (Outcome.ok.inj h).symm⟩
  · rw [if_neg ha] at h
    cases h

/-- the generator after the snap points have been set: they have been accepted -/
theorem setSnap_ok (M : Machine N) (E : Env) (file : Option (List Char)) {g : Gen ℝ Snap} (h : setSnap M E file = .ok g) :
    ∃ sn, g = ⟨LatS.fresh, sn⟩ ∧ (file = none → sn = none) ∧ ∀ s, sn = some s → Snap.Accepted s := by
  unfold setSnap at h
  cases file with
  | none =>
    cases h
    exact ⟨none, rfl, fun _ => rfl, fun _ h => by cases h⟩
  | some f =>
    dsimp only at h
    obtain ⟨t, -, h⟩ := Outcome.bind_eq_ok.1 h
    obtain ⟨tols, -, h⟩ := Outcome.bind_eq_ok.1 h
    obtain ⟨rows, -, h⟩ := Outcome.bind_eq_ok.1 h
    obtain ⟨ha, rfl⟩ := setSnap_done h
    refine ⟨_, rfl, (fun h => by cases h), fun s hs => ?_⟩
    rw [acceptable_iff] at ha
    unfold snapOf at hs
    split at hs
    · cases hs
    · rename_i hp
      cases hs
      rw [hp] at ha
      rcases ha with ha | ⟨ha, hb⟩
      · exact ⟨.inl ha, by simp [ha]⟩
      · exact ⟨.inr ha, fun t ht => (hb t ht).1⟩

theorem setSnap_accepts (M : Machine N) (E : Env) {file : Option (List Char)} (h : SnapFile M file) : ∃ sn, setSnap M E file = .ok ⟨LatS.fresh, sn⟩ := by
  rcases h with rfl | ⟨f, rows, n, rfl, hf, hn, ht⟩
  · exact ⟨none, rfl⟩
  · obtain ⟨m, h1, h2, h3⟩ := holds_read hf
    have hw : ∀ r ∈ rows, r.length = m.cols := by rw [h3]; exact hf.1
    obtain ⟨h4, h5⟩ := tolerances_eq M h2 hw
    unfold setSnap
    dsimp only
    rw [h1, Outcome.ok_bind, h4, Outcome.ok_bind, columns_ok h2 0 3 (by omega), Outcome.ok_bind]
    have ha : acceptable ((rows.map fun r => (r.drop 0).take 3).map (pointOf M)) (if 4 ≤ m.cols then fourth M rows else []) = true := by
      rw [acceptable_iff]
      by_cases h6 : 4 ≤ m.cols
      · rw [if_pos h6]
        right
        rw [List.length_map, List.length_map]
        exact ⟨h5 h6, ht (by omega)⟩
      · rw [if_neg h6]
        exact .inl rfl
    unfold Iso.step
    dsimp only
    rw [if_pos ha]
    exact ⟨_, rfl⟩

/-! ## The generator -/

section
variable {M : Machine N} {lo hi : P3} {res : ℝ} {a0 a1 a2 : P3} {value : P3 → ℝ} {iso : ℝ}

theorem env_proper (hM : M.Ok) (hr : 0 < res) : (envOf M lo hi res a0 a1 a2 value iso).Proper where
  resolution := hr
  transform := by
    refine ⟨{ toFun := fun d => (dot a0 d, dot a1 d, dot a2 d), map_add' := ?_, map_smul' := ?_ }, fun x => rfl⟩
    · intro x y
      simp only [dot, Prod.fst_add, Prod.snd_add, Prod.mk_add_mk]
      refine Prod.ext ?_ (Prod.ext ?_ ?_) <;> dsimp only <;> ring
    · intro c x
      simp only [dot, Prod.smul_fst, Prod.smul_snd, smul_eq_mul, RingHom.id_apply, Prod.smul_mk]
      refine Prod.ext ?_ (Prod.ext ?_ ?_) <;> dsimp only <;> ring
  values := fun F ps => List.length_map _
  sorting := hM.sorting
  between := hM.between

theorem env_made (hd : 0 < dot a0 (cross a1 a2)) : (envOf M lo hi res a0 a1 a2 value iso).Made a0 a1 a2 := ⟨hd, rfl, fun _ => rfl⟩

theorem env_det (hr : 0 < res) (hd : 0 < dot a0 (cross a1 a2)) : 0 < (Prim.make lo hi res a0 a1 a2).det := Prim.C57_lattice_positive _ _ _ hr _ _ _ hd

end

/-- the tracking ends, and every fuel from some number on is that of the generator for a list of all nodes -/
theorem seeds_run (L : Prim) (h : 0 < L.det) (hb : L.Ordered) (F : Fld ℝ) (dir : LC → P3) (p : P3) (points : List P3) :
    ∃ n, ∀ fuel, n ≤ fuel → ∃ l bs, ∃ B : List LC, track (ctxOf L F dir) fuel fuel (startsOf L (p :: points)) = .ok (some (l, bs)) ∧
      (∀ lc, L.inBox lc = true → lc ∈ B) ∧ fuel = B.length + 1 ∧
      L.rounded (clampPoint L p) ∈ bs.flatten ∧ ∀ e < 14, L.inBox (neighbor (L.rounded (clampPoint L p)) e) = true → neighbor (L.rounded (clampPoint L p)) e ∈ bs.flatten := by
  obtain ⟨B, hB⟩ : ∃ B : List LC, ∀ lc, L.inBox lc = true → lc ∈ B := by
    let un : Outcome (Int × Int) → Int × Int := fun o => match o with | .ok r => r | _ => (0, 0)
    obtain ⟨-, -, B, -, hB, -⟩ := Prim.C56_all_nodes L h.ne' hb F.neg F.near (un L.thirdRange) (fun z => un (L.secondRange z)) (fun y z => un (L.firstRange y z))
      (fun r hr => by rw [hr]) (fun z r hr => by rw [hr]) (fun y z r hr => by rw [hr])
    exact ⟨B, fun lc hlc => (hB lc).2 (inBox_iff.1 hlc)⟩
  obtain ⟨l, bs, e1, -, e3, e4⟩ := SeedTracking.C86_tracking_ends (ctxOf L F dir) B hB _ (starts_inner h hb (points := p :: points))
  have hp := e4 (L.rounded (clampPoint L p)) List.mem_cons_self
  refine ⟨10 * B.length + B.length * B.length + 1, fun fuel hf => ?_⟩
  refine ⟨l, bs, B ++ List.replicate (fuel - 1 - B.length) ⟨0, 0, 0⟩, e1 fuel fuel (by omega) (by omega), fun lc hlc => List.mem_append_left _ (hB lc hlc), ?_,
    (e3 _ hp.1).2, fun e he _ => (e3 _ (hp.2 _ ⟨e, he, rfl⟩)).2⟩
  rw [List.length_append, List.length_replicate]
  omega

theorem clear_corner {M : Machine N} (hM : M.Ok) {L : Prim} {p : P3} (h : Clear L p) : L.rounded p ∈ (L.tetrahedron p (M.rank L p)).toList :=
  C38_rounded_is_corner L p _ (hM.ranks L p) h

/-- what the file of a result says -/
theorem exported_eq {M : Machine N} (hM : M.Ok) {r : Run (Gen ℝ Snap) (Option (Res Clip.Mesh))} {text : List Char} (h : exported M r = .ok text) :
    (∃ m g, r = .done (some (.mesh m)) g ∧ FileOf M m text) ∨ ((∃ g, r = .done (some .entire) g) ∧ text = "# entire\n".toList) := by
  unfold exported at h
  split at h
  · rename_i m g
    cases h
    refine .inl ⟨m, g, rfl, ?_⟩
    have := Obj.C78_round_trip hM.text (Obj.Mesh.of N (m.vertices.map (vertexOf M)) m.faces)
    unfold FileOf
    rw [this]
    rfl
  · cases h
    exact .inr ⟨⟨_, rfl⟩, rfl⟩
  all_goals cases h

/-- **C87**, both ways to generate a mesh: a property of the mesh, whatever the seeds are -/
theorem generate_all {M : Machine N} (hM : M.Ok) (E : Env) (h : 0 < E.L.det) (hb : E.L.Ordered) (F : Fld ℝ) (seeds : List P3) (hc : FirstClear E.L seeds)
    (Q : Clip.Mesh → Prop) (ok : Option Snap → Prop)
    (h1 : ∀ sn, ok sn → ∀ out g, Iso.step E.steps (M.geo E.L) ⟨LatS.fresh, sn⟩ (.all F true) = .done (some (.mesh out)) g → Q out)
    (h2 : ∀ sn, ok sn → ∀ (B : List LC), (∀ lc, E.L.inBox lc = true → lc ∈ B) → ∀ p rank, E.L.InBbox p → Ranked (E.L.frac p) rank → ∀ batches : List (List LC),
      (E.L.rounded p ∈ batches.flatten ∧ ∀ e < 14, E.L.inBox (neighbor (E.L.rounded p) e) = true → neighbor (E.L.rounded p) e ∈ batches.flatten) →
      E.L.rounded p ∈ (E.L.tetrahedron p rank).toList → ∀ out g,
      Iso.step E.steps (M.geo E.L) ⟨LatS.fresh, sn⟩ (.seeds (some ((E.L.tetrahedron p rank, E.L.weights p rank), batches)) (B.length + 1) F true) = .done (some (.mesh out)) g → Q out) :
    ∃ n, ∀ fuel, n ≤ fuel → ∀ sn, ok sn → ∀ text, exported M (generate M E fuel F ⟨LatS.fresh, sn⟩ seeds) = .ok text →
      text = "# entire\n".toList ∨ ∃ m, Q m ∧ FileOf M m text := by
  cases seeds with
  | nil =>
    refine ⟨0, fun fuel _ sn hsn text ht => ?_⟩
    rcases exported_eq hM ht with ⟨m, g, hr, hf⟩ | ⟨-, hf⟩
    · exact .inr ⟨m, h1 sn hsn m g hr, hf⟩
    · exact .inl hf
  | cons p points =>
    obtain ⟨n, hn⟩ := seeds_run E.L h hb F (M.dir E.L F) p points
    refine ⟨n, fun fuel hfuel sn hsn text ht => ?_⟩
    obtain ⟨l, bs, B, t1, t2, t3, t4, t5⟩ := hn fuel hfuel
    rcases exported_eq hM ht with ⟨m, g, hr, hf⟩ | ⟨-, hf⟩
    · refine .inr ⟨m, ?_, hf⟩
      unfold generate fromSeeds at hr
      dsimp only at hr
      rw [t1] at hr
      dsimp only at hr
      rw [t3] at hr
      exact h2 sn hsn B t2 _ _ (clamp_in hb p) (hM.ranks _ _) bs ⟨t4, t5⟩ (clear_corner hM (hc p (by simp))) m g hr
    · exact .inl hf

/-- a surface that stays inside the box does not reach the outside of the extended box -/
theorem contained_of {L : Prim} (h : 0 < L.det) {value : P3 → ℝ} {iso : ℝ} {below : Prop} (hout : ∀ p, ¬ L.InBbox p → (value p < iso ↔ below)) :
    Contained L (fieldOf L value iso) := by
  classical
  refine ⟨decide below, fun lc hlc ⟨e, he, hn⟩ => ?_⟩
  have hnb : ¬ L.InBbox (L.position lc) := by
    intro hb
    obtain ⟨rank, hr⟩ := Prim.ranked_exists (L.frac (L.position lc))
    obtain ⟨-, -, h3⟩ := Prim.C57_near_nodes_sampled L h _ hb rank hr
    refine hn ((h3 lc ?_).2 e he)
    have z : ∀ a b c : ℝ, Prim.least (Prim.steps a b c) ≤ 0 ∧ 0 ≤ Prim.greatest (Prim.steps a b c) := fun a b c => ⟨(Prim.steps_sign a b c).1, (Prim.steps_sign a b c).2.1⟩
    apply Prim.near_ext hb <;> rw [sub_self] <;> exact z _ _ _
  have := hout _ hnb
  unfold Fld.neg fieldOf
  rw [decide_eq_decide, ← this]
  exact sub_neg

/-- nothing to write: the file of a mesh without vertices and faces, or of an entire one -/
theorem none_of {M : Machine N} {E : Env} (h : 0 < E.L.det) {F : Fld ℝ} {b : Bool} (hb : ∀ lc, E.L.InExt (E.L.position lc) → F.neg lc = b) {p : P3} (hp : E.L.InBbox p)
    {rank : Nat × Nat × Nat} (hr : Ranked (E.L.frac p) rank) {R : List LC} {V : List (LC × Nat)} {fs : List Lattice.Face} (hin : ∀ lc ∈ R, E.L.InExt (E.L.position lc))
    (hm : MeshOf F.neg R V fs) (sn : Option Snap) :
    ∃ m, E.steps.process F true sn (E.steps.raw F V fs) = some m ∧
      ∀ g, exported M (.done (some (expected E.steps m (fieldAt E.L F p rank))) g) = .ok (if b then "# entire\n".toList else "# empty\n".toList) := by
  have hV : V = [] := by
    rw [List.eq_nil_iff_forall_not_mem]
    intro v hv
    obtain ⟨⟨-, -, hc⟩, r1, r2⟩ := (hm.vertices (edgeOf v)).1 (List.mem_map.2 ⟨v, hv, rfl⟩)
    exact hc ((hb _ (hin _ r1)).trans (hb _ (hin _ r2)).symm)
  have hfs : fs = [] := by
    rw [List.eq_nil_iff_forall_not_mem]
    intro f hf
    have := (hm.valid f hf).1
    rw [hV] at this
    obtain ⟨a, c⟩ := this
    rw [List.length_nil] at c
    push_cast at c
    omega
  subst hV hfs
  have hraw : E.steps.raw F [] [] = ⟨[], []⟩ := rfl
  refine ⟨⟨[], []⟩, by rw [hraw]; rfl, fun g => ?_⟩
  obtain ⟨-, h2, h3⟩ := Prim.C57_near_nodes_sampled E.L h p hp rank hr
  have hneg : ∀ n ∈ tetCorners (E.L.cell p) rank, F.neg n = b := fun n hn => hb n (h3 n (h2 n hn)).1
  have h0 := hneg (E.L.cell p) (by unfold tetCorners; exact List.mem_cons_self)
  have hs := field_sign (F := F) h hr fun n hn => (hneg n hn).trans h0.symm
  rw [h0] at hs
  unfold expected
  cases b with
  | true =>
    rw [if_pos ⟨rfl, hs.2 rfl⟩]
    rfl
  | false =>
    rw [if_neg (fun hh => by simpa using hs.1 hh.2)]
    rfl

theorem generate_none {M : Machine N} (hM : M.Ok) (E : Env) (h : 0 < E.L.det) (hb : E.L.Ordered) (F : Fld ℝ) (hF : ∀ b, F.fails b = false) (seeds : List P3) (hc : FirstClear E.L seeds)
    (b : Bool) (hs : ∀ lc, E.L.InExt (E.L.position lc) → F.neg lc = b) :
    ∃ n, ∀ fuel, n ≤ fuel → ∀ sn, exported M (generate M E fuel F ⟨LatS.fresh, sn⟩ seeds) = .ok (if b then "# entire\n".toList else "# empty\n".toList) := by
  have hG := hM.loops E.L
  cases seeds with
  | nil =>
    refine ⟨0, fun fuel _ sn => ?_⟩
    obtain ⟨R, V, fs, -, hmem, hmesh, h1, -⟩ := C38_generate E.steps E.L h hb _ _ hG F hF true sn
    obtain ⟨m, e1, e2⟩ := none_of (M := M) h hs (center_inBbox hb) hG.ranked (fun lc hlc => (hmem lc).1 hlc) hmesh sn
    unfold generate
    dsimp only
    rw [h1 m e1]
    exact e2 _
  | cons p points =>
    obtain ⟨n, hn⟩ := seeds_run E.L h hb F (M.dir E.L F) p points
    refine ⟨n, fun fuel hfuel sn => ?_⟩
    obtain ⟨l, bs, B, t1, t2, t3, t4, t5⟩ := hn fuel hfuel
    obtain ⟨R, V, fs, -, hmem, -, hmesh, -, h1, -⟩ := C38_from_seeds E.steps E.L h (M.rank E.L (clampPoint E.L p)) (M.geo E.L) hG.box hG.order hG.orderLc B t2 F hF (clampPoint E.L p)
      (clamp_in hb p) (hM.ranks _ _) bs ⟨t4, t5⟩ (clear_corner hM (hc p (by simp))) true sn
    obtain ⟨m, e1, e2⟩ := none_of (M := M) h hs (clamp_in hb p) (hM.ranks _ _) hmem hmesh sn
    unfold generate fromSeeds
    dsimp only
    rw [t1]
    dsimp only
    rw [t3, h1 m e1]
    exact e2 _

/-! ## isosurface -/

theorem bbox_eq {bbox : Option (P3 × P3)} {s : Loaded} {lo hi : P3} (hs : s.fitted = true) (h : OutputBox bbox s lo hi) : bboxOf bbox s = .ok (lo, hi) := by
  obtain ⟨⟨h1, h2, h3⟩, rfl | ⟨rfl, rfl, rfl⟩⟩ := h
  · unfold bboxOf boxEmpty
    dsimp only
    rw [if_neg]
    rw [decide_eq_true_iff]
    rintro (h | h | h) <;> linarith
  · unfold bboxOf interpolantBox checkFitted
    rw [hs]
    rfl

theorem isosurface_eq (M : Machine N) (fuel : Nat) (o : Options) {s : Loaded} (hs : s.fitted = true) {lo hi : P3} (hb : OutputBox o.bbox s lo hi)
    (hd : 0 < dot o.aniso.1 (cross o.aniso.2.1 o.aniso.2.2)) {seeds : List P3} (hseeds : Seeds M o.seeds seeds) :
    isosurface M fuel o (.ok s) =
      (setSnap M (envOf M lo hi o.res o.aniso.1 o.aniso.2.1 o.aniso.2.2 s.value o.isoval) o.snap).bind fun g =>
        exported M (generate M (envOf M lo hi o.res o.aniso.1 o.aniso.2.1 o.aniso.2.2 s.value o.isoval) fuel
          (fieldOf (Prim.make lo hi o.res o.aniso.1 o.aniso.2.1 o.aniso.2.2) s.value o.isoval) g seeds) := by
  unfold isosurface checkAniso
  rw [Outcome.ok_bind, bbox_eq hs hb, Outcome.ok_bind, if_pos hd, Outcome.ok_bind, readSeeds_eq M hseeds, Outcome.ok_bind]
  unfold checkFitted
  rw [if_pos hs]
  rfl

/-- **C87, a closed surface.** The command `isosurface`: if the interpolant is on the same side of the isovalue everywhere outside the output box, then a file that is written is that
of a mesh in the box without cracks, or says that the whole box is inside.  For every interpolant, box, positive resolution, anisotropy with a positive determinant, file of
seed points whose first point is not a tie, and file of snap points, or without these files. -/
theorem C87_closed {M : Machine N} (hM : M.Ok) (o : Options) {s : Loaded} (hs : s.fitted = true) {lo hi : P3} (hb : OutputBox o.bbox s lo hi) (hr : 0 < o.res)
    (hd : 0 < dot o.aniso.1 (cross o.aniso.2.1 o.aniso.2.2)) {seeds : List P3} (hseeds : Seeds M o.seeds seeds)
    (hc : FirstClear (Prim.make lo hi o.res o.aniso.1 o.aniso.2.1 o.aniso.2.2) seeds) {below : Prop}
    (hout : ∀ p : P3, ¬((lo.1 ≤ p.1 ∧ lo.2.1 ≤ p.2.1 ∧ lo.2.2 ≤ p.2.2) ∧ p.1 ≤ hi.1 ∧ p.2.1 ≤ hi.2.1 ∧ p.2.2 ≤ hi.2.2) → (s.value p < o.isoval ↔ below)) :
    ∃ n, ∀ fuel, n ≤ fuel → ∀ text, isosurface M fuel o (.ok s) = .ok text → text = "# entire\n".toList ∨ ∃ m, Uncracked lo hi m ∧ FileOf M m text := by
  have hdet := env_det (lo := lo) (hi := hi) hr hd
  have hord : (Prim.make lo hi o.res o.aniso.1 o.aniso.2.1 o.aniso.2.2).Ordered := hb.1
  have hcon : Contained (Prim.make lo hi o.res o.aniso.1 o.aniso.2.1 o.aniso.2.2) (fieldOf _ s.value o.isoval) := contained_of hdet hout
  have hE := env_proper (M := M) (lo := lo) (hi := hi) (a0 := o.aniso.1) (a1 := o.aniso.2.1) (a2 := o.aniso.2.2) (value := s.value) (iso := o.isoval) hM hr
  have hG := hM.loops (Prim.make lo hi o.res o.aniso.1 o.aniso.2.1 o.aniso.2.2)
  obtain ⟨n, hn⟩ := generate_all hM (envOf M lo hi o.res o.aniso.1 o.aniso.2.1 o.aniso.2.2 s.value o.isoval) hdet hord
    (fieldOf (Prim.make lo hi o.res o.aniso.1 o.aniso.2.1 o.aniso.2.2) s.value o.isoval) seeds hc (Uncracked lo hi) (fun sn => ∀ s, sn = some s → Snap.Accepted s)
    (fun sn hsn out g h => C66_generate hE hdet hord _ _ hG _ (fun _ => rfl) hcon true sn hsn out g h)
    (fun sn hsn B hB p rank hp hrk batches hbat htie out g h =>
      C66_from_seeds hE hdet rank _ hG.box hG.order hG.orderLc B hB _ (fun _ => rfl) hcon p hp hrk batches hbat htie true sn hsn out g h)
  refine ⟨n, fun fuel hf text ht => ?_⟩
  rw [isosurface_eq M fuel o hs hb hd hseeds] at ht
  obtain ⟨g, h1, h2⟩ := Outcome.bind_eq_ok.1 ht
  obtain ⟨sn, rfl, -, hsn⟩ := setSnap_ok M _ _ h1
  exact hn fuel hf sn hsn text h2

/-- **C87, any surface**, without snap points: if the surface crosses no lattice edge in its middle, a file that is written is that of a mesh in the box without cracks - also where the
surface leaves the box - or says that the whole box is inside. -/
theorem C87_open {M : Machine N} (hM : M.Ok) (o : Options) {s : Loaded} (hs : s.fitted = true) {lo hi : P3} (hb : OutputBox o.bbox s lo hi) (hr : 0 < o.res)
    (hd : 0 < dot o.aniso.1 (cross o.aniso.2.1 o.aniso.2.2)) {seeds : List P3} (hseeds : Seeds M o.seeds seeds)
    (hc : FirstClear (Prim.make lo hi o.res o.aniso.1 o.aniso.2.1 o.aniso.2.2) seeds) (hsnap : o.snap = none)
    (hroom : (envOf M lo hi o.res o.aniso.1 o.aniso.2.1 o.aniso.2.2 s.value o.isoval).Roomy)
    (hdef : (envOf M lo hi o.res o.aniso.1 o.aniso.2.1 o.aniso.2.2 s.value o.isoval).Definite
      (fieldOf (Prim.make lo hi o.res o.aniso.1 o.aniso.2.1 o.aniso.2.2) s.value o.isoval)) :
    ∃ n, ∀ fuel, n ≤ fuel → ∀ text, isosurface M fuel o (.ok s) = .ok text → text = "# entire\n".toList ∨ ∃ m, Uncracked lo hi m ∧ FileOf M m text := by
  have hdet := env_det (lo := lo) (hi := hi) hr hd
  have hord : (Prim.make lo hi o.res o.aniso.1 o.aniso.2.1 o.aniso.2.2).Ordered := hb.1
  have hE := env_proper (M := M) (lo := lo) (hi := hi) (a0 := o.aniso.1) (a1 := o.aniso.2.1) (a2 := o.aniso.2.2) (value := s.value) (iso := o.isoval) hM hr
  have hG := hM.loops (Prim.make lo hi o.res o.aniso.1 o.aniso.2.1 o.aniso.2.2)
  obtain ⟨n, hn⟩ := generate_all hM (envOf M lo hi o.res o.aniso.1 o.aniso.2.1 o.aniso.2.2 s.value o.isoval) hdet hord
    (fieldOf (Prim.make lo hi o.res o.aniso.1 o.aniso.2.1 o.aniso.2.2) s.value o.isoval) seeds hc (Uncracked lo hi) (fun sn => sn = none)
    (fun sn hsn out g h => C67_generate hE (env_made hd) hroom _ _ hG _ (fun _ => rfl) hdef true out g (by rw [hsn] at h; exact h))
    (fun sn hsn B hB p rank hp hrk batches hbat htie out g h =>
      C67_from_seeds hE (env_made hd) hroom rank _ hG.box hG.order hG.orderLc B hB _ (fun _ => rfl) hdef p hp hrk batches hbat htie true out g (by rw [hsn] at h; exact h))
  refine ⟨n, fun fuel hf text ht => ?_⟩
  rw [isosurface_eq M fuel o hs hb hd hseeds] at ht
  obtain ⟨g, h1, h2⟩ := Outcome.bind_eq_ok.1 ht
  obtain ⟨sn, rfl, h3, -⟩ := setSnap_ok M _ _ h1
  exact hn fuel hf sn (h3 hsnap) text h2

/-- **C87, no surface.** If the interpolant is below the isovalue in the whole announced box (the output box extended by two cells), the file says just that the box is inside; if it is nowhere below
it there, the file says just that the mesh is empty. -/
theorem C87_no_surface {M : Machine N} (hM : M.Ok) (o : Options) {s : Loaded} (hs : s.fitted = true) {lo hi : P3} (hb : OutputBox o.bbox s lo hi) (hr : 0 < o.res)
    (hd : 0 < dot o.aniso.1 (cross o.aniso.2.1 o.aniso.2.2)) {seeds : List P3} (hseeds : Seeds M o.seeds seeds)
    (hc : FirstClear (Prim.make lo hi o.res o.aniso.1 o.aniso.2.1 o.aniso.2.2) seeds) (hsnap : SnapFile M o.snap) :
    ∃ n, ∀ fuel, n ≤ fuel →
      ((∀ p, (Prim.make lo hi o.res o.aniso.1 o.aniso.2.1 o.aniso.2.2).InExt p → s.value p < o.isoval) → isosurface M fuel o (.ok s) = .ok "# entire\n".toList) ∧
      ((∀ p, (Prim.make lo hi o.res o.aniso.1 o.aniso.2.1 o.aniso.2.2).InExt p → o.isoval ≤ s.value p) → isosurface M fuel o (.ok s) = .ok "# empty\n".toList) := by
  have hdet := env_det (lo := lo) (hi := hi) hr hd
  have hord : (Prim.make lo hi o.res o.aniso.1 o.aniso.2.1 o.aniso.2.2).Ordered := hb.1
  obtain ⟨sn, hsn⟩ := setSnap_accepts M (envOf M lo hi o.res o.aniso.1 o.aniso.2.1 o.aniso.2.2 s.value o.isoval) hsnap
  have key : ∀ b : Bool, (∀ p, (Prim.make lo hi o.res o.aniso.1 o.aniso.2.1 o.aniso.2.2).InExt p → (s.value p < o.isoval ↔ b = true)) → ∃ n, ∀ fuel, n ≤ fuel →
      isosurface M fuel o (.ok s) = .ok (if b then "# entire\n".toList else "# empty\n".toList) := by
    intro b hval
    obtain ⟨n, hn⟩ := generate_none hM (envOf M lo hi o.res o.aniso.1 o.aniso.2.1 o.aniso.2.2 s.value o.isoval) hdet hord
      (fieldOf (Prim.make lo hi o.res o.aniso.1 o.aniso.2.1 o.aniso.2.2) s.value o.isoval) (fun _ => rfl) seeds hc b (by
        intro lc hlc
        have := hval _ hlc
        rw [Bool.eq_iff_iff, ← this]
        unfold Fld.neg fieldOf
        rw [decide_eq_true_iff]
        exact sub_neg)
    refine ⟨n, fun fuel hf => ?_⟩
    rw [isosurface_eq M fuel o hs hb hd hseeds, hsn]
    exact hn fuel hf sn
  by_cases h1 : ∀ p, (Prim.make lo hi o.res o.aniso.1 o.aniso.2.1 o.aniso.2.2).InExt p → s.value p < o.isoval
  · obtain ⟨n, hn⟩ := key true fun p hp => ⟨fun _ => rfl, fun _ => h1 p hp⟩
    refine ⟨n, fun fuel hf => ⟨fun _ => hn fuel hf, fun h2 => ?_⟩⟩
    exfalso
    have hin : (Prim.make lo hi o.res o.aniso.1 o.aniso.2.1 o.aniso.2.2).InExt ((Prim.make lo hi o.res o.aniso.1 o.aniso.2.1 o.aniso.2.2).position
        ((Prim.make lo hi o.res o.aniso.1 o.aniso.2.1 o.aniso.2.2).rounded lo)) := by
      have hlo : (Prim.make lo hi o.res o.aniso.1 o.aniso.2.1 o.aniso.2.2).InBbox lo := ⟨⟨le_rfl, le_rfl, le_rfl⟩, hord.1, hord.2.1, hord.2.2⟩
      obtain ⟨c1, -, c3⟩ := Prim.C57_near_nodes_sampled _ hdet lo hlo _ (hM.ranks _ _)
      exact (c3 _ c1).1
    exact absurd (h1 _ hin) (not_lt.2 (h2 _ hin))
  · by_cases h2 : ∀ p, (Prim.make lo hi o.res o.aniso.1 o.aniso.2.1 o.aniso.2.2).InExt p → o.isoval ≤ s.value p
    · obtain ⟨n, hn⟩ := key false fun p hp => ⟨fun h => absurd h (not_lt.2 (h2 p hp)), fun h => by cases h⟩
      exact ⟨n, fun fuel hf => ⟨fun h => absurd h h1, fun _ => hn fuel hf⟩⟩
    · exact ⟨0, fun fuel _ => ⟨fun h => absurd h h1, fun h => absurd h h2⟩⟩

/-- **C87, `--bbox`.** Where a minimum is greater than the maximum the option is silently ignored: the command does what it does without it. -/
theorem C87_reversed_bbox (M : Machine N) (fuel : Nat) (o : Options) (inter : Outcome Loaded) (lo hi : P3) (h : ¬ Box lo hi) :
    isosurface M fuel { o with bbox := some (lo, hi) } inter = isosurface M fuel { o with bbox := none } inter := by
  unfold isosurface
  have hb : ∀ s, bboxOf (some (lo, hi)) s = bboxOf none s := by
    intro s
    unfold bboxOf boxEmpty
    dsimp only
    rw [if_pos]
    rw [decide_eq_true_iff]
    unfold Box at h
    by_contra hn
    simp only [not_or, not_lt] at hn
    exact h hn
  simp only [hb]

/-- **C87, refused.** Nothing is written for an interpolant that cannot be loaded or is not fitted, an anisotropy without a positive determinant, or snap points whose fourth column does not hold numbers from
0 to 1. -/
theorem C87_refused (M : Machine N) (fuel : Nat) (o : Options) (inter : Outcome Loaded) (text : List Char) (h : isosurface M fuel o inter = .ok text) :
    ∃ s, inter = .ok s ∧ s.fitted = true ∧ 0 < dot o.aniso.1 (cross o.aniso.2.1 o.aniso.2.2) ∧
      ∀ f rows n, o.snap = some f → Holds N f rows n → 4 ≤ n → ∀ t ∈ fourth M rows, 0 ≤ t ∧ t ≤ 1 := by
  unfold isosurface at h
  obtain ⟨s, hi, h⟩ := Outcome.bind_eq_ok.1 h
  obtain ⟨b, -, h⟩ := Outcome.bind_eq_ok.1 h
  obtain ⟨u, hu, h⟩ := Outcome.bind_eq_ok.1 h
  obtain ⟨seeds, -, h⟩ := Outcome.bind_eq_ok.1 h
  obtain ⟨g, hg, h⟩ := Outcome.bind_eq_ok.1 h
  obtain ⟨u', hu', -⟩ := Outcome.bind_eq_ok.1 h
  refine ⟨s, hi, ?_, ?_, ?_⟩
  · unfold checkFitted at hu'
    by_contra hn
    rw [if_neg hn] at hu'
    cases hu'
  · unfold checkAniso at hu
    by_contra hn
    rw [if_neg hn] at hu
    cases hu
  · intro f rows n hf hh h4
    rw [hf] at hg
    obtain ⟨m, h1, h2, h3⟩ := holds_read hh
    have hw : ∀ r ∈ rows, r.length = m.cols := by rw [h3]; exact hh.1
    obtain ⟨h5, h6⟩ := tolerances_eq M h2 hw
    unfold setSnap at hg
    dsimp only at hg
    rw [h1, Outcome.ok_bind, h5, Outcome.ok_bind, columns_ok h2 0 3 (by omega), Outcome.ok_bind] at hg
    obtain ⟨ha, -⟩ := setSnap_done hg
    rw [if_pos (by omega), acceptable_iff] at ha
    rcases ha with ha | ⟨-, ha⟩
    · rw [ha]; simp
    · exact ha

/-- **C87, narrow tables.** Seed or snap points in a table with fewer than three columns are read beyond its end. -/
theorem C87_narrow_table (M : Machine N) (fuel : Nat) (o : Options) {s : Loaded} (hs : s.fitted = true) {lo hi : P3} (hb : OutputBox o.bbox s lo hi)
    (hd : 0 < dot o.aniso.1 (cross o.aniso.2.1 o.aniso.2.2)) {f : List Char} {rows : List (List N.D)} {n : Nat} (hf : Holds N f rows n) (hn : n < 3)
    (h : o.seeds = some f ∨ (o.snap = some f ∧ ∃ seeds, Seeds M o.seeds seeds)) : isosurface M fuel o (.ok s) = .ub := by
  obtain ⟨m, h1, h2, h3⟩ := holds_read hf
  have hcol : columns N m 0 3 = .ub := by
    unfold columns
    rw [if_neg (by omega)]
  rcases h with h | ⟨h, seeds, hseeds⟩
  · unfold isosurface checkAniso
    rw [Outcome.ok_bind, bbox_eq hs hb, Outcome.ok_bind, if_pos hd, Outcome.ok_bind, h]
    unfold readSeeds
    dsimp only
    rw [h1, Outcome.ok_bind, hcol]
    rfl
  · rw [isosurface_eq M fuel o hs hb hd hseeds, h]
    unfold setSnap readTolerances
    dsimp only
    rw [h1, Outcome.ok_bind, if_neg (by omega), Outcome.ok_bind, hcol]
    rfl

end Verif.IsoCommand
