import Verif.Props.IsosurfaceCommand
import Verif.Props.PipelineOpenExamples
import Verif.Props.Obj
import Mathlib.Tactic.NormNum
import Mathlib.Tactic.Linarith

/-!
# C87: the command surface-25d, and cases for both commands
-/

namespace Verif.IsoCommand

open Verif Verif.Table Verif.Cli Verif.Lattice Verif.Iso Verif.Pipeline
open Verif.PrimLattice (Prim dot cross)
open Verif.PrimLattice.Prim (Ranked)
open Verif.Predicates (P3)

variable {N : Num}

theorem identity_positive : 0 < dot (1, 0, 0) (cross (0, 1, 0) (0, 0, 1)) := by simp [dot, cross]

/-- without anisotropy the lattice leaves room around every box that is not too thin -/
theorem roomy_identity (M : Machine N) {lo hi : P3} {res : ℝ} (hr : 0 < res) (value : P3 → ℝ) (iso : ℝ)
    (hb : 2e-10 * res ≤ hi.1 - lo.1 ∧ 2e-10 * res ≤ hi.2.1 - lo.2.1 ∧ 2e-10 * res ≤ hi.2.2 - lo.2.2) : (envOf M lo hi res (1, 0, 0) (0, 1, 0) (0, 0, 1) value iso).Roomy := by
  have hL : (envOf M lo hi res (1, 0, 0) (0, 1, 0) (0, 0, 1) value iso).L = ⟨lo, hi, (res * 0.5773502691896258, res * 0.816496580927726, 0),
      (-(res * 0.5773502691896258), 0, res * 0.816496580927726), (res * 0.5773502691896258, -(res * 0.816496580927726), 0)⟩ := by
    simp [envOf, Prim.make, Prim.invMul, Prim.latticeBasis, PrimLattice.dot, PrimLattice.cross]
  have hres : (envOf M lo hi res (1, 0, 0) (0, 1, 0) (0, 0, 1) value iso).resolution = res := rfl
  refine ⟨hb, ?_, ?_⟩ <;> rw [hL, hres]
  · rw [(Prim.ext0 1).1, (Prim.ext1 1).1, (Prim.ext2 1).1]
    dsimp only
    have h1 := (Prim.steps_bound (a := res * 0.5773502691896258) (b := -(res * 0.5773502691896258)) (c := res * 0.5773502691896258) (d := ⟨-1, 0, 0⟩) (by decide)).1
    have h2 := (Prim.steps_bound (a := res * 0.816496580927726) (b := 0) (c := -(res * 0.816496580927726)) (d := ⟨-1, 0, 0⟩) (by decide)).1
    have h3 := (Prim.steps_bound (a := 0) (b := res * 0.816496580927726) (c := 0) (d := ⟨0, -1, 0⟩) (by decide)).1
    push_cast at h1 h2 h3 ⊢
    refine ⟨?_, ?_, ?_⟩ <;> linarith
  · rw [(Prim.ext0 1).2, (Prim.ext1 1).2, (Prim.ext2 1).2]
    dsimp only
    have h1 := (Prim.steps_bound (a := res * 0.5773502691896258) (b := -(res * 0.5773502691896258)) (c := res * 0.5773502691896258) (d := ⟨1, 0, 0⟩) (by decide)).2
    have h2 := (Prim.steps_bound (a := res * 0.816496580927726) (b := 0) (c := -(res * 0.816496580927726)) (d := ⟨1, 0, 0⟩) (by decide)).2
    have h3 := (Prim.steps_bound (a := 0) (b := res * 0.816496580927726) (c := 0) (d := ⟨0, 1, 0⟩) (by decide)).2
    push_cast at h1 h2 h3 ⊢
    refine ⟨?_, ?_, ?_⟩ <;> linarith

theorem surface25d_eq (M : Machine N) (fuel : Nat) {file : Option (List Char)} {lo hi : P3} {res : ℝ} {s : Loaded2} (hs : s.fitted = true) {seeds : List P3} (hseeds : Seeds M file seeds) :
    surface25d M fuel file lo hi res (.ok s) =
      exported M (generate M (envOf M lo hi res (1, 0, 0) (0, 1, 0) (0, 0, 1) (heightField s.value) 0) fuel
        (fieldOf (Prim.make lo hi res (1, 0, 0) (0, 1, 0) (0, 0, 1)) (heightField s.value) 0) newGen seeds) := by
  unfold surface25d checkAniso
  rw [Outcome.ok_bind, if_pos identity_positive, Outcome.ok_bind, readSeeds_eq M hseeds, Outcome.ok_bind]
  unfold checkFitted
  rw [if_pos hs]
  rfl

/-- **C87, surface-25d.** For every height function, box that is not too thin, positive resolution, and file of seed points whose first point is not a tie, or without one: if the surface crosses
no lattice edge in its middle, a file that is written is that of a mesh in the box without cracks, or says that the whole box is below the surface. -/
theorem C87_surface_25d {M : Machine N} (hM : M.Ok) {file : Option (List Char)} {lo hi : P3} {res : ℝ} {s : Loaded2} (hs : s.fitted = true) (hr : 0 < res)
    (hb : 2e-10 * res ≤ hi.1 - lo.1 ∧ 2e-10 * res ≤ hi.2.1 - lo.2.1 ∧ 2e-10 * res ≤ hi.2.2 - lo.2.2) {seeds : List P3} (hseeds : Seeds M file seeds)
    (hc : FirstClear (Prim.make lo hi res (1, 0, 0) (0, 1, 0) (0, 0, 1)) seeds)
    (hdef : (envOf M lo hi res (1, 0, 0) (0, 1, 0) (0, 0, 1) (fun p => p.2.2 - s.value (p.1, p.2.1)) 0).Definite
      (fieldOf (Prim.make lo hi res (1, 0, 0) (0, 1, 0) (0, 0, 1)) (fun p => p.2.2 - s.value (p.1, p.2.1)) 0)) :
    ∃ n, ∀ fuel, n ≤ fuel → ∀ text, surface25d M fuel file lo hi res (.ok s) = .ok text → text = "# entire\n".toList ∨ ∃ m, Uncracked lo hi m ∧ FileOf M m text := by
  have hdet := env_det (lo := lo) (hi := hi) hr identity_positive
  have hpos : 0 < 2e-10 * res := by positivity
  have hord : (Prim.make lo hi res (1, 0, 0) (0, 1, 0) (0, 0, 1)).Ordered := by
    obtain ⟨b1, b2, b3⟩ := hb
    exact ⟨by show lo.1 ≤ hi.1; linarith, by show lo.2.1 ≤ hi.2.1; linarith, by show lo.2.2 ≤ hi.2.2; linarith⟩
  have hE := env_proper (M := M) (lo := lo) (hi := hi) (a0 := (1, 0, 0)) (a1 := (0, 1, 0)) (a2 := (0, 0, 1)) (value := heightField s.value) (iso := 0) hM hr
  have hroom := roomy_identity M (lo := lo) (hi := hi) hr (heightField s.value) 0 hb
  have hG := hM.loops (Prim.make lo hi res (1, 0, 0) (0, 1, 0) (0, 0, 1))
  obtain ⟨n, hn⟩ := generate_all hM (envOf M lo hi res (1, 0, 0) (0, 1, 0) (0, 0, 1) (heightField s.value) 0) hdet hord
    (fieldOf (Prim.make lo hi res (1, 0, 0) (0, 1, 0) (0, 0, 1)) (heightField s.value) 0) seeds hc (Uncracked lo hi) (fun sn => sn = none)
    (fun sn hsn out g h => C67_generate hE (env_made identity_positive) hroom _ _ hG _ (fun _ => rfl) hdef true out g (by rw [hsn] at h; exact h))
    (fun sn hsn B hB p rank hp hrk batches hbat htie out g h =>
      C67_from_seeds hE (env_made identity_positive) hroom rank _ hG.box hG.order hG.orderLc B hB _ (fun _ => rfl) hdef p hp hrk batches hbat htie true out g (by rw [hsn] at h; exact h))
  refine ⟨n, fun fuel hf text ht => ?_⟩
  rw [surface25d_eq M fuel hs hseeds] at ht
  exact hn fuel hf none rfl text ht

/-- **C87, surface-25d without a surface.** If the surface is above every point of the announced box, the file says just that the box is inside; if no point of that box is below the surface, it says
just that the mesh is empty. -/
theorem C87_25d_no_surface {M : Machine N} (hM : M.Ok) {file : Option (List Char)} {lo hi : P3} {res : ℝ} {s : Loaded2} (hs : s.fitted = true) (hr : 0 < res) (hb : Box lo hi)
    {seeds : List P3} (hseeds : Seeds M file seeds) (hc : FirstClear (Prim.make lo hi res (1, 0, 0) (0, 1, 0) (0, 0, 1)) seeds) (b : Bool)
    (h : ∀ p, (Prim.make lo hi res (1, 0, 0) (0, 1, 0) (0, 0, 1)).InExt p → (p.2.2 < s.value (p.1, p.2.1) ↔ b = true)) :
    ∃ n, ∀ fuel, n ≤ fuel → surface25d M fuel file lo hi res (.ok s) = .ok (if b then "# entire\n".toList else "# empty\n".toList) := by
  have hdet := env_det (lo := lo) (hi := hi) hr identity_positive
  obtain ⟨n, hn⟩ := generate_none hM (envOf M lo hi res (1, 0, 0) (0, 1, 0) (0, 0, 1) (heightField s.value) 0) hdet hb
    (fieldOf (Prim.make lo hi res (1, 0, 0) (0, 1, 0) (0, 0, 1)) (heightField s.value) 0) (fun _ => rfl) seeds hc b (by
      intro lc hlc
      have := h _ hlc
      rw [Bool.eq_iff_iff, ← this]
      unfold Fld.neg fieldOf heightField
      rw [decide_eq_true_iff]
      show _ - 0 < 0 ↔ _
      rw [sub_zero]
      exact sub_neg)
  refine ⟨n, fun fuel hf => ?_⟩
  rw [surface25d_eq M fuel hs hseeds]
  exact hn fuel hf none

/-- **C87, surface-25d refused.** Nothing is written for an interpolant that cannot be loaded or is not fitted; seed points in a table with fewer than three columns are read beyond its end. -/
theorem C87_25d_refused (M : Machine N) (fuel : Nat) (file : Option (List Char)) (lo hi : P3) (res : ℝ) (inter : Outcome Loaded2) :
    (∀ text, surface25d M fuel file lo hi res inter = .ok text → ∃ s, inter = .ok s ∧ s.fitted = true) ∧
    (∀ s f (rows : List (List N.D)) n, inter = .ok s → file = some f → Holds N f rows n → n < 3 → surface25d M fuel file lo hi res inter = .ub) := by
  constructor
  · intro text h
    unfold surface25d at h
    obtain ⟨s, hi, h⟩ := Outcome.bind_eq_ok.1 h
    obtain ⟨u, hu, h⟩ := Outcome.bind_eq_ok.1 h
    obtain ⟨seeds, -, h⟩ := Outcome.bind_eq_ok.1 h
    obtain ⟨u', hu', -⟩ := Outcome.bind_eq_ok.1 h
    refine ⟨s, hi, ?_⟩
    unfold checkFitted at hu'
    by_contra hn
    rw [if_neg hn] at hu'
    cases hu'
  · rintro s f rows n rfl rfl hf hn
    obtain ⟨m, h1, h2, h3⟩ := holds_read hf
    have hcol : columns N m 0 3 = .ub := by
      unfold columns
      rw [if_neg (by omega)]
    unfold surface25d checkAniso readSeeds
    rw [Outcome.ok_bind, if_pos identity_positive, Outcome.ok_bind]
    dsimp only
    rw [h1, Outcome.ok_bind, hcol]
    rfl

/-! ## Cases -/

open Classical in
/-- a machine: numbers are printed as digits -/
noncomputable def exMachine : Machine Obj.exNum where
  toReal := fun (n : Nat) => (n : ℝ)
  ofReal := fun x => (⌊x⌋₊ : Nat)
  base := unitEnv 0
  geo := fun L => (ofPrim_exists L).choose_spec.choose
  rank := fun L p => if p = L.center then (ofPrim_exists L).choose else (Prim.ranked_exists (L.frac p)).choose
  dir := fun _ _ _ => (0, 0, 1)

theorem exNum_delims : Obj.exNum.Ok delims where
  round := Obj.exNum_ok.round
  clean x c hc := by
    have hd := Obj.decimal_digits x c hc
    refine ⟨(Obj.exNum_ok.clean x c hc).1, ?_, (Obj.exNum_ok.clean x c hc).2.2⟩
    unfold delims
    simp only [List.mem_cons, List.not_mem_nil, or_false, not_or]
    refine ⟨?_, ?_, ?_⟩ <;> (rintro rfl; revert hd; decide)
  ne := Obj.exNum_ok.ne

theorem exMachine_ok : exMachine.Ok where
  text := Obj.exNum_ok
  loops := fun L => by
    have : exMachine.rank L L.center = (ofPrim_exists L).choose := if_pos rfl
    rw [this]
    exact (ofPrim_exists L).choose_spec.choose_spec
  ranks := fun L p => by
    by_cases h : p = L.center
    · have : exMachine.rank L p = (ofPrim_exists L).choose := if_pos h
      rw [this, h]
      exact (ofPrim_exists L).choose_spec.choose_spec.ranked
    · have : exMachine.rank L p = (Prim.ranked_exists (L.frac p)).choose := if_neg h
      rw [this]
      exact (Prim.ranked_exists (L.frac p)).choose_spec
  sorting := (unit_proper 0).sorting
  between := (unit_proper 0).between

/-- two seed points, the center of the box and one beyond it -/
def exSeeds : List (List Nat) := [[0, 0, 0, 8], [3, 0, 1, 8]]

/-- their file, with a column that is not used -/
def exSeedFile : List Char := writeTable Obj.exNum delim exSeeds

example : exSeedFile = "0 0 0 8\n3 0 1 8\n".toList := by decide +kernel

theorem exSeeds_read : Seeds exMachine (some exSeedFile) [(0, 0, 0), (3, 0, 1)] := by
  have h1 : exSeeds ≠ [] := by decide
  have h2 : ∀ r ∈ exSeeds, r.length = 4 := by decide
  refine .inr ⟨exSeedFile, exSeeds, 4, rfl, holds_write exNum_delims exSeeds 4 h1 (by decide) h2, by norm_num, ?_⟩
  show [(0, 0, 0), (3, 0, 1)] = [(((0 : ℕ) : ℝ), ((0 : ℕ) : ℝ), ((0 : ℕ) : ℝ)), (((3 : ℕ) : ℝ), ((0 : ℕ) : ℝ), ((1 : ℕ) : ℝ))]
  norm_num

/-- two snap points with tolerances -/
def exSnap : List (List Nat) := [[1, 0, 0, 0], [0, 1, 0, 1]]

theorem exSnap_ok : SnapFile exMachine (some (writeTable Obj.exNum delim exSnap)) := by
  have h1 : exSnap ≠ [] := by decide
  have h2 : ∀ r ∈ exSnap, r.length = 4 := by decide
  refine .inr ⟨_, _, 4, rfl, holds_write exNum_delims exSnap 4 h1 (by decide) h2, by norm_num, fun _ t ht => ?_⟩
  have ht : t ∈ [((0 : ℕ) : ℝ), ((1 : ℕ) : ℝ)] := ht
  have : t = ((0 : ℕ) : ℝ) ∨ t = ((1 : ℕ) : ℝ) := by simpa using ht
  rcases this with rfl | rfl <;> norm_num

/-- the first seed point is a lattice point -/
theorem ex_clear (hi : P3) (h : 0 ≤ hi.1 ∧ 0 ≤ hi.2.1 ∧ 0 ≤ hi.2.2) (res : ℝ) (points : List P3) :
    FirstClear (Prim.make (-hi.1, -hi.2.1, -hi.2.2) hi res (1, 0, 0) (0, 1, 0) (0, 0, 1)) ((0, 0, 0) :: points) := by
  intro p hp i _ j _ _ hij
  simp only [List.head?_cons, Option.mem_def, Option.some.injEq] at hp
  subst hp
  obtain ⟨h1, h2, h3⟩ := h
  have hL : (Prim.make (-hi.1, -hi.2.1, -hi.2.2) hi res (1, 0, 0) (0, 1, 0) (0, 0, 1)).lo = (-hi.1, -hi.2.1, -hi.2.2) := rfl
  have hH : (Prim.make (-hi.1, -hi.2.1, -hi.2.2) hi res (1, 0, 0) (0, 1, 0) (0, 0, 1)).hi = hi := rfl
  generalize Prim.make (-hi.1, -hi.2.1, -hi.2.2) hi res (1, 0, 0) (0, 1, 0) (0, 0, 1) = L at *
  have hc : SeedTracking.clampPoint L (0, 0, 0) = (0, 0, 0) := by
    unfold SeedTracking.clampPoint
    rw [hL, hH]
    dsimp only
    rw [max_eq_left (by linarith), max_eq_left (by linarith), max_eq_left (by linarith), min_eq_left h1, min_eq_left h2, min_eq_left h3]
  have hcen : L.center = (0, 0, 0) := by
    unfold Prim.center
    rw [hL, hH]
    simp
  have hf : L.frac (0, 0, 0) i = 0 := by
    have hu : L.unrounded (0, 0, 0) = (0, 0, 0) := by
      unfold Prim.unrounded Prim.origin Prim.coords
      rw [hcen]
      simp [PrimLattice.dot, Clusterer.round_zero]
    unfold Prim.frac
    split <;> rw [hu] <;> simp
  rw [hc, hf] at hij
  norm_num at hij

/-- a ball of radius 1 -/
noncomputable def exBall : Loaded := ⟨true, (-5, -5, -5), (5, 5, 5), fun p => p.1 ^ 2 + p.2.1 ^ 2 + p.2.2 ^ 2⟩

/-- the conditions of `C87_closed`: the ball is inside the box ±2 -/
example : ∃ n, ∀ fuel, n ≤ fuel → ∀ text,
    isosurface exMachine fuel ⟨some exSeedFile, none, 1, some ((-2, -2, -2), (2, 2, 2)), 1 / 2, ((1, 0, 0), (0, 1, 0), (0, 0, 1))⟩ (.ok exBall) = .ok text →
    text = "# entire\n".toList ∨ ∃ m, Uncracked (-2, -2, -2) (2, 2, 2) m ∧ FileOf exMachine m text :=
  C87_closed exMachine_ok _ (s := exBall) rfl ⟨⟨by norm_num, by norm_num, by norm_num⟩, .inl rfl⟩ (by norm_num) identity_positive exSeeds_read
    (ex_clear (2, 2, 2) ⟨by norm_num, by norm_num, by norm_num⟩ _ _) (below := False) (by
      intro p hp
      simp only [iff_false, not_lt, exBall]
      by_contra hn
      push Not at hn
      refine hp ⟨⟨?_, ?_, ?_⟩, ?_, ?_, ?_⟩ <;> dsimp only <;> nlinarith [sq_nonneg p.1, sq_nonneg p.2.1, sq_nonneg p.2.2])

/-- those of `C87_no_surface`, with snap points -/
example : ∃ n, ∀ fuel, n ≤ fuel →
    isosurface exMachine fuel ⟨some exSeedFile, some (writeTable Obj.exNum delim exSnap), -1, none, 1 / 2, ((1, 0, 0), (0, 1, 0), (0, 0, 1))⟩ (.ok exBall) =
      .ok "# empty\n".toList := by
  obtain ⟨n, hn⟩ := C87_no_surface exMachine_ok
    ⟨some exSeedFile, some (writeTable Obj.exNum delim exSnap), -1, none, 1 / 2, ((1, 0, 0), (0, 1, 0), (0, 0, 1))⟩ (s := exBall) rfl
    (lo := (-5, -5, -5)) (hi := (5, 5, 5)) ⟨⟨by norm_num, by norm_num, by norm_num⟩, .inr ⟨rfl, rfl, rfl⟩⟩ (by norm_num) identity_positive exSeeds_read
    (ex_clear (5, 5, 5) ⟨by norm_num, by norm_num, by norm_num⟩ _ _) exSnap_ok
  refine ⟨n, fun fuel hf => (hn fuel hf).2 fun p _ => ?_⟩
  simp only [exBall]
  nlinarith [sq_nonneg p.1, sq_nonneg p.2.1, sq_nonneg p.2.2]

/-- those of `C87_25d_no_surface`: a surface that is above the box -/
example : ∃ n, ∀ fuel, n ≤ fuel → surface25d exMachine fuel (some exSeedFile) (-2, -2, -2) (2, 2, 2) 1 (.ok ⟨true, fun p => 100 + p.1 ^ 2⟩) = .ok "# entire\n".toList := by
  refine C87_25d_no_surface exMachine_ok rfl one_pos ⟨by norm_num, by norm_num, by norm_num⟩ exSeeds_read (ex_clear (2, 2, 2) ⟨by norm_num, by norm_num, by norm_num⟩ _ _) true ?_
  intro p hp
  have h1 : p.2.2 ≤ ((Prim.make (-2, -2, -2) (2, 2, 2) 1 (1, 0, 0) (0, 1, 0) (0, 0, 1)).extHi 2).2.2 := hp.2.2.2
  have h2 : ((Prim.make (-2, -2, -2) (2, 2, 2) 1 (1, 0, 0) (0, 1, 0) (0, 0, 1)).extHi 2).2.2 ≤ 50 := by
    simp only [Prim.make, Prim.invMul, Prim.latticeBasis, PrimLattice.dot, PrimLattice.cross, Prim.extHi, Prim.greatest, Prim.step, Lattice.deltas]
    norm_num
  simp only [iff_true]
  nlinarith [sq_nonneg p.1]

/-- a flat surface, a quarter of the way between two layers of lattice points -/
noncomputable def exFlat : Loaded2 := ⟨true, fun _ => 0.816496580927726 / 4⟩

theorem exFlat_val (lc : LC) : (fieldOf (bccEnv 0).L (fun p => p.2.2 - exFlat.value (p.1, p.2.1)) 0).val lc = 0.816496580927726 * ((lc.y : ℝ) - 1 / 4) := by
  unfold fieldOf exFlat
  dsimp only
  rw [bcc_position]
  dsimp only
  ring

theorem exFlat_neg (lc : LC) : (fieldOf (bccEnv 0).L (fun p => p.2.2 - exFlat.value (p.1, p.2.1)) 0).neg lc = true ↔ lc.y ≤ 0 := by
  unfold Fld.neg
  rw [decide_eq_true_iff, exFlat_val]
  constructor
  · intro h
    by_contra hn
    have : (1 : ℝ) ≤ lc.y := by exact_mod_cast (by omega : 1 ≤ lc.y)
    nlinarith
  · intro h
    have : (lc.y : ℝ) ≤ 0 := by exact_mod_cast h
    nlinarith

theorem exFlat_crossed {lc : LC} {e : Nat} (h : (fieldOf (bccEnv 0).L (fun p => p.2.2 - exFlat.value (p.1, p.2.1)) 0).neg lc ≠
    (fieldOf (bccEnv 0).L (fun p => p.2.2 - exFlat.value (p.1, p.2.1)) 0).neg (neighbor lc e)) : (lc.y = 0 ∧ (neighbor lc e).y = 1) ∨ (lc.y = 1 ∧ (neighbor lc e).y = 0) := by
  have hd := (delta_small e).2.1
  have hn : (neighbor lc e).y = lc.y + (delta e).y := rfl
  by_cases h1 : lc.y ≤ 0 <;> by_cases h2 : (neighbor lc e).y ≤ 0
  · exact absurd (Bool.eq_iff_iff.2 (iff_of_true ((exFlat_neg _).2 h1) ((exFlat_neg _).2 h2))) h
  · left; omega
  · right; omega
  · exact absurd (Bool.eq_iff_iff.2 (iff_of_false (fun h => h1 ((exFlat_neg _).1 h)) fun h => h2 ((exFlat_neg _).1 h))) h

theorem exFlat_definite : (envOf exMachine (-10, -10, -10) (10, 10, 10) 1 (1, 0, 0) (0, 1, 0) (0, 0, 1) (fun p => p.2.2 - exFlat.value (p.1, p.2.1)) 0).Definite
    (fieldOf (Prim.make (-10, -10, -10) (10, 10, 10) 1 (1, 0, 0) (0, 1, 0) (0, 0, 1)) (fun p => p.2.2 - exFlat.value (p.1, p.2.1)) 0) := by
  have key : (bccEnv 0).Definite (fieldOf (bccEnv 0).L (fun p => p.2.2 - exFlat.value (p.1, p.2.1)) 0) := by
    refine C67_definite (bcc_runs 0).lattice ?_ ?_
    · intro lc e h
      rw [exFlat_val, exFlat_val]
      rcases exFlat_crossed h with ⟨h1, h2⟩ | ⟨h1, h2⟩ <;> rw [h1, h2] <;> norm_num
    · intro lc e h
      have hres : (bccEnv 0).resolution = 1 := rfl
      have hlo : (bccEnv 0).L.lo = (-10, -10, -10) := rfl
      have hhi : (bccEnv 0).L.hi = (10, 10, 10) := rfl
      have ha : ∃ w : ℤ, max 1e-4 (min (Env.along (fieldOf (bccEnv 0).L (fun p => p.2.2 - exFlat.value (p.1, p.2.1)) 0) (lc, e)) (1 - 1e-4)) = (w : ℝ) / 4 := by
        unfold Env.along
        rw [exFlat_val, exFlat_val]
        dsimp only
        rcases exFlat_crossed h with ⟨h1, h2⟩ | ⟨h1, h2⟩ <;> rw [h1, h2]
        · exact ⟨1, by norm_num⟩
        · exact ⟨3, by norm_num⟩
      obtain ⟨w, hw⟩ := ha
      unfold Prim.snapToBox Prim.vertexPos
      dsimp only
      rw [hw, hres, hlo, hhi, bcc_position, bcc_position]
      dsimp only
      have key : ∀ (k : ℝ) (x y : ℤ), (k = 0.5773502691896258 ∨ k = 0.816496580927726) →
          Prim.snap1 (1e-10 * 1) (-10) 10 (k * (x : ℝ) + w / 4 * (k * (y : ℝ) - k * (x : ℝ))) = k * (x : ℝ) + w / 4 * (k * (y : ℝ) - k * (x : ℝ)) := by
        intro k x y hk
        have e : k * (x : ℝ) + w / 4 * (k * (y : ℝ) - k * (x : ℝ)) = k * (((4 * x + w * (y - x) : ℤ) : ℝ) / 4) := by push_cast; ring
        rw [e, no_snap hk]
      rw [key _ _ _ (Or.inl rfl), key _ _ _ (Or.inr rfl), key _ _ _ (Or.inr rfl)]
  exact key

/-- the conditions of `C87_surface_25d` -/
example : ∃ n, ∀ fuel, n ≤ fuel → ∀ text, surface25d exMachine fuel (some exSeedFile) (-10, -10, -10) (10, 10, 10) 1 (.ok exFlat) = .ok text →
    text = "# entire\n".toList ∨ ∃ m, Uncracked (-10, -10, -10) (10, 10, 10) m ∧ FileOf exMachine m text :=
  C87_surface_25d exMachine_ok rfl one_pos ⟨by norm_num, by norm_num, by norm_num⟩ exSeeds_read (ex_clear (10, 10, 10) ⟨by norm_num, by norm_num, by norm_num⟩ _ _) exFlat_definite

/-- those of `C87_open`: the same surface -/
example : ∃ n, ∀ fuel, n ≤ fuel → ∀ text,
    isosurface exMachine fuel ⟨none, none, 0, none, 1, ((1, 0, 0), (0, 1, 0), (0, 0, 1))⟩ (.ok ⟨true, (-10, -10, -10), (10, 10, 10), fun p => p.2.2 - exFlat.value (p.1, p.2.1)⟩) = .ok text →
    text = "# entire\n".toList ∨ ∃ m, Uncracked (-10, -10, -10) (10, 10, 10) m ∧ FileOf exMachine m text :=
  C87_open exMachine_ok _ rfl ⟨⟨by norm_num, by norm_num, by norm_num⟩, .inr ⟨rfl, rfl, rfl⟩⟩ one_pos identity_positive (.inl ⟨rfl, rfl⟩) (fun p hp => by simp at hp) rfl
    (roomy_identity exMachine one_pos _ _ ⟨by norm_num, by norm_num, by norm_num⟩) exFlat_definite

end Verif.IsoCommand
