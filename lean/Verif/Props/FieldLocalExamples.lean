import Verif.Props.FieldLocal
import Verif.Props.PipelineExamples

/-!
# C74: two fields that differ far away
-/

namespace Verif.Pipeline

open Verif Verif.Lattice Verif.Iso
open Verif.PrimLattice (Prim)
open Verif.Predicates (P3)

/-- a plane, and the value `c` far from the box -/
noncomputable def farField (c : ℝ) (p : P3) : ℝ := if 50 < p.1 then c else 1 / 3 - p.1

/-- the environment of `PipelineExamples` with these fields -/
noncomputable def farEnv (n : Nat) : Env := { unitEnv n with field := fun F ps => ps.map (farField (F.val ⟨100, 0, 0⟩)) }

open Classical in
/-- the field at the lattice points; the field function with `c = 7` throws far from the box -/
noncomputable def far (c : ℝ) : Fld ℝ :=
  ⟨fun lc => farField c ((farEnv 0).L.position lc), fun b => decide (∃ lc ∈ b, c = 7 ∧ 50 < ((farEnv 0).L.position lc).1)⟩

theorem far_isField (n : Nat) (c : ℝ) : IsField (farEnv n) (farField c) (fun p => c = 7 ∧ 50 < p.1) 0 (far c) where
  val := fun lc => (sub_zero _).symm
  fails := fun b => by
    show decide _ = true ↔ _
    rw [decide_eq_true_iff]
    rfl
  field := fun ps => by
    have h : (far c).val ⟨100, 0, 0⟩ = c := by
      show farField c ((unitEnv 0).L.position _) = c
      rw [unit_position]
      unfold farField
      norm_num
    show ps.map (farField ((far c).val ⟨100, 0, 0⟩)) = _
    rw [h]
  isovalue := rfl

theorem far_near (n : Nat) {p : P3} (h : Near (farEnv n) p) : ¬ 50 < p.1 := by
  have hx := h.1.2
  have e : ((farEnv n).L.extHi 2).1 = 10 + (2 : ℕ) * 1.01 * Prim.greatest (deltas.map fun d => ((unitEnv n).L.step d).1) := rfl
  have hg : Prim.greatest (deltas.map fun d => ((unitEnv n).L.step d).1) ≤ 3 := by
    simp [Prim.greatest, Prim.step, deltas, unitEnv, Clusterer.unitInput]
  have hr : (farEnv n).resolution = 1 := rfl
  rw [e, hr] at hx
  norm_num at hx
  intro hp
  linarith

/-- The two fields are different, and one of them throws, but the same mesh is generated from them. -/
example (n : Nat) : ∃ rank G, OfPrim (farEnv n).L rank G ∧ (∃ lc, (far 7).val lc ≠ (far (-7)).val lc) ∧ (∃ b, (far 7).fails b ≠ (far (-7)).fails b) ∧
    ∀ rf sn, step (farEnv n).steps G ⟨LatS.fresh, sn⟩ (.all (far 7) rf) = step (farEnv n).steps G ⟨LatS.fresh, sn⟩ (.all (far (-7)) rf) := by
  obtain ⟨rank, G, hG⟩ := ofPrim_exists (farEnv n).L
  have hdet : 0 < (farEnv n).L.det := by
    have : (farEnv n).L.det = 1 := Clusterer.unit_det [] []
    rw [this]; exact one_pos
  have hord : (farEnv n).L.Ordered := by
    unfold Prim.Ordered
    simp only [farEnv, unitEnv, Clusterer.unitInput]
    norm_num
  have hres : 0 < (farEnv n).resolution := by
    show (0 : ℝ) < 1
    exact one_pos
  have hp : ((farEnv 0).L.position ⟨100, 0, 0⟩).1 = 100 := by
    show ((unitEnv 0).L.position _).1 = 100
    rw [unit_position]
    norm_num
  refine ⟨rank, G, hG, ⟨⟨100, 0, 0⟩, ?_⟩, ⟨[⟨100, 0, 0⟩], ?_⟩, fun rf sn => ?_⟩
  · show farField 7 _ ≠ farField (-7) _
    unfold farField
    rw [hp]
    norm_num
  · intro h
    have h1 := ((far_isField 0 7).fails [⟨100, 0, 0⟩]).2 ⟨_, List.mem_singleton.2 rfl, rfl, by rw [hp]; norm_num⟩
    rw [h, (far_isField 0 (-7)).fails] at h1
    obtain ⟨_, _, h2, _⟩ := h1
    norm_num at h2
  · refine C74_generate hres hdet hord rank G hG (far_isField n 7) (far_isField n (-7)) (fun p h => ?_) (fun p h => ?_) rf sn
    · unfold farField
      rw [if_neg (far_near n h), if_neg (far_near n h)]
    · have := far_near n (ext_near hres h)
      exact ⟨fun x => absurd x.2 this, fun x => absurd x.2 this⟩

end Verif.Pipeline
