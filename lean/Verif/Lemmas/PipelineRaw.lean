import Verif.Spec.Pipeline
import Verif.Props.PrimitiveLattice

/-!
# The raw mesh: where it may be open
-/

namespace Verif.Pipeline

open Verif Verif.Lattice
open Verif.PrimLattice (Prim)
open Verif.PrimLattice.Prim (count_toNat)
open Verif.Predicates (P3)
open Verif.Snapper.Spec (sides net)

/-- A tetrahedron of the extended box that the surface is seen to cross is sampled completely. -/
def Complete (L : Prim) (σ : LC → Bool) (R : List LC) : Prop :=
  ∀ lc k, k < 6 → (∀ i < 4, L.InExt (L.position (tetNode lc k i))) →
    (∃ i < 4, ∃ j < 4, tetNode lc k i ∈ R ∧ tetNode lc k j ∈ R ∧ σ (tetNode lc k i) ≠ σ (tetNode lc k j)) → ∀ i < 4, tetNode lc k i ∈ R

variable {L : Prim} {σ : LC → Bool} {R : List LC} {V : List (LC × Nat)} {fs : List Lattice.Face}

theorem sides_eq (fs : List (Nat × Nat × Nat)) : sides fs = fs.flatMap Clip.dirEdges := rfl

theorem mem_edgeAt {i : Int} (h : ValidIdx V i) : edgeAt V i ∈ V.map edgeOf := by
  unfold edgeAt
  rw [List.mem_map]
  refine ⟨_, ?_, rfl⟩
  obtain ⟨v0, v1⟩ := h
  have : i.toNat < V.length := by omega
  rw [List.getD_eq_getElem?_getD, List.getElem?_eq_getElem this, Option.getD_some]
  exact List.getElem_mem this

/-- the two ends of a crossed edge of a tetrahedron -/
theorem crossed_ends (hm : MeshOf σ R V fs) {lc : LC} {k s : Nat} (hv : tetEdge lc k s ∈ V.map edgeOf) :
    tetNode lc k (slotEnds s).1 ∈ R ∧ tetNode lc k (slotEnds s).2 ∈ R ∧ σ (tetNode lc k (slotEnds s).1) ≠ σ (tetNode lc k (slotEnds s).2) := by
  obtain ⟨⟨-, -, hne⟩, h1, h2⟩ := (hm.vertices _).1 hv
  unfold tetEdge mkEdge at h1 h2 hne
  split at h1 <;> rename_i hl
  · rw [if_pos hl] at h2 hne
    exact ⟨h1, h2, hne⟩
  · rw [if_neg hl] at h2 hne
    exact ⟨h2, h1, hne.symm⟩

/-- Where the raw mesh is open, a tetrahedron with the two vertices on its edges is not in the extended box. -/
theorem raw_open (hR : R.Nodup) (hc : Complete L σ R) (hm : MeshOf σ R V fs) {i j : Nat}
    (hn : net (fs.map fun f : Lattice.Face => (f.1.toNat, f.2.1.toNat, f.2.2.toNat)) i j ≠ 0) :
    i < V.length ∧ j < V.length ∧ ∃ lc k, k < 6 ∧ TetHas lc k (edgeAt V i) (edgeAt V j) ∧ ∃ m < 4, ¬ L.InExt (L.position (tetNode lc k m)) := by
  have main : ∀ a b : Nat, ((a : Int), (b : Int)) ∈ fs.flatMap dirEdges → (fs.flatMap dirEdges).count ((a : Int), (b : Int)) ≠ (fs.flatMap dirEdges).count ((b : Int), (a : Int)) →
      a < V.length ∧ b < V.length ∧ ∃ lc k, k < 6 ∧ TetHas lc k (edgeAt V a) (edgeAt V b) ∧ ∃ m < 4, ¬ L.InExt (L.position (tetNode lc k m)) := by
    intro a b hab hne
    obtain ⟨⟨-, va⟩, ⟨-, vb⟩⟩ := mem_dir_valid hm.valid hab
    refine ⟨by simpa using va, by simpa using vb, ?_⟩
    by_contra hno
    push Not at hno
    obtain ⟨c1, c2⟩ := (C34_indexed_mesh_closed σ R hR V fs hm).2 a b hab (by
      intro lc k hk ht
      refine hc lc k hk (fun m hm' => hno lc k hk ht m hm') ?_
      obtain ⟨⟨s, hs, he⟩, -⟩ := ht
      have hx := crossed_ends hm (lc := lc) (k := k) (s := s) (by rw [he]; exact mem_edgeAt (mem_dir_valid hm.valid hab).1)
      exact ⟨_, (slotEnds_lt s).1, _, (slotEnds_lt s).2, hx⟩)
    exact hne (c1.trans c2.symm)
  unfold net at hn
  rw [sides_eq, count_toNat hm.valid, count_toNat hm.valid] at hn
  by_cases h1 : ((i : Int), (j : Int)) ∈ fs.flatMap dirEdges
  · exact main i j h1 (by omega)
  · by_cases h2 : ((j : Int), (i : Int)) ∈ fs.flatMap dirEdges
    · obtain ⟨a, b, lc, k, hk, ht, hx⟩ := main j i h2 (by omega)
      exact ⟨b, a, lc, k, hk, ⟨ht.2, ht.1⟩, hx⟩
    · rw [List.count_eq_zero_of_not_mem h1, List.count_eq_zero_of_not_mem h2] at hn
      simp at hn

/-- If the surface stays away from the outside of the extended box, the raw mesh is closed. -/
theorem raw_closed {F : Iso.Fld ℝ} (hF : Contained L F) (hR : R.Nodup) (hin : ∀ lc ∈ R, L.InExt (L.position lc)) (hc : Complete L F.neg R) (hm : MeshOf F.neg R V fs) (i j : Nat) :
    net (fs.map fun f : Lattice.Face => (f.1.toNat, f.2.1.toNat, f.2.2.toNat)) i j = 0 := by
  by_contra hn
  obtain ⟨hi, -, lc, k, hk, ⟨⟨s, hs, he⟩, -⟩, m, hm4, hout⟩ := raw_open hR hc hm hn
  obtain ⟨h1, h2, hne⟩ := crossed_ends hm (lc := lc) (k := k) (s := s) (by rw [he]; exact mem_edgeAt ⟨by omega, by omega⟩)
  obtain ⟨b, hF⟩ := hF
  have key : ∀ a < 4, tetNode lc k a ∈ R → F.neg (tetNode lc k a) = b := by
    intro a ha hR'
    refine hF _ (hin _ hR') ?_
    have ham : a ≠ m := by rintro rfl; exact hout (hin _ hR')
    obtain ⟨e, he, hn⟩ := corners_adjacent lc k a m hk ha hm4 ham
    exact ⟨e, he, by rw [← hn]; exact hout⟩
  exact hne ((key _ (slotEnds_lt s).1 h1).trans (key _ (slotEnds_lt s).2 h2).symm)

end Verif.Pipeline
