import Verif.Lemmas.SnapperTri

/-!
# C63: no edge of a patch skips a point of a side

The boundary of the patch of a face runs through the three corners and the points inserted on the three sides.  A triangle whose
edge joined two points of one side with another point of that side between them would lie on the neighbouring patch or have
no area.
-/

namespace Verif.Snapper

open Verif Verif.AbstractMesh
open Verif.Triangulation.Spec (Uses PolyEdge ShareLabel)

/-- The positions `u` and `v` on the boundary are on one side, where `n1`, `n2` and `n3` points have been inserted on the sides.
The corners are at the positions `0`, `n1 + 1` and `n1 + n2 + 2`. -/
def OnOneSide (n1 n2 n3 u v : Nat) : Prop :=
  (u ≤ n1 + 1 ∧ v ≤ n1 + 1) ∨
  (n1 + 1 ≤ u ∧ u ≤ n1 + n2 + 2 ∧ n1 + 1 ≤ v ∧ v ≤ n1 + n2 + 2) ∨
  ((n1 + n2 + 2 ≤ u ∧ u < n1 + n2 + n3 + 3 ∨ u = 0) ∧ (n1 + n2 + 2 ≤ v ∧ v < n1 + n2 + n3 + 3 ∨ v = 0))

/-- The positions follow each other on the boundary, in one direction or the other. -/
def Consecutive (n u v : Nat) : Prop := v = (u + 1) % n ∨ u = (v + 1) % n

theorem labels_get (s : State) (f : Face) (u : Nat) (n1 n2 n3 : Nat) (h1 : n1 = (chainRows s f.1 f.2.1).length)
    (h2 : n2 = (chainRows s f.2.1 f.2.2).length) (h3 : n3 = (chainRows s f.2.2 f.1).length) (hu : u < n1 + n2 + n3 + 3) :
    (boundaryLabels s f)[u]? = some (if u = 0 then (0, 2) else if u ≤ n1 then (0, -1) else if u = n1 + 1 then (1, 0)
      else if u ≤ n1 + n2 + 1 then (1, -1) else if u = n1 + n2 + 2 then (2, 1) else (2, -1)) := by
  have hm : ∀ (l : List Nat) (p : Int × Int), l.map (fun _ => p) = List.replicate l.length p := by
    intro l p; rw [List.map_const']
  unfold boundaryLabels
  rw [hm, hm, hm, ← h1, ← h2, ← h3]
  simp only [List.getElem?_append, List.length_append, List.length_cons, List.length_replicate, List.getElem?_cons,
    List.getElem?_replicate]
  split_ifs <;> first | rfl | omega

/-- **C63.** In the triangulation of the patch of a face, two points of one side of the face are joined by an edge only if
they are neighbours on the boundary. -/
theorem C63_sides {m : Mesh} {s : State} (h : OnEdges s) {fi : Nat} {fs : List Face}
    (e : triangulatePatch m s fi = .ok (fs, true)) :
    ∃ T, fs = T.map (mapFace (rowOf s (m.face fi) fi)) ∧ ∀ u v, Uses T u v →
      OnOneSide (chainRows s (m.face fi).1 (m.face fi).2.1).length (chainRows s (m.face fi).2.1 (m.face fi).2.2).length
        (chainRows s (m.face fi).2.2 (m.face fi).1).length u v →
      Consecutive (boundaryIds s (m.face fi)).length u v := by
  obtain ⟨T, -, h2, h3⟩ := triangulatePatch_spec h e rfl
  refine ⟨T, h3, fun u v huv hside => ?_⟩
  set f := m.face fi
  set n1 := (chainRows s f.1 f.2.1).length with e1
  set n2 := (chainRows s f.2.1 f.2.2).length with e2
  set n3 := (chainRows s f.2.2 f.1).length with e3
  have hn : (boundaryIds s f).length = n1 + n2 + n3 + 3 := by
    unfold boundaryIds
    simp only [List.length_append, List.length_cons]
    omega
  have hu : u < n1 + n2 + n3 + 3 := by unfold OnOneSide at hside; omega
  have hv : v < n1 + n2 + n3 + 3 := by unfold OnOneSide at hside; omega
  have hl : ShareLabel (boundaryLabels s f) u v := by
    refine ⟨_, _, labels_get s f u n1 n2 n3 e1 e2 e3 hu, labels_get s f v n1 n2 n3 e1 e2 e3 hv, ?_⟩
    rcases hside with hs | hs | hs
    · refine ⟨0, le_refl _, ?_, ?_⟩ <;> split_ifs <;> first | omega | (simp; done)
    · refine ⟨1, by norm_num, ?_, ?_⟩ <;> split_ifs <;> first | omega | (simp; done)
    · refine ⟨2, by norm_num, ?_, ?_⟩ <;> split_ifs <;> first | omega | (simp; done)
  rcases h2 u v huv (by omega) (by omega) hl with hp | hp <;> unfold PolyEdge at hp
  · rcases hp with ⟨-, -, hp⟩ | ⟨hf, -⟩
    · exact Or.inl hp
    · exact hf.elim
  · rcases hp with ⟨-, -, hp⟩ | ⟨hf, -⟩
    · exact Or.inr hp
    · exact hf.elim

/-- two points on the first side and none on the others: the corner 0 and the second point are on one side, not consecutive -/
example : OnOneSide 2 0 0 0 2 ∧ ¬ Consecutive 5 0 2 := ⟨Or.inl ⟨by omega, by omega⟩, by unfold Consecutive; omega⟩

/-- a patch without inserted points -/
example (m : Mesh) (s : State) (fi : Nat) (h : s.interior fi = [] ∧ s.chains (edgeOf (m.face fi).1 (m.face fi).2.1) = [] ∧
    s.chains (edgeOf (m.face fi).2.1 (m.face fi).2.2) = [] ∧ s.chains (edgeOf (m.face fi).2.2 (m.face fi).1) = []) :
    triangulatePatch m s fi = .ok ([m.face fi], true) := by
  unfold triangulatePatch
  dsimp only
  rw [if_pos h]

end Verif.Snapper
