import Verif.Lemmas.PipelineSnap
import Verif.Spec.Pipeline
import Verif.Props.Clusterer
import Verif.Props.Smoother
import Verif.Props.Clip
import Verif.Props.Lattice
import Verif.Props.LatticeMesh
import Verif.Props.PrimitiveLattice

/-!
# A case in which every step returns: no two vertices are nearest to the same node
-/

namespace Verif.Pipeline

open Verif Verif.Iso
open Verif.AbstractMesh (Nondeg Manifold Side Face)
open Verif.PrimLattice (Prim)
open Verif.Predicates (P3)
open Verif.Snapper.Spec (sides net)
open Verif.MeshDefects.Spec (Incident DistinctCorners IsSchedule)
open Verif.Clusterer (renamed_mem corner_incident out_face rounds_done)
open Verif.Clusterer.Spec (Candidate Quotient Numbering rename renamed)

/-- The rest of what the steps rely on: schedules that give every index to one thread, hash sets that list their elements, an eigenvalue solver that solves, cells
that are larger than the distance of snapping, a queue that gives the least element first, an invertible transformation. -/
structure Env.Runs (E : Env) : Prop where
  lattice : E.L.det ≠ 0
  threadsV : ∀ m r n, IsSchedule n (E.schedV m r n)
  threadsF : ∀ m r n, IsSchedule n (E.schedF m r n)
  order : ∀ m l x, x ∈ E.ord m l ↔ x ∈ l
  eigen : ∀ a, Clusterer.Spec.Symmetric a → Clusterer.Spec.IsEigen a (E.es a)
  safe : ∀ m, Clusterer.Spec.SnapSafe (E.clusterInput m)
  queue : Smoother.Spec.IsPop E.pop
  injective : Function.Injective E.T

/-- An oriented manifold whose vertices are nearest to different nodes. -/
structure Spread (L : Prim) (m : Clip.Mesh) : Prop where
  corners : ∀ f ∈ m.faces, Nondeg f ∧ f.1 < m.vertices.length ∧ f.2.1 < m.vertices.length ∧ f.2.2 < m.vertices.length
  manifold : Manifold (fun i => m.faces[i]?)
  nodes : (m.vertices.map L.rounded).Nodup

variable {E : Env} {m : Clip.Mesh}

theorem pos_eq {vs : List P3} {v : Nat} (h : v < vs.length) : Clusterer.Spec.pos vs v = vs[v] := by
  unfold Clusterer.Spec.pos
  rw [List.getD_eq_getElem?_getD, List.getElem?_eq_getElem h, Option.getD_some]

theorem Spread.inj {L : Prim} (h : Spread L m) {u v : Nat} (hu : u < m.vertices.length) (hv : v < m.vertices.length)
    (e : L.rounded (Clusterer.Spec.pos m.vertices u) = L.rounded (Clusterer.Spec.pos m.vertices v)) : u = v := by
  rw [pos_eq hu, pos_eq hv] at e
  have := (List.nodup_iff_injective_getElem.1 h.nodes) (a₁ := ⟨u, by simpa using hu⟩) (a₂ := ⟨v, by simpa using hv⟩) (by simpa using e)
  simpa using this

theorem Spread.positions {L : Prim} (h : Spread L m) : m.vertices.Nodup := List.Nodup.of_map _ h.nodes

theorem pairwise_manifold {fs : List Face} (h : fs.Pairwise fun f g => ∀ a b, Side f a b → ¬ Side g a b) : Manifold (fun i => fs[i]?) := by
  rw [List.pairwise_iff_getElem] at h
  intro i j f g a b hf hg sf sg
  obtain ⟨hi, rfl⟩ := List.getElem?_eq_some_iff.1 hf
  obtain ⟨hj, rfl⟩ := List.getElem?_eq_some_iff.1 hg
  by_contra hne
  rcases Nat.lt_or_gt_of_ne hne with hlt | hlt
  · exact h i j hi hj hlt a b sf sg
  · exact h j i hj hi hlt a b sg sf

theorem rename_side {num : Nat → Nat} {f : Face} {a b : Nat} (h : Side (rename num f) a b) : ∃ u v, Side f u v ∧ num u = a ∧ num v = b := by
  unfold Side rename at *
  rcases h with ⟨h1, h2⟩ | ⟨h1, h2⟩ | ⟨h1, h2⟩
  · exact ⟨_, _, Or.inl ⟨rfl, rfl⟩, h1, h2⟩
  · exact ⟨_, _, Or.inr (Or.inl ⟨rfl, rfl⟩), h1, h2⟩
  · exact ⟨_, _, Or.inr (Or.inr ⟨rfl, rfl⟩), h1, h2⟩

theorem side_incident {fs : List Face} {f : Face} (hf : f ∈ fs) {a b : Nat} (h : Side f a b) : Incident fs a ∧ Incident fs b := by
  obtain ⟨i1, i2, i3⟩ := corner_incident hf
  unfold Side at h
  rcases h with ⟨rfl, rfl⟩ | ⟨rfl, rfl⟩ | ⟨rfl, rfl⟩
  · exact ⟨i1, i2⟩
  · exact ⟨i2, i3⟩
  · exact ⟨i3, i1⟩

theorem eqvGen_eq {α : Type} {r : α → α → Prop} (h : ∀ a b, r a b → a = b) {a b : α} (e : Relation.EqvGen r a b) : a = b := by
  induction e with
  | rel _ _ hab => exact h _ _ hab
  | refl => rfl
  | symm _ _ _ ih => exact ih.symm
  | trans _ _ _ _ _ ih1 ih2 => exact ih1.trans ih2

theorem cluster_spread (hE : E.Proper) (hR : E.Runs) (h : Spread E.L m) : ∃ m', E.cluster m = some m' ∧ Spread E.L m' ∧ m'.faces.length ≤ m.faces.length := by
  have hv : Clusterer.Spec.Valid (E.clusterInput m) := by
    refine ⟨fun f hf => (h.corners f hf).2, ?_, hR.lattice, hE.resolution, hR.threadsV m, hR.threadsF m, hR.order m⟩
    intro f hf
    obtain ⟨⟨n1, n2, n3⟩, l1, l2, l3⟩ := h.corners f hf
    have key : ∀ a b, a < m.vertices.length → b < m.vertices.length → a ≠ b → Clusterer.Spec.pos m.vertices a ≠ Clusterer.Spec.pos m.vertices b :=
      fun a b ha hb hab e => hab (h.inj ha hb (by rw [e]))
    exact ⟨key _ _ l1 l2 n1, key _ _ l2 l3 n2, key _ _ l3 l1 n3⟩
  obtain ⟨out, K, place, e, -, hrd⟩ := Clusterer.C65_rounds hv (hR.safe m) hR.eigen
  obtain ⟨hK, num, hq, -⟩ := rounds_done hrd
  have hbound : ∀ v, Incident m.faces v → v < m.vertices.length := by
    rintro v ⟨f, hf, rfl | rfl | rfl⟩
    · exact (h.corners f hf).2.1
    · exact (h.corners f hf).2.2.1
    · exact (h.corners f hf).2.2.2
  have hnone : ∀ c, ¬ K c := by
    intro c hc
    have hc := hK c hc
    have hlink : ∀ a b, Clusterer.Spec.Link (E.clusterInput m) a b → a = b := by
      rintro a b ⟨hs, hr⟩
      obtain ⟨f, hf, hs⟩ := List.mem_flatMap.1 hs
      obtain ⟨-, l1, l2, l3⟩ := h.corners f hf
      simp only [List.mem_cons, List.not_mem_nil, or_false, Prod.mk.injEq] at hs
      rcases hs with ⟨rfl, rfl⟩ | ⟨rfl, rfl⟩ | ⟨rfl, rfl⟩
      · exact h.inj l1 l2 hr
      · exact h.inj l2 l3 hr
      · exact h.inj l3 l1 hr
    obtain ⟨a, b, rest, rfl⟩ : ∃ a b rest, c = a :: b :: rest := by
      have := hc.two
      rcases c with _ | ⟨a, _ | ⟨b, rest⟩⟩
      · simp at this
      · simp at this
      · exact ⟨a, b, rest, rfl⟩
    have hab : a < b := (List.pairwise_cons.1 hc.ascending).1 b (by simp)
    have := eqvGen_eq hlink ((hc.connected a (by simp) b (hc.bound b (by simp))).1 (by simp))
    omega
  have hN := hq.numbering
  have hinj : ∀ u v, Incident m.faces u → Incident m.faces v → num u = num v → u = v := by
    intro u v hu hv e
    rcases (hN.same u v hu hv).1 e with h | ⟨c, k, -⟩
    · exact h
    · exact (hnone c k).elim
  have hpos : ∀ v, Incident m.faces v → Clusterer.Spec.pos out.vertices (num v) = Clusterer.Spec.pos m.vertices v := fun v hv => hN.kept v hv fun c k => (hnone c k).elim
  have hsub : List.Sublist out.faces (m.faces.map (rename num)) := by
    obtain ⟨p, -, e⟩ := hq.faces
    rw [e]
    exact List.filter_sublist.trans List.filter_sublist
  refine ⟨⟨out.vertices, out.faces⟩, ?_, ⟨?_, ?_, ?_⟩, ?_⟩
  · unfold Env.cluster
    rw [e]
    rfl
  · exact Clusterer.cluster_faces hq
  · apply pairwise_manifold
    refine List.Pairwise.sublist hsub ?_
    rw [List.pairwise_map]
    refine List.Pairwise.imp_of_mem ?_ (manifold_pairwise h.manifold)
    intro f g hf hg hfg a b sf sg
    obtain ⟨u, v, s1, rfl, rfl⟩ := rename_side sf
    obtain ⟨u', v', s2, e1, e2⟩ := rename_side sg
    obtain ⟨i1, i2⟩ := side_incident hf s1
    obtain ⟨i3, i4⟩ := side_incident hg s2
    obtain rfl := hinj _ _ i3 i1 e1
    obtain rfl := hinj _ _ i4 i2 e2
    exact hfg _ _ s1 s2
  · rw [List.nodup_iff_injective_getElem]
    rintro ⟨i, hi⟩ ⟨j, hj⟩ e
    simp only [List.length_map] at hi hj
    simp only [List.getElem_map] at e
    rw [← pos_eq hi, ← pos_eq hj] at e
    obtain ⟨u, iu, rfl⟩ := hN.onto i hi
    obtain ⟨v, iv, rfl⟩ := hN.onto j hj
    rw [hpos u iu, hpos v iv] at e
    obtain rfl := h.inj (hbound u iu) (hbound v iv) e
    rfl
  · have := hsub.length_le
    simpa using this

/-- a number of rounds that is enough to smooth a mesh of `n` faces -/
def enough (n : Nat) : Nat := 3 * n + 25 * (50 * max n 1 + 1) + 1

theorem smooth_spread (hE : E.Proper) (hR : E.Runs) (h : Spread E.L m) (hf : enough m.faces.length ≤ E.fuel) :
    ∃ m', E.smooth ([], []) m = some m' ∧ Spread E.L m' ∧ m'.faces.length = m.faces.length := by
  have hv : Thinner.Spec.Valid (E.snapInput ([], []) m) :=
    ⟨h.corners, h.manifold, h.positions, Or.inl rfl, (by intro t ht; simp [Env.snapInput] at ht), hE.resolution, hR.injective⟩
  obtain ⟨fs, n, e, hl, -, -⟩ := Smoother.C61_smooth hv hR.queue (fuel := E.fuel) (by unfold enough at hf; show 3 * m.faces.length + _ < _; exact hf)
  obtain ⟨-, h2, h3⟩ := Smoother.C61_boundary hv hR.queue (fuel := E.fuel) (by unfold enough at hf; show 3 * m.faces.length + _ < _; exact hf) e
  refine ⟨⟨m.vertices, fs⟩, ?_, ⟨h3, h2, h.nodes⟩, hl⟩
  unfold Env.smooth
  rw [e]
  rfl

/-- Without snap points and refinement, all steps return. -/
theorem process_spread (hE : E.Proper) (hR : E.Runs) (h : Spread E.L m) (hf : enough m.faces.length ≤ E.fuel) (F : Fld ℝ) :
    ∃ out, E.steps.process F false none m = some out := by
  have hmono : ∀ a b, a ≤ b → enough a ≤ enough b := by intro a b hab; unfold enough; omega
  unfold Steps.process
  by_cases h0 : E.steps.faces m = 0
  · rw [if_pos h0]; exact ⟨m, rfl⟩
  rw [if_neg h0]
  obtain ⟨m1, e1, s1, l1⟩ := cluster_spread hE hR h
  obtain ⟨m2, e2, s2, l2⟩ := smooth_spread hE hR s1 (le_trans (hmono _ _ l1) hf)
  obtain ⟨m3, e3, s3, l3⟩ := cluster_spread hE hR s2
  obtain ⟨m4, e4, s4, l4⟩ := smooth_spread hE hR s3 (le_trans (hmono _ _ (by omega)) hf)
  have hp : E.steps.prepare F false m = some m4 := by
    unfold Steps.prepare
    have e1' : E.steps.cluster m = some m1 := e1
    have e2' : E.steps.smooth E.steps.noSnap m1 = some m2 := e2
    have e3' : E.steps.cluster m2 = some m3 := e3
    have e4' : E.steps.smooth E.steps.noSnap m3 = some m4 := e4
    simp [e1', e2', e3', e4']
  obtain ⟨out, ho, -⟩ := Clip.C37_defined E.arith m4 E.L.lo E.L.hi fun f hf => (s4.corners f hf).2
  refine ⟨out, ?_⟩
  have hc : E.steps.clip m4 = some out := by
    show Env.returned _ = _
    rw [ho]; rfl
  simp [hp, hc]

end Verif.Pipeline
