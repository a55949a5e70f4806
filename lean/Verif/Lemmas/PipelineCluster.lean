import Verif.Lemmas.ClustererNet

/-!
# Clustering, whenever the call returns
-/

namespace Verif.Clusterer

open Verif Verif.AbstractMesh
open Verif.Clusterer.Spec
open Verif.Predicates (P3)
open Verif.Snapper.Spec (sides net)
open Verif.MeshDefects.Spec (Incident)

variable {I : Input}

theorem rollbackAll_inv {cs : List Cluster} (hd : cs.Pairwise fun c d => ∀ v ∈ c.vertices, v ∉ d.vertices) : ∀ (l : List Nat) (s : State × Bool) (r : State × Bool),
    SInv cs s.1 → rollbackAll cs l s = .ok r → SInv cs r.1 := by
  intro l
  induction l with
  | nil =>
      intro s r h e
      unfold rollbackAll at e
      cases e
      exact h
  | cons ci l ih =>
      intro s r h e
      unfold rollbackAll at e
      rw [Outcome.bind_eq_ok] at e
      obtain ⟨s1, e1, e2⟩ := e
      refine ih s1 r ?_ e2
      by_cases hc : ci < cs.length
      · obtain ⟨s', e', h', -⟩ := rollback_spec hd (b := s.2) h hc
        rw [e'] at e1
        cases e1
        exact h'
      · unfold rollback at e1
        rw [List.getElem?_eq_none (by omega)] at e1
        cases e1

theorem round_partial (hr : ∀ f ∈ I.faces, f.1 < I.vertices.length ∧ f.2.1 < I.vertices.length ∧ f.2.2 < I.vertices.length) {vf : Nat → List Nat} {cs : List Cluster}
    (hc : Clusters I vf cs) {s : State} (hs : SInv cs s) {n : Nat} {out : Out} {s' : State} {b : Bool} (e : round I cs n s = .ok (out, s', b)) :
    SInv cs s' ∧ ∃ num, Quotient I (Kept cs s) (place I vf) num out := by
  obtain ⟨q, num, e1, hN, -⟩ := clustered_spec hr hc hs
  have hnd : ∀ f ∈ renamed num I.faces, Nondeg f := fun f hf => (renamed_mem.1 hf).choose_spec.2.2
  obtain ⟨p, hp, e2⟩ := removeBackToBack_spec hnd
  unfold round at e
  rw [e1, Outcome.ok_bind] at e
  dsimp only at e
  rw [Outcome.bind_eq_ok] at e
  obtain ⟨fl, -, e⟩ := e
  rw [Outcome.bind_eq_ok] at e
  obtain ⟨r, e3, e⟩ := e
  cases e
  refine ⟨rollbackAll_inv hc.disjoint _ _ _ hs e3, num, hN, p, hp, ?_⟩
  exact e2

theorem loop_partial (hr : ∀ f ∈ I.faces, f.1 < I.vertices.length ∧ f.2.1 < I.vertices.length ∧ f.2.2 < I.vertices.length) {vf : Nat → List Nat} {cs : List Cluster}
    (hc : Clusters I vf cs) : ∀ (fuel : Nat) (s : State) (out : Out), SInv cs s → clusterLoop I cs fuel s = .ok out →
    ∃ s' num, Quotient I (Kept cs s') (place I vf) num out := by
  intro fuel
  induction fuel with
  | zero => intro s out _ e; unfold clusterLoop at e; cases e
  | succ fuel ih =>
      intro s out hs e
      unfold clusterLoop at e
      rw [Outcome.bind_eq_ok] at e
      obtain ⟨⟨o, s', b⟩, e1, e⟩ := e
      dsimp only at e
      obtain ⟨hs', num, hq⟩ := round_partial hr hc hs e1
      cases b with
      | true => exact ih s' out hs' e
      | false => cases e; exact ⟨s, num, hq⟩

/-- Whatever the mesh: if the call returns, then the result is that of merging some of the candidates. -/
theorem cluster_partial (hr : ∀ f ∈ I.faces, f.1 < I.vertices.length ∧ f.2.1 < I.vertices.length ∧ f.2.2 < I.vertices.length) {out : Out}
    (e : clusterVertices I = .ok out) : ∃ K pl num, (∀ c, K c → Candidate I c) ∧ Quotient I K pl num out := by
  obtain ⟨vf, e0, -⟩ := MeshDefects.fillVf_spec I.vertices.length I.faces 0 (fun _ => []) hr
  obtain ⟨sets, gs, e1, e2, hg⟩ := components_spec hr
  have hc := clusters_spec (vf := vf) hg
  unfold clusterVertices at e
  rw [e0, Outcome.ok_bind, e1, Outcome.ok_bind, e2, Outcome.ok_bind] at e
  dsimp only at e
  obtain ⟨s', num, hq⟩ := loop_partial hr hc _ _ _ (start_inv hc.disjoint) e
  exact ⟨_, _, num, fun c h => h.candidate hc, hq⟩

/-- The faces of the result: three different vertices that there are. -/
theorem cluster_faces {K : List Nat → Prop} {pl : List Nat → P3} {num : Nat → Nat} {out : Out} (hq : Quotient I K pl num out) :
    ∀ f ∈ out.faces, Nondeg f ∧ f.1 < out.vertices.length ∧ f.2.1 < out.vertices.length ∧ f.2.2 < out.vertices.length := by
  intro f hf
  obtain ⟨f0, hf0, rfl, hn, -⟩ := out_face hq hf
  obtain ⟨i1, i2, i3⟩ := corner_incident hf0
  exact ⟨hn, hq.numbering.bound _ i1, hq.numbering.bound _ i2, hq.numbering.bound _ i3⟩

end Verif.Clusterer
