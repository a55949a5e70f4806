import Verif.Lemmas.RefinerGoal
import Verif.Lemmas.SnapperMesh
import Verif.Lemmas.TriangulationFaces

/-! # Lemmas: the run -/

namespace Verif.Refiner

open Verif Verif.AbstractMesh Verif.SpatialGrid Verif.SpatialGrid.Spec Verif.ClosestPoint
open Verif.Predicates (P3 narrow kTinyFactor kTinyFactor_nonneg)
open Verif.MeshDefects hiding Face corner
open Verif.MeshDefects.Spec
open Verif.Thinner (toE E3 dotP crossP stopAtHit)
open Verif.Geometry (Cross cornerSet)
open Verif.Refiner.Spec

variable {I : Input} {m : Mesh} {s s' : State}

/-- The mesh data structure holds the given faces. -/
structure Holds (I : Input) (m : Mesh) : Prop where
  reach : Reachable m
  nf : m.nf = I.faces.length
  live : ∀ fi, fi < m.nf → m.deleted fi = false
  face : ∀ (fi : Nat) (f : Face), I.faces[fi]? = some f ↔ fi < m.nf ∧ m.face fi = f

theorem holds_of (hc : ∀ f ∈ I.faces, Nondeg f) (hm : Manifold (fun i => I.faces[i]?)) : ∃ m, Mesh.ofFaces I.faces = .ok m ∧ Holds I m := by
  obtain ⟨m, h1, h2, h3⟩ := (C35_construct I.faces hc).1 hm
  have hnf := Snapper.ofFaces_nf h1
  have hl : ∀ fi, fi < m.nf → m.deleted fi = false := by
    intro fi hfi
    have := h3 fi
    unfold faceAt at this
    by_contra hd
    rw [if_neg (fun h => hd h.2), List.getElem?_eq_getElem (hnf ▸ hfi)] at this
    cases this
  refine ⟨m, h1, h2, hnf, hl, fun fi f => ?_⟩
  rw [← h3]
  unfold faceAt
  constructor
  · intro h
    split at h
    · rename_i hh; exact ⟨hh.1, Option.some.inj h⟩
    · cases h
  · rintro ⟨h, rfl⟩
    rw [if_pos ⟨h, hl fi h⟩]

theorem Holds.takeFaces (h : Holds I m) : m.takeFaces = I.faces := by
  have hl : ∀ i, i < m.nf → ∃ f, faceAt m i = some f := fun i hi => ⟨m.face i, if_pos ⟨hi, h.live i hi⟩⟩
  refine List.ext_getElem? fun i => ?_
  rw [Triangulation.takeFaces_get h.reach hl]
  unfold faceAt
  by_cases hi : i < m.nf
  · rw [if_pos ⟨hi, h.live i hi⟩, (h.face i _).2 ⟨hi, rfl⟩]
  · rw [if_neg (fun hh => hi hh.1), List.getElem?_eq_none (by rw [← h.nf]; omega)]

theorem upd_eq (p : Nat → P3) (v : Nat) (q : P3) : upd p v q = moveTo p v q := by
  funext a
  unfold upd moveTo
  by_cases h : a = v
  · subst h; rw [if_pos rfl, Function.update_self]
  · rw [if_neg h, Function.update_of_ne h]

theorem tryMove_step (hI : Valid I) (hm : Holds I m) (h : Indexed I m s) {v : Nat} {x : P3} (hg : Goal I v (snap I x))
    (e : tryMove I m s (v, x) = .ok s') : Indexed I m s' ∧ Step I v s.p s'.p := by
  have hC := hm.reach.good.consistent
  obtain ⟨h1, h2⟩ := tryMove_spec hI.resolution hC hm.live h e
  refine ⟨h1, ?_⟩
  have eF : ∀ fi, fi < m.nf → I.faces[fi]? = some (m.face fi) := fun fi hfi => (hm.face fi _).2 ⟨hfi, rfl⟩
  rw [upd_eq] at h2
  rcases h2 with ⟨e1, h2⟩ | ⟨e1, h2, h3⟩
  · rw [e1]
    refine .rejected _ hg ?_
    rcases h2 with ⟨fi, a1, a2, a3⟩ | ⟨fi, fj, a1, a2, a3, a4, a5⟩
    · exact Or.inl ⟨_, List.mem_of_getElem? (eF fi a1), a2, a3⟩
    · exact Or.inr ⟨fi, fj, _, _, a3.symm, eF fi a1, eF fj a2, a4, a5⟩
  · rw [e1]
    refine .moved _ hg ⟨?_, ?_⟩
    · intro f hf hv
      obtain ⟨i, hi⟩ := List.mem_iff_getElem?.1 hf
      obtain ⟨i1, rfl⟩ := (hm.face i f).1 hi
      exact h2 i i1 hv
    · intro i j f g hij hf hg hv hd
      obtain ⟨i1, rfl⟩ := (hm.face i f).1 hf
      obtain ⟨j1, rfl⟩ := (hm.face j g).1 hg
      exact h3 i j i1 j1 hij hv hd

theorem tryAll_steps (hI : Valid I) (hm : Holds I m) : ∀ (k a : Nat) (s : State), Indexed I m s → ∀ {s' : State},
    tryAll I m ((List.range' a k).filterMap (moveOf I (I.field (samples I)))) s = .ok s' →
    ∃ seq : Nat → Nat → P3, seq a = s.p ∧ (∀ v, a ≤ v → v < a + k → Step I v (seq v) (seq (v + 1))) ∧ seq (a + k) = s'.p := by
  intro k
  induction k with
  | zero =>
      intro a s h s' e
      simp only [List.range'_zero, List.filterMap_nil] at e
      unfold tryAll at e
      cases e
      exact ⟨fun _ => s.p, rfl, fun v h1 h2 => by omega, rfl⟩
  | succ k ih =>
      intro a s h s' e
      rw [List.range'_succ, List.filterMap_cons] at e
      have goal : ∀ s1 : State, Step I a s.p s1.p → Indexed I m s1 →
          tryAll I m ((List.range' (a + 1) k).filterMap (moveOf I (I.field (samples I)))) s1 = .ok s' →
          ∃ seq : Nat → Nat → P3, seq a = s.p ∧ (∀ v, a ≤ v → v < a + (k + 1) → Step I v (seq v) (seq (v + 1))) ∧ seq (a + (k + 1)) = s'.p := by
        intro s1 hs hi e
        obtain ⟨seq, e1, e2, e3⟩ := ih (a + 1) s1 hi e
        refine ⟨fun v => if v = a then s.p else seq v, if_pos rfl, ?_, ?_⟩
        · intro v h1 h2
          dsimp only
          rw [if_neg (by omega : v + 1 ≠ a)]
          by_cases hv : v = a
          · rw [if_pos hv, hv, e1]; exact hs
          · rw [if_neg hv]; exact e2 v (by omega) (by omega)
        · dsimp only
          rw [if_neg (by omega), ← e3]
          congr 1; omega
      obtain ⟨m1, m2⟩ := moveOf_spec hI a
      rcases hmv : moveOf I (I.field (samples I)) a with _ | x
      · rw [hmv] at e
        obtain ⟨c, hc⟩ := m1 hmv
        exact goal s (.flat c hc) h e
      · rw [hmv] at e
        obtain ⟨x1, x2⟩ := m2 x hmv
        dsimp only at e
        unfold tryAll at e
        obtain ⟨s1, e1, e2⟩ := Outcome.bind_eq_ok.1 e
        obtain ⟨v, q⟩ := x
        dsimp only at x1 x2
        subst x1
        obtain ⟨i1, i2⟩ := tryMove_step hI hm h x2 e1
        exact goal s1 i2 i1 e2

/-- The result in terms of the run. -/
theorem refine_run (hI : Valid I) {out : Out} (e : refineVertices I = .ok out) (hne : I.faces ≠ []) :
    out.faces = I.faces ∧ out.entire = false ∧ out.vertices.length = I.vertices.length ∧
    ∃ seq : Nat → Nat → P3, seq 0 = pos I.vertices ∧ (∀ v, v < I.vertices.length → Step I v (seq v) (seq (v + 1))) ∧
      ∀ v, v < I.vertices.length → pos out.vertices v = seq I.vertices.length v := by
  unfold refineVertices at e
  rw [if_neg (fun h => hne h.1)] at e
  obtain ⟨m, e1, hm⟩ := holds_of (fun f hf => (hI.corners f hf).1) hI.manifold
  rw [e1, project_spec hI] at e
  simp only [Outcome.ok_bind] at e
  obtain ⟨s, e2, e3⟩ := Outcome.bind_eq_ok.1 e
  cases e3
  rw [List.range_eq_range'] at e2
  obtain ⟨seq, s1, s2, s3⟩ := tryAll_steps hI hm _ _ _ (start_indexed I m) e2
  refine ⟨hm.takeFaces, rfl, by simp, seq, s1, fun v hv => s2 v (by omega) (by omega), fun v hv => ?_⟩
  rw [Nat.zero_add] at s3
  rw [s3]
  unfold pos
  dsimp only
  rw [List.getD_eq_getElem?_getD, List.getElem?_map, List.getElem?_range hv]
  rfl

end Verif.Refiner
