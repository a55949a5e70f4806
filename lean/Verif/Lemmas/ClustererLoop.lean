import Verif.Lemmas.ClustererRound

/-!
# The rounds
-/

namespace Verif.Clusterer

open Verif Verif.AbstractMesh
open Verif.Clusterer.Spec
open Verif.Predicates (P3 narrow kTinyFactor)
open Verif.Snapper.Spec (sides net)
open Verif.MeshDefects.Spec (Incident DistinctCorners PathOrCycle link)

variable {I : Input} {vf : Nat → List Nat} {cs : List Cluster} {s : State}

theorem cellOf_mono (hI : Valid I) : Monotone (cellOf I) := by
  intro x y h
  unfold cellOf
  exact Int.floor_le_floor (div_le_div_of_nonneg_right h hI.resolution.le)

theorem corners_isTriangle {vs : List P3} {fs : List Face} (hr : ∀ f ∈ fs, f.1 < vs.length ∧ f.2.1 < vs.length ∧ f.2.2 < vs.length) {i : Nat}
    {t : P3 × P3 × P3} : MeshDefects.Spec.IsTriangle vs fs i t ↔ ∃ f, fs[i]? = some f ∧ t = Spec.corners vs f := by
  constructor
  · rintro ⟨f, h, a, b, c⟩
    refine ⟨f, h, ?_⟩
    unfold Spec.corners Spec.pos
    rw [List.getD_eq_getElem?_getD, List.getD_eq_getElem?_getD, List.getD_eq_getElem?_getD, a, b, c]
    rfl
  · rintro ⟨f, h, rfl⟩
    obtain ⟨r1, r2, r3⟩ := hr f (List.mem_of_getElem? h)
    have key : ∀ {v}, v < vs.length → vs[v]? = some (Spec.pos vs v) := by
      intro v hv
      unfold Spec.pos
      rw [List.getD_eq_getElem?_getD, List.getElem?_eq_getElem hv]
      rfl
    exact ⟨f, h, key r1, key r2, key r3⟩

/-- The flagged vertices. -/
theorem flagged_spec (hI : Valid I) (n : Nat) {vs : List P3} {fs : List Face} (hr : ∀ f ∈ fs, f.1 < vs.length ∧ f.2.1 < vs.length ∧ f.2.2 < vs.length)
    (hn : ∀ f ∈ fs, Nondeg f) (hd : ∀ f ∈ fs, DistinctCorners (Spec.corners vs f)) : ∃ l, flagged I n vs fs = .ok l ∧ ∀ a, a ∈ l ↔ Flagged ⟨vs, fs⟩ a := by
  obtain ⟨M, eM⟩ := (MeshDefects.C10_constructor vs fs).1 hr
  obtain ⟨vis, e1, -, h1⟩ := MeshDefects.C10_singular_vertices vs fs M eM (fun f hf => hn f hf) (I.schedV n vs.length) (hI.threadsV n _)
  obtain ⟨fis, e2, -, h2⟩ := MeshDefects.C11_intersecting_faces (cellOf I) ⟨0, 0⟩ (narrow kTinyFactor) (cellOf_mono hI) vs fs M eM (by
    intro fi t ht
    obtain ⟨f, hf, rfl⟩ := (corners_isTriangle hr).1 ht
    exact hd f (List.mem_of_getElem? hf)) (I.schedF n) (hI.threadsF n)
  refine ⟨_, by unfold flagged; rw [eM, Outcome.ok_bind, e1, Outcome.ok_bind, e2, Outcome.ok_bind], ?_⟩
  intro a
  rw [hI.order, List.mem_append, List.mem_flatMap]
  unfold Flagged
  apply or_congr
  · rw [h1]
    constructor
    · rintro ⟨-, h, h'⟩; exact ⟨h, h'⟩
    · rintro ⟨h, h'⟩
      refine ⟨?_, h, h'⟩
      obtain ⟨f, hf, h⟩ := h
      obtain ⟨r1, r2, r3⟩ := hr f hf
      rcases h with rfl | rfl | rfl <;> assumption
  · have hcor : ∀ {i : Nat} {f : Face}, fs[i]? = some f → (a ∈ [(faceOf fs i).1, (faceOf fs i).2.1, (faceOf fs i).2.2] ↔ Corner f a) := by
      intro i f h
      have e : faceOf fs i = f := by unfold faceOf; rw [List.getD_eq_getElem?_getD, h]; rfl
      rw [e]
      simp only [Corner, List.mem_cons, List.not_mem_nil, or_false, eq_comm (a := a)]
    constructor
    · rintro ⟨x, hx, ha⟩
      obtain ⟨fi, fj, ta, tb, hij, hta, htb, hit, hxe⟩ := (h2 x).1 hx
      obtain ⟨f, hf, rfl⟩ := (corners_isTriangle hr).1 hta
      obtain ⟨g, hg, rfl⟩ := (corners_isTriangle hr).1 htb
      rcases hxe with rfl | rfl
      · refine ⟨f, List.mem_of_getElem? hf, (hcor hf).1 ha, _, fj, g, Nat.ne_of_lt hij, hf, hg, ?_⟩
        rw [if_pos hij]; exact hit
      · refine ⟨g, List.mem_of_getElem? hg, (hcor hg).1 ha, _, fi, f, Nat.ne_of_gt hij, hg, hf, ?_⟩
        rw [if_neg (by omega)]; exact hit
    · rintro ⟨f, -, hc, i, j, g, hij, hf, hg, hm⟩
      refine ⟨i, (h2 i).2 ?_, (hcor hf).2 hc⟩
      rcases Nat.lt_or_ge i j with h | h
      · rw [if_pos h] at hm
        exact ⟨i, j, _, _, h, (corners_isTriangle hr).2 ⟨f, hf, rfl⟩, (corners_isTriangle hr).2 ⟨g, hg, rfl⟩, hm, Or.inl rfl⟩
      · rw [if_neg (by omega)] at hm
        exact ⟨j, i, _, _, by omega, (corners_isTriangle hr).2 ⟨g, hg, rfl⟩, (corners_isTriangle hr).2 ⟨f, hf, rfl⟩, hm, Or.inr rfl⟩

theorem snapped_spec (I : Input) (p : P3) :
    Snapped I p ((ClosestPoint.snapToBbox ![p.1, p.2.1, p.2.2] ![I.L.lo.1, I.L.lo.2.1, I.L.lo.2.2] ![I.L.hi.1, I.L.hi.2.1, I.L.hi.2.2] I.resolution 0,
      ClosestPoint.snapToBbox ![p.1, p.2.1, p.2.2] ![I.L.lo.1, I.L.lo.2.1, I.L.lo.2.2] ![I.L.hi.1, I.L.hi.2.1, I.L.hi.2.2] I.resolution 1,
      ClosestPoint.snapToBbox ![p.1, p.2.1, p.2.2] ![I.L.lo.1, I.L.lo.2.1, I.L.lo.2.2] ![I.L.hi.1, I.L.hi.2.1, I.L.hi.2.2] I.resolution 2)) := by
  have e : (1e-10 : ℝ) * I.resolution = I.resolution / 10 ^ 10 := by norm_num; ring
  unfold Snapped ClosestPoint.snapToBbox
  simp only [e]
  exact ⟨Refiner.select_spec _ _ _ _, Refiner.select_spec _ _ _ _, Refiner.select_spec _ _ _ _⟩

/-- A merged vertex is in the cell of its node. -/
theorem place_node (hsafe : SnapSafe I) (vf : Nat → List Nat) (c : List Nat) : I.L.rounded (place I vf c) = node I (c.headD 0) :=
  hsafe _ _ _ (snapped_spec I _)

theorem renamed_mem {num : Nat → Nat} {fs : List Face} {g : Face} : g ∈ renamed num fs ↔ ∃ f ∈ fs, g = rename num f ∧ Nondeg g := by
  unfold renamed
  rw [List.mem_filter, List.mem_map]
  simp only [decide_eq_true_eq]
  constructor
  · rintro ⟨⟨f, hf, rfl⟩, h⟩; exact ⟨f, hf, rfl, h⟩
  · rintro ⟨f, hf, rfl, h⟩; exact ⟨⟨f, hf, rfl⟩, h⟩

theorem corner_incident {fs : List Face} {f : Face} (hf : f ∈ fs) : Incident fs f.1 ∧ Incident fs f.2.1 ∧ Incident fs f.2.2 :=
  ⟨⟨f, hf, Or.inl rfl⟩, ⟨f, hf, Or.inr (Or.inl rfl)⟩, ⟨f, hf, Or.inr (Or.inr rfl)⟩⟩

/-- The corners of the faces of the quotient are in different places. -/
theorem quotient_distinct (hI : Valid I) (hsafe : SnapSafe I) {K : List Nat → Prop} (hK : ∀ c, K c → Candidate I c) {num : Nat → Nat} {vs : List P3}
    (hN : Numbering I K (place I vf) num vs) : ∀ g ∈ renamed num I.faces, DistinctCorners (Spec.corners vs g) := by
  have hround : ∀ v, Incident I.faces v → I.L.rounded (Spec.pos vs (num v)) = I.L.rounded (Spec.pos I.vertices v) := by
    intro v hv
    by_cases h : ∃ c, K c ∧ v ∈ c
    · obtain ⟨c, k, hc⟩ := h
      rw [hN.merged c v k hc, place_node hsafe, node_eq]
      exact (hK c k).node (hK c k).head hc
    · push Not at h
      rw [hN.kept v hv h]
  have key : ∀ u v, ((u, v) ∈ sides I.faces ∨ (v, u) ∈ sides I.faces) → Spec.pos I.vertices u ≠ Spec.pos I.vertices v → num u ≠ num v →
      Spec.pos vs (num u) ≠ Spec.pos vs (num v) := by
    intro u v hs hne hnum heq
    have hin : Incident I.faces u ∧ Incident I.faces v := by
      rcases hs with h | h
      · exact incident_of_side h
      · exact (incident_of_side h).symm
    have hrn : I.L.rounded (Spec.pos I.vertices u) = I.L.rounded (Spec.pos I.vertices v) := by
      rw [← hround u hin.1, ← hround v hin.2, heq]
    have hl : Relation.EqvGen (Link I) u v := by
      rcases hs with h | h
      · exact Relation.EqvGen.rel _ _ ⟨h, hrn⟩
      · exact Relation.EqvGen.symm _ _ (Relation.EqvGen.rel _ _ ⟨h, hrn.symm⟩)
    have hb : ∀ {w}, Incident I.faces w → w < I.vertices.length := by
      rintro w ⟨f, hf, h⟩
      obtain ⟨r1, r2, r3⟩ := hI.corners f hf
      rcases h with rfl | rfl | rfl <;> assumption
    by_cases hu : ∃ c, K c ∧ u ∈ c
    · obtain ⟨c, k, hc⟩ := hu
      exact hnum ((hN.same u v hin.1 hin.2).2 (Or.inr ⟨c, k, hc, ((hK c k).connected u hc v (hb hin.2)).2 hl⟩))
    · by_cases hv : ∃ c, K c ∧ v ∈ c
      · obtain ⟨c, k, hc⟩ := hv
        exact hnum ((hN.same u v hin.1 hin.2).2 (Or.inr ⟨c, k, ((hK c k).connected v hc u (hb hin.1)).2 (Relation.EqvGen.symm _ _ hl), hc⟩))
      · push Not at hu hv
        rw [hN.kept u hin.1 hu, hN.kept v hin.2 hv] at heq
        exact hne heq
  intro g hg
  obtain ⟨f, hf, rfl, n1, n2, n3⟩ := renamed_mem.1 hg
  obtain ⟨d1, d2, d3⟩ := hI.distinct f hf
  exact ⟨key _ _ (Or.inl (mem_sides.2 ⟨f, hf, Or.inl rfl⟩)) d1 n1, key _ _ (Or.inl (mem_sides.2 ⟨f, hf, Or.inr (Or.inl rfl)⟩)) d2 n2,
    key _ _ (Or.inl (mem_sides.2 ⟨f, hf, Or.inr (Or.inr rfl)⟩)) d3 n3⟩

theorem mem_incident {vci : Nat → Option Nat} {fs : List Face} (hn : ∀ f ∈ fs, Nondeg f) {v ci : Nat} :
    ci ∈ incident vci fs v ↔ ∃ b, vci b = some ci ∧ Neighbors fs v b := by
  unfold incident
  rw [List.mem_flatMap]
  have key : ∀ (p : Prop) [Decidable p] (x : Nat), ci ∈ (if p then (vci x).toList else []) ↔ p ∧ vci x = some ci := by
    intro p _ x
    split
    · next h => simp [h]
    · next h => simp [h]
  constructor
  · rintro ⟨f, hf, h⟩
    obtain ⟨n1, n2, n3⟩ := hn f hf
    rw [List.mem_append, List.mem_append, key, key, key] at h
    rcases h with (⟨h1, h2⟩ | ⟨h1, h2⟩) | ⟨h1, h2⟩
    · refine ⟨_, h2, ?_, f, hf, ?_, Or.inl rfl⟩
      · rcases h1 with rfl | rfl
        · exact n1.symm
        · exact n3
      · rcases h1 with rfl | rfl
        · exact Or.inr (Or.inl rfl)
        · exact Or.inr (Or.inr rfl)
    · refine ⟨_, h2, ?_, f, hf, ?_, Or.inr (Or.inl rfl)⟩
      · rcases h1 with rfl | rfl
        · exact n2.symm
        · exact n1
      · rcases h1 with rfl | rfl
        · exact Or.inr (Or.inr rfl)
        · exact Or.inl rfl
    · refine ⟨_, h2, ?_, f, hf, ?_, Or.inr (Or.inr rfl)⟩
      · rcases h1 with rfl | rfl
        · exact n3.symm
        · exact n2
      · rcases h1 with rfl | rfl
        · exact Or.inl rfl
        · exact Or.inr (Or.inl rfl)
  · rintro ⟨b, h2, hne, f, hf, ha, hb⟩
    refine ⟨f, hf, ?_⟩
    rw [List.mem_append, List.mem_append, key, key, key]
    unfold Corner at ha hb
    rcases hb with hb | hb | hb
    · rw [← hb] at hne h2
      rcases ha with ha | ha | ha
      · exact absurd ha.symm hne
      · exact Or.inl (Or.inl ⟨Or.inl ha, h2⟩)
      · exact Or.inl (Or.inl ⟨Or.inr ha, h2⟩)
    · rw [← hb] at hne h2
      rcases ha with ha | ha | ha
      · exact Or.inl (Or.inr ⟨Or.inr ha, h2⟩)
      · exact absurd ha.symm hne
      · exact Or.inl (Or.inr ⟨Or.inl ha, h2⟩)
    · rw [← hb] at hne h2
      rcases ha with ha | ha | ha
      · exact Or.inr ⟨Or.inl ha, h2⟩
      · exact Or.inr ⟨Or.inr ha, h2⟩
      · exact absurd ha.symm hne

/-- One round. -/
theorem round_spec (hI : Valid I) (hsafe : SnapSafe I) (hc : Clusters I vf cs) (hs : SInv cs s) (n : Nat) :
    ∃ out num s' b, round I cs n s = .ok (out, s', b) ∧ Quotient I (Kept cs s) (place I vf) num out ∧ SInv cs s' ∧
      (∀ c, Kept cs s' c ↔ Kept cs s c ∧ ¬ ∃ a, Flagged out a ∧ Blamed (Kept cs s) num out a c) ∧
      (b = true ↔ ∃ a c, Flagged out a ∧ Blamed (Kept cs s) num out a c) ∧
      (∀ ci, s.deleted ci = true → s'.deleted ci = true) ∧ (b = true → ∃ ci < cs.length, s.deleted ci = false ∧ s'.deleted ci = true) := by
  obtain ⟨q, num, e1, hN, hnum⟩ := clustered_spec hI.corners hc hs
  have hnd : ∀ f ∈ renamed num I.faces, Nondeg f := fun f hf => (renamed_mem.1 hf).choose_spec.2.2
  have hvci := vertexCi_spec hc hs hnum hN
  generalize evci : vertexCi s.deleted q.vv cs 0 (fun _ => none) = vci at hvci
  obtain ⟨p, hp, e2⟩ := removeBackToBack_spec hnd
  have hsub : ∀ f ∈ removeBackToBack (renamed num I.faces), f ∈ renamed num I.faces := by
    intro f hf; rw [e2] at hf; exact (List.mem_filter.1 hf).1
  generalize efs : removeBackToBack (renamed num I.faces) = fs at *
  have hnd' : ∀ f ∈ fs, Nondeg f := fun f hf => hnd f (hsub f hf)
  have hr : ∀ f ∈ fs, f.1 < q.verts.length ∧ f.2.1 < q.verts.length ∧ f.2.2 < q.verts.length := by
    intro f hf
    obtain ⟨f0, hf0, rfl, -⟩ := renamed_mem.1 (hsub f hf)
    obtain ⟨i1, i2, i3⟩ := corner_incident hf0
    exact ⟨hN.bound _ i1, hN.bound _ i2, hN.bound _ i3⟩
  obtain ⟨fl, e3, hfl⟩ := flagged_spec hI n hr hnd' (fun f hf => quotient_distinct hI hsafe (fun c h => h.candidate hc) hN f (hsub f hf))
  have hmerged : ∀ (ci : Nat) (x : Nat), vci x = some ci ↔ ∃ cl, cs[ci]? = some cl ∧ IsMerged (Kept cs s) num cl.vertices x := by
    intro ci x
    rw [hvci]
    constructor
    · rintro ⟨cl, h1, h2, h3⟩
      exact ⟨cl, h1, ⟨ci, cl, h1, rfl, h2⟩, h3⟩
    · rintro ⟨cl, h1, ⟨cj, cl', h2, h3, h4⟩, h5⟩
      obtain ⟨v, hv, h6⟩ := h5
      have : cj = ci := disjoint_get hc.disjoint h2 h1 (by rw [h3]; exact hv) hv
      subst this
      exact ⟨cl, h1, h4, v, hv, h6⟩
  have hnone : ∀ x, vci x = none ↔ ∀ c', ¬ IsMerged (Kept cs s) num c' x := by
    intro x
    constructor
    · intro h c' hm
      obtain ⟨ci, cl, h1, h2, h3⟩ := hm.1
      have := (hmerged ci x).2 ⟨cl, h1, by rw [h2]; exact hm⟩
      rw [h] at this
      cases this
    · intro h
      rcases e : vci x with _ | ci
      · rfl
      · obtain ⟨cl, -, hm⟩ := (hmerged ci x).1 e
        exact absurd hm (h _)
  have hbehind : ∀ a ci, ci ∈ behind vci fs a ↔ ∃ cl, cs[ci]? = some cl ∧ Blamed (Kept cs s) num ⟨q.verts, fs⟩ a cl.vertices := by
    intro a ci
    unfold behind
    rcases e : vci a with _ | cj
    · dsimp only
      rw [mem_incident hnd']
      have hno := (hnone a).1 e
      constructor
      · rintro ⟨b, h1, h2⟩
        obtain ⟨cl, h3, h4⟩ := (hmerged ci b).1 h1
        exact ⟨cl, h3, Or.inr ⟨hno, b, h4, h2⟩⟩
      · rintro ⟨cl, h1, h | ⟨-, b, h2, h3⟩⟩
        · exact absurd h (hno _)
        · exact ⟨b, (hmerged ci b).2 ⟨cl, h1, h2⟩, h3⟩
    · dsimp only
      rw [List.mem_singleton]
      obtain ⟨cl, h1, h2⟩ := (hmerged cj a).1 e
      constructor
      · rintro rfl
        exact ⟨cl, h1, Or.inl h2⟩
      · rintro ⟨cl', h3, h | ⟨h, -⟩⟩
        · have := (hmerged ci a).2 ⟨cl', h3, h⟩
          rw [e] at this
          cases this
          rfl
        · exact absurd h2 (h _)
  have hlist : ∀ ci, ci ∈ fl.flatMap (behind vci fs) ↔ ∃ cl, cs[ci]? = some cl ∧ ∃ a, Flagged ⟨q.verts, fs⟩ a ∧ Blamed (Kept cs s) num ⟨q.verts, fs⟩ a cl.vertices := by
    intro ci
    rw [List.mem_flatMap]
    constructor
    · rintro ⟨a, h1, h2⟩
      obtain ⟨cl, h3, h4⟩ := (hbehind a ci).1 h2
      exact ⟨cl, h3, a, (hfl a).1 h1, h4⟩
    · rintro ⟨cl, h1, a, h2, h3⟩
      exact ⟨a, (hfl a).2 h2, (hbehind a ci).2 ⟨cl, h1, h3⟩⟩
  have hbk : ∀ {a c}, Blamed (Kept cs s) num ⟨q.verts, fs⟩ a c → Kept cs s c := by
    rintro a c (h | ⟨-, b, h, -⟩)
    · exact h.1
    · exact h.1
  obtain ⟨s', e4, hs', hdel⟩ := rollbackAll_spec hc.disjoint (fl.flatMap (behind vci fs)) s false hs (by
    intro ci hci
    obtain ⟨cl, h1, -⟩ := (hlist ci).1 hci
    exact (List.getElem?_eq_some_iff.1 h1).1)
  have hb : (fl.flatMap (behind vci fs)).any (fun ci => !s.deleted ci) = true ↔ ∃ a c, Flagged ⟨q.verts, fs⟩ a ∧ Blamed (Kept cs s) num ⟨q.verts, fs⟩ a c := by
    rw [List.any_eq_true]
    constructor
    · rintro ⟨ci, h1, -⟩
      obtain ⟨cl, -, a, h2, h3⟩ := (hlist ci).1 h1
      exact ⟨a, _, h2, h3⟩
    · rintro ⟨a, c, h1, h2⟩
      obtain ⟨ci, cl, h3, rfl, h4⟩ := hbk h2
      exact ⟨ci, (hlist ci).2 ⟨cl, h3, a, h1, h2⟩, by rw [h4]; rfl⟩
  refine ⟨⟨q.verts, fs⟩, num, s', (false || (fl.flatMap (behind vci fs)).any fun ci => !s.deleted ci), ?_, ⟨hN, p, hp, e2⟩, hs', ?_, ?_, ?_, ?_⟩
  · unfold round
    rw [e1, Outcome.ok_bind]
    dsimp only
    rw [efs, evci, e3, Outcome.ok_bind, e4, Outcome.ok_bind]
  · intro c
    constructor
    · rintro ⟨ci, cl, h1, rfl, h2⟩
      have h2' : ¬ (s.deleted ci = true ∨ ci ∈ fl.flatMap (behind vci fs)) := by rw [← hdel, h2]; simp
      rw [not_or] at h2'
      refine ⟨⟨ci, cl, h1, rfl, by simpa using h2'.1⟩, ?_⟩
      rintro ⟨a, h3, h4⟩
      exact h2'.2 ((hlist ci).2 ⟨cl, h1, a, h3, h4⟩)
    · rintro ⟨⟨ci, cl, h1, rfl, h2⟩, h3⟩
      refine ⟨ci, cl, h1, rfl, ?_⟩
      rw [← Bool.not_eq_true, hdel, not_or]
      refine ⟨by rw [h2]; simp, fun h => h3 ?_⟩
      obtain ⟨cl', h4, h5⟩ := (hlist ci).1 h
      rw [h1] at h4
      cases h4
      exact h5
  · rw [Bool.false_or]; exact hb
  · intro ci h; exact (hdel ci).2 (Or.inl h)
  · rw [Bool.false_or, hb]
    rintro ⟨a, c, h1, h2⟩
    obtain ⟨ci, cl, h3, rfl, h4⟩ := hbk h2
    exact ⟨ci, (List.getElem?_eq_some_iff.1 h3).1, h4, (hdel ci).2 (Or.inr ((hlist ci).2 ⟨cl, h3, a, h1, h2⟩))⟩

/-- How many clusters are left. -/
def left (cs : List Cluster) (s : State) : Nat := (List.range cs.length).countP fun ci => !s.deleted ci

theorem left_lt {cs : List Cluster} {s s' : State} (h : ∀ ci, s.deleted ci = true → s'.deleted ci = true)
    (h' : ∃ ci < cs.length, s.deleted ci = false ∧ s'.deleted ci = true) : left cs s' < left cs s := by
  obtain ⟨ci, h1, h2, h3⟩ := h'
  unfold left
  rw [List.countP_eq_length_filter, List.countP_eq_length_filter]
  have hsub : ((List.range cs.length).filter fun ci => !s'.deleted ci) ⊆ ((List.range cs.length).filter fun ci => !s.deleted ci).erase ci := by
    intro x hx
    obtain ⟨x1, x2⟩ := List.mem_filter.1 hx
    have hne : x ≠ ci := by rintro rfl; rw [h3] at x2; cases x2
    rw [List.mem_erase_of_ne hne, List.mem_filter]
    refine ⟨x1, ?_⟩
    cases e : s.deleted x with
    | false => rfl
    | true => rw [h x e] at x2; cases x2
  have := ((List.nodup_range.filter _).subperm hsub).length_le
  have hmem : ci ∈ ((List.range cs.length).filter fun ci => !s.deleted ci) := List.mem_filter.2 ⟨List.mem_range.2 h1, by rw [h2]; rfl⟩
  have hl := List.length_erase_of_mem hmem
  have hpos := List.length_pos_of_mem hmem
  omega

theorem loop_spec (hI : Valid I) (hsafe : SnapSafe I) (hc : Clusters I vf cs) : ∀ (fuel : Nat) (s : State), SInv cs s → left cs s < fuel →
    ∃ out K, clusterLoop I cs fuel s = .ok out ∧ Rounds I (place I vf) (Kept cs s) out K := by
  intro fuel
  induction fuel with
  | zero => intro s _ h; omega
  | succ fuel ih =>
      intro s hs hl
      obtain ⟨out, num, s', b, e, hq, hs', hk, hb, hmon, hstr⟩ := round_spec hI hsafe hc hs fuel
      unfold clusterLoop
      rw [e, Outcome.ok_bind]
      dsimp only
      cases b with
      | false =>
          refine ⟨out, Kept cs s, rfl, .done hq ?_⟩
          intro a c h1 h2
          have := hb.2 ⟨a, c, h1, h2⟩
          cases this
      | true =>
          obtain ⟨out', K, e', hr⟩ := ih s' hs' (by have := left_lt hmon (hstr rfl); omega)
          exact ⟨out', K, e', .undo hq (hb.1 rfl) hk hr⟩

/-- The whole call. -/
theorem cluster_spec (hI : Valid I) (hsafe : SnapSafe I) : ∃ vf out K, MeshDefects.fillVf I.vertices.length I.faces 0 (fun _ => []) = .ok vf ∧
    clusterVertices I = .ok out ∧ Rounds I (place I vf) (Candidate I) out K := by
  obtain ⟨vf, e0, -⟩ := MeshDefects.fillVf_spec I.vertices.length I.faces 0 (fun _ => []) hI.corners
  obtain ⟨sets, gs, e1, e2, hg⟩ := components_spec hI.corners
  have hc := clusters_spec (vf := vf) hg
  generalize ecs : makeClusters I vf gs = cs at hc
  obtain ⟨out, K, e3, hr⟩ := loop_spec hI hsafe hc (cs.length + 1) ⟨registerAll cs 0 (fun _ => none), fun _ => false⟩ (start_inv hc.disjoint) (by
    unfold left
    refine Nat.lt_succ_of_le (le_trans (List.countP_le_length) ?_)
    rw [List.length_range])
  refine ⟨vf, out, K, e0, ?_, ?_⟩
  · unfold clusterVertices
    rw [e0, Outcome.ok_bind, e1, Outcome.ok_bind, e2, Outcome.ok_bind]
    dsimp only
    rw [ecs]
    exact e3
  · have : Kept cs ⟨registerAll cs 0 (fun _ => none), fun _ => false⟩ = Candidate I := by
      funext c
      apply propext
      constructor
      · intro h; exact h.candidate hc
      · intro h
        obtain ⟨cl, hm, rfl⟩ := hc.all c h
        obtain ⟨i, hi⟩ := List.mem_iff_getElem?.1 hm
        exact ⟨i, cl, hi, rfl, rfl⟩
    rw [← this]
    exact hr

end Verif.Clusterer
