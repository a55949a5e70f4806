import Verif.Lemmas.PipelineRaw
import Verif.Lemmas.PipelineSnap
import Verif.Props.Pipeline
import Verif.Props.Clip
import Verif.Props.Refiner
import Mathlib.Tactic.Linarith

/-!
# A surface that reaches the outside of the extended box: where it is open
-/

namespace Verif.Pipeline

open Verif Verif.Lattice Verif.Iso
open Verif.AbstractMesh (Nondeg Manifold)
open Verif.PrimLattice (Prim)
open Verif.PrimLattice.Prim (co co_near tet_near clamp_unit least greatest steps steps_sign ext0 ext1 ext2 snap1)
open Verif.Predicates (P3)
open Verif.Snapper.Spec (sides net)
open Verif.Clusterer (cluster_partial cluster_faces net_balanced net_zero_iff)
open Verif.Clusterer.Spec (pos)

/-- The node is not strictly inside the box that clustering leaves alone outside of. -/
def Outer (L : Prim) (n : LC) : Prop :=
  let p := L.position n
  let lo := L.extLo 1
  let hi := L.extHi 1
  ¬ ((lo.1 < p.1 ∧ p.1 < hi.1) ∧ (lo.2.1 < p.2.1 ∧ p.2.1 < hi.2.1) ∧ (lo.2.2 < p.2.2 ∧ p.2.2 < hi.2.2))

/-- Where the mesh is open, it is beyond a side of the box widened by the margin, and at outer nodes. -/
def Skirt (L : Prim) (m : Clip.Mesh) : Prop :=
  ∀ u v, net m.faces u v ≠ 0 → u < m.vertices.length ∧ v < m.vertices.length ∧ Clip.Beyond (L.extLo 1) (L.extHi 1) (pos m.vertices u) (pos m.vertices v) ∧
    Outer L (L.rounded (pos m.vertices u)) ∧ Outer L (L.rounded (pos m.vertices v))

/-- Where the mesh is open, it is beyond a side of the box. -/
def Hem (L : Prim) (m : Clip.Mesh) : Prop :=
  ∀ u v, net m.faces u v ≠ 0 → Clip.Beyond L.lo L.hi (pos m.vertices u) (pos m.vertices v)

variable {E : Env}

theorem snap_below {tiny lo hi x m : ℝ} (h : x ≤ lo - m) (h1 : tiny ≤ m) (h2 : tiny ≤ hi - lo) : snap1 tiny lo hi x = x := by
  unfold snap1
  dsimp only
  have e1 : ¬ |x - lo| < tiny := by intro h; have := (abs_lt.1 h).1; linarith
  rw [if_neg e1]
  have e2 : ¬ |x - hi| < tiny := by
    intro h'
    have h3 := (abs_lt.1 h').1
    have h4 := (abs_lt.1 h').2
    have : 0 < tiny := by linarith
    linarith
  rw [if_neg e2]

theorem snap_above {tiny lo hi x m : ℝ} (h : hi + m ≤ x) (h1 : tiny ≤ m) (h2 : tiny ≤ hi - lo) : snap1 tiny lo hi x = x := by
  unfold snap1
  dsimp only
  have e1 : ¬ |x - lo| < tiny := by
    intro h'
    have h3 := (abs_lt.1 h').1
    have h4 := (abs_lt.1 h').2
    have : 0 < tiny := by linarith
    linarith
  rw [if_neg e1]
  have e2 : ¬ |x - hi| < tiny := by intro h; have := (abs_lt.1 h).2; linarith
  rw [if_neg e2]

/-- One coordinate, below: the corners of a tetrahedron with a corner outside of the extended box, and the points on its edges. -/
theorem low_side {L : Prim} {a b c lo hi tiny : ℝ} {lc : LC} {k : Nat} (hk : k < 6) {j : Nat} (hj : j < 4)
    (hout : L.co a b c (tetNode lc k j) < lo + (2 : ℕ) * 1.01 * least (steps a b c)) (h1 : tiny ≤ lo - (lo + (1 : ℕ) * 1.01 * least (steps a b c))) (h2 : tiny ≤ hi - lo) :
    (∀ i < 4, L.co a b c (tetNode lc k i) ≤ lo + (1 : ℕ) * 1.01 * least (steps a b c)) ∧
    ∀ (v : LC × Nat) (t : ℝ) (s : Nat), 0 ≤ t → t ≤ 1 → tetEdge lc k s = edgeOf v →
      snap1 tiny lo hi (L.co a b c v.1 + t * (L.co a b c (neighbor v.1 v.2) - L.co a b c v.1)) ≤ lo + (1 : ℕ) * 1.01 * least (steps a b c) := by
  obtain ⟨s1, s2, -⟩ := steps_sign a b c
  push_cast at *
  refine ⟨fun i hi => ?_, fun v t s t0 t1 hv => ?_⟩
  · have := (co_near (L := L) (a := a) (b := b) (c := c) (lc := lc) hk hi hj).1
    linarith
  · have := (tet_near (L := L) (a := a) (b := b) (c := c) hk hj t0 t1 hv).1
    generalize L.co a b c v.1 + t * (L.co a b c (neighbor v.1 v.2) - L.co a b c v.1) = x at *
    rw [snap_below (m := -(1.01 * least (steps a b c))) (by linarith) (by linarith) h2]
    linarith

theorem high_side {L : Prim} {a b c lo hi tiny : ℝ} {lc : LC} {k : Nat} (hk : k < 6) {j : Nat} (hj : j < 4)
    (hout : hi + (2 : ℕ) * 1.01 * greatest (steps a b c) < L.co a b c (tetNode lc k j)) (h1 : tiny ≤ (hi + (1 : ℕ) * 1.01 * greatest (steps a b c)) - hi) (h2 : tiny ≤ hi - lo) :
    (∀ i < 4, hi + (1 : ℕ) * 1.01 * greatest (steps a b c) ≤ L.co a b c (tetNode lc k i)) ∧
    ∀ (v : LC × Nat) (t : ℝ) (s : Nat), 0 ≤ t → t ≤ 1 → tetEdge lc k s = edgeOf v →
      hi + (1 : ℕ) * 1.01 * greatest (steps a b c) ≤ snap1 tiny lo hi (L.co a b c v.1 + t * (L.co a b c (neighbor v.1 v.2) - L.co a b c v.1)) := by
  obtain ⟨s1, s2, -⟩ := steps_sign a b c
  push_cast at *
  refine ⟨fun i hi => ?_, fun v t s t0 t1 hv => ?_⟩
  · have := (co_near (L := L) (a := a) (b := b) (c := c) (lc := lc) hk hi hj).2
    linarith
  · have := (tet_near (L := L) (a := a) (b := b) (c := c) hk hj t0 t1 hv).2
    generalize L.co a b c v.1 + t * (L.co a b c (neighbor v.1 v.2) - L.co a b c v.1) = x at *
    rw [snap_above (m := 1.01 * greatest (steps a b c)) (by linarith) (by linarith) h2]
    linarith

/-- Two vertices on edges of a tetrahedron that is not in the extended box. -/
theorem raw_beyond {L : Prim} {res : ℝ} {τ : LC × Nat → ℝ} {v w : LC × Nat} {lc : LC} {k : Nat} (hk : k < 6) (ht : TetHas lc k (edgeOf v) (edgeOf w)) {j : Nat} (hj : j < 4)
    (hout : ¬ L.InExt (L.position (tetNode lc k j)))
    (hbox : 1e-10 * res ≤ L.hi.1 - L.lo.1 ∧ 1e-10 * res ≤ L.hi.2.1 - L.lo.2.1 ∧ 1e-10 * res ≤ L.hi.2.2 - L.lo.2.2)
    (hlow : 1e-10 * res ≤ L.lo.1 - (L.extLo 1).1 ∧ 1e-10 * res ≤ L.lo.2.1 - (L.extLo 1).2.1 ∧ 1e-10 * res ≤ L.lo.2.2 - (L.extLo 1).2.2)
    (hhigh : 1e-10 * res ≤ (L.extHi 1).1 - L.hi.1 ∧ 1e-10 * res ≤ (L.extHi 1).2.1 - L.hi.2.1 ∧ 1e-10 * res ≤ (L.extHi 1).2.2 - L.hi.2.2) :
    Clip.Beyond (L.extLo 1) (L.extHi 1) (L.snapToBox res (L.vertexPos v.1 v.2 (τ v))) (L.snapToBox res (L.vertexPos w.1 w.2 (τ w))) ∧
      ∀ i < 4, Outer L (tetNode lc k i) := by
  obtain ⟨⟨s, -, hs⟩, r, -, hr⟩ := ht
  have cv := clamp_unit (τ v)
  have cw := clamp_unit (τ w)
  have hout' : ((L.position (tetNode lc k j)).1 < (L.extLo 2).1 ∨ (L.position (tetNode lc k j)).2.1 < (L.extLo 2).2.1 ∨ (L.position (tetNode lc k j)).2.2 < (L.extLo 2).2.2) ∨
      (L.extHi 2).1 < (L.position (tetNode lc k j)).1 ∨ (L.extHi 2).2.1 < (L.position (tetNode lc k j)).2.1 ∨ (L.extHi 2).2.2 < (L.position (tetNode lc k j)).2.2 := by
    by_contra h
    push Not at h
    exact hout ⟨⟨h.1.1, h.1.2.1, h.1.2.2⟩, h.2.1, h.2.2.1, h.2.2.2⟩
  rcases hout' with (h | h | h) | h | h | h
  · obtain ⟨g1, g2⟩ := low_side (L := L) (a := L.b0.1) (b := L.b1.1) (c := L.b2.1) hk hj h hlow.1 hbox.1
    exact ⟨Or.inr (Or.inl ⟨g2 v _ s cv.1 cv.2 hs, g2 w _ r cw.1 cw.2 hr⟩), fun i hi ⟨⟨q, _⟩, _⟩ => absurd q (not_lt.2 (g1 i hi))⟩
  · obtain ⟨g1, g2⟩ := low_side (L := L) (a := L.b0.2.1) (b := L.b1.2.1) (c := L.b2.2.1) hk hj h hlow.2.1 hbox.2.1
    exact ⟨Or.inr (Or.inr (Or.inr (Or.inl ⟨g2 v _ s cv.1 cv.2 hs, g2 w _ r cw.1 cw.2 hr⟩))), fun i hi ⟨_, ⟨q, _⟩, _⟩ => absurd q (not_lt.2 (g1 i hi))⟩
  · obtain ⟨g1, g2⟩ := low_side (L := L) (a := L.b0.2.2) (b := L.b1.2.2) (c := L.b2.2.2) hk hj h hlow.2.2 hbox.2.2
    exact ⟨Or.inr (Or.inr (Or.inr (Or.inr (Or.inr ⟨g2 v _ s cv.1 cv.2 hs, g2 w _ r cw.1 cw.2 hr⟩)))), fun i hi ⟨_, _, q, _⟩ => absurd q (not_lt.2 (g1 i hi))⟩
  · obtain ⟨g1, g2⟩ := high_side (L := L) (a := L.b0.1) (b := L.b1.1) (c := L.b2.1) hk hj h hhigh.1 hbox.1
    exact ⟨Or.inl ⟨g2 v _ s cv.1 cv.2 hs, g2 w _ r cw.1 cw.2 hr⟩, fun i hi ⟨⟨_, q⟩, _⟩ => absurd q (not_lt.2 (g1 i hi))⟩
  · obtain ⟨g1, g2⟩ := high_side (L := L) (a := L.b0.2.1) (b := L.b1.2.1) (c := L.b2.2.1) hk hj h hhigh.2.1 hbox.2.1
    exact ⟨Or.inr (Or.inr (Or.inl ⟨g2 v _ s cv.1 cv.2 hs, g2 w _ r cw.1 cw.2 hr⟩)), fun i hi ⟨_, ⟨_, q⟩, _⟩ => absurd q (not_lt.2 (g1 i hi))⟩
  · obtain ⟨g1, g2⟩ := high_side (L := L) (a := L.b0.2.2) (b := L.b1.2.2) (c := L.b2.2.2) hk hj h hhigh.2.2 hbox.2.2
    exact ⟨Or.inr (Or.inr (Or.inr (Or.inr (Or.inl ⟨g2 v _ s cv.1 cv.2 hs, g2 w _ r cw.1 cw.2 hr⟩)))), fun i hi ⟨_, _, _, q⟩ => absurd q (not_lt.2 (g1 i hi))⟩

theorem edge_nodes {lc : LC} {k s : Nat} {v : LC × Nat} (hs : tetEdge lc k s = edgeOf v) : (∃ i < 4, v.1 = tetNode lc k i) ∧ ∃ i < 4, neighbor v.1 v.2 = tetNode lc k i := by
  have hl := slotEnds_lt s
  unfold tetEdge edgeOf mkEdge at hs
  split at hs <;> split at hs <;> simp only [Prod.mk.injEq] at hs
  · exact ⟨⟨_, hl.1, hs.1.symm⟩, _, hl.2, hs.2.symm⟩
  · exact ⟨⟨_, hl.2, hs.2.symm⟩, _, hl.1, hs.1.symm⟩
  · exact ⟨⟨_, hl.2, hs.1.symm⟩, _, hl.1, hs.2.symm⟩
  · exact ⟨⟨_, hl.1, hs.2.symm⟩, _, hl.2, hs.1.symm⟩

theorem raw_skirt {F : Fld ℝ} (hE : E.Proper) (hr : E.Roomy) (hd : E.Definite F) {R : List LC} {V : List (LC × Nat)} {fs : List Lattice.Face} (hR : R.Nodup)
    (hc : Complete E.L F.neg R) (hm : MeshOf F.neg R V fs) : Skirt E.L (E.raw F V fs) := by
  intro i j hn
  obtain ⟨hi, hj, lc, k, hk, ht, m, hm4, hout⟩ := raw_open hR hc hm hn
  have hl : (E.raw F V fs).vertices.length = V.length := by simp [Env.raw, Prim.mesh]
  have hp : ∀ u, u < V.length → ∃ v ∈ V, edgeAt V u = edgeOf v ∧ pos (E.raw F V fs).vertices u = E.L.snapToBox E.resolution (E.L.vertexPos v.1 v.2 (Env.along F v)) := by
    intro u hu
    refine ⟨V[u], List.getElem_mem hu, ?_, ?_⟩
    · unfold edgeAt
      rw [List.getD_eq_getElem?_getD, Int.toNat_natCast, List.getElem?_eq_getElem hu]
      rfl
    · unfold pos Env.raw Prim.mesh
      rw [List.getD_eq_getElem?_getD, List.getElem?_map, List.getElem?_eq_getElem hu]
      rfl
  obtain ⟨v, hv, ev, pv⟩ := hp i hi
  obtain ⟨w, hw, ew, pw⟩ := hp j hj
  rw [ev, ew] at ht
  have hres := hE.resolution
  obtain ⟨b1, b2, b3⟩ := hr.box
  obtain ⟨h1, h2⟩ := raw_beyond (L := E.L) (res := E.resolution) (τ := Env.along F) hk ht hm4 hout
    ⟨by norm_num at b1 ⊢; linarith, by norm_num at b2 ⊢; linarith, by norm_num at b3 ⊢; linarith⟩ hr.below hr.above
  have hcross : ∀ v ∈ V, F.neg v.1 ≠ F.neg (neighbor v.1 v.2) := by
    intro v hv
    obtain ⟨⟨-, -, hne⟩, -⟩ := (hm.vertices (edgeOf v)).1 (List.mem_map.2 ⟨v, hv, rfl⟩)
    unfold edgeOf mkEdge at hne
    split at hne
    · exact hne
    · exact hne.symm
  have houter : ∀ v ∈ V, ∀ s, tetEdge lc k s = edgeOf v → Outer E.L (E.L.rounded (E.L.snapToBox E.resolution (E.L.vertexPos v.1 v.2 (Env.along F v)))) := by
    intro v hv s hs
    obtain ⟨⟨p, p4, ep⟩, q, q4, eq⟩ := edge_nodes hs
    rcases hd v.1 v.2 (hcross v hv) with e | e
    · rw [e, ep]; exact h2 p p4
    · rw [e, eq]; exact h2 q q4
  obtain ⟨⟨s, -, hs⟩, r, -, hr'⟩ := ht
  rw [pv, pw]
  exact ⟨by rw [hl]; exact hi, by rw [hl]; exact hj, h1, houter v hv s hs, houter w hw r hr'⟩

theorem net_side {fs : List (Nat × Nat × Nat)} {u v : Nat} (h : net fs u v ≠ 0) : (u, v) ∈ sides fs ∨ (v, u) ∈ sides fs := by
  by_contra hn
  push Not at hn
  unfold net at h
  rw [List.count_eq_zero_of_not_mem hn.1, List.count_eq_zero_of_not_mem hn.2] at h
  exact h rfl

theorem cluster_skirt {m m' : Clip.Mesh} (hr : m.Valid) (h : Skirt E.L m) (e : E.cluster m = some m') : Faces m' ∧ Skirt E.L m' := by
  unfold Env.cluster at e
  obtain ⟨o, eo, rfl⟩ := Option.map_eq_some_iff.1 e
  obtain ⟨K, pl, num, hK, hq⟩ := cluster_partial (I := E.clusterInput m) hr (returned_eq eo)
  refine ⟨cluster_faces hq, fun a b hab => ?_⟩
  dsimp only at hab ⊢
  have hne : a ≠ b := by
    rintro rfl
    unfold net at hab
    omega
  obtain ⟨u, v, rfl, rfl, huv⟩ : ∃ u v, num u = a ∧ num v = b ∧ net m.faces u v ≠ 0 := by
    by_contra hno
    push Not at hno
    exact hab (net_balanced hq hne fun u v hu hv => hno u v hu hv)
  obtain ⟨lu, lv, hb, ou, ov⟩ := h u v huv
  obtain ⟨iu, iv⟩ : MeshDefects.Spec.Incident m.faces u ∧ MeshDefects.Spec.Incident m.faces v := by
    rcases net_side huv with hs | hs
    · exact ⟨(Clusterer.incident_of_side hs).1, (Clusterer.incident_of_side hs).2⟩
    · exact ⟨(Clusterer.incident_of_side hs).2, (Clusterer.incident_of_side hs).1⟩
  have hkeep : ∀ w, Outer E.L (E.L.rounded (pos m.vertices w)) → MeshDefects.Spec.Incident m.faces w → pos o.vertices (num w) = pos m.vertices w :=
    fun w ow iw => hq.numbering.kept w iw fun c hc hw => ow ((hK c hc).inside w hw)
  rw [hkeep u ou iu, hkeep v ov iv]
  exact ⟨hq.numbering.bound u iu, hq.numbering.bound v iv, hb, ou, ov⟩

theorem smooth_same {sn : Snap} {m m' : Clip.Mesh} (h : Faces m) (e : E.smooth sn m = some m') : Faces m' ∧ m'.vertices = m.vertices ∧ ∀ u v, net m'.faces u v = net m.faces u v := by
  unfold Env.smooth at e
  obtain ⟨⟨vs, fs⟩, eo, rfl⟩ := Option.map_eq_some_iff.1 e
  obtain ⟨h1, h2, h3⟩ := smooth_partial (I := E.snapInput sn m) h (ended_eq eo)
  exact ⟨h2, h1, h3⟩

end Verif.Pipeline
