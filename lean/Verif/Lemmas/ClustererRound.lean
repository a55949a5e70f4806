import Verif.Lemmas.ClustererFold
import Verif.Lemmas.RefinerGoal
import Verif.Props.MeshDefects

/-!
# One round
-/

namespace Verif.Clusterer

open Verif Verif.AbstractMesh
open Verif.Clusterer.Spec
open Verif.Predicates (P3 narrow kTinyFactor)
open Verif.Snapper.Spec (sides net)
open Verif.MeshDefects.Spec (Incident DistinctCorners PathOrCycle link)

variable {I : Input} {vf : Nat → List Nat} {cs : List Cluster} {s : State}

/-- The lists that are merged. -/
def Kept (cs : List Cluster) (s : State) (c : List Nat) : Prop := ∃ (ci : Nat) (cl : Cluster), cs[ci]? = some cl ∧ cl.vertices = c ∧ s.deleted ci = false

/-- Where they are merged. -/
noncomputable def place (I : Input) (vf : Nat → List Nat) (c : List Nat) : P3 := clusteredPosition I vf c (node I (c.headD 0))

theorem Kept.candidate (hc : Clusters I vf cs) {c : List Nat} (h : Kept cs s c) : Candidate I c := by
  obtain ⟨ci, cl, h1, rfl, -⟩ := h
  exact hc.candidate cl (List.mem_of_getElem? h1)

theorem incident_of_side {fs : List Face} {u v : Nat} (h : (u, v) ∈ sides fs) : Incident fs u ∧ Incident fs v := by
  obtain ⟨f, hf, h⟩ := mem_sides.1 h
  rcases h with h | h | h <;> cases h
  · exact ⟨⟨f, hf, Or.inl rfl⟩, ⟨f, hf, Or.inr (Or.inl rfl)⟩⟩
  · exact ⟨⟨f, hf, Or.inr (Or.inl rfl)⟩, ⟨f, hf, Or.inr (Or.inr rfl)⟩⟩
  · exact ⟨⟨f, hf, Or.inr (Or.inr rfl)⟩, ⟨f, hf, Or.inl rfl⟩⟩

theorem gen_incident {u v : Nat} (h : Relation.EqvGen (Link I) u v) : u = v ∨ (Incident I.faces u ∧ Incident I.faces v) := by
  induction h with
  | rel _ _ h => exact Or.inr (incident_of_side h.1)
  | refl => exact Or.inl rfl
  | symm _ _ _ ih => exact ih.imp Eq.symm And.symm
  | trans _ _ _ _ _ ih1 ih2 =>
      rcases ih1 with rfl | ih1
      · exact ih2
      · rcases ih2 with rfl | ih2
        · exact Or.inr ih1
        · exact Or.inr ⟨ih1.1, ih2.2⟩

theorem Spec.Candidate.incident {c : List Nat} (h : Candidate I c) {v : Nat} (hv : v ∈ c) : Incident I.faces v := by
  have hnd : c.Nodup := h.ascending.imp Nat.ne_of_lt
  have : ∃ u ∈ c, u ≠ v := by
    by_contra hno
    push Not at hno
    have h1 : c.length ≤ 1 := by
      have hs : c ⊆ [v] := by
        intro x hx; rw [hno x hx]; simp
      exact (hnd.subperm hs).length_le
    have := h.two
    omega
  obtain ⟨u, hu, huv⟩ := this
  rcases gen_incident ((h.connected v hv u (h.bound u hu)).1 hu) with h | h
  · exact absurd h.symm huv
  · exact h.1

theorem Spec.Candidate.head {c : List Nat} (h : Candidate I c) : c.headD 0 ∈ c := by
  apply DisjointSets.headD_mem
  rintro rfl
  have := h.two
  simp at this

theorem Spec.Candidate.node {c : List Nat} (h : Candidate I c) {u v : Nat} (hu : u ∈ c) (hv : v ∈ c) : I.L.rounded (pos I.vertices u) = I.L.rounded (pos I.vertices v) :=
  conn_node ((h.connected u hu v (h.bound v hv)).1 hv)

/-- Two merged lists with a common vertex are the same. -/
theorem Spec.Candidate.eq {c d : List Nat} (h : Candidate I c) (h' : Candidate I d) {v : Nat} (hc : v ∈ c) (hd : v ∈ d) : c = d := by
  have hp : c.Perm d := by
    rw [List.perm_ext_iff_of_nodup (h.ascending.imp Nat.ne_of_lt) (h'.ascending.imp Nat.ne_of_lt)]
    intro a
    constructor
    · intro ha
      exact (h'.connected v hd a (h.bound a ha)).2 ((h.connected v hc a (h.bound a ha)).1 ha)
    · intro ha
      exact (h.connected v hc a (h'.bound a ha)).2 ((h'.connected v hd a (h'.bound a ha)).1 ha)
  exact hp.eq_of_pairwise (fun a b _ _ x y => absurd (Nat.lt_trans x y) (Nat.lt_irrefl _)) h.ascending h'.ascending

/-- What `cluster_of_` says about a vertex. -/
theorem repOf_cases (hc : Clusters I vf cs) (hs : SInv cs s) (v : Nat) :
    ((∀ c, Kept cs s c → v ∉ c) ∧ repOf cs s.clusterOf v = v ∧ plcOf I cs s.clusterOf v = vrow I v) ∨
    (∃ c, Kept cs s c ∧ v ∈ c ∧ repOf cs s.clusterOf v = c.headD 0 ∧ plcOf I cs s.clusterOf v = place I vf c) := by
  unfold repOf plcOf
  cases e : s.clusterOf v with
  | none =>
      refine Or.inl ⟨?_, rfl, rfl⟩
      rintro c ⟨ci, cl, h1, rfl, h3⟩ hv
      have := (hs v ci).2 ⟨cl, h1, hv, h3⟩
      rw [e] at this
      cases this
  | some ci =>
      obtain ⟨c, h1, h2, h3⟩ := (hs v ci).1 e
      have hm := List.mem_of_getElem? h1
      refine Or.inr ⟨c.vertices, ⟨ci, c, h1, rfl, h3⟩, h2, ?_, ?_⟩
      · dsimp only
        rw [h1]
        exact hc.rep c hm
      · dsimp only
        rw [h1]
        exact hc.position c hm

theorem repOf_eq (hc : Clusters I vf cs) (hs : SInv cs s) {u v : Nat} :
    repOf cs s.clusterOf u = repOf cs s.clusterOf v ↔ u = v ∨ ∃ c, Kept cs s c ∧ u ∈ c ∧ v ∈ c := by
  rcases repOf_cases hc hs u with ⟨hu, eu, -⟩ | ⟨c, kc, hu, eu, -⟩ <;> rcases repOf_cases hc hs v with ⟨hv, ev, -⟩ | ⟨d, kd, hv, ev, -⟩ <;> rw [eu, ev]
  · constructor
    · exact Or.inl
    · rintro (h | ⟨c, k, h, -⟩)
      · exact h
      · exact absurd h (hu c k)
  · constructor
    · rintro rfl
      exact absurd (kd.candidate hc).head (hu d kd)
    · rintro (rfl | ⟨c, k, h, -⟩)
      · exact absurd hv (hu d kd)
      · exact absurd h (hu c k)
  · constructor
    · intro h
      exact absurd (h ▸ (kc.candidate hc).head) (hv c kc)
    · rintro (rfl | ⟨c, k, -, h⟩)
      · exact absurd hu (hv c kc)
      · exact absurd h (hv c k)
  · constructor
    · intro h
      have := (kc.candidate hc).eq (kd.candidate hc) (kc.candidate hc).head (h ▸ (kd.candidate hc).head)
      subst this
      exact Or.inr ⟨c, kc, hu, hv⟩
    · rintro (rfl | ⟨b, k, h1, h2⟩)
      · rw [(kc.candidate hc).eq (kd.candidate hc) hu hv]
      · rw [(kc.candidate hc).eq (k.candidate hc) hu h1, (kd.candidate hc).eq (k.candidate hc) hv h2]

theorem plcOf_congr (hc : Clusters I vf cs) (hs : SInv cs s) {u v : Nat} (h : repOf cs s.clusterOf u = repOf cs s.clusterOf v) :
    plcOf I cs s.clusterOf u = plcOf I cs s.clusterOf v := by
  rcases (repOf_eq hc hs).1 h with rfl | ⟨c, k, h1, h2⟩
  · rfl
  · rcases repOf_cases hc hs u with ⟨hu, -⟩ | ⟨d, kd, hu, -, e⟩
    · exact absurd h1 (hu c k)
    · rcases repOf_cases hc hs v with ⟨hv, -⟩ | ⟨d', kd', hv, -, e'⟩
      · exact absurd h2 (hv c k)
      · rw [e, e', (kd.candidate hc).eq (k.candidate hc) hu h1, (kd'.candidate hc).eq (k.candidate hc) hv h2]

theorem rep_bound (hc : Clusters I vf cs) (hs : SInv cs s) (v ci : Nat) (h : s.clusterOf v = some ci) : ∃ c, cs[ci]? = some c ∧ c.rep < I.vertices.length := by
  obtain ⟨c, h1, h2, h3⟩ := (hs v ci).1 h
  have hm := List.mem_of_getElem? h1
  refine ⟨c, h1, ?_⟩
  rw [hc.rep c hm]
  exact (hc.candidate c hm).bound _ (hc.candidate c hm).head

/-- The clustered mesh before folded faces are dropped. -/
theorem clustered_spec (hI : ∀ f ∈ I.faces, f.1 < I.vertices.length ∧ f.2.1 < I.vertices.length ∧ f.2.2 < I.vertices.length) (hc : Clusters I vf cs) (hs : SInv cs s) :
    ∃ q num, mapFaces I cs s.clusterOf I.faces ⟨[], fun _ => none⟩ = .ok (q, renamed num I.faces) ∧ Numbering I (Kept cs s) (place I vf) num q.verts ∧
      ∀ v n, Incident I.faces v → (q.vv (repOf cs s.clusterOf v) = some n ↔ num v = n) := by
  obtain ⟨q, e, -, h⟩ := mapFaces_spec (rep_bound hc hs) I.faces (fun _ => False) ⟨[], fun _ => none⟩
    ⟨fun _ _ _ h => (by cases h), fun n hn => absurd hn (Nat.not_lt_zero n), fun _ _ h => (by cases h), fun _ h => False.elim h⟩ hI
  have h := h.congr (q := Incident I.faces) (fun x => by simp)
  have hnum : ∀ v n, Incident I.faces v → (q.vv (repOf cs s.clusterOf v) = some n ↔ numOf (repOf cs s.clusterOf) q v = n) := by
    intro v n hv
    obtain ⟨m, hm⟩ := h.total v hv
    unfold numOf
    rw [hm]
    simp
  have hplc : ∀ v, Incident I.faces v → q.verts[numOf (repOf cs s.clusterOf) q v]? = some (plcOf I cs s.clusterOf v) := by
    intro v hv
    obtain ⟨w, -, h2, h3⟩ := h.origin _ _ ((hnum v _ hv).2 rfl)
    rw [h3, plcOf_congr hc hs h2]
  refine ⟨q, numOf (repOf cs s.clusterOf) q, e, ⟨?_, ?_, ?_, ?_, ?_⟩, hnum⟩
  · intro u v hu hv
    rw [← repOf_eq hc hs]
    constructor
    · intro h'
      have e1 := (hnum u _ hu).2 rfl
      have e2 := (hnum v _ hv).2 rfl
      rw [h'] at e1
      exact h.inj _ _ _ e1 e2
    · intro h'
      unfold numOf
      rw [h']
  · intro v hv
    exact (List.getElem?_eq_some_iff.1 (hplc v hv)).1
  · intro n hn
    obtain ⟨r, hr⟩ := h.onto n hn
    obtain ⟨v, h1, rfl, -⟩ := h.origin r n hr
    exact ⟨v, h1, (hnum v n h1).1 hr⟩
  · intro v hv hk
    unfold Spec.pos
    rw [List.getD_eq_getElem?_getD, hplc v hv]
    rcases repOf_cases hc hs v with ⟨-, -, e⟩ | ⟨c, kc, h', -, -⟩
    · exact e
    · exact absurd h' (hk c kc)
  · intro c v hk hv
    have hin := (hk.candidate hc).incident hv
    unfold Spec.pos
    rw [List.getD_eq_getElem?_getD, hplc v hin]
    rcases repOf_cases hc hs v with ⟨h', -⟩ | ⟨d, kd, h', -, e⟩
    · exact absurd hv (h' c hk)
    · rw [(hk.candidate hc).eq (kd.candidate hc) hv h']
      exact e

/-! ## `vertex_ci` -/

theorem vertexCi_sound (deleted : Nat → Bool) (vv : Nat → Option Nat) : ∀ (cs : List Cluster) (k : Nat) (m : Nat → Option Nat) (x ci : Nat),
    vertexCi deleted vv cs k m x = some ci → (∃ i c, ci = k + i ∧ cs[i]? = some c ∧ deleted ci = false ∧ vv c.rep = some x) ∨ m x = some ci := by
  intro cs
  induction cs with
  | nil => intro k m x ci h; exact Or.inr h
  | cons c cs ih =>
      intro k m x ci h
      unfold vertexCi at h
      rcases ih _ _ _ _ h with ⟨i, d, h1, h2, h3⟩ | h
      · exact Or.inl ⟨i + 1, d, by omega, by simpa using h2, h3⟩
      · cases e : deleted k with
        | true => rw [e] at h; exact Or.inr h
        | false =>
            rw [e] at h
            simp only [Bool.false_eq_true, if_false] at h
            split at h
            · next hv =>
                cases h
                exact Or.inl ⟨0, c, rfl, rfl, e, hv⟩
            · exact Or.inr h

theorem vertexCi_complete (deleted : Nat → Bool) (vv : Nat → Option Nat) : ∀ (cs : List Cluster) (k : Nat) (m : Nat → Option Nat) (x : Nat),
    ((m x).isSome ∨ ∃ i c, cs[i]? = some c ∧ deleted (k + i) = false ∧ vv c.rep = some x) → (vertexCi deleted vv cs k m x).isSome := by
  intro cs
  induction cs with
  | nil =>
      intro k m x h
      rcases h with h | ⟨i, c, h, -⟩
      · exact h
      · simp at h
  | cons c cs ih =>
      intro k m x h
      unfold vertexCi
      apply ih
      rcases h with h | ⟨i, d, h1, h2, h3⟩
      · left
        cases deleted k with
        | true => exact h
        | false =>
            simp only [Bool.false_eq_true, if_false]
            split
            · rfl
            · exact h
      · cases i with
        | zero =>
            left
            simp only [List.getElem?_cons_zero, Option.some.injEq] at h1
            subst h1
            rw [Nat.add_zero] at h2
            rw [h2]
            simp only [Bool.false_eq_true, if_false, if_pos h3]
            rfl
        | succ i =>
            right
            exact ⟨i, d, by simpa using h1, by rw [show k + 1 + i = k + (i + 1) by omega]; exact h2, h3⟩

/-- The map of the merged vertices. -/
theorem vertexCi_spec (hc : Clusters I vf cs) (hs : SInv cs s) {q : QState} {num : Nat → Nat}
    (hnum : ∀ v n, Incident I.faces v → (q.vv (repOf cs s.clusterOf v) = some n ↔ num v = n)) (hN : Numbering I (Kept cs s) (place I vf) num q.verts) (x ci : Nat) :
    vertexCi s.deleted q.vv cs 0 (fun _ => none) x = some ci ↔ ∃ cl, cs[ci]? = some cl ∧ s.deleted ci = false ∧ ∃ v ∈ cl.vertices, num v = x := by
  have hrep : ∀ {i : Nat} {cl : Cluster}, cs[i]? = some cl → s.deleted i = false → (q.vv cl.rep = some x ↔ ∃ v ∈ cl.vertices, num v = x) := by
    intro i cl h1 h2
    have hm := List.mem_of_getElem? h1
    have hcand := hc.candidate cl hm
    have hk : Kept cs s cl.vertices := ⟨i, cl, h1, rfl, h2⟩
    have key : ∀ v ∈ cl.vertices, repOf cs s.clusterOf v = cl.rep := by
      intro v hv
      rcases repOf_cases hc hs v with ⟨h', -⟩ | ⟨d, kd, h', e, -⟩
      · exact absurd hv (h' _ hk)
      · rw [e, hc.rep cl hm, hcand.eq (kd.candidate hc) hv h']
    constructor
    · intro h
      refine ⟨_, hcand.head, (hnum _ _ (hcand.incident hcand.head)).1 ?_⟩
      rw [key _ hcand.head]; exact h
    · rintro ⟨v, hv, h⟩
      rw [← key v hv]
      exact (hnum v x (hcand.incident hv)).2 h
  have hsound : ∀ ci, vertexCi s.deleted q.vv cs 0 (fun _ => none) x = some ci → ∃ cl, cs[ci]? = some cl ∧ s.deleted ci = false ∧ ∃ v ∈ cl.vertices, num v = x := by
    intro ci h
    rcases vertexCi_sound _ _ _ _ _ _ _ h with ⟨i, c, h1, h2, h3, h4⟩ | h
    · rw [Nat.zero_add] at h1
      subst h1
      exact ⟨c, h2, h3, (hrep h2 h3).1 h4⟩
    · cases h
  refine ⟨hsound ci, ?_⟩
  rintro ⟨cl, h1, h2, v, hv, h3⟩
  have hsome := vertexCi_complete s.deleted q.vv cs 0 (fun _ => none) x (Or.inr ⟨ci, cl, h1, by rw [Nat.zero_add]; exact h2, (hrep h1 h2).2 ⟨v, hv, h3⟩⟩)
  obtain ⟨cj, hj⟩ := Option.isSome_iff_exists.1 hsome
  rw [hj]
  obtain ⟨d, d1, d2, w, hw, d3⟩ := hsound cj hj
  have hm := List.mem_of_getElem? h1
  have hm' := List.mem_of_getElem? d1
  have hk : Kept cs s cl.vertices := ⟨ci, cl, h1, rfl, h2⟩
  have hk' : Kept cs s d.vertices := ⟨cj, d, d1, rfl, d2⟩
  have := (hN.same v w ((hc.candidate cl hm).incident hv) ((hc.candidate d hm').incident hw)).1 (h3.trans d3.symm)
  have hsame : ∃ u, u ∈ d.vertices ∧ u ∈ cl.vertices := by
    rcases this with rfl | ⟨c, k, c1, c2⟩
    · exact ⟨v, hw, hv⟩
    · refine ⟨w, hw, ?_⟩
      rw [(hc.candidate cl hm).eq (k.candidate hc) hv c1]
      exact c2
  obtain ⟨u, u1, u2⟩ := hsame
  rw [disjoint_get hc.disjoint d1 h1 u1 u2]

theorem kept_iff {c : List Nat} : Kept cs s c ↔ ∃ (ci : Nat) (cl : Cluster), cs[ci]? = some cl ∧ cl.vertices = c ∧ s.deleted ci = false := Iff.rfl

end Verif.Clusterer
