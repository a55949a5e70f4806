import Verif.Lemmas.ClustererSets

/-!
# The clustered mesh
-/

namespace Verif.Clusterer

open Verif Verif.AbstractMesh
open Verif.Clusterer.Spec
open Verif.Predicates (P3)
open Verif.Snapper.Spec (sides)
open Verif.MeshDefects.Spec (Incident)

/-! ## `cluster_of_` -/

/-- `cluster_of_` tells the cluster that is not deleted. -/
def SInv (cs : List Cluster) (s : State) : Prop :=
  ∀ v ci, s.clusterOf v = some ci ↔ ∃ c, cs[ci]? = some c ∧ v ∈ c.vertices ∧ s.deleted ci = false

theorem disjoint_get {cs : List Cluster} (h : cs.Pairwise fun c d => ∀ v ∈ c.vertices, v ∉ d.vertices) {i j : Nat} {c d : Cluster} {v : Nat}
    (hi : cs[i]? = some c) (hj : cs[j]? = some d) (hc : v ∈ c.vertices) (hd : v ∈ d.vertices) : i = j := by
  obtain ⟨hi', rfl⟩ := List.getElem?_eq_some_iff.1 hi
  obtain ⟨hj', rfl⟩ := List.getElem?_eq_some_iff.1 hj
  clear hi hj
  rename' hi' => hi, hj' => hj
  rw [List.pairwise_iff_getElem] at h
  rcases Nat.lt_trichotomy i j with hij | hij | hij
  · exact absurd hd (h i j hi hj hij v hc)
  · exact hij
  · exact absurd hc (h j i hj hi hij v hd)

theorem registerAll_spec : ∀ (cs : List Cluster) (k : Nat) (m : Nat → Option Nat), (cs.Pairwise fun c d => ∀ v ∈ c.vertices, v ∉ d.vertices) →
    ∀ v ci, registerAll cs k m v = some ci ↔ (∃ i c, ci = k + i ∧ cs[i]? = some c ∧ v ∈ c.vertices) ∨ ((∀ c ∈ cs, v ∉ c.vertices) ∧ m v = some ci) := by
  intro cs
  induction cs with
  | nil => intro k m _ v ci; simp [registerAll]
  | cons d cs ih =>
      intro k m h v ci
      unfold registerAll
      rw [List.pairwise_cons] at h
      rw [ih _ _ h.2]
      constructor
      · rintro (⟨i, c, rfl, h1, h2⟩ | ⟨h1, h2⟩)
        · exact Or.inl ⟨i + 1, c, by omega, by simpa using h1, h2⟩
        · unfold assign at h2
          split at h2
          · next hv => cases h2; exact Or.inl ⟨0, d, rfl, rfl, hv⟩
          · next hv =>
              refine Or.inr ⟨?_, h2⟩
              intro c hc
              rcases List.mem_cons.1 hc with rfl | hc
              · exact hv
              · exact h1 c hc
      · rintro (⟨i, c, rfl, h1, h2⟩ | ⟨h1, h2⟩)
        · cases i with
          | zero =>
              simp only [List.getElem?_cons_zero, Option.some.injEq] at h1
              subst h1
              refine Or.inr ⟨fun c hc => h.1 c hc v h2, ?_⟩
              unfold assign
              rw [if_pos h2]
              rfl
          | succ i => exact Or.inl ⟨i, c, by omega, by simpa using h1, h2⟩
        · refine Or.inr ⟨fun c hc => h1 c (List.mem_cons_of_mem _ hc), ?_⟩
          unfold assign
          rw [if_neg (h1 d (List.mem_cons_self ..))]
          exact h2

theorem start_inv {cs : List Cluster} (h : cs.Pairwise fun c d => ∀ v ∈ c.vertices, v ∉ d.vertices) :
    SInv cs ⟨registerAll cs 0 (fun _ => none), fun _ => false⟩ := by
  intro v ci
  dsimp only
  rw [registerAll_spec cs 0 _ h]
  constructor
  · rintro (⟨i, c, rfl, h1, h2⟩ | ⟨-, h⟩)
    · rw [Nat.zero_add]; exact ⟨c, h1, h2, rfl⟩
    · cases h
  · rintro ⟨c, h1, h2, -⟩
    exact Or.inl ⟨ci, c, (Nat.zero_add _).symm, h1, h2⟩

theorem rollback_spec {cs : List Cluster} (hd : cs.Pairwise fun c d => ∀ v ∈ c.vertices, v ∉ d.vertices) {s : State} {b : Bool} {ci : Nat} (h : SInv cs s)
    (hc : ci < cs.length) : ∃ s', rollback cs (s, b) ci = .ok (s', b || !s.deleted ci) ∧ SInv cs s' ∧ ∀ x, s'.deleted x = (s.deleted x || decide (x = ci)) := by
  unfold rollback
  rw [List.getElem?_eq_getElem hc]
  dsimp only
  cases e : s.deleted ci with
  | true =>
      refine ⟨s, ?_, h, ?_⟩
      · simp
      · intro x
        by_cases hx : x = ci
        · subst hx; simp [e]
        · simp [hx]
  | false =>
      refine ⟨⟨assign cs[ci].vertices none s.clusterOf, fun x => if x = ci then true else s.deleted x⟩, ?_, ?_, ?_⟩
      · rw [if_neg (by simp)]
        simp
      · intro v cj
        dsimp only
        unfold assign
        by_cases hv : v ∈ cs[ci].vertices
        · rw [if_pos hv]
          constructor
          · intro h; cases h
          · rintro ⟨c, h1, h2, h3⟩
            have := disjoint_get hd h1 (List.getElem?_eq_getElem hc) h2 hv
            rw [if_pos this] at h3
            cases h3
        · rw [if_neg hv, h v cj]
          constructor
          · rintro ⟨c, h1, h2, h3⟩
            refine ⟨c, h1, h2, ?_⟩
            rw [if_neg]
            · exact h3
            · rintro rfl
              rw [List.getElem?_eq_getElem hc] at h1
              cases h1
              exact hv h2
          · rintro ⟨c, h1, h2, h3⟩
            refine ⟨c, h1, h2, ?_⟩
            split at h3
            · cases h3
            · exact h3
      · intro x
        dsimp only
        by_cases hx : x = ci
        · simp [hx]
        · simp [hx]

theorem rollbackAll_spec {cs : List Cluster} (hd : cs.Pairwise fun c d => ∀ v ∈ c.vertices, v ∉ d.vertices) : ∀ (cis : List Nat) (s : State) (b : Bool),
    SInv cs s → (∀ ci ∈ cis, ci < cs.length) → ∃ s', rollbackAll cs cis (s, b) = .ok (s', b || cis.any fun ci => !s.deleted ci) ∧ SInv cs s' ∧
      ∀ x, s'.deleted x = true ↔ s.deleted x = true ∨ x ∈ cis := by
  intro cis
  induction cis with
  | nil => intro s b h _; exact ⟨s, by simp [rollbackAll], h, by simp⟩
  | cons ci cis ih =>
      intro s b h hl
      obtain ⟨s1, e1, h1, d1⟩ := rollback_spec hd (b := b) h (hl ci (List.mem_cons_self ..))
      obtain ⟨s2, e2, h2, d2⟩ := ih s1 (b || !s.deleted ci) h1 (fun c hc => hl c (List.mem_cons_of_mem _ hc))
      refine ⟨s2, ?_, h2, ?_⟩
      · unfold rollbackAll
        rw [e1, Outcome.ok_bind, e2]
        congr 2
        rw [List.any_cons, Bool.or_assoc]
        cases e : s.deleted ci with
        | false => simp
        | true =>
            simp only [Bool.not_true, Bool.false_or]
            congr 1
            congr 1
            funext x
            rw [d1 x]
            by_cases hx : x = ci
            · subst hx; simp [e]
            · simp [hx]
      · intro x
        rw [d2, d1]
        simp [or_assoc]

/-! ## Numbering -/

/-- The old vertex that stands for `v`. -/
def repOf (cs : List Cluster) (co : Nat → Option Nat) (v : Nat) : Nat :=
  match co v with
  | none => v
  | some ci => (cs[ci]?.map Cluster.rep).getD 0

/-- The place of the vertex that `v` becomes. -/
noncomputable def plcOf (I : Input) (cs : List Cluster) (co : Nat → Option Nat) (v : Nat) : P3 :=
  match co v with
  | none => vrow I v
  | some ci => (cs[ci]?.map Cluster.position).getD 0

/-- The invariant of the numbering: `seen` are the vertices treated so far. -/
structure QInv (rep : Nat → Nat) (plc : Nat → P3) (seen : Nat → Prop) (s : QState) : Prop where
  inj : ∀ r r' n, s.vv r = some n → s.vv r' = some n → r = r'
  onto : ∀ n, n < s.verts.length → ∃ r, s.vv r = some n
  origin : ∀ r n, s.vv r = some n → ∃ v, seen v ∧ rep v = r ∧ s.verts[n]? = some (plc v)
  total : ∀ v, seen v → ∃ n, s.vv (rep v) = some n

/-- The numbers given stay. -/
def Ext (s s' : QState) : Prop := ∀ r n, s.vv r = some n → s'.vv r = some n

theorem number_spec {rep : Nat → Nat} {plc : Nat → P3} {seen : Nat → Prop} {s : QState} (h : QInv rep plc seen s) (v : Nat) :
    Ext s (number s (rep v) (plc v)).1 ∧ QInv rep plc (fun x => seen x ∨ x = v) (number s (rep v) (plc v)).1 ∧
      (number s (rep v) (plc v)).1.vv (rep v) = some (number s (rep v) (plc v)).2 := by
  unfold number
  cases e : s.vv (rep v) with
  | some n =>
      dsimp only
      refine ⟨fun _ _ h => h, ⟨h.inj, h.onto, ?_, ?_⟩, e⟩
      · intro r n hr
        obtain ⟨w, h1, h2⟩ := h.origin r n hr
        exact ⟨w, Or.inl h1, h2⟩
      · rintro w (hw | rfl)
        · exact h.total w hw
        · exact ⟨n, e⟩
  | none =>
      dsimp only
      have hlt : ∀ {r n}, s.vv r = some n → n < s.verts.length := by
        intro r n hr
        obtain ⟨w, -, -, h3⟩ := h.origin r n hr
        exact (List.getElem?_eq_some_iff.1 h3).1
      refine ⟨?_, ⟨?_, ?_, ?_, ?_⟩, by simp⟩
      · intro r n hr
        dsimp only
        rw [if_neg]
        · exact hr
        · rintro rfl; rw [e] at hr; cases hr
      · intro r r' n h1 h2
        dsimp only at h1 h2
        by_cases c1 : r = rep v
        · rw [if_pos c1] at h1
          cases h1
          by_cases c2 : r' = rep v
          · rw [c1, c2]
          · rw [if_neg c2] at h2
            have := hlt h2
            omega
        · rw [if_neg c1] at h1
          by_cases c2 : r' = rep v
          · rw [if_pos c2] at h2
            cases h2
            have := hlt h1
            omega
          · rw [if_neg c2] at h2
            exact h.inj r r' n h1 h2
      · intro n hn
        rw [List.length_append] at hn
        by_cases hnl : n = s.verts.length
        · refine ⟨rep v, ?_⟩
          dsimp only
          rw [if_pos rfl, hnl]
        · obtain ⟨r, hr⟩ := h.onto n (by simp at hn; omega)
          refine ⟨r, ?_⟩
          dsimp only
          rw [if_neg]
          · exact hr
          · rintro rfl; rw [e] at hr; cases hr
      · intro r n hr
        dsimp only at hr
        by_cases c1 : r = rep v
        · rw [if_pos c1] at hr
          cases hr
          exact ⟨v, Or.inr rfl, c1.symm, by simp⟩
        · rw [if_neg c1] at hr
          obtain ⟨w, h1, h2, h3⟩ := h.origin r n hr
          exact ⟨w, Or.inl h1, h2, by dsimp only; rw [List.getElem?_append_left (hlt hr)]; exact h3⟩
      · rintro w (hw | rfl)
        · obtain ⟨n, hn⟩ := h.total w hw
          refine ⟨n, ?_⟩
          dsimp only
          rw [if_neg]
          · exact hn
          · intro h'; rw [h', e] at hn; cases hn
        · exact ⟨s.verts.length, by simp⟩

theorem mapCorner_spec {I : Input} {cs : List Cluster} {co : Nat → Option Nat} (hco : ∀ v ci, co v = some ci → ∃ c, cs[ci]? = some c ∧ c.rep < I.vertices.length)
    (s : QState) {v : Nat} (hv : v < I.vertices.length) : mapCorner I cs co s v = .ok (number s (repOf cs co v) (plcOf I cs co v)) := by
  unfold mapCorner repOf plcOf
  rw [if_pos hv]
  cases e : co v with
  | none => rfl
  | some ci =>
      obtain ⟨c, hc, hr⟩ := hco v ci e
      dsimp only
      rw [hc]
      dsimp only
      rw [if_pos hr]
      rfl

/-- The number of a vertex. -/
def numOf (rep : Nat → Nat) (s : QState) (v : Nat) : Nat := (s.vv (rep v)).getD 0

theorem Ext.trans {a b c : QState} (h : Ext a b) (h' : Ext b c) : Ext a c := fun r n e => h' r n (h r n e)

theorem Ext.num {rep : Nat → Nat} {a b : QState} (h : Ext a b) {v n : Nat} (e : a.vv (rep v) = some n) : numOf rep b v = n := by
  unfold numOf; rw [h _ _ e]; rfl

theorem QInv.congr {rep : Nat → Nat} {plc : Nat → P3} {p q : Nat → Prop} {s : QState} (h : QInv rep plc p s) (e : ∀ x, p x ↔ q x) : QInv rep plc q s := by
  have : p = q := funext fun x => propext (e x)
  rw [← this]; exact h

theorem mapFaces_spec {I : Input} {cs : List Cluster} {co : Nat → Option Nat}
    (hco : ∀ v ci, co v = some ci → ∃ c, cs[ci]? = some c ∧ c.rep < I.vertices.length) : ∀ (fs : List Face) (seen : Nat → Prop) (s : QState),
    QInv (repOf cs co) (plcOf I cs co) seen s → (∀ f ∈ fs, f.1 < I.vertices.length ∧ f.2.1 < I.vertices.length ∧ f.2.2 < I.vertices.length) →
    ∃ s', mapFaces I cs co fs s = .ok (s', renamed (numOf (repOf cs co) s') fs) ∧ Ext s s' ∧
      QInv (repOf cs co) (plcOf I cs co) (fun x => seen x ∨ Incident fs x) s' := by
  intro fs
  induction fs with
  | nil =>
      intro seen s h _
      refine ⟨s, rfl, fun _ _ h => h, h.congr ?_⟩
      simp [Incident]
  | cons f fs ih =>
      intro seen s h hr
      obtain ⟨r1, r2, r3⟩ := hr f (List.mem_cons_self ..)
      obtain ⟨x1, q1, n1⟩ := number_spec h f.1
      have q1' := q1
      generalize ea : number s (repOf cs co f.1) (plcOf I cs co f.1) = A at *
      obtain ⟨x2, q2, n2⟩ := number_spec q1 f.2.1
      generalize eb : number A.1 (repOf cs co f.2.1) (plcOf I cs co f.2.1) = B at *
      obtain ⟨x3, q3, n3⟩ := number_spec q2 f.2.2
      generalize ec : number B.1 (repOf cs co f.2.2) (plcOf I cs co f.2.2) = C at *
      have hmf : mapFace I cs co s f = .ok (C.1, (A.2, B.2, C.2)) := by
        unfold mapFace
        rw [mapCorner_spec hco s r1, ea, Outcome.ok_bind]
        rcases A with ⟨A1, A2⟩
        rcases B with ⟨B1, B2⟩
        dsimp only at eb ec ⊢
        rw [mapCorner_spec hco _ r2, eb, Outcome.ok_bind]
        dsimp only
        rw [mapCorner_spec hco _ r3, ec, Outcome.ok_bind]
      obtain ⟨s', e, x, q⟩ := ih _ C.1 q3 (fun g hg => hr g (List.mem_cons_of_mem _ hg))
      have hg : (A.2, B.2, C.2) = rename (numOf (repOf cs co) s') f := by
        unfold rename
        rw [((x2.trans x3).trans x).num n1, (x3.trans x).num n2, x.num n3]
      refine ⟨s', ?_, ((x1.trans x2).trans x3).trans x, q.congr ?_⟩
      · unfold mapFaces
        rw [hmf, Outcome.ok_bind]
        dsimp only
        rw [e, Outcome.ok_bind]
        dsimp only
        congr 2
        rw [hg]
        unfold renamed
        rw [List.map_cons, List.filter_cons]
        by_cases hc : collapsed (rename (numOf (repOf cs co) s') f)
        · rw [if_pos hc, if_neg]
          unfold collapsed at hc
          simp only [decide_eq_true_eq]
          tauto
        · rw [if_neg hc, if_pos]
          unfold collapsed at hc
          simp only [decide_eq_true_eq]
          tauto
      · intro y
        simp only [Incident, List.mem_cons, exists_eq_or_imp]
        constructor
        · rintro ((((h | h) | h) | h) | h)
          · exact Or.inl h
          · exact Or.inr (Or.inl (Or.inl h.symm))
          · exact Or.inr (Or.inl (Or.inr (Or.inl h.symm)))
          · exact Or.inr (Or.inl (Or.inr (Or.inr h.symm)))
          · exact Or.inr (Or.inr h)
        · rintro (h | (h | h | h) | h)
          · exact Or.inl (Or.inl (Or.inl (Or.inl h)))
          · exact Or.inl (Or.inl (Or.inl (Or.inr h.symm)))
          · exact Or.inl (Or.inl (Or.inr h.symm))
          · exact Or.inl (Or.inr h.symm)
          · exact Or.inr h

end Verif.Clusterer
