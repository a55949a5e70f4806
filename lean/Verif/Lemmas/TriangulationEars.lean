import Verif.Lemmas.TriangulationMesh

/-! # Lemmas: clipping ears -/

namespace Verif.Triangulation

open Verif Verif.AbstractMesh Verif.Triangulation.Spec

variable {I : Input}

/-- The labels reach as far as they are looked up. -/
def LabelsOk (I : Input) : Prop := I.labels = [] ∨ I.nb ≤ I.labels.length

theorem shareLabel_symm {l : List (Int × Int)} {u v : Nat} : ShareLabel l u v ↔ ShareLabel l v u := by
  unfold ShareLabel
  constructor <;> rintro ⟨a, b, h1, h2, x, hx, h3, h4⟩ <;> exact ⟨b, a, h2, h1, x, hx, h4, h3⟩

theorem sharesEdge_spec (hl : LabelsOk I) (u v : Nat) :
    ∃ b, sharesEdge I u v = .ok b ∧ (b = true ↔ u < I.nb ∧ v < I.nb ∧ ShareLabel I.labels u v) := by
  have key : ∃ b, sharesEdge I u v = .ok b ∧ (b = true ↔ min u v < I.nb ∧ max u v < I.nb ∧ ShareLabel I.labels (min u v) (max u v)) := by
    unfold sharesEdge
    generalize min u v = i
    generalize max u v = j
    dsimp only
    by_cases h : I.labels = [] ∨ I.nb ≤ i ∨ I.nb ≤ j
    · rw [if_pos h]
      refine ⟨false, rfl, ?_⟩
      simp only [Bool.false_eq_true, false_iff]
      rintro ⟨h1, h2, a, b, h3, -⟩
      rcases h with h | h | h
      · rw [h] at h3; simp at h3
      · omega
      · omega
    · rw [if_neg h]
      push Not at h
      obtain ⟨h0, h1, h2⟩ := h
      have hlen : I.nb ≤ I.labels.length := hl.resolve_left h0
      rw [List.getElem?_eq_getElem (by omega), List.getElem?_eq_getElem (by omega)]
      dsimp only
      have hS : ShareLabel I.labels i j ↔ ∃ x : Int, 0 ≤ x ∧ (x = (I.labels[i]'(by omega)).1 ∨ x = (I.labels[i]'(by omega)).2) ∧
          (x = (I.labels[j]'(by omega)).1 ∨ x = (I.labels[j]'(by omega)).2) := by
        unfold ShareLabel
        rw [List.getElem?_eq_getElem (by omega : i < I.labels.length), List.getElem?_eq_getElem (by omega : j < I.labels.length)]
        simp
      rw [hS]
      generalize I.labels[i]'(by omega) = a
      generalize I.labels[j]'(by omega) = b
      by_cases hn : a.1 < 0 ∧ a.2 < 0
      · rw [if_pos hn]
        refine ⟨false, rfl, ?_⟩
        simp only [Bool.false_eq_true, false_iff]
        rintro ⟨-, -, x, hx, h3 | h3, -⟩ <;> omega
      · rw [if_neg hn]
        refine ⟨_, rfl, ?_⟩
        rw [decide_eq_true_iff]
        constructor
        · rintro (⟨h3, h4⟩ | ⟨h3, h4⟩)
          · exact ⟨h1, h2, a.1, h3, Or.inl rfl, h4⟩
          · exact ⟨h1, h2, a.2, h3, Or.inr rfl, h4⟩
        · rintro ⟨-, -, x, hx, rfl | rfl, h4⟩
          · exact Or.inl ⟨hx, h4⟩
          · exact Or.inr ⟨hx, h4⟩
  rcases Nat.le_total u v with h | h
  · rw [Nat.min_eq_left h, Nat.max_eq_right h] at key; exact key
  · rw [Nat.min_eq_right h, Nat.max_eq_left h] at key
    obtain ⟨b, h1, h2⟩ := key
    exact ⟨b, h1, h2.trans (by rw [shareLabel_symm]; tauto)⟩

/-- No two faces have the same corners. -/
def NoTwins (m : Mesh) : Prop := ∀ i j f g, faceAt m i = some f → faceAt m j = some g → (∀ v, Corner f v ↔ Corner g v) → i = j

/-- The mesh is a surface whose boundary is the polygon without the given ring. -/
structure Base (I : Input) (m : Mesh) (R : List Nat) : Prop where
  reach : Reachable m
  live : ∀ i, i < m.nf → ∃ f, faceAt m i = some f
  cap : m.cap = I.nb - 2 + 2 * I.ni
  bnd : ∀ g : Nat → Nat → ℝ, (∀ u v, g u v = - g v u) → meshSum g m + cycSum g R = cycSum g (ring I)
  twin : NoTwins m

theorem Base.good {m : Mesh} {R : List Nat} (h : Base I m R) : Good m := h.reach.good

/-- The state of `ear_clip`. -/
structure Ear (I : Input) (m : Mesh) (R : List Nat) : Prop extends Base I m R where
  nodup : R.Nodup
  range : ∀ v ∈ R, v < I.nb
  used : ∀ i f u v, faceAt m i = some f → Side f u v → u ∈ R → v ∈ R → (v, u) ∈ cyc R
  tip : ∀ i f, faceAt m i = some f → ∃ v, Corner f v ∧ v ∉ R
  count : m.nf + R.length = I.nb
  corners : ∀ i f v, faceAt m i = some f → Corner f v → v < I.nb

theorem Ear.rot {m : Mesh} {R R' : List Nat} (h : Ear I m R) (hr : R ~r R') : Ear I m R' where
  reach := h.reach
  live := h.live
  cap := h.cap
  bnd g hg := by rw [← cycSum_rot g hr]; exact h.bnd g hg
  twin := h.twin
  nodup := hr.nodup_iff.1 h.nodup
  range v hv := h.range v (hr.perm.mem_iff.2 hv)
  used i f u v hf hs hu hv := (cyc_perm hr).mem_iff.1 (h.used i f u v hf hs (hr.perm.mem_iff.2 hu) (hr.perm.mem_iff.2 hv))
  tip i f hf := by
    obtain ⟨v, h1, h2⟩ := h.tip i f hf
    exact ⟨v, h1, fun hv => h2 (hr.perm.mem_iff.2 hv)⟩
  count := by rw [← hr.perm.length_eq]; exact h.count
  corners := h.corners

theorem after_ok {α : Type} {r : Mesh × Outcome α} {m : Mesh} {a : α} (h : r = (m, .ok a)) : after r = .ok m := by rw [h]; rfl

theorem empty_ear (I : Input) : Ear I (Mesh.empty (I.nb - 2 + 2 * I.ni)) (ring I) := by
  have h0 : ∀ i, faceAt (Mesh.empty (I.nb - 2 + 2 * I.ni)) i = none := fun i => by unfold faceAt Mesh.empty; simp
  have hperm : (ring I).Perm (List.range I.nb) := by
    unfold ring
    split
    · exact List.reverse_perm _
    · exact List.Perm.refl _
  refine { reach := .empty _, live := ?_, cap := rfl, bnd := ?_, twin := ?_, nodup := hperm.nodup_iff.2 List.nodup_range, range := ?_, used := ?_,
           tip := ?_, count := ?_, corners := ?_ }
  · intro i hi; exact absurd hi (Nat.not_lt_zero i)
  · intro g hg; unfold meshSum; simp [Mesh.empty]
  · intro i j f g hf; rw [h0] at hf; cases hf
  · intro v hv; exact List.mem_range.1 (hperm.mem_iff.1 hv)
  · intro i f u v hf; rw [h0] at hf; cases hf
  · intro i f hf; rw [h0] at hf; cases hf
  · rw [hperm.length_eq, List.length_range]; exact Nat.zero_add _
  · intro i f v hf; rw [h0] at hf; cases hf

/-- A face on three successive vertices of the ring can be added. -/
theorem ear_add (hnb : 3 ≤ I.nb) {m : Mesh} {p c n : Nat} {r : List Nat} (h : Ear I m (p :: c :: n :: r)) :
    ∃ m', after (m.addFace (p, c, n)) = .ok m' ∧ Reachable m' ∧ (∀ i, faceAt m' i = if i = m.nf then some (p, c, n) else faceAt m i) ∧
      m'.nf = m.nf + 1 ∧ m'.cap = m.cap := by
  have hnd := h.nodup
  simp only [List.nodup_cons, List.mem_cons, not_or] at hnd
  obtain ⟨⟨hpc, hpn, hpr⟩, ⟨hcn, hcr⟩, hnr, hrr⟩ := hnd
  have hcount := h.count
  simp only [List.length_cons] at hcount
  have hND : Nondeg (p, c, n) := ⟨hpc, hcn, Ne.symm hpn⟩
  have m1 : p ∈ p :: c :: n :: r := by simp
  have m2 : c ∈ p :: c :: n :: r := by simp
  have m3 : n ∈ p :: c :: n :: r := by simp
  have e1 : (p, c) ∈ cyc (p :: c :: n :: r) := by rw [cyc_cons3]; simp
  have e2 : (c, n) ∈ cyc (p :: c :: n :: r) := by rw [cyc_cons3]; simp
  rcases addFace_core h.good (p, c, n) hND (by rw [h.cap]; omega) with ⟨-, m', g1, g2, g3, g4, g5⟩ | ⟨⟨fi, f, a, b, q1, q2, q3⟩, -⟩
  · exact ⟨m', after_ok g1, .addFace m m' _ _ h.reach hND g1, g3, g4, g5⟩
  · exfalso
    rcases q3 with ⟨rfl, rfl⟩ | ⟨rfl, rfl⟩ | ⟨rfl, rfl⟩ <;> dsimp only at q2
    · have := cyc_unique h.nodup (h.used fi f p c q1 q2 m1 m2) e2
      exact hpn this
    · have := h.used fi f c n q1 q2 m2 m3
      -- the predecessor of `c` is `p`
      rw [cyc_cons3] at this
      simp only [List.mem_cons, Prod.mk.injEq] at this
      rcases this with ⟨e, -⟩ | ⟨e, -⟩ | h'
      · exact hpn e.symm
      · exact hcn e.symm
      · have := List.of_mem_zip h'
        simp only [List.mem_append, List.mem_cons, List.not_mem_nil, or_false] at this
        rcases this.2 with h2 | h2
        · exact hcr h2
        · exact hpc h2.symm
    · have := cyc_unique h.nodup (h.used fi f n p q1 q2 m3 m1) e1
      exact hcn this.symm

theorem add_live {m m' : Mesh} {f : Face} (hl : ∀ i, i < m.nf → ∃ f, faceAt m i = some f) (g3 : ∀ i, faceAt m' i = if i = m.nf then some f else faceAt m i)
    (g4 : m'.nf = m.nf + 1) : ∀ i, i < m'.nf → ∃ f, faceAt m' i = some f := by
  intro i hi
  rw [g3]
  split
  · exact ⟨_, rfl⟩
  · exact hl i (by omega)

theorem add_twin {m m' : Mesh} {f : Face} (ht : NoTwins m) (g3 : ∀ i, faceAt m' i = if i = m.nf then some f else faceAt m i)
    (hf : ∀ i g, faceAt m i = some g → ∃ v, Corner g v ∧ ¬ Corner f v) : NoTwins m' := by
  intro i j f1 f2 h1 h2 he
  rw [g3] at h1 h2
  split at h1 <;> split at h2
  · omega
  · cases h1
    obtain ⟨v, c1, c2⟩ := hf j f2 h2
    exact absurd ((he v).2 c1) c2
  · cases h2
    obtain ⟨v, c1, c2⟩ := hf i f1 h1
    exact absurd ((he v).1 c1) c2
  · exact ht i j f1 f2 h1 h2 he

/-- Clipping an ear. -/
theorem ear_clip (hnb : 3 ≤ I.nb) {m : Mesh} {p c n : Nat} {r : List Nat} (h : Ear I m (p :: c :: n :: r)) :
    ∃ m', after (m.addFace (p, c, n)) = .ok m' ∧ Ear I m' (p :: n :: r) ∧
      (∀ i, faceAt m' i = if i = m.nf then some (p, c, n) else faceAt m i) ∧ m'.nf = m.nf + 1 := by
  obtain ⟨m', g1, g2, g3, g4, g5⟩ := ear_add hnb h
  have hnd := h.nodup
  simp only [List.nodup_cons, List.mem_cons, not_or] at hnd
  obtain ⟨⟨hpc, hpn, hpr⟩, ⟨hcn, hcr⟩, hnr, hrr⟩ := hnd
  have hsub : ∀ v, v ∈ p :: n :: r → v ∈ p :: c :: n :: r := by
    intro v hv
    simp only [List.mem_cons] at hv ⊢
    tauto
  have hc : c ∉ p :: n :: r := by
    simp only [List.mem_cons, not_or]
    exact ⟨Ne.symm hpc, hcn, hcr⟩
  have hcorner : ∀ v, Corner (p, c, n) v → v ∈ p :: c :: n :: r := by
    rintro v (rfl | rfl | rfl) <;> simp
  refine ⟨m', g1, { reach := g2, live := add_live h.live g3 g4, cap := g5.trans h.cap, bnd := ?_, twin := ?_, nodup := ?_,
                    range := fun v hv => h.range v (hsub v hv), used := ?_, tip := ?_, count := ?_, corners := ?_ }, g3, g4⟩
  · intro g hg
    have := h.bnd g hg
    rw [meshSum_add g4 g3]
    rw [← this]
    unfold cycSum
    rw [cyc_cons3, cyc_cons2]
    simp only [List.map_cons, List.sum_cons, tri]
    have := hg n p
    linarith
  · refine add_twin h.twin g3 ?_
    intro i g hg
    obtain ⟨v, c1, c2⟩ := h.tip i g hg
    exact ⟨v, c1, fun hv => c2 (hcorner v hv)⟩
  · simp only [List.nodup_cons, List.mem_cons, not_or]
    exact ⟨⟨hpn, hpr⟩, hnr, hrr⟩
  · intro i f u v hf hs hu hv
    rw [g3] at hf
    split at hf
    · cases hf
      rcases hs with ⟨rfl, rfl⟩ | ⟨rfl, rfl⟩ | ⟨rfl, rfl⟩
      · exact absurd hv hc
      · exact absurd hu hc
      · rw [cyc_cons2]; simp
    · have h1 := h.used i f u v hf hs (hsub u hu) (hsub v hv)
      rw [cyc_cons3] at h1
      rw [cyc_cons2]
      simp only [List.mem_cons, Prod.mk.injEq] at h1 ⊢
      rcases h1 with ⟨rfl, rfl⟩ | ⟨rfl, rfl⟩ | h1
      · exact absurd hu hc
      · exact absurd hv hc
      · exact Or.inr h1
  · intro i f hf
    rw [g3] at hf
    split at hf
    · cases hf
      exact ⟨c, Or.inr (Or.inl rfl), hc⟩
    · obtain ⟨v, c1, c2⟩ := h.tip i f hf
      exact ⟨v, c1, fun hv => c2 (hsub v hv)⟩
  · have := h.count
    simp only [List.length_cons] at this ⊢
    omega
  · intro i f v hf hv
    rw [g3] at hf
    split at hf
    · cases hf
      exact h.range v (hcorner v hv)
    · exact h.corners i f v hf hv

/-- The last triangle. -/
theorem ear_last (hnb : 3 ≤ I.nb) {m : Mesh} {p c n : Nat} (h : Ear I m [p, c, n]) :
    ∃ m', after (m.addFace (p, c, n)) = .ok m' ∧ Base I m' [] ∧ (∀ i, faceAt m' i = if i = m.nf then some (p, c, n) else faceAt m i) ∧
      m'.nf + 2 = I.nb ∧ ∀ i f v, faceAt m' i = some f → Corner f v → v < I.nb := by
  obtain ⟨m', g1, g2, g3, g4, g5⟩ := ear_add hnb h
  have hcorner : ∀ v, Corner (p, c, n) v → v ∈ [p, c, n] := by
    rintro v (rfl | rfl | rfl) <;> simp
  have hcount := h.count
  simp only [List.length_cons, List.length_nil] at hcount
  refine ⟨m', g1, ⟨g2, add_live h.live g3 g4, g5.trans h.cap, ?_, ?_⟩, g3, by omega, ?_⟩
  · intro g hg
    rw [meshSum_add g4 g3, ← h.bnd g hg]
    simp [cycSum, cyc, tri]
    ring
  · refine add_twin h.twin g3 ?_
    intro i g hg
    obtain ⟨v, c1, c2⟩ := h.tip i g hg
    exact ⟨v, c1, fun hv => c2 (hcorner v hv)⟩
  · intro i f v hf hv
    rw [g3] at hf
    split at hf
    · cases hf
      exact h.range v (hcorner v hv)
    · exact h.corners i f v hf hv

/-- The fan can always be added. -/
theorem fan_ok (hnb : 3 ≤ I.nb) (r0 : Nat) : ∀ (l : List Nat) (m : Mesh), Ear I m (r0 :: l) → ∃ m', fan r0 l m = .ok m' := by
  intro l
  induction l with
  | nil => intro m _; exact ⟨m, rfl⟩
  | cons a t ih =>
      intro m h
      cases t with
      | nil => exact ⟨m, rfl⟩
      | cons b t =>
          unfold fan
          cases t with
          | nil =>
              obtain ⟨m', g1, -⟩ := ear_last hnb h
              rw [g1]
              exact ⟨m', rfl⟩
          | cons x t =>
              obtain ⟨m', g1, g2, -⟩ := ear_clip hnb h
              rw [g1, Outcome.ok_bind]
              exact ih m' g2

/-- An edge of the polygon, or no edge between two corners that share a label. -/
def EdgeOk (I : Input) (u v : Nat) : Prop :=
  PolyEdge I.nb (I.area2 < 0) u v ∨ PolyEdge I.nb (I.area2 < 0) v u ∨ ¬ (u < I.nb ∧ v < I.nb ∧ ShareLabel I.labels u v)

theorem EdgeOk.symm {u v : Nat} (h : EdgeOk I u v) : EdgeOk I v u := by
  unfold EdgeOk at *
  rw [shareLabel_symm]
  tauto

/-- The labels are respected by the faces. -/
def FacesOk (I : Input) (m : Mesh) : Prop := ∀ i f u v, faceAt m i = some f → Side f u v → EdgeOk I u v

theorem mem_ring (u v : Nat) : (u, v) ∈ cyc (ring I) ↔ PolyEdge I.nb (I.area2 < 0) u v := by
  unfold ring PolyEdge
  split
  · rename_i h
    rw [(cyc_reverse _).mem_iff, List.mem_map]
    constructor
    · rintro ⟨⟨a, b⟩, h1, h2⟩
      cases h2
      exact Or.inr ⟨h, mem_cyc_range.1 h1⟩
    · rintro (⟨h', -⟩ | ⟨-, h1⟩)
      · exact absurd h h'
      · exact ⟨(v, u), mem_cyc_range.2 h1, rfl⟩
  · rename_i h
    rw [mem_cyc_range]
    constructor
    · intro h1; exact Or.inl ⟨h, h1⟩
    · rintro (⟨-, h1⟩ | ⟨h', -⟩)
      · exact h1
      · exact absurd h' h

/-- What makes the vertex number `i` of the ring an ear. -/
def EarAt (I : Input) (R : List Nat) (i : Nat) : Prop :=
  I.orient (prevOf R i) (curOf R i) (nextOf R i) > I.earTol ∧
    ¬ (prevOf R i < I.nb ∧ nextOf R i < I.nb ∧ ShareLabel I.labels (prevOf R i) (nextOf R i)) ∧
    ∀ v ∈ R, v = prevOf R i ∨ v = curOf R i ∨ v = nextOf R i ∨
      ¬ (I.orient (prevOf R i) (curOf R i) v ≥ 0 ∧ I.orient (curOf R i) (nextOf R i) v ≥ 0 ∧ I.orient (nextOf R i) (prevOf R i) v ≥ 0)

theorem isEar_spec (hl : LabelsOk I) (R : List Nat) (i : Nat) : ∃ b, isEar I R i = .ok b ∧ (b = true ↔ EarAt I R i) := by
  unfold isEar EarAt
  dsimp only
  by_cases h1 : I.orient (prevOf R i) (curOf R i) (nextOf R i) > I.earTol
  · rw [if_neg (not_not.2 h1)]
    obtain ⟨b, h2, h3⟩ := sharesEdge_spec hl (prevOf R i) (nextOf R i)
    rw [h2, Outcome.ok_bind]
    cases b with
    | true =>
        refine ⟨false, if_pos rfl, ?_⟩
        have := h3.1 rfl
        simp only [Bool.false_eq_true, false_iff]
        tauto
    | false =>
        refine ⟨_, if_neg (by simp), ?_⟩
        have h4 : ¬ (prevOf R i < I.nb ∧ nextOf R i < I.nb ∧ ShareLabel I.labels (prevOf R i) (nextOf R i)) := fun h => by
          have := h3.2 h; cases this
        rw [List.all_eq_true]
        constructor
        · intro h
          refine ⟨h1, h4, fun v hv => ?_⟩
          have := h v hv
          unfold inTriangle at this
          simp only [Bool.or_eq_true, decide_eq_true_iff, Bool.not_eq_true', decide_eq_false_iff_not] at this
          tauto
        · rintro ⟨-, -, h⟩ v hv
          have := h v hv
          unfold inTriangle
          simp only [Bool.or_eq_true, decide_eq_true_iff, Bool.not_eq_true', decide_eq_false_iff_not]
          tauto
  · rw [if_pos h1]
    refine ⟨false, rfl, ?_⟩
    simp only [Bool.false_eq_true, false_iff]
    exact fun h => h1 h.1

theorem findEar_spec (hl : LabelsOk I) (R : List Nat) : ∀ l : List Nat, ∃ o, findEar I R l = .ok o ∧
    (∀ i, o = some i → i ∈ l ∧ EarAt I R i) ∧ (o = none → ∀ i ∈ l, ¬ EarAt I R i) := by
  intro l
  induction l with
  | nil => exact ⟨none, rfl, (fun i h => by cases h), (fun _ i h => by cases h)⟩
  | cons i l ih =>
      obtain ⟨b, h1, h2⟩ := isEar_spec hl R i
      unfold findEar
      rw [h1, Outcome.ok_bind]
      cases b with
      | true =>
          refine ⟨some i, if_pos rfl, ?_, ?_⟩
          · intro j hj; cases hj; exact ⟨List.mem_cons_self, h2.1 rfl⟩
          · intro h; cases h
      | false =>
          obtain ⟨o, g1, g2, g3⟩ := ih
          refine ⟨o, by rw [if_neg (by simp)]; exact g1, ?_, ?_⟩
          · intro j hj; exact ⟨List.mem_cons_of_mem _ (g2 j hj).1, (g2 j hj).2⟩
          · intro h j hj
            rcases List.mem_cons.1 hj with rfl | hj
            · intro hE; have := h2.2 hE; cases this
            · exact g3 h j hj

theorem rot_eq {l l' : List Nat} (h : l ~r l') (hn : l.Nodup) (h1 : 1 < l.length) (e : l[1]? = l'[1]?) : l' = l := by
  obtain ⟨n, rfl⟩ := h
  rw [List.getElem?_eq_getElem h1, List.getElem?_eq_getElem (by rw [List.length_rotate]; exact h1), List.getElem_rotate, Option.some.injEq] at e
  have h2 := (List.Nodup.getElem_inj_iff hn).1 e
  have h3 : n % l.length = 0 := by
    rw [Nat.add_mod, Nat.mod_eq_of_lt h1] at h2
    have h4 := Nat.mod_lt n (show 0 < l.length by omega)
    by_cases h5 : 1 + n % l.length < l.length
    · rw [Nat.mod_eq_of_lt h5] at h2; omega
    · have h6 : 1 + n % l.length = l.length := by omega
      rw [h6, Nat.mod_self] at h2; omega
  rw [← List.rotate_mod, h3, List.rotate_zero]

/-- An ear at a position, and an ear in the ring turned there. -/
theorem earAt_iff {R : List Nat} (hn : R.Nodup) (hr : ∀ v ∈ R, v < I.nb) {i : Nat} {r : List Nat} (h : R ~r (prevOf R i :: curOf R i :: nextOf R i :: r)) :
    EarAt I R i ↔ IsEar I.orient I.earTol I.labels (prevOf R i) (curOf R i) (nextOf R i) r := by
  have hp := hr _ (h.mem_iff.2 List.mem_cons_self)
  have hq := hr (nextOf R i) (h.mem_iff.2 (by simp))
  have hn' := h.nodup_iff.1 hn
  unfold EarAt IsEar
  rw [gt_iff_lt]
  refine and_congr Iff.rfl (and_congr (by tauto) ?_)
  constructor
  · intro hh v hv
    have hmem := h.mem_iff.2 (List.mem_cons_of_mem _ (List.mem_cons_of_mem _ (List.mem_cons_of_mem _ hv)))
    rw [List.nodup_cons, List.nodup_cons, List.nodup_cons] at hn'
    obtain ⟨n1, n2, n3, -⟩ := hn'
    rcases hh v hmem with e | e | e | e
    · exact absurd (List.mem_cons_of_mem _ (List.mem_cons_of_mem _ hv)) (e ▸ n1)
    · exact absurd (List.mem_cons_of_mem _ hv) (e ▸ n2)
    · exact absurd hv (e ▸ n3)
    · by_contra hc
      rw [not_or, not_or, not_lt, not_lt, not_lt] at hc
      exact e hc
  · intro hh v hv
    rcases List.mem_cons.1 (h.mem_iff.1 hv) with e | hv
    · exact Or.inl e
    rcases List.mem_cons.1 hv with e | hv
    · exact Or.inr (Or.inl e)
    rcases List.mem_cons.1 hv with e | hv
    · exact Or.inr (Or.inr (Or.inl e))
    · refine Or.inr (Or.inr (Or.inr ?_))
      rintro ⟨h1, h2, h3⟩
      rcases hh v hv with h | h | h <;> linarith

/-- The loop of `ear_clip`. -/
theorem earLoop_spec (hnb : 3 ≤ I.nb) (hl : LabelsOk I) : ∀ (n : Nat) (R : List Nat) (m : Mesh), Ear I m R → R.length ≤ n → 3 ≤ R.length →
    FacesOk I m → (∀ u v, (u, v) ∈ cyc R → EdgeOk I u v) → (∀ i f, faceAt m i = some f → I.orient f.1 f.2.1 f.2.2 > I.earTol) →
    ∃ m' s fs, earLoop I n R m = .ok (m', s) ∧ EarClips I.orient I.earTol I.labels R s fs ∧ (s = true → Base I m' [] ∧ FacesOk I m' ∧ m'.nf + 2 = I.nb ∧
      (∀ i f v, faceAt m' i = some f → Corner f v → v < I.nb) ∧
      (∀ i f, faceAt m' i = some f → i + 1 < m'.nf → I.orient f.1 f.2.1 f.2.2 > I.earTol) ∧
      ∀ i, faceAt m' i = if i < m.nf then faceAt m i else fs[i - m.nf]?) := by
  intro n
  induction n with
  | zero => intro R m _ h1 h2; omega
  | succ n ih =>
      intro R m hE hlen h3 hF hR hC
      unfold earLoop
      by_cases h4 : 3 < R.length
      · rw [if_pos h4]
        obtain ⟨o, g1, g2, gs⟩ := findEar_spec hl R (List.range R.length)
        rw [g1, Outcome.ok_bind]
        cases o with
        | none =>
            dsimp only
            have : R = R.getD 0 0 :: R.tail := by
              cases R with
              | nil => simp at h3
              | cons a t => rfl
            obtain ⟨m', h5⟩ := fan_ok hnb (R.getD 0 0) R.tail m (this ▸ hE)
            rw [h5, Outcome.ok_bind]
            refine ⟨m', false, [], rfl, .stuck h4 ?_, fun h => by cases h⟩
            intro p c q r hrot hear
            obtain ⟨i, hi, hc⟩ := List.getElem_of_mem (hrot.mem_iff.2 (List.mem_cons_of_mem p (List.mem_cons_self (a := c) (l := q :: r))))
            obtain ⟨r', r1, -⟩ := ear_rot h3 hi
            have hcur : curOf R i = c := by unfold curOf; rw [List.getD_eq_getElem?_getD, List.getElem?_eq_getElem hi]; exact hc
            have heq : prevOf R i :: curOf R i :: nextOf R i :: r' = p :: c :: q :: r :=
              rot_eq (hrot.symm.trans r1) (hrot.nodup_iff.1 hE.nodup) (by simp) (by rw [hcur]; rfl)
            have hear' : EarAt I R i := (earAt_iff hE.nodup hE.range r1).2 (by
              injection heq with e1 e2
              injection e2 with e2 e3
              injection e3 with e3 e4
              rw [e1, e2, e3, e4]; exact hear)
            exact gs rfl i (List.mem_range.2 hi) hear'
        | some i =>
            dsimp only
            obtain ⟨hi, hAt⟩ := g2 i rfl
            rw [List.mem_range] at hi
            obtain ⟨r, r1, r2⟩ := ear_rot h3 hi
            have hear := (earAt_iff hE.nodup hE.range r1).1 hAt
            obtain ⟨e1, e2, -⟩ := hAt
            have hr0 : r ≠ [] := by
              rintro rfl
              have := r1.perm.length_eq
              simp only [List.length_cons, List.length_nil] at this
              omega
            obtain ⟨m', q1, q2, q3, q4⟩ := ear_clip hnb (hE.rot r1)
            rw [q1, Outcome.ok_bind]
            have hlen' : (R.eraseIdx i).length = R.length - 1 := List.length_eraseIdx_of_lt hi
            have hpc := hR (prevOf R i) (curOf R i) ((cyc_perm r1).mem_iff.2 (by rw [cyc_cons3]; simp))
            have hcn := hR (curOf R i) (nextOf R i) ((cyc_perm r1).mem_iff.2 (by rw [cyc_cons3]; simp))
            have hpn : EdgeOk I (prevOf R i) (nextOf R i) := Or.inr (Or.inr e2)
            suffices hih : FacesOk I m' ∧ (∀ u v, (u, v) ∈ cyc (R.eraseIdx i) → EdgeOk I u v) ∧ ∀ i f, faceAt m' i = some f → I.orient f.1 f.2.1 f.2.2 > I.earTol by
              obtain ⟨m2, s, fs, j1, j2, j3⟩ := ih (R.eraseIdx i) m' (q2.rot r2.symm) (by omega) (by omega) hih.1 hih.2.1 hih.2.2
              refine ⟨m2, s, _, j1, .clip hr0 r1 hear r2 j2, fun hs => ?_⟩
              obtain ⟨k1, k2, k3, k4, k5, k6⟩ := j3 hs
              refine ⟨k1, k2, k3, k4, k5, fun j => ?_⟩
              rw [k6 j, q3, q4]
              by_cases hj : j < m.nf
              · rw [if_pos (by omega), if_neg (by omega), if_pos hj]
              · by_cases hj' : j = m.nf
                · rw [if_pos (by omega), if_pos hj', if_neg hj, hj', Nat.sub_self]; rfl
                · rw [if_neg (by omega), if_neg hj, show j - m.nf = (j - (m.nf + 1)) + 1 by omega, List.getElem?_cons_succ]
            refine ⟨?_, ?_, ?_⟩
            · intro j f u v hf hs
              rw [q3] at hf
              split at hf
              · cases hf
                rcases hs with ⟨rfl, rfl⟩ | ⟨rfl, rfl⟩ | ⟨rfl, rfl⟩
                · exact hpc
                · exact hcn
                · exact hpn.symm
              · exact hF j f u v hf hs
            · intro u v huv
              have := (cyc_perm r2).mem_iff.1 huv
              rw [cyc_cons2] at this
              rcases List.mem_cons.1 this with e | h
              · cases e; exact hpn
              · refine hR u v ((cyc_perm r1).mem_iff.2 ?_)
                rw [cyc_cons3]
                exact List.mem_cons_of_mem _ (List.mem_cons_of_mem _ h)
            · intro j f hf
              rw [q3] at hf
              split at hf
              · cases hf; exact e1
              · exact hC j f hf
      · rw [if_neg h4]
        have h5 : R.length = 3 := by omega
        rw [if_pos h5]
        obtain ⟨p, c, n', rfl⟩ : ∃ p c n', R = [p, c, n'] := List.length_eq_three.1 h5
        obtain ⟨m', q1, q2, q3, q4, q5⟩ := ear_last hnb hE
        have : after (m.addFace ([p, c, n'].getD 0 0, [p, c, n'].getD 1 0, [p, c, n'].getD 2 0)) = .ok m' := q1
        rw [this, Outcome.ok_bind]
        refine ⟨m', true, _, rfl, .last p c n', fun _ => ⟨q2, ?_, q4, q5, ?_, ?_⟩⟩
        · intro j f u v hf hs
          rw [q3] at hf
          split at hf
          · cases hf
            refine hR u v ?_
            rcases hs with ⟨rfl, rfl⟩ | ⟨rfl, rfl⟩ | ⟨rfl, rfl⟩ <;> simp [cyc]
          · exact hF j f u v hf hs
        · intro j f hf hj
          have h6 := hE.count
          simp only [List.length_cons, List.length_nil] at h6
          rw [q3, if_neg (by omega)] at hf
          exact hC j f hf
        · intro j
          rw [q3]
          by_cases hj : j = m.nf
          · rw [if_pos hj, if_neg (by omega), hj, Nat.sub_self]; rfl
          · rw [if_neg hj]
            by_cases hlt : j < m.nf
            · rw [if_pos hlt]
            · rw [if_neg hlt, List.getElem?_eq_none (by simp only [List.length_cons, List.length_nil]; omega)]
              cases h : faceAt m j with
              | none => rfl
              | some f => exact absurd (faceAt_eq_some.1 h).1.1 hlt

theorem earClip_spec (hnb : 3 ≤ I.nb) (hl : LabelsOk I) :
    ∃ m s fs, earClip I (Mesh.empty (I.nb - 2 + 2 * I.ni)) = .ok (m, s) ∧ EarClips I.orient I.earTol I.labels (ring I) s fs ∧
      (s = true → Base I m [] ∧ FacesOk I m ∧ m.nf + 2 = I.nb ∧
      (∀ i f v, faceAt m i = some f → Corner f v → v < I.nb) ∧
      (∀ i f, faceAt m i = some f → i + 1 < m.nf → I.orient f.1 f.2.1 f.2.2 > I.earTol) ∧ ∀ i, faceAt m i = fs[i]?) := by
  have hE := empty_ear I
  have hlen : (ring I).length = I.nb := by have := hE.count; simpa [Mesh.empty] using this
  have h0 : ∀ i, faceAt (Mesh.empty (I.nb - 2 + 2 * I.ni)) i = none := fun i => by unfold faceAt Mesh.empty; simp
  obtain ⟨m, s, fs, e1, e2, e3⟩ := earLoop_spec hnb hl (I.nb + 1) (ring I) _ hE (by omega) (by omega)
    (by intro i f u v hf; rw [h0] at hf; cases hf) (by intro u v huv; exact Or.inl ((mem_ring u v).1 huv)) (by intro i f hf; rw [h0] at hf; cases hf)
  refine ⟨m, s, fs, e1, e2, fun hs => ?_⟩
  obtain ⟨k1, k2, k3, k4, k5, k6⟩ := e3 hs
  refine ⟨k1, k2, k3, k4, k5, fun i => ?_⟩
  rw [k6 i]
  simp [Mesh.empty]

end Verif.Triangulation
