import Verif.Lemmas.TriangulationLawson

/-! # Lemmas: the flips -/

namespace Verif.Triangulation

open Verif Verif.AbstractMesh Verif.Triangulation.Spec

variable {I : Input}

theorem Flp.fill {m m' : Mesh} {N : Nat} {S : Finset Nat} (h : Fill I m N S) {fi fj x y c d : Nat} {f g : Face} (F : Flp I m m' fi fj x y c d f g) :
    Fill I m' N S := by
  have hC := h.base.good.consistent
  obtain ⟨hij, hcd⟩ := h.base.apex_ne F.left F.right F.l1 F.l2 F.r1 F.r2
  obtain ⟨n1, n2, n3⟩ := nondeg_ne (hC.corners fi f F.left) F.l1 F.l2
  obtain ⟨k1, k2, k3⟩ := nondeg_ne (hC.corners fj g F.right) F.r1 F.r2
  have cf := corner_of_sides (hC.corners fi f F.left) F.l1 F.l2
  have cg := corner_of_sides (hC.corners fj g F.right) F.r1 F.r2
  have hcase : ∀ i f', faceAt m' i = some f' → (i = fi ∧ f' = (c, x, d)) ∨ (i = fj ∧ f' = (d, y, c)) ∨ (faceAt m i = some f') := by
    intro i f' hf
    rw [F.faces] at hf
    split at hf
    · rename_i e; cases hf; exact Or.inl ⟨e, rfl⟩
    · split at hf
      · rename_i e; cases hf; exact Or.inr (Or.inl ⟨e, rfl⟩)
      · exact Or.inr (Or.inr hf)
  have f0 : faceAt m' fi = some (c, x, d) := by rw [F.faces, if_pos rfl]
  have f1 : faceAt m' fj = some (d, y, c) := by rw [F.faces, if_neg (Ne.symm hij), if_pos rfl]
  have hold : ∀ i f, faceAt m i = some f → i ≠ fi → i ≠ fj → faceAt m' i = some f := by
    intro i f hf hi hj
    rw [F.faces, if_neg hi, if_neg hj]; exact hf
  -- no face of the old mesh has both `c` and `d`
  have hno : ∀ i f', faceAt m i = some f' → Corner f' c → Corner f' d → False := by
    intro i f' hf h1 h2
    exact F.fresh ⟨i, f', hf, h1, h2, hcd⟩
  refine ⟨⟨F.reach, ?_, F.cap.trans h.base.cap, ?_, ?_⟩, ?_, ?_, h.low, ?_, by rw [F.nf]; exact h.count, h.start⟩
  · intro i hi
    by_cases e : i = fi
    · exact ⟨_, e ▸ f0⟩
    by_cases e1 : i = fj
    · exact ⟨_, e1 ▸ f1⟩
    obtain ⟨f, hf⟩ := h.base.live i (by rw [← F.nf]; exact hi)
    exact ⟨f, hold i f hf e e1⟩
  · intro p hp
    rw [meshSum_flip ⟨f, F.left, tri_side (hC.corners fi f F.left) F.l1 F.l2⟩ ⟨g, F.right, tri_side (hC.corners fj g F.right) F.r1 F.r2⟩ hij F.nf F.faces p hp]
    exact h.base.bnd p hp
  · have d01 : ¬ ∀ v, Corner (c, x, d) v ↔ Corner (d, y, c) v := diff x (Or.inr (Or.inl rfl)) k2.symm n1.symm n3
    intro i j f' g' hf hg he
    rcases hcase i f' hf with ⟨e1, rfl⟩ | ⟨e1, rfl⟩ | o1 <;> rcases hcase j g' hg with ⟨e2, rfl⟩ | ⟨e2, rfl⟩ | p1
    · rw [e1, e2]
    · exact absurd he d01
    · exact (hno j g' p1 ((he c).1 (Or.inl rfl)) ((he d).1 (Or.inr (Or.inr rfl)))).elim
    · exact absurd (fun v => (he v).symm) d01
    · rw [e1, e2]
    · exact (hno j g' p1 ((he c).1 (Or.inr (Or.inr rfl))) ((he d).1 (Or.inl rfl))).elim
    · exact (hno i f' o1 ((he c).2 (Or.inl rfl)) ((he d).2 (Or.inr (Or.inr rfl)))).elim
    · exact (hno i f' o1 ((he c).2 (Or.inr (Or.inr rfl))) ((he d).2 (Or.inl rfl))).elim
    · exact h.base.twin i j f' g' o1 p1 he
  · intro i f' u v hf hs
    have hcd' : EdgeOk I c d := Or.inr (Or.inr F.label)
    rcases hcase i f' hf with ⟨-, rfl⟩ | ⟨-, rfl⟩ | o1
    · rcases hs with ⟨rfl, rfl⟩ | ⟨rfl, rfl⟩ | ⟨rfl, rfl⟩
      · exact h.labels fi _ _ _ F.left F.l3
      · exact h.labels fj _ _ _ F.right F.r2
      · exact hcd'.symm
    · rcases hs with ⟨rfl, rfl⟩ | ⟨rfl, rfl⟩ | ⟨rfl, rfl⟩
      · exact h.labels fj _ _ _ F.right F.r3
      · exact h.labels fi _ _ _ F.left F.l2
      · exact hcd'
    · exact h.labels i f' u v o1 hs
  · have hx := h.range fi _ x F.left ((cf x).2 (by simp))
    have hy := h.range fi _ y F.left ((cf y).2 (by simp))
    have hc := h.range fi _ c F.left ((cf c).2 (by simp))
    have hd := h.range fj _ d F.right ((cg d).2 (by simp))
    intro i f' v hf hv
    rcases hcase i f' hf with ⟨-, rfl⟩ | ⟨-, rfl⟩ | o1
    · rcases hv with rfl | rfl | rfl <;> assumption
    · rcases hv with rfl | rfl | rfl <;> assumption
    · exact h.range i f' v o1 hv
  · intro v hv
    rw [← h.mem v hv]
    constructor
    · rintro ⟨i, f', hf, hc⟩
      rcases hcase i f' hf with ⟨-, rfl⟩ | ⟨-, rfl⟩ | o1
      · rcases hc with rfl | rfl | rfl
        · exact ⟨fi, _, F.left, (cf _).2 (by simp)⟩
        · exact ⟨fi, _, F.left, (cf _).2 (by simp)⟩
        · exact ⟨fj, _, F.right, (cg _).2 (by simp)⟩
      · rcases hc with rfl | rfl | rfl
        · exact ⟨fj, _, F.right, (cg _).2 (by simp)⟩
        · exact ⟨fi, _, F.left, (cf _).2 (by simp)⟩
        · exact ⟨fi, _, F.left, (cf _).2 (by simp)⟩
      · exact ⟨i, f', o1, hc⟩
    · rintro ⟨i, f', hf, hc⟩
      by_cases e : i = fi
      · subst e
        rw [F.left] at hf; cases hf
        rcases (cf v).1 hc with rfl | rfl | rfl
        · exact ⟨_, _, f0, Or.inr (Or.inl rfl)⟩
        · exact ⟨_, _, f1, Or.inr (Or.inl rfl)⟩
        · exact ⟨_, _, f0, Or.inl rfl⟩
      by_cases e' : i = fj
      · subst e'
        rw [F.right] at hf; cases hf
        rcases (cg v).1 hc with rfl | rfl | rfl
        · exact ⟨_, _, f1, Or.inr (Or.inl rfl)⟩
        · exact ⟨_, _, f0, Or.inr (Or.inl rfl)⟩
        · exact ⟨_, _, f1, Or.inl rfl⟩
      · exact ⟨i, f', hold i f' hf e e', hc⟩

/-! ## All points -/

theorem insertAll_spec (hnb : 3 ≤ I.nb) {m0 : Mesh} : ∀ (k n : Nat) (m : Mesh) (S : Finset Nat), Fill I m (I.nb + n) S → n + k = I.ni →
    Run I m0 (I.nb + n) m →
    ∃ m' S', insertAll I ((List.range' n k).map (I.nb + ·)) m = .ok m' ∧ Fill I m' (I.nb + I.ni) S' ∧ Run I m0 (I.nb + I.ni) m' := by
  intro k
  induction k with
  | zero =>
      intro n m S h hk hR
      obtain rfl : n = I.ni := by omega
      exact ⟨m, S, rfl, h, hR⟩
  | succ k ih =>
      intro n m S h hk hR
      have hcard : S.card ≤ n := by
        have hsub : S ⊆ Finset.Ico I.nb (I.nb + n) := fun v hv => Finset.mem_Ico.2 (h.low v hv)
        have := Finset.card_le_card hsub
        rwa [Nat.card_Ico, Nat.add_sub_cancel_left] at this
      have hnew : NewVertex m (I.nb + n) := fun fi f hf hc => by
        have := h.range fi f _ hf hc; omega
      have hcap : m.nf + 2 ≤ m.cap := by
        have := h.count
        rw [h.base.cap]; omega
      obtain ⟨m', g1, g2⟩ := insertPoint_spec hnb h.base hnew hcap
      obtain ⟨S', g3, -⟩ := g2.fill h
      rw [List.range'_succ, List.map_cons]
      unfold insertAll
      rw [g1, Outcome.ok_bind]
      exact ih (n + 1) m' S' g3 (by omega) (hR.insert g2)

/-! ## Passes -/

theorem collect_spec {m : Mesh} (hr : Reachable m) : ∀ hs : List Nat, (∀ h ∈ hs, ∃ a b, IsHalfedge m h a b) →
    ∃ l, collect m hs = .ok l ∧ ∀ h, h ∈ l ↔ h ∈ hs ∧ m.from_ h < m.to_ h ∧ ∃ o, m.opp h = some o := by
  intro hs
  induction hs with
  | nil => intro _; exact ⟨[], rfl, fun h => by simp⟩
  | cons h hs ih =>
      intro hh
      obtain ⟨a, b, H⟩ := hh h List.mem_cons_self
      obtain ⟨l, e1, e2⟩ := ih fun x hx => hh x (List.mem_cons_of_mem _ hx)
      unfold collect
      rw [Thinner.opposite_eq H, Outcome.ok_bind, e1, Outcome.ok_bind]
      refine ⟨_, rfl, fun x => ?_⟩
      rw [List.mem_cons]
      split
      · rename_i hc
        rw [List.mem_cons, e2]
        constructor
        · rintro (rfl | h1)
          · exact ⟨Or.inl rfl, hc.1, Option.isSome_iff_exists.1 hc.2⟩
          · exact ⟨Or.inr h1.1, h1.2⟩
        · rintro ⟨rfl | h1, h2⟩
          · exact Or.inl rfl
          · exact Or.inr ⟨h1, h2⟩
      · rename_i hc
        rw [e2]
        constructor
        · rintro ⟨h1, h2⟩; exact ⟨Or.inr h1, h2⟩
        · rintro ⟨rfl | h1, h2⟩
          · exact absurd ⟨h2.1, Option.isSome_iff_exists.2 h2.2⟩ hc
          · exact ⟨h1, h2⟩

/-- Why an edge is left as it is. -/
def Settled (I : Input) (m : Mesh) (x y c d : Nat) : Prop :=
  PolyEdge I.nb (I.area2 < 0) x y ∨ PolyEdge I.nb (I.area2 < 0) y x ∨ (c < I.nb ∧ d < I.nb ∧ ShareLabel I.labels c d) ∨
    ¬ I.incircle x y c d > I.incircleTol ∨ ¬ (I.orient x d c > I.areaTol ∧ I.orient d y c > I.areaTol) ∨ Thinner.Spec.Adjacent (faceAt m) c d

theorem flip_flp {m : Mesh} {N : Nat} {S : Finset Nat} (h : Fill I m N S) {h0 o x y : Nat} (H : IsHalfedge m h0 x y) (O : IsHalfedge m o y x)
    (label : ¬ (m.apex h0 < I.nb ∧ m.apex o < I.nb ∧ ShareLabel I.labels (m.apex h0) (m.apex o)))
    (circle : I.incircle x y (m.apex h0) (m.apex o) > I.incircleTol)
    (area : I.orient x (m.apex o) (m.apex h0) > I.areaTol ∧ I.orient (m.apex o) y (m.apex h0) > I.areaTol)
    (fresh : ¬ Thinner.Spec.Adjacent (faceAt m) (m.apex h0) (m.apex o)) :
    ∃ m' f g, after (m.flip (min x y) (max x y)) = .ok m' ∧ Flp I m m' (h0 / 4) (o / 4) x y (m.apex h0) (m.apex o) f g := by
  obtain ⟨f, p1, p2, p3, p4⟩ := Smoother.he_sides h.base.reach H
  obtain ⟨g, q1, q2, q3, q4⟩ := Smoother.he_sides h.base.reach O
  obtain ⟨n1, n2⟩ := h.base.apex_ne p1 q1 p2 p3 q2 q3
  rcases Nat.le_total x y with hle | hle
  · rw [Nat.min_eq_left hle, Nat.max_eq_right hle]
    rcases flip_core h.base.good H O n2 with ⟨-, m', g1, g2, g3, g4, g5⟩ | ⟨⟨i, f', r1, r2⟩, -⟩
    · refine ⟨m', f, g, after_ok g1, ⟨p1, p2, p3, p4, q1, q2, q3, q4, label, circle, area, fresh, g3, g4, g5, ?_⟩⟩
      refine .flip m m' x y h.base.reach ?_ g1
      intro h1 h2 H1 H2
      obtain ⟨f', a1, a2, a3, -⟩ := Smoother.he_sides h.base.reach H1
      obtain ⟨g', b1, b2, b3, -⟩ := Smoother.he_sides h.base.reach H2
      exact (h.base.apex_ne a1 b1 a2 a3 b2 b3).2
    · exfalso
      rcases r2 with r2 | r2
      · obtain ⟨t1, t2⟩ := Thinner.side_corner r2
        exact fresh ⟨i, f', r1, t1, t2, n2⟩
      · obtain ⟨t1, t2⟩ := Thinner.side_corner r2
        exact fresh ⟨i, f', r1, t2, t1, n2⟩
  · rw [Nat.min_eq_right hle, Nat.max_eq_left hle]
    rcases flip_core h.base.good O H n2.symm with ⟨-, m', g1, g2, g3, g4, g5⟩ | ⟨⟨i, f', r1, r2⟩, -⟩
    · refine ⟨m', f, g, after_ok g1, ⟨p1, p2, p3, p4, q1, q2, q3, q4, label, circle, area, fresh, ?_, g4, g5, ?_⟩⟩
      · intro i
        rw [g3]
        by_cases e1 : i = o / 4
        · rw [if_pos e1, if_neg (by omega), if_pos e1]
        · rw [if_neg e1, if_neg e1]
      · refine .flip m m' y x h.base.reach ?_ g1
        intro h1 h2 H1 H2
        obtain ⟨f', a1, a2, a3, -⟩ := Smoother.he_sides h.base.reach H1
        obtain ⟨g', b1, b2, b3, -⟩ := Smoother.he_sides h.base.reach H2
        exact (h.base.apex_ne a1 b1 a2 a3 b2 b3).2
    · exfalso
      rcases r2 with r2 | r2
      · obtain ⟨t1, t2⟩ := Thinner.side_corner r2
        exact fresh ⟨i, f', r1, t2, t1, n2⟩
      · obtain ⟨t1, t2⟩ := Thinner.side_corner r2
        exact fresh ⟨i, f', r1, t1, t2, n2⟩

theorem lawsonStep_spec (hl : LabelsOk I) {s : Pass} {N : Nat} {S : Finset Nat} (h : Fill I s.mesh N S) {e : Nat} (he : e % 4 < 3)
    (hlt : e / 4 < s.mesh.nf) :
    ∃ s', lawsonStep I s e = .ok s' ∧ ((s' = s ∧ ∀ x y o, IsHalfedge s.mesh e x y → IsHalfedge s.mesh o y x → s.flipped (e / 4) = false →
        s.flipped (o / 4) = false → Settled I s.mesh x y (s.mesh.apex e) (s.mesh.apex o)) ∨
      (s'.changed = true ∧ ∃ fi fj x y c d f g, Flp I s.mesh s'.mesh fi fj x y c d f g)) := by
  obtain ⟨f, hf⟩ := h.base.live (e / 4) hlt
  have H : IsHalfedge s.mesh e (s.mesh.from_ e) (s.mesh.to_ e) := (isHalfedge_iff _ _ _ _).2 ⟨⟨(faceAt_eq_some.1 hf).1, he⟩, rfl, rfl⟩
  have huniq : ∀ x y, IsHalfedge s.mesh e x y → x = s.mesh.from_ e ∧ y = s.mesh.to_ e := by
    intro x y h'
    have := (isHalfedge_iff _ _ _ _).1 h'
    exact ⟨this.2.1.symm, this.2.2.symm⟩
  unfold lawsonStep
  generalize s.mesh.from_ e = x at H huniq ⊢
  generalize s.mesh.to_ e = y at H huniq ⊢
  dsimp only
  have hone : ∀ o o', IsHalfedge s.mesh o y x → IsHalfedge s.mesh o' y x → o = o' := by
    intro o o' h1 h2
    have e1 := (h.base.good.consistent.halfedgeOf y x o).2 h1
    have e2 := (h.base.good.consistent.halfedgeOf y x o').2 h2
    rw [e1] at e2
    exact Option.some.inj e2
  by_cases c1 : isConstraint I x y = true
  · rw [if_pos c1]
    refine ⟨s, rfl, Or.inl ⟨rfl, ?_⟩⟩
    intro x' y' o h1 h2 _ _
    obtain ⟨rfl, rfl⟩ := huniq x' y' h1
    rcases (isConstraint_iff _ _).1 c1 with c | c
    · exact Or.inl c
    · exact Or.inr (Or.inl c)
  rw [if_neg c1, Thinner.opposite_eq H, Outcome.ok_bind]
  cases ho : s.mesh.opp e with
  | none =>
      refine ⟨s, rfl, Or.inl ⟨rfl, ?_⟩⟩
      intro x' y' o h1 h2 _ _
      obtain ⟨rfl, rfl⟩ := huniq x' y' h1
      have := (Thinner.opp_iff h.base.reach h1).2 h2
      rw [ho] at this; cases this
  | some o =>
      have O := (Thinner.opp_iff h.base.reach H).1 ho
      dsimp only
      by_cases c2 : (s.flipped (e / 4) || s.flipped (o / 4)) = true
      · rw [if_pos c2]
        refine ⟨s, rfl, Or.inl ⟨rfl, ?_⟩⟩
        intro x' y' o' h1 h2 h3 h4
        obtain ⟨rfl, rfl⟩ := huniq x' y' h1
        obtain rfl := hone o o' O h2
        rw [h3, h4] at c2; cases c2
      rw [if_neg c2]
      obtain ⟨b, b1, b2⟩ := sharesEdge_spec hl (s.mesh.apex e) (s.mesh.apex o)
      rw [b1, Outcome.ok_bind]
      have hstay : Settled I s.mesh x y (s.mesh.apex e) (s.mesh.apex o) → ∃ s', Outcome.ok s = .ok s' ∧
          ((s' = s ∧ ∀ x y o, IsHalfedge s.mesh e x y → IsHalfedge s.mesh o y x → s.flipped (e / 4) = false →
            s.flipped (o / 4) = false → Settled I s.mesh x y (s.mesh.apex e) (s.mesh.apex o)) ∨
          (s'.changed = true ∧ ∃ fi fj x y c d f g, Flp I s.mesh s'.mesh fi fj x y c d f g)) := by
        intro hS
        refine ⟨s, rfl, Or.inl ⟨rfl, ?_⟩⟩
        intro x' y' o' h1 h2 _ _
        obtain ⟨rfl, rfl⟩ := huniq x' y' h1
        obtain rfl := hone o o' O h2
        exact hS
      cases b with
      | true =>
          rw [if_pos rfl]
          exact hstay (Or.inr (Or.inr (Or.inl (b2.1 rfl))))
      | false =>
          rw [if_neg (by simp)]
          have hlab : ¬ (s.mesh.apex e < I.nb ∧ s.mesh.apex o < I.nb ∧ ShareLabel I.labels (s.mesh.apex e) (s.mesh.apex o)) := fun hh => by
            have := b2.2 hh; cases this
          by_cases c3 : I.incircle x y (s.mesh.apex e) (s.mesh.apex o) > I.incircleTol
          · rw [if_neg (not_not.2 c3)]
            by_cases c4 : I.orient x (s.mesh.apex o) (s.mesh.apex e) > I.areaTol ∧ I.orient (s.mesh.apex o) y (s.mesh.apex e) > I.areaTol
            · rw [if_neg (not_not.2 c4)]
              by_cases c5 : Thinner.hasEdge s.mesh (s.mesh.apex e) (s.mesh.apex o) = true
              · rw [if_pos c5]
                exact hstay (Or.inr (Or.inr (Or.inr (Or.inr (Or.inr ((Thinner.hasEdge_iff h.base.reach).1 c5))))))
              · rw [if_neg c5]
                have fresh := fun hh => c5 ((Thinner.hasEdge_iff h.base.reach).2 hh)
                obtain ⟨m', f', g', r1, r2⟩ := flip_flp h H O hlab c3 c4 fresh
                rw [r1, Outcome.ok_bind]
                exact ⟨_, rfl, Or.inr ⟨rfl, _, _, _, _, _, _, _, _, r2⟩⟩
            · rw [if_pos c4]
              exact hstay (Or.inr (Or.inr (Or.inr (Or.inr (Or.inl c4)))))
          · rw [if_pos c3]
            exact hstay (Or.inr (Or.inr (Or.inr (Or.inl c3))))

theorem lawsonEdges_spec (hl : LabelsOk I) {m0 : Mesh} {N : Nat} : ∀ (hs : List Nat) (s : Pass) (S : Finset Nat), Fill I s.mesh N S →
    Run I m0 N s.mesh → (∀ e ∈ hs, e % 4 < 3 ∧ e / 4 < s.mesh.nf) →
    ∃ s', lawsonEdges I hs s = .ok s' ∧ Fill I s'.mesh N S ∧ Run I m0 N s'.mesh ∧ s'.mesh.nf = s.mesh.nf ∧ (s.changed = true → s'.changed = true) ∧
      (s'.changed = false → s' = s ∧ ∀ e ∈ hs, ∀ x y o, IsHalfedge s.mesh e x y → IsHalfedge s.mesh o y x → s.flipped (e / 4) = false →
        s.flipped (o / 4) = false → Settled I s.mesh x y (s.mesh.apex e) (s.mesh.apex o)) := by
  intro hs
  induction hs with
  | nil => intro s S h hR _; exact ⟨s, rfl, h, hR, rfl, id, fun _ => ⟨rfl, fun e he => by cases he⟩⟩
  | cons e hs ih =>
      intro s S h hR hh
      obtain ⟨he1, he2⟩ := hh e List.mem_cons_self
      obtain ⟨s1, g1, g2⟩ := lawsonStep_spec hl h he1 he2
      unfold lawsonEdges
      rw [g1, Outcome.ok_bind]
      rcases g2 with ⟨rfl, g2⟩ | ⟨gc, fi, fj, x, y, c, d, f, g, g2⟩
      · obtain ⟨s', q1, q2, q3, q4, q5, q6⟩ := ih s1 S h hR fun e he => hh e (List.mem_cons_of_mem _ he)
        refine ⟨s', q1, q2, q3, q4, q5, fun hc => ⟨(q6 hc).1, ?_⟩⟩
        intro e' he'
        rcases List.mem_cons.1 he' with rfl | he'
        · exact g2
        · exact (q6 hc).2 e' he'
      · obtain ⟨s', q1, q2, q3, q4, q5, q6⟩ := ih s1 S (g2.fill h) (hR.flip g2) fun e he => by
          rw [g2.nf]; exact hh e (List.mem_cons_of_mem _ he)
        refine ⟨s', q1, q2, q3, q4.trans g2.nf, fun _ => q5 gc, fun hc => ?_⟩
        rw [q5 gc] at hc; cases hc

theorem lawsonPass_spec (hl : LabelsOk I) {m0 m : Mesh} {N : Nat} {S : Finset Nat} (h : Fill I m N S) (hR : Run I m0 N m) :
    ∃ m' b, lawsonPass I m = .ok (m', b) ∧ Fill I m' N S ∧ Run I m0 N m' ∧ (b = false → m' = m ∧
      ∀ i j f g x y c d, faceAt m i = some f → faceAt m j = some g → Side f x y → Side f y c → Side g y x → Side g x d → x < y →
        Settled I m x y c d) := by
  have hmem : ∀ e ∈ m.halfedges, ∃ a b, IsHalfedge m e a b := fun e he => ((C35_halfedges h.base.reach).2 e).1 he
  obtain ⟨l, l1, l2⟩ := collect_spec h.base.reach m.halfedges hmem
  unfold lawsonPass
  rw [l1, Outcome.ok_bind]
  have hp : (l.mergeSort (before m)).Perm l := List.mergeSort_perm l _
  obtain ⟨s', q1, q2, q3, q4, q5, q6⟩ := lawsonEdges_spec hl (N := N) (m0 := m0) (l.mergeSort (before m)) ⟨m, fun _ => false, false⟩ S h hR (by
    intro e he
    obtain ⟨a, b, H⟩ := hmem e ((l2 e).1 (hp.mem_iff.1 he)).1
    obtain ⟨⟨⟨r1, -⟩, r2⟩, -⟩ := (isHalfedge_iff _ _ _ _).1 H
    exact ⟨r2, r1⟩)
  rw [q1, Outcome.ok_bind]
  refine ⟨s'.mesh, s'.changed, rfl, q2, q3, fun hc => ?_⟩
  obtain ⟨e1, e2⟩ := q6 hc
  refine ⟨by rw [e1], ?_⟩
  intro i j f g x y c d hf hg f1 f2 g1 g2 hxy
  obtain ⟨e, H, -⟩ := Thinner.side_he hf f1
  obtain ⟨o, O, -⟩ := Thinner.side_he hg g1
  have hft := (isHalfedge_iff _ _ _ _).1 H
  have hin : e ∈ l := by
    refine (l2 e).2 ⟨((C35_halfedges h.base.reach).2 e).2 ⟨x, y, H⟩, ?_, o, (Thinner.opp_iff h.base.reach H).2 O⟩
    rw [hft.2.1, hft.2.2]; exact hxy
  have := e2 e (hp.mem_iff.2 hin) x y o H O rfl rfl
  obtain ⟨f', p1, p2, p3, -⟩ := Smoother.he_sides h.base.reach H
  obtain ⟨g', q1, q2, q3, -⟩ := Smoother.he_sides h.base.reach O
  have hC := h.base.good.consistent
  have ef : e / 4 = i := hC.manifold _ _ _ _ x y p1 hf p2 f1
  have eg : o / 4 = j := hC.manifold _ _ _ _ y x q1 hg q2 g1
  rw [ef, hf] at p1; cases p1
  rw [eg, hg] at q1; cases q1
  have ec : c = m.apex e := Thinner.side_right (hC.corners _ _ hf) f2 p3
  have ed : d = m.apex o := Thinner.side_right (hC.corners _ _ hg) g2 q3
  rw [ec, ed]
  exact this

theorem lawson_spec (hl : LabelsOk I) {m0 : Mesh} {N : Nat} {S : Finset Nat} : ∀ (n : Nat) (m : Mesh), Fill I m N S → Run I m0 N m →
    ∃ m' b, lawson I n m = .ok (m', b) ∧ Fill I m' N S ∧ Run I m0 N m' ∧ (b = false →
      ∀ i j f g x y c d, faceAt m' i = some f → faceAt m' j = some g → Side f x y → Side f y c → Side g y x → Side g x d → x < y →
        Settled I m' x y c d) := by
  intro n
  induction n with
  | zero => intro m h hR; exact ⟨m, true, rfl, h, hR, fun h => by cases h⟩
  | succ n ih =>
      intro m h hR
      obtain ⟨m1, b, g1, g2, g3, g4⟩ := lawsonPass_spec hl h hR
      unfold lawson
      rw [g1, Outcome.ok_bind]
      dsimp only
      cases b with
      | true => rw [if_pos rfl]; exact ih m1 g2 g3
      | false =>
          rw [if_neg (by simp)]
          obtain ⟨rfl, g5⟩ := g4 rfl
          exact ⟨m1, false, rfl, g2, g3, fun _ => g5⟩

/-! ## The constructor -/

theorem build_spec (hnb : 3 ≤ I.nb) (hl : LabelsOk I) : ∃ r fs, build I = .ok r ∧ (r.simple = false → r.faces = []) ∧
    EarClips I.orient I.earTol I.labels (ring I) r.simple fs ∧
    (r.simple = true → ∃ m0 m S, (∀ i, faceAt m0 i = fs[i]?) ∧ r.faces = m.takeFaces ∧
      Fill I m0 I.nb ∅ ∧ Fill I m (I.nb + I.ni) S ∧ Run I m0 (I.nb + I.ni) m ∧
      (∀ i f, faceAt m0 i = some f → i + 1 < m0.nf → I.orient f.1 f.2.1 f.2.2 > I.earTol) ∧ (r.stable = true →
      ∀ i j f g x y c d, faceAt m i = some f → faceAt m j = some g → Side f x y → Side f y c → Side g y x → Side g x d → x < y →
        Settled I m x y c d)) := by
  obtain ⟨m0, s, fs, e1, ec, e2⟩ := earClip_spec hnb hl
  unfold build
  rw [if_neg (by omega), e1, Outcome.ok_bind]
  dsimp only
  cases s with
  | false => exact ⟨⟨[], false, false⟩, fs, rfl, fun _ => rfl, ec, fun h => by cases h⟩
  | true =>
      obtain ⟨b1, b2, b3, b4, b5, b6⟩ := e2 rfl
      rw [if_neg (by simp)]
      have hF : Fill I m0 (I.nb + 0) ∅ := by
        refine ⟨b1, b2, b4, fun v hv => by simp at hv, ?_, by simpa using b3, le_refl _⟩
        intro v hv
        constructor
        · rintro ⟨i, f, hf, hc⟩
          have := b4 i f v hf hc
          omega
        · intro h; simp at h
      obtain ⟨m1, S, i1, i2, i3⟩ := insertAll_spec hnb (m0 := m0) I.ni 0 m0 ∅ hF (by omega) .start
      obtain ⟨m, b, l1, l2, l3, l4⟩ := lawson_spec hl (10 + 3 * m1.nf) m1 i2 i3
      rw [List.range_eq_range', i1, Outcome.ok_bind]
      unfold makeDelaunay
      rw [l1, Outcome.ok_bind]
      refine ⟨⟨m.takeFaces, true, !b⟩, fs, rfl, (fun h => by cases h), ec, fun _ => ⟨m0, m, S, b6, rfl, hF, l2, l3, b5, fun hst => l4 ?_⟩⟩
      cases b with
      | true => cases hst
      | false => rfl

end Verif.Triangulation
