import Verif.Lemmas.TriangulationEars

/-! # Lemmas: inserting points, and the edges of the polygon -/

namespace Verif.Triangulation

open Verif Verif.AbstractMesh Verif.Triangulation.Spec

variable {I : Input}

theorem cyc_nodup {l : List Nat} (h : l.Nodup) : (cyc l).Nodup := by
  refine List.Nodup.of_map Prod.fst ?_
  unfold cyc
  rw [List.map_fst_zip (by simp)]
  exact h

open Classical in
theorem sum_ind {u v : Nat} : ∀ {L : List (Nat × Nat)}, L.Nodup → (L.map fun e => ind u v e.1 e.2).sum =
    (if (u, v) ∈ L then 1 else 0) - (if (v, u) ∈ L then 1 else 0) := by
  have key : ∀ (u v : Nat) (L : List (Nat × Nat)), L.Nodup → (L.map fun e => if e.1 = u ∧ e.2 = v then (1 : ℝ) else 0).sum = if (u, v) ∈ L then 1 else 0 := by
    intro u v L
    induction L with
    | nil => intro _; simp
    | cons e t ih =>
        intro hnd
        rw [List.nodup_cons] at hnd
        rw [List.map_cons, List.sum_cons, ih hnd.2]
        by_cases he : e = (u, v)
        · subst he
          rw [if_pos ⟨rfl, rfl⟩, if_neg hnd.1, if_pos List.mem_cons_self]
          ring
        · rw [if_neg (fun h => he (Prod.ext h.1 h.2))]
          have : (u, v) ∈ e :: t ↔ (u, v) ∈ t := by
            rw [List.mem_cons]
            constructor
            · rintro (h | h)
              · exact absurd h.symm he
              · exact h
            · exact Or.inr
          simp only [this]
          ring
  intro L hL
  rw [← key u v L hL, ← key v u L hL]
  clear key hL
  induction L with
  | nil => simp
  | cons e t ih =>
      simp only [List.map_cons, List.sum_cons]
      rw [ih]
      unfold ind
      ring

theorem polyEdge_once (hnb : 3 ≤ I.nb) (r : Prop) {u v : Nat} : ¬ (PolyEdge I.nb r u v ∧ PolyEdge I.nb r v u) := by
  have hm : ∀ a, a < I.nb → (a + 1 < I.nb ∧ (a + 1) % I.nb = a + 1) ∨ (a + 1 = I.nb ∧ (a + 1) % I.nb = 0) := by
    intro a ha
    rcases Nat.lt_or_ge (a + 1) I.nb with h | h
    · exact Or.inl ⟨h, Nat.mod_eq_of_lt h⟩
    · have : a + 1 = I.nb := by omega
      exact Or.inr ⟨this, by rw [this, Nat.mod_self]⟩
  unfold PolyEdge
  rintro ⟨⟨n1, h1, h2⟩ | ⟨n1, h1, h2⟩, ⟨n2, h3, h4⟩ | ⟨n2, h3, h4⟩⟩
  · rcases hm u h1 with h5 | h5 <;> rcases hm v h3 with h6 | h6 <;> omega
  · exact absurd n2 n1
  · exact absurd n1 n2
  · rcases hm u h3 with h5 | h5 <;> rcases hm v h1 with h6 | h6 <;> omega

open Classical in
theorem meshSum_ind {m : Mesh} (hg : Good m) (u v : Nat) : meshSum (ind u v) m =
    (if ∃ i f, faceAt m i = some f ∧ Side f u v then 1 else 0) - (if ∃ i f, faceAt m i = some f ∧ Side f v u then 1 else 0) := by
  have key : ∀ u v, ∑ i ∈ Finset.range m.nf, (if ∃ f, faceAt m i = some f ∧ Side f u v then (1 : ℝ) else 0) =
      if ∃ i f, faceAt m i = some f ∧ Side f u v then 1 else 0 := by
    intro u v
    by_cases h : ∃ i f, faceAt m i = some f ∧ Side f u v
    · rw [if_pos h]
      obtain ⟨i, f, hf, hs⟩ := h
      rw [Finset.sum_eq_single i]
      · rw [if_pos ⟨f, hf, hs⟩]
      · intro j _ hj
        rw [if_neg]
        rintro ⟨g, h1, h2⟩
        exact hj (hg.consistent.manifold j i g f u v h1 hf h2 hs)
      · intro hn
        exact absurd (Finset.mem_range.2 (faceAt_eq_some.1 hf).1.1) hn
    · rw [if_neg h]
      refine Finset.sum_eq_zero fun i _ => if_neg fun ⟨f, hf⟩ => h ⟨i, f, hf⟩
  rw [← key u v, ← key v u, ← Finset.sum_sub_distrib]
  unfold meshSum
  refine Finset.sum_congr rfl fun i _ => ?_
  cases hf : faceAt m i with
  | none => simp [triO]
  | some f =>
      simp only [triO, Option.some.injEq, exists_eq_left']
      exact tri_ind (hg.consistent.corners i f hf) u v

theorem ring_nodup (I : Input) : (ring I).Nodup := (empty_ear I).nodup

/-- The edges with one face are those of the polygon. -/
theorem Base.boundary (hnb : 3 ≤ I.nb) {m : Mesh} (h : Base I m []) (u v : Nat) :
    ((∃ i f, faceAt m i = some f ∧ Side f u v) ∧ ¬ (∃ i f, faceAt m i = some f ∧ Side f v u)) ↔ PolyEdge I.nb (I.area2 < 0) u v := by
  classical
  have h1 := h.bnd (ind u v) (ind_anti u v)
  have h2 : cycSum (ind u v) [] = 0 := by simp [cycSum, cyc]
  rw [h2, add_zero, meshSum_ind h.good, cycSum, sum_ind (cyc_nodup (ring_nodup I))] at h1
  simp only [mem_ring] at h1
  have h3 := polyEdge_once hnb (I.area2 < 0) (u := u) (v := v)
  generalize (∃ i f, faceAt m i = some f ∧ Side f u v) = A at *
  generalize (∃ i f, faceAt m i = some f ∧ Side f v u) = B at *
  generalize PolyEdge I.nb (I.area2 < 0) u v = P at *
  generalize PolyEdge I.nb (I.area2 < 0) v u = Q at *
  by_cases a : A <;> by_cases b : B <;> by_cases p : P <;> by_cases q : Q <;> simp only [a, b, p, q, if_true, if_false] at h1 h3 ⊢ <;>
    first
      | (exfalso; norm_num at h1; done)
      | (exfalso; simp at h3; done)
      | (simp; done)

theorem Base.across (hnb : 3 ≤ I.nb) {m : Mesh} (h : Base I m []) {i u v : Nat} {f : Face} (hf : faceAt m i = some f) (hs : Side f u v)
    (hp : ¬ PolyEdge I.nb (I.area2 < 0) u v) : ∃ j g, faceAt m j = some g ∧ Side g v u := by
  by_contra hn
  exact hp ((h.boundary hnb u v).1 ⟨⟨i, f, hf, hs⟩, hn⟩)

theorem isConstraint_iff (u v : Nat) : isConstraint I u v = true ↔ PolyEdge I.nb (I.area2 < 0) u v ∨ PolyEdge I.nb (I.area2 < 0) v u := by
  unfold isConstraint PolyEdge
  rw [List.contains_iff_mem, List.mem_map]
  have hmm : ∀ a b : Nat, ((min a b, max a b) = (min u v, max u v)) ↔ (a = u ∧ b = v) ∨ (a = v ∧ b = u) := by
    intro a b
    rw [Prod.mk.injEq]
    omega
  simp only [List.mem_range, hmm]
  by_cases hr : I.area2 < 0
  · simp only [hr, not_true_eq_false, false_and, false_or, true_and]
    constructor
    · rintro ⟨a, h1, ⟨rfl, h3⟩ | ⟨rfl, h3⟩⟩
      · exact Or.inr ⟨h1, h3.symm⟩
      · exact Or.inl ⟨h1, h3.symm⟩
    · rintro (⟨h1, h2⟩ | ⟨h1, h2⟩)
      · exact ⟨v, h1, Or.inr ⟨rfl, h2.symm⟩⟩
      · exact ⟨u, h1, Or.inl ⟨rfl, h2.symm⟩⟩
  · simp only [hr, not_false_eq_true, false_and, or_false, true_and]
    constructor
    · rintro ⟨a, h1, ⟨rfl, h3⟩ | ⟨rfl, h3⟩⟩
      · exact Or.inl ⟨h1, h3.symm⟩
      · exact Or.inr ⟨h1, h3.symm⟩
    · rintro (⟨h1, h2⟩ | ⟨h1, h2⟩)
      · exact ⟨u, h1, Or.inl ⟨rfl, h2.symm⟩⟩
      · exact ⟨v, h1, Or.inr ⟨rfl, h2.symm⟩⟩

/-! ## Locating a point -/

/-- The three coordinates of `v` in a face. -/
noncomputable def bary (I : Input) (f : Face) (v : Nat) : ℝ × ℝ × ℝ :=
  (I.quot (I.orient v f.2.1 f.2.2) (I.orient f.1 f.2.1 f.2.2), I.quot (I.orient f.1 v f.2.2) (I.orient f.1 f.2.1 f.2.2),
    I.quot (I.orient f.1 f.2.1 v) (I.orient f.1 f.2.1 f.2.2))

/-- The smallest of three numbers. -/
noncomputable def min3 (l : ℝ × ℝ × ℝ) : ℝ := min (min l.1 l.2.1) l.2.2

theorem locate_spec (m : Mesh) (v : Nat) : ∀ n, (∀ b, (List.range n).foldl (locateStep I m v) none = some b →
      b.fi < n ∧ 0 < I.orient (m.face b.fi).1 (m.face b.fi).2.1 (m.face b.fi).2.2 ∧ b.l = bary I (m.face b.fi) v ∧ b.mn = min3 b.l) ∧
    ∀ i, i < n → 0 < I.orient (m.face i).1 (m.face i).2.1 (m.face i).2.2 →
      ∃ b, (List.range n).foldl (locateStep I m v) none = some b ∧ min3 (bary I (m.face i) v) ≤ b.mn := by
  intro n
  induction n with
  | zero =>
      refine ⟨fun b h => ?_, fun i hi => absurd hi (Nat.not_lt_zero i)⟩
      simp at h
  | succ n ih =>
      rw [List.range_succ, List.foldl_append, List.foldl_cons, List.foldl_nil]
      generalize (List.range n).foldl (locateStep I m v) none = o at ih ⊢
      obtain ⟨h1, h2⟩ := ih
      unfold locateStep
      dsimp only
      by_cases ha : I.orient (m.face n).1 (m.face n).2.1 (m.face n).2.2 > 0
      · rw [if_neg (not_not.2 ha)]
        cases o with
        | none =>
            dsimp only
            constructor
            · intro b hb
              cases hb
              exact ⟨Nat.lt_succ_self n, ha, rfl, rfl⟩
            · intro i hi hpos
              rcases Nat.lt_succ_iff_lt_or_eq.1 hi with h | rfl
              · obtain ⟨b, hb, -⟩ := h2 i h hpos
                cases hb
              · exact ⟨_, rfl, le_refl _⟩
        | some b0 =>
            dsimp only
            split
            · rename_i hgt
              constructor
              · intro b hb
                cases hb
                exact ⟨Nat.lt_succ_self n, ha, rfl, rfl⟩
              · intro i hi hpos
                rcases Nat.lt_succ_iff_lt_or_eq.1 hi with h | rfl
                · obtain ⟨b, hb, hle⟩ := h2 i h hpos
                  cases hb
                  exact ⟨_, rfl, hle.trans hgt.le⟩
                · exact ⟨_, rfl, le_refl _⟩
            · rename_i hle'
              constructor
              · intro b hb
                cases hb
                obtain ⟨q1, q2⟩ := h1 b0 rfl
                exact ⟨Nat.lt_succ_of_lt q1, q2⟩
              · intro i hi hpos
                rcases Nat.lt_succ_iff_lt_or_eq.1 hi with h | rfl
                · obtain ⟨b, hb, hle⟩ := h2 i h hpos
                  cases hb
                  exact ⟨_, rfl, hle⟩
                · exact ⟨_, rfl, not_lt.1 hle'⟩
      · rw [if_pos ha]
        constructor
        · intro b hb
          obtain ⟨q1, q2⟩ := h1 b hb
          exact ⟨Nat.lt_succ_of_lt q1, q2⟩
        · intro i hi hpos
          rcases Nat.lt_succ_iff_lt_or_eq.1 hi with h | rfl
          · exact h2 i h hpos
          · exact absurd hpos ha

/-- The vertex is in the tolerance of the edge from `a` to `b` of a face. -/
def OnEdge (I : Input) (m : Mesh) (v a b : Nat) : Prop :=
  ∃ fi c f la lb lc, faceAt m fi = some f ∧ 0 < I.orient f.1 f.2.1 f.2.2 ∧
    ((f = (a, b, c) ∧ bary I f v = (la, lb, lc)) ∨ (f = (b, c, a) ∧ bary I f v = (lb, lc, la)) ∨ (f = (c, a, b) ∧ bary I f v = (lc, la, lb))) ∧
    lc ≤ la ∧ lc ≤ lb ∧ -1e-9 ≤ lc ∧ lc ≤ 1e-9 ∧ 1e-9 ≤ la ∧ 1e-9 ≤ lb ∧ ¬ PolyEdge I.nb (I.area2 < 0) a b


/-- What happens to an interior point. -/
inductive Ins (I : Input) (v : Nat) (m m' : Mesh) : Prop
  /-- in no triangle -/
  | outside : m' = m → (∀ i f, faceAt m i = some f → 0 < I.orient f.1 f.2.1 f.2.2 → min3 (bary I f v) < -1e-9) → Ins I v m m'
  /-- on a corner or an edge of the polygon; `a b c` are the corners of the triangle, the coordinate at `c` is the smallest -/
  | onCorner (fi a b c : Nat) (f : Face) (la lb lc : ℝ) : m' = m → faceAt m fi = some f → 0 < I.orient f.1 f.2.1 f.2.2 →
      ((f = (a, b, c) ∧ bary I f v = (la, lb, lc)) ∨ (f = (b, c, a) ∧ bary I f v = (lb, lc, la)) ∨ (f = (c, a, b) ∧ bary I f v = (lc, la, lb))) →
      lc ≤ la → lc ≤ lb → -1e-9 ≤ lc → lc ≤ 1e-9 → (la < 1e-9 ∨ lb < 1e-9 ∨ PolyEdge I.nb (I.area2 < 0) a b) → Ins I v m m'
  /-- inside of a triangle -/
  | inFace (fi x y z : Nat) : faceAt m fi = some (x, y, z) → 0 < I.orient x y z → 1e-9 < min3 (bary I (x, y, z) v) → Reachable m' →
      (∀ i, faceAt m' i = if i = fi then some (x, y, v) else if i = m.nf then some (y, z, v) else if i = m.nf + 1 then some (z, x, v) else faceAt m i) →
      m'.nf = m.nf + 2 → m'.cap = m.cap → Ins I v m m'
  /-- on an edge -/
  | onEdge (fi fj a b c d : Nat) (f g : Face) : faceAt m fi = some f → Side f a b → Side f b c → Side f c a → faceAt m fj = some g → Side g b a →
      Side g a d → Side g d b → fi ≠ fj → c ≠ d → Reachable m' →
      (∀ i, faceAt m' i = if i = fi then some (a, v, c) else if i = m.nf then some (v, b, c) else
        if i = fj then some (b, v, d) else if i = m.nf + 1 then some (v, a, d) else faceAt m i) →
      m'.nf = m.nf + 2 → m'.cap = m.cap → OnEdge I m v a b ∨ OnEdge I m v b a → Ins I v m m'

theorem side_once {f : Face} (hf : Nondeg f) {a b : Nat} (h1 : Side f a b) (h2 : Side f b a) : False := by
  obtain ⟨p, q, r⟩ := f
  obtain ⟨n1, n2, n3⟩ := hf
  unfold Side at h1 h2
  dsimp only at *
  rcases h1 with h1 | h1 | h1 <;> rcases h2 with h2 | h2 | h2 <;> omega

theorem corner_of_sides {f : Face} (hf : Nondeg f) {a b c : Nat} (h1 : Side f a b) (h2 : Side f b c) (v : Nat) : Corner f v ↔ v = a ∨ v = b ∨ v = c := by
  obtain ⟨p, q, r⟩ := f
  obtain ⟨n1, n2, n3⟩ := hf
  unfold Side at h1 h2
  unfold Corner
  dsimp only at *
  rcases h1 with ⟨rfl, rfl⟩ | ⟨rfl, rfl⟩ | ⟨rfl, rfl⟩ <;> rcases h2 with ⟨e1, rfl⟩ | ⟨e1, rfl⟩ | ⟨e1, rfl⟩ <;> omega

theorem Base.apex_ne {m : Mesh} {R : List Nat} (h : Base I m R) {i j a b c d : Nat} {f g : Face} (hf : faceAt m i = some f) (hg : faceAt m j = some g)
    (f1 : Side f a b) (f2 : Side f b c) (g1 : Side g b a) (g2 : Side g a d) : i ≠ j ∧ c ≠ d := by
  have hC := h.good.consistent
  have nf := hC.corners i f hf
  have ng := hC.corners j g hg
  have hij : i ≠ j := by
    rintro rfl
    rw [hf] at hg; cases hg
    exact side_once nf f1 g1
  refine ⟨hij, ?_⟩
  rintro rfl
  refine hij (h.twin i j f g hf hg fun v => ?_)
  rw [corner_of_sides nf f1 f2, corner_of_sides ng g1 g2]
  tauto

theorem insertOnEdge_spec {m : Mesh} (h : Base I m []) {v i j a b : Nat} {f g : Face} (hf : faceAt m i = some f) (hg : faceAt m j = some g)
    (f1 : Side f a b) (g1 : Side g b a) (hv : NewVertex m v) (hcap : m.nf + 2 ≤ m.cap) (hon : OnEdge I m v a b ∨ OnEdge I m v b a) :
    ∃ m', after (m.insertOnEdge a b v) = .ok m' ∧ Ins I v m m' := by
  obtain ⟨h0, H0, e0⟩ := Thinner.side_he hf f1
  obtain ⟨h1, H1, e1⟩ := Thinner.side_he hg g1
  obtain ⟨f', p1, p2, p3, p4⟩ := Smoother.he_sides h.reach H0
  obtain ⟨g', q1, q2, q3, q4⟩ := Smoother.he_sides h.reach H1
  obtain ⟨n1, n2⟩ := h.apex_ne p1 q1 p2 p3 q2 q3
  rcases insertOnEdge_interior h.good H0 H1 hv hcap with ⟨-, m', r1, -, r3, r4, r5⟩ | ⟨r1, -⟩
  · exact ⟨m', after_ok r1, .onEdge (h0 / 4) (h1 / 4) a b (m.apex h0) (m.apex h1) f' g' p1 p2 p3 p4 q1 q2 q3 q4 n1 n2
      (.insertOnEdge m m' a b v h.reach hv r1) r3 r4 r5 hon⟩
  · exact absurd r1 n2

theorem insertPoint_spec (hnb : 3 ≤ I.nb) {m : Mesh} (h : Base I m []) {v : Nat} (hv : NewVertex m v) (hcap : m.nf + 2 ≤ m.cap) :
    ∃ m', insertPoint I m v = .ok m' ∧ Ins I v m m' := by
  obtain ⟨l1, l2⟩ := locate_spec (I := I) m v m.nf
  have hface : ∀ i f, faceAt m i = some f → i < m.nf ∧ m.face i = f := fun i f hf => ⟨(faceAt_eq_some.1 hf).1.1, (faceAt_eq_some.1 hf).2⟩
  unfold insertPoint
  change (∀ b, locate I m v = some b → _) at l1
  change (∀ i, i < m.nf → _ → ∃ b, locate I m v = some b ∧ _) at l2
  cases hloc : locate I m v with
  | none =>
      refine ⟨m, rfl, .outside rfl ?_⟩
      intro i f hf hpos
      obtain ⟨q1, q2⟩ := hface i f hf
      obtain ⟨b, hb, -⟩ := l2 i q1 (by rw [q2]; exact hpos)
      rw [hloc] at hb; cases hb
  | some b =>
      dsimp only
      obtain ⟨k1, k2, k3, k4⟩ := l1 b hloc
      obtain ⟨f, hf⟩ := h.live b.fi k1
      have hrow := (hface _ _ hf).2
      rw [hrow] at k2 k3 ⊢
      by_cases c1 : b.mn < -1e-9
      · rw [if_pos c1]
        refine ⟨m, rfl, .outside rfl ?_⟩
        intro i f hf hpos
        obtain ⟨q1, q2⟩ := hface i f hf
        obtain ⟨b', hb, hle⟩ := l2 i q1 (by rw [q2]; exact hpos)
        rw [hloc] at hb; cases hb
        rw [q2] at hle
        exact lt_of_le_of_lt hle c1
      rw [if_neg c1]
      by_cases c2 : b.mn > kOnEdge
      · rw [if_pos c2]
        obtain ⟨x, y, z⟩ := f
        obtain ⟨m', r1, -, r3, r4, r5⟩ := insertInFace_core h.good hf hv hcap
        refine ⟨m', after_ok r1, .inFace b.fi x y z hf k2 ?_ (.insertInFace m m' b.fi v _ h.reach hf hv r1) r3 r4 r5⟩
        rw [k4, k3] at c2
        exact c2
      rw [if_neg c2]
      -- the coordinates, the smallest last
      obtain ⟨a, e, c, la, lb, lc, t1, t2, t3, t4, t5, t6, t7⟩ : ∃ a e c la lb lc,
          ((f = (a, e, c) ∧ bary I f v = (la, lb, lc)) ∨ (f = (e, c, a) ∧ bary I f v = (lb, lc, la)) ∨ (f = (c, a, e) ∧ bary I f v = (lc, la, lb))) ∧
          lc ≤ la ∧ lc ≤ lb ∧ at3 b.l ((minIndex b.l + 1) % 3) = la ∧ at3 b.l ((minIndex b.l + 2) % 3) = lb ∧
          corner f ((minIndex b.l + 1) % 3) = a ∧ corner f ((minIndex b.l + 2) % 3) = e := by
        obtain ⟨x, y, z⟩ := f
        rw [k3]
        rcases hB : bary I (x, y, z) v with ⟨p, q, r⟩
        unfold minIndex
        dsimp only
        split
        · rename_i hm
          exact ⟨y, z, x, q, r, p, Or.inr (Or.inr ⟨rfl, rfl⟩), hm.1, hm.2, rfl, rfl, rfl, rfl⟩
        · rename_i hm
          split
          · rename_i hm'
            refine ⟨z, x, y, r, p, q, Or.inr (Or.inl ⟨rfl, rfl⟩), hm', ?_, rfl, rfl, rfl, rfl⟩
            by_contra hlt
            exact hm ⟨(not_le.1 hlt).le, (not_le.1 hlt).le.trans hm'⟩
          · rename_i hm'
            refine ⟨x, y, z, p, q, r, Or.inl ⟨rfl, rfl⟩, ?_, (not_le.1 hm').le, rfl, rfl, rfl, rfl⟩
            by_contra hlt
            exact hm ⟨(not_le.1 hlt).le.trans (not_le.1 hm').le, (not_le.1 hlt).le⟩
      have hmin : b.mn = lc := by
        rw [k4, k3]
        unfold min3
        rcases t1 with ⟨-, t1⟩ | ⟨-, t1⟩ | ⟨-, t1⟩ <;> rw [t1] <;> dsimp only
        · rw [min_eq_right (le_min t2 t3)]
        · rw [min_eq_right t3, min_eq_left t2]
        · rw [min_eq_left t2, min_eq_left t3]
      have hSide : Side f a e := by
        rcases t1 with ⟨rfl, -⟩ | ⟨rfl, -⟩ | ⟨rfl, -⟩ <;> unfold Side <;> simp
      rw [hmin] at c1 c2
      have c1' : -1e-9 ≤ lc := not_lt.1 c1
      have c2' : lc ≤ 1e-9 := not_lt.1 c2
      rw [t4, t5, t6, t7]
      by_cases c3 : la < kOnEdge ∨ lb < kOnEdge
      · rw [if_pos c3]
        exact ⟨m, rfl, .onCorner b.fi a e c f la lb lc rfl hf k2 t1 t2 t3 c1' c2' (c3.imp id Or.inl)⟩
      rw [if_neg c3]
      by_cases c4 : isConstraint I a e = true
      · rw [if_pos c4]
        refine ⟨m, rfl, .onCorner b.fi a e c f la lb lc rfl hf k2 t1 t2 t3 c1' c2' (Or.inr (Or.inr ?_))⟩
        rcases (isConstraint_iff a e).1 c4 with c4 | c4
        · exact c4
        · exact absurd ⟨b.fi, f, hf, hSide⟩ ((h.boundary hnb e a).2 c4).2
      rw [if_neg c4]
      have c5 : ¬ PolyEdge I.nb (I.area2 < 0) a e := fun c5 => c4 ((isConstraint_iff a e).2 (Or.inl c5))
      obtain ⟨j, g, hg, gs⟩ := h.across hnb hf hSide c5
      have hon : OnEdge I m v a e :=
        ⟨b.fi, c, f, la, lb, lc, hf, k2, t1, t2, t3, c1', c2', not_lt.1 fun hh => c3 (Or.inl hh), not_lt.1 fun hh => c3 (Or.inr hh), c5⟩
      rcases Nat.le_total a e with hle | hle
      · rw [Nat.min_eq_left hle, Nat.max_eq_right hle]
        exact insertOnEdge_spec h hf hg hSide gs hv hcap (Or.inl hon)
      · rw [Nat.min_eq_right hle, Nat.max_eq_left hle]
        exact insertOnEdge_spec h hg hf gs hSide hv hcap (Or.inr hon)

end Verif.Triangulation
