import Verif.Lemmas.TriangulationPlane

/-! # Lemmas: the list of the faces -/

namespace Verif.Triangulation

open Verif Verif.AbstractMesh Verif.Triangulation.Spec

variable {I : Input}

theorem takeFaces_get {m : Mesh} (hr : Reachable m) (hl : ∀ i, i < m.nf → ∃ f, faceAt m i = some f) (i : Nat) : m.takeFaces[i]? = faceAt m i := by
  rw [C35_take_faces hr]
  have : (List.range m.nf).filterMap (faceAt m) = (List.range m.nf).map m.face := by
    rw [← List.filterMap_eq_map]
    refine List.filterMap_congr fun j hj => ?_
    obtain ⟨f, hf⟩ := hl j (List.mem_range.1 hj)
    rw [hf]
    exact congrArg some (faceAt_eq_some.1 hf).2.symm
  rw [this]
  by_cases hi : i < m.nf
  · obtain ⟨f, hf⟩ := hl i hi
    rw [List.getElem?_map, List.getElem?_range hi, hf]
    exact congrArg some (faceAt_eq_some.1 hf).2
  · rw [List.getElem?_eq_none (by simpa using hi)]
    cases h : faceAt m i with
    | none => rfl
    | some f => exact absurd (faceAt_eq_some.1 h).1.1 hi

theorem takeFaces_length {m : Mesh} (hr : Reachable m) (hl : ∀ i, i < m.nf → ∃ f, faceAt m i = some f) : m.takeFaces.length = m.nf := by
  refine Nat.le_antisymm ?_ ?_
  · by_contra h
    have h1 := takeFaces_get hr hl m.nf
    rw [List.getElem?_eq_getElem (by omega)] at h1
    exact absurd (faceAt_eq_some.1 h1.symm).1.1 (Nat.lt_irrefl _)
  · by_contra h
    obtain ⟨f, hf⟩ := hl m.takeFaces.length (by omega)
    rw [← takeFaces_get hr hl, List.getElem?_eq_none (le_refl _)] at hf
    cases hf

theorem mem_faces {m : Mesh} (hr : Reachable m) (hl : ∀ i, i < m.nf → ∃ f, faceAt m i = some f) {f : Face} :
    f ∈ m.takeFaces ↔ ∃ i, faceAt m i = some f := by
  rw [List.mem_iff_getElem?]
  simp only [takeFaces_get hr hl]

theorem faces_sum {m : Mesh} (hr : Reachable m) (hl : ∀ i, i < m.nf → ∃ f, faceAt m i = some f) (g : Nat → Nat → ℝ) :
    (m.takeFaces.map (tri g)).sum = meshSum g m := by
  have key : ∀ l : List Face, (l.map (tri g)).sum = ∑ i ∈ Finset.range l.length, triO g l[i]? := by
    intro l
    induction l with
    | nil => simp
    | cons a l ih =>
        rw [List.map_cons, List.sum_cons, ih, List.length_cons, Finset.sum_range_succ']
        simp only [List.getElem?_cons_succ, List.getElem?_cons_zero, triO]
        ring
  rw [key, takeFaces_length hr hl]
  unfold meshSum
  exact Finset.sum_congr rfl fun i _ => by rw [takeFaces_get hr hl]

theorem Fill.triangulates {m : Mesh} {k : Nat} {S : Finset Nat} (hnb : 3 ≤ I.nb) (h : Fill I m (I.nb + k) S) :
    Triangulates I.nb k (I.area2 < 0) m.takeFaces := by
  have hr := h.base.reach
  have hl := h.base.live
  have hC := h.base.good.consistent
  have hu : ∀ u v, Uses m.takeFaces u v ↔ ∃ i f, faceAt m i = some f ∧ Side f u v := by
    intro u v
    unfold Uses
    simp only [mem_faces hr hl]
    constructor
    · rintro ⟨f, ⟨i, hf⟩, hs⟩; exact ⟨i, f, hf, hs⟩
    · rintro ⟨i, f, hf, hs⟩; exact ⟨f, ⟨i, hf⟩, hs⟩
  refine ⟨?_, ?_, ?_, ?_, ?_⟩
  · intro f hf
    obtain ⟨i, hi⟩ := (mem_faces hr hl).1 hf
    exact hC.corners i f hi
  · intro f hf v hv
    obtain ⟨i, hi⟩ := (mem_faces hr hl).1 hf
    exact h.range i f v hi hv
  · have : (fun i => m.takeFaces[i]?) = faceAt m := funext (takeFaces_get hr hl)
    rw [this]
    exact hC.manifold
  · intro i j f g hf hg
    rw [takeFaces_get hr hl] at hf hg
    exact h.base.twin i j f g hf hg
  · intro u v
    rw [hu, hu]
    exact h.base.boundary hnb u v

theorem corner_any {fs : List Face} {v : Nat} : (fs.any fun f => f.1 == v || f.2.1 == v || f.2.2 == v) = true ↔ ∃ f ∈ fs, Corner f v := by
  rw [List.any_eq_true]
  simp only [Bool.or_eq_true, beq_iff_eq, Corner]
  constructor
  · rintro ⟨f, hf, (h | h) | h⟩
    · exact ⟨f, hf, Or.inl h⟩
    · exact ⟨f, hf, Or.inr (Or.inl h)⟩
    · exact ⟨f, hf, Or.inr (Or.inr h)⟩
  · rintro ⟨f, hf, h | h | h⟩
    · exact ⟨f, hf, Or.inl (Or.inl h)⟩
    · exact ⟨f, hf, Or.inl (Or.inr h)⟩
    · exact ⟨f, hf, Or.inr h⟩

theorem Fill.used {m : Mesh} {k : Nat} {S : Finset Nat} (h : Fill I m (I.nb + k) S) :
    (usedPoints I.nb k m.takeFaces).length = S.card := by
  have hr := h.base.reach
  have hl := h.base.live
  have hnd : (usedPoints I.nb k m.takeFaces).Nodup := List.nodup_range.filter _
  rw [← List.toFinset_card_of_nodup hnd]
  refine Finset.card_bij (fun j _ => I.nb + j) ?_ ?_ ?_
  · intro j hj
    rw [List.mem_toFinset, usedPoints, List.mem_filter, corner_any] at hj
    obtain ⟨-, f, hf, hc⟩ := hj
    obtain ⟨i, hi⟩ := (mem_faces hr hl).1 hf
    exact (h.mem (I.nb + j) (by omega)).1 ⟨i, f, hi, hc⟩
  · intro a _ b _ hab; omega
  · intro v hv
    obtain ⟨h1, h2⟩ := h.low v hv
    refine ⟨v - I.nb, ?_, by omega⟩
    obtain ⟨i, f, hf, hc⟩ := (h.mem v h1).2 hv
    rw [List.mem_toFinset, usedPoints, List.mem_filter, corner_any, List.mem_range]
    refine ⟨by omega, f, (mem_faces hr hl).2 ⟨i, hf⟩, ?_⟩
    rw [show I.nb + (v - I.nb) = v by omega]
    exact hc

theorem Fill.count' {m : Mesh} {k : Nat} {S : Finset Nat} (h : Fill I m (I.nb + k) S) :
    m.takeFaces.length + 2 = I.nb + 2 * (usedPoints I.nb k m.takeFaces).length := by
  rw [h.used, takeFaces_length h.base.reach h.base.live, h.count]

theorem Fill.label {m : Mesh} {k : Nat} {S : Finset Nat} (h : Fill I m (I.nb + k) S) {u v : Nat} (hu : Uses m.takeFaces u v)
    (hn : u < I.nb) (hm : v < I.nb) (hs : ShareLabel I.labels u v) : PolyEdge I.nb (I.area2 < 0) u v ∨ PolyEdge I.nb (I.area2 < 0) v u := by
  obtain ⟨f, hf, hside⟩ := hu
  obtain ⟨i, hi⟩ := (mem_faces h.base.reach h.base.live).1 hf
  rcases h.labels i f u v hi hside with h1 | h1 | h1
  · exact Or.inl h1
  · exact Or.inr h1
  · exact absurd ⟨hn, hm, hs⟩ h1

/-- The sum over the boundary. -/
theorem Fill.sum {m : Mesh} {N : Nat} {S : Finset Nat} (h : Fill I m N S) (g : Nat → Nat → ℝ) (hg : ∀ u v, g u v = - g v u) :
    (m.takeFaces.map (tri g)).sum = (if I.area2 < 0 then -1 else 1) * ∑ i ∈ Finset.range I.nb, g i ((i + 1) % I.nb) := by
  rw [faces_sum h.base.reach h.base.live]
  have h1 := h.base.bnd g hg
  have h2 : cycSum g [] = 0 := by simp [cycSum, cyc]
  rw [h2, add_zero] at h1
  rw [h1]
  unfold ring
  split
  · rw [cycSum_reverse g hg, cycSum_range]; ring
  · rw [cycSum_range]; ring

/-! ## The points -/

/-- The vertex is left out ... -/
def Skip (I : Input) (v : Nat) (m : Mesh) : Prop :=
  (∀ i f, faceAt m i = some f → 0 < I.orient f.1 f.2.1 f.2.2 → min3 (bary I f v) < -1e-9) ∨
  ∃ fi a b c f la lb lc, faceAt m fi = some f ∧ 0 < I.orient f.1 f.2.1 f.2.2 ∧
      ((f = (a, b, c) ∧ bary I f v = (la, lb, lc)) ∨ (f = (b, c, a) ∧ bary I f v = (lb, lc, la)) ∨ (f = (c, a, b) ∧ bary I f v = (lc, la, lb))) ∧
      lc ≤ la ∧ lc ≤ lb ∧ -1e-9 ≤ lc ∧ lc ≤ 1e-9 ∧ (la < 1e-9 ∨ lb < 1e-9 ∨ PolyEdge I.nb (I.area2 < 0) a b)

/-- ... or taken. -/
def Take (I : Input) (v : Nat) (m : Mesh) : Prop :=
  (∃ fi f, faceAt m fi = some f ∧ 0 < I.orient f.1 f.2.1 f.2.2 ∧ 1e-9 < min3 (bary I f v)) ∨ ∃ a b, OnEdge I m v a b

theorem Ins.choice {m m' : Mesh} {N : Nat} {S : Finset Nat} (h : Fill I m N S) (hi : Ins I N m m') :
    ∃ S', Fill I m' (N + 1) S' ∧ ((S' = S ∧ Skip I N m) ∨ (S' = insert N S ∧ Take I N m)) := by
  obtain ⟨S', h1, h2⟩ := hi.fill h
  refine ⟨S', h1, ?_⟩
  have hNS : N ∉ S := fun hN => by have := (h.low N hN).2; omega
  have hcount := h1.count
  have hskip : m' = m → S' = S := by
    intro e
    rcases h2 with ⟨h2, -⟩ | h2
    · exact h2
    · rw [h2, Finset.card_insert_of_notMem hNS, e] at hcount
      have := h.count
      omega
  have htake : m'.nf = m.nf + 2 → S' = insert N S := by
    intro e
    rcases h2 with ⟨h2, e'⟩ | h2
    · rw [e'] at e; omega
    · exact h2
  cases hi with
  | outside e ho => exact Or.inl ⟨hskip e, Or.inl ho⟩
  | onCorner fi a b c f la lb lc e h1 h2 h3 h4 h5 h6 h7 h8 => exact Or.inl ⟨hskip e, Or.inr ⟨fi, a, b, c, f, la, lb, lc, h1, h2, h3, h4, h5, h6, h7, h8⟩⟩
  | inFace fi x y z hf h1 h2 hr hF hnf hcap => exact Or.inr ⟨htake hnf, Or.inl ⟨fi, _, hf, h1, h2⟩⟩
  | onEdge fi fj a b c d f g hf s1 s2 s3 hg t1 t2 t3 hij hcd hr hF hnf hcap hon =>
      refine Or.inr ⟨htake hnf, Or.inr ?_⟩
      rcases hon with hon | hon
      · exact ⟨a, b, hon⟩
      · exact ⟨b, a, hon⟩

theorem Run.points {m0 m : Mesh} {N : Nat} (h0 : Fill I m0 I.nb ∅) (h : Run I m0 N m) : ∃ S, Fill I m N S ∧ ∀ v, I.nb ≤ v → v < N →
    ∃ m1 S1, Fill I m1 v S1 ∧ ((v ∉ S ∧ Skip I v m1) ∨ (v ∈ S ∧ Take I v m1)) := by
  induction h with
  | start => exact ⟨∅, h0, fun v h1 h2 => by omega⟩
  | @insert N m m' hR hi ih =>
      obtain ⟨S, h1, h2⟩ := ih
      obtain ⟨S', h3, h4⟩ := hi.choice h1
      have hNS : N ∉ S := fun hN => by have := (h1.low N hN).2; omega
      refine ⟨S', h3, ?_⟩
      intro v hv hlt
      by_cases e : v = N
      · subst e
        refine ⟨m, S, h1, ?_⟩
        rcases h4 with ⟨rfl, h4⟩ | ⟨rfl, h4⟩
        · exact Or.inl ⟨hNS, h4⟩
        · exact Or.inr ⟨Finset.mem_insert_self _ _, h4⟩
      · obtain ⟨m1, S1, g1, g2⟩ := h2 v hv (by omega)
        refine ⟨m1, S1, g1, ?_⟩
        have : v ∈ S' ↔ v ∈ S := by
          rcases h4 with ⟨rfl, -⟩ | ⟨rfl, -⟩
          · rfl
          · rw [Finset.mem_insert]; exact ⟨fun h => h.resolve_left e, Or.inr⟩
        rw [this]; exact g2
  | flip hR hf ih =>
      obtain ⟨S, h1, h2⟩ := ih
      exact ⟨S, hf.fill h1, h2⟩

end Verif.Triangulation
