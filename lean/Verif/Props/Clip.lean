import Verif.Lemmas.ClipMesh

/-!
# C37: clipping a mesh to a box

`C37_defined`, `C37_in_box`, `C37_no_cracks` and `C37_outside_dropped` hold for every arithmetic (`Arith`) whose interpolation stays
between its arguments, `C37_region` and `C37_no_overlap` for the exact one.
-/

namespace Verif.Clip

open Verif Geometry

/-- A mesh whose faces refer to its vertices is clipped without undefined behaviour.  The result is a valid mesh, with no two vertices
at the same position and no vertex that belongs to no face. -/
theorem C37_defined (A : Arith) (m : Mesh) (lo hi : P3) (h : m.Valid) :
    ∃ out, clip A m lo hi = .ok out ∧ out.Valid ∧ out.vertices.Nodup ∧
      ∀ i < out.vertices.length, ∃ f ∈ out.faces, f.1 = i ∨ f.2.1 = i ∨ f.2.2 = i := by
  obtain ⟨ts, hts⟩ := valid_ok h
  refine ⟨assemble (clipAll A lo hi ts), clip_ok.2 ⟨ts, triangles_ok.1 hts, rfl⟩, ?_⟩
  generalize clipAll A lo hi ts = us
  refine ⟨?_, vm_nodup us, ?_⟩
  · intro f hf
    rw [assemble_faces] at hf
    obtain ⟨t, ht, rfl⟩ := List.mem_map.1 hf
    have key : ∀ {p : P3}, p ∈ rows t → ix us p < (assemble us).vertices.length := fun hp =>
      (List.getElem?_eq_some_iff.1 (ix_get ⟨t, ht, hp⟩)).1
    exact ⟨key (by simp [rows]), key (by simp [rows]), key (by simp [rows])⟩
  · intro i hi'
    have hi : i < (vertexMap us).length := hi'
    obtain ⟨t, ht, hp⟩ := vm_mem.1 (List.getElem_mem hi)
    refine ⟨_, (by rw [assemble_faces]; exact List.mem_map.2 ⟨t, ht, rfl⟩), ?_⟩
    have key : ∀ {p : P3}, p ∈ rows t → (vertexMap us)[i] = p → ix us p = i := by
      intro p hp e
      obtain ⟨hb, e2⟩ := List.getElem?_eq_some_iff.1 (ix_get ⟨t, ht, hp⟩)
      exact (List.Nodup.getElem_inj_iff (vm_nodup us)).1 (e2.trans e.symm)
    simp only [rows, List.mem_cons, List.not_mem_nil, or_false] at hp
    rcases hp with h | h | h
    · exact Or.inl (key (by simp [rows]) h)
    · exact Or.inr (Or.inl (key (by simp [rows]) h))
    · exact Or.inr (Or.inr (key (by simp [rows]) h))

/-- All vertices of the result are in the closed box. -/
theorem C37_in_box (A : Arith) (hA : A.Between) (m out : Mesh) (lo hi : P3) (h : clip A m lo hi = .ok out) : ∀ v ∈ out.vertices, InBox lo hi v := by
  obtain ⟨ts, -, rfl⟩ := clip_ok.1 h
  intro v hv
  have key : ∀ us : List Tri, v ∈ (assemble us).vertices → ∃ t ∈ us, v ∈ rows t := fun us h => vm_mem.1 h
  obtain ⟨t, ht, hv⟩ := key _ hv
  exact all_box hA ht hv

theorem inBox_convex {lo hi : P3} {t : Tri} (h : ∀ v ∈ rows t, InBox lo hi v) {x : P3} (hx : In x t) : InBox lo hi x := by
  have key : ∀ (g : P3 → ℝ), (∀ (r s u : ℝ) (a b c : P3), g (r • a + s • b + u • c) = r * g a + s * g b + u * g c) → ∀ l k : ℝ,
      (∀ v ∈ rows t, l ≤ g v ∧ g v ≤ k) → l ≤ g x ∧ g x ≤ k := by
    intro g hg l k hv
    obtain ⟨r, s, u, hr, hs, hu, hsum, hx⟩ := hx
    rw [hx, hg]
    obtain ⟨a1, a2⟩ := hv t.1 (by simp [rows])
    obtain ⟨b1, b2⟩ := hv t.2.1 (by simp [rows])
    obtain ⟨c1, c2⟩ := hv t.2.2 (by simp [rows])
    have e1 : r * l + s * l + u * l = l := by linear_combination l * hsum
    have e2 : r * k + s * k + u * k = k := by linear_combination k * hsum
    constructor
    · linarith [mul_le_mul_of_nonneg_left a1 hr, mul_le_mul_of_nonneg_left b1 hs, mul_le_mul_of_nonneg_left c1 hu]
    · linarith [mul_le_mul_of_nonneg_left a2 hr, mul_le_mul_of_nonneg_left b2 hs, mul_le_mul_of_nonneg_left c2 hu]
  exact ⟨key (fun p => p.1) (fun _ _ _ _ _ _ => rfl) _ _ fun v hv => (h v hv).1,
    key (fun p => p.2.1) (fun _ _ _ _ _ _ => rfl) _ _ fun v hv => (h v hv).2.1,
    key (fun p => p.2.2) (fun _ _ _ _ _ _ => rfl) _ _ fun v hv => (h v hv).2.2⟩

theorem forall₂_mem {α β : Type} {R : α → β → Prop} {l : List α} {l' : List β} (h : List.Forall₂ R l l') :
    (∀ x ∈ l, ∃ y ∈ l', R x y) ∧ ∀ y ∈ l', ∃ x ∈ l, R x y := by
  induction h with
  | nil => exact ⟨fun _ h => (by cases h), fun _ h => (by cases h)⟩
  | cons hab _ ih =>
    constructor
    · intro x hx
      rcases List.mem_cons.1 hx with rfl | hx
      · exact ⟨_, List.mem_cons_self, hab⟩
      · obtain ⟨y, hy, h⟩ := ih.1 x hx
        exact ⟨y, List.mem_cons_of_mem _ hy, h⟩
    · intro y hy
      rcases List.mem_cons.1 hy with rfl | hy
      · exact ⟨_, List.mem_cons_self, hab⟩
      · obtain ⟨x, hx, h⟩ := ih.2 y hy
        exact ⟨x, List.mem_cons_of_mem _ hx, h⟩

/-- In exact arithmetic, for a mesh without degenerate faces: the part of each face inside the box is kept, by parts of the face with
its orientation, and there is nothing else: every face of the result is a part of a face of the mesh, with its orientation, and is in
the box. -/
theorem C37_region (A : Arith) (hA : A.interp = exactInterp) (m out : Mesh) (lo hi : P3) (h : clip A m lo hi = .ok out)
    (hn : ∀ f ∈ m.faces, ∀ t, m.pos f = some t → normal t ≠ 0) :
    (∀ f ∈ m.faces, ∀ t, m.pos f = some t → ∀ x, Inside lo hi x → In x t →
      ∃ g ∈ out.faces, ∃ t', out.pos g = some t' ∧ Part t' t ∧ In x t') ∧
    (∀ g ∈ out.faces, ∃ t', out.pos g = some t' ∧ (∀ x, In x t' → InBox lo hi x) ∧
      ∃ f ∈ m.faces, ∃ t, m.pos f = some t ∧ Part t' t) := by
  obtain ⟨ts, hts, rfl⟩ := clip_ok.1 h
  have hm := forall₂_mem hts
  have ho := forall₂_mem (assemble_forall (clipAll A lo hi ts))
  constructor
  · intro f hf t ht x hx hxt
    obtain ⟨t0, ht0, e⟩ := hm.1 f hf
    rw [ht] at e
    obtain rfl := Option.some.inj e
    obtain ⟨g1, g2⟩ := fold_region hA (sides lo hi) t (fun _ h => mem_sides h) (hn f hf t ht)
    obtain ⟨t', ht', hx'⟩ := g2 x hxt (inside_iff.1 hx)
    have hmem : t' ∈ clipAll A lo hi ts := by
      rw [all_flatMap]
      exact List.mem_flatMap.2 ⟨t, ht0, ht'⟩
    obtain ⟨g, hg, e⟩ := ho.2 t' hmem
    exact ⟨g, hg, t', e, g1 t' ht', hx'⟩
  · intro g hg
    obtain ⟨t', ht', e⟩ := ho.1 g hg
    refine ⟨t', e, fun x hx => inBox_convex (fun v hv => all_box (exact_between hA) ht' hv) hx, ?_⟩
    rw [all_flatMap] at ht'
    obtain ⟨t, ht, ht'⟩ := List.mem_flatMap.1 ht'
    obtain ⟨f, hf, ef⟩ := hm.2 t ht
    exact ⟨f, hf, t, ef, (fold_region hA (sides lo hi) t (fun _ h => mem_sides h) (hn f hf t ef)).1 t' ht'⟩

/-- In exact arithmetic, no two faces of the result overlap if no two faces of the mesh do; in particular the parts of one face do not. -/
theorem C37_no_overlap (A : Arith) (hA : A.interp = exactInterp) (m out : Mesh) (lo hi : P3) (h : clip A m lo hi = .ok out)
    (hn : ∀ f ∈ m.faces, ∀ t, m.pos f = some t → normal t ≠ 0)
    (hp : m.faces.Pairwise fun f g => ∀ t u, m.pos f = some t → m.pos g = some u → Apart t u) :
    out.faces.Pairwise fun f g => ∀ t u, out.pos f = some t → out.pos g = some u → Apart t u := by
  have key : ∀ {m : Mesh} {fs : List Face} {ts : List Tri}, List.Forall₂ (fun f t => m.pos f = some t) fs ts →
      ((fs.Pairwise fun f g => ∀ t u, m.pos f = some t → m.pos g = some u → Apart t u) ↔ ts.Pairwise Apart) := by
    intro m fs ts hts
    induction hts with
    | nil => simp
    | cons hab hr ih =>
      rw [List.pairwise_cons, List.pairwise_cons, ih]
      refine and_congr_left fun _ => ?_
      constructor
      · intro h u hu
        obtain ⟨g, hg, e⟩ := (forall₂_mem hr).2 u hu
        exact h g hg _ _ hab e
      · intro h g hg t u ht hu
        rw [hab] at ht
        obtain rfl := Option.some.inj ht
        obtain ⟨u', hu', e⟩ := (forall₂_mem hr).1 g hg
        rw [hu] at e
        obtain rfl := Option.some.inj e
        exact h u hu'
  obtain ⟨ts, hts, rfl⟩ := clip_ok.1 h
  rw [key (assemble_forall _)]
  refine fold_apart hA (sides lo hi) ts (fun _ h => mem_sides h) ?_ ((key hts).1 hp)
  intro t ht
  obtain ⟨f, hf, e⟩ := (forall₂_mem hts).2 t ht
  exact hn f hf t e

/-- No cracks: if in the mesh every directed edge occurs as often as its reverse, except for edges on or beyond one side of the box, then
in the result every directed edge occurs as often as its reverse, except for edges on one side of the box. -/
theorem C37_no_cracks (A : Arith) (hA : A.Between) (m out : Mesh) (lo hi : P3) (h : clip A m lo hi = .ok out)
    (hm : ∀ i j p q, m.vertices[i]? = some p → m.vertices[j]? = some q → ¬Beyond lo hi p q →
      (m.faces.flatMap dirEdges).count (i, j) = (m.faces.flatMap dirEdges).count (j, i)) :
    ∀ i j p q, out.vertices[i]? = some p → out.vertices[j]? = some q → ¬OnSide lo hi p q →
      (out.faces.flatMap dirEdges).count (i, j) = (out.faces.flatMap dirEdges).count (j, i) := by
  have hbox := C37_in_box A hA m out lo hi h
  obtain ⟨ts, hts, rfl⟩ := clip_ok.1 h
  intro i j p q hi' hj hs
  have hb : ¬Beyond lo hi p q := fun hb => hs (onSide_of_beyond (hbox p (List.mem_of_getElem? hi')) (hbox q (List.mem_of_getElem? hj)) hb)
  rw [assemble_count hi' hj, assemble_count hj hi']
  have := fold_balanced hA (L := sides lo hi) (fun _ h => mem_sides h) (sides lo hi) ts (fun _ h => h) (mesh_balanced hts hm)
  exact balanced_count this fun hex => hb (beyond_iff.2 hex)

/-- Faces on or beyond one side of the box contribute nothing: not even those that lie in the side, though they are in the closed box. -/
theorem C37_outside_dropped (A : Arith) (hA : A.Between) (vs : List P3) (fs fs' : List Face) (f : Face) (t : Tri) (lo hi : P3)
    (ht : Mesh.pos ⟨vs, fs ++ f :: fs'⟩ f = some t)
    (hb : (hi.1 ≤ t.1.1 ∧ hi.1 ≤ t.2.1.1 ∧ hi.1 ≤ t.2.2.1) ∨ (t.1.1 ≤ lo.1 ∧ t.2.1.1 ≤ lo.1 ∧ t.2.2.1 ≤ lo.1) ∨
      (hi.2.1 ≤ t.1.2.1 ∧ hi.2.1 ≤ t.2.1.2.1 ∧ hi.2.1 ≤ t.2.2.2.1) ∨ (t.1.2.1 ≤ lo.2.1 ∧ t.2.1.2.1 ≤ lo.2.1 ∧ t.2.2.2.1 ≤ lo.2.1) ∨
      (hi.2.2 ≤ t.1.2.2 ∧ hi.2.2 ≤ t.2.1.2.2 ∧ hi.2.2 ≤ t.2.2.2.2) ∨ (t.1.2.2 ≤ lo.2.2 ∧ t.2.1.2.2 ≤ lo.2.2 ∧ t.2.2.2.2 ≤ lo.2.2)) :
    clip A ⟨vs, fs ++ f :: fs'⟩ lo hi = clip A ⟨vs, fs ++ fs'⟩ lo hi := by
  have hnil : clipAll A lo hi [t] = [] := by
    have : ∃ s ∈ sides lo hi, s.2 ≤ along s.1 t.1 ∧ s.2 ≤ along s.1 t.2.1 ∧ s.2 ≤ along s.1 t.2.2 := by
      have := forall_sides (lo := lo) (hi := hi) (P := fun m th => ¬(th ≤ along m t.1 ∧ th ≤ along m t.2.1 ∧ th ≤ along m t.2.2))
      by_contra hc
      have hc' : ∀ s ∈ sides lo hi, ¬(s.2 ≤ along s.1 t.1 ∧ s.2 ≤ along s.1 t.2.1 ∧ s.2 ≤ along s.1 t.2.2) := fun s hs h => hc ⟨s, hs, h⟩
      obtain ⟨c1, c2, c3, c4, c5, c6⟩ := this.1 hc'
      simp only [along, Mat.apply, dot, zero_mul, one_mul, neg_mul, zero_add, add_zero, neg_le_neg_iff] at c1 c2 c3 c4 c5 c6
      rcases hb with h | h | h | h | h | h
      · exact c1 h
      · exact c2 h
      · exact c3 h
      · exact c4 h
      · exact c5 h
      · exact c6 h
    obtain ⟨s, hs, h1, h2, h3⟩ := this
    refine fold_beyond hA (s := s) (sides lo hi) [t] (fun _ h => mem_sides h) hs ?_
    intro u hu v hv
    rw [List.mem_singleton] at hu
    subst hu
    simp only [rows, List.mem_cons, List.not_mem_nil, or_false] at hv
    rcases hv with rfl | rfl | rfl <;> assumption
  unfold clip
  rw [triangles_eq, triangles_eq]
  have hpos : ∀ a b : List Face, Mesh.pos ⟨vs, a⟩ = Mesh.pos ⟨vs, b⟩ := fun a b => rfl
  rw [hpos (fs ++ fs') (fs ++ f :: fs')]
  generalize Mesh.pos ⟨vs, fs ++ f :: fs'⟩ = pos at ht
  have key : ∀ (pre fs : List Face) (ts0 : List Tri),
      (Outcome.traverse (fun f => match pos f with | some t => Outcome.ok t | none => Outcome.ub) (fs ++ f :: fs') >>=
        fun ts => (Outcome.ok (assemble (clipAll A lo hi (ts0 ++ ts))) : Outcome Mesh)) =
      (Outcome.traverse (fun f => match pos f with | some t => Outcome.ok t | none => Outcome.ub) (fs ++ fs') >>=
        fun ts => Outcome.ok (assemble (clipAll A lo hi (ts0 ++ ts)))) := by
    intro pre fs
    induction fs with
    | nil =>
      intro ts0
      simp only [List.nil_append, Outcome.traverse, ht, Outcome.ok_bind]
      cases Outcome.traverse (fun f => match pos f with | some t => Outcome.ok t | none => Outcome.ub) fs' with
      | ok ts =>
        simp only [Outcome.ok_bind, Outcome.pure_eq]
        rw [all_flatMap, List.flatMap_append, List.flatMap_cons, hnil, List.nil_append, ← List.flatMap_append, ← all_flatMap]
      | throws e => rfl
      | ub => rfl
    | cons g fs ih =>
      intro ts0
      simp only [List.cons_append, Outcome.traverse]
      cases hg : pos g with
      | none => rfl
      | some u =>
        have := ih (ts0 ++ [u])
        simp only [Outcome.ok_bind]
        revert this
        cases Outcome.traverse (fun f => match pos f with | some t => Outcome.ok t | none => Outcome.ub) (fs ++ f :: fs') <;>
        cases Outcome.traverse (fun f => match pos f with | some t => Outcome.ok t | none => Outcome.ub) (fs ++ fs') <;>
        simp
  exact key [] fs []

/-! ## The hypotheses are met -/

/-- a tetrahedron -/
def tetra : Mesh := ⟨[(0, 0, 0), (2, 0, 0), (0, 2, 0), (0, 0, 2)], [(0, 2, 1), (0, 1, 3), (0, 3, 2), (1, 2, 3)]⟩

/-- exact arithmetic, always with the first diagonal -/
noncomputable def exactArith : Arith := ⟨exactInterp, fun _ _ _ => true⟩

example : tetra.Valid := by
  intro f hf
  simp only [tetra, List.mem_cons, List.not_mem_nil, or_false] at hf ⊢
  rcases hf with rfl | rfl | rfl | rfl <;> simp

example : exactArith.interp = exactInterp ∧ exactArith.Between := ⟨rfl, exact_between rfl⟩

/-- the tetrahedron is closed, whatever the box -/
example : ∀ i j, (tetra.faces.flatMap dirEdges).count (i, j) = (tetra.faces.flatMap dirEdges).count (j, i) := by
  intro i j
  have hlt : ∀ e ∈ tetra.faces.flatMap dirEdges, e.1 < 4 ∧ e.2 < 4 := by decide
  by_cases h : i < 4 ∧ j < 4
  · have key : ∀ i < 4, ∀ j < 4, (tetra.faces.flatMap dirEdges).count (i, j) = (tetra.faces.flatMap dirEdges).count (j, i) := by decide
    exact key i h.1 j h.2
  · rw [List.count_eq_zero_of_not_mem fun hm => h (hlt _ hm), List.count_eq_zero_of_not_mem fun hm => h (hlt _ hm).symm]

/-- none of its faces is degenerate -/
example : ∀ f ∈ tetra.faces, ∀ t, tetra.pos f = some t → normal t ≠ 0 := by
  intro f hf t ht
  simp only [tetra, List.mem_cons, List.not_mem_nil, or_false] at hf
  rcases hf with rfl | rfl | rfl | rfl <;> simp only [tetra, Mesh.pos, List.getElem?_cons_zero, List.getElem?_cons_succ, Option.some.injEq] at ht <;>
    subst ht <;> intro h <;> simp [normal] at h

/-- the box cuts its face `(1, 2, 3)`: that has points strictly inside and points outside -/
example : ∃ x y, tetra.pos (1, 2, 3) = some ((2, 0, 0), (0, 2, 0), (0, 0, 2)) ∧
    In x ((2, 0, 0), (0, 2, 0), (0, 0, 2)) ∧ Inside (-1, -1, -1) (1, 1, 1) x ∧
    In y ((2, 0, 0), (0, 2, 0), (0, 0, 2)) ∧ ¬InBox (-1, -1, -1) (1, 1, 1) y := by
  refine ⟨(2/3, 2/3, 2/3), (2, 0, 0), by simp [tetra, Mesh.pos], ⟨1/3, 1/3, 1/3, by norm_num, by norm_num, by norm_num, by norm_num, ?_⟩, ?_, in1 _ _ _, ?_⟩
  · refine Prod.ext ?_ (Prod.ext ?_ ?_) <;> simp <;> norm_num
  · unfold Inside; norm_num
  · unfold InBox; norm_num

/-- one face of it overlaps with no other -/
example : List.Pairwise (fun f g => ∀ t u, tetra.pos f = some t → tetra.pos g = some u → Apart t u) [((1, 2, 3) : Face)] := List.pairwise_singleton _ _

/-- its face `(0, 3, 2)` lies in a side of the box `[0, 1]³` -/
example : tetra.pos (0, 3, 2) = some ((0, 0, 0), (0, 0, 2), (0, 2, 0)) ∧ ((0 : ℝ) ≤ 0 ∧ (0 : ℝ) ≤ 0 ∧ (0 : ℝ) ≤ 0) := by simp [tetra, Mesh.pos]

end Verif.Clip
