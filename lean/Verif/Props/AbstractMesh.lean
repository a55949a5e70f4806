import Verif.Lemmas.AbstractMeshEdit

/-!
# C35: the mesh used for editing stays a consistent oriented manifold
-/

namespace Verif.AbstractMesh

open Verif

/-- Every history of successful edits.  The demands are those of the comments in the code: faces have three different corners, an edge
that is flipped has two faces, not on the same triangle, an inserted vertex is new, and a collapsed halfedge exists. -/
inductive Reachable : Mesh → Prop
  | construct (fs : List Face) (m : Mesh) : (∀ f ∈ fs, Nondeg f) → Mesh.ofFaces fs = .ok m → Reachable m
  | empty (cap : Nat) : Reachable (Mesh.empty cap)
  | addFace (m m' : Mesh) (f : Face) (i : Nat) : Reachable m → Nondeg f → m.addFace f = (m', .ok i) → Reachable m'
  | flip (m m' : Mesh) (a b : Nat) : Reachable m →
      (∀ h0 h1, IsHalfedge m h0 a b → IsHalfedge m h1 b a → m.apex h0 ≠ m.apex h1) → m.flip a b = (m', .ok ()) → Reachable m'
  | insertInFace (m m' : Mesh) (fi v : Nat) (f : Face) : Reachable m → faceAt m fi = some f → NewVertex m v →
      m.insertInFace fi v = (m', .ok ()) → Reachable m'
  | insertOnEdge (m m' : Mesh) (a b v : Nat) : Reachable m → NewVertex m v → m.insertOnEdge a b v = (m', .ok ()) → Reachable m'
  | collapse (m m' : Mesh) (h v w : Nat) (l : List Nat) : Reachable m → IsHalfedge m h v w → m.collapse h = (m', .ok l) → Reachable m'

theorem registerFace_same (m : Mesh) (fi : Nat) : Same m (m.registerFace fi).1 := by
  have s0 := registerEdge_same fi m 0
  have s1 := registerEdge_same fi (m.registerEdge fi 0).1 1
  have s2 := registerEdge_same fi ((m.registerEdge fi 0).1.registerEdge fi 1).1 2
  unfold Mesh.registerFace
  dsimp only
  split
  · exact s0
  · split
    · exact s0.trans s1
    · split
      · exact (s0.trans s1).trans s2
      · exact ((s0.trans s1).trans s2).trans (push3_same fi _)

theorem setFace_size (m : Mesh) (fi : Nat) (f : Face) : (m.setFace fi f).1.nf = m.nf ∧ (m.setFace fi f).1.cap = m.cap := by
  have h := registerFace_same ((m.unregisterFace fi).setRow fi f) fi
  exact ⟨h.nf.trans rfl, h.cap.trans rfl⟩

/-- The mesh after the row is written, before the face is registered. -/
def appended (m : Mesh) (f : Face) : Mesh :=
  { m with nf := m.nf + 1, face := upd m.face m.nf f, deleted := upd m.deleted m.nf false,
           opp := fun h => if h < 4 * m.nf then m.opp h else none }

theorem addFace_eq (m : Mesh) (f : Face) (h : m.nf < m.cap) : m.addFace f = (match (appended m f).registerFace m.nf with
    | (m', .ok ()) => (m', .ok m.nf)
    | (m', .throws e) => (m', .throws e)
    | (m', .ub) => (m', .ub)) := by
  unfold Mesh.addFace
  rw [if_pos h]
  rfl

theorem addFace_fst (m : Mesh) (f : Face) (h : m.nf < m.cap) : (m.addFace f).1 = ((appended m f).registerFace m.nf).1 := by
  rw [addFace_eq m f h]
  rcases (appended m f).registerFace m.nf with ⟨m', _ | _ | _⟩ <;> rfl

theorem addFace_size {m m' : Mesh} {f : Face} {i : Nat} (h : m.addFace f = (m', .ok i)) :
    m.nf < m.cap ∧ m'.nf = m.nf + 1 ∧ m'.cap = m.cap := by
  by_cases hc : m.nf < m.cap
  · have hs := registerFace_same (appended m f) m.nf
    have := addFace_fst m f hc
    rw [h] at this
    dsimp only at this
    rw [← this] at hs
    exact ⟨hc, hs.nf, hs.cap⟩
  · unfold Mesh.addFace at h
    rw [if_neg hc] at h
    cases h

theorem insertInFace_cap {m m' : Mesh} {fi v : Nat} (h : m.insertInFace fi v = (m', .ok ())) : m.nf + 2 ≤ m.cap := by
  unfold Mesh.insertInFace at h
  dsimp only at h
  have hs := setFace_size m fi ((m.face fi).1, (m.face fi).2.1, v)
  rcases e1 : m.setFace fi ((m.face fi).1, (m.face fi).2.1, v) with ⟨m1, _ | _ | _⟩ <;> rw [e1] at h hs <;> dsimp only at h hs
  · rcases e2 : m1.addFace ((m.face fi).2.1, (m.face fi).2.2, v) with ⟨m2, _ | _ | _⟩ <;> rw [e2] at h <;> dsimp only at h
    · have h2 := addFace_size e2
      rcases e3 : m2.addFace ((m.face fi).2.2, (m.face fi).1, v) with ⟨m3, _ | _ | _⟩ <;> rw [e3] at h <;> dsimp only at h
      · have h3 := addFace_size e3
        omega
      · cases h
      · cases h
    · cases h
    · cases h
  · cases h
  · cases h

theorem splitSide_cap {m m' : Mesh} {a b v fi : Nat} (h : m.splitSide a b v fi = (m', .ok ())) :
    m.nf < m.cap ∧ m'.nf = m.nf + 1 ∧ m'.cap = m.cap := by
  unfold Mesh.splitSide at h
  dsimp only at h
  generalize corner (m.face fi) (Mesh.sideOn (m.face fi) a b) = p at h
  generalize corner (m.face fi) ((Mesh.sideOn (m.face fi) a b + 1) % 3) = q at h
  generalize corner (m.face fi) ((Mesh.sideOn (m.face fi) a b + 2) % 3) = r at h
  have hs := setFace_size m fi (p, v, r)
  rcases e1 : m.setFace fi (p, v, r) with ⟨m1, _ | _ | _⟩ <;> rw [e1] at h hs <;> dsimp only at h hs
  · rcases e2 : m1.addFace (v, q, r) with ⟨m2, _ | _ | _⟩ <;> rw [e2] at h <;> dsimp only at h
    · have h2 := addFace_size e2
      cases h
      omega
    · cases h
    · cases h
  · cases h
  · cases h

theorem splitSides_cap {a b v : Nat} : ∀ {l : List Nat} {m m' : Mesh}, Mesh.splitSides a b v l m = (m', .ok ()) → l.length ≤ m.cap - m.nf := by
  intro l
  induction l with
  | nil => intros; simp
  | cons fi l ih =>
      intro m m' h
      unfold Mesh.splitSides at h
      rcases e1 : m.splitSide a b v fi with ⟨m1, _ | _ | _⟩ <;> rw [e1] at h <;> dsimp only at h
      · have h1 := splitSide_cap e1
        have h2 := ih h
        rw [List.length_cons]
        omega
      · cases h
      · cases h

theorem Reachable.good {m : Mesh} (h : Reachable m) : Good m := by
  induction h with
  | construct fs m hf hm =>
      rcases construct_core fs hf with ⟨-, m', h1, h2, -⟩ | ⟨-, h1⟩
      · rw [h1] at hm; cases hm; exact h2
      · rw [h1] at hm; cases hm
  | empty cap => exact empty_good cap
  | addFace m m' f i _ hf hm ih =>
      rcases addFace_core ih f hf (addFace_size hm).1 with ⟨-, m'', h1, h2, -⟩ | ⟨-, h1⟩
      · rw [h1] at hm; cases hm; exact h2
      · rw [hm] at h1; cases h1
  | flip m m' a b _ hab hm ih =>
      unfold Mesh.flip at hm
      cases e0 : m.halfedgeOf a b with
      | none => rw [e0] at hm; cases hm
      | some h0 =>
          cases e1 : m.halfedgeOf b a with
          | none => rw [e0, e1] at hm; cases hm
          | some h1 =>
              have H0 := (ih.consistent.halfedgeOf a b h0).1 e0
              have H1 := (ih.consistent.halfedgeOf b a h1).1 e1
              have hm' : m.flip a b = (m', .ok ()) := hm
              rcases flip_core ih H0 H1 (hab h0 h1 H0 H1) with ⟨-, m'', g1, g2, -⟩ | ⟨-, g1⟩
              · rw [g1] at hm'; cases hm'; exact g2
              · rw [hm'] at g1; cases g1
  | insertInFace m m' fi v f _ hf hv hm ih =>
      obtain ⟨x, y, z⟩ := f
      obtain ⟨m'', g1, g2, -⟩ := insertInFace_core ih hf hv (insertInFace_cap hm)
      rw [g1] at hm; cases hm; exact g2
  | insertOnEdge m m' a b v _ hv hm ih =>
      have hcap := splitSides_cap hm
      cases e0 : m.halfedgeOf a b with
      | none =>
          cases e1 : m.halfedgeOf b a with
          | none => rw [insertOnEdge_none e0 e1] at hm; cases hm; exact ih
          | some h1 =>
              have H1 := (ih.consistent.halfedgeOf b a h1).1 e1
              have hl : (m.facesOf a b).length = 1 := by unfold Mesh.facesOf; rw [e0, e1]; rfl
              obtain ⟨m'', g1, g2, -⟩ := insertOnEdge_boundary (a := a) (b := b) ih H1 (Or.inr ⟨rfl, rfl⟩) e0 hv (by omega)
              rw [g1] at hm; cases hm; exact g2
      | some h0 =>
          have H0 := (ih.consistent.halfedgeOf a b h0).1 e0
          cases e1 : m.halfedgeOf b a with
          | none =>
              have hl : (m.facesOf a b).length = 1 := by unfold Mesh.facesOf; rw [e0, e1]; rfl
              obtain ⟨m'', g1, g2, -⟩ := insertOnEdge_boundary (a := a) (b := b) ih H0 (Or.inl ⟨rfl, rfl⟩) e1 hv (by omega)
              rw [g1] at hm; cases hm; exact g2
          | some h1 =>
              have H1 := (ih.consistent.halfedgeOf b a h1).1 e1
              have hl : (m.facesOf a b).length = 2 := by unfold Mesh.facesOf; rw [e0, e1]; rfl
              rcases insertOnEdge_interior ih H0 H1 hv (by omega) with ⟨-, m'', g1, g2, -⟩ | ⟨-, g1⟩
              · rw [g1] at hm; cases hm; exact g2
              · rw [hm] at g1; cases g1
  | collapse m m' h v w l _ hh hm ih =>
      rcases collapse_core ih hh with ⟨-, m'', l', g1, g2, -⟩ | ⟨-, g1⟩
      · rw [g1] at hm; cases hm; exact g2
      · rw [hm] at g1; cases g1

/-! ## The theorems -/

/-- After every history of successful edits the faces have three different corners, no directed edge belongs to two of them, and
`halfedge_of`, `opposite` and `vertex_faces` answer exactly what the faces say. -/
theorem C35_reachable_consistent {m : Mesh} (h : Reachable m) : Consistent m := h.good.consistent

/-- Links between opposite halfedges are mutual. -/
theorem C35_opposite_mutual {m : Mesh} (h : Reachable m) (x y : Nat) : m.opposite x = .ok (some y) ↔ m.opposite y = .ok (some x) := by
  rw [h.good.consistent.opposite, h.good.consistent.opposite]
  constructor <;> rintro ⟨a, b, h1, h2⟩ <;> exact ⟨b, a, h2, h1⟩

/-- The constructor accepts exactly the face lists without a directed edge in two faces, and then holds these faces. -/
theorem C35_construct (fs : List Face) (hf : ∀ f ∈ fs, Nondeg f) :
    (Manifold (fun i => fs[i]?) → ∃ m, Mesh.ofFaces fs = .ok m ∧ Reachable m ∧ ∀ i, faceAt m i = fs[i]?) ∧
    (¬ Manifold (fun i => fs[i]?) → Mesh.ofFaces fs = .throws .runtimeError) := by
  rcases construct_core fs hf with ⟨h1, m, h2, h3, h4⟩ | ⟨h1, h2⟩
  · exact ⟨fun _ => ⟨m, h2, .construct fs m hf h2, h4⟩, fun h => (h h1).elim⟩
  · exact ⟨fun h => (h1 h).elim, fun _ => h2⟩

/-- `add_face` accepts a face exactly if none of its directed edges is taken; it gets the next number and the others stay. -/
theorem C35_add_face {m : Mesh} (h : Reachable m) (f : Face) (hf : Nondeg f) (hcap : m.nf < m.cap) :
    ((∀ fi g a b, faceAt m fi = some g → Side g a b → ¬ Side f a b) → ∃ m', m.addFace f = (m', .ok m.nf) ∧ Reachable m' ∧
      ∀ i, faceAt m' i = if i = m.nf then some f else faceAt m i) ∧
    ((∃ fi g a b, faceAt m fi = some g ∧ Side g a b ∧ Side f a b) → (m.addFace f).2 = .throws .runtimeError) := by
  rcases addFace_core h.good f hf hcap with ⟨h1, m', h2, h3, h4, -⟩ | ⟨⟨fi, g, a, b, q1, q2, q3⟩, h2⟩
  · exact ⟨fun _ => ⟨m', h2, .addFace m m' f _ h hf h2, h4⟩, fun ⟨fi, g, a, b, q1, q2, q3⟩ => (h1 fi g a b q1 q2 q3).elim⟩
  · exact ⟨fun h1 => (h1 fi g a b q1 q2 q3).elim, fun _ => h2⟩

/-- `flip` of an edge between two triangles replaces it by the edge between the two apexes, unless that edge exists already. -/
theorem C35_flip {m : Mesh} (h : Reachable m) {a b h0 h1 : Nat} (H0 : IsHalfedge m h0 a b) (H1 : IsHalfedge m h1 b a)
    (hcd : m.apex h0 ≠ m.apex h1) :
    ((∀ fi f, faceAt m fi = some f → ¬ Side f (m.apex h0) (m.apex h1) ∧ ¬ Side f (m.apex h1) (m.apex h0)) →
      ∃ m', m.flip a b = (m', .ok ()) ∧ Reachable m' ∧ ∀ i, faceAt m' i =
        if i = h0 / 4 then some (m.apex h0, a, m.apex h1) else if i = h1 / 4 then some (m.apex h1, b, m.apex h0) else faceAt m i) ∧
    ((∃ fi f, faceAt m fi = some f ∧ (Side f (m.apex h0) (m.apex h1) ∨ Side f (m.apex h1) (m.apex h0))) →
      (m.flip a b).2 = .throws .runtimeError) := by
  rcases flip_core h.good H0 H1 hcd with ⟨g1, m', g2, g3, g4, -⟩ | ⟨⟨fi, f, q1, q2⟩, g2⟩
  · refine ⟨fun _ => ⟨m', g2, .flip m m' a b h ?_ g2, g4⟩, ?_⟩
    · intro x0 x1 X0 X1
      have e0 := (h.good.consistent.halfedgeOf a b x0).2 X0
      have e1 := (h.good.consistent.halfedgeOf b a x1).2 X1
      rw [(h.good.consistent.halfedgeOf a b h0).2 H0] at e0
      rw [(h.good.consistent.halfedgeOf b a h1).2 H1] at e1
      rw [← Option.some.inj e0, ← Option.some.inj e1]
      exact hcd
    · rintro ⟨fi, f, q1, q2⟩
      have := g1 fi f q1
      tauto
  · refine ⟨fun g => ?_, fun _ => g2⟩
    have := g fi f q1
    tauto

/-- `insert_in_face` of a new vertex splits the face into three. -/
theorem C35_insert_in_face {m : Mesh} (h : Reachable m) {fi v x y z : Nat} (hfi : faceAt m fi = some (x, y, z)) (hv : NewVertex m v)
    (hcap : m.nf + 2 ≤ m.cap) :
    ∃ m', m.insertInFace fi v = (m', .ok ()) ∧ Reachable m' ∧ ∀ i, faceAt m' i =
      if i = fi then some (x, y, v) else if i = m.nf then some (y, z, v) else if i = m.nf + 1 then some (z, x, v) else faceAt m i := by
  obtain ⟨m', g1, -, g3, -⟩ := insertInFace_core h.good hfi hv hcap
  exact ⟨m', g1, .insertInFace m m' fi v _ h hfi hv g1, g3⟩

/-- `insert_on_edge` of a new vertex on an edge between two triangles splits both, unless the two triangles have the same corners. -/
theorem C35_insert_on_edge {m : Mesh} (h : Reachable m) {h0 h1 a b v : Nat} (H0 : IsHalfedge m h0 a b) (H1 : IsHalfedge m h1 b a)
    (hv : NewVertex m v) (hcap : m.nf + 2 ≤ m.cap) :
    (m.apex h0 ≠ m.apex h1 → ∃ m', m.insertOnEdge a b v = (m', .ok ()) ∧ Reachable m' ∧ ∀ i, faceAt m' i =
      if i = h0 / 4 then some (a, v, m.apex h0) else if i = m.nf then some (v, b, m.apex h0) else
      if i = h1 / 4 then some (b, v, m.apex h1) else if i = m.nf + 1 then some (v, a, m.apex h1) else faceAt m i) ∧
    (m.apex h0 = m.apex h1 → (m.insertOnEdge a b v).2 = .throws .runtimeError) := by
  rcases insertOnEdge_interior h.good H0 H1 hv hcap with ⟨g1, m', g2, -, g4, -⟩ | ⟨g1, g2⟩
  · exact ⟨fun _ => ⟨m', g2, .insertOnEdge m m' a b v h hv g2, g4⟩, fun g => (g1 g).elim⟩
  · exact ⟨fun g => (g g1).elim, fun _ => g2⟩

/-- `insert_on_edge` on a boundary edge, given in either direction, splits its one triangle; on a missing edge it does nothing. -/
theorem C35_insert_on_boundary_edge {m : Mesh} (h : Reachable m) {h0 a b v x y : Nat} (H : IsHalfedge m h0 x y)
    (hxy : (x = a ∧ y = b) ∨ (x = b ∧ y = a)) (hno : ∀ h1, ¬ IsHalfedge m h1 y x) (hv : NewVertex m v) (hcap : m.nf < m.cap) :
    ∃ m', m.insertOnEdge a b v = (m', .ok ()) ∧ Reachable m' ∧ ∀ i, faceAt m' i =
      if i = h0 / 4 then some (x, v, m.apex h0) else if i = m.nf then some (v, y, m.apex h0) else faceAt m i := by
  have hn : m.halfedgeOf y x = none := by
    cases e : m.halfedgeOf y x with
    | none => rfl
    | some h1 => exact (hno h1 ((h.good.consistent.halfedgeOf y x h1).1 e)).elim
  obtain ⟨m', g1, -, g3, -⟩ := insertOnEdge_boundary h.good H hxy hn hv hcap
  exact ⟨m', g1, .insertOnEdge m m' a b v h hv g1, g3⟩

theorem C35_insert_on_missing_edge {m : Mesh} (h : Reachable m) {a b : Nat} (h0 : ∀ x, ¬ IsHalfedge m x a b)
    (h1 : ∀ x, ¬ IsHalfedge m x b a) (v : Nat) : m.insertOnEdge a b v = (m, .ok ()) := by
  have hn : ∀ a b, (∀ x, ¬ IsHalfedge m x a b) → m.halfedgeOf a b = none := by
    intro a b h0
    cases e : m.halfedgeOf a b with
    | none => rfl
    | some x => exact (h0 x ((h.good.consistent.halfedgeOf a b x).1 e)).elim
  exact insertOnEdge_none (hn a b h0) (hn b a h1) v

/-- `collapse` of the halfedge from `v` to `w` succeeds exactly if the merged faces are manifold; the faces with both ends are deleted, `v`
becomes `w` in the others, and exactly those are returned. -/
theorem C35_collapse {m : Mesh} (h : Reachable m) {x v w : Nat} (H : IsHalfedge m x v w) :
    (Manifold (merged (faceAt m) v w) → ∃ m' l, m.collapse x = (m', .ok l) ∧ Reachable m' ∧
      (∀ i, faceAt m' i = merged (faceAt m) v w i) ∧ l.Nodup ∧ ∀ i, i ∈ l ↔ ∃ f, faceAt m i = some f ∧ Corner f v ∧ ¬ Corner f w) ∧
    (¬ Manifold (merged (faceAt m) v w) → (m.collapse x).2 = .throws .runtimeError) := by
  rcases collapse_core h.good H with ⟨g1, m', l, g2, -, g4, g5, g6, -⟩ | ⟨g1, g2⟩
  · exact ⟨fun _ => ⟨m', l, g2, .collapse m m' x v w l h H g2, g4, g6, g5⟩, fun g => (g g1).elim⟩
  · exact ⟨fun g => (g1 g).elim, fun _ => g2⟩

theorem Side.ne {f : Face} (hf : Nondeg f) {a b : Nat} (h : Side f a b) : a ≠ b := by
  obtain ⟨h1, h2, h3⟩ := hf
  rcases h with ⟨rfl, rfl⟩ | ⟨rfl, rfl⟩ | ⟨rfl, rfl⟩
  · exact h1
  · exact h2
  · exact h3

theorem third_side {p q r u v w : Nat} (c1 : p = u ∨ q = u ∨ r = u) (c2 : p = v ∨ q = v ∨ r = v) (c3 : p = w ∨ q = w ∨ r = w)
    (huv : u ≠ v) (huw : u ≠ w) (hvw : v ≠ w) :
    (Side (p, q, r) v u ∨ Side (p, q, r) w u) ∧ (Side (p, q, r) u v ∨ Side (p, q, r) u w) := by
  unfold Side
  dsimp only
  rcases c1 with rfl | rfl | rfl <;> rcases c2 with rfl | rfl | rfl <;> rcases c3 with rfl | rfl | rfl <;>
    first
      | exact absurd rfl huv
      | exact absurd rfl huw
      | exact absurd rfl hvw
      | simp

/-- Two vertices of one face. -/
def Adjacent (m : Mesh) (a b : Nat) : Prop := ∃ fi f, faceAt m fi = some f ∧ (Side f a b ∨ Side f b a)

/-- The link condition is enough for the result of a collapse to be manifold: every vertex next to both ends of the edge is a corner of
a triangle on the edge. -/
theorem C35_collapse_link {m : Mesh} (h : Reachable m) {x v w : Nat} (H : IsHalfedge m x v w)
    (hlink : ∀ u, Adjacent m u v → Adjacent m u w → ∃ fi f, faceAt m fi = some f ∧ Corner f u ∧ Corner f v ∧ Corner f w) :
    Manifold (merged (faceAt m) v w) := by
  obtain ⟨hvw, -⟩ := H.apex_ne h.good
  have hC := h.good.consistent
  -- a side of a merged face comes from a side of the face
  have hside : ∀ i g a b, merged (faceAt m) v w i = some g → Side g a b → ∃ f p q, faceAt m i = some f ∧ Side f p q ∧
      ¬ (Corner f v ∧ Corner f w) ∧ a = (if p = v then w else p) ∧ b = (if q = v then w else q) := by
    intro i g a b hg hs
    unfold merged at hg
    rw [Option.bind_eq_some_iff] at hg
    obtain ⟨f, hf, hg⟩ := hg
    split at hg
    · cases hg
    · rename_i hc
      obtain rfl := Option.some.inj hg
      rcases hs with ⟨s1, s2⟩ | ⟨s1, s2⟩ | ⟨s1, s2⟩
      · exact ⟨f, f.1, f.2.1, hf, Or.inl ⟨rfl, rfl⟩, hc, s1.symm, s2.symm⟩
      · exact ⟨f, f.2.1, f.2.2, hf, Or.inr (Or.inl ⟨rfl, rfl⟩), hc, s1.symm, s2.symm⟩
      · exact ⟨f, f.2.2, f.1, hf, Or.inr (Or.inr ⟨rfl, rfl⟩), hc, s1.symm, s2.symm⟩
  -- faces with a vertex `u` next to `v` in one and to `w` in the other
  have hout : ∀ i j f g u, faceAt m i = some f → faceAt m j = some g → Side f v u → Side g w u → ¬ (Corner f v ∧ Corner f w) →
      ¬ (Corner g v ∧ Corner g w) → False := by
    intro i j f g u hf hg sf sg cf cg
    obtain ⟨k, e, he, c1, c2, c3⟩ := hlink u ⟨i, f, hf, Or.inr sf⟩ ⟨j, g, hg, Or.inr sg⟩
    have uv : u ≠ v := (Side.ne (hC.corners i f hf) sf).symm
    have uw : u ≠ w := (Side.ne (hC.corners j g hg) sg).symm
    have : Side e v u ∨ Side e w u := (third_side c1 c2 c3 uv uw hvw).1
    rcases this with s | s
    · obtain rfl := hC.manifold k i e f v u he hf s sf
      rw [he] at hf; cases hf
      exact cf ⟨c2, c3⟩
    · obtain rfl := hC.manifold k j e g w u he hg s sg
      rw [he] at hg; cases hg
      exact cg ⟨c2, c3⟩
  have hin : ∀ i j f g u, faceAt m i = some f → faceAt m j = some g → Side f u v → Side g u w → ¬ (Corner f v ∧ Corner f w) →
      ¬ (Corner g v ∧ Corner g w) → False := by
    intro i j f g u hf hg sf sg cf cg
    obtain ⟨k, e, he, c1, c2, c3⟩ := hlink u ⟨i, f, hf, Or.inl sf⟩ ⟨j, g, hg, Or.inl sg⟩
    have uv : u ≠ v := Side.ne (hC.corners i f hf) sf
    have uw : u ≠ w := Side.ne (hC.corners j g hg) sg
    have : Side e u v ∨ Side e u w := (third_side c1 c2 c3 uv uw hvw).2
    rcases this with s | s
    · obtain rfl := hC.manifold k i e f u v he hf s sf
      rw [he] at hf; cases hf
      exact cf ⟨c2, c3⟩
    · obtain rfl := hC.manifold k j e g u w he hg s sg
      rw [he] at hg; cases hg
      exact cg ⟨c2, c3⟩
  intro i j f g a b hf hg s1 s2
  obtain ⟨f', p, q, hf', sf, cf, ea, eb⟩ := hside i f a b hf s1
  obtain ⟨g', p', q', hg', sg, cg, ea', eb'⟩ := hside j g a b hg s2
  have hpq : p ≠ q := Side.ne (hC.corners i f' hf') sf
  have hpq' : p' ≠ q' := Side.ne (hC.corners j g' hg') sg
  by_cases ep : p = p'
  · by_cases eq : q = q'
    · subst ep eq
      exact hC.manifold i j f' g' p q hf' hg' sf sg
    · exfalso
      subst ep
      have : (q = v ∧ q' = w) ∨ (q = w ∧ q' = v) := by
        rw [eb] at eb'
        split at eb' <;> split at eb' <;> omega
      rcases this with ⟨rfl, rfl⟩ | ⟨rfl, rfl⟩
      · exact hin i j f' g' p hf' hg' sf sg cf cg
      · exact hin j i g' f' p hg' hf' sg sf cg cf
  · exfalso
    have hp : (p = v ∧ p' = w) ∨ (p = w ∧ p' = v) := by
      rw [ea] at ea'
      split at ea' <;> split at ea' <;> omega
    have hq : q = q' := by
      rw [eb] at eb'
      rcases hp with ⟨rfl, rfl⟩ | ⟨rfl, rfl⟩
      · have n1 : q ≠ p' := fun e => cf ⟨sf.corner_left, e ▸ sf.corner_right⟩
        have n2 : q' ≠ p := fun e => cg ⟨e ▸ sg.corner_right, sg.corner_left⟩
        rw [if_neg hpq.symm, if_neg n2] at eb'
        exact eb'
      · have n1 : q ≠ p' := fun e => cf ⟨e ▸ sf.corner_right, sf.corner_left⟩
        have n2 : q' ≠ p := fun e => cg ⟨sg.corner_left, e ▸ sg.corner_right⟩
        rw [if_neg n1, if_neg hpq'.symm] at eb'
        exact eb'
    subst hq
    rcases hp with ⟨rfl, rfl⟩ | ⟨rfl, rfl⟩
    · exact hout i j f' g' q hf' hg' sf sg cf cg
    · exact hout j i g' f' q hg' hf' sg sf cg cf

/-- Walking around a face. -/
theorem C35_walk {m : Mesh} (_ : Reachable m) {x a b : Nat} (H : IsHalfedge m x a b) :
    m.from_ x = a ∧ m.to_ x = b ∧ IsHalfedge m (Mesh.next x) b (m.apex x) ∧ IsHalfedge m (Mesh.prev x) (m.apex x) a ∧
      Mesh.prev (Mesh.next x) = x ∧ Mesh.next (Mesh.prev x) = x ∧ Mesh.next (Mesh.next (Mesh.next x)) = x := by
  rw [isHalfedge_iff] at H
  obtain ⟨⟨hl, hk⟩, hx, hy⟩ := H
  have hd : ∀ k, k < 3 → (4 * (x / 4) + k) / 4 = x / 4 ∧ (4 * (x / 4) + k) % 4 = k := fun k hk => by omega
  have e : x = 4 * (x / 4) + x % 4 := by omega
  refine ⟨hx, hy, ?_, ?_, ?_, ?_, ?_⟩
  · rw [isHalfedge_iff]
    unfold Mesh.from_ Mesh.to_ Mesh.apex Mesh.next IsHe
    unfold Mesh.to_ at hy
    rcases lt3 hk with h | h | h <;> rw [h] at hy ⊢
    · exact ⟨⟨by rw [(hd (ccw 0) (by decide)).1]; exact hl, by rw [(hd (ccw 0) (by decide)).2]; decide⟩,
        by rw [(hd (ccw 0) (by decide)).1, (hd (ccw 0) (by decide)).2]; exact hy, by rw [(hd (ccw 0) (by decide)).1, (hd (ccw 0) (by decide)).2]; rfl⟩
    · exact ⟨⟨by rw [(hd (ccw 1) (by decide)).1]; exact hl, by rw [(hd (ccw 1) (by decide)).2]; decide⟩,
        by rw [(hd (ccw 1) (by decide)).1, (hd (ccw 1) (by decide)).2]; exact hy, by rw [(hd (ccw 1) (by decide)).1, (hd (ccw 1) (by decide)).2]; rfl⟩
    · exact ⟨⟨by rw [(hd (ccw 2) (by decide)).1]; exact hl, by rw [(hd (ccw 2) (by decide)).2]; decide⟩,
        by rw [(hd (ccw 2) (by decide)).1, (hd (ccw 2) (by decide)).2]; exact hy, by rw [(hd (ccw 2) (by decide)).1, (hd (ccw 2) (by decide)).2]; rfl⟩
  · rw [isHalfedge_iff]
    unfold Mesh.from_ Mesh.to_ Mesh.apex Mesh.prev IsHe
    unfold Mesh.from_ at hx
    rcases lt3 hk with h | h | h <;> rw [h] at hx ⊢
    · exact ⟨⟨by rw [(hd (cw 0) (by decide)).1]; exact hl, by rw [(hd (cw 0) (by decide)).2]; decide⟩,
        by rw [(hd (cw 0) (by decide)).1, (hd (cw 0) (by decide)).2], by rw [(hd (cw 0) (by decide)).1, (hd (cw 0) (by decide)).2]; exact hx⟩
    · exact ⟨⟨by rw [(hd (cw 1) (by decide)).1]; exact hl, by rw [(hd (cw 1) (by decide)).2]; decide⟩,
        by rw [(hd (cw 1) (by decide)).1, (hd (cw 1) (by decide)).2], by rw [(hd (cw 1) (by decide)).1, (hd (cw 1) (by decide)).2]; exact hx⟩
    · exact ⟨⟨by rw [(hd (cw 2) (by decide)).1]; exact hl, by rw [(hd (cw 2) (by decide)).2]; decide⟩,
        by rw [(hd (cw 2) (by decide)).1, (hd (cw 2) (by decide)).2], by rw [(hd (cw 2) (by decide)).1, (hd (cw 2) (by decide)).2]; exact hx⟩
  · unfold Mesh.next Mesh.prev
    rcases lt3 hk with h | h | h <;> rw [h] <;> simp only [ccw, cw] <;> simp <;> omega
  · unfold Mesh.next Mesh.prev
    rcases lt3 hk with h | h | h <;> rw [h] <;> simp only [ccw, cw] <;> simp <;> omega
  · unfold Mesh.next
    rcases lt3 hk with h | h | h <;> rw [h] <;> simp only [ccw] <;> simp <;> omega

/-- `for_each_halfedge` visits every halfedge once. -/
theorem C35_halfedges {m : Mesh} (_ : Reachable m) : m.halfedges.Nodup ∧ ∀ x, x ∈ m.halfedges ↔ ∃ a b, IsHalfedge m x a b := by
  constructor
  · unfold Mesh.halfedges
    rw [List.nodup_flatMap]
    refine ⟨fun i _ => by simp, ?_⟩
    refine (List.Nodup.filter _ List.nodup_range).imp ?_
    intro i j hij x h1 h2
    simp only [List.mem_cons, List.not_mem_nil, or_false] at h1 h2
    omega
  · intro x
    unfold Mesh.halfedges
    simp only [List.mem_flatMap, List.mem_filter, List.mem_range, Bool.not_eq_true', List.mem_cons, List.not_mem_nil, or_false]
    constructor
    · rintro ⟨fi, ⟨h1, h2⟩, h3⟩
      refine ⟨m.from_ x, m.to_ x, (isHalfedge_iff m x _ _).2 ⟨⟨?_, by omega⟩, rfl, rfl⟩⟩
      rw [show x / 4 = fi by omega]
      exact ⟨h1, h2⟩
    · rintro ⟨a, b, H⟩
      rw [isHalfedge_iff] at H
      obtain ⟨⟨⟨h1, h2⟩, h3⟩, -⟩ := H
      exact ⟨x / 4, ⟨h1, h2⟩, by omega⟩

/-- `take_faces` returns the faces in the order of their numbers. -/
theorem C35_take_faces {m : Mesh} (_ : Reachable m) : m.takeFaces = (List.range m.nf).filterMap (faceAt m) := by
  unfold Mesh.takeFaces
  rw [← List.filterMap_eq_map, List.filterMap_filter]
  refine List.filterMap_congr fun i hi => ?_
  unfold faceAt
  rw [List.mem_range] at hi
  cases h : m.deleted i <;> simp [hi]

/-- `faces_of` an edge. -/
theorem C35_faces_of {m : Mesh} (h : Reachable m) (a b fi : Nat) :
    fi ∈ m.facesOf a b ↔ ∃ f, faceAt m fi = some f ∧ (Side f a b ∨ Side f b a) := by
  have key : ∀ a b, fi ∈ ((m.halfedgeOf a b).map (fun h => h / 4)).toList ↔ ∃ f, faceAt m fi = some f ∧ Side f a b := by
    intro a b
    rw [Option.mem_toList, Option.map_eq_some_iff]
    constructor
    · rintro ⟨x, hx, rfl⟩
      obtain ⟨f, hf, hs⟩ := (h.good.consistent.halfedgeOf a b x).1 hx
      refine ⟨f, hf, ?_⟩
      rcases hs with ⟨-, hs⟩ | ⟨-, hs⟩ | ⟨-, hs⟩
      · exact Or.inl hs
      · exact Or.inr (Or.inl hs)
      · exact Or.inr (Or.inr hs)
    · rintro ⟨f, hf, hs⟩
      have : ∃ k, k < 3 ∧ IsHalfedge m (4 * fi + k) a b := by
        rcases hs with hs | hs | hs
        · exact ⟨0, by omega, f, by rw [he_div fi 0 (by omega)]; exact hf, Or.inl ⟨by omega, hs⟩⟩
        · exact ⟨1, by omega, f, by rw [he_div fi 1 (by omega)]; exact hf, Or.inr (Or.inl ⟨by omega, hs⟩)⟩
        · exact ⟨2, by omega, f, by rw [he_div fi 2 (by omega)]; exact hf, Or.inr (Or.inr ⟨by omega, hs⟩)⟩
      obtain ⟨k, hk, H⟩ := this
      exact ⟨4 * fi + k, (h.good.consistent.halfedgeOf a b _).2 H, he_div fi k (by omega)⟩
  unfold Mesh.facesOf
  rw [List.mem_append, key, key]
  constructor
  · rintro (⟨f, h1, h2⟩ | ⟨f, h1, h2⟩)
    · exact ⟨f, h1, Or.inl h2⟩
    · exact ⟨f, h1, Or.inr h2⟩
  · rintro ⟨f, h1, h2 | h2⟩
    · exact Or.inl ⟨f, h1, h2⟩
    · exact Or.inr ⟨f, h1, h2⟩

/-! ## What does not hold -/

/-- "Rejected operations leave it unchanged" is false: a face that `add_face` rejects is counted, and it is among the faces that
`take_faces` returns. -/
theorem C35_rejected_face_is_kept {m : Mesh} (_ : Reachable m) (f : Face) (hcap : m.nf < m.cap)
    (_ : (m.addFace f).2 = .throws .runtimeError) :
    faceAt (m.addFace f).1 m.nf = some f ∧ (m.addFace f).1.takeFaces = m.takeFaces ++ [f] := by
  have hs := registerFace_same (appended m f) m.nf
  rw [addFace_fst m f hcap]
  constructor
  · unfold faceAt
    rw [hs.nf, hs.deleted, hs.face]
    simp [appended, upd]
  · unfold Mesh.takeFaces
    rw [hs.nf, hs.deleted, hs.face]
    show ((List.range (m.nf + 1)).filter fun fi => !upd m.deleted m.nf false fi).map (upd m.face m.nf f) = _
    rw [List.range_succ, List.filter_append, List.map_append]
    congr 1
    · rw [List.filter_congr (q := fun fi => !m.deleted fi) (fun i hi => by
        rw [upd_ne _ _ (by have := List.mem_range.1 hi; omega)])]
      refine List.map_congr_left fun i hi => ?_
      have := List.mem_range.1 (List.mem_filter.1 hi).1
      exact upd_ne _ _ (by omega)
    · simp [upd]

/-! ## Concrete cases -/

/-- Two triangles with a common edge, with room for more. -/
def square : Mesh := (((Mesh.empty 8).addFace (0, 1, 2)).1.addFace (0, 2, 3)).1

theorem square_reachable : Reachable square := by
  have r1 : Reachable ((Mesh.empty 8).addFace (0, 1, 2)).1 :=
    .addFace (Mesh.empty 8) _ (0, 1, 2) 0 (.empty 8) (by unfold Nondeg; decide) (Prod.ext rfl (by decide))
  exact .addFace _ _ (0, 2, 3) 1 r1 (by unfold Nondeg; decide) (Prod.ext rfl (by decide))

example : square.takeFaces = [(0, 1, 2), (0, 2, 3)] := by decide
example : square.halfedges = [0, 1, 2, 4, 5, 6] := by decide
example : square.opposite 2 = .ok (some 4) ∧ square.opposite 4 = .ok (some 2) ∧ square.opposite 0 = .ok none := by decide
example : IsHalfedge square 4 0 2 ∧ IsHalfedge square 2 2 0 := by
  constructor
  · exact ⟨(0, 2, 3), by decide, by decide⟩
  · exact ⟨(0, 1, 2), by decide, by decide⟩
example : square.apex 4 ≠ square.apex 2 := by decide
example : (square.flip 0 2).2 = .ok () ∧ (square.flip 0 2).1.takeFaces = [(1, 2, 3), (3, 0, 1)] := by decide
example : (square.insertInFace 1 7).2 = .ok () ∧ (square.insertInFace 1 7).1.takeFaces = [(0, 1, 2), (0, 2, 7), (2, 3, 7), (3, 0, 7)] := by
  decide
example : (square.insertOnEdge 0 2 7).2 = .ok () ∧
    (square.insertOnEdge 0 2 7).1.takeFaces = [(2, 7, 1), (0, 7, 3), (7, 2, 3), (7, 0, 1)] := by decide
/-- Merging vertex 1 into 2 deletes the face with both. -/
example : (square.collapse 1).2 = .ok [] ∧ (square.collapse 1).1.takeFaces = [(0, 2, 3)] := by decide
/-- Merging vertex 1 into 0 in a fan of three. -/
example : (((square.addFace (3, 2, 4)).1.collapse 5).2 = .ok [0]) ∧ ((square.addFace (3, 2, 4)).1.collapse 5).1.takeFaces = [(0, 1, 3)] := by
  decide

/-- Collapsing an edge of a tetrahedron leaves two triangles on the same corners. -/
example : (match Mesh.ofFaces [(0, 1, 2), (0, 2, 3), (0, 3, 1), (1, 3, 2)] with
  | .ok m => (m.collapse 0).1.takeFaces
  | _ => []) = [(1, 2, 3), (1, 3, 2)] := by decide

/-- Vertex 3 is next to both ends of the edge, but on no triangle with it: the collapse throws. -/
example : (match Mesh.ofFaces [(0, 1, 2), (0, 3, 4), (1, 3, 5)] with
  | .ok m => (m.collapse 0).2
  | _ => .ok []) = .throws .runtimeError := by decide

/-- A rejected face leaves links behind: after `add_face (1, 0, 3)` throws because `0 -> 3` is taken, the edge `0 -> 1` of face 0 says that
its opposite is the rejected face, while `halfedge_of` finds no halfedge `1 -> 0`. -/
theorem C35_rejected_face_leaves_links : ∃ m f, Reachable m ∧ (m.addFace f).2 = .throws .runtimeError ∧
    m.opposite 0 = .ok none ∧ (m.addFace f).1.opposite 0 = .ok (some 8) ∧ (m.addFace f).1.halfedgeOf 1 0 = none := by
  refine ⟨((((Mesh.empty 8).addFace (0, 1, 2)).1.addFace (0, 3, 4)).1), (1, 0, 3), ?_, by decide, by decide, by decide, by decide⟩
  have r1 : Reachable ((Mesh.empty 8).addFace (0, 1, 2)).1 :=
    .addFace (Mesh.empty 8) _ (0, 1, 2) 0 (.empty 8) (by unfold Nondeg; decide) (Prod.ext rfl (by decide))
  exact .addFace _ _ (0, 3, 4) 1 r1 (by unfold Nondeg; decide) (Prod.ext rfl (by decide))

/-- A face with a repeated corner is accepted, and its two opposite halfedges are not linked. -/
theorem C35_degenerate_face_accepted : ∃ m, Mesh.ofFaces [(0, 0, 1)] = .ok m ∧ m.halfedgeOf 0 1 = some 1 ∧ m.halfedgeOf 1 0 = some 2 ∧
    m.opposite 1 = .ok none ∧ m.opposite 2 = .ok none := ⟨_, rfl, by decide, by decide, by decide, by decide⟩

/-- On two triangles with the same corners, inserting a new vertex on an edge throws although the vertex is new. -/
theorem C35_insert_on_pillow_throws : ∃ m, Mesh.ofFaces [(0, 1, 2), (1, 0, 2)] = .ok m ∧ NewVertex m 3 ∧
    (({ m with cap := 8 } : Mesh).insertOnEdge 0 1 3).2 = .throws .runtimeError := by
  refine ⟨_, rfl, ?_, by decide⟩
  intro fi f hf
  obtain ⟨⟨h1, -⟩, rfl⟩ := faceAt_eq_some.1 hf
  have : fi = 0 ∨ fi = 1 := by
    have : fi < 2 := h1
    omega
  rcases this with rfl | rfl <;> unfold Corner <;> decide

end Verif.AbstractMesh
