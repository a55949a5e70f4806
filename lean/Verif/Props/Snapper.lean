import Verif.Lemmas.SnapperTotal

/-!
# C63: snapping a mesh to points

`S` is how the unstable sorts of the code leave equal elements; it is arbitrary (`hS`: the sort of the candidates permutes them).
-/

namespace Verif.Snapper

open Verif Verif.AbstractMesh
open Verif.Thinner (Input toE dotP)
open Verif.Thinner.Spec (pos tri normal HasTolerance)
open Verif.MeshDefects.Spec (DistinctCorners)
open Verif.Geometry (Cross)
open Verif.Snapper.Spec
open Verif.Predicates (P3)

variable {I : Input} {S : Sorts} {fuel : Nat} {r : Result}

/-! ## Back to the given mesh -/

theorem p0_shift (I : Input) (a : Nat) : p0 I (a + np I) = pos I.vertices a := by
  unfold p0 Thinner.Spec.pos
  rw [if_neg (by omega)]
  congr 1; omega

theorem p0_snap {i : Nat} (h : i < np I) : p0 I i = I.points[i]'h := by
  unfold p0
  rw [if_pos h, Thinner.getD_lt _ _ h]

theorem p0_shift_tri (I : Input) (f : Face) : (p0 I (shift I f).1, p0 I (shift I f).2.1, p0 I (shift I f).2.2) = tri I.vertices f := by
  unfold shift tri
  simp only [p0_shift]

section
variable {m : Mesh} {home : Nat → Nat} {cs : List Candidate} {s : State} {row : Nat → Nat}

theorem Finished.given (h : Finished I S m home cs s r row) {fi : Nat} (hfi : fi < m.nf) : ∃ f, I.faces[fi]? = some f ∧ m.face fi = shift I f := by
  rw [h.nf] at hfi
  exact ⟨_, List.getElem?_eq_getElem hfi, h.face fi _ (List.getElem?_eq_getElem hfi)⟩

theorem Emitted.tri_eq (h : Emitted m s r.vertices r.faces row) {f : Face} (hf : f ∈ r.faces) : tri r.vertices f = s.tri (row f.1, row f.2.1, row f.2.2) := by
  have key : ∀ k, Corner f k → Thinner.Spec.pos r.vertices k = s.p (row k) := fun k hk => by
    unfold Thinner.Spec.pos
    rw [List.getD_eq_getElem?_getD, h.pos k (h.lt f hf k hk)]; rfl
  unfold tri State.tri
  rw [key _ (Or.inl rfl), key _ (Or.inr (Or.inl rfl)), key _ (Or.inr (Or.inr rfl))]

/-- The patch of a returned face. -/
theorem Emitted.patch (h : Emitted m s r.vertices r.faces row) {f : Face} (hf : f ∈ r.faces) : ∃ fi, fi < m.nf ∧ (row f.1, row f.2.1, row f.2.2) ∈ cur m s fi := by
  have : (row f.1, row f.2.1, row f.2.2) ∈ (List.range m.nf).flatMap (cur m s) := by
    rw [h.faces]; exact List.mem_map.2 ⟨f, hf, rfl⟩
  obtain ⟨fi, h1, h2⟩ := List.mem_flatMap.1 this
  exact ⟨fi, List.mem_range.1 h1, h2⟩

end

theorem flatMap_getElem? {α β : Type} (l : List α) (g : α → List β) {k : Nat} {x : β} (h : (l.flatMap g)[k]? = some x) :
    ∃ i j a, l[i]? = some a ∧ (g a)[j]? = some x ∧ k = ((l.take i).flatMap g).length + j := by
  induction l generalizing k with
  | nil => simp at h
  | cons a l ih =>
      rw [List.flatMap_cons] at h
      by_cases hk : k < (g a).length
      · rw [List.getElem?_append_left hk] at h
        exact ⟨0, k, a, rfl, h, by simp⟩
      · rw [List.getElem?_append_right (by omega)] at h
        obtain ⟨i, j, b, h1, h2, h3⟩ := ih h
        refine ⟨i + 1, j, b, h1, h2, ?_⟩
        rw [List.take_succ_cons, List.flatMap_cons, List.length_append]
        omega

/-! ## The theorems -/

/-- The loop ends: no more than nine rounds for each point. -/
theorem C63_ends (hI : Valid I) (hS : ∀ l, (S.candidates l).Perm l) (hfuel : 9 * I.points.length < fuel) : ∃ o, snapMesh I S fuel = some o :=
  Option.isSome_iff_exists.1 (snap_ends hI S hS hfuel)

/-- Two returned faces that cross are faces of the given mesh, in their places. -/
theorem C63_crossing (hI : Valid I) (hS : ∀ l, (S.candidates l).Perm l) (h : snapMesh I S fuel = some (.ok r)) {k l : Nat} {f g : Face} (hkl : k ≠ l)
    (hk : r.faces[k]? = some f) (hl : r.faces[l]? = some g) (hf : DistinctCorners (tri r.vertices f)) (hg : DistinctCorners (tri r.vertices g))
    (hc : Cross (tri r.vertices f) (tri r.vertices g)) :
    ∃ (i j : Nat) (f₀ g₀ : Face), i ≠ j ∧ I.faces[i]? = some f₀ ∧ I.faces[j]? = some g₀ ∧ tri r.vertices f = tri I.vertices f₀ ∧ tri r.vertices g = tri I.vertices g₀ := by
  by_cases h0 : I.points = [] ∨ I.faces = []
  · unfold snapMesh at h
    rw [if_pos (by simpa using h0)] at h
    cases h
    exact ⟨k, l, f, g, hkl, hk, hl, rfl, rfl⟩
  rw [not_or] at h0
  obtain ⟨m, home, cs, s, row, F⟩ := snap_core hI S hS h0.1 h0.2 h
  have E := F.emitted
  rw [E.tri_eq (List.mem_of_getElem? hk)] at hf hc ⊢
  rw [E.tri_eq (List.mem_of_getElem? hl)] at hg hc ⊢
  have hk' : ((List.range m.nf).flatMap (cur m s))[k]? = some (row f.1, row f.2.1, row f.2.2) := by rw [E.faces, List.getElem?_map, hk]; rfl
  have hl' : ((List.range m.nf).flatMap (cur m s))[l]? = some (row g.1, row g.2.1, row g.2.2) := by rw [E.faces, List.getElem?_map, hl]; rfl
  obtain ⟨i, a, fi, i1, i2, i3⟩ := flatMap_getElem? _ _ hk'
  obtain ⟨j, b, fj, j1, j2, j3⟩ := flatMap_getElem? _ _ hl'
  have hfi : i < m.nf ∧ fi = i := by
    obtain ⟨q1, q2⟩ := List.getElem?_eq_some_iff.1 i1
    rw [List.getElem_range] at q2
    rw [List.length_range] at q1
    exact ⟨q1, q2.symm⟩
  have hfj : j < m.nf ∧ fj = j := by
    obtain ⟨q1, q2⟩ := List.getElem?_eq_some_iff.1 j1
    rw [List.getElem_range] at q2
    rw [List.length_range] at q1
    exact ⟨q1, q2.symm⟩
  obtain ⟨hi, rfl⟩ := hfi
  obtain ⟨hj, rfl⟩ := hfj
  by_cases hij : fi = fj
  · subst hij
    have hab : a ≠ b := fun e => hkl (by omega)
    exfalso
    have hw := F.j.noX.within fi hi
    rw [List.pairwise_iff_getElem] at hw
    obtain ⟨a1, a2⟩ := List.getElem?_eq_some_iff.1 i2
    obtain ⟨b1, b2⟩ := List.getElem?_eq_some_iff.1 j2
    rcases Nat.lt_or_ge a b with hlt | hge
    · have := hw a b a1 b1 hlt
      rw [a2, b2] at this
      exact this hf hg hc
    · have := (hw b a b1 a1 (by omega)).symm
      rw [a2, b2] at this
      exact this hf hg hc
  · rcases F.j.noX.between fi fj hi hj hij _ (List.mem_of_getElem? i2) _ (List.mem_of_getElem? j2) with hn | ⟨⟨e1, e2⟩, e3, e4⟩
    · exact absurd hc (hn hf hg)
    · obtain ⟨f₀, q1, q2⟩ := F.given hi
      obtain ⟨g₀, q3, q4⟩ := F.given hj
      refine ⟨fi, fj, f₀, g₀, hij, q1, q3, ?_, ?_⟩
      · rw [e2, e1, q2, p0_shift_tri]
      · rw [e4, e3, q4, p0_shift_tri]

/-- If no two faces of the given mesh cross, no two returned faces do. -/
theorem C63_embedded (hI : Valid I) (hS : ∀ l, (S.candidates l).Perm l) (h : snapMesh I S fuel = some (.ok r)) (h0 : Embedded I.vertices I.faces) :
    Embedded r.vertices r.faces := by
  intro k l f g hkl hk hl hf hg hc
  obtain ⟨i, j, f₀, g₀, hij, h1, h2, e1, e2⟩ := C63_crossing hI hS h hkl hk hl hf hg hc
  rw [e1] at hf hc
  rw [e2] at hg hc
  exact h0 i j f₀ g₀ hij h1 h2 hf hg hc

/-- The vertices of the returned mesh: `origin` tells which vertex of the given mesh one comes from (no two from the same); the others are
snap points.  A vertex of the given mesh stays in its place or is moved to a snap point.  All are in use. -/
theorem C63_vertices (hI : Valid I) (hS : ∀ l, (S.candidates l).Perm l) (h : snapMesh I S fuel = some (.ok r)) (hp : I.points ≠ []) (hf : I.faces ≠ []) :
    ∃ origin : Nat → Option Nat,
      (∀ k a, k < r.vertices.length → origin k = some a → (∃ f ∈ I.faces, Corner f a) ∧ (pos r.vertices k = pos I.vertices a ∨ pos r.vertices k ∈ I.points)) ∧
      (∀ k, k < r.vertices.length → origin k = none → pos r.vertices k ∈ I.points) ∧
      (∀ k l a, k < r.vertices.length → l < r.vertices.length → origin k = some a → origin l = some a → k = l) ∧
      (∀ a, (∃ f ∈ I.faces, Corner f a) → ∃ k, k < r.vertices.length ∧ origin k = some a) ∧
      (∀ k, k < r.vertices.length ↔ ∃ f ∈ r.faces, Corner f k) ∧
      (∀ u v, u < r.vertices.length → v < r.vertices.length → net r.faces u v = netOf I.faces (origin u) (origin v)) := by
  obtain ⟨m, home, cs, s, row, F⟩ := snap_core hI S hS hp hf h
  have E := F.emitted
  have hpos : ∀ k, k < r.vertices.length → pos r.vertices k = s.p (row k) := fun k hk => by
    unfold Thinner.Spec.pos
    rw [List.getD_eq_getElem?_getD, E.pos k hk]; rfl
  have hsnap : ∀ i, i < np I → p0 I i ∈ I.points := fun i hi => by rw [p0_snap hi]; exact List.getElem_mem _
  have hcorner : ∀ k, k < r.vertices.length → np I ≤ row k → ∃ f ∈ I.faces, Corner f (row k - np I) := fun k hk hge => by
    obtain ⟨f, hf', hc⟩ := E.used k hk
    obtain ⟨fi, h1, h2⟩ := E.patch hf'
    have hc' : Corner (row f.1, row f.2.1, row f.2.2) (row k) := by rcases hc with rfl | rfl | rfl <;> simp [Corner]
    rcases F.j.inv.curRows h1 h2 hc' with h3 | h3
    · omega
    · obtain ⟨g, q1, q2⟩ := F.given h1
      rw [q2] at h3
      obtain ⟨a, e, ha⟩ := shift_corner.1 h3
      exact ⟨g, List.mem_of_getElem? q1, by rw [e, Nat.add_sub_cancel]; exact ha⟩
  refine ⟨fun k => if row k < np I then none else some (row k - np I), ?_, ?_, ?_, ?_, ?_, ?_⟩
  · intro k a hk e
    dsimp only at e
    split at e
    · cases e
    rename_i hge
    cases e
    refine ⟨hcorner k hk (by omega), ?_⟩
    rw [hpos k hk]
    rcases F.j.inv.orig (row k) (by omega) with q | ⟨i, hi, q⟩
    · left
      rw [q, ← p0_shift, Nat.sub_add_cancel (by omega)]
    · right
      rw [q]; exact hsnap i hi
  · intro k hk e
    dsimp only at e
    split at e
    · rename_i hlt
      rw [hpos k hk, F.j.inv.snap _ hlt]
      exact hsnap _ hlt
    · cases e
  · intro k l a hk hl e1 e2
    dsimp only at e1 e2
    split at e1
    · cases e1
    split at e2
    · cases e2
    cases e1
    simp only [Option.some.injEq] at e2
    exact E.inj k l hk hl (by omega)
  · rintro a ⟨f, hf', hc⟩
    obtain ⟨fi, hfi⟩ := List.getElem?_of_mem hf'
    have hlt : fi < m.nf := by rw [F.nf]; exact (List.getElem?_eq_some_iff.1 hfi).1
    have hc' : Corner (m.face fi) (a + np I) := by rw [F.face fi f hfi]; exact shift_corner.2 ⟨a, rfl, hc⟩
    obtain ⟨g, hg, hgc⟩ := (F.j.tri fi hlt).used (mem_boundaryIds.2 (Or.inl hc'))
    have : g ∈ (List.range m.nf).flatMap (cur m s) := List.mem_flatMap.2 ⟨fi, List.mem_range.2 hlt, hg⟩
    rw [E.faces] at this
    obtain ⟨g', hg', rfl⟩ := List.mem_map.1 this
    have key : ∀ k, Corner g' k → row k = a + np I → ∃ k, k < r.vertices.length ∧ (if row k < np I then none else some (row k - np I)) = some a := fun k hk e =>
      ⟨k, E.lt g' hg' k hk, by rw [if_neg (by omega), e, Nat.add_sub_cancel]⟩
    rcases hgc with e | e | e
    · exact key _ (Or.inl rfl) e
    · exact key _ (Or.inr (Or.inl rfl)) e
    · exact key _ (Or.inr (Or.inr rfl)) e
  · exact fun k => ⟨E.used k, fun ⟨f, hf', hc⟩ => E.lt f hf' k hc⟩
  · intro u v hu hv
    have h1 : net r.faces u v = net ((List.range m.nf).flatMap (cur m s)) (row u) (row v) := by
      rw [E.faces]
      have hcount : ∀ x y, x < r.vertices.length → y < r.vertices.length → (sides r.faces).count (x, y) = (sides (r.faces.map fun f => (row f.1, row f.2.1, row f.2.2))).count (row x, row y) := by
        intro x y hx hy
        have e : sides (r.faces.map fun f => (row f.1, row f.2.1, row f.2.2)) = (sides r.faces).map (Prod.map row row) := sides_map row r.faces
        rw [e]
        have hall : ∀ p ∈ sides r.faces, p.1 < r.vertices.length ∧ p.2 < r.vertices.length := by
          rintro ⟨p, q⟩ hp'
          obtain ⟨f, hf', hs⟩ := mem_sides.1 hp'
          exact ⟨E.lt f hf' p (side_corner hs).1, E.lt f hf' q (side_corner hs).2⟩
        generalize sides r.faces = l at hall
        induction l with
        | nil => rfl
        | cons p l ih =>
            rw [List.map_cons, List.count_cons, List.count_cons, ih fun p hp => hall p (by simp [hp])]
            congr 1
            obtain ⟨q1, q2⟩ := hall p (by simp)
            have : (p == (x, y)) = (Prod.map row row p == (row x, row y)) := by
              rw [Bool.eq_iff_iff, beq_iff_eq, beq_iff_eq]
              constructor
              · rintro rfl; rfl
              · intro e'
                obtain ⟨e1, e2⟩ := Prod.mk.inj e'
                exact Prod.ext (E.inj _ _ q1 hx e1) (E.inj _ _ q2 hy e2)
            rw [this]
      unfold net
      rw [hcount u v hu hv, hcount v u hv hu]
    rw [h1, net_kept F.mesh F.j]
    have hmf : meshFaces m = I.faces.map (mapFace (· + np I)) := by
      refine List.ext_getElem? fun i => ?_
      rw [F.mesh.getElem_faces, List.getElem?_map]
      cases hi : I.faces[i]? with
      | none =>
          cases hf' : faceAt m i with
          | none => rfl
          | some g =>
              have := (F.mesh.faceAt_some.1 hf').1
              rw [F.nf] at this
              rw [List.getElem?_eq_getElem this] at hi
              cases hi
      | some f =>
          have hlt : i < m.nf := by rw [F.nf]; exact (List.getElem?_eq_some_iff.1 hi).1
          rw [F.mesh.alive i hlt, F.face i f hi]; rfl
    have e : sides (meshFaces m) = (sides I.faces).map (Prod.map (· + np I) (· + np I)) := by rw [hmf]; exact sides_map _ _
    have hin : Function.Injective (Prod.map (· + np I) (· + np I) : Nat × Nat → Nat × Nat) := by
      rintro ⟨a, b⟩ ⟨c, d⟩ e
      simp only [Prod.map_apply, Prod.mk.injEq, Nat.add_right_cancel_iff] at e
      exact Prod.ext e.1 e.2
    have hc1 : ∀ a b, (sides (meshFaces m)).count (a + np I, b + np I) = (sides I.faces).count (a, b) := fun a b => by
      rw [e]
      exact List.count_map_of_injective _ _ hin (a, b)
    have hc0 : ∀ a b, a < np I ∨ b < np I → (sides (meshFaces m)).count (a, b) = 0 := fun a b hab => by
      rw [e, List.count_eq_zero]
      intro hmem
      obtain ⟨⟨x, y⟩, -, q⟩ := List.mem_map.1 hmem
      simp only [Prod.map_apply, Prod.mk.injEq] at q
      omega
    dsimp only
    by_cases h1 : row u < np I
    · rw [if_pos h1]
      show net _ _ _ = 0
      unfold net
      rw [hc0 _ _ (Or.inl h1), hc0 _ _ (Or.inr h1)]; rfl
    · by_cases h2 : row v < np I
      · rw [if_neg h1, if_pos h2]
        show net _ _ _ = 0
        unfold net
        rw [hc0 _ _ (Or.inr h2), hc0 _ _ (Or.inl h2)]; rfl
      · rw [if_neg h1, if_neg h2]
        show net _ _ _ = net _ _ _
        unfold net
        rw [← hc1, ← hc1, Nat.sub_add_cancel (by omega), Nat.sub_add_cancel (by omega)]

/-- A closed mesh stays closed: every edge of the returned mesh has as many faces on one side as on the other. -/
theorem C63_closed (hI : Valid I) (hS : ∀ l, (S.candidates l).Perm l) (h : snapMesh I S fuel = some (.ok r)) (hc : ∀ a b, net I.faces a b = 0) (u v : Nat) :
    net r.faces u v = 0 := by
  by_cases h0 : I.points = [] ∨ I.faces = []
  · unfold snapMesh at h
    rw [if_pos (by simpa using h0)] at h
    cases h
    exact hc u v
  rw [not_or] at h0
  obtain ⟨origin, -, -, -, -, h5, h6⟩ := C63_vertices hI hS h h0.1 h0.2
  by_cases huv : u < r.vertices.length ∧ v < r.vertices.length
  · rw [h6 u v huv.1 huv.2]
    unfold netOf
    split
    · exact hc _ _
    · rfl
  · have key : ∀ x y, ¬ (x < r.vertices.length ∧ y < r.vertices.length) → (sides r.faces).count (x, y) = 0 := fun x y hxy => by
      rw [List.count_eq_zero]
      intro hm
      obtain ⟨f, hf, hs⟩ := mem_sides.1 hm
      exact hxy ⟨(h5 x).2 ⟨f, hf, (side_corner hs).1⟩, (h5 y).2 ⟨f, hf, (side_corner hs).2⟩⟩
    unfold net
    rw [key u v huv, key v u fun hh => huv hh.symm]
    rfl

/-- Every face of the given mesh is replaced by at least one face with the same orientation (in the transformed frame; a face of area zero has none),
in the order of the given faces; a corner is a snap point or a corner of the given face (in its place or moved to a snap point). -/
theorem C63_parts (hI : Valid I) (hS : ∀ l, (S.candidates l).Perm l) (h : snapMesh I S fuel = some (.ok r)) (hp : I.points ≠ []) (hf : I.faces ≠ []) :
    ∃ parts : Nat → List Face, r.faces = (List.range I.faces.length).flatMap parts ∧
      ∀ (i : Nat) (f : Face), I.faces[i]? = some f → parts i ≠ [] ∧ ∀ g ∈ parts i, 
        0 ≤ dotP (normal I.T (tri r.vertices g)) (normal I.T (tri I.vertices f)) ∧
        (∀ k, Corner g k → pos r.vertices k ∈ I.points ∨ ∃ a, Corner f a ∧ pos r.vertices k = pos I.vertices a) := by
  obtain ⟨m, home, cs, s, row, F⟩ := snap_core hI S hS hp hf h
  have E := F.emitted
  -- the inverse of `row`
  have hcorner : ∀ f ∈ r.faces, ∀ k, Corner f k → k < r.vertices.length := E.lt
  classical
  let num : Nat → Nat := fun x => if hx : ∃ k, k < r.vertices.length ∧ row k = x then hx.choose else 0
  have hnum : ∀ k, k < r.vertices.length → num (row k) = k := fun k hk => by
    have hx : ∃ l, l < r.vertices.length ∧ row l = row k := ⟨k, hk, rfl⟩
    have e : num (row k) = hx.choose := dif_pos hx
    rw [e]
    exact E.inj _ _ hx.choose_spec.1 hk hx.choose_spec.2
  have hface : ∀ f ∈ r.faces, mapFace num (row f.1, row f.2.1, row f.2.2) = f := fun f hf' => by
    unfold mapFace
    rw [hnum _ (E.lt f hf' _ (Or.inl rfl)), hnum _ (E.lt f hf' _ (Or.inr (Or.inl rfl))), hnum _ (E.lt f hf' _ (Or.inr (Or.inr rfl)))]
  refine ⟨fun fi => (cur m s fi).map (mapFace num), ?_, fun i f hi => ?_⟩
  · rw [← F.nf, ← List.map_flatMap, E.faces, List.map_map]
    symm
    refine (List.map_congr_left fun f hf' => ?_).trans (List.map_id _)
    exact hface f hf'
  · have hlt : i < m.nf := by rw [F.nf]; exact (List.getElem?_eq_some_iff.1 hi).1
    refine ⟨by simpa using cur_ne m s i, fun g hg => ?_⟩
    obtain ⟨g₀, hg₀, rfl⟩ := List.mem_map.1 hg
    have hmem : g₀ ∈ (List.range m.nf).flatMap (cur m s) := List.mem_flatMap.2 ⟨i, List.mem_range.2 hlt, hg₀⟩
    rw [E.faces] at hmem
    obtain ⟨g, hgr, rfl⟩ := List.mem_map.1 hmem
    rw [hface g hgr]
    constructor
    · have hn := F.j.noFold i hlt _ hg₀
      rw [F.face i f hi] at hn
      rw [E.tri_eq hgr, ← p0_shift_tri]
      unfold normal State.tri
      simp only [F.j.inv.ap] at hn
      exact hn
    · intro k hk
      have hpos : pos r.vertices k = s.p (row k) := by
        unfold Thinner.Spec.pos
        rw [List.getD_eq_getElem?_getD, E.pos k (E.lt g hgr k hk)]; rfl
      have hk' : Corner (row g.1, row g.2.1, row g.2.2) (row k) := by rcases hk with rfl | rfl | rfl <;> simp [Corner]
      rw [hpos]
      rcases F.j.inv.curRows hlt hg₀ hk' with hc | hc
      · left
        rw [F.j.inv.snap _ hc, p0_snap hc]
        exact List.getElem_mem _
      · rw [F.face i f hi] at hc
        obtain ⟨a, e, ha⟩ := shift_corner.1 hc
        rcases F.j.inv.orig (row k) (by omega) with q | ⟨j, hj, q⟩
        · right
          exact ⟨a, ha, by rw [q, e, p0_shift]⟩
        · left
          rw [q, p0_snap hj]
          exact List.getElem_mem _

/-- The counts: of the points, `N` are looked at (those no farther from the given mesh than the resolution) and `H` of these are honored (the returned
surface passes them within their tolerance).  A triangle whose first two corners are in the same place may be overlooked. -/
theorem C63_stats (hI : Valid I) (hS : ∀ l, (S.candidates l).Perm l) (h : snapMesh I S fuel = some (.ok r)) (hp : I.points ≠ []) (hf : I.faces ≠ []) :
    ∃ N H : Finset Nat, H ⊆ N ∧ N ⊆ Finset.range I.points.length ∧ r.stats.honored = H.card ∧ r.stats.dishonored = (N \ H).card ∧
      r.stats.skipped = I.points.length - N.card ∧ r.stats.honored + r.stats.dishonored + r.stats.skipped = I.points.length ∧
      ∀ i q tol, I.points[i]? = some q → HasTolerance I i tol →
        (i ∈ N → ∃ f ∈ I.faces, distTo I.T (tri I.vertices f) q ≤ I.resolution) ∧
        (i ∉ N → ∀ f ∈ I.faces, Proper I.T (tri I.vertices f) → I.resolution < distTo I.T (tri I.vertices f) q) ∧
        (i ∈ H → ∃ f ∈ r.faces, distTo I.T (tri r.vertices f) q ≤ tol) ∧
        (i ∈ N → i ∉ H → ∀ f ∈ r.faces, Proper I.T (tri r.vertices f) → tol < distTo I.T (tri r.vertices f) q) := by
  classical
  obtain ⟨m, home, cs, s, row, F⟩ := snap_core hI S hS hp hf h
  have E := F.emitted
  have hcount : ∀ P : Nat → Prop, (List.range (np I)).countP (fun i => decide (P i)) = ((Finset.range (np I)).filter P).card := fun P => by
    rw [List.countP_eq_length_filter]
    have e : (Finset.range (np I)).filter P = ((List.range (np I)).filter fun i => decide (P i)).toFinset := by
      ext x; simp
    rw [e, List.toFinset_card_of_nodup (List.nodup_range.filter _)]
  have hN : ∀ i, i ∈ (cs.map (·.i)).toFinset ↔ i ∈ cs.map (·.i) := fun i => List.mem_toFinset
  have hNr : (cs.map (·.i)).toFinset ⊆ Finset.range I.points.length := fun i hi => by
    obtain ⟨c, hc, rfl⟩ := List.mem_map.1 ((hN i).1 hi)
    exact Finset.mem_range.2 (F.cands c hc).1.i
  have hcard : (cs.map (·.i)).toFinset.card = cs.length := by rw [List.toFinset_card_of_nodup F.nodup, List.length_map]
  have hH : r.stats.honored = ((cs.map (·.i)).toFinset.filter fun i => MeshHonors I m s i).card := by
    have h1 := F.honored
    rw [h1]
    refine Eq.trans ?_ ((hcount (fun i => i ∈ cs.map (·.i) ∧ MeshHonors I m s i)).trans ?_)
    · refine List.countP_congr fun i _ => ?_
      simp only [decide_eq_true_eq]
    · congr 1
      ext x
      simp only [Finset.mem_filter, hN, Finset.mem_range]
      exact ⟨fun hh => hh.2, fun hh => ⟨Finset.mem_range.1 (hNr ((hN x).2 hh.1)), hh⟩⟩
  have hD : r.stats.dishonored = ((cs.map (·.i)).toFinset \ (cs.map (·.i)).toFinset.filter fun i => MeshHonors I m s i).card := by
    have h1 := F.dishonored
    rw [h1]
    refine Eq.trans ?_ ((hcount (fun i => i ∈ cs.map (·.i) ∧ ¬ MeshHonors I m s i)).trans ?_)
    · refine List.countP_congr fun i _ => ?_
      simp only [decide_eq_true_eq]
    · congr 1
      ext x
      simp only [Finset.mem_filter, Finset.mem_sdiff, hN, Finset.mem_range]
      constructor
      · exact fun hh => ⟨hh.2.1, fun h3 => hh.2.2 h3.2⟩
      · exact fun hh => ⟨Finset.mem_range.1 (hNr ((hN x).2 hh.1)), hh.1, fun h3 => hh.2 ⟨hh.1, h3⟩⟩
  have hsk := F.skipped
  have hnp : np I = I.points.length := rfl
  refine ⟨(cs.map (·.i)).toFinset, (cs.map (·.i)).toFinset.filter fun i => MeshHonors I m s i, Finset.filter_subset _ _, hNr, hH, hD, by rw [hcard]; omega, ?_, ?_⟩
  · rw [hH, hD, ← hnp, ← hsk, ← hcard]
    have := Finset.card_sdiff_add_card_eq_card (Finset.filter_subset (fun i => MeshHonors I m s i) (cs.map (·.i)).toFinset)
    omega
  intro i q tol hq ht
  have hi : i < np I := (List.getElem?_eq_some_iff.1 hq).1
  have hqp : p0 I i = q := by
    rw [p0_snap hi]
    exact (List.getElem?_eq_some_iff.1 hq).2
  have htol : tol = I.tol i := by
    unfold HasTolerance at ht
    unfold Input.tol
    by_cases h : I.tolerances = []
    · rw [if_pos h] at ht; rw [if_pos (by rw [h]; rfl)]; exact ht
    · rw [if_neg h] at ht
      rw [if_neg (by simpa using h), List.getD_eq_getElem?_getD, ht]; rfl
  have hDist : ∀ fi f, I.faces[fi]? = some f → D I m i fi = distTo I.T (tri I.vertices f) q := fun fi f hf' => by
    unfold D
    rw [F.face fi f hf', hqp]
    unfold distTo Thinner.Spec.surface hull3
    rw [← p0_shift_tri]
  have hDist' : ∀ f ∈ r.faces, distTo I.T (tri r.vertices f) q = Metric.infDist (toE (s.ap i)) (hull3 (s.ap (row f.1)) (s.ap (row f.2.1)) (s.ap (row f.2.2))) := fun f hf' => by
    rw [E.tri_eq hf']
    unfold distTo Thinner.Spec.surface hull3 State.tri
    simp only [F.j.inv.ap]
    rw [F.j.inv.snap i hi, hqp]
  have hPr : ∀ f ∈ r.faces, Proper I.T (tri r.vertices f) → s.ap (row f.1) ≠ s.ap (row f.2.1) := fun f hf' hP => by
    rw [E.tri_eq hf'] at hP
    rw [F.j.inv.ap, F.j.inv.ap]
    exact hP
  have ht0 : |I.tol i| = tol := by rw [htol]; exact abs_of_nonneg (tol_nonneg hI.nonneg i)
  refine ⟨fun hi' => ?_, fun hi' f hf' hP => ?_, fun hi' => ?_, fun hi1 hi2 f hf' hP => ?_⟩
  · obtain ⟨c, hc, rfl⟩ := List.mem_map.1 ((hN i).1 hi')
    have hC := (F.cands c hc).1
    obtain ⟨f, q1, q2⟩ := F.given hC.fi
    exact ⟨f, List.mem_of_getElem? q1, by rw [← hDist _ _ q1]; exact hC.near⟩
  · obtain ⟨fi, hfi⟩ := List.getElem?_of_mem hf'
    have hlt : fi < m.nf := by rw [F.nf]; exact (List.getElem?_eq_some_iff.1 hfi).1
    rw [← hDist fi f hfi]
    refine F.far i hi (fun hh => hi' ((hN i).2 hh)) fi hlt ?_
    unfold Proper at hP
    rw [← p0_shift_tri] at hP
    rw [F.face fi f hfi]
    exact hP
  · obtain ⟨fi, g, h1, h2, h3⟩ := (Finset.mem_filter.1 hi').2
    have hmem : g ∈ (List.range m.nf).flatMap (cur m s) := List.mem_flatMap.2 ⟨fi, List.mem_range.2 h1, h2⟩
    rw [E.faces] at hmem
    obtain ⟨f, hfr, rfl⟩ := List.mem_map.1 hmem
    have h4 := honoredBy_sound h3
    rw [ht0] at h4
    refine ⟨f, hfr, ?_⟩
    rw [hDist' f hfr]
    exact h4
  · by_contra hcon
    refine hi2 (Finset.mem_filter.2 ⟨hi1, ?_⟩)
    obtain ⟨fi, h1, h2⟩ := E.patch hf'
    have hle := not_lt.1 hcon
    rw [hDist' f hf', ← ht0] at hle
    exact ⟨fi, _, h1, h2, honoredBy_complete (hPr f hf' hP) hle⟩

/-- Without points, or without faces, the mesh is returned as it is. -/
theorem C63_nothing_to_do (I : Input) (S : Sorts) (fuel : Nat) (h : I.points = [] ∨ I.faces = []) :
    snapMesh I S fuel = some (.ok ⟨I.vertices, I.faces, ⟨0, 0, 0⟩⟩) := by
  unfold snapMesh
  rw [if_pos (by rcases h with h | h <;> simp [h])]

/-- A mesh that is not an oriented manifold is refused, and so are tolerances that are neither missing nor one for each point. -/
theorem C63_refused (I : Input) (S : Sorts) (fuel : Nat) (hp : I.points ≠ []) (hf : I.faces ≠ []) (hc : ∀ f ∈ I.faces, Nondeg f) :
    (¬ Manifold (fun i => I.faces[i]?) → snapMesh I S fuel = some (.throws .runtimeError)) ∧
    (Manifold (fun i => I.faces[i]?) → I.tolerances ≠ [] → I.tolerances.length ≠ I.points.length → snapMesh I S fuel = some (.throws .invalidArgument)) := by
  unfold snapMesh build
  rw [if_neg (by simp [hp, hf])]
  have hd : ∀ f ∈ shifted I, Nondeg f := fun f hf => by
    obtain ⟨g, hg, rfl⟩ := List.mem_map.1 hf
    exact shift_nondeg.2 (hc g hg)
  constructor
  · intro hm
    rw [(C35_construct (shifted I) hd).2 (fun h => hm (shifted_manifold.1 h))]
  · intro hm h1 h2
    obtain ⟨m, e, -⟩ := (C35_construct (shifted I) hd).1 (shifted_manifold.2 hm)
    rw [e]
    exact if_pos ⟨by simpa using h1, h2⟩

/-- Nothing is undefined, and the only exceptions of a call with valid arguments are `runtime_error` (a point is to be inserted in a face of the given mesh
whose area is zero in the transformed frame) and, from the intersection test, `bad_alloc` or `out_of_range`. -/
theorem C63_exceptions (hI : Valid I) (hS : ∀ l, (S.candidates l).Perm l) {o : Outcome Result} (h : snapMesh I S fuel = some o) :
    (∃ r, o = .ok r) ∨ o = .throws .runtimeError ∨ o = .throws .badAlloc ∨ o = .throws .outOfRange := by
  have hX : ∀ (s : State) a b, Fine (fun e => e = Err.runtimeError ∨ e = Err.badAlloc ∨ e = Err.outOfRange) (s.intersect a b) :=
    intersect_fine (Or.inr (Or.inl rfl)) (Or.inr (Or.inr rfl))
  have := snap_fine (B := fun e => e = .runtimeError ∨ e = .badAlloc ∨ e = .outOfRange) hI S hS (fun _ _ => True) (fun _ _ _ => trivial)
    (fun m home hm _ _ s c _ hc hJ _ => ⟨place_fine hI.resolution (tol_nonneg hI.nonneg) hI.transform hm hX (Or.inl rfl) hJ hc, fun _ _ => trivial⟩) h
  rcases o with r | e | _
  · exact Or.inl ⟨r, rfl⟩
  · rcases this with rfl | rfl | rfl <;> simp
  · exact this.elim

/-! ## An example: the corner of a triangle is pulled to a point above it -/

/-- A triangle and a point above its first corner. -/
noncomputable def one : Input where
  vertices := [(0, 0, 0), (1, 0, 0), (0, 1, 0)]
  faces := [(0, 1, 2)]
  points := [(0, 0, 1 / 2)]
  tolerances := []
  resolution := 2
  T := id

/-- The simplices of `one` in the order of their distances (0, 2/9, 1/4, 1/4, 1/2, 1, 1). -/
def oneSorts : Sorts where
  order := fun _ => [0, 6, 4, 5, 3, 1, 2]
  candidates := id

theorem one_face {i : Nat} {f : Face} (h : one.faces[i]? = some f) : i = 0 ∧ f = (0, 1, 2) := by
  unfold one at h
  rcases i with _ | i <;> simp at h
  exact ⟨rfl, h.symm⟩

theorem one_valid : Valid one where
  corners := by simp [one, Nondeg]
  manifold := by
    intro i j f g a b hf hg _ _
    rw [(one_face hf).1, (one_face hg).1]
  tolerances := Or.inl rfl
  nonneg := by simp [one]
  resolution := by simp [one]
  transform := ⟨LinearMap.id, fun _ => rfl⟩

theorem one_tol (i : Nat) : one.tol i = 0 := by simp [Input.tol, one]

/-- The call returns, and the point is honored. -/
theorem one_snapped (n : Nat) : ∃ r, snapMesh one oneSorts (n + 2) = some (.ok r) ∧ r.stats.honored = 1 := by
  have hS : ∀ l, (oneSorts.candidates l).Perm l := fun l => List.Perm.refl l
  obtain ⟨m, home, s, cs, k, h1, hm, hnf, hface, h2, h3, hp, hca, h6, h7, h8, h9⟩ := prepared one_valid oneSorts hS
  have hnp : np one = 1 := rfl
  have hnf1 : m.nf = 1 := hnf
  have hf0 : m.face 0 = (1, 2, 3) := hface 0 (0, 1, 2) rfl
  have q0 : p0 one 0 = (0, 0, 1 / 2) := rfl
  have q1 : p0 one 1 = (0, 0, 0) := rfl
  have q2 : p0 one 2 = (1, 0, 0) := rfl
  have q3 : p0 one 3 = (0, 1, 0) := rfl
  have hap : ∀ r, s.ap r = p0 one r := fun r => by rw [h3.inv.ap, hp]; rfl
  have hcur : cur m s 0 = [m.face 0] := by unfold cur; rw [if_pos (hca 0)]
  -- the point is not honored
  have hnot : ¬ MeshHonors one m s 0 := by
    rintro ⟨fi, f, hfi, hf, hh⟩
    have : fi = 0 := by omega
    subst this
    rw [hcur, List.mem_singleton] at hf
    subst hf
    have hs := honoredBy_sound hh
    rw [one_tol, abs_zero, hf0] at hs
    dsimp only at hs
    rw [hap, hap, hap, hap] at hs
    obtain ⟨y, hy, hd⟩ := hull3_attained (p0 one 1) (p0 one 2) (p0 one 3) (toE (p0 one 0))
    rw [hd] at hs
    have hy0 := (hull3_coord hy).2.2
    have heq : toE (p0 one 0) = y := dist_le_zero.1 hs
    rw [← heq] at hy0
    have : (toE (p0 one 0)) 2 = 1 / 2 := by rw [q0]; simp [toE]
    rw [this, q1, q2, q3] at hy0
    simp [MeshDefects.bboxOf, MeshDefects.cmin, MeshDefects.cmax] at hy0
    norm_num at hy0
  -- there is one candidate
  have hmem : 0 ∈ (oneSorts.candidates cs).map (·.i) := by
    by_contra hn
    have hfar := h8 0 (by rw [hnp]; omega) hn 0 (by omega) (by rw [hf0]; dsimp only; rw [q1, q2]; intro e; simpa [one] using congrArg Prod.fst e)
    have : D one m 0 0 ≤ dist (toE (p0 one 0)) (toE (p0 one 1)) := by
      unfold D
      rw [hf0]
      exact Metric.infDist_le_dist_of_mem (subset_convexHull ℝ _ (by left; rfl))
    have hd : dist (toE (p0 one 0)) (toE (p0 one 1)) = 1 / 2 := by
      rw [q0, q1, EuclideanSpace.dist_eq]
      simp [toE, Fin.sum_univ_three]
    rw [hd] at this
    have : one.resolution = 2 := rfl
    linarith
  have hcs : oneSorts.candidates cs = cs := rfl
  rw [hcs] at h6 h7 h8 h9 hmem
  obtain ⟨c, hc, hci⟩ := List.mem_map.1 hmem
  have hlen : cs = [c] := by
    have : cs.length ≤ 1 := by omega
    rcases cs with _ | ⟨d, _ | ⟨e, l⟩⟩
    · cases hc
    · rw [List.mem_singleton] at hc; rw [hc]
    · simp at this
  obtain ⟨hC, hO⟩ := h6 c hc
  have hfi : c.fi = 0 := by have := hC.fi; omega
  obtain ⟨d, hord⟩ := hC.order
  have hord : c.order = [0, 6, 4, 5, 3, 1, 2] := hord
  have hcor : Corner (m.face c.fi) 1 := by rw [hfi, hf0]; exact Or.inl rfl
  have hvf : m.vertexFaces 1 = [0] := by
    have hnd : (m.vertexFaces 1).Nodup := ((C35_reachable_consistent hm.reach).vertexFaces 1).1
    have h0 : 0 ∈ m.vertexFaces 1 := hm.mem_vertexFaces.2 ⟨by omega, by rw [hf0]; exact Or.inl rfl⟩
    have hall : ∀ x ∈ m.vertexFaces 1, x = 0 := fun x hx => by have := (hm.mem_vertexFaces.1 hx).1; omega
    generalize m.vertexFaces 1 = l at *
    rcases l with _ | ⟨a, _ | ⟨b, l⟩⟩
    · cases h0
    · rw [hall a (by simp)]
    · have := hall a (by simp)
      have := hall b (by simp)
      simp at hnd
      omega
  have hmove := trySnapVertex_places (c := c) one_valid.resolution (tol_nonneg one_valid.nonneg) one_valid.transform hm h3 hO.i hO.fi hcor
    (fun s' hE ha hq => by
      rw [hvf] at hE ⊢
      simp only [List.map_cons, List.map_nil, hcur]
      constructor
      · unfold folded
        simp only [List.any_cons, List.any_nil, Bool.or_false, decide_eq_false_iff_not, not_lt]
        rw [hf0]
        dsimp only
        rw [ha, hq, h3.inv.anchor 1 (by omega), h3.inv.anchor 2 (by omega), h3.inv.anchor 3 (by omega)]
        simp only [upd, if_true, hap, hci, q0, q1, q2, q3]
        norm_num [Thinner.crossP, dotP, one, q0, q1, q2, q3]
      · unfold selfIntersects
        simp only [List.flatMap_cons, List.flatMap_nil, List.append_nil, List.map_cons, List.map_nil]
        have e1 : hitsEachOther s' [m.face 0] = .ok false := by simp [hitsEachOther, hitsList]
        rw [e1]
        simp only [Outcome.ok_bind, Bool.false_eq_true, if_false]
        unfold hitsOthers
        obtain ⟨g, e2, hI, -⟩ := hE.forEachF (MeshDefects.bboxOf (s'.atri (m.face 0))) (Thinner.stopAtHit (hitsPatch m s' [0] (m.face 0))) (.ok false)
        rw [e2]
        simp only [Outcome.ok_bind]
        have hv : ∀ l : List Nat, (∀ x ∈ l, x = 0) → (SpatialGrid.Spec.callUntil (Thinner.stopAtHit (hitsPatch m s' [0] (m.face 0))) l (.ok false)).1 = .ok false := fun l => by
          induction l with
          | nil => intro _; rfl
          | cons x l ih =>
              intro hx
              have := hx x (by simp)
              subst this
              have e3 : Thinner.stopAtHit (hitsPatch m s' [0] (m.face 0)) (.ok false) 0 = (.ok false, true) := by
                unfold Thinner.stopAtHit hitsPatch
                simp
              unfold SpatialGrid.Spec.callUntil
              rw [e3]
              exact ih fun x hx' => hx x (by simp [hx'])
        rw [hv _ fun x hx => by have := hE.visitsF _ hx; omega]
        exact ⟨_, rfl⟩)
  obtain ⟨⟨s1, ok, dis⟩, e1, hok⟩ := hmove
  dsimp only at hok
  subst hok
  have hT := trySnapVertex_spec one_valid.resolution (tol_nonneg one_valid.nonneg) one_valid.transform hm h3 hO.i hO.fi hcor e1
  have hdis : dis = [] := by
    rw [List.eq_nil_iff_forall_not_mem]
    intro x hx
    obtain ⟨d1, d2, -⟩ := (hT.dis x).1 hx
    have : x = 0 := by omega
    subst this
    exact hnot d2
  subst hdis
  have hplace : place one m s c = .ok (s1, true, []) := by
    unfold place tryMoveNearbyVertex
    rw [one_tol, if_pos (by simp)]
    simp only [Outcome.ok_bind, Bool.false_eq_true, if_false]
    obtain ⟨b, eb⟩ := alreadySatisfied_ok hm h3.inv hO.fi
    rw [eb]
    simp only [Outcome.ok_bind]
    cases b with
    | true => exact absurd (by have := satisfied_honors h3.inv hm hO.fi eb; rwa [hci] at this) hnot
    | false =>
        simp only [Bool.false_eq_true, if_false]
        rw [hord]
        unfold cascade
        have : trySnap one m s c 0 = .ok (s1, true, []) := by
          unfold trySnap
          rw [if_pos (by omega), hfi, hf0]
          exact e1
        rw [this]
        rfl
  have hJ1 : J one m home s1 := hT.j
  obtain ⟨r, s2, row, e2, g1, g2, g3, g4, g5, g6⟩ := conclude_spec one_valid.resolution (cs := cs) k hJ1.inv
  refine ⟨r, ?_, ?_⟩
  · unfold snapMesh build
    rw [if_neg (by simp [one]), h1]
    dsimp only
    rw [if_neg (by simp [one]), h2]
    dsimp only
    rw [hcs, hlen]
    have hl : loop one m [c] (n + 2) s ((List.range [c].length).foldl (fun q ci => push [c] ci q) []) (fun _ => kSnapBudget) = some (.ok s1) := by
      have : (List.range [c].length).foldl (fun q ci => push [c] ci q) [] = [0] := rfl
      rw [this]
      unfold loop
      simp only [List.getElem?_cons_zero]
      rw [hplace]
      dsimp only [List.foldl_nil]
      unfold loop
      rfl
    rw [hl]
    dsimp only
    rw [← hlen, e2]
  · rw [g5, hnp]
    have hM : MeshHonors one m s2 0 := by
      rw [g1.meshHonors]
      obtain ⟨fi, f, v, p1, p2, p3, p4⟩ := hT.placed rfl
      refine ⟨fi, f, p1, p2, at_place ?_⟩
      dsimp only at p4
      have : s1.ap v = s1.ap 0 := by rw [hJ1.inv.ap, hJ1.inv.ap, p4, hJ1.inv.snap 0 (by omega), hci]
      rcases p3 with rfl | rfl | rfl <;> simp [this]
    show List.countP _ [0] = 1
    rw [List.countP_cons_of_pos (by simp only [decide_eq_true_eq]; exact ⟨hmem, hM⟩)]
    rfl

/-- ... and its mesh meets the hypothesis of `C63_embedded`. -/
example : Embedded one.vertices one.faces := by
  intro i j f g hij hf hg
  exact absurd ((one_face hf).1.trans (one_face hg).1.symm) hij

/-- A closed mesh: two copies of the triangle, back to back. -/
example : ∀ a b, net [((0, 1, 2) : Face), (0, 2, 1)] a b = 0 := by
  intro a b
  unfold net sides
  simp only [List.flatMap_cons, List.flatMap_nil, List.append_nil, List.cons_append, List.nil_append, List.count_cons, List.count_nil]
  have h : ∀ x y : Nat, (((x, y) : Nat × Nat) == (a, b)) = (((y, x) : Nat × Nat) == (b, a)) := fun x y => by
    rw [Bool.eq_iff_iff, beq_iff_eq, beq_iff_eq, Prod.mk.injEq, Prod.mk.injEq]; tauto
  simp only [h]
  push_cast
  ring

/-- A mesh that is refused: two faces with the same side. -/
example : ¬ Manifold (fun i => [((0, 1, 2) : Face), (0, 1, 3)][i]?) := fun h => by
  have := h 0 1 (0, 1, 2) (0, 1, 3) 0 1 rfl rfl (Or.inl ⟨rfl, rfl⟩) (Or.inl ⟨rfl, rfl⟩)
  omega

end Verif.Snapper
