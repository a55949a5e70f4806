import Verif.Lemmas.PipelineMesh
import Verif.Props.Snapper

/-!
# The snapped mesh, if the next step accepts it
-/

namespace Verif.Pipeline

open Verif Verif.AbstractMesh
open Verif.Predicates (P3)
open Verif.Snapper.Spec (sides net)

/-! ## The constructor accepts oriented manifolds only, also with degenerate faces -/

/-- The halfedges of the first `n` faces are registered at their corners. -/
def Reg (face : Nat → Face) (n : Nat) (m : Mesh) : Prop := m.face = face ∧ ∀ fi < n, ∀ k < 3, 4 * fi + k ∈ m.vh (corner (face fi) k)

theorem registerEdge_none {m : Mesh} {fi k : Nat} (h : (m.registerEdge fi k).2 = false) : m.halfedgeOf (corner (m.face fi) k) (corner (m.face fi) ((k + 1) % 3)) = none := by
  unfold Mesh.registerEdge at h
  dsimp only at h
  split at h
  · cases h
  · rename_i h1
    simpa using h1

theorem halfedgeOf_vh {m m' : Mesh} (h1 : m'.vh = m.vh) (h2 : m'.face = m.face) (a b : Nat) : m'.halfedgeOf a b = m.halfedgeOf a b := by
  unfold Mesh.halfedgeOf Mesh.to_
  rw [h1, h2]

theorem push_mem {m : Mesh} {fi k v h : Nat} (hm : h ∈ m.vh v) : h ∈ (m.pushHalfedge fi k).vh v := by
  rw [push_vh]
  split
  · exact List.mem_append_left _ hm
  · exact hm

theorem push_self (m : Mesh) (fi k : Nat) : 4 * fi + k ∈ (m.pushHalfedge fi k).vh (corner (m.face fi) k) := by
  rw [push_vh, if_pos rfl]
  simp

theorem registerFace_reg {face : Nat → Face} {n : Nat} {m m' : Mesh} (h : Reg face n m) (e : m.registerFace n = (m', .ok ())) :
    Reg face (n + 1) m' ∧ ∀ fi < n, ∀ k < 3, ∀ j < 3, ¬ (corner (face fi) k = corner (face n) j ∧ corner (face fi) ((k + 1) % 3) = corner (face n) ((j + 1) % 3)) := by
  obtain ⟨hf, hv⟩ := h
  obtain ⟨v0, f0, -⟩ := registerEdge_frame n m 0
  obtain ⟨v1, f1, -⟩ := registerEdge_frame n (m.registerEdge n 0).1 1
  obtain ⟨v2, f2, -⟩ := registerEdge_frame n ((m.registerEdge n 0).1.registerEdge n 1).1 2
  have g1 : (m.registerEdge n 0).1.face = face := f0.trans hf
  have g2 : ((m.registerEdge n 0).1.registerEdge n 1).1.face = face := f1.trans g1
  have g3 : (((m.registerEdge n 0).1.registerEdge n 1).1.registerEdge n 2).1.face = face := f2.trans g2
  have w1 : (m.registerEdge n 0).1.vh = m.vh := v0
  have w2 : ((m.registerEdge n 0).1.registerEdge n 1).1.vh = m.vh := v1.trans w1
  have w3 : (((m.registerEdge n 0).1.registerEdge n 1).1.registerEdge n 2).1.vh = m.vh := v2.trans w2
  unfold Mesh.registerFace at e
  dsimp only at e
  split at e
  · cases e
  rename_i t0
  split at e
  · cases e
  rename_i t1
  split at e
  · cases e
  rename_i t2
  simp only [Bool.not_eq_true] at t0 t1 t2
  have n0 := registerEdge_none t0
  have n1 := registerEdge_none t1
  have n2 := registerEdge_none t2
  rw [hf] at n0
  rw [halfedgeOf_vh w1 (f0), g1] at n1
  rw [halfedgeOf_vh w2 (f1.trans f0), g2] at n2
  have hnone : ∀ j < 3, m.halfedgeOf (corner (face n) j) (corner (face n) ((j + 1) % 3)) = none := by
    intro j hj
    have : j = 0 ∨ j = 1 ∨ j = 2 := by omega
    rcases this with rfl | rfl | rfl
    · exact n0
    · exact n1
    · exact n2
  cases e
  constructor
  · refine ⟨g3, fun fi hfi k hk => ?_⟩
    rcases Nat.lt_or_ge fi n with hlt | hge
    · exact push_mem (push_mem (push_mem (by rw [w3]; exact hv fi hlt k hk)))
    · have : fi = n := by omega
      subst this
      have hk' : k = 0 ∨ k = 1 ∨ k = 2 := by omega
      rcases hk' with rfl | rfl | rfl
      · refine push_mem (push_mem ?_)
        have := push_self (((m.registerEdge fi 0).1.registerEdge fi 1).1.registerEdge fi 2).1 fi 0
        rw [g3] at this; exact this
      · refine push_mem ?_
        have := push_self ((((m.registerEdge fi 0).1.registerEdge fi 1).1.registerEdge fi 2).1.pushHalfedge fi 0) fi 1
        rw [show ((((m.registerEdge fi 0).1.registerEdge fi 1).1.registerEdge fi 2).1.pushHalfedge fi 0).face = face from g3] at this; exact this
      · have := push_self (((((m.registerEdge fi 0).1.registerEdge fi 1).1.registerEdge fi 2).1.pushHalfedge fi 0).pushHalfedge fi 1) fi 2
        rw [show (((((m.registerEdge fi 0).1.registerEdge fi 1).1.registerEdge fi 2).1.pushHalfedge fi 0).pushHalfedge fi 1).face = face from g3] at this; exact this
  · rintro fi hfi k hk j hj ⟨e1, e2⟩
    have h1 := hnone j hj
    unfold Mesh.halfedgeOf at h1
    rw [List.find?_eq_none] at h1
    have h2 := h1 (4 * fi + k) (by rw [← e1]; exact hv fi hfi k hk)
    apply h2
    rw [beq_iff_eq, ← e2]
    unfold Mesh.to_ 
    rw [hf]
    have d1 : (4 * fi + k) / 4 = fi := by omega
    have d2 : (4 * fi + k) % 4 = k := by omega
    simp only [d1, d2]
    unfold ccw
    have hk' : k = 0 ∨ k = 1 ∨ k = 2 := by omega
    rcases hk' with rfl | rfl | rfl <;> rfl

theorem registerAll_reg {face : Nat → Face} : ∀ (c n : Nat) (m m' : Mesh), Reg face n m → Mesh.registerAll ((List.range c).map (n + ·)) m = (m', .ok ()) →
    ∀ fj, n ≤ fj → fj < n + c → ∀ fi < fj, ∀ k < 3, ∀ j < 3, ¬ (corner (face fi) k = corner (face fj) j ∧ corner (face fi) ((k + 1) % 3) = corner (face fj) ((j + 1) % 3)) := by
  intro c
  induction c with
  | zero => intro n m m' _ _ fj h1 h2; omega
  | succ c ih =>
      intro n m m' hR e fj h1 h2
      rw [List.range_succ_eq_map, List.map_cons, Nat.add_zero] at e
      unfold Mesh.registerAll at e
      rcases er : m.registerFace n with ⟨m2, _ | _ | _⟩ <;> rw [er] at e <;> dsimp only at e
      · obtain ⟨hR', hn⟩ := registerFace_reg hR er
        rcases Nat.eq_or_lt_of_le h1 with rfl | hlt
        · exact hn
        · refine ih (n + 1) m2 m' hR' ?_ fj (by omega) (by omega)
          rw [← e, List.map_map]
          congr 1
          apply List.map_congr_left
          intro x _
          simp only [Function.comp]; omega
      · cases e
      · cases e

theorem side_corners {f : Face} {a b : Nat} (h : Side f a b) : ∃ k < 3, corner f k = a ∧ corner f ((k + 1) % 3) = b := by
  rcases h with ⟨h1, h2⟩ | ⟨h1, h2⟩ | ⟨h1, h2⟩
  · exact ⟨0, by omega, h1, h2⟩
  · exact ⟨1, by omega, h1, h2⟩
  · exact ⟨2, by omega, h1, h2⟩

theorem ofFaces_manifold {fs : List Face} {m : Mesh} (h : Mesh.ofFaces fs = .ok m) : Manifold (fun i => fs[i]?) := by
  unfold Mesh.ofFaces at h
  rcases e : Mesh.registerAll (List.range fs.length) ⟨fs.length, fun i => fs.getD i (0, 0, 0), fs.length, fun _ => false, fun _ => none, fun _ => []⟩ with
    ⟨m1, _ | _ | _⟩ <;> rw [e] at h <;> cases h
  have e' : Mesh.registerAll ((List.range fs.length).map (0 + ·)) ⟨fs.length, fun i => fs.getD i (0, 0, 0), fs.length, fun _ => false, fun _ => none, fun _ => []⟩ = (m, .ok ()) := by
    rw [← e]; congr 1; simp
  have key := registerAll_reg (face := fun i => fs.getD i (0, 0, 0)) fs.length 0 _ m ⟨rfl, fun fi hfi => absurd hfi (Nat.not_lt_zero _)⟩ e'
  have main : ∀ (fi fj : Nat) (f g : Face) (a b : Nat), fs[fi]? = some f → fs[fj]? = some g → Side f a b → Side g a b → ¬ fi < fj := by
    intro fi fj f g a b hf hg sf sg hlt
    obtain ⟨k, hk, k1, k2⟩ := side_corners sf
    obtain ⟨j, hj, j1, j2⟩ := side_corners sg
    refine key fj (Nat.zero_le _) (by rw [Nat.zero_add]; exact (List.getElem?_eq_some_iff.1 hg).1) fi hlt k hk j hj ?_
    simp only [List.getD_eq_getElem?_getD, hf, hg, Option.getD_some]
    exact ⟨k1.trans j1.symm, k2.trans j2.symm⟩
  intro fi fj f g a b hf hg sf sg
  have h1 := main fi fj f g a b hf hg sf sg
  have h2 := main fj fi g f a b hg hf sg sf
  omega

theorem manifold_pairwise {fs : List Face} (h : Manifold (fun i => fs[i]?)) : fs.Pairwise fun f g => ∀ a b, Side f a b → ¬ Side g a b := by
  rw [List.pairwise_iff_getElem]
  intro i j hi hj hij a b h1 h2
  have := h i j _ _ a b (List.getElem?_eq_getElem hi) (List.getElem?_eq_getElem hj) h1 h2
  omega

/-! ## Degenerate faces -/

section
open Verif.Snapper Verif.Triangulation.Spec

variable {I : Thinner.Input} {m : Mesh} {s : State} {home : Nat → Nat}

/-- The rows on the boundary of a patch are different. -/
theorem boundary_nodup (hm : MeshOk I m) (hd : ∀ fi < m.nf, Nondeg (m.face fi)) (hJ : J I m home s) {fi : Nat} (hfi : fi < m.nf) : (boundaryIds s (m.face fi)).Nodup := by
  obtain ⟨n1, n2, n3⟩ := hd fi hfi
  have hfree : ∀ r, Corner (m.face fi) r → ∀ e, ∀ x ∈ s.chains e, x.2 ≠ r := by
    intro r hr e x hx he
    have := hm.rows fi hfi r hr
    have h2 := hJ.inv.chain e x hx
    omega
  have hch : ∀ a b, (chainRows s a b).Nodup := by
    intro a b
    unfold chainRows
    dsimp only
    split
    · exact hJ.chains.nodup _
    · exact List.nodup_reverse.2 (hJ.chains.nodup _)
  have hmem : ∀ a b r, r ∈ chainRows s a b → ∃ x ∈ s.chains (Snapper.edgeOf a b), x.2 = r := fun a b r h => mem_chainRows.1 h
  have hdis : ∀ a b c d, Snapper.edgeOf a b ≠ Snapper.edgeOf c d → ∀ r, r ∈ chainRows s a b → r ∉ chainRows s c d := by
    intro a b c d hne r h1 h2
    obtain ⟨x, hx, rfl⟩ := hmem _ _ _ h1
    obtain ⟨y, hy, e⟩ := hmem _ _ _ h2
    exact hne (hJ.chains.one _ _ x hx y hy e.symm)
  have hno : ∀ a b r, Corner (m.face fi) r → r ∉ chainRows s a b := by
    intro a b r hr h
    obtain ⟨x, hx, e⟩ := hmem _ _ _ h
    exact hfree r hr _ x hx e
  have c1 : Corner (m.face fi) (m.face fi).1 := Or.inl rfl
  have c2 : Corner (m.face fi) (m.face fi).2.1 := Or.inr (Or.inl rfl)
  have c3 : Corner (m.face fi) (m.face fi).2.2 := Or.inr (Or.inr rfl)
  have e12 : Snapper.edgeOf (m.face fi).1 (m.face fi).2.1 ≠ Snapper.edgeOf (m.face fi).2.1 (m.face fi).2.2 := by
    intro h; have := edgeOf_inj h; omega
  have e13 : Snapper.edgeOf (m.face fi).1 (m.face fi).2.1 ≠ Snapper.edgeOf (m.face fi).2.2 (m.face fi).1 := by
    intro h; have := edgeOf_inj h; omega
  have e23 : Snapper.edgeOf (m.face fi).2.1 (m.face fi).2.2 ≠ Snapper.edgeOf (m.face fi).2.2 (m.face fi).1 := by
    intro h; have := edgeOf_inj h; omega
  have d12 := hdis _ _ _ _ e12
  have d13 := hdis _ _ _ _ e13
  have d23 := hdis _ _ _ _ e23
  unfold boundaryIds
  generalize (m.face fi).1 = a at *
  generalize (m.face fi).2.1 = b at *
  generalize (m.face fi).2.2 = c at *
  simp only [List.nodup_append, List.nodup_cons, List.mem_append, List.mem_cons, List.cons_append]
  grind

theorem rowOf_inj (hm : MeshOk I m) (hd : ∀ fi < m.nf, Nondeg (m.face fi)) (hJ : J I m home s) {fi : Nat} (hfi : fi < m.nf) {i j : Nat}
    (hi : i < (boundaryIds s (m.face fi)).length) (hj : j < (boundaryIds s (m.face fi)).length) (h : rowOf s (m.face fi) fi i = rowOf s (m.face fi) fi j) : i = j := by
  have hn := boundary_nodup hm hd hJ hfi
  unfold rowOf at h
  simp only [List.getD_eq_getElem?_getD, List.getElem?_append_left hi, List.getElem?_append_left hj, List.getElem?_eq_getElem hi, List.getElem?_eq_getElem hj,
    Option.getD_some] at h
  exact (List.Nodup.getElem_inj_iff hn).1 h

theorem mapFace_side {g : Nat → Nat} {f : Face} {a b : Nat} (h : Side f a b) : Side (mapFace g f) (g a) (g b) := by
  rcases h with ⟨rfl, rfl⟩ | ⟨rfl, rfl⟩ | ⟨rfl, rfl⟩
  · exact Or.inl ⟨rfl, rfl⟩
  · exact Or.inr (Or.inl ⟨rfl, rfl⟩)
  · exact Or.inr (Or.inr ⟨rfl, rfl⟩)

/-- A patch with a face whose rows are not different has a directed edge twice. -/
theorem patch_nondeg (hm : MeshOk I m) (hd : ∀ fi < m.nf, Nondeg (m.face fi)) (hJ : J I m home s) {fi : Nat} (hfi : fi < m.nf)
    (hp : (cur m s fi).Pairwise fun f g => ∀ a b, Side f a b → ¬ Side g a b) : ∀ g ∈ cur m s fi, Nondeg g := by
  obtain ⟨T, hT, -, e⟩ := hJ.tri fi hfi
  rw [e] at hp ⊢
  rw [List.pairwise_map] at hp
  have : Std.Symm (fun f g : Face => ∀ a b, Side (mapFace (rowOf s (m.face fi) fi) f) a b → ¬ Side (mapFace (rowOf s (m.face fi) fi) g) a b) :=
    ⟨fun f g h a b h1 h2 => h a b h2 h1⟩
  have hall : ∀ f, f ∈ T → ∀ g, g ∈ T → f ≠ g → ∀ a b, Side (mapFace (rowOf s (m.face fi) fi) f) a b → ¬ Side (mapFace (rowOf s (m.face fi) fi) g) a b :=
    fun f hf g hg hne => hp.forall hf hg hne
  have hinj := fun {i j : Nat} => rowOf_inj hm hd hJ hfi (i := i) (j := j)
  generalize rowOf s (m.face fi) fi = ρ at *
  generalize (boundaryIds s (m.face fi)).length = n at *
  -- three corners of a face in order; the first two have the same row
  have key : ∀ t ∈ T, ∀ a b c, Side t a b → Side t b c → Side t c a → Nondeg t → ρ a ≠ ρ b := by
    intro t ht a b c s1 s2 s3 hn heq
    have hne : a ≠ b := by
      obtain ⟨n1, n2, n3⟩ := hn
      rcases s1 with ⟨rfl, rfl⟩ | ⟨rfl, rfl⟩ | ⟨rfl, rfl⟩ <;> assumption
    have hrev : ∀ u v, Uses T u v → ¬ (u < n ∧ v < n) → Uses T v u := by
      intro u v hu hlt
      by_contra hc
      have := (hT.boundary u v).1 ⟨hu, hc⟩
      rcases this with ⟨-, h1, h2⟩ | ⟨h, -⟩
      · apply hlt
        refine ⟨h1, ?_⟩
        rw [h2]; exact Nat.mod_lt _ (by omega)
      · exact h
    have hdiff : ∀ u v t', Side t u v → Side t' v u → t ≠ t' := by
      rintro u v t' h1 h2 rfl
      obtain ⟨n1, n2, n3⟩ := hn
      unfold Side at h1 h2
      omega
    by_cases hb : b < n
    · have ha : ¬ a < n := fun ha => hne (hinj ha hb heq)
      obtain ⟨t', ht', hs'⟩ := hrev c a ⟨t, ht, s3⟩ (fun h => ha h.2)
      have := hall t ht t' ht' (hdiff c a t' s3 hs') (ρ b) (ρ c) (mapFace_side s2)
      apply this
      rw [← heq]
      exact mapFace_side hs'
    · obtain ⟨t', ht', hs'⟩ := hrev b c ⟨t, ht, s2⟩ (fun h => hb h.1)
      have := hall t ht t' ht' (hdiff b c t' s2 hs') (ρ c) (ρ a) (mapFace_side s3)
      apply this
      rw [heq]
      exact mapFace_side hs'
  intro g hg
  obtain ⟨t, ht, rfl⟩ := List.mem_map.1 hg
  have hn := hT.corners t ht
  have q1 : Side t t.1 t.2.1 := Or.inl ⟨rfl, rfl⟩
  have q2 : Side t t.2.1 t.2.2 := Or.inr (Or.inl ⟨rfl, rfl⟩)
  have q3 : Side t t.2.2 t.1 := Or.inr (Or.inr ⟨rfl, rfl⟩)
  exact ⟨key t ht _ _ _ q1 q2 q3 hn, key t ht _ _ _ q2 q3 q1 hn, key t ht _ _ _ q3 q1 q2 hn⟩

/-- If no directed edge of the returned mesh is in two faces, the returned faces have three different corners. -/
theorem snap_nondeg (hI : Snapper.Spec.Valid I) {S : Sorts} (hS : ∀ l, (S.candidates l).Perm l) {fuel : Nat} {r : Result} (e : snapMesh I S fuel = some (.ok r))
    (hman : Manifold (fun i => r.faces[i]?)) : ∀ f ∈ r.faces, Nondeg f ∧ f.1 < r.vertices.length ∧ f.2.1 < r.vertices.length ∧ f.2.2 < r.vertices.length := by
  by_cases h0 : I.points = [] ∨ I.faces = []
  · unfold snapMesh at e
    rw [if_pos (by simpa using h0)] at e
    cases e
    exact hI.corners
  rw [not_or] at h0
  obtain ⟨m, home, cs, s, row, F⟩ := snap_core hI S hS h0.1 h0.2 e
  have E := F.emitted
  have hd : ∀ fi < m.nf, Nondeg (m.face fi) := by
    intro fi hfi
    obtain ⟨f, h1, h2⟩ := F.given hfi
    rw [h2]
    exact shift_nondeg.2 (hI.corners f (List.mem_of_getElem? h1)).1
  have hp := manifold_pairwise hman
  have hp' : ((List.range m.nf).flatMap (cur m s)).Pairwise fun f g => ∀ a b, Side f a b → ¬ Side g a b := by
    rw [E.faces, List.pairwise_map]
    refine List.Pairwise.imp_of_mem ?_ hp
    intro f g hf hg h a b h1 h2
    have back : ∀ (f : Face), f ∈ r.faces → ∀ a b, Side (row f.1, row f.2.1, row f.2.2) a b → ∃ x y, x < r.vertices.length ∧ y < r.vertices.length ∧ row x = a ∧ row y = b ∧ Side f x y := by
      intro f hf a b h
      have c1 := E.lt f hf f.1 (Or.inl rfl)
      have c2 := E.lt f hf f.2.1 (Or.inr (Or.inl rfl))
      have c3 := E.lt f hf f.2.2 (Or.inr (Or.inr rfl))
      rcases h with ⟨h1, h2⟩ | ⟨h1, h2⟩ | ⟨h1, h2⟩
      · exact ⟨_, _, c1, c2, h1, h2, Or.inl ⟨rfl, rfl⟩⟩
      · exact ⟨_, _, c2, c3, h1, h2, Or.inr (Or.inl ⟨rfl, rfl⟩)⟩
      · exact ⟨_, _, c3, c1, h1, h2, Or.inr (Or.inr ⟨rfl, rfl⟩)⟩
    obtain ⟨x, y, x1, y1, x2, y2, hs⟩ := back f hf a b h1
    obtain ⟨x', y', x1', y1', x2', y2', hs'⟩ := back g hg a b h2
    have e1 := E.inj x x' x1 x1' (x2.trans x2'.symm)
    have e2 := E.inj y y' y1 y1' (y2.trans y2'.symm)
    subst e1 e2
    exact h _ _ hs hs'
  rw [List.pairwise_flatMap] at hp'
  intro f hf
  obtain ⟨fi, h1, h2⟩ := E.patch hf
  obtain ⟨n1, n2, n3⟩ := patch_nondeg F.mesh hd F.j h1 (hp'.1 fi (List.mem_range.2 h1)) _ h2
  exact ⟨⟨fun h => n1 (congrArg row h), fun h => n2 (congrArg row h), fun h => n3 (congrArg row h)⟩, E.lt f hf _ (Or.inl rfl), E.lt f hf _ (Or.inr (Or.inl rfl)),
    E.lt f hf _ (Or.inr (Or.inr rfl))⟩

/-- What smoothing accepts is an oriented manifold. -/
theorem smooth_manifold {I : Thinner.Input} {pop : Smoother.Pop} {fuel : Nat} {r : List P3 × List Face} (e : Smoother.smoothSnappedMesh I pop fuel = some (.ok r)) :
    Manifold (fun i => I.faces[i]?) := by
  unfold Smoother.smoothSnappedMesh at e
  cases hs : Thinner.start I with
  | throws _ => rw [hs] at e; cases e
  | ub => rw [hs] at e; cases e
  | ok s =>
      unfold Thinner.start at hs
      rw [Outcome.bind_eq_ok] at hs
      obtain ⟨m, e1, -⟩ := hs
      exact ofFaces_manifold e1

end

end Verif.Pipeline
