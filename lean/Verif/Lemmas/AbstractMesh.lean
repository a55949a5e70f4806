import Verif.Spec.AbstractMesh
import Mathlib.Tactic.IntervalCases

/-! # The halfedge structure is kept by registering and unregistering faces -/

namespace Verif.AbstractMesh

open Verif

/-- `h` is a halfedge of a face in `R`. -/
def IsHe (R : Nat → Prop) (h : Nat) : Prop := R (h / 4) ∧ h % 4 < 3

/-- The structure is that of the faces in `R`. -/
structure Inv (m : Mesh) (R : Nat → Prop) : Prop where
  nondeg : ∀ fi, R fi → Nondeg (m.face fi)
  mem : ∀ v h, h ∈ m.vh v ↔ IsHe R h ∧ m.from_ h = v
  nodup : ∀ v, (m.vh v).Nodup
  uniq : ∀ h h', IsHe R h → IsHe R h' → m.from_ h = m.from_ h' → m.to_ h = m.to_ h' → h = h'
  opp : ∀ h h', m.opp h = some h' ↔ IsHe R h ∧ IsHe R h' ∧ m.from_ h' = m.to_ h ∧ m.to_ h' = m.from_ h

theorem he_div (fi k : Nat) (hk : k < 4) : (4 * fi + k) / 4 = fi := by omega
theorem he_mod (fi k : Nat) (hk : k < 4) : (4 * fi + k) % 4 = k := by omega

theorem lt3 {k : Nat} (h : k < 3) : k = 0 ∨ k = 1 ∨ k = 2 := by omega

theorem ccw_eq {k : Nat} (h : k < 3) : ccw k = (k + 1) % 3 := by
  rcases lt3 h with rfl | rfl | rfl <;> rfl

theorem corner_inj {f : Face} (hf : Nondeg f) {i j : Nat} (hi : i < 3) (hj : j < 3) (h : corner f i = corner f j) : i = j := by
  obtain ⟨h1, h2, h3⟩ := hf
  rcases lt3 hi with rfl | rfl | rfl <;> rcases lt3 hj with rfl | rfl | rfl <;>
    first
      | rfl
      | exact absurd h h1 | exact absurd h.symm h1
      | exact absurd h h2 | exact absurd h.symm h2
      | exact absurd h h3 | exact absurd h.symm h3

theorem from_ne_to {f : Face} (hf : Nondeg f) {k : Nat} (hk : k < 3) : corner f k ≠ corner f (ccw k) := by
  intro h
  have := corner_inj hf hk (by rw [ccw_eq hk]; omega) h
  rw [ccw_eq hk] at this
  omega

/-- No face with three distinct corners contains both directions of an edge. -/
theorem not_both {f : Face} (hf : Nondeg f) {i j : Nat} (hi : i < 3) (hj : j < 3) (h1 : corner f i = corner f (ccw j))
    (h2 : corner f (ccw i) = corner f j) : False := by
  have e1 := corner_inj hf hi (by rw [ccw_eq hj]; omega) h1
  have e2 := corner_inj hf (by rw [ccw_eq hi]; omega) hj h2
  rw [ccw_eq hi] at e2
  rw [ccw_eq hj] at e1
  omega

/-- What `halfedge_of` finds. -/
theorem halfedgeOf_iff {m : Mesh} {R : Nat → Prop} (I : Inv m R) (a b h : Nat) :
    m.halfedgeOf a b = some h ↔ IsHe R h ∧ m.from_ h = a ∧ m.to_ h = b := by
  unfold Mesh.halfedgeOf
  constructor
  · intro hf
    have h1 := List.mem_of_find?_eq_some hf
    have h2 := List.find?_some hf
    rw [I.mem] at h1
    exact ⟨h1.1, h1.2, by simpa using h2⟩
  · rintro ⟨h1, h2, h3⟩
    have hex : ((m.vh a).find? (fun h => m.to_ h == b)).isSome := by
      rw [List.find?_isSome]
      exact ⟨h, (I.mem a h).2 ⟨h1, h2⟩, by simpa using h3⟩
    obtain ⟨x, hx⟩ := Option.isSome_iff_exists.1 hex
    rw [hx]
    have g1 := (I.mem a x).1 (List.mem_of_find?_eq_some hx)
    have g2 : m.to_ x = b := by simpa using List.find?_some hx
    rw [I.uniq x h g1.1 h1 (g1.2.trans h2.symm) (g2.trans h3.symm)]

theorem halfedgeOf_none {m : Mesh} {R : Nat → Prop} (I : Inv m R) (a b : Nat) :
    m.halfedgeOf a b = none ↔ ∀ h, IsHe R h → m.from_ h = a → m.to_ h = b → False := by
  constructor
  · intro hn h h1 h2 h3
    rw [(halfedgeOf_iff I a b h).2 ⟨h1, h2, h3⟩] at hn
    cases hn
  · intro hn
    cases hf : m.halfedgeOf a b with
    | none => rfl
    | some h =>
        obtain ⟨h1, h2, h3⟩ := (halfedgeOf_iff I a b h).1 hf
        exact (hn h h1 h2 h3).elim

/-- A directed edge of the face is already taken. -/
def Clash (m : Mesh) (R : Nat → Prop) (f : Face) : Prop :=
  ∃ h k, IsHe R h ∧ k < 3 ∧ m.from_ h = corner f k ∧ m.to_ h = corner f ((k + 1) % 3)

theorem halfedgeOf_congr {m m' : Mesh} (hv : m'.vh = m.vh) (hf : m'.face = m.face) (a b : Nat) :
    m'.halfedgeOf a b = m.halfedgeOf a b := by
  unfold Mesh.halfedgeOf Mesh.to_
  rw [hv, hf]

theorem registerEdge_frame (fi : Nat) (m : Mesh) (k : Nat) :
    (m.registerEdge fi k).1.vh = m.vh ∧ (m.registerEdge fi k).1.face = m.face ∧ (m.registerEdge fi k).1.nf = m.nf ∧
      (m.registerEdge fi k).1.deleted = m.deleted ∧ (m.registerEdge fi k).1.cap = m.cap := by
  unfold Mesh.registerEdge
  dsimp only
  split
  · exact ⟨rfl, rfl, rfl, rfl, rfl⟩
  · split <;> exact ⟨rfl, rfl, rfl, rfl, rfl⟩

/-- The pairs of opposite halfedges after `n` rounds of registering `fi`. -/
def Pairs (m0 : Mesh) (R : Nat → Prop) (fi n : Nat) (h h' : Nat) : Prop :=
  (IsHe R h ∧ IsHe R h' ∧ m0.from_ h' = m0.to_ h ∧ m0.to_ h' = m0.from_ h) ∨
  (∃ j, j < n ∧ h = 4 * fi + j ∧ m0.halfedgeOf (corner (m0.face fi) ((j + 1) % 3)) (corner (m0.face fi) j) = some h') ∨
  (∃ j, j < n ∧ h' = 4 * fi + j ∧ m0.halfedgeOf (corner (m0.face fi) ((j + 1) % 3)) (corner (m0.face fi) j) = some h)

theorem registerEdge_step {m0 m : Mesh} {R : Nat → Prop} {fi k : Nat} (I : Inv m0 R) (hR : ¬ R fi) (hk : k < 3)
    (hf : Nondeg (m0.face fi)) (hc : ¬ Clash m0 R (m0.face fi)) (hvh : m.vh = m0.vh) (hface : m.face = m0.face)
    (hopp : ∀ h h', m.opp h = some h' ↔ Pairs m0 R fi k h h') :
    (m.registerEdge fi k).2 = false ∧ ∀ h h', (m.registerEdge fi k).1.opp h = some h' ↔ Pairs m0 R fi (k + 1) h h' := by
  have hno : ∀ a b, m.halfedgeOf a b = m0.halfedgeOf a b := halfedgeOf_congr hvh hface
  have hnone : m0.halfedgeOf (corner (m0.face fi) k) (corner (m0.face fi) ((k + 1) % 3)) = none := by
    rw [halfedgeOf_none I]
    intro h h1 h2 h3
    exact hc ⟨h, k, h1, hk, h2, h3⟩
  have hhk : ¬ IsHe R (4 * fi + k) := by
    rintro ⟨h1, -⟩
    rw [he_div fi k (by omega)] at h1
    exact hR h1
  have hstep : ∀ h h', Pairs m0 R fi (k + 1) h h' ↔ Pairs m0 R fi k h h' ∨
      (h = 4 * fi + k ∧ m0.halfedgeOf (corner (m0.face fi) ((k + 1) % 3)) (corner (m0.face fi) k) = some h') ∨
      (h' = 4 * fi + k ∧ m0.halfedgeOf (corner (m0.face fi) ((k + 1) % 3)) (corner (m0.face fi) k) = some h) := by
    intro h h'
    unfold Pairs
    constructor
    · rintro (g | ⟨j, hj, g⟩ | ⟨j, hj, g⟩)
      · exact Or.inl (Or.inl g)
      · rcases Nat.lt_succ_iff_lt_or_eq.1 hj with hj | rfl
        · exact Or.inl (Or.inr (Or.inl ⟨j, hj, g⟩))
        · exact Or.inr (Or.inl g)
      · rcases Nat.lt_succ_iff_lt_or_eq.1 hj with hj | rfl
        · exact Or.inl (Or.inr (Or.inr ⟨j, hj, g⟩))
        · exact Or.inr (Or.inr g)
    · rintro ((g | ⟨j, hj, g⟩ | ⟨j, hj, g⟩) | g | g)
      · exact Or.inl g
      · exact Or.inr (Or.inl ⟨j, by omega, g⟩)
      · exact Or.inr (Or.inr ⟨j, by omega, g⟩)
      · exact Or.inr (Or.inl ⟨k, by omega, g⟩)
      · exact Or.inr (Or.inr ⟨k, by omega, g⟩)
  have hkx : ∀ x, ¬ Pairs m0 R fi k (4 * fi + k) x := by
    rintro x (g | ⟨j, hj, g, -⟩ | ⟨j, hj, -, g⟩)
    · exact hhk g.1
    · omega
    · exact hhk ((halfedgeOf_iff I _ _ _).1 g).1
  unfold Mesh.registerEdge
  dsimp only
  rw [hface, hno, hnone, hno]
  cases ho : m0.halfedgeOf (corner (m0.face fi) ((k + 1) % 3)) (corner (m0.face fi) k) with
  | none =>
      refine ⟨rfl, fun h h' => ?_⟩
      rw [hstep, ho]
      simp only [reduceCtorEq, and_false, or_false]
      rw [← hopp]
      show upd m.opp (4 * fi + k) none h = some h' ↔ _
      unfold upd
      by_cases hh : h = 4 * fi + k
      · rw [if_pos hh, hh, hopp]
        simp only [reduceCtorEq, false_iff]
        exact hkx h'
      · rw [if_neg hh]
  | some o =>
      refine ⟨rfl, fun h h' => ?_⟩
      rw [hstep, ho]
      obtain ⟨ho1, ho2, ho3⟩ := (halfedgeOf_iff I _ _ _).1 ho
      have hox : ∀ x, ¬ Pairs m0 R fi k o x := by
        rintro x (g | ⟨j, hj, g, -⟩ | ⟨j, hj, -, g⟩)
        · exact hc ⟨x, k, g.2.1, hk, by rw [g.2.2.1, ho3], by rw [g.2.2.2, ho2]⟩
        · apply hR
          have := ho1.1
          rw [g, he_div fi j (by omega)] at this
          exact this
        · obtain ⟨-, -, g3⟩ := (halfedgeOf_iff I _ _ _).1 g
          have := corner_inj hf (by omega) hk (g3.symm.trans ho3)
          omega
      have hne : o ≠ 4 * fi + k := fun h => hhk (h ▸ ho1)
      show upd (upd m.opp (4 * fi + k) (some o)) o (some (4 * fi + k)) h = some h' ↔ _
      unfold upd
      by_cases hh : h = o
      · rw [if_pos hh, hh]
        constructor
        · intro e
          exact Or.inr (Or.inr ⟨(Option.some.inj e).symm, rfl⟩)
        · rintro (g | ⟨g, -⟩ | ⟨g, -⟩)
          · exact (hox h' g).elim
          · exact (hne g).elim
          · rw [g]
      · rw [if_neg hh]
        by_cases hh2 : h = 4 * fi + k
        · rw [if_pos hh2, hh2]
          constructor
          · intro e
            exact Or.inr (Or.inl ⟨rfl, e⟩)
          · rintro (g | ⟨-, g⟩ | ⟨-, g⟩)
            · exact (hkx h' g).elim
            · exact g
            · exact (hne (Option.some.inj g)).elim
        · rw [if_neg hh2, hopp]
          constructor
          · exact Or.inl
          · rintro (g | ⟨g, -⟩ | ⟨-, g⟩)
            · exact g
            · exact (hh2 g).elim
            · exact (hh (Option.some.inj g).symm).elim

theorem registerEdge_throws {m0 m : Mesh} {R : Nat → Prop} {fi k : Nat} (I : Inv m0 R) (hvh : m.vh = m0.vh)
    (hface : m.face = m0.face) : (m.registerEdge fi k).2 = true ↔
      ∃ h, IsHe R h ∧ m0.from_ h = corner (m0.face fi) k ∧ m0.to_ h = corner (m0.face fi) ((k + 1) % 3) := by
  have hno : ∀ a b, m.halfedgeOf a b = m0.halfedgeOf a b := halfedgeOf_congr hvh hface
  unfold Mesh.registerEdge
  dsimp only
  rw [hface, hno]
  constructor
  · intro h
    split at h
    · rename_i hs
      obtain ⟨x, hx⟩ := Option.isSome_iff_exists.1 hs
      exact ⟨x, (halfedgeOf_iff I _ _ _).1 hx⟩
    · split at h <;> cases h
  · rintro ⟨h, hh⟩
    rw [(halfedgeOf_iff I _ _ _).2 hh]
    rfl

/-- Adding one face to a set of faces. -/
def With (R : Nat → Prop) (fi : Nat) : Nat → Prop := fun i => R i ∨ i = fi

/-- The set of faces without one. -/
def Without (R : Nat → Prop) (fi : Nat) : Nat → Prop := fun i => R i ∧ i ≠ fi

theorem isHe_with {R : Nat → Prop} {fi h : Nat} : IsHe (With R fi) h ↔ IsHe R h ∨ (∃ k, k < 3 ∧ h = 4 * fi + k) := by
  unfold IsHe With
  constructor
  · rintro ⟨h1 | h1, h2⟩
    · exact Or.inl ⟨h1, h2⟩
    · exact Or.inr ⟨h % 4, h2, by omega⟩
  · rintro (⟨h1, h2⟩ | ⟨k, hk, rfl⟩)
    · exact ⟨Or.inl h1, h2⟩
    · exact ⟨Or.inr (he_div fi k (by omega)), by omega⟩

/-- What two meshes share that differ only in the pairing and the vertex lists. -/
structure Same (m m' : Mesh) : Prop where
  face : m'.face = m.face
  nf : m'.nf = m.nf
  deleted : m'.deleted = m.deleted
  cap : m'.cap = m.cap

theorem Same.refl (m : Mesh) : Same m m := ⟨rfl, rfl, rfl, rfl⟩
theorem Same.trans {a b c : Mesh} (h : Same a b) (h' : Same b c) : Same a c :=
  ⟨h'.face.trans h.face, h'.nf.trans h.nf, h'.deleted.trans h.deleted, h'.cap.trans h.cap⟩

theorem registerEdge_same (fi : Nat) (m : Mesh) (k : Nat) : Same m (m.registerEdge fi k).1 := by
  obtain ⟨-, h1, h2, h3, h4⟩ := registerEdge_frame fi m k
  exact ⟨h1, h2, h3, h4⟩

theorem push3_same (fi : Nat) (m : Mesh) : Same m (((m.pushHalfedge fi 0).pushHalfedge fi 1).pushHalfedge fi 2) :=
  ⟨rfl, rfl, rfl, rfl⟩

theorem push_vh (fi : Nat) (m : Mesh) (k v : Nat) :
    (m.pushHalfedge fi k).vh v = if v = corner (m.face fi) k then m.vh v ++ [4 * fi + k] else m.vh v := by
  unfold Mesh.pushHalfedge upd
  dsimp only
  split
  · rename_i h; rw [h]
  · rfl

/-- The vertex lists after the second loop. -/
theorem push3_vh (fi : Nat) (m : Mesh) (hf : Nondeg (m.face fi)) (v : Nat) :
    (((m.pushHalfedge fi 0).pushHalfedge fi 1).pushHalfedge fi 2).vh v =
      m.vh v ++ ((List.range 3).filter (fun k => corner (m.face fi) k == v)).map (fun k => 4 * fi + k) := by
  rw [push_vh, push_vh, push_vh]
  show (if v = corner (m.face fi) 2 then _ else _) = _
  obtain ⟨h1, h2, h3⟩ := hf
  have e : List.range 3 = [0, 1, 2] := rfl
  rw [e]
  have c0 : corner (m.face fi) 0 = (m.face fi).1 := rfl
  have c1 : corner (m.face fi) 1 = (m.face fi).2.1 := rfl
  have c2 : corner (m.face fi) 2 = (m.face fi).2.2 := rfl
  have c1' : corner ((m.pushHalfedge fi 0).face fi) 1 = (m.face fi).2.1 := rfl
  rw [c0, c1', c2]
  by_cases g0 : v = (m.face fi).1
  · have n1 : ¬ v = (m.face fi).2.1 := fun h => h1 (g0.symm.trans h)
    have n2 : ¬ v = (m.face fi).2.2 := fun h => h3 (h.symm.trans g0)
    rw [if_pos g0, if_neg n1, if_neg n2]
    have b0 : (corner (m.face fi) 0 == v) = true := by rw [c0]; simpa using g0.symm
    have b1 : (corner (m.face fi) 1 == v) = false := by rw [c1]; simpa using fun h => n1 h.symm
    have b2 : (corner (m.face fi) 2 == v) = false := by rw [c2]; simpa using fun h => n2 h.symm
    simp only [List.filter_cons, b0, b1, b2, List.filter_nil]
    rfl
  · rw [if_neg g0]
    have b0 : (corner (m.face fi) 0 == v) = false := by rw [c0]; simpa using fun h => g0 h.symm
    by_cases g1 : v = (m.face fi).2.1
    · have n2 : ¬ v = (m.face fi).2.2 := fun h => h2 (g1.symm.trans h)
      rw [if_pos g1, if_neg n2]
      have b1 : (corner (m.face fi) 1 == v) = true := by rw [c1]; simpa using g1.symm
      have b2 : (corner (m.face fi) 2 == v) = false := by rw [c2]; simpa using fun h => n2 h.symm
      simp only [List.filter_cons, b0, b1, b2, List.filter_nil]
      rfl
    · rw [if_neg g1]
      have b1 : (corner (m.face fi) 1 == v) = false := by rw [c1]; simpa using fun h => g1 h.symm
      by_cases g2 : v = (m.face fi).2.2
      · rw [if_pos g2]
        have b2 : (corner (m.face fi) 2 == v) = true := by rw [c2]; simpa using g2.symm
        simp only [List.filter_cons, b0, b1, b2, List.filter_nil]
        rfl
      · rw [if_neg g2]
        have b2 : (corner (m.face fi) 2 == v) = false := by rw [c2]; simpa using fun h => g2 h.symm
        simp only [List.filter_cons, b0, b1, b2, List.filter_nil]
        simp

/-- Registering a face none of whose directed edges is taken. -/
theorem registerFace_ok {m : Mesh} {R : Nat → Prop} {fi : Nat} (I : Inv m R) (hR : ¬ R fi) (hf : Nondeg (m.face fi))
    (hc : ¬ Clash m R (m.face fi)) :
    (m.registerFace fi).2 = .ok () ∧ Same m (m.registerFace fi).1 ∧ Inv (m.registerFace fi).1 (With R fi) := by
  have P0 : ∀ h h', m.opp h = some h' ↔ Pairs m R fi 0 h h' := by
    intro h h'
    rw [I.opp]
    unfold Pairs
    simp
  obtain ⟨t0, P1⟩ := registerEdge_step I hR (show 0 < 3 by omega) hf hc rfl rfl P0
  obtain ⟨v0, f0, -⟩ := registerEdge_frame fi m 0
  obtain ⟨t1, P2⟩ := registerEdge_step I hR (show 1 < 3 by omega) hf hc v0 f0 P1
  obtain ⟨v1, f1, -⟩ := registerEdge_frame fi (m.registerEdge fi 0).1 1
  obtain ⟨t2, P3⟩ := registerEdge_step I hR (show 2 < 3 by omega) hf hc (v1.trans v0) (f1.trans f0) P2
  have s0 := registerEdge_same fi m 0
  have s1 := registerEdge_same fi (m.registerEdge fi 0).1 1
  have s2 := registerEdge_same fi ((m.registerEdge fi 0).1.registerEdge fi 1).1 2
  obtain ⟨v2, -⟩ := registerEdge_frame fi ((m.registerEdge fi 0).1.registerEdge fi 1).1 2
  have s012 := (s0.trans s1).trans s2
  have hres : m.registerFace fi = ((((((m.registerEdge fi 0).1.registerEdge fi 1).1.registerEdge fi 2).1.pushHalfedge fi 0).pushHalfedge
      fi 1).pushHalfedge fi 2, .ok ()) := by
    unfold Mesh.registerFace
    dsimp only
    rw [t0]
    simp only [Bool.false_eq_true, if_false]
    rw [t1]
    simp only [Bool.false_eq_true, if_false]
    rw [t2]
    simp only [Bool.false_eq_true, if_false]
  set n := (((m.registerEdge fi 0).1.registerEdge fi 1).1.registerEdge fi 2).1 with hn
  rw [hres]
  have hs : Same m ((((n.pushHalfedge fi 0).pushHalfedge fi 1).pushHalfedge fi 2)) :=
    s012.trans (push3_same fi n)
  refine ⟨rfl, hs, ?_⟩
  set r := (((n.pushHalfedge fi 0).pushHalfedge fi 1).pushHalfedge fi 2) with hr
  have hfrom : ∀ h, r.from_ h = m.from_ h := fun h => by unfold Mesh.from_; rw [hs.face]
  have hto : ∀ h, r.to_ h = m.to_ h := fun h => by unfold Mesh.to_; rw [hs.face]
  have hfk : ∀ k, k < 3 → m.from_ (4 * fi + k) = corner (m.face fi) k := by
    intro k hk; unfold Mesh.from_; rw [he_div fi k (by omega), he_mod fi k (by omega)]
  have htk : ∀ k, k < 3 → m.to_ (4 * fi + k) = corner (m.face fi) ((k + 1) % 3) := by
    intro k hk; unfold Mesh.to_; rw [he_div fi k (by omega), he_mod fi k (by omega), ccw_eq hk]
  have hvh : ∀ v, r.vh v = m.vh v ++ ((List.range 3).filter (fun k => corner (m.face fi) k == v)).map (fun k => 4 * fi + k) := by
    intro v
    rw [hr, push3_vh fi n (by rw [s012.face]; exact hf) v, s012.face, show n.vh = m.vh from v2.trans (v1.trans v0)]
  have hnotR : ∀ k, k < 3 → ¬ IsHe R (4 * fi + k) := by
    rintro k hk ⟨h1, -⟩
    rw [he_div fi k (by omega)] at h1
    exact hR h1
  refine ⟨?_, ?_, ?_, ?_, ?_⟩
  · intro i hi
    rw [hs.face]
    rcases hi with hi | rfl
    · exact I.nondeg i hi
    · exact hf
  · intro v h
    rw [hvh, List.mem_append, I.mem, isHe_with, hfrom, List.mem_map]
    constructor
    · rintro (⟨h1, h2⟩ | ⟨k, hk, rfl⟩)
      · exact ⟨Or.inl h1, h2⟩
      · rw [List.mem_filter, List.mem_range] at hk
        exact ⟨Or.inr ⟨k, hk.1, rfl⟩, by rw [hfk k hk.1]; simpa using hk.2⟩
    · rintro ⟨h1 | ⟨k, hk, rfl⟩, h2⟩
      · exact Or.inl ⟨h1, h2⟩
      · rw [hfk k hk] at h2
        exact Or.inr ⟨k, List.mem_filter.2 ⟨List.mem_range.2 hk, by simpa using h2⟩, rfl⟩
  · intro v
    rw [hvh]
    refine List.Nodup.append (I.nodup v) ?_ ?_
    · refine List.Nodup.map (fun a b h => by simpa using h) (List.Nodup.filter _ List.nodup_range)
    · intro h h1 h2
      obtain ⟨k, hk, rfl⟩ := List.mem_map.1 h2
      rw [List.mem_filter, List.mem_range] at hk
      exact hnotR k hk.1 ((I.mem v _).1 h1).1
  · intro h h' h1 h2 e1 e2
    rw [hfrom, hfrom] at e1
    rw [hto, hto] at e2
    rw [isHe_with] at h1 h2
    rcases h1 with h1 | ⟨k, hk, rfl⟩ <;> rcases h2 with h2 | ⟨j, hj, rfl⟩
    · exact I.uniq h h' h1 h2 e1 e2
    · rw [hfk j hj] at e1; rw [htk j hj] at e2
      exact (hc ⟨h, j, h1, hj, e1, e2⟩).elim
    · rw [hfk k hk] at e1; rw [htk k hk] at e2
      exact (hc ⟨h', k, h2, hk, e1.symm, e2.symm⟩).elim
    · rw [hfk k hk, hfk j hj] at e1
      rw [corner_inj hf hk hj e1]
  · intro h h'
    show n.opp h = some h' ↔ _
    rw [hn, P3, isHe_with, isHe_with, hfrom, hto, hfrom, hto]
    unfold Pairs
    constructor
    · rintro (g | ⟨j, hj, rfl, g⟩ | ⟨j, hj, rfl, g⟩)
      · exact ⟨Or.inl g.1, Or.inl g.2.1, g.2.2⟩
      · obtain ⟨g1, g2, g3⟩ := (halfedgeOf_iff I _ _ _).1 g
        exact ⟨Or.inr ⟨j, hj, rfl⟩, Or.inl g1, by rw [htk j hj, g2], by rw [hfk j hj, g3]⟩
      · obtain ⟨g1, g2, g3⟩ := (halfedgeOf_iff I _ _ _).1 g
        exact ⟨Or.inl g1, Or.inr ⟨j, hj, rfl⟩, by rw [hfk j hj, g3], by rw [htk j hj, g2]⟩
    · rintro ⟨h1 | ⟨k, hk, rfl⟩, h2 | ⟨j, hj, rfl⟩, e1, e2⟩
      · exact Or.inl ⟨h1, h2, e1, e2⟩
      · refine Or.inr (Or.inr ⟨j, hj, rfl, ?_⟩)
        rw [hfk j hj] at e1; rw [htk j hj] at e2
        exact (halfedgeOf_iff I _ _ _).2 ⟨h1, e2.symm, e1.symm⟩
      · refine Or.inr (Or.inl ⟨k, hk, rfl, ?_⟩)
        rw [htk k hk] at e1; rw [hfk k hk] at e2
        exact (halfedgeOf_iff I _ _ _).2 ⟨h2, e1, e2⟩
      · exfalso
        rw [hfk j hj, htk k hk, ← ccw_eq hk] at e1
        rw [hfk k hk, htk j hj, ← ccw_eq hj] at e2
        exact not_both hf hj hk e1 e2

/-- Registering a face one of whose directed edges is taken throws. -/
theorem registerFace_throws {m : Mesh} {R : Nat → Prop} {fi : Nat} (I : Inv m R) (hc : Clash m R (m.face fi)) :
    (m.registerFace fi).2 = .throws .runtimeError := by
  obtain ⟨h, k, h1, hk, h2, h3⟩ := hc
  obtain ⟨v0, f0, -⟩ := registerEdge_frame fi m 0
  obtain ⟨v1, f1, -⟩ := registerEdge_frame fi (m.registerEdge fi 0).1 1
  have t0 := registerEdge_throws (fi := fi) (k := 0) I rfl rfl
  have t1 := registerEdge_throws (fi := fi) (k := 1) I v0 f0
  have t2 := registerEdge_throws (fi := fi) (k := 2) I (v1.trans v0) (f1.trans f0)
  unfold Mesh.registerFace
  dsimp only
  by_cases g0 : (m.registerEdge fi 0).2 = true
  · rw [if_pos g0]
  rw [if_neg g0]
  by_cases g1 : ((m.registerEdge fi 0).1.registerEdge fi 1).2 = true
  · rw [if_pos g1]
  rw [if_neg g1]
  by_cases g2 : (((m.registerEdge fi 0).1.registerEdge fi 1).1.registerEdge fi 2).2 = true
  · rw [if_pos g2]
  exfalso
  rcases lt3 hk with rfl | rfl | rfl
  · exact g0 (t0.2 ⟨h, h1, h2, h3⟩)
  · exact g1 (t1.2 ⟨h, h1, h2, h3⟩)
  · exact g2 (t2.2 ⟨h, h1, h2, h3⟩)

/-! ## Unregistering -/

theorem unregisterEdge_same (fi : Nat) (m : Mesh) (k : Nat) : Same m (m.unregisterEdge fi k) := ⟨rfl, rfl, rfl, rfl⟩

theorem isHe_without {R : Nat → Prop} {fi h : Nat} : IsHe (Without R fi) h ↔ IsHe R h ∧ h / 4 ≠ fi := by
  unfold IsHe Without
  tauto

/-- The pairs of opposite halfedges after unregistering the sides up to `n` of `fi`. -/
def PairsU (m0 : Mesh) (fi n : Nat) (h h' : Nat) : Prop :=
  m0.opp h = some h' ∧ (∀ j, j < n → h ≠ 4 * fi + j) ∧ (∀ j, j < n → h' ≠ 4 * fi + j)

theorem unregisterEdge_step {m0 m : Mesh} {R : Nat → Prop} {fi k : Nat} (I : Inv m0 R)
    (hopp : ∀ h h', m.opp h = some h' ↔ PairsU m0 fi k h h') :
    ∀ h h', (m.unregisterEdge fi k).opp h = some h' ↔ PairsU m0 fi (k + 1) h h' := by
  intro h h'
  have sym : ∀ a b, m0.opp a = some b ↔ m0.opp b = some a := by
    intro a b
    rw [I.opp, I.opp]
    constructor <;> rintro ⟨h1, h2, h3, h4⟩ <;> exact ⟨h2, h1, h4.symm, h3.symm⟩
  have hstep : PairsU m0 fi (k + 1) h h' ↔ PairsU m0 fi k h h' ∧ h ≠ 4 * fi + k ∧ h' ≠ 4 * fi + k := by
    unfold PairsU
    constructor
    · rintro ⟨h1, h2, h3⟩
      exact ⟨⟨h1, fun j hj => h2 j (by omega), fun j hj => h3 j (by omega)⟩, h2 k (by omega), h3 k (by omega)⟩
    · rintro ⟨⟨h1, h2, h3⟩, h4, h5⟩
      refine ⟨h1, fun j hj => ?_, fun j hj => ?_⟩
      · rcases Nat.lt_succ_iff_lt_or_eq.1 hj with hj | rfl
        · exact h2 j hj
        · exact h4
      · rcases Nat.lt_succ_iff_lt_or_eq.1 hj with hj | rfl
        · exact h3 j hj
        · exact h5
  rw [hstep, ← hopp]
  unfold Mesh.unregisterEdge
  dsimp only
  have hpair : ∀ x, m.opp x = some (4 * fi + k) → m.opp (4 * fi + k) = some x := by
    intro x hx
    rw [hopp] at hx ⊢
    exact ⟨(sym _ _).1 hx.1, hx.2.2, hx.2.1⟩
  cases ho : m.opp (4 * fi + k) with
  | none =>
      show m.opp h = some h' ↔ _
      constructor
      · intro g
        refine ⟨g, fun e => ?_, fun e => ?_⟩
        · rw [e, ho] at g; cases g
        · rw [e] at g; rw [hpair h g] at ho; cases ho
      · exact fun g => g.1
  | some o =>
      show upd (upd m.opp o none) (4 * fi + k) none h = some h' ↔ _
      unfold upd
      have hoo : m.opp o = some (4 * fi + k) := by
        rw [hopp] at ho ⊢
        exact ⟨(sym _ _).1 ho.1, ho.2.2, ho.2.1⟩
      by_cases e1 : h = 4 * fi + k
      · rw [if_pos e1]
        simp [e1]
      · rw [if_neg e1]
        by_cases e2 : h = o
        · rw [if_pos e2, e2, hoo]
          constructor
          · intro g; cases g
          · rintro ⟨g1, -, g2⟩
            exact (g2 (Option.some.inj g1).symm).elim
        · rw [if_neg e2]
          constructor
          · intro g
            refine ⟨g, e1, fun e => ?_⟩
            rw [e] at g
            have := hpair h g
            rw [ho] at this
            exact e2 (Option.some.inj this).symm
          · exact fun g => g.1

theorem unregister_vh (fi : Nat) (m : Mesh) (k v : Nat) :
    (m.unregisterEdge fi k).vh v = if v = corner (m.face fi) k then (m.vh v).filter (fun x => x ≠ 4 * fi + k) else m.vh v := by
  unfold Mesh.unregisterEdge upd
  dsimp only
  split
  · rename_i h; rw [h]
  · rfl

/-- Unregistering a face. -/
theorem unregisterFace_inv {m : Mesh} {R : Nat → Prop} {fi : Nat} (I : Inv m R) (_ : R fi) :
    Same m (m.unregisterFace fi) ∧ Inv (m.unregisterFace fi) (Without R fi) := by
  have hs : Same m (m.unregisterFace fi) := ⟨rfl, rfl, rfl, rfl⟩
  refine ⟨hs, ?_⟩
  have P0 : ∀ h h', m.opp h = some h' ↔ PairsU m fi 0 h h' := by
    intro h h'; unfold PairsU; simp
  have P3 := unregisterEdge_step I (unregisterEdge_step I (unregisterEdge_step I P0))
  have hfrom : ∀ h, (m.unregisterFace fi).from_ h = m.from_ h := fun h => rfl
  have hto : ∀ h, (m.unregisterFace fi).to_ h = m.to_ h := fun h => rfl
  have hcor : ∀ k, k < 3 → m.from_ (4 * fi + k) = corner (m.face fi) k := by
    intro k hk; unfold Mesh.from_; rw [he_div fi k (by omega), he_mod fi k (by omega)]
  have hmem : ∀ v h, h ∈ (m.unregisterFace fi).vh v ↔ h ∈ m.vh v ∧ h / 4 ≠ fi := by
    intro v h
    have hstep : ∀ (n : Mesh) k, n.face = m.face → (h ∈ (n.unregisterEdge fi k).vh v ↔
        h ∈ n.vh v ∧ (v = corner (m.face fi) k → h ≠ 4 * fi + k)) := by
      intro n k hn
      rw [unregister_vh, hn]
      split
      · rename_i hv
        rw [List.mem_filter]
        simp [hv]
      · rename_i hv
        simp [hv]
    unfold Mesh.unregisterFace
    rw [hstep (Mesh.unregisterEdge fi (Mesh.unregisterEdge fi m 0) 1) 2 rfl, hstep (Mesh.unregisterEdge fi m 0) 1 rfl, hstep m 0 rfl]
    constructor
    · rintro ⟨⟨⟨h0, h1⟩, h2⟩, h3⟩
      refine ⟨h0, fun e => ?_⟩
      obtain ⟨⟨-, hk⟩, hv⟩ := (I.mem v h).1 h0
      have hh : h = 4 * fi + h % 4 := by omega
      have hv' : v = corner (m.face fi) (h % 4) := by rw [← hv, ← hcor _ hk, ← hh]
      rcases lt3 hk with hk | hk | hk <;> rw [hk] at hh hv'
      · exact h1 hv' hh
      · exact h2 hv' hh
      · exact h3 hv' hh
    · rintro ⟨h0, h1⟩
      exact ⟨⟨⟨h0, fun _ => by omega⟩, fun _ => by omega⟩, fun _ => by omega⟩
  refine ⟨fun i hi => I.nondeg i hi.1, ?_, ?_, ?_, ?_⟩
  · intro v h
    rw [hmem, I.mem, isHe_without, hfrom]
    tauto
  · intro v
    have hstep : ∀ (n : Mesh) k, (∀ v, (n.vh v).Nodup) → ∀ v, ((n.unregisterEdge fi k).vh v).Nodup := by
      intro n k hn v
      rw [unregister_vh]
      split
      · exact (hn v).filter _
      · exact hn v
    exact hstep _ 2 (hstep _ 1 (hstep _ 0 I.nodup)) v
  · intro h h' h1 h2 e1 e2
    rw [isHe_without] at h1 h2
    exact I.uniq h h' h1.1 h2.1 e1 e2
  · intro h h'
    have : (m.unregisterFace fi).opp h = some h' ↔ PairsU m fi 3 h h' := P3 h h'
    rw [this]
    unfold PairsU
    rw [I.opp, isHe_without, isHe_without, hfrom, hto, hfrom, hto]
    constructor
    · rintro ⟨⟨h1, h2, h3, h4⟩, h5, h6⟩
      refine ⟨⟨h1, fun e => ?_⟩, ⟨h2, fun e => ?_⟩, h3, h4⟩
      · exact h5 (h % 4) h1.2 (by omega)
      · exact h6 (h' % 4) h2.2 (by omega)
    · rintro ⟨⟨h1, n1⟩, ⟨h2, n2⟩, h3, h4⟩
      exact ⟨⟨h1, h2, h3, h4⟩, fun j hj => by omega, fun j hj => by omega⟩

/-- Rows of faces that are not registered do not matter. -/
theorem setRow_inv {m : Mesh} {R : Nat → Prop} {fi : Nat} (I : Inv m R) (hR : ¬ R fi) (f : Face) : Inv (m.setRow fi f) R := by
  have hface : ∀ i, R i → (m.setRow fi f).face i = m.face i := by
    intro i hi
    have : i ≠ fi := fun e => hR (e ▸ hi)
    show upd m.face fi f i = _
    unfold upd; rw [if_neg this]
  have hfrom : ∀ h, IsHe R h → (m.setRow fi f).from_ h = m.from_ h := fun h hh => by unfold Mesh.from_; rw [hface _ hh.1]
  have hto : ∀ h, IsHe R h → (m.setRow fi f).to_ h = m.to_ h := fun h hh => by unfold Mesh.to_; rw [hface _ hh.1]
  refine ⟨fun i hi => by rw [hface i hi]; exact I.nondeg i hi, ?_, I.nodup, ?_, ?_⟩
  · intro v h
    show h ∈ m.vh v ↔ _
    rw [I.mem]
    constructor
    · rintro ⟨h1, h2⟩; exact ⟨h1, by rw [hfrom h h1]; exact h2⟩
    · rintro ⟨h1, h2⟩; exact ⟨h1, by rw [hfrom h h1] at h2; exact h2⟩
  · intro h h' h1 h2 e1 e2
    rw [hfrom h h1, hfrom h' h2] at e1
    rw [hto h h1, hto h' h2] at e2
    exact I.uniq h h' h1 h2 e1 e2
  · intro h h'
    show m.opp h = some h' ↔ _
    rw [I.opp]
    constructor
    · rintro ⟨h1, h2, h3, h4⟩
      exact ⟨h1, h2, by rw [hfrom h' h2, hto h h1]; exact h3, by rw [hto h' h2, hfrom h h1]; exact h4⟩
    · rintro ⟨h1, h2, h3, h4⟩
      rw [hfrom h' h2, hto h h1] at h3
      rw [hto h' h2, hfrom h h1] at h4
      exact ⟨h1, h2, h3, h4⟩

theorem Inv.congr {m : Mesh} {R R' : Nat → Prop} (I : Inv m R) (h : ∀ i, R i ↔ R' i) : Inv m R' := by
  have : R = R' := funext fun i => propext (h i)
  rw [← this]; exact I

end Verif.AbstractMesh
