import Verif.Lemmas.TriangulationInsert

/-! # Lemmas: all points, and the flips -/

namespace Verif.Triangulation

open Verif Verif.AbstractMesh Verif.Triangulation.Spec

variable {I : Input}

/-- A flip. -/
structure Flp (I : Input) (m m' : Mesh) (fi fj x y c d : Nat) (f g : Face) : Prop where
  left : faceAt m fi = some f
  l1 : Side f x y
  l2 : Side f y c
  l3 : Side f c x
  right : faceAt m fj = some g
  r1 : Side g y x
  r2 : Side g x d
  r3 : Side g d y
  label : ¬ (c < I.nb ∧ d < I.nb ∧ ShareLabel I.labels c d)
  circle : I.incircle x y c d > I.incircleTol
  area : I.orient x d c > I.areaTol ∧ I.orient d y c > I.areaTol
  fresh : ¬ Thinner.Spec.Adjacent (faceAt m) c d
  faces : ∀ i, faceAt m' i = if i = fi then some (c, x, d) else if i = fj then some (d, y, c) else faceAt m i
  nf : m'.nf = m.nf
  cap : m'.cap = m.cap
  reach : Reachable m'

/-- The steps after the ears. -/
inductive Run (I : Input) (m0 : Mesh) : Nat → Mesh → Prop
  | start : Run I m0 I.nb m0
  | insert {N m m'} : Run I m0 N m → Ins I N m m' → Run I m0 (N + 1) m'
  | flip {N m m' fi fj x y c d f g} : Run I m0 N m → Flp I m m' fi fj x y c d f g → Run I m0 N m'

/-- The state after the ears. -/
structure Fill (I : Input) (m : Mesh) (N : Nat) (S : Finset Nat) : Prop where
  base : Base I m []
  labels : FacesOk I m
  range : ∀ i f v, faceAt m i = some f → Corner f v → v < N
  low : ∀ v ∈ S, I.nb ≤ v ∧ v < N
  mem : ∀ v, I.nb ≤ v → ((∃ i f, faceAt m i = some f ∧ Corner f v) ↔ v ∈ S)
  count : m.nf + 2 = I.nb + 2 * S.card
  start : I.nb ≤ N

theorem edgeOk_new {u v : Nat} (h : I.nb ≤ v) : EdgeOk I u v ∧ EdgeOk I v u :=
  ⟨Or.inr (Or.inr fun ⟨_, h', _⟩ => by omega), Or.inr (Or.inr fun ⟨h', _, _⟩ => by omega)⟩

theorem nondeg_ne {f : Face} (hf : Nondeg f) {a b c : Nat} (h1 : Side f a b) (h2 : Side f b c) : a ≠ b ∧ b ≠ c ∧ c ≠ a := by
  obtain ⟨p, q, r⟩ := f
  obtain ⟨n1, n2, n3⟩ := hf
  unfold Side at h1 h2
  dsimp only at *
  rcases h1 with ⟨rfl, rfl⟩ | ⟨rfl, rfl⟩ | ⟨rfl, rfl⟩ <;> rcases h2 with ⟨e1, rfl⟩ | ⟨e1, rfl⟩ | ⟨e1, rfl⟩ <;> omega

/-- Faces with different corners. -/
theorem diff {f : Face} {p q r : Nat} (w : Nat) (h : Corner f w) (h1 : p ≠ w) (h2 : q ≠ w) (h3 : r ≠ w) : ¬ ∀ v, Corner f v ↔ Corner (p, q, r) v := by
  intro he
  rcases (he w).1 h with e | e | e
  · exact h1 e
  · exact h2 e
  · exact h3 e

theorem fill_in_face {m m' : Mesh} {N : Nat} {S : Finset Nat} (h : Fill I m N S) {fi x y z : Nat} (hfi : faceAt m fi = some (x, y, z))
    (hr : Reachable m') (hF : ∀ i, faceAt m' i = if i = fi then some (x, y, N) else if i = m.nf then some (y, z, N) else
      if i = m.nf + 1 then some (z, x, N) else faceAt m i) (hnf : m'.nf = m.nf + 2) (hcap : m'.cap = m.cap) : Fill I m' (N + 1) (insert N S) := by
  have hlt : fi < m.nf := (faceAt_eq_some.1 hfi).1.1
  obtain ⟨n1, n2, n3⟩ := h.base.good.consistent.corners fi _ hfi
  dsimp only at n1 n2 n3
  have hx := h.range fi _ x hfi (Or.inl rfl)
  have hy := h.range fi _ y hfi (Or.inr (Or.inl rfl))
  have hz := h.range fi _ z hfi (Or.inr (Or.inr rfl))
  have hNS : N ∉ S := fun hN => by have := (h.low N hN).2; omega
  have hcase : ∀ i f, faceAt m' i = some f → (i = fi ∧ f = (x, y, N)) ∨ (i = m.nf ∧ f = (y, z, N)) ∨ (i = m.nf + 1 ∧ f = (z, x, N)) ∨
      (i ≠ fi ∧ faceAt m i = some f ∧ ¬ Corner f N) := by
    intro i f hf
    rw [hF] at hf
    split at hf
    · rename_i e; cases hf; exact Or.inl ⟨e, rfl⟩
    · rename_i hne
      split at hf
      · rename_i e; cases hf; exact Or.inr (Or.inl ⟨e, rfl⟩)
      · split at hf
        · rename_i e; cases hf; exact Or.inr (Or.inr (Or.inl ⟨e, rfl⟩))
        · exact Or.inr (Or.inr (Or.inr ⟨hne, hf, fun hc => by have := h.range i f N hf hc; omega⟩))
  have f0 : faceAt m' fi = some (x, y, N) := by rw [hF, if_pos rfl]
  have f1 : faceAt m' m.nf = some (y, z, N) := by rw [hF, if_neg (by omega), if_pos rfl]
  have f2 : faceAt m' (m.nf + 1) = some (z, x, N) := by rw [hF, if_neg (by omega), if_neg (by omega), if_pos rfl]
  have hold : ∀ i f, faceAt m i = some f → i ≠ fi → faceAt m' i = some f := by
    intro i f hf hi
    have : i < m.nf := (faceAt_eq_some.1 hf).1.1
    rw [hF, if_neg hi, if_neg (by omega), if_neg (by omega)]; exact hf
  refine ⟨⟨hr, ?_, hcap.trans h.base.cap, ?_, ?_⟩, ?_, ?_, ?_, ?_, ?_, Nat.le_succ_of_le h.start⟩
  · intro i hi
    by_cases e : i = fi
    · exact ⟨_, e ▸ f0⟩
    by_cases e1 : i = m.nf
    · exact ⟨_, e1 ▸ f1⟩
    by_cases e2 : i = m.nf + 1
    · exact ⟨_, e2 ▸ f2⟩
    obtain ⟨f, hf⟩ := h.base.live i (by omega)
    exact ⟨f, hold i f hf e⟩
  · intro g hg
    rw [meshSum_in_face hfi hnf hF g hg]
    exact h.base.bnd g hg
  · intro i j f g hf hg he
    rcases hcase i f hf with ⟨e1, rfl⟩ | ⟨e1, rfl⟩ | ⟨e1, rfl⟩ | ⟨e1, o1, o2⟩ <;>
      rcases hcase j g hg with ⟨e2, rfl⟩ | ⟨e2, rfl⟩ | ⟨e2, rfl⟩ | ⟨e2, p1, p2⟩ <;>
      first
        | (rw [e1, e2]; done)
        | exact absurd ((he N).1 (Or.inr (Or.inr rfl))) p2
        | exact absurd ((he N).2 (Or.inr (Or.inr rfl))) o2
        | exact h.base.twin i j f g o1 p1 he
        | (exfalso
           have ex := he x
           have ey := he y
           have ez := he z
           unfold Corner at ex ey ez
           dsimp only at ex ey ez
           omega)
  · intro i f u v hf hs
    rcases hcase i f hf with ⟨-, rfl⟩ | ⟨-, rfl⟩ | ⟨-, rfl⟩ | ⟨-, o1, -⟩
    · rcases hs with ⟨rfl, rfl⟩ | ⟨rfl, rfl⟩ | ⟨rfl, rfl⟩
      · exact h.labels fi _ _ _ hfi (Or.inl ⟨rfl, rfl⟩)
      · exact (edgeOk_new h.start).1
      · exact (edgeOk_new h.start).2
    · rcases hs with ⟨rfl, rfl⟩ | ⟨rfl, rfl⟩ | ⟨rfl, rfl⟩
      · exact h.labels fi _ _ _ hfi (Or.inr (Or.inl ⟨rfl, rfl⟩))
      · exact (edgeOk_new h.start).1
      · exact (edgeOk_new h.start).2
    · rcases hs with ⟨rfl, rfl⟩ | ⟨rfl, rfl⟩ | ⟨rfl, rfl⟩
      · exact h.labels fi _ _ _ hfi (Or.inr (Or.inr ⟨rfl, rfl⟩))
      · exact (edgeOk_new h.start).1
      · exact (edgeOk_new h.start).2
    · exact h.labels i f u v o1 hs
  · intro i f v hf hv
    rcases hcase i f hf with ⟨-, rfl⟩ | ⟨-, rfl⟩ | ⟨-, rfl⟩ | ⟨-, o1, -⟩
    · rcases hv with rfl | rfl | rfl <;> dsimp only <;> omega
    · rcases hv with rfl | rfl | rfl <;> dsimp only <;> omega
    · rcases hv with rfl | rfl | rfl <;> dsimp only <;> omega
    · exact Nat.lt_succ_of_lt (h.range i f v o1 hv)
  · intro v hv
    rcases Finset.mem_insert.1 hv with rfl | hv
    · exact ⟨h.start, Nat.lt_succ_self _⟩
    · have := h.low v hv; omega
  · intro v hv
    rw [Finset.mem_insert, ← h.mem v hv]
    constructor
    · rintro ⟨i, f, hf, hc⟩
      rcases hcase i f hf with ⟨-, rfl⟩ | ⟨-, rfl⟩ | ⟨-, rfl⟩ | ⟨-, o1, -⟩
      · rcases hc with rfl | rfl | rfl
        · exact Or.inr ⟨fi, _, hfi, Or.inl rfl⟩
        · exact Or.inr ⟨fi, _, hfi, Or.inr (Or.inl rfl)⟩
        · exact Or.inl rfl
      · rcases hc with rfl | rfl | rfl
        · exact Or.inr ⟨fi, _, hfi, Or.inr (Or.inl rfl)⟩
        · exact Or.inr ⟨fi, _, hfi, Or.inr (Or.inr rfl)⟩
        · exact Or.inl rfl
      · rcases hc with rfl | rfl | rfl
        · exact Or.inr ⟨fi, _, hfi, Or.inr (Or.inr rfl)⟩
        · exact Or.inr ⟨fi, _, hfi, Or.inl rfl⟩
        · exact Or.inl rfl
      · exact Or.inr ⟨i, f, o1, hc⟩
    · rintro (rfl | ⟨i, f, hf, hc⟩)
      · exact ⟨fi, _, f0, Or.inr (Or.inr rfl)⟩
      · by_cases e : i = fi
        · subst e
          rw [hfi] at hf; cases hf
          rcases hc with rfl | rfl | rfl
          · exact ⟨_, _, f0, Or.inl rfl⟩
          · exact ⟨_, _, f0, Or.inr (Or.inl rfl)⟩
          · exact ⟨_, _, f1, Or.inr (Or.inl rfl)⟩
        · exact ⟨i, f, hold i f hf e, hc⟩
  · rw [Finset.card_insert_of_notMem hNS, hnf]
    have := h.count
    omega

theorem fill_on_edge {m m' : Mesh} {N : Nat} {S : Finset Nat} (h : Fill I m N S) {fi fj a b c d : Nat} {f g : Face} (hfi : faceAt m fi = some f)
    (s1 : Side f a b) (s2 : Side f b c) (s3 : Side f c a) (hfj : faceAt m fj = some g) (t1 : Side g b a) (t2 : Side g a d) (t3 : Side g d b)
    (hij : fi ≠ fj) (hcd : c ≠ d) (hr : Reachable m')
    (hF : ∀ i, faceAt m' i = if i = fi then some (a, N, c) else if i = m.nf then some (N, b, c) else
      if i = fj then some (b, N, d) else if i = m.nf + 1 then some (N, a, d) else faceAt m i) (hnf : m'.nf = m.nf + 2) (hcap : m'.cap = m.cap) :
    Fill I m' (N + 1) (insert N S) := by
  have hlt : fi < m.nf := (faceAt_eq_some.1 hfi).1.1
  have hlt' : fj < m.nf := (faceAt_eq_some.1 hfj).1.1
  have hC := h.base.good.consistent
  obtain ⟨n1, n2, n3⟩ := nondeg_ne (hC.corners fi f hfi) s1 s2
  obtain ⟨k1, k2, k3⟩ := nondeg_ne (hC.corners fj g hfj) t1 t2
  have cf := corner_of_sides (hC.corners fi f hfi) s1 s2
  have cg := corner_of_sides (hC.corners fj g hfj) t1 t2
  have ha := h.range fi _ a hfi ((cf a).2 (Or.inl rfl))
  have hb := h.range fi _ b hfi ((cf b).2 (Or.inr (Or.inl rfl)))
  have hc := h.range fi _ c hfi ((cf c).2 (Or.inr (Or.inr rfl)))
  have hd := h.range fj _ d hfj ((cg d).2 (Or.inr (Or.inr rfl)))
  have hNS : N ∉ S := fun hN => by have := (h.low N hN).2; omega
  have hcase : ∀ i f', faceAt m' i = some f' → (i = fi ∧ f' = (a, N, c)) ∨ (i = m.nf ∧ f' = (N, b, c)) ∨ (i = fj ∧ f' = (b, N, d)) ∨
      (i = m.nf + 1 ∧ f' = (N, a, d)) ∨ (faceAt m i = some f' ∧ ¬ Corner f' N) := by
    intro i f' hf
    rw [hF] at hf
    split at hf
    · rename_i e; cases hf; exact Or.inl ⟨e, rfl⟩
    · split at hf
      · rename_i e; cases hf; exact Or.inr (Or.inl ⟨e, rfl⟩)
      · split at hf
        · rename_i e; cases hf; exact Or.inr (Or.inr (Or.inl ⟨e, rfl⟩))
        · split at hf
          · rename_i e; cases hf; exact Or.inr (Or.inr (Or.inr (Or.inl ⟨e, rfl⟩)))
          · exact Or.inr (Or.inr (Or.inr (Or.inr ⟨hf, fun hc => by have := h.range i f' N hf hc; omega⟩)))
  have f0 : faceAt m' fi = some (a, N, c) := by rw [hF, if_pos rfl]
  have f1 : faceAt m' m.nf = some (N, b, c) := by rw [hF, if_neg (by omega), if_pos rfl]
  have f2 : faceAt m' fj = some (b, N, d) := by rw [hF, if_neg (Ne.symm hij), if_neg (by omega), if_pos rfl]
  have f3 : faceAt m' (m.nf + 1) = some (N, a, d) := by rw [hF, if_neg (by omega), if_neg (by omega), if_neg (by omega), if_pos rfl]
  have hold : ∀ i f, faceAt m i = some f → i ≠ fi → i ≠ fj → faceAt m' i = some f := by
    intro i f hf hi hj
    have : i < m.nf := (faceAt_eq_some.1 hf).1.1
    rw [hF, if_neg hi, if_neg (by omega), if_neg hj, if_neg (by omega)]; exact hf
  refine ⟨⟨hr, ?_, hcap.trans h.base.cap, ?_, ?_⟩, ?_, ?_, ?_, ?_, ?_, Nat.le_succ_of_le h.start⟩
  · intro i hi
    by_cases e : i = fi
    · exact ⟨_, e ▸ f0⟩
    by_cases e1 : i = m.nf
    · exact ⟨_, e1 ▸ f1⟩
    by_cases e2 : i = fj
    · exact ⟨_, e2 ▸ f2⟩
    by_cases e3 : i = m.nf + 1
    · exact ⟨_, e3 ▸ f3⟩
    obtain ⟨f, hf⟩ := h.base.live i (by omega)
    exact ⟨f, hold i f hf e e2⟩
  · intro p hp
    rw [meshSum_on_edge ⟨f, hfi, tri_side (hC.corners fi f hfi) s1 s2⟩ ⟨g, hfj, tri_side (hC.corners fj g hfj) t1 t2⟩ hij hnf hF p hp]
    exact h.base.bnd p hp
  · have d01 : ¬ ∀ v, Corner (a, N, c) v ↔ Corner (N, b, c) v := diff a (Or.inl rfl) (by omega) (by omega) (by omega)
    have d02 : ¬ ∀ v, Corner (a, N, c) v ↔ Corner (b, N, d) v := diff a (Or.inl rfl) (by omega) (by omega) (by omega)
    have d03 : ¬ ∀ v, Corner (a, N, c) v ↔ Corner (N, a, d) v := diff c (Or.inr (Or.inr rfl)) (by omega) (by omega) (by omega)
    have d12 : ¬ ∀ v, Corner (N, b, c) v ↔ Corner (b, N, d) v := diff c (Or.inr (Or.inr rfl)) (by omega) (by omega) (by omega)
    have d13 : ¬ ∀ v, Corner (N, b, c) v ↔ Corner (N, a, d) v := diff b (Or.inr (Or.inl rfl)) (by omega) (by omega) (by omega)
    have d23 : ¬ ∀ v, Corner (b, N, d) v ↔ Corner (N, a, d) v := diff b (Or.inl rfl) (by omega) (by omega) (by omega)
    intro i j f' g' hf hg he
    rcases hcase i f' hf with ⟨e1, rfl⟩ | ⟨e1, rfl⟩ | ⟨e1, rfl⟩ | ⟨e1, rfl⟩ | ⟨o1, o2⟩ <;>
      rcases hcase j g' hg with ⟨e2, rfl⟩ | ⟨e2, rfl⟩ | ⟨e2, rfl⟩ | ⟨e2, rfl⟩ | ⟨p1, p2⟩ <;>
      first
        | (rw [e1, e2]; done)
        | exact h.base.twin i j f' g' o1 p1 he
        | exact absurd ((he N).1 (by simp [Corner])) p2
        | exact absurd ((he N).2 (by simp [Corner])) o2
        | exact absurd he d01
        | exact absurd he d02
        | exact absurd he d03
        | exact absurd he d12
        | exact absurd he d13
        | exact absurd he d23
        | exact absurd (fun v => (he v).symm) d01
        | exact absurd (fun v => (he v).symm) d02
        | exact absurd (fun v => (he v).symm) d03
        | exact absurd (fun v => (he v).symm) d12
        | exact absurd (fun v => (he v).symm) d13
        | exact absurd (fun v => (he v).symm) d23
  · intro i f' u v hf hs
    rcases hcase i f' hf with ⟨-, rfl⟩ | ⟨-, rfl⟩ | ⟨-, rfl⟩ | ⟨-, rfl⟩ | ⟨o1, -⟩
    · rcases hs with ⟨rfl, rfl⟩ | ⟨rfl, rfl⟩ | ⟨rfl, rfl⟩
      · exact (edgeOk_new h.start).1
      · exact (edgeOk_new h.start).2
      · exact h.labels fi _ _ _ hfi s3
    · rcases hs with ⟨rfl, rfl⟩ | ⟨rfl, rfl⟩ | ⟨rfl, rfl⟩
      · exact (edgeOk_new h.start).2
      · exact h.labels fi _ _ _ hfi s2
      · exact (edgeOk_new h.start).1
    · rcases hs with ⟨rfl, rfl⟩ | ⟨rfl, rfl⟩ | ⟨rfl, rfl⟩
      · exact (edgeOk_new h.start).1
      · exact (edgeOk_new h.start).2
      · exact h.labels fj _ _ _ hfj t3
    · rcases hs with ⟨rfl, rfl⟩ | ⟨rfl, rfl⟩ | ⟨rfl, rfl⟩
      · exact (edgeOk_new h.start).2
      · exact h.labels fj _ _ _ hfj t2
      · exact (edgeOk_new h.start).1
    · exact h.labels i f' u v o1 hs
  · intro i f' v hf hv
    rcases hcase i f' hf with ⟨-, rfl⟩ | ⟨-, rfl⟩ | ⟨-, rfl⟩ | ⟨-, rfl⟩ | ⟨o1, -⟩
    · rcases hv with rfl | rfl | rfl <;> dsimp only <;> omega
    · rcases hv with rfl | rfl | rfl <;> dsimp only <;> omega
    · rcases hv with rfl | rfl | rfl <;> dsimp only <;> omega
    · rcases hv with rfl | rfl | rfl <;> dsimp only <;> omega
    · exact Nat.lt_succ_of_lt (h.range i f' v o1 hv)
  · intro v hv
    rcases Finset.mem_insert.1 hv with rfl | hv
    · exact ⟨h.start, Nat.lt_succ_self _⟩
    · have := h.low v hv; omega
  · intro v hv
    rw [Finset.mem_insert, ← h.mem v hv]
    constructor
    · rintro ⟨i, f', hf, hc⟩
      rcases hcase i f' hf with ⟨-, rfl⟩ | ⟨-, rfl⟩ | ⟨-, rfl⟩ | ⟨-, rfl⟩ | ⟨o1, -⟩
      · rcases hc with rfl | rfl | rfl
        · exact Or.inr ⟨fi, _, hfi, (cf _).2 (by simp)⟩
        · exact Or.inl rfl
        · exact Or.inr ⟨fi, _, hfi, (cf _).2 (by simp)⟩
      · rcases hc with rfl | rfl | rfl
        · exact Or.inl rfl
        · exact Or.inr ⟨fi, _, hfi, (cf _).2 (by simp)⟩
        · exact Or.inr ⟨fi, _, hfi, (cf _).2 (by simp)⟩
      · rcases hc with rfl | rfl | rfl
        · exact Or.inr ⟨fj, _, hfj, (cg _).2 (by simp)⟩
        · exact Or.inl rfl
        · exact Or.inr ⟨fj, _, hfj, (cg _).2 (by simp)⟩
      · rcases hc with rfl | rfl | rfl
        · exact Or.inl rfl
        · exact Or.inr ⟨fj, _, hfj, (cg _).2 (by simp)⟩
        · exact Or.inr ⟨fj, _, hfj, (cg _).2 (by simp)⟩
      · exact Or.inr ⟨i, f', o1, hc⟩
    · rintro (rfl | ⟨i, f', hf, hc⟩)
      · exact ⟨fi, _, f0, Or.inr (Or.inl rfl)⟩
      · by_cases e : i = fi
        · subst e
          rw [hfi] at hf; cases hf
          rcases (cf v).1 hc with rfl | rfl | rfl
          · exact ⟨_, _, f0, Or.inl rfl⟩
          · exact ⟨_, _, f1, Or.inr (Or.inl rfl)⟩
          · exact ⟨_, _, f0, Or.inr (Or.inr rfl)⟩
        by_cases e' : i = fj
        · subst e'
          rw [hfj] at hf; cases hf
          rcases (cg v).1 hc with rfl | rfl | rfl
          · exact ⟨_, _, f2, Or.inl rfl⟩
          · exact ⟨_, _, f3, Or.inr (Or.inl rfl)⟩
          · exact ⟨_, _, f2, Or.inr (Or.inr rfl)⟩
        · exact ⟨i, f', hold i f' hf e e', hc⟩
  · rw [Finset.card_insert_of_notMem hNS, hnf]
    have := h.count
    omega

theorem Ins.fill {m m' : Mesh} {N : Nat} {S : Finset Nat} (h : Fill I m N S) (hi : Ins I N m m') :
    ∃ S', Fill I m' (N + 1) S' ∧ ((S' = S ∧ m' = m) ∨ S' = insert N S) := by
  have hskip : m' = m → Fill I m' (N + 1) S := by
    rintro rfl
    exact ⟨h.base, h.labels, fun i f v hf hv => Nat.lt_succ_of_lt (h.range i f v hf hv), fun v hv => ⟨(h.low v hv).1, Nat.lt_succ_of_lt (h.low v hv).2⟩,
      h.mem, h.count, Nat.le_succ_of_le h.start⟩
  cases hi with
  | outside e _ => exact ⟨S, hskip e, Or.inl ⟨rfl, e⟩⟩
  | onCorner fi a b c f la lb lc e => exact ⟨S, hskip e, Or.inl ⟨rfl, e⟩⟩
  | inFace fi x y z hf _ _ hr hF hnf hcap => exact ⟨_, fill_in_face h hf hr hF hnf hcap, Or.inr rfl⟩
  | onEdge fi fj a b c d f g hf s1 s2 s3 hg t1 t2 t3 hij hcd hr hF hnf hcap _ =>
      exact ⟨_, fill_on_edge h hf s1 s2 s3 hg t1 t2 t3 hij hcd hr hF hnf hcap, Or.inr rfl⟩

end Verif.Triangulation
