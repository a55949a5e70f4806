import Verif.Lemmas.ClipExact
import Mathlib.Algebra.BigOperators.Group.Finset.Basic
import Mathlib.Tactic.NormNum

/-! # Cutting with the six sides -/

namespace Verif.Clip

open Verif Geometry

/-- how far a point is along the outward direction of a side -/
def along (m : Mat) (p : P3) : ℝ := (m.apply p).1

structure Frame (m : Mat) : Prop where
  back : ∀ p, m.transpose.apply (m.apply p) = p
  fwd : ∀ p, m.apply (m.transpose.apply p) = p
  lin : ∀ (r s u : ℝ) (a b c : P3), m.apply (r • a + s • b + u • c) = r • m.apply a + s • m.apply b + u • m.apply c
  lin' : ∀ (r s u : ℝ) (a b c : P3),
    m.transpose.apply (r • a + s • b + u • c) = r • m.transpose.apply a + s • m.transpose.apply b + u • m.transpose.apply c
  smul' : ∀ (r : ℝ) (a : P3), m.transpose.apply (r • a) = r • m.transpose.apply a
  nrm : ∀ t, normal (mapTri m.apply t) = m.apply (normal t)
  nrm' : ∀ t, normal (mapTri m.transpose.apply t) = m.transpose.apply (normal t)
  btw : ∀ v a b, Btw v (m.apply a) (m.apply b) → Btw (m.transpose.apply v) a b
  lo : ∀ v a b th, Btw v a b → th ≤ along m a → th ≤ along m b → th ≤ along m v
  hi : ∀ v a b th, Btw v a b → along m a ≤ th → along m b ≤ th → along m v ≤ th

theorem neg_btw {v a b : ℝ} (h : min (-a) (-b) ≤ v ∧ v ≤ max (-a) (-b)) : min a b ≤ -v ∧ -v ≤ max a b := by
  rw [min_neg_neg, max_neg_neg] at h
  constructor <;> linarith [h.1, h.2]

theorem frame {m : Mat} (h : m ∈ permutations) : Frame m := by
  simp only [permutations, List.mem_cons, List.not_mem_nil, or_false] at h
  have L : ∀ {th v a b : ℝ}, (min a b ≤ v ∧ v ≤ max a b) → th ≤ a → th ≤ b → th ≤ v := fun h h1 h2 => (le_min h1 h2).trans h.1
  have H : ∀ {th v a b : ℝ}, (min a b ≤ v ∧ v ≤ max a b) → a ≤ th → b ≤ th → v ≤ th := fun h h1 h2 => h.2.trans (max_le h1 h2)
  rcases h with rfl | rfl | rfl | rfl | rfl | rfl
  all_goals
    constructor
    · intro p; refine Prod.ext ?_ (Prod.ext ?_ ?_) <;> simp [Mat.apply, Mat.transpose, dot]
    · intro p; refine Prod.ext ?_ (Prod.ext ?_ ?_) <;> simp [Mat.apply, Mat.transpose, dot]
    · intro r s u a b c; refine Prod.ext ?_ (Prod.ext ?_ ?_) <;> simp [Mat.apply, dot] <;> ring
    · intro r s u a b c; refine Prod.ext ?_ (Prod.ext ?_ ?_) <;> simp [Mat.apply, Mat.transpose, dot] <;> ring
    · intro r a; refine Prod.ext ?_ (Prod.ext ?_ ?_) <;> simp [Mat.apply, Mat.transpose, dot]
    · intro t; refine Prod.ext ?_ (Prod.ext ?_ ?_) <;> simp [Mat.apply, dot, normal, mapTri] <;> ring
    · intro t; refine Prod.ext ?_ (Prod.ext ?_ ?_) <;> simp [Mat.apply, Mat.transpose, dot, normal, mapTri] <;> ring
    · intro v a b h
      simp only [Btw, Mat.apply, Mat.transpose, dot, zero_mul, one_mul, neg_mul, zero_add, add_zero] at h ⊢
      obtain ⟨h1, h2, h3⟩ := h
      refine ⟨?_, ?_, ?_⟩ <;> first | assumption | exact neg_btw ‹_›
    · intro v a b th h ha hb
      simp only [along, Mat.apply, dot, zero_mul, one_mul, neg_mul, zero_add, add_zero] at ha hb ⊢
      obtain ⟨h1, h2, h3⟩ := h
      first
        | exact L h1 ha hb | exact L h2 ha hb | exact L h3 ha hb
        | (have := H (th := -th) h1 (by linarith) (by linarith); linarith)
        | (have := H (th := -th) h2 (by linarith) (by linarith); linarith)
        | (have := H (th := -th) h3 (by linarith) (by linarith); linarith)
    · intro v a b th h ha hb
      simp only [along, Mat.apply, dot, zero_mul, one_mul, neg_mul, zero_add, add_zero] at ha hb ⊢
      obtain ⟨h1, h2, h3⟩ := h
      first
        | exact H h1 ha hb | exact H h2 ha hb | exact H h3 ha hb
        | (have := L (th := -th) h1 (by linarith) (by linarith); linarith)
        | (have := L (th := -th) h2 (by linarith) (by linarith); linarith)
        | (have := L (th := -th) h3 (by linarith) (by linarith); linarith)

/-- the six sides -/
noncomputable def sides (lo hi : P3) : List (Mat × ℝ) := permutations.zip (thresholds lo hi)

theorem mem_sides {lo hi : P3} {s : Mat × ℝ} (h : s ∈ sides lo hi) : s.1 ∈ permutations := (List.of_mem_zip (a := s.1) (b := s.2) h).1

theorem forall_sides {lo hi : P3} {P : Mat → ℝ → Prop} :
    (∀ s ∈ sides lo hi, P s.1 s.2) ↔
    P ((1, 0, 0), (0, 1, 0), (0, 0, 1)) hi.1 ∧ P ((-1, 0, 0), (0, 0, 1), (0, 1, 0)) (-lo.1) ∧
    P ((0, 1, 0), (0, 0, 1), (1, 0, 0)) hi.2.1 ∧ P ((0, -1, 0), (1, 0, 0), (0, 0, 1)) (-lo.2.1) ∧
    P ((0, 0, 1), (1, 0, 0), (0, 1, 0)) hi.2.2 ∧ P ((0, 0, -1), (0, 1, 0), (1, 0, 0)) (-lo.2.2) := by
  simp only [sides, permutations, thresholds, List.zip_cons_cons, List.zip_nil_right, List.forall_mem_cons, List.not_mem_nil, false_imp_iff,
    implies_true, and_true]

theorem inside_iff {lo hi x : P3} : Inside lo hi x ↔ ∀ s ∈ sides lo hi, along s.1 x < s.2 := by
  rw [forall_sides (P := fun m th => along m x < th)]
  simp only [along, Mat.apply, dot, zero_mul, one_mul, neg_mul, zero_add, add_zero, neg_lt_neg_iff, Inside]
  tauto

theorem inBox_iff {lo hi x : P3} : InBox lo hi x ↔ ∀ s ∈ sides lo hi, along s.1 x ≤ s.2 := by
  rw [forall_sides (P := fun m th => along m x ≤ th)]
  simp only [along, Mat.apply, dot, zero_mul, one_mul, neg_mul, zero_add, add_zero, neg_le_neg_iff, InBox]
  tauto

theorem beyond_iff {lo hi p q : P3} : Beyond lo hi p q ↔ ∃ s ∈ sides lo hi, s.2 ≤ along s.1 p ∧ s.2 ≤ along s.1 q := by
  have := forall_sides (lo := lo) (hi := hi) (P := fun m th => ¬(th ≤ along m p ∧ th ≤ along m q))
  rw [← not_iff_not]
  push Not at this ⊢
  rw [this]
  simp only [along, Mat.apply, dot, zero_mul, one_mul, neg_mul, zero_add, add_zero, neg_lt_neg_iff, neg_le_neg_iff, Beyond]
  push Not
  tauto

theorem onSide_of_beyond {lo hi p q : P3} (hp : InBox lo hi p) (hq : InBox lo hi q) (h : Beyond lo hi p q) : OnSide lo hi p q := by
  obtain ⟨⟨a1, a2⟩, ⟨a3, a4⟩, a5, a6⟩ := hp
  obtain ⟨⟨b1, b2⟩, ⟨b3, b4⟩, b5, b6⟩ := hq
  unfold OnSide
  rcases h with h | h | h | h | h | h
  · exact Or.inl ⟨le_antisymm a2 h.1, le_antisymm b2 h.2⟩
  · exact Or.inr (Or.inl ⟨le_antisymm h.1 a1, le_antisymm h.2 b1⟩)
  · exact Or.inr (Or.inr (Or.inl ⟨le_antisymm a4 h.1, le_antisymm b4 h.2⟩))
  · exact Or.inr (Or.inr (Or.inr (Or.inl ⟨le_antisymm h.1 a3, le_antisymm h.2 b3⟩)))
  · exact Or.inr (Or.inr (Or.inr (Or.inr (Or.inl ⟨le_antisymm a6 h.1, le_antisymm b6 h.2⟩))))
  · exact Or.inr (Or.inr (Or.inr (Or.inr (Or.inr ⟨le_antisymm h.1 a5, le_antisymm h.2 b5⟩))))

/-! ## One side -/

theorem mem_clipSide {A : Arith} {ts : List Tri} {s : Mat × ℝ} {t' : Tri} :
    t' ∈ clipSide A ts s ↔ ∃ t ∈ ts, ∃ u ∈ clipTri A s.2 (mapTri s.1.apply t), t' = mapTri s.1.transpose.apply u := by
  unfold clipSide
  simp only [List.mem_map, List.mem_flatMap]
  constructor
  · rintro ⟨u, ⟨t, ht, hu⟩, rfl⟩; exact ⟨t, ht, u, hu, rfl⟩
  · rintro ⟨t, ht, u, hu, rfl⟩; exact ⟨u, ⟨t, ht, hu⟩, rfl⟩

theorem rows_map {f : P3 → P3} {t : Tri} {v : P3} (h : v ∈ rows (mapTri f t)) : ∃ w ∈ rows t, v = f w := by
  simp only [rows, mapTri, List.mem_cons, List.not_mem_nil, or_false] at h ⊢
  rcases h with h | h | h
  · exact ⟨_, Or.inl rfl, h⟩
  · exact ⟨_, Or.inr (Or.inl rfl), h⟩
  · exact ⟨_, Or.inr (Or.inr rfl), h⟩

/-- every corner after a side is a corner before it, or between two corners of one triangle -/
theorem side_corner {A : Arith} (hA : A.Between) {ts : List Tri} {s : Mat × ℝ} (hm : s.1 ∈ permutations) {t' : Tri} (h : t' ∈ clipSide A ts s) :
    ∃ t ∈ ts, ∀ v ∈ rows t', along s.1 v ≤ s.2 ∧ ∃ p ∈ rows t, ∃ q ∈ rows t, Btw v p q := by
  have F := frame hm
  obtain ⟨t, ht, u, hu, rfl⟩ := mem_clipSide.1 h
  refine ⟨t, ht, fun v hv => ?_⟩
  obtain ⟨w, hw, rfl⟩ := rows_map hv
  have hal : along s.1 (s.1.transpose.apply w) = w.1 := by unfold along; rw [F.fwd]
  rw [hal]
  rcases piece_corner hu hw with ⟨h1, h2⟩ | ⟨p, hp, q, hq, h1, h2, h3⟩
  · obtain ⟨z, hz, rfl⟩ := rows_map h1
    refine ⟨h2, z, hz, z, hz, ?_⟩
    rw [F.back]
    simp [Btw]
  · obtain ⟨p', hp', rfl⟩ := rows_map hp
    obtain ⟨q', hq', rfl⟩ := rows_map hq
    refine ⟨?_, p', hp', q', hq', F.btw _ _ _ ?_⟩
    · rw [h3]; exact le_rfl
    · rw [h3]; exact intersect_btw hA (Or.inl ⟨h1, h2⟩)

/-! ## Inside the box -/

theorem fold_box {A : Arith} (hA : A.Between) :
    ∀ (L : List (Mat × ℝ)) (ts : List Tri) (D : List (Mat × ℝ)), (∀ s ∈ L, s.1 ∈ permutations) → (∀ s ∈ D, s.1 ∈ permutations) →
      (∀ t ∈ ts, ∀ v ∈ rows t, ∀ s ∈ D, along s.1 v ≤ s.2) →
      ∀ t ∈ L.foldl (clipSide A) ts, ∀ v ∈ rows t, ∀ s ∈ D ++ L, along s.1 v ≤ s.2
  | [], ts, D, _, _, h => by simpa using h
  | s :: L, ts, D, hL, hD, h => by
    rw [List.foldl_cons]
    have : D ++ s :: L = (D ++ [s]) ++ L := by simp
    rw [this]
    refine fold_box hA L _ (D ++ [s]) (fun x hx => hL x (List.mem_cons_of_mem _ hx)) ?_ ?_
    · intro x hx
      rcases List.mem_append.1 hx with hx | hx
      · exact hD x hx
      · rw [List.mem_singleton] at hx; subst hx; exact hL _ List.mem_cons_self
    · intro t' ht' v hv x hx
      obtain ⟨t, ht, hc⟩ := side_corner hA (hL s List.mem_cons_self) ht'
      obtain ⟨h1, p, hp, q, hq, hb⟩ := hc v hv
      rcases List.mem_append.1 hx with hx | hx
      · exact (frame (hD x hx)).hi _ _ _ _ hb (h t ht p hp x hx) (h t ht q hq x hx)
      · rw [List.mem_singleton] at hx; subst hx; exact h1

theorem all_box {A : Arith} (hA : A.Between) {lo hi : P3} {ts : List Tri} {t : Tri} (h : t ∈ clipAll A lo hi ts) {v : P3} (hv : v ∈ rows t) :
    InBox lo hi v :=
  inBox_iff.2 fun s hs => fold_box hA (sides lo hi) ts [] (fun _ h => mem_sides h) (fun _ h => by cases h) (fun _ _ _ _ _ h => by cases h) t h v hv s (by simpa using hs)

/-! ## Face by face -/

theorem clipSide_append (A : Arith) (ts ts' : List Tri) (s : Mat × ℝ) : clipSide A (ts ++ ts') s = clipSide A ts s ++ clipSide A ts' s := by
  unfold clipSide; rw [List.flatMap_append, List.map_append]

theorem fold_append (A : Arith) : ∀ (L : List (Mat × ℝ)) (ts ts' : List Tri),
    L.foldl (clipSide A) (ts ++ ts') = L.foldl (clipSide A) ts ++ L.foldl (clipSide A) ts'
  | [], _, _ => rfl
  | s :: L, ts, ts' => by
    rw [List.foldl_cons, List.foldl_cons, List.foldl_cons, clipSide_append, fold_append A L]

theorem fold_nil (A : Arith) : ∀ L : List (Mat × ℝ), L.foldl (clipSide A) [] = []
  | [] => rfl
  | _ :: L => fold_nil A L

theorem all_flatMap (A : Arith) (lo hi : P3) : ∀ ts : List Tri, clipAll A lo hi ts = ts.flatMap fun t => clipAll A lo hi [t]
  | [] => fold_nil A _
  | t :: ts => by
    rw [List.flatMap_cons, ← all_flatMap A lo hi ts]
    exact fold_append A (sides lo hi) [t] ts

/-- Nothing is left of triangles on or beyond a side. -/
theorem fold_beyond {A : Arith} (hA : A.Between) {s : Mat × ℝ} :
    ∀ (L : List (Mat × ℝ)) (ts : List Tri), (∀ x ∈ L, x.1 ∈ permutations) → s ∈ L → (∀ t ∈ ts, ∀ v ∈ rows t, s.2 ≤ along s.1 v) →
      L.foldl (clipSide A) ts = []
  | [], _, _, hs, _ => by cases hs
  | x :: L, ts, hL, hs, h => by
    rw [List.foldl_cons]
    have hsp : s.1 ∈ permutations := hL s hs
    rcases List.mem_cons.1 hs with rfl | hs
    · have : clipSide A ts s = [] := by
        rw [List.eq_nil_iff_forall_not_mem]
        intro t' ht'
        obtain ⟨t, ht, u, hu, -⟩ := mem_clipSide.1 ht'
        have hc := cut A s.2 (mapTri s.1.apply t)
        have g1 : s.2 ≤ (s.1.apply t.1).1 := h t ht t.1 (by simp [rows])
        have g2 : s.2 ≤ (s.1.apply t.2.1).1 := h t ht t.2.1 (by simp [rows])
        have g3 : s.2 ≤ (s.1.apply t.2.2).1 := h t ht t.2.2 (by simp [rows])
        have g : ∀ v ∈ rows (mapTri s.1.apply t), s.2 ≤ v.1 := by
          intro v hv
          obtain ⟨w, hw, rfl⟩ := rows_map hv
          exact h t ht w hw
        generalize clipTri A s.2 (mapTri s.1.apply t) = out at hu hc
        cases hc with
        | keep h1 h2 h3 h e =>
          have h' : (s.1.apply t.1).1 < s.2 ∨ (s.1.apply t.2.1).1 < s.2 ∨ (s.1.apply t.2.2).1 < s.2 := h
          rcases h' with h | h | h <;> linarith
        | drop _ _ _ e => rw [e] at hu; cases hu
        | corner k a b c hr ha => exact absurd (g a (rows_rot hr).1) (not_le.2 ha)
        | left k a b c hr ha hb => exact absurd (g b (rows_rot hr).2.1) (not_le.2 hb)
        | right k a b c hr ha hb hc => exact absurd (g c (rows_rot hr).2.2) (not_le.2 hc)
        | quad1 k a b c hr ha hb => exact absurd (g b (rows_rot hr).2.1) (not_le.2 hb)
        | quad2 k a b c hr ha hb => exact absurd (g b (rows_rot hr).2.1) (not_le.2 hb)
      rw [this, fold_nil]
    · refine fold_beyond hA L _ (fun y hy => hL y (List.mem_cons_of_mem _ hy)) hs ?_
      intro t' ht' v hv
      obtain ⟨t, ht, hc⟩ := side_corner hA (hL x List.mem_cons_self) ht'
      obtain ⟨-, p, hp, q, hq, hb⟩ := hc v hv
      exact (frame hsp).lo _ _ _ _ hb (h t ht p hp) (h t ht q hq)

/-! ## The region, in exact arithmetic -/

theorem in_map {m : Mat} (F : Frame m) {x : P3} {t : Tri} : In (m.apply x) (mapTri m.apply t) ↔ In x t := by
  constructor
  · rintro ⟨r, s, u, hr, hs, hu, h1, hx⟩
    refine ⟨r, s, u, hr, hs, hu, h1, ?_⟩
    have := congrArg m.transpose.apply hx
    rw [F.back, F.lin'] at this
    simpa [mapTri, F.back] using this
  · rintro ⟨r, s, u, hr, hs, hu, h1, hx⟩
    refine ⟨r, s, u, hr, hs, hu, h1, ?_⟩
    rw [hx, F.lin]
    rfl

theorem in_map' {m : Mat} (F : Frame m) {x : P3} {t : Tri} : In x (mapTri m.transpose.apply t) ↔ In (m.apply x) t := by
  rw [← in_map F]
  have : mapTri m.apply (mapTri m.transpose.apply t) = t := by simp [mapTri, F.fwd]
  rw [this]

theorem side_region {A : Arith} (hA : A.interp = exactInterp) {s : Mat × ℝ} (hm : s.1 ∈ permutations) {t : Tri} (hn : normal t ≠ 0) :
    (∀ t' ∈ clipSide A [t] s, Part t' t) ∧ ∀ x, In x t → along s.1 x < s.2 → ∃ t' ∈ clipSide A [t] s, In x t' := by
  have F := frame hm
  have hn' : normal (mapTri s.1.apply t) ≠ 0 := by
    rw [F.nrm]
    intro h
    apply hn
    have := congrArg s.1.transpose.apply h
    rw [F.back] at this
    rw [this]
    refine Prod.ext ?_ (Prod.ext ?_ ?_) <;> simp [Mat.apply, dot]
  have G := good hA s.2 hn'
  constructor
  · intro t' ht'
    obtain ⟨t0, ht0, u, hu, rfl⟩ := mem_clipSide.1 ht'
    rw [List.mem_singleton] at ht0
    subst ht0
    obtain ⟨⟨c, hc, e⟩, h2⟩ := G.inner u hu
    refine ⟨⟨c, hc, ?_⟩, fun x hx => (in_map F).1 (h2 _ ((in_map' F).1 hx)).1⟩
    rw [F.nrm', e, F.nrm, F.smul', F.back]
  · intro x hx hl
    obtain ⟨u, hu, h⟩ := G.cover (s.1.apply x) ((in_map F).2 hx) hl
    exact ⟨_, mem_clipSide.2 ⟨t, List.mem_singleton_self _, u, hu, rfl⟩, (in_map' F).2 h⟩

theorem Part.trans {a b c : Tri} (h1 : Part a b) (h2 : Part b c) : Part a c := by
  obtain ⟨⟨r, hr, e⟩, h⟩ := h1
  obtain ⟨⟨s, hs, e'⟩, h'⟩ := h2
  exact ⟨⟨r * s, mul_pos hr hs, by rw [e, e', mul_smul]⟩, fun x hx => h' x (h x hx)⟩

theorem fold_region {A : Arith} (hA : A.interp = exactInterp) : ∀ (L : List (Mat × ℝ)) (t : Tri), (∀ s ∈ L, s.1 ∈ permutations) → normal t ≠ 0 →
    (∀ t' ∈ L.foldl (clipSide A) [t], Part t' t) ∧
    ∀ x, In x t → (∀ s ∈ L, along s.1 x < s.2) → ∃ t' ∈ L.foldl (clipSide A) [t], In x t'
  | [], t, _, _ => by
    refine ⟨fun t' h => ?_, fun x hx _ => ⟨t, by simp, hx⟩⟩
    have : t' = t := by simpa using h
    subst this
    exact ⟨⟨1, one_pos, (one_smul _ _).symm⟩, fun x hx => hx⟩
  | s :: L, t, hL, hn => by
    rw [List.foldl_cons]
    obtain ⟨g1, g2⟩ := side_region hA (hL s List.mem_cons_self) hn
    have hL' : ∀ x ∈ L, x.1 ∈ permutations := fun x hx => hL x (List.mem_cons_of_mem _ hx)
    have key : ∀ ts : List Tri, L.foldl (clipSide A) ts = ts.flatMap fun u => L.foldl (clipSide A) [u] := by
      intro ts
      induction ts with
      | nil => exact fold_nil A L
      | cons u us ih => rw [List.flatMap_cons, ← ih]; exact fold_append A L [u] us
    rw [key]
    constructor
    · intro t' ht'
      obtain ⟨u, hu, ht'⟩ := List.mem_flatMap.1 ht'
      obtain ⟨⟨c, hc, e⟩, -⟩ := g1 u hu
      exact ((fold_region hA L u hL' (smul_normal_ne hn hc e)).1 t' ht').trans (g1 u hu)
    · intro x hx hl
      obtain ⟨u, hu, hxu⟩ := g2 x hx (hl s List.mem_cons_self)
      obtain ⟨⟨c, hc, e⟩, -⟩ := g1 u hu
      obtain ⟨t', ht', h⟩ := (fold_region hA L u hL' (smul_normal_ne hn hc e)).2 x hxu (fun y hy => hl y (List.mem_cons_of_mem _ hy))
      exact ⟨t', List.mem_flatMap.2 ⟨u, hu, ht'⟩, h⟩

/-! ## No overlap, in exact arithmetic -/

theorem side_apart {A : Arith} (hA : A.interp = exactInterp) {s : Mat × ℝ} (hm : s.1 ∈ permutations) {t : Tri} (hn : normal t ≠ 0) :
    (clipSide A [t] s).Pairwise Apart := by
  have F := frame hm
  have hn' : normal (mapTri s.1.apply t) ≠ 0 := by
    rw [F.nrm]
    intro h
    apply hn
    have := congrArg s.1.transpose.apply h
    rw [F.back] at this
    rw [this]
    refine Prod.ext ?_ (Prod.ext ?_ ?_) <;> simp [Mat.apply, dot]
  have e : clipSide A [t] s = (clipTri A s.2 (mapTri s.1.apply t)).map (mapTri s.1.transpose.apply) := by
    unfold clipSide; simp
  rw [e, List.pairwise_map]
  refine (apart hA s.2 hn').imp ?_
  intro u v h
  rintro ⟨x, h1, h2⟩
  have key : ∀ {w : Tri}, StrictIn x (mapTri s.1.transpose.apply w) → StrictIn (s.1.apply x) w := by
    rintro w ⟨r, p, q, hr, hp, hq, hsum, hx⟩
    refine ⟨r, p, q, hr, hp, hq, hsum, ?_⟩
    rw [hx, F.lin]
    simp [mapTri, F.fwd]
  exact h ⟨_, key h1, key h2⟩

theorem fold_apart {A : Arith} (hA : A.interp = exactInterp) : ∀ (L : List (Mat × ℝ)) (ts : List Tri), (∀ s ∈ L, s.1 ∈ permutations) →
    (∀ t ∈ ts, normal t ≠ 0) → ts.Pairwise Apart → (L.foldl (clipSide A) ts).Pairwise Apart
  | [], _, _, _, h => h
  | s :: L, ts, hL, hn, h => by
    rw [List.foldl_cons]
    have hm := hL s List.mem_cons_self
    have e : clipSide A ts s = ts.flatMap fun t => clipSide A [t] s := by
      unfold clipSide
      rw [List.map_flatMap]
      simp
    refine fold_apart hA L _ (fun x hx => hL x (List.mem_cons_of_mem _ hx)) ?_ ?_
    · intro t' ht'
      rw [e] at ht'
      obtain ⟨t, ht, ht'⟩ := List.mem_flatMap.1 ht'
      obtain ⟨⟨c, hc, e⟩, -⟩ := (side_region hA hm (hn t ht)).1 t' ht'
      exact smul_normal_ne (hn t ht) hc e
    · rw [e, List.pairwise_flatMap]
      refine ⟨fun t ht => side_apart hA hm (hn t ht), h.imp_of_mem ?_⟩
      intro a b ha hb hab x hx y hy
      rintro ⟨z, h1, h2⟩
      exact hab ⟨z, strict_part ((side_region hA hm (hn a ha)).1 x hx) (hn a ha) h1,
        strict_part ((side_region hA hm (hn b hb)).1 y hy) (hn b hb) h2⟩

/-! ## No cracks -/

/-- nothing that vanishes beyond the sides sees a boundary -/
def Balanced (L : List (Mat × ℝ)) (ts : List Tri) : Prop :=
  ∀ d : P3 → P3 → ℤ, (∀ u v, d v u = -d u v) → (∀ u v, (∃ s ∈ L, s.2 ≤ along s.1 u ∧ s.2 ≤ along s.1 v) → d u v = 0) → tot d ts = 0

theorem tot_flatMap (d : P3 → P3 → ℤ) (f : Tri → List Tri) : ∀ ts : List Tri, tot d (ts.flatMap f) = (ts.map fun t => tot d (f t)).sum
  | [] => rfl
  | t :: ts => by rw [List.flatMap_cons, tot_append, tot_flatMap d f ts, List.map_cons, List.sum_cons]

theorem tot_map (d : P3 → P3 → ℤ) (f : P3 → P3) (ts : List Tri) : tot d (ts.map (mapTri f)) = tot (fun u v => d (f u) (f v)) ts := by
  unfold tot
  rw [List.map_map]
  rfl

theorem side_balanced {A : Arith} (hA : A.Between) {L : List (Mat × ℝ)} (hL : ∀ s ∈ L, s.1 ∈ permutations) {s : Mat × ℝ} (hs : s ∈ L)
    {ts : List Tri} (h : Balanced L ts) : Balanced L (clipSide A ts s) := by
  intro d hd hv
  have F := frame (hL s hs)
  unfold clipSide
  rw [tot_map, tot_flatMap]
  obtain ⟨d', hd'⟩ : ∃ d' : P3 → P3 → ℤ, d' = fun u v => d (s.1.transpose.apply u) (s.1.transpose.apply v) := ⟨_, rfl⟩
  rw [← hd']
  have a' : ∀ u v, d' v u = -d' u v := by intro u v; rw [hd']; exact hd _ _
  have z' : ∀ u v, s.2 ≤ u.1 → s.2 ≤ v.1 → d' u v = 0 := by
    intro u v hu hv'
    rw [hd']
    refine hv _ _ ⟨s, hs, ?_, ?_⟩ <;> unfold along <;> rw [F.fwd] <;> assumption
  have e : (ts.map fun t => tot d' (clipTri A s.2 (mapTri s.1.apply t))) = ts.map (cyc fun a b => cutEdge A s.2 d' (s.1.apply a) (s.1.apply b)) := by
    apply List.map_congr_left
    intro t _
    rw [chain a' z']
    rfl
  rw [e]
  refine h _ (fun u v => cutEdge_antisymm a' _ _) ?_
  rintro u v ⟨x, hx, hu, hv'⟩
  have Fx := frame (hL x hx)
  -- the cut edge is between the ends of the edge
  have hz : ∀ p q, Btw (s.1.transpose.apply p) u v → Btw (s.1.transpose.apply q) u v → d' p q = 0 := by
    intro p q hp hq
    rw [hd']
    exact hv _ _ ⟨x, hx, Fx.lo _ _ _ _ hp hu hv', Fx.lo _ _ _ _ hq hu hv'⟩
  have bu : Btw (s.1.transpose.apply (s.1.apply u)) u v := by rw [F.back]; simp [Btw]
  have bv : Btw (s.1.transpose.apply (s.1.apply v)) u v := by rw [F.back]; simp [Btw]
  unfold cutEdge
  split
  · rename_i h1
    split
    · exact hz _ _ bu bv
    · rename_i h2
      exact hz _ _ bu (F.btw _ _ _ (intersect_btw hA (Or.inl ⟨h1, not_le.1 h2⟩)))
  · rename_i h1
    split
    · rename_i h2
      split
      · exact hz _ _ bu bv
      · rename_i h3
        exact hz _ _ (F.btw _ _ _ (intersect_btw hA (Or.inr ⟨h2, not_le.1 h3⟩))) bv
    · rfl

theorem fold_balanced {A : Arith} (hA : A.Between) {L : List (Mat × ℝ)} (hL : ∀ s ∈ L, s.1 ∈ permutations) :
    ∀ (L' : List (Mat × ℝ)) (ts : List Tri), (∀ s ∈ L', s ∈ L) → Balanced L ts → Balanced L (L'.foldl (clipSide A) ts)
  | [], _, _, h => h
  | s :: L', ts, hs, h => by
    rw [List.foldl_cons]
    exact fold_balanced hA hL L' _ (fun x hx => hs x (List.mem_cons_of_mem _ hx)) (side_balanced hA hL (hs s List.mem_cons_self) h)

/-! ## Counting directed edges -/

theorem sum_count {α : Type} [DecidableEq α] (f : α → ℤ) (l l' : List α) (h : ∀ e, f e ≠ 0 → l.count e = l'.count e) : (l.map f).sum = (l'.map f).sum := by
  have key : ∀ (l : List α) (S : Finset α), l.toFinset ⊆ S → (l.map f).sum = ∑ e ∈ S, l.count e • f e := by
    intro l S hS
    rw [Finset.sum_list_map_count]
    refine Finset.sum_subset hS ?_
    intro x _ hx
    rw [List.count_eq_zero_of_not_mem (fun hm => hx (List.mem_toFinset.2 hm)), zero_smul]
  rw [key l (l.toFinset ∪ l'.toFinset) Finset.subset_union_left, key l' (l.toFinset ∪ l'.toFinset) Finset.subset_union_right]
  refine Finset.sum_congr rfl fun e _ => ?_
  by_cases h0 : f e = 0
  · rw [h0, smul_zero, smul_zero]
  · rw [h e h0]

theorem count_swap {α : Type} [DecidableEq α] (l : List (α × α)) (i j : α) : (l.map Prod.swap).count (i, j) = l.count (j, i) := by
  have : ((i, j) : α × α) = Prod.swap (j, i) := rfl
  rw [this, List.count_map_of_injective _ _ Prod.swap_injective]

/-- A sum of an antisymmetric function over directed edges vanishes if, where the function does not, every edge occurs as often as its reverse. -/
theorem sum_antisymm {α : Type} [DecidableEq α] (f : α × α → ℤ) (hf : ∀ i j, f (j, i) = -f (i, j)) (l : List (α × α))
    (h : ∀ i j, f (i, j) ≠ 0 → l.count (i, j) = l.count (j, i)) : (l.map f).sum = 0 := by
  have h1 := sum_count f l (l.map Prod.swap) (by
    rintro ⟨i, j⟩ h0
    have := (h i j h0).trans (count_swap l i j).symm
    convert this using 2 <;> exact lawful_beq_subsingleton _ _)
  have h2 : ((l.map Prod.swap).map f).sum = -(l.map f).sum := by
    rw [List.map_map]
    clear h h1
    induction l with
    | nil => rfl
    | cons a l ih =>
      obtain ⟨i, j⟩ := a
      rw [List.map_cons, List.sum_cons, ih, List.map_cons, List.sum_cons]
      show f (j, i) + _ = _
      rw [hf]; omega
  omega

theorem tot_edges (d : P3 → P3 → ℤ) : ∀ ts : List Tri, tot d ts = ((ts.flatMap dirEdges).map fun e => d e.1 e.2).sum
  | [] => rfl
  | t :: ts => by
    have := tot_edges d ts
    rw [List.flatMap_cons, List.map_append, List.sum_append, ← this]
    show cyc d t + tot d ts = _
    unfold cyc dirEdges
    simp only [List.map_cons, List.map_nil, List.sum_cons, List.sum_nil]
    omega

open Classical in
/-- A balanced list of triangles has every directed edge that is not on or beyond a side as often as its reverse. -/
theorem balanced_count {L : List (Mat × ℝ)} {ts : List Tri} (h : Balanced L ts) {p q : P3}
    (hpq : ¬∃ s ∈ L, s.2 ≤ along s.1 p ∧ s.2 ≤ along s.1 q) : (ts.flatMap dirEdges).count (p, q) = (ts.flatMap dirEdges).count (q, p) := by
  have key : ∀ (l : List (P3 × P3)) (e : P3 × P3), (l.map fun x => if x = e then (1 : ℤ) else 0).sum = l.count e := by
    intro l e
    induction l with
    | nil => rfl
    | cons a l ih =>
      rw [List.map_cons, List.sum_cons, ih, List.count_cons]
      by_cases hae : a = e
      · rw [if_pos hae]; simp [hae]; ring
      · rw [if_neg hae]; simp [hae]
  have hb := h (fun u v => (if (u, v) = (p, q) then 1 else 0) - (if (u, v) = (q, p) then 1 else 0)) ?_ ?_
  · rw [tot_edges] at hb
    have e2 : ∀ l : List (P3 × P3), (l.map fun e => (if (e.1, e.2) = (p, q) then (1 : ℤ) else 0) - (if (e.1, e.2) = (q, p) then 1 else 0)).sum
        = (l.map fun x => if x = (p, q) then (1 : ℤ) else 0).sum - (l.map fun x => if x = (q, p) then (1 : ℤ) else 0).sum := by
      intro l
      induction l with
      | nil => rfl
      | cons a l ih => rw [List.map_cons, List.sum_cons, ih]; simp only [List.map_cons, List.sum_cons]; ring
    rw [e2, key, key] at hb
    omega
  · intro u v
    simp only [Prod.mk.injEq]
    by_cases h1 : u = p ∧ v = q <;> by_cases h2 : u = q ∧ v = p
    · rw [if_pos h1, if_pos h2, if_pos h2.symm, if_pos h1.symm]; omega
    · rw [if_pos h1, if_neg h2, if_neg (fun h => h2 h.symm), if_pos h1.symm]; omega
    · rw [if_neg h1, if_pos h2, if_pos h2.symm, if_neg (fun h => h1 h.symm)]; omega
    · rw [if_neg h1, if_neg h2, if_neg (fun h => h2 h.symm), if_neg (fun h => h1 h.symm)]; omega
  · rintro u v ⟨s, hs, h1, h2⟩
    have n1 : (u, v) ≠ (p, q) := by
      rintro h; simp only [Prod.mk.injEq] at h; obtain ⟨rfl, rfl⟩ := h; exact hpq ⟨s, hs, h1, h2⟩
    have n2 : (u, v) ≠ (q, p) := by
      rintro h; simp only [Prod.mk.injEq] at h; obtain ⟨rfl, rfl⟩ := h; exact hpq ⟨s, hs, h2, h1⟩
    rw [if_neg n1, if_neg n2]; rfl

end Verif.Clip
