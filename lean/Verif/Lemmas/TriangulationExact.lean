import Verif.Lemmas.TriangulationFaces

/-! # Lemmas: exact arithmetic -/

namespace Verif.Triangulation

open Verif Verif.AbstractMesh Verif.Triangulation.Spec

variable {bd inn : List (ℝ × ℝ)} {labels : List (Int × Int)}

theorem orient_area2 (a b c : ℝ × ℝ) : Predicates.orient2d a b c = area2 a b c := by
  unfold Predicates.orient2d area2; ring

theorem exact_orient (u v w : Nat) :
    (Input.exact bd inn labels).orient u v w = area2 (pt (bd ++ inn) u) (pt (bd ++ inn) v) (pt (bd ++ inn) w) := orient_area2 _ _ _

theorem pt_append {i : Nat} (h : i < bd.length) : pt (bd ++ inn) i = pt bd i := by
  unfold pt
  rw [List.getD_eq_getElem?_getD, List.getD_eq_getElem?_getD, List.getElem?_append_left h]

theorem pt_inner (i : Nat) : pt (bd ++ inn) (bd.length + i) = pt inn i := by
  unfold pt
  rw [List.getD_eq_getElem?_getD, List.getD_eq_getElem?_getD, List.getElem?_append_right (by omega), Nat.add_sub_cancel_left]

theorem foldl_sum (f : Nat → ℝ) (n : Nat) : (List.range n).foldl (fun s i => s + f i) 0 = ∑ i ∈ Finset.range n, f i := by
  induction n with
  | zero => rfl
  | succ n ih => rw [List.range_succ, List.foldl_append, ih, Finset.sum_range_succ]; rfl

theorem exact_area2 : (Input.exact bd inn labels).area2 = polyArea2 bd := by
  change signedArea2 (bd ++ inn) bd.length = _
  unfold signedArea2 polyArea2
  rw [foldl_sum]
  refine Finset.sum_congr rfl fun i hi => ?_
  have hi := Finset.mem_range.1 hi
  have hj : (i + 1) % bd.length < bd.length := Nat.mod_lt _ (by omega)
  change (pt (bd ++ inn) i).1 * (pt (bd ++ inn) ((i + 1) % bd.length)).2 - (pt (bd ++ inn) ((i + 1) % bd.length)).1 * (pt (bd ++ inn) i).2 = _
  rw [pt_append hi, pt_append hj]

theorem foldl_box : ∀ (ps : List (ℝ × ℝ)) (p : ℝ × ℝ),
    IsBox (p :: ps) (ps.foldl (fun a q => (min a.1 q.1, min a.2 q.2)) p) (ps.foldl (fun a q => (max a.1 q.1, max a.2 q.2)) p) := by
  have h1 : ∀ (ps : List (ℝ × ℝ)) (a b : ℝ), (ps.foldl (fun a q => (min a.1 q.1, min a.2 q.2)) (a, b)) = (ps.foldl (fun m q => min m q.1) a, ps.foldl (fun m q => min m q.2) b) := by
    intro ps
    induction ps with
    | nil => intro a b; rfl
    | cons q ps ih => intro a b; rw [List.foldl_cons, ih]; rfl
  have h2 : ∀ (ps : List (ℝ × ℝ)) (a b : ℝ), (ps.foldl (fun a q => (max a.1 q.1, max a.2 q.2)) (a, b)) = (ps.foldl (fun m q => max m q.1) a, ps.foldl (fun m q => max m q.2) b) := by
    intro ps
    induction ps with
    | nil => intro a b; rfl
    | cons q ps ih => intro a b; rw [List.foldl_cons, ih]; rfl
  have m1 : ∀ (g : ℝ × ℝ → ℝ) (ps : List (ℝ × ℝ)) (a : ℝ), ps.foldl (fun m q => min m (g q)) a ≤ a ∧ (∀ p ∈ ps, ps.foldl (fun m q => min m (g q)) a ≤ g p) ∧
      (ps.foldl (fun m q => min m (g q)) a = a ∨ ∃ p ∈ ps, g p = ps.foldl (fun m q => min m (g q)) a) := by
    intro g ps
    induction ps with
    | nil => intro a; exact ⟨le_refl _, (fun p hp => by cases hp), Or.inl rfl⟩
    | cons q ps ih =>
        intro a
        rw [List.foldl_cons]
        obtain ⟨i1, i2, i3⟩ := ih (min a (g q))
        refine ⟨i1.trans (min_le_left _ _), ?_, ?_⟩
        · intro p hp
          rcases List.mem_cons.1 hp with rfl | hp
          · exact i1.trans (min_le_right _ _)
          · exact i2 p hp
        · rcases i3 with i3 | ⟨p, hp, e⟩
          · rcases min_choice a (g q) with e | e
            · exact Or.inl (i3.trans e)
            · exact Or.inr ⟨q, List.mem_cons_self, (i3.trans e).symm⟩
          · exact Or.inr ⟨p, List.mem_cons_of_mem _ hp, e⟩
  have m2 : ∀ (g : ℝ × ℝ → ℝ) (ps : List (ℝ × ℝ)) (a : ℝ), a ≤ ps.foldl (fun m q => max m (g q)) a ∧ (∀ p ∈ ps, g p ≤ ps.foldl (fun m q => max m (g q)) a) ∧
      (ps.foldl (fun m q => max m (g q)) a = a ∨ ∃ p ∈ ps, g p = ps.foldl (fun m q => max m (g q)) a) := by
    intro g ps
    induction ps with
    | nil => intro a; exact ⟨le_refl _, (fun p hp => by cases hp), Or.inl rfl⟩
    | cons q ps ih =>
        intro a
        rw [List.foldl_cons]
        obtain ⟨i1, i2, i3⟩ := ih (max a (g q))
        refine ⟨(le_max_left _ _).trans i1, ?_, ?_⟩
        · intro p hp
          rcases List.mem_cons.1 hp with rfl | hp
          · exact (le_max_right _ _).trans i1
          · exact i2 p hp
        · rcases i3 with i3 | ⟨p, hp, e⟩
          · rcases max_choice a (g q) with e | e
            · exact Or.inl (i3.trans e)
            · exact Or.inr ⟨q, List.mem_cons_self, (i3.trans e).symm⟩
          · exact Or.inr ⟨p, List.mem_cons_of_mem _ hp, e⟩
  intro ps p
  obtain ⟨a, b⟩ := p
  rw [h1, h2]
  obtain ⟨p1, p2, p3⟩ := m1 Prod.fst ps a
  obtain ⟨q1, q2, q3⟩ := m1 Prod.snd ps b
  obtain ⟨r1, r2, r3⟩ := m2 Prod.fst ps a
  obtain ⟨s1, s2, s3⟩ := m2 Prod.snd ps b
  refine ⟨?_, ?_, ?_, ?_, ?_⟩
  · intro p hp
    rcases List.mem_cons.1 hp with rfl | hp
    · exact ⟨p1, q1, r1, s1⟩
    · exact ⟨p2 p hp, q2 p hp, r2 p hp, s2 p hp⟩
  · rcases p3 with e | ⟨p, hp, e⟩
    · exact ⟨_, List.mem_cons_self, e.symm⟩
    · exact ⟨p, List.mem_cons_of_mem _ hp, e⟩
  · rcases q3 with e | ⟨p, hp, e⟩
    · exact ⟨_, List.mem_cons_self, e.symm⟩
    · exact ⟨p, List.mem_cons_of_mem _ hp, e⟩
  · rcases r3 with e | ⟨p, hp, e⟩
    · exact ⟨_, List.mem_cons_self, e.symm⟩
    · exact ⟨p, List.mem_cons_of_mem _ hp, e⟩
  · rcases s3 with e | ⟨p, hp, e⟩
    · exact ⟨_, List.mem_cons_self, e.symm⟩
    · exact ⟨p, List.mem_cons_of_mem _ hp, e⟩

theorem isBox_unique {pts : List (ℝ × ℝ)} {lo hi lo' hi' : ℝ × ℝ} (h : IsBox pts lo hi) (h' : IsBox pts lo' hi') : lo = lo' ∧ hi = hi' := by
  obtain ⟨b, ⟨p1, m1, e1⟩, ⟨p2, m2, e2⟩, ⟨p3, m3, e3⟩, ⟨p4, m4, e4⟩⟩ := h
  obtain ⟨b', ⟨q1, n1, d1⟩, ⟨q2, n2, d2⟩, ⟨q3, n3, d3⟩, ⟨q4, n4, d4⟩⟩ := h'
  have a1 := (b q1 n1).1; have a2 := (b q2 n2).2.1; have a3 := (b q3 n3).2.2.1; have a4 := (b q4 n4).2.2.2
  have c1 := (b' p1 m1).1; have c2 := (b' p2 m2).2.1; have c3 := (b' p3 m3).2.2.1; have c4 := (b' p4 m4).2.2.2
  exact ⟨Prod.ext (by linarith) (by linarith), Prod.ext (by linarith) (by linarith)⟩

theorem scale_sq {pts : List (ℝ × ℝ)} {lo hi : ℝ × ℝ} (h : IsBox pts lo hi) : scale pts * scale pts = dist2 lo hi := by
  cases pts with
  | nil => obtain ⟨p, hp, -⟩ := h.2.1; cases hp
  | cons p ps =>
      obtain ⟨e1, e2⟩ := isBox_unique (foldl_box ps p) h
      unfold scale
      dsimp only
      rw [Real.mul_self_sqrt (by positivity), e1, e2]
      unfold dist2
      ring

/-- The sum of the areas. -/
theorem Fill.area {m : Mesh} {N : Nat} {S : Finset Nat} (h : Fill (Input.exact bd inn labels) m N S) :
    (m.takeFaces.map fun f => area2 (pt (bd ++ inn) f.1) (pt (bd ++ inn) f.2.1) (pt (bd ++ inn) f.2.2)).sum = |polyArea2 bd| := by
  have h1 := h.sum (fun u v => (pt (bd ++ inn) u).1 * (pt (bd ++ inn) v).2 - (pt (bd ++ inn) v).1 * (pt (bd ++ inn) u).2) (fun u v => by ring)
  have h2 : tri (fun u v => (pt (bd ++ inn) u).1 * (pt (bd ++ inn) v).2 - (pt (bd ++ inn) v).1 * (pt (bd ++ inn) u).2) =
      fun f => area2 (pt (bd ++ inn) f.1) (pt (bd ++ inn) f.2.1) (pt (bd ++ inn) f.2.2) := by
    funext f
    unfold tri area2
    ring
  rw [h2] at h1
  rw [h1]
  have h3 : ∑ i ∈ Finset.range (Input.exact bd inn labels).nb, ((pt (bd ++ inn) i).1 * (pt (bd ++ inn) ((i + 1) % (Input.exact bd inn labels).nb)).2 -
      (pt (bd ++ inn) ((i + 1) % (Input.exact bd inn labels).nb)).1 * (pt (bd ++ inn) i).2) = polyArea2 bd := by
    unfold polyArea2
    refine Finset.sum_congr rfl fun i hi => ?_
    have hi : i < bd.length := Finset.mem_range.1 hi
    have hj : (i + 1) % bd.length < bd.length := Nat.mod_lt _ (by omega)
    change (pt (bd ++ inn) i).1 * (pt (bd ++ inn) ((i + 1) % bd.length)).2 - (pt (bd ++ inn) ((i + 1) % bd.length)).1 * (pt (bd ++ inn) i).2 = _
    rw [pt_append hi, pt_append hj]
  rw [h3, exact_area2]
  split
  · rename_i h; rw [abs_of_neg h]; ring
  · rename_i h; rw [abs_of_nonneg (not_lt.1 h)]; ring

open Classical in
theorem countP_inside (pts : List (ℝ × ℝ)) (x : ℝ × ℝ) (fs : List Face) :
    ((fs.countP fun f => decide (InsideCcw (pt pts f.1) (pt pts f.2.1) (pt pts f.2.2) x) : ℕ) : ℤ) -
      ((fs.countP fun f => decide (InsideCw (pt pts f.1) (pt pts f.2.1) (pt pts f.2.2) x) : ℕ) : ℤ) =
    (fs.map fun f => inside (pt pts f.1) (pt pts f.2.1) (pt pts f.2.2) x).sum := by
  induction fs with
  | nil => rfl
  | cons f fs ih =>
      rw [List.countP_cons, List.countP_cons, List.map_cons, List.sum_cons, ← ih]
      unfold inside
      simp only [decide_eq_true_eq]
      push_cast
      split <;> split <;> push_cast <;> ring

theorem Fill.covers {m : Mesh} {N : Nat} {S : Finset Nat} (h : Fill (Input.exact bd inn labels) m N S) :
    Covers bd (bd ++ inn) (polyArea2 bd < 0) m.takeFaces := by
  intro x hx
  rw [countP_inside]
  have h1 := h.sum (fun u v => (crossing (pt (bd ++ inn) u) (pt (bd ++ inn) v) x : ℝ)) (fun u v => by rw [crossing_anti]; push_cast; ring)
  have h2 : m.takeFaces.map (tri fun u v => (crossing (pt (bd ++ inn) u) (pt (bd ++ inn) v) x : ℝ)) =
      (m.takeFaces.map fun f => inside (pt (bd ++ inn) f.1) (pt (bd ++ inn) f.2.1) (pt (bd ++ inn) f.2.2) x).map (fun z : ℤ => (z : ℝ)) := by
    rw [List.map_map]
    refine List.map_congr_left fun f hf => ?_
    rw [Function.comp_apply, ← crossing_triangle (hx f.1 f.2.1 ⟨f, hf, Or.inl ⟨rfl, rfl⟩⟩) (hx f.2.1 f.2.2 ⟨f, hf, Or.inr (Or.inl ⟨rfl, rfl⟩)⟩)
      (hx f.2.2 f.1 ⟨f, hf, Or.inr (Or.inr ⟨rfl, rfl⟩)⟩)]
    unfold tri
    push_cast
    rfl
  rw [h2] at h1
  have h3 : ∀ l : List ℤ, (l.map (fun z : ℤ => (z : ℝ))).sum = ((l.sum : ℤ) : ℝ) := by
    intro l
    induction l with
    | nil => simp
    | cons a l ih => rw [List.map_cons, List.sum_cons, ih, List.sum_cons]; push_cast; rfl
  rw [h3] at h1
  have h4 : ∑ i ∈ Finset.range (Input.exact bd inn labels).nb,
      (crossing (pt (bd ++ inn) i) (pt (bd ++ inn) ((i + 1) % (Input.exact bd inn labels).nb)) x : ℝ) = ((winding bd x : ℤ) : ℝ) := by
    unfold winding
    push_cast
    refine Finset.sum_congr rfl fun i hi => ?_
    have hi : i < bd.length := Finset.mem_range.1 hi
    have hj : (i + 1) % bd.length < bd.length := Nat.mod_lt _ (by omega)
    change (crossing (pt (bd ++ inn) i) (pt (bd ++ inn) ((i + 1) % bd.length)) x : ℝ) = _
    rw [pt_append hi, pt_append hj]
  rw [h4, exact_area2] at h1
  have : ((if polyArea2 bd < 0 then (-1 : ℝ) else 1) * ((winding bd x : ℤ) : ℝ)) = (((if polyArea2 bd < 0 then (-1 : ℤ) else 1) * winding bd x : ℤ) : ℝ) := by
    split <;> push_cast <;> ring
  rw [this] at h1
  convert Int.cast_injective h1

/-- `incircle` in terms of the centre of the circle. -/
theorem incircle_centre {a b c d o : ℝ × ℝ} (h1 : dist2 o a = dist2 o b) (h2 : dist2 o a = dist2 o c) :
    incircle a b c d = area2 a b c * (dist2 o a - dist2 o d) := by
  unfold dist2 at *
  unfold incircle area2
  dsimp only
  obtain ⟨a1, a2⟩ := a
  obtain ⟨b1, b2⟩ := b
  obtain ⟨c1, c2⟩ := c
  obtain ⟨d1, d2⟩ := d
  obtain ⟨o1, o2⟩ := o
  dsimp only at *
  linear_combination (-((a1 - d1) * (c2 - d2) - (a2 - d2) * (c1 - d1))) * (-1) * h1 + (-((a1 - d1) * (b2 - d2) - (a2 - d2) * (b1 - d1))) * h2

theorem incircle_swap (a b c d : ℝ × ℝ) : incircle b a d c = incircle a b c d := by
  unfold incircle; dsimp only; ring

end Verif.Triangulation
