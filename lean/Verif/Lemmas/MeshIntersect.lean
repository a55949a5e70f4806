import Verif.Lemmas.MeshDefects
import Mathlib.Data.List.Sort

namespace Verif.MeshDefects

open Verif Spec SpatialGrid SpatialGrid.Spec

section
variable {R : Type} [LinearOrder R]

theorem corner_in_bbox (t : Point R × Point R × Point R) (i : Nat) :
    ((bboxOf t).lo.1 ≤ (corner t i).1 ∧ (corner t i).1 ≤ (bboxOf t).hi.1) ∧
    ((bboxOf t).lo.2.1 ≤ (corner t i).2.1 ∧ (corner t i).2.1 ≤ (bboxOf t).hi.2.1) ∧
    ((bboxOf t).lo.2.2 ≤ (corner t i).2.2 ∧ (corner t i).2.2 ≤ (bboxOf t).hi.2.2) := by
  unfold corner bboxOf cmin cmax
  split
  · simp
  · split <;> simp

theorem bboxOf_proper (t : Point R × Point R × Point R) : Proper (bboxOf t) := by
  obtain ⟨⟨a, b⟩, ⟨c, d⟩, e, f⟩ := corner_in_bbox t 0
  exact ⟨a.trans b, c.trans d, e.trans f⟩

theorem overlap_of_shared {a b : Point R × Point R × Point R} {i j : Nat} (h : corner a i = corner b j) :
    Overlap (bboxOf a) (bboxOf b) := by
  obtain ⟨⟨a1, a2⟩, ⟨a3, a4⟩, a5, a6⟩ := corner_in_bbox a i
  obtain ⟨⟨b1, b2⟩, ⟨b3, b4⟩, b5, b6⟩ := corner_in_bbox b j
  rw [h] at a1 a2 a3 a4 a5 a6
  exact ⟨⟨a1.trans b2, b1.trans a2⟩, ⟨a3.trans b4, b3.trans a4⟩, ⟨a5.trans b6, b5.trans a6⟩⟩

theorem triTri_overlap (N : Narrow R) (a b : Point R × Point R × Point R)
    (h : triTriIntersect N a.1 a.2.1 a.2.2 b.1 b.2.1 b.2.2 = true) : Overlap (bboxOf a) (bboxOf b) := by
  unfold triTriIntersect at h
  split at h
  · cases h
  · rename_i hn
    simp only [anyLt, Bool.or_eq_true, decide_eq_true_eq, not_or, not_lt] at hn
    obtain ⟨⟨⟨h1, h2⟩, h3⟩, ⟨h4, h5⟩, h6⟩ := hn
    exact ⟨⟨h4, h1⟩, ⟨h5, h2⟩, ⟨h6, h3⟩⟩

theorem intersect_overlap (N : Narrow R) (a b : Point R × Point R × Point R)
    (h : trianglesIntersect N a b = .ok true) : Overlap (bboxOf a) (bboxOf b) := by
  by_cases hs : shared a b = []
  · unfold trianglesIntersect at h
    rw [hs] at h
    simp only [Outcome.ok.injEq] at h
    exact triTri_overlap N a b h
  · obtain ⟨p, hp⟩ := List.exists_mem_of_ne_nil _ hs
    unfold shared at hp
    rw [List.mem_filter] at hp
    exact overlap_of_shared (i := p.1) (j := p.2) (by simpa using hp.2)

theorem corner_inj {t : Point R × Point R × Point R} (h : DistinctCorners t) {i j : Nat} (hi : i < 3) (hj : j < 3)
    (e : corner t i = corner t j) : i = j := by
  obtain ⟨h1, h2, h3⟩ := h
  match i, j, hi, hj with
  | 0, 0, _, _ => rfl
  | 1, 1, _, _ => rfl
  | 2, 2, _, _ => rfl
  | 0, 1, _, _ => simp [corner] at e; exact absurd e h1
  | 0, 2, _, _ => simp [corner] at e; exact absurd e.symm h3
  | 1, 0, _, _ => simp [corner] at e; exact absurd e.symm h1
  | 1, 2, _, _ => simp [corner] at e; exact absurd e h2
  | 2, 0, _, _ => simp [corner] at e; exact absurd e h3
  | 2, 1, _, _ => simp [corner] at e; exact absurd e.symm h2

theorem shared_pairwise {a b : Point R × Point R × Point R} (ha : DistinctCorners a) (hb : DistinctCorners b) :
    (shared a b).Pairwise (fun p q => p.1 ≠ q.1 ∧ p.2 ≠ q.2) ∧ ∀ p ∈ shared a b, p.1 < 3 ∧ p.2 < 3 := by
  have hmem : ∀ p ∈ shared a b, (p.1 < 3 ∧ p.2 < 3) ∧ corner a p.1 = corner b p.2 := by
    intro p hp
    unfold shared at hp
    rw [List.mem_filter] at hp
    refine ⟨?_, by simpa using hp.2⟩
    have := hp.1
    simp only [List.mem_cons, List.not_mem_nil, or_false] at this
    rcases this with rfl | rfl | rfl | rfl | rfl | rfl | rfl | rfl | rfl <;> decide
  refine ⟨?_, fun p hp => (hmem p hp).1⟩
  have hne : (shared a b).Pairwise (fun p q => p ≠ q) := by
    unfold shared
    apply List.Pairwise.filter
    decide
  refine List.Pairwise.imp_of_mem ?_ hne
  intro p q hp hq hpq
  obtain ⟨⟨p1, p2⟩, pe⟩ := hmem p hp
  obtain ⟨⟨q1, q2⟩, qe⟩ := hmem q hq
  constructor
  · intro e
    have : p.2 = q.2 := corner_inj hb p2 q2 (by rw [← pe, ← qe, e])
    exact hpq (Prod.ext e this)
  · intro e
    have : p.1 = q.1 := corner_inj ha p1 q1 (by rw [pe, qe, e])
    exact hpq (Prod.ext this e)

theorem trianglesIntersect_total (N : Narrow R) {a b : Point R × Point R × Point R} (ha : DistinctCorners a)
    (hb : DistinctCorners b) : ∃ r, trianglesIntersect N a b = .ok r := by
  obtain ⟨hp, hm⟩ := shared_pairwise ha hb
  unfold trianglesIntersect
  match hs : shared a b with
  | [] => exact ⟨_, rfl⟩
  | [(s, t)] => exact ⟨_, rfl⟩
  | [(s0, t0), (s1, t1)] =>
    rw [hs] at hp hm
    have h0 := hm (s0, t0) (by simp)
    have h1 := hm (s1, t1) (by simp)
    simp only [List.pairwise_cons, List.mem_singleton, forall_eq] at hp
    obtain ⟨⟨n1, n2⟩, _⟩ := hp
    simp only at h0 h1 n1 n2 ⊢
    rw [if_pos (by omega), if_pos (by omega)]
    exact ⟨_, rfl⟩
  | [(_, _), (_, _), (_, _)] => exact ⟨_, rfl⟩
  | p0 :: p1 :: p2 :: p3 :: l =>
    exfalso
    rw [hs] at hp hm
    have h0 := hm p0 (by simp)
    have h1 := hm p1 (by simp)
    have h2 := hm p2 (by simp)
    have h3 := hm p3 (by simp)
    simp only [List.pairwise_cons, List.mem_cons, forall_eq_or_imp] at hp
    obtain ⟨⟨⟨a1, _⟩, ⟨a2, _⟩, ⟨a3, _⟩, _⟩, ⟨⟨b2, _⟩, ⟨b3, _⟩, _⟩, ⟨⟨c3, _⟩, _⟩, _⟩ := hp
    omega

/-! ### the candidate pairs -/

variable (cellOf : R → Int) (dflt : Box R)

theorem corners_eq {M : Finder R} {fi : Nat} {t : Point R × Point R × Point R}
    (h : IsTriangle M.vertices M.faces fi t) : corners M fi = .ok t := by
  obtain ⟨f, h1, h2, h3, h4⟩ := h
  simp [corners, face, h1, h2, h3, h4]

/-- the history of the face grid while it is filled -/
def insertOps (tri : Nat → Point R × Point R × Point R) (n : Nat) : List (Op R) :=
  (List.range n).map (fun fi => Op.insert fi (bboxOf (tri fi)))

theorem live_insertOps (tri : Nat → Point R × Point R × Point R) (n i : Nat) :
    live (insertOps tri n) i = if i < n then some (bboxOf (tri i)) else none := by
  induction n with
  | zero => simp [insertOps, live]
  | succ n ih =>
    have : insertOps tri (n + 1) = insertOps tri n ++ [Op.insert n (bboxOf (tri n))] := by
      simp [insertOps, List.range_succ]
    rw [this, live_append]
    simp only [ih]
    by_cases e : i = n
    · subst e; simp
    · rw [if_neg e]
      by_cases h : i < n
      · rw [if_pos h, if_pos (by omega)]
      · rw [if_neg h, if_neg (by omega)]

theorem insertFaces_inv {M : Finder R} (tri : Nat → Point R × Point R × Point R)
    (htri : ∀ fi, fi < M.faces.length → IsTriangle M.vertices M.faces fi (tri fi))
    (n : Nat) (hn : n ≤ M.faces.length) (k : Nat) (hk : k ≤ n) (f : FaceGrid R)
    (h : FInv cellOf f (insertOps tri k)) :
    ∃ f', insertFaces cellOf dflt M (List.range' k (n - k)) f = .ok f' ∧ FInv cellOf f' (insertOps tri n) := by
  induction hd : n - k generalizing k f with
  | zero =>
    obtain rfl : k = n := by omega
    exact ⟨f, by simp [insertFaces], h⟩
  | succ d ih =>
    obtain ⟨f1, e1, h1⟩ := step_inv cellOf dflt h (.insert k (bboxOf (tri k))) (by simp [live_insertOps])
    have hops : insertOps tri k ++ [Op.insert k (bboxOf (tri k))] = insertOps tri (k + 1) := by
      simp [insertOps, List.range_succ]
    rw [hops] at h1
    obtain ⟨f2, e2, h2⟩ := ih (k + 1) (by omega) f1 h1 (by omega)
    refine ⟨f2, ?_, h2⟩
    rw [List.range'_succ]
    simp only [insertFaces]
    rw [corners_eq (htri k (by omega))]
    simp only [Outcome.ok_bind]
    have : f1 = f.insert cellOf dflt k (bboxOf (tri k)) := by
      simp only [step, Outcome.ok.injEq] at e1; exact e1.symm
    rw [← this]; exact e2

theorem callUntil_pairs (fi : Nat) (l : List Nat) (ps : List (Nat × Nat)) :
    (callUntil (fun ps fj => (if fi < fj then ps ++ [(fi, fj)] else ps, true)) l ps).1
      = ps ++ (l.filter (fun fj => decide (fi < fj))).map (fun fj => (fi, fj)) := by
  induction l generalizing ps with
  | nil => simp [callUntil]
  | cons x l ih =>
    by_cases h : fi < x
    · simp [callUntil, h, ih]
    · simp [callUntil, h, ih]

theorem collectPairs_spec (tri : Nat → Point R × Point R × Point R) (n : Nat) (fis : List Nat)
    (hfis : ∀ fi ∈ fis, fi < n) (g : FaceGrid R) (hbox : ∀ i, i < n → i < g.boxSize ∧ g.box i = bboxOf (tri i))
    (hg : GInv cellOf g.g (live (insertOps tri n))) (ps : List (Nat × Nat)) :
    ∃ ps', collectPairs cellOf fis g ps = .ok ps' ∧
      ∀ p, p ∈ ps' ↔ p ∈ ps ∨ (p.1 ∈ fis ∧ p.1 < p.2 ∧ p.2 < n ∧
        ∃ c, c ∈ cellsOf cellOf (bboxOf (tri p.1)) ∧ c ∈ cellsOf cellOf (bboxOf (tri p.2))) := by
  induction fis generalizing g ps with
  | nil => exact ⟨ps, rfl, by simp⟩
  | cons fi fis ih =>
    obtain ⟨hlt, hb⟩ := hbox fi (hfis fi (by simp))
    obtain ⟨g', hg', e⟩ := forEach_spec cellOf hg (g.box fi)
      (fun (ps : List (Nat × Nat)) fj => (if fi < fj then ps ++ [(fi, fj)] else ps, true)) ps
    rw [callUntil_pairs] at e
    obtain ⟨ps', e1, e2⟩ := ih (fun x hx => hfis x (by simp [hx])) { g with g := g' } hbox hg' _
    refine ⟨ps', ?_, ?_⟩
    · simp only [collectPairs, if_pos hlt, FaceGrid.forEach, e, Outcome.ok_bind, Outcome.pure_eq]
      exact e1
    · intro p
      rw [e2, List.mem_append]
      have hmem : p ∈ List.map (fun fj => (fi, fj)) (List.filter (fun fj => decide (fi < fj))
          (keepFirst (fun _ => false) ((cellsOf cellOf (g.box fi)).flatMap (fun c => g.g.at c)))) ↔
          p.1 = fi ∧ p.1 < p.2 ∧ p.2 < n ∧
            ∃ c, c ∈ cellsOf cellOf (bboxOf (tri p.1)) ∧ c ∈ cellsOf cellOf (bboxOf (tri p.2)) := by
        rw [List.mem_map]
        constructor
        · rintro ⟨fj, hfj, rfl⟩
          rw [List.mem_filter, mem_keepFirst, List.mem_flatMap] at hfj
          obtain ⟨⟨⟨c, hc, hcj⟩, _⟩, hlt'⟩ := hfj
          obtain ⟨b, hb', hcb⟩ := (hg.cells c fj).1 hcj
          rw [live_insertOps] at hb'
          split at hb'
          · rename_i hjn
            cases hb'
            exact ⟨rfl, by simpa using hlt', hjn, c, by rw [← hb]; exact hc, hcb⟩
          · cases hb'
        · rintro ⟨rfl, h1, h2, c, hc1, hc2⟩
          refine ⟨p.2, ?_, rfl⟩
          rw [List.mem_filter, mem_keepFirst, List.mem_flatMap]
          refine ⟨⟨⟨c, by rw [hb]; exact hc1, (hg.cells c p.2).2 ⟨bboxOf (tri p.2), ?_, hc2⟩⟩, rfl⟩, by simpa using h1⟩
          rw [live_insertOps, if_pos h2]
      rw [hmem, List.mem_cons, or_assoc]
      apply or_congr_right
      rw [or_and_right]

/-! ### the narrow phase loop and the final sort -/

variable (N : Narrow R)

theorem intersectThread_spec {M : Finder R} (tri : Nat → Point R × Point R × Point R)
    (htri : ∀ fi, fi < M.faces.length → IsTriangle M.vertices M.faces fi (tri fi) ∧ DistinctCorners (tri fi))
    (pairs : List (Nat × Nat)) (hp : ∀ p ∈ pairs, p.1 < M.faces.length ∧ p.2 < M.faces.length) (is : List Nat)
    (his : ∀ i ∈ is, i < pairs.length) :
    ∃ l, intersectThread N M pairs is = .ok l ∧ ∀ x, x ∈ l ↔ ∃ i p, i ∈ is ∧ pairs[i]? = some p ∧
      trianglesIntersect N (tri p.1) (tri p.2) = .ok true ∧ (x = p.1 ∨ x = p.2) := by
  induction is with
  | nil => exact ⟨[], rfl, by simp⟩
  | cons i is ih =>
    obtain ⟨l, e1, e2⟩ := ih (fun x hx => his x (by simp [hx]))
    have hi : i < pairs.length := his i (by simp)
    have hget : pairs[i]? = some pairs[i] := List.getElem?_eq_getElem hi
    obtain ⟨h1, h2⟩ := hp _ (List.getElem_mem hi)
    obtain ⟨t1, d1⟩ := htri _ h1
    obtain ⟨t2, d2⟩ := htri _ h2
    obtain ⟨r, hr⟩ := trianglesIntersect_total N d1 d2
    refine ⟨if r then pairs[i].1 :: pairs[i].2 :: l else l, ?_, ?_⟩
    · simp only [intersectThread, hget, Outcome.ok_bind]
      rw [corners_eq t1, corners_eq t2]
      simp only [Outcome.ok_bind, hr, e1, Outcome.pure_eq]
    · intro x
      cases r with
      | true =>
        simp only [if_true, List.mem_cons, e2]
        constructor
        · rintro (rfl | rfl | ⟨j, p, hj, hp, hh⟩)
          · exact ⟨i, pairs[i], Or.inl rfl, hget, hr, Or.inl rfl⟩
          · exact ⟨i, pairs[i], Or.inl rfl, hget, hr, Or.inr rfl⟩
          · exact ⟨j, p, Or.inr hj, hp, hh⟩
        · rintro ⟨j, p, rfl | hj, hp, hh, hx⟩
          · rw [hget] at hp; cases hp
            rcases hx with hx | hx
            · exact Or.inl hx
            · exact Or.inr (Or.inl hx)
          · exact Or.inr (Or.inr ⟨j, p, hj, hp, hh, hx⟩)
      | false =>
        simp only [Bool.false_eq_true, if_false, e2, List.mem_cons]
        constructor
        · rintro ⟨j, p, hj, hp, hh⟩
          exact ⟨j, p, Or.inr hj, hp, hh⟩
        · rintro ⟨j, p, rfl | hj, hp, hh, hx⟩
          · rw [hget] at hp; cases hp
            rw [hr] at hh; cases hh
          · exact ⟨j, p, hj, hp, hh, hx⟩

theorem intersectThreads_spec {M : Finder R} (tri : Nat → Point R × Point R × Point R)
    (htri : ∀ fi, fi < M.faces.length → IsTriangle M.vertices M.faces fi (tri fi) ∧ DistinctCorners (tri fi))
    (pairs : List (Nat × Nat)) (hp : ∀ p ∈ pairs, p.1 < M.faces.length ∧ p.2 < M.faces.length)
    (sched : List (List Nat)) (his : ∀ i ∈ sched.flatten, i < pairs.length) :
    ∃ l, intersectThreads N M pairs sched = .ok l ∧ ∀ x, x ∈ l ↔ ∃ i p, i ∈ sched.flatten ∧ pairs[i]? = some p ∧
      trianglesIntersect N (tri p.1) (tri p.2) = .ok true ∧ (x = p.1 ∨ x = p.2) := by
  induction sched with
  | nil => exact ⟨[], rfl, by simp⟩
  | cons t ts ih =>
    obtain ⟨l1, a1, a2⟩ := intersectThread_spec N tri htri pairs hp t (fun i hi => his i (by simp [hi]))
    obtain ⟨l2, b1, b2⟩ := ih (fun v hv => his v (by rw [List.flatten_cons]; exact List.mem_append_right _ hv))
    refine ⟨l1 ++ l2, by simp [intersectThreads, a1, b1], ?_⟩
    intro x
    rw [List.mem_append, a2, b2, List.flatten_cons]
    constructor
    · rintro (⟨i, p, h, h'⟩ | ⟨i, p, h, h'⟩)
      · exact ⟨i, p, List.mem_append_left _ h, h'⟩
      · exact ⟨i, p, List.mem_append_right _ h, h'⟩
    · rintro ⟨i, p, h, h'⟩
      rcases List.mem_append.1 h with h | h
      · exact Or.inl ⟨i, p, h, h'⟩
      · exact Or.inr ⟨i, p, h, h'⟩

theorem unique_spec (l : List Nat) (h : l.Pairwise (· ≤ ·)) :
    (unique l).Pairwise (· < ·) ∧ ∀ x, x ∈ unique l ↔ x ∈ l := by
  induction l using unique.induct with
  | case1 => simp [unique]
  | case2 a => simp [unique]
  | case3 a l ih =>
    rw [List.pairwise_cons] at h
    obtain ⟨e1, e2⟩ := ih h.2
    refine ⟨by simpa [unique] using e1, ?_⟩
    intro x
    rw [unique, if_pos rfl, e2]
    simp
  | case4 a b l hab ih =>
    rw [List.pairwise_cons] at h
    obtain ⟨e1, e2⟩ := ih h.2
    rw [unique, if_neg hab]
    refine ⟨?_, ?_⟩
    · rw [List.pairwise_cons]
      refine ⟨?_, e1⟩
      intro x hx
      rw [e2] at hx
      have hb := h.1 b (by simp)
      rcases List.mem_cons.1 hx with rfl | hx'
      · omega
      · have := (List.pairwise_cons.1 h.2).1 x hx'
        omega
    · intro x; simp [e2]

end

end Verif.MeshDefects
