import Verif.Spec.Ras
import Verif.Props.FineGrid
import Mathlib.Tactic.Ring
import Mathlib.Tactic.Linarith

/-!
# The residuals kept while the preconditioner is applied
-/

namespace Verif.Ras

open Verif DomainDivider FineGrid

variable {s : Sys} {c : Pre}

theorem mem_rows {lv : Level} {i : Nat} : i ∈ rows s lv ↔ i ∈ lv.pts ∨ ∃ g ∈ lv.grads, ∃ k < s.dim, i = s.mu + s.dim * g + k := by
  unfold rows
  rw [List.mem_append, List.mem_flatMap]
  simp only [List.mem_map, List.mem_range]
  constructor
  · rintro (h | ⟨g, hg, k, hk, rfl⟩)
    · exact Or.inl h
    · exact Or.inr ⟨g, hg, k, hk, rfl⟩
  · rintro (h | ⟨g, hg, k, hk, rfl⟩)
    · exact Or.inl h
    · exact Or.inr ⟨g, hg, k, hk, rfl⟩

theorem block_inj {dim g g' k k' : Nat} (hk : k < dim) (hk' : k' < dim) (h : dim * g + k = dim * g' + k') : g = g' ∧ k = k' := by
  have h1 : (dim * g + k) / dim = g := by rw [Nat.mul_add_div (by omega), Nat.div_eq_of_lt hk, Nat.add_zero]
  have h2 : (dim * g' + k') / dim = g' := by rw [Nat.mul_add_div (by omega), Nat.div_eq_of_lt hk', Nat.add_zero]
  have : g = g' := by rw [← h1, ← h2, h]
  subst this
  exact ⟨rfl, by omega⟩

theorem rows_nodup (lv : Level) (h1 : lv.pts.Nodup) (h2 : ∀ i ∈ lv.pts, i < s.mu) (h3 : lv.grads.Nodup) : (rows s lv).Nodup := by
  unfold rows
  rw [List.nodup_append]
  refine ⟨h1, ?_, ?_⟩
  · rw [List.nodup_flatMap]
    refine ⟨fun g _ => List.Nodup.map (fun a b h => by have h' : s.mu + s.dim * g + a = s.mu + s.dim * g + b := h; omega) List.nodup_range, ?_⟩
    refine h3.imp ?_
    intro g g' hne
    unfold Function.onFun
    rw [List.disjoint_left]
    intro i hi hi'
    simp only [List.mem_map, List.mem_range] at hi hi'
    obtain ⟨k, hk, rfl⟩ := hi
    obtain ⟨k', hk', h⟩ := hi'
    exact hne (block_inj hk hk' (by omega)).1
  · intro i hi j hj
    simp only [List.mem_flatMap, List.mem_map, List.mem_range] at hj
    obtain ⟨g, -, k, -, rfl⟩ := hj
    have := h2 i hi
    omega

theorem row_lt {g k : Nat} (hg : g < s.sigma) (hk : k < s.dim) : s.mu + s.dim * g + k < s.N := by
  unfold Sys.N
  have : s.dim * (g + 1) ≤ s.dim * s.sigma := Nat.mul_le_mul_left _ hg
  rw [Nat.mul_add] at this
  omega

namespace Built

variable (h : Built s c)
include h

theorem nodup {k : Nat} (hk : k < c.n) : (rows s (c.lv k)).Nodup := rows_nodup _ (h.pts k hk).1 (h.pts k hk).2 (h.grads k hk).1

theorem lt {k : Nat} (hk : k < c.n) {i : Nat} (hi : i ∈ rows s (c.lv k)) : i < s.N := by
  rcases mem_rows.1 hi with hi | ⟨g, hg, j, hj, rfl⟩
  · have := (h.pts k hk).2 i hi
    unfold Sys.N; omega
  · exact row_lt ((h.grads k hk).2 g hg) hj

theorem mono {k : Nat} : ∀ {m : Nat}, k ≤ m → m < c.n → ∀ {i}, i ∈ rows s (c.lv k) → i ∈ rows s (c.lv m) := by
  intro m hkm
  induction m, hkm using Nat.le_induction with
  | base => exact fun _ i hi => hi
  | succ m hkm ih =>
    intro hm i hi
    obtain ⟨n1, n2⟩ := h.nested m hm
    rcases mem_rows.1 (ih (by omega) hi) with h1 | ⟨g, hg, j, hj, rfl⟩
    · exact mem_rows.2 (Or.inl (n1 i h1))
    · exact mem_rows.2 (Or.inr ⟨g, n2 g hg, j, hj, rfl⟩)

end Built

theorem writes_rows {dim mu : Nat} {α : Type} {d : Domain} {lam : Nat → α} {q : Nat × α} (hq : q ∈ writes dim mu d lam) :
    (∃ p ∈ d.pts, q.1 = p.1) ∨ ∃ p ∈ d.grads, ∃ k < dim, q.1 = mu + dim * p.1 + k := by
  unfold writes at hq
  rw [List.mem_append] at hq
  rcases hq with hq | hq
  · simp only [List.mem_map, List.mem_filter] at hq
    obtain ⟨p, ⟨hp, -⟩, rfl⟩ := hq
    exact Or.inl ⟨p.1, (List.fst_mem_of_mem_zipIdx hp), rfl⟩
  · simp only [List.mem_flatMap, List.mem_map, List.mem_filter, List.mem_range] at hq
    obtain ⟨p, ⟨hp, -⟩, k, hk, rfl⟩ := hq
    exact Or.inr ⟨p.1, List.fst_mem_of_mem_zipIdx hp, k, hk, rfl⟩

/-- a solve leaves the weights of other points alone; on levels other than 0 the polynomial coefficients too -/
theorem solve_support (h : Built s c) {level : Nat} (hl : level < c.n) (r : Nat → ℝ) {i : Nat} (hi : i ∉ rows s (c.lv level)) (ht : level = 0 → i < s.N) :
    solve s c level r i = 0 := by
  unfold solve
  split
  · rename_i h0
    subst h0
    rw [assignAll_not_mem]
    intro q hq
    have := List.of_mem_zip hq
    rw [List.mem_append, List.mem_map] at this
    rintro rfl
    rcases this.1 with h1 | ⟨t, -, h1⟩
    · exact hi h1
    · have := ht rfl
      omega
  · rename_i h0
    rw [assignAll_not_mem]
    intro q hq
    rw [(interleaving_perm (h.sched _ _)).mem_iff, List.mem_flatten] at hq
    obtain ⟨ws, hws, hq⟩ := hq
    rw [List.mem_map] at hws
    obtain ⟨f, hf, rfl⟩ := hws
    obtain ⟨d1, d2⟩ := h.domains level (by omega) hl f hf
    rintro rfl
    apply hi
    rcases writes_rows hq with ⟨p, hp, e⟩ | ⟨p, hp, k, hk, e⟩
    · rw [e]; exact mem_rows.2 (Or.inl (d1 p hp))
    · rw [e]; exact mem_rows.2 (Or.inr ⟨p.1, d2 p hp, k, hk, rfl⟩)

theorem coarseValues_eq (lv : Level) (r : Nat → ℝ) : coarseValues s lv r = (rows s lv).map r := by
  unfold coarseValues rows
  rw [List.map_append, List.map_flatMap]
  simp only [List.map_map]
  rfl

/-- a solve depends on the residuals at the points of its level only -/
theorem solve_congr (h : Built s c) {level : Nat} (hl : level < c.n) {r r' : Nat → ℝ} (hr : ∀ i ∈ rows s (c.lv level), r i = r' i) :
    solve s c level r = solve s c level r' := by
  unfold solve
  split
  · rename_i h0
    subst h0
    rw [coarseValues_eq, coarseValues_eq, List.map_congr_left hr]
  · rename_i h0
    congr 2
    apply List.map_congr_left
    intro f hf
    obtain ⟨d1, d2⟩ := h.domains level (by omega) hl f hf
    have : fineValues s f.1 r = fineValues s f.1 r' := by
      unfold fineValues
      congr 1
      · apply List.map_congr_left
        intro q hq
        exact hr _ (mem_rows.2 (Or.inl (d1 q hq)))
      · apply List.flatMap_congr
        intro g hg
        apply List.map_congr_left
        intro k hk
        exact hr _ (mem_rows.2 (Or.inr ⟨g.1, d2 g hg, k, List.mem_range.1 hk, rfl⟩))
    rw [this]

theorem sum_support {is : List Nat} {N : Nat} (hn : is.Nodup) (hlt : ∀ i ∈ is, i < N) (f : Nat → ℝ) (hf : ∀ i < N, i ∉ is → f i = 0) :
    (is.map f).sum = ∑ i ∈ Finset.range N, f i := by
  rw [← List.sum_toFinset f hn]
  apply Finset.sum_subset
  · intro i hi
    rw [List.mem_toFinset] at hi
    exact Finset.mem_range.2 (hlt i hi)
  · intro i hi hni
    rw [List.mem_toFinset] at hni
    exact hf i (Finset.mem_range.1 hi) hni

theorem sum_range (l : Nat) (f : Nat → ℝ) : ((List.range l).map f).sum = ∑ t ∈ Finset.range l, f t :=
  sum_support List.nodup_range (fun _ hi => List.mem_range.1 hi) f (fun _ hi hn => absurd (List.mem_range.2 hi) hn)

/-- the evaluator between two levels gives what all weights evaluate to, if the other weights are zero -/
theorem evaluate_eq (h : Built s c) {src : Nat} (hs : src < c.n) (trg : Level) {w : Nat → ℝ} (hw : ∀ i < s.N, i ∉ rows s (c.lv src) → w i = 0) :
    evaluate s (c.lv src) trg (srcWeights s (c.lv src) w) = (rows s trg).map (full s w) := by
  have e : srcWeights s (c.lv src) w = (rows s (c.lv src)).map w ++ (List.range s.l).map fun t => w (s.N + t) := by
    unfold srcWeights
    rw [← coarseValues_eq]
    rfl
  unfold evaluate
  apply List.map_congr_left
  intro i _
  rw [e]
  unfold full
  congr 1
  · rw [← sum_support (h.nodup hs) (fun i hi => h.lt hs hi) (fun j => s.K i j * w j) (fun j hj hn => by rw [hw j hj hn, mul_zero])]
    congr 1
    generalize rows s (c.lv src) = is
    generalize (List.range s.l).map (fun t => w (s.N + t)) = ys
    induction is with
    | nil => simp
    | cons a is ih => simp [ih]
  · rw [← sum_range]
    congr 1
    apply List.map_congr_left
    intro t ht
    have ht := List.mem_range.1 ht
    rw [List.getD_eq_getElem?_getD, List.getElem?_append_right (by rw [List.length_map]; omega), List.length_map, Nat.add_sub_cancel_left,
      List.getElem?_map, List.getElem?_range ht]
    rfl

theorem subtractAt_eq (f : Nat → ℝ) : ∀ (is : List Nat) (r : Nat → ℝ), is.Nodup →
    (∀ i ∈ is, subtractAt r is (is.map f) i = r i - f i) ∧ ∀ i, i ∉ is → subtractAt r is (is.map f) i = r i
  | [], r, _ => ⟨fun i hi => absurd hi List.not_mem_nil, fun i _ => rfl⟩
  | a :: is, r, hn => by
    obtain ⟨ha, hn⟩ := List.nodup_cons.1 hn
    obtain ⟨i1, i2⟩ := subtractAt_eq f is (Function.update r a (r a - f a)) hn
    have e : subtractAt r (a :: is) ((a :: is).map f) = subtractAt (Function.update r a (r a - f a)) is (is.map f) := rfl
    rw [e]
    constructor
    · intro i hi
      rcases List.mem_cons.1 hi with rfl | hi'
      · rw [i2 i ha, Function.update_self]
      · rw [i1 i hi', Function.update_of_ne (by rintro rfl; exact ha hi')]
    · intro i hi
      rw [List.mem_cons, not_or] at hi
      rw [i2 i hi.2, Function.update_of_ne hi.1]

theorem full_add (w x : Nat → ℝ) (i : Nat) : full s (w + x) i = full s w i + full s x i := by
  unfold full
  simp only [Pi.add_apply, mul_add, Finset.sum_add_distrib]
  ring

theorem full_project (h : Built s c) (w : Nat → ℝ) {i : Nat} (hi : i < s.N) :
    full s (project s c w) i = full s w i - ∑ t ∈ Finset.range s.l, c.ap i t * ∑ k ∈ Finset.range s.N, c.p k t * w k := by
  unfold full
  have h1 : ∑ j ∈ Finset.range s.N, s.K i j * project s c w j = ∑ j ∈ Finset.range s.N, s.K i j * w j -
      ∑ t ∈ Finset.range s.l, c.ap i t * ∑ k ∈ Finset.range s.N, c.p k t * w k := by
    have h2 : ∑ t ∈ Finset.range s.l, c.ap i t * ∑ k ∈ Finset.range s.N, c.p k t * w k =
        ∑ j ∈ Finset.range s.N, s.K i j * ∑ t ∈ Finset.range s.l, c.p j t * ∑ k ∈ Finset.range s.N, c.p k t * w k := by
      simp only [Finset.mul_sum (Finset.range s.l)]
      rw [Finset.sum_comm]
      apply Finset.sum_congr rfl
      intro t ht
      rw [h.ap i hi t (Finset.mem_range.1 ht), Finset.sum_mul]
      apply Finset.sum_congr rfl
      intro j _
      ring
    rw [h2, ← Finset.sum_sub_distrib]
    apply Finset.sum_congr rfl
    intro j hj
    unfold project
    rw [if_pos (Finset.mem_range.1 hj)]
    ring
  rw [h1]
  have h3 : ∀ t, project s c w (s.N + t) = w (s.N + t) := by
    intro t
    unfold project
    rw [if_neg (by omega)]
  simp only [h3]
  ring

/-- the residuals at the points of a level are those of the weights -/
def Exact (s : Sys) (c : Pre) (v : Nat → ℝ) (k : Nat) (st : St) : Prop := ∀ i ∈ rows s (c.lv k), st.2 i = residual s v st.1 i

theorem Exact.down (h : Built s c) {v : Nat → ℝ} {k m : Nat} (hkm : k ≤ m) (hm : m < c.n) {st : St} (he : Exact s c v m st) : Exact s c v k st :=
  fun i hi => he i (h.mono hkm hm hi)

theorem update_exact (h : Built s c) {v : Nat → ℝ} {src trg : Nat} (hs : src < c.n) (ht : trg < c.n) {st : St} {x : Nat → ℝ}
    (hx : ∀ i < s.N, i ∉ rows s (c.lv src) → x i = 0) (he : Exact s c v trg st) : Exact s c v trg (st.1 + x, updateResiduals s c src trg x st.2) := by
  intro i hi
  unfold updateResiduals
  dsimp only
  rw [evaluate_eq h hs _ hx, (subtractAt_eq _ _ _ (h.nodup ht)).1 i hi, he i hi]
  unfold residual
  rw [full_add]
  ring

theorem coarse_exact (h : Built s c) {v : Nat → ℝ} {trg : Nat} (ht : trg < c.n) {st : St} (he : Exact s c v trg st) :
    Exact s c v trg (coarseStep s c trg st) ∧ (coarseStep s c trg st).1 = correct s c v st.1 0 := by
  have hp := h.pos
  unfold coarseStep
  refine ⟨update_exact h (by omega) ht (fun i hi hn => solve_support h (by omega) _ hn (fun _ => hi)) he, ?_⟩
  unfold correct
  rw [if_pos rfl]
  dsimp only
  rw [solve_congr h (level := 0) (by omega) ((he.down h (Nat.zero_le _) ht))]

theorem fine_exact (h : Built s c) {v : Nat → ℝ} {level trg : Nat} (h0 : level ≠ 0) (hl : level < c.n) (ht : trg < c.n) {st : St} (he : Exact s c v trg st)
    (hel : Exact s c v level st) : Exact s c v trg (fineStep s c level trg st) ∧ (fineStep s c level trg st).1 = correct s c v st.1 level := by
  have hu := update_exact h hl ht (fun i _ hn => solve_support h hl st.2 hn (fun hz => absurd hz h0)) he
  have hw : (fineStep s c level trg st).1 = project s c (st.1 + solve s c level st.2) := rfl
  constructor
  · intro i hi
    have hi' := h.lt ht hi
    rw [hw]
    unfold residual
    rw [full_project h _ hi']
    have := hu i hi
    unfold residual at this
    unfold fineStep orthogonalize
    dsimp only at this ⊢
    rw [if_pos hi', this]
    ring
  · rw [hw]
    unfold correct
    rw [if_neg h0, solve_congr h hl hel]

theorem range_succ_drop (m : Nat) : (List.range (m + 2)).drop 1 = (List.range (m + 1)).drop 1 ++ [m + 1] := by
  rw [List.range_succ, List.drop_append_of_le_length (by rw [List.length_range]; omega)]

theorem up_exact (h : Built s c) {v : Nat → ℝ} : ∀ (m : Nat), m + 1 < c.n → ∀ st, Exact s c v (c.n - 1) st →
    Exact s c v (c.n - 1) (((List.range (m + 1)).drop 1).foldl (upStep s c) st) ∧
      (((List.range (m + 1)).drop 1).foldl (upStep s c) st).1 = (((List.range (m + 1)).drop 1).flatMap fun level => [level, 0]).foldl (correct s c v) st.1
  | 0, _, st, he => ⟨he, rfl⟩
  | m + 1, hm, st, he => by
    obtain ⟨i1, i2⟩ := up_exact h m (by omega) st he
    rw [range_succ_drop, List.foldl_append, List.flatMap_append, List.foldl_append, ← i2]
    generalize ((List.range (m + 1)).drop 1).foldl (upStep s c) st = st' at *
    obtain ⟨f1, f2⟩ := fine_exact h (level := m + 1) (trg := c.n - 1) (by omega) (by omega) (by omega) i1 (i1.down h (by omega) (by omega))
    obtain ⟨g1, g2⟩ := coarse_exact h (trg := c.n - 1) (by omega) f1
    refine ⟨g1, ?_⟩
    simp only [List.flatMap_cons, List.flatMap_nil, List.append_nil, List.foldl_cons, List.foldl_nil]
    rw [← f2, ← g2]
    rfl

theorem down_exact (h : Built s c) {v : Nat → ℝ} : ∀ (m : Nat), m < c.n → ∀ st, Exact s c v m st →
    ((((List.range (m + 1)).drop 1).reverse).foldl (downStep s c) st).1 = ((((List.range (m + 1)).drop 1).reverse).flatMap fun level => [level, 0]).foldl (correct s c v) st.1
  | 0, _, st, he => rfl
  | m + 1, hm, st, he => by
    rw [range_succ_drop, List.reverse_append, List.reverse_singleton, List.singleton_append, List.foldl_cons, List.flatMap_cons, List.foldl_append]
    obtain ⟨f1, f2⟩ := fine_exact h (level := m + 1) (trg := m) (by omega) hm (by omega) (he.down h (by omega) hm) he
    cases m with
    | zero =>
      simp only [List.foldl_cons, List.foldl_nil]
      have e : downStep s c st 1 = ((fineStep s c 1 0 st).1 + solve s c 0 (fineStep s c 1 0 st).2, (fineStep s c 1 0 st).2) := by
        unfold downStep
        rw [if_neg (by omega)]
      rw [← f2]
      show (downStep s c st 1).1 = _
      rw [e]
      have f1' : solve s c 0 (fineStep s c 1 0 st).2 = _ := solve_congr h (level := 0) (by omega) f1
      rw [f1']
      rfl
    | succ m =>
      obtain ⟨g1, g2⟩ := coarse_exact h (trg := m + 1) (by omega) f1
      have e : downStep s c st (m + 1 + 1) = coarseStep s c (m + 1) (fineStep s c (m + 1 + 1) (m + 1) st) := by
        unfold downStep
        rw [if_pos (by omega)]
        rfl
      have := down_exact h (m + 1) (by omega) (downStep s c st (m + 1 + 1)) (by rw [e]; exact g1)
      rw [this]
      simp only [List.foldl_cons, List.foldl_nil]
      rw [e, g2, f2]

end Verif.Ras
