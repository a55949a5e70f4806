import Verif.Lemmas.Ras
import Mathlib.Tactic.FieldSimp
import Mathlib.Tactic.Positivity
import Mathlib.Tactic.NormNum

/-!
# C58: applying the preconditioner
-/

namespace Verif.Ras

open Verif DomainDivider FineGrid

variable {s : Sys} {c : Pre}

/-- Although residuals are updated only at the points of the next level, applying the preconditioner is the sweep over the levels in which the
residual is computed from all weights in every step. -/
theorem C58_is_sweep (h : Built s c) (v : Nat → ℝ) : apply s c v = sweep s c v := by
  have hp := h.pos
  have h0 : full s (fun _ => 0) = fun _ => 0 := by
    funext i
    simp [full]
  have e0 : residual s v (fun _ => 0) = v := by
    funext i
    unfold residual
    rw [h0, sub_zero]
  unfold apply sweep order
  split
  · rename_i hn
    rw [hn]
    simp only [List.range_zero, List.range_one, List.drop_succ_cons, List.drop_nil, List.flatMap_nil, List.reverse_nil, List.append_nil, List.foldl_cons,
      List.foldl_nil, Nat.sub_self]
    unfold correct
    rw [if_pos rfl, e0]
    funext i
    simp
  · rename_i hn
    have he : Exact s c v (c.n - 1) (fun _ => 0, v) := by
      intro i _
      dsimp only
      rw [e0]
    obtain ⟨c1, c2⟩ := coarse_exact h (by omega) he
    obtain ⟨u1, u2⟩ := up_exact h (c.n - 2) (by omega) _ c1
    have hd := down_exact h (c.n - 1) (by omega) _ u1
    have a1 : c.n - 2 + 1 = c.n - 1 := by omega
    have a2 : c.n - 1 + 1 = c.n := by omega
    rw [a1] at u1 u2 hd
    rw [a2] at hd
    rw [List.foldl_cons, List.foldl_append]
    dsimp only
    rw [hd, u2, c2]

/-- what a coarse solve gives, in terms of all weights -/
theorem coarse_solve (h : Built s c) {nugget : ℝ} (hc : CoarseSolves s c nugget) (r : Nat → ℝ) :
    (∀ i ∈ rows s (c.lv 0), full s (solve s c 0 r) i + (if i < s.mu then nugget * solve s c 0 r i else 0) = r i) ∧ SideConditions s (solve s c 0 r) := by
  have hp := h.pos
  have h0 : 0 < c.n := by omega
  obtain ⟨lam, co, e, l1, l2, h1, h2⟩ := hc ((rows s (c.lv 0)).map r) (by rw [List.length_map])
  have hnd := h.nodup h0
  have hlt := fun i hi => h.lt (k := 0) h0 (i := i) hi
  have hsup := fun i (hi : i < s.N) hn => solve_support h (level := 0) h0 r (i := i) hn (fun _ => hi)
  have es : solve s c 0 r = assignAll (fun _ => 0) (coarseWrites s (c.lv 0) (lam ++ co)) := by
    unfold solve
    rw [if_pos rfl, coarseValues_eq, e]
  obtain ⟨is, his⟩ : ∃ is, is = rows s (c.lv 0) := ⟨_, rfl⟩
  rw [← his] at h1 h2 l1 hnd hlt hsup
  have hlen : (is ++ (List.range s.l).map fun t => s.N + t).length = (lam ++ co).length := by
    simp only [List.length_append, List.length_map, List.length_range]; omega
  have hkeys : ((is ++ (List.range s.l).map fun t => s.N + t).zip (lam ++ co)).map Prod.fst = is ++ (List.range s.l).map fun t => s.N + t :=
    List.map_fst_zip (by omega)
  have hnodup : (is ++ (List.range s.l).map fun t => s.N + t).Nodup := by
    rw [List.nodup_append]
    refine ⟨hnd, List.Nodup.map (fun a b hab => by have hab' : s.N + a = s.N + b := hab; omega) List.nodup_range, ?_⟩
    intro i hi j hj
    rw [List.mem_map] at hj
    obtain ⟨t, -, rfl⟩ := hj
    have := hlt i hi
    omega
  have hat : ∀ k : Nat, k < is.length → solve s c 0 r (is.getD k 0) = lam.getD k 0 := by
    intro k hk
    rw [es]
    unfold coarseWrites
    rw [← his]
    apply assignAll_mem _ _ _ _ (by rw [hkeys]; exact hnodup)
    rw [List.mem_iff_getElem?]
    refine ⟨k, ?_⟩
    have a1 : k < lam.length := by omega
    simp only [List.zip_eq_zipWith, List.getElem?_zipWith, List.getElem?_append_left hk, List.getElem?_append_left a1, List.getD_eq_getElem?_getD,
      List.getElem?_eq_getElem hk, List.getElem?_eq_getElem a1, Option.getD_some]
  have hco : ∀ t < s.l, solve s c 0 r (s.N + t) = co.getD t 0 := by
    intro t ht
    rw [es]
    unfold coarseWrites
    rw [← his]
    apply assignAll_mem _ _ _ _ (by rw [hkeys]; exact hnodup)
    rw [List.mem_iff_getElem?]
    refine ⟨is.length + t, ?_⟩
    have a1 : t < co.length := by omega
    have a2 : (is ++ (List.range s.l).map fun t => s.N + t)[is.length + t]? = some (s.N + t) := by
      rw [List.getElem?_append_right (by omega), Nat.add_sub_cancel_left, List.getElem?_map, List.getElem?_range ht]; rfl
    have a3 : (lam ++ co)[is.length + t]? = some (co.getD t 0) := by
      rw [List.getElem?_append_right (by omega), l1, Nat.add_sub_cancel_left, List.getElem?_eq_getElem a1, List.getD_eq_getElem?_getD,
        List.getElem?_eq_getElem a1, Option.getD_some]
    simp only [List.zip_eq_zipWith, List.getElem?_zipWith, a2, a3]
  have hsum : ∀ f : Nat → ℝ, ∑ i ∈ Finset.range s.N, f i * solve s c 0 r i = ∑ k ∈ Finset.range is.length, f (is.getD k 0) * lam.getD k 0 := by
    intro f
    rw [← sum_support hnd hlt (fun i => f i * solve s c 0 r i) (fun i hi hn => by rw [hsup i hi hn, mul_zero]), ← sum_range]
    congr 1
    apply List.ext_getElem
    · simp
    · intro k k1 k2
      simp only [List.length_map] at k1
      rw [List.getElem_map, List.getElem_map, List.getElem_range, ← hat k k1, List.getD_eq_getElem?_getD, List.getElem?_eq_getElem k1, Option.getD_some]
  constructor
  · intro i hi
    rw [← his] at hi
    obtain ⟨k, hk, rfl⟩ := List.getElem_of_mem hi
    have hg : is.getD k 0 = is[k] := by rw [List.getD_eq_getElem?_getD, List.getElem?_eq_getElem hk, Option.getD_some]
    have := h1 k hk
    simp only [hg] at this
    unfold full
    rw [hsum]
    have e2 : ∑ t ∈ Finset.range s.l, s.P is[k] t * solve s c 0 r (s.N + t) = ∑ t ∈ Finset.range s.l, s.P is[k] t * co.getD t 0 :=
      Finset.sum_congr rfl fun t ht => by rw [hco t (Finset.mem_range.1 ht)]
    have e3 : solve s c 0 r is[k] = lam.getD k 0 := by rw [← hg]; exact hat k hk
    rw [e2, e3]
    have e4 : (is.map r).getD k 0 = r is[k] := by
      rw [List.getD_eq_getElem?_getD, List.getElem?_map, List.getElem?_eq_getElem hk]; rfl
    rw [e4] at this
    rw [← this]
    ring
  · intro t ht
    rw [hsum]
    exact h2 t ht

theorem side_add {w x : Nat → ℝ} (h1 : SideConditions s w) (h2 : SideConditions s x) : SideConditions s (w + x) := by
  intro t ht
  simp only [Pi.add_apply, mul_add, Finset.sum_add_distrib]
  rw [h1 t ht, h2 t ht, add_zero]

theorem side_project (ho : Orthonormal s c) (w : Nat → ℝ) : SideConditions s (project s c w) := by
  obtain ⟨C, hC⟩ := ho.span
  have key : ∀ u < s.l, ∑ i ∈ Finset.range s.N, c.p i u * project s c w i = 0 := by
    intro u hu
    have e : ∑ i ∈ Finset.range s.N, c.p i u * project s c w i = ∑ i ∈ Finset.range s.N, c.p i u * w i -
        ∑ i ∈ Finset.range s.N, ∑ t ∈ Finset.range s.l, (c.p i u * c.p i t) * ∑ k ∈ Finset.range s.N, c.p k t * w k := by
      rw [← Finset.sum_sub_distrib]
      apply Finset.sum_congr rfl
      intro i hi
      unfold project
      rw [if_pos (Finset.mem_range.1 hi), mul_sub, Finset.mul_sum]
      congr 1
      exact Finset.sum_congr rfl fun t _ => by ring
    rw [e, Finset.sum_comm]
    have e2 : ∑ t ∈ Finset.range s.l, ∑ i ∈ Finset.range s.N, (c.p i u * c.p i t) * ∑ k ∈ Finset.range s.N, c.p k t * w k =
        ∑ t ∈ Finset.range s.l, (if u = t then 1 else 0) * ∑ k ∈ Finset.range s.N, c.p k t * w k := by
      apply Finset.sum_congr rfl
      intro t ht
      rw [← Finset.sum_mul, ho.unit u hu t (Finset.mem_range.1 ht)]
    rw [e2]
    simp only [ite_mul, one_mul, zero_mul, Finset.sum_ite_eq, Finset.mem_range, hu, if_true, sub_self]
  intro t ht
  have e : ∑ i ∈ Finset.range s.N, s.P i t * project s c w i = ∑ u ∈ Finset.range s.l, C u t * ∑ i ∈ Finset.range s.N, c.p i u * project s c w i := by
    simp only [Finset.mul_sum]
    rw [Finset.sum_comm]
    apply Finset.sum_congr rfl
    intro i hi
    rw [hC i (Finset.mem_range.1 hi) t ht, Finset.sum_mul]
    exact Finset.sum_congr rfl fun u _ => by ring
  rw [e]
  apply Finset.sum_eq_zero
  intro u hu
  rw [key u (Finset.mem_range.1 hu), mul_zero]

/-- the sweep ends with a coarse correction, of weights that satisfy the side conditions -/
theorem sweep_last (h : Built s c) (ho : Orthonormal s c) (v : Nat → ℝ) : ∃ w, SideConditions s w ∧ sweep s c v = correct s c v w 0 := by
  have hp := h.pos
  unfold sweep order
  by_cases hn : c.n = 1
  · rw [hn]
    exact ⟨fun _ => 0, fun t _ => by simp, rfl⟩
  · have : (List.range c.n).drop 1 = 1 :: (List.range c.n).drop 2 := by
      apply List.ext_getElem?
      intro k
      cases k with
      | zero => rw [List.getElem?_drop, List.getElem?_range (by omega)]; rfl
      | succ k => rw [List.getElem?_drop, List.getElem?_cons_succ, List.getElem?_drop]; congr 1; omega
    rw [this, List.reverse_cons, List.flatMap_append, ← List.append_assoc, List.foldl_cons, List.foldl_append]
    generalize List.foldl (correct s c v) (correct s c v (fun _ => 0) 0) _ = w
    simp only [List.flatMap_cons, List.flatMap_nil, List.append_nil, List.foldl_cons, List.foldl_nil]
    refine ⟨_, ?_, rfl⟩
    unfold correct
    rw [if_neg (by omega)]
    exact side_project ho _

/-- The weights returned are orthogonal to the polynomials, so that the polynomial part of what the operator maps them to is zero, as the next
application of the preconditioner expects. -/
theorem C58_side_conditions (h : Built s c) (ho : Orthonormal s c) {nugget : ℝ} (hc : CoarseSolves s c nugget) (v : Nat → ℝ) :
    SideConditions s (apply s c v) := by
  rw [C58_is_sweep h]
  obtain ⟨w, hw, e⟩ := sweep_last h ho v
  rw [e]
  unfold correct
  rw [if_pos rfl]
  exact side_add hw (coarse_solve h hc _).2

/-- On a single level the preconditioner is the inverse of the operator: the returned weights reproduce all values, with the nugget. -/
theorem C58_single_level_is_inverse (h : Built s c) {nugget : ℝ} (hc : CoarseSolves s c nugget) (hn : c.n = 1) (v : Nat → ℝ) :
    (∀ i < s.N, full s (apply s c v) i + (if i < s.mu then nugget * apply s c v i else 0) = v i) ∧ SideConditions s (apply s c v) := by
  have e : apply s c v = solve s c 0 v := by
    unfold apply
    rw [if_pos hn]
  rw [e]
  obtain ⟨h1, h2⟩ := coarse_solve h hc v
  refine ⟨fun i hi => h1 i ?_, h2⟩
  have hf := h.finest
  rw [hn] at hf
  by_cases him : i < s.mu
  · exact mem_rows.2 (Or.inl (hf.1 i him))
  · have hd : 0 < s.dim := by
      rcases Nat.eq_zero_or_pos s.dim with h0 | h0
      · unfold Sys.N at hi; rw [h0] at hi; omega
      · exact h0
    refine mem_rows.2 (Or.inr ⟨(i - s.mu) / s.dim, hf.2 _ ?_, (i - s.mu) % s.dim, Nat.mod_lt _ hd, ?_⟩)
    · rw [Nat.div_lt_iff_lt_mul hd, Nat.mul_comm]
      unfold Sys.N at hi; omega
    · have := Nat.div_add_mod (i - s.mu) s.dim
      omega

/-- On any number of levels, and without a nugget, the returned weights reproduce the values at the points of the coarsest level.  With a nugget they
do so up to the nugget times the last coarse correction `x` only, while the system that is solved asks for the nugget times all weights: the residuals that
are passed from level to level leave the nugget out, so that the system is missed by the nugget times the weights `w` before that correction. -/
theorem C58_coarse_values (h : Built s c) (ho : Orthonormal s c) {nugget : ℝ} (hc : CoarseSolves s c nugget) (v : Nat → ℝ) :
    ∃ w x, apply s c v = w + x ∧ (x = solve s c 0 (residual s v w)) ∧
      (∀ i ∈ rows s (c.lv 0), full s (apply s c v) i + (if i < s.mu then nugget * x i else 0) = v i) ∧
      (∀ i ∈ rows s (c.lv 0), i < s.mu → full s (apply s c v) i + nugget * apply s c v i = v i + nugget * w i) ∧
      (nugget = 0 → ∀ i ∈ rows s (c.lv 0), full s (apply s c v) i = v i) := by
  rw [C58_is_sweep h]
  obtain ⟨w, hw, e⟩ := sweep_last h ho v
  have key : ∀ i ∈ rows s (c.lv 0), full s (sweep s c v) i + (if i < s.mu then nugget * solve s c 0 (residual s v w) i else 0) = v i := by
    intro i hi
    have := (coarse_solve h hc (residual s v w)).1 i hi
    rw [e]
    unfold correct
    rw [if_pos rfl, full_add]
    unfold residual at this ⊢
    linarith
  have e' : sweep s c v = w + solve s c 0 (residual s v w) := by
    rw [e]
    unfold correct
    rw [if_pos rfl]
  refine ⟨w, solve s c 0 (residual s v w), e', rfl, key, ?_, ?_⟩
  · intro i hi him
    have := key i hi
    rw [if_pos him] at this
    have e2 : sweep s c v i = w i + solve s c 0 (residual s v w) i := by rw [e']; rfl
    rw [e2]
    linarith
  · intro h0 i hi
    have := key i hi
    rw [h0, zero_mul, ite_self, add_zero] at this
    exact this

/-! ## Linearity -/

theorem assignAll_comb (a b : ℝ) : ∀ (L : List (Nat × ℝ × ℝ)) (w w' : Nat → ℝ),
    assignAll (fun i => a * w i + b * w' i) (L.map fun q => (q.1, a * q.2.1 + b * q.2.2)) =
      fun i => a * assignAll w (L.map fun q => (q.1, q.2.1)) i + b * assignAll w' (L.map fun q => (q.1, q.2.2)) i
  | [], w, w' => rfl
  | q :: L, w, w' => by
    have := assignAll_comb a b L (assign w (q.1, q.2.1)) (assign w' (q.1, q.2.2))
    have e : assign (fun i => a * w i + b * w' i) (q.1, a * q.2.1 + b * q.2.2) =
        fun i => a * assign w (q.1, q.2.1) i + b * assign w' (q.1, q.2.2) i := by
      funext i
      unfold assign
      dsimp only
      split <;> rfl
    show assignAll (assign _ _) _ = _
    rw [e]
    exact this

/-- assignments with the same keys and combined values -/
theorem assignAll_comb' (a b : ℝ) {ps qs rs : List (Nat × ℝ)} (h1 : qs.map Prod.fst = ps.map Prod.fst)
    (h2 : rs = List.zipWith (fun p q => (p.1, a * p.2 + b * q.2)) ps qs) :
    assignAll (fun _ => 0) rs = fun i => a * assignAll (fun _ => 0) ps i + b * assignAll (fun _ => 0) qs i := by
  have := assignAll_comb a b (List.zipWith (fun p q => (p.1, p.2, q.2)) ps qs) (fun _ => 0) (fun _ => 0)
  simp only [mul_zero, add_zero, List.map_zipWith] at this
  have hl : qs.length = ps.length := by simpa using congrArg List.length h1
  have e1 : List.zipWith (fun p q : Nat × ℝ => (p.1, p.2)) ps qs = ps := by
    clear this h2
    induction ps generalizing qs with
    | nil => simp
    | cons p ps ih =>
      cases qs with
      | nil => simp at hl
      | cons q qs =>
        simp only [List.map_cons, List.cons.injEq] at h1
        rw [List.zipWith_cons_cons, ih h1.2 (by simpa using hl)]
  have e2 : List.zipWith (fun p q : Nat × ℝ => (p.1, q.2)) ps qs = qs := by
    clear this h2 e1
    induction ps generalizing qs with
    | nil => cases qs with
      | nil => rfl
      | cons q qs => simp at hl
    | cons p ps ih =>
      cases qs with
      | nil => simp at hl
      | cons q qs =>
        simp only [List.map_cons, List.cons.injEq] at h1
        rw [List.zipWith_cons_cons, ih h1.2 (by simpa using hl), ← h1.1]
  rw [h2, this, e1, e2]

theorem comb_map {α : Type} (a b : ℝ) (l : List α) (f g : α → ℝ) : comb a b (l.map f) (l.map g) = l.map fun x => a * f x + b * g x := by
  unfold comb
  induction l with
  | nil => rfl
  | cons x l ih => simp only [List.map_cons, List.zipWith_cons_cons, ih]

theorem fineValues_eq (d : Domain) (r : Nat → ℝ) :
    fineValues s d r = (d.pts.map Prod.fst ++ d.grads.flatMap fun g => (List.range s.dim).map fun k => s.mu + s.dim * g.1 + k).map r := by
  unfold fineValues
  rw [List.map_append, List.map_flatMap, List.map_map]
  simp only [List.map_map]
  rfl

theorem zipWith_map_same {α β γ δ : Type} (l : List α) (f : α → β) (g : α → γ) (k : β → γ → δ) : List.zipWith k (l.map f) (l.map g) = l.map fun x => k (f x) (g x) := by
  induction l with
  | nil => rfl
  | cons x l ih => simp only [List.map_cons, List.zipWith_cons_cons, ih]

theorem zipWith_flatten {α β γ : Type} (k : α → β → γ) : ∀ (xs : List (List α)) (ys : List (List β)), List.map List.length xs = List.map List.length ys →
    List.zipWith k xs.flatten ys.flatten = (List.zipWith (List.zipWith k) xs ys).flatten
  | [], [], _ => rfl
  | [], _ :: _, h => by simp at h
  | _ :: _, [], h => by simp at h
  | x :: xs, y :: ys, h => by
    simp only [List.map_cons, List.cons.injEq] at h
    rw [List.flatten_cons, List.flatten_cons, List.zipWith_append h.1, zipWith_flatten k xs ys h.2, List.zipWith_cons_cons, List.flatten_cons]

theorem writes_comb (a b : ℝ) (dim mu : Nat) (d : Domain) {x y z : Nat → ℝ} (hz : ∀ i, z i = a * x i + b * y i) :
    writes dim mu d z = List.zipWith (fun p q => (p.1, a * p.2 + b * q.2)) (writes dim mu d x) (writes dim mu d y) := by
  unfold writes
  rw [List.zipWith_append (by simp), zipWith_map_same]
  congr 1
  · simp only [hz]
  · rw [List.flatMap_def, List.flatMap_def, List.flatMap_def, zipWith_flatten, zipWith_map_same]
    · simp only [zipWith_map_same, hz]
    · simp [List.map_map, Function.comp_def]

theorem fine_eq (h : Built s c) {level : Nat} (h1 : 1 ≤ level) (hl : level < c.n) (r : Nat → ℝ) :
    solve s c level r = assignAll (fun _ => 0) ((c.fine level).map fun f => writes s.dim s.mu f.1 (f.2 (fineValues s f.1 r))).flatten := by
  unfold solve
  rw [if_neg (by omega)]
  have hp := interleaving_perm (h.sched level ((c.fine level).map fun f => writes s.dim s.mu f.1 (f.2 (fineValues s f.1 r))))
  refine assignAll_perm hp ?_ _
  rw [(hp.map Prod.fst).nodup_iff]
  obtain ⟨i1, i2⟩ := h.inner level h1 hl
  have := writes_keys_nodup (α := Unit) (dim := s.dim) (ds := (c.fine level).map Prod.fst) (h.pts level hl).2 (grads := (c.lv level).grads) (by intro i; rw [List.map_map]; exact i1 i)
    (by intro i; rw [List.map_map]; exact i2 i) (fun _ _ => ())
  have e : ((c.fine level).map fun f => writes s.dim s.mu f.1 (f.2 (fineValues s f.1 r))).flatten.map Prod.fst =
      (((c.fine level).map Prod.fst).map fun d => writes s.dim s.mu d (fun _ => ())).flatten.map Prod.fst := by
    rw [List.map_flatten, List.map_flatten, List.map_map, List.map_map, List.map_map]
    congr 1
    apply List.map_congr_left
    intro f _
    simp only [Function.comp_apply]
    rw [writes_fst, writes_fst]
  rw [e]
  exact this

theorem solve_linear (h : Built s c) (hL : LinearSolves s c) {level : Nat} (hl : level < c.n) (a b : ℝ) (r r' : Nat → ℝ) :
    solve s c level (fun i => a * r i + b * r' i) = fun i => a * solve s c level r i + b * solve s c level r' i := by
  rcases Nat.eq_zero_or_pos level with rfl | h1
  · unfold solve
    simp only [if_true]
    have e : coarseValues s (c.lv 0) (fun i => a * r i + b * r' i) = comb a b (coarseValues s (c.lv 0) r) (coarseValues s (c.lv 0) r') := by
      rw [coarseValues_eq, coarseValues_eq, coarseValues_eq, comb_map]
    rw [e, hL.coarse a b _ _ (by rw [coarseValues_eq, coarseValues_eq, List.length_map, List.length_map])]
    have hlen : ∀ d, (rows s (c.lv 0) ++ (List.range s.l).map fun t => s.N + t).length = (c.coarse d).length := by
      intro d
      rw [hL.length, List.length_append, List.length_map, List.length_range]
    have hx := hlen (coarseValues s (c.lv 0) r)
    have hy := hlen (coarseValues s (c.lv 0) r')
    unfold coarseWrites
    generalize c.coarse (coarseValues s (c.lv 0) r) = x at *
    generalize c.coarse (coarseValues s (c.lv 0) r') = y at *
    generalize (rows s (c.lv 0) ++ (List.range s.l).map fun t => s.N + t) = is at *
    apply assignAll_comb'
    · rw [List.map_fst_zip (by omega), List.map_fst_zip (by omega)]
    · unfold comb
      clear hlen e
      induction is generalizing x y with
      | nil => simp
      | cons i is ih =>
        cases x with
        | nil => simp at hx
        | cons p x =>
          cases y with
          | nil => simp at hy
          | cons q y =>
            simp only [List.zip_cons_cons, List.zipWith_cons_cons]
            rw [ih x y (by simpa using hx) (by simpa using hy)]
  · rw [fine_eq h h1 hl, fine_eq h h1 hl, fine_eq h h1 hl]
    apply assignAll_comb'
    · rw [List.map_flatten, List.map_flatten, List.map_map, List.map_map]
      congr 1
      apply List.map_congr_left
      intro f _
      simp only [Function.comp_apply]
      rw [writes_fst, writes_fst]
    · rw [zipWith_flatten]
      · congr 1
        rw [zipWith_map_same]
        apply List.map_congr_left
        intro f hf
        apply writes_comb
        intro i
        rw [← hL.fine level f hf a b _ _ (by simp [fineValues_eq])]
        rw [fineValues_eq, fineValues_eq, fineValues_eq, comb_map]
      · rw [List.map_map, List.map_map]
        apply List.map_congr_left
        intro f _
        simp [writes]

theorem full_comb (a b : ℝ) (w w' : Nat → ℝ) (i : Nat) : full s (fun i => a * w i + b * w' i) i = a * full s w i + b * full s w' i := by
  unfold full
  simp only [mul_add, Finset.sum_add_distrib, Finset.mul_sum]
  have : ∀ (x y z : ℝ), x * (y * z) = y * (x * z) := fun x y z => by ring
  simp only [this a, this b]
  ring

theorem project_comb (a b : ℝ) (w w' : Nat → ℝ) : project s c (fun i => a * w i + b * w' i) = fun i => a * project s c w i + b * project s c w' i := by
  funext i
  unfold project
  split
  · have e : ∀ t, ∑ k ∈ Finset.range s.N, c.p k t * (a * w k + b * w' k) = a * ∑ k ∈ Finset.range s.N, c.p k t * w k + b * ∑ k ∈ Finset.range s.N, c.p k t * w' k := by
      intro t
      rw [Finset.mul_sum, Finset.mul_sum, ← Finset.sum_add_distrib]
      exact Finset.sum_congr rfl fun k _ => by ring
    simp only [e]
    have e2 : ∑ t ∈ Finset.range s.l, c.p i t * (a * ∑ k ∈ Finset.range s.N, c.p k t * w k + b * ∑ k ∈ Finset.range s.N, c.p k t * w' k) =
        a * ∑ t ∈ Finset.range s.l, c.p i t * ∑ k ∈ Finset.range s.N, c.p k t * w k + b * ∑ t ∈ Finset.range s.l, c.p i t * ∑ k ∈ Finset.range s.N, c.p k t * w' k := by
      rw [Finset.mul_sum, Finset.mul_sum, ← Finset.sum_add_distrib]
      exact Finset.sum_congr rfl fun t _ => by ring
    rw [e2]
    ring
  · rfl

theorem correct_comb (h : Built s c) (hL : LinearSolves s c) (a b : ℝ) (v v' w w' : Nat → ℝ) {level : Nat} (hl : level < c.n) :
    correct s c (fun i => a * v i + b * v' i) (fun i => a * w i + b * w' i) level = fun i => a * correct s c v w level i + b * correct s c v' w' level i := by
  have e : residual s (fun i => a * v i + b * v' i) (fun i => a * w i + b * w' i) = fun i => a * residual s v w i + b * residual s v' w' i := by
    funext i
    unfold residual
    rw [full_comb]
    ring
  have e2 : ((fun i => a * w i + b * w' i) + solve s c level (residual s (fun i => a * v i + b * v' i) (fun i => a * w i + b * w' i))) =
      fun i => a * (w + solve s c level (residual s v w)) i + b * (w' + solve s c level (residual s v' w')) i := by
    rw [e, solve_linear h hL hl]
    funext i
    simp only [Pi.add_apply]
    ring
  unfold correct
  dsimp only
  rw [e2]
  split
  · rfl
  · rw [project_comb]

/-- The preconditioner is a linear operator. -/
theorem C58_linear (h : Built s c) (hL : LinearSolves s c) (a b : ℝ) (v v' : Nat → ℝ) :
    apply s c (fun i => a * v i + b * v' i) = fun i => a * apply s c v i + b * apply s c v' i := by
  have hp := h.pos
  rw [C58_is_sweep h, C58_is_sweep h, C58_is_sweep h]
  unfold sweep
  have key : ∀ (L : List Nat), (∀ k ∈ L, k < c.n) → ∀ w w' : Nat → ℝ,
      L.foldl (correct s c (fun i => a * v i + b * v' i)) (fun i => a * w i + b * w' i) =
        fun i => a * L.foldl (correct s c v) w i + b * L.foldl (correct s c v') w' i := by
    intro L
    induction L with
    | nil => intro _ w w'; rfl
    | cons k L ih =>
      intro hk w w'
      simp only [List.foldl_cons]
      rw [correct_comb h hL a b v v' w w' (hk k List.mem_cons_self)]
      exact ih (fun k' hk' => hk k' (List.mem_cons_of_mem _ hk')) _ _
  have := key (order c.n) (by
    intro k hk
    unfold order at hk
    simp only [List.mem_cons, List.mem_append, List.mem_flatMap, List.mem_reverse, List.not_mem_nil, or_false] at hk
    have hr : ∀ m j, m ∈ (List.range j).drop 1 → m < j := fun m j hm => List.mem_range.1 (List.mem_of_mem_drop hm)
    rcases hk with rfl | ⟨m, hm, rfl | rfl⟩ | ⟨m, hm, rfl | rfl⟩
    · omega
    · have := hr _ _ hm; omega
    · omega
    · exact hr _ _ hm
    · omega) (fun _ => 0) (fun _ => 0)
  simp only [mul_zero, add_zero] at this
  exact this

/-! ## The number of levels and their sizes -/

/-- The number of levels is the smallest one with which the rows are at most `2048 * 10 ^ (levels - 1)`. -/
theorem C58_levels {n : Nat} (hn : 0 < n) : 1 ≤ nLevels n ∧ n ≤ 2048 * 10 ^ (nLevels n - 1) ∧ (2 ≤ nLevels n → 2048 * 10 ^ (nLevels n - 2) < n) := by
  have hl : (0 : ℝ) < Real.log 10 := Real.log_pos (by norm_num)
  have hn' : (0 : ℝ) < n := by exact_mod_cast hn
  obtain ⟨q, hq⟩ : ∃ q, q = ⌈Real.log ((n : ℝ) / 2048) / Real.log 10⌉ := ⟨_, rfl⟩
  have q1 := Int.le_ceil (Real.log ((n : ℝ) / 2048) / Real.log 10)
  have q2 := Int.ceil_lt_add_one (Real.log ((n : ℝ) / 2048) / Real.log 10)
  have pw : ∀ m : ℕ, (n : ℝ) ≤ 2048 * 10 ^ m ↔ Real.log ((n : ℝ) / 2048) / Real.log 10 ≤ m := by
    intro m
    rw [div_le_iff₀ hl, ← Real.log_pow, Real.log_le_log_iff (by positivity) (by positivity), div_le_iff₀ (by norm_num), mul_comm]
  have e : nLevels n = (max q 0).toNat + 1 := by
    unfold nLevels
    rw [← hq, Int.toNat_add (le_max_right _ _) (by norm_num)]
    rfl
  rw [← hq] at q1 q2
  refine ⟨by omega, ?_, ?_⟩
  · have : (n : ℝ) ≤ 2048 * 10 ^ (nLevels n - 1) := by
      rw [pw]
      refine le_trans q1 ?_
      have : q ≤ ((nLevels n - 1 : ℕ) : ℤ) := by omega
      exact_mod_cast this
    exact_mod_cast this
  · intro h2
    by_contra hc
    have : (n : ℝ) ≤ 2048 * 10 ^ (nLevels n - 2) := by exact_mod_cast (not_lt.1 hc)
    rw [pw] at this
    have h3 : (q : ℝ) < ((nLevels n - 2 : ℕ) : ℝ) + 1 := by linarith
    have h4 : q < ((nLevels n - 2 : ℕ) : ℤ) + 1 := by exact_mod_cast h3
    omega

/-- The number of points asked for grows from 2048 for the coarsest level, by at most ten times (plus ten) from level to level, and stays below the number of
rows. -/
theorem C58_coarse_counts {n levels : Nat} (hn : 2048 < n) (hl : 2 ≤ levels) (hb : n ≤ 2048 * 10 ^ (levels - 1)) :
    nCoarsePoints n levels 1 = 2048 ∧ (∀ k, 1 ≤ k → k < levels → 2048 ≤ nCoarsePoints n levels k ∧ nCoarsePoints n levels k < n) ∧
      ∀ k, 1 ≤ k → nCoarsePoints n levels k ≤ nCoarsePoints n levels (k + 1) ∧ nCoarsePoints n levels (k + 1) < 10 * (nCoarsePoints n levels k + 1) := by
  have h10 : (0 : ℝ) < Real.log 10 := Real.log_pos (by norm_num)
  have hn' : (2048 : ℝ) < n := by exact_mod_cast hn
  have hl' : (0 : ℝ) < (levels : ℝ) - 1 := by
    have : (2 : ℝ) ≤ levels := by exact_mod_cast hl
    linarith
  obtain ⟨d, hd⟩ : ∃ d, d = (Real.log n - Real.log 2048) / Real.log 10 / ((levels : ℝ) - 1) := ⟨_, rfl⟩
  have hlog : Real.log 2048 < Real.log n := Real.log_lt_log (by norm_num) hn'
  have d0 : 0 < d := by
    rw [hd]
    have : 0 < Real.log n - Real.log 2048 := by linarith
    positivity
  have d1 : d ≤ 1 := by
    rw [hd, div_le_one hl', div_le_iff₀ h10]
    have e : ((levels : ℝ) - 1) = ((levels - 1 : ℕ) : ℝ) := by rw [Nat.cast_sub (by omega)]; norm_num
    have hb' : (n : ℝ) ≤ 2048 * 10 ^ (levels - 1) := by exact_mod_cast hb
    have : Real.log n ≤ Real.log (2048 * 10 ^ (levels - 1)) := Real.log_le_log (by linarith) hb'
    rw [Real.log_mul (by norm_num) (by positivity), Real.log_pow] at this
    rw [e]
    linarith
  have h2048 : (10 : ℝ) ^ (Real.log 2048 / Real.log 10) = 2048 := by
    rw [Real.rpow_def_of_pos (by norm_num), mul_div_cancel₀ _ h10.ne', Real.exp_log (by norm_num)]
  have hfin : (10 : ℝ) ^ (Real.log n / Real.log 10) = n := by
    rw [Real.rpow_def_of_pos (by norm_num), mul_div_cancel₀ _ h10.ne', Real.exp_log (by linarith)]
  have ex : ∀ k : ℕ, nCoarsePoints n levels k = ⌊(10 : ℝ) ^ (Real.log 2048 / Real.log 10 + ((k : ℝ) - 1) * d)⌋₊ := by
    intro k
    unfold nCoarsePoints
    dsimp only
    congr 2
    rw [hd]
    field_simp
  have mono : ∀ x y : ℝ, x ≤ y → (10 : ℝ) ^ x ≤ (10 : ℝ) ^ y := fun x y h => Real.rpow_le_rpow_of_exponent_le (by norm_num) h
  have c1 : nCoarsePoints n levels 1 = 2048 := by
    rw [ex]
    have : Real.log 2048 / Real.log 10 + (((1 : ℕ) : ℝ) - 1) * d = Real.log 2048 / Real.log 10 := by push_cast; ring
    rw [this, h2048]
    norm_num
  refine ⟨c1, ?_, ?_⟩
  · intro k hk hkl
    have hk' : (1 : ℝ) ≤ k := by exact_mod_cast hk
    constructor
    · rw [← c1, ex, ex]
      apply Nat.floor_le_floor
      apply mono
      push_cast
      nlinarith
    · rw [ex, Nat.floor_lt (by positivity), ← hfin]
      apply Real.rpow_lt_rpow_of_exponent_lt (by norm_num)
      have : ((k : ℝ) - 1) * d < Real.log n / Real.log 10 - Real.log 2048 / Real.log 10 := by
        have e : Real.log n / Real.log 10 - Real.log 2048 / Real.log 10 = ((levels : ℝ) - 1) * d := by rw [hd]; field_simp
        rw [e]
        have : (k : ℝ) < levels := by exact_mod_cast hkl
        nlinarith
      linarith
  · intro k hk
    constructor
    · rw [ex, ex]
      apply Nat.floor_le_floor
      apply mono
      push_cast
      nlinarith
    · rw [ex (k + 1), Nat.floor_lt (by positivity)]
      have e : (10 : ℝ) ^ (Real.log 2048 / Real.log 10 + (((k + 1 : ℕ) : ℝ) - 1) * d) = 10 ^ d * 10 ^ (Real.log 2048 / Real.log 10 + ((k : ℝ) - 1) * d) := by
        rw [← Real.rpow_add (by norm_num)]
        congr 1
        push_cast
        ring
      rw [e]
      have h1 : (10 : ℝ) ^ d ≤ 10 := by
        have := mono d 1 d1
        rwa [Real.rpow_one] at this
      have h2 := Nat.lt_floor_add_one ((10 : ℝ) ^ (Real.log 2048 / Real.log 10 + ((k : ℝ) - 1) * d))
      rw [← ex] at h2
      push_cast
      have h3 : (0 : ℝ) < 10 ^ (Real.log 2048 / Real.log 10 + ((k : ℝ) - 1) * d) := by positivity
      nlinarith

end Verif.Ras
