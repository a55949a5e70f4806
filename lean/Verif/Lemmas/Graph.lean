import Verif.Model.Graph
import Verif.Spec.Graph
import Mathlib.Data.List.Nodup
import Mathlib.Data.List.Range
import Mathlib.Data.Finset.Card
import Mathlib.Data.Finset.Filter
import Mathlib.Data.Finset.Range
import Mathlib.Tactic.ByContra
import Mathlib.Order.Lattice
import Mathlib.Order.Basic
import Mathlib.Algebra.Order.Group.Int

namespace Verif.Graph

open Verif Spec

/-- The matrix represents the edge list. -/
structure Rep (g : G) (n : Nat) (es : List (Nat × Nat)) : Prop where
  order : g.order = n
  range : ∀ e ∈ es, e.1 < n ∧ e.2 < n
  entry : ∀ a b, a ≤ b → g.m a b = multiplicity es a b
  lower : ∀ a b, b < a → g.m a b = 0
  degree : ∀ v, v < n → Graph.degree g v = (Spec.degree es v : Int)

theorem sum_update (l : List Nat) (hl : l.Nodup) (f : Nat → Nat) (a : Nat) :
    (l.map (fun k => if k = a then f k + 1 else f k)).sum = (l.map f).sum + if a ∈ l then 1 else 0 := by
  induction l with
  | nil => simp
  | cons x l ih =>
    rw [List.nodup_cons] at hl
    simp only [List.map_cons, List.sum_cons, ih hl.2, List.mem_cons]
    by_cases h : x = a
    · subst h; simp [hl.1]; omega
    · by_cases h2 : a ∈ l
      · simp [h, h2]; omega
      · simp [h, h2, Ne.symm h]

theorem rep_mk (n : Nat) (h : n ≠ 0) : ∃ g, mk n = .ok g ∧ Rep g n [] := by
  refine ⟨⟨n, fun _ _ => 0⟩, by simp [mk, h], rfl, by simp, ?_, ?_, ?_⟩
  · simp [multiplicity]
  · simp
  · intro v _
    simp only [Graph.degree, Spec.degree, List.countP_nil]
    have : ∀ k : Nat, (List.map (fun _ => 0) (List.range k)).sum = 0 := by
      intro k; induction k with
      | zero => rfl
      | succ k ih => simp [List.range_succ, ih]
    simp

theorem multiplicity_append (es : List (Nat × Nat)) (e : Nat × Nat) (a b : Nat) :
    multiplicity (es ++ [e]) a b
      = multiplicity es a b + if (e.1 = a ∧ e.2 = b) ∨ (e.1 = b ∧ e.2 = a) then 1 else 0 := by
  unfold multiplicity
  rw [List.countP_append]
  congr 1
  by_cases h : (e.1 = a ∧ e.2 = b) ∨ (e.1 = b ∧ e.2 = a) <;> simp [h]

theorem degree_append (es : List (Nat × Nat)) (e : Nat × Nat) (v : Nat) :
    Spec.degree (es ++ [e]) v = Spec.degree es v + if e.1 = v ∨ e.2 = v then 1 else 0 := by
  unfold Spec.degree
  rw [List.countP_append]
  congr 1
  by_cases h : e.1 = v ∨ e.2 = v <;> simp [h]

/-- One edge `p ≤ q` added to the matrix. -/
theorem rep_add_le {g : G} {n : Nat} {es : List (Nat × Nat)} (h : Rep g n es) (i j p q : Nat) (hpq : p ≤ q)
    (hq : q < n) (hij : (i = p ∧ j = q) ∨ (i = q ∧ j = p)) :
    Rep { g with m := fun a b => if a = p ∧ b = q then g.m p q + 1 else g.m a b } n (es ++ [(i, j)]) := by
  refine ⟨h.order, ?_, ?_, ?_, ?_⟩
  · intro e he
    rcases List.mem_append.1 he with he | he
    · exact h.range e he
    · simp at he; subst he; simp only; omega
  · intro a b hab
    simp only [multiplicity_append]
    by_cases hc : a = p ∧ b = q
    · obtain ⟨rfl, rfl⟩ := hc
      rw [if_pos ⟨rfl, rfl⟩, if_pos (by omega), h.entry _ _ hab]
    · rw [if_neg hc, if_neg (by omega), h.entry _ _ hab]; omega
  · intro a b hab
    simp only
    rw [if_neg (by omega)]
    exact h.lower a b hab
  · intro v hv
    rw [degree_append]
    have hd := h.degree v hv
    simp only [Graph.degree] at hd ⊢
    have ho := h.order
    have c1 : ((List.range g.order).map (fun k => if k = p ∧ v = q then g.m p q + 1 else g.m k v)).sum
        = ((List.range g.order).map (fun k => g.m k v)).sum + if v = q then 1 else 0 := by
      by_cases hvq : v = q
      · subst hvq
        have := sum_update (List.range g.order) List.nodup_range (fun k => g.m k v) p
        rw [if_pos (by rw [List.mem_range]; omega)] at this
        simp only [and_true, if_true]
        rw [← this]
        congr 1
        apply List.map_congr_left
        intro k _
        by_cases hk : k = p <;> simp [hk]
      · simp [hvq]
    have c2 : ((List.range g.order).map (fun k => if v = p ∧ k = q then g.m p q + 1 else g.m v k)).sum
        = ((List.range g.order).map (fun k => g.m v k)).sum + if v = p then 1 else 0 := by
      by_cases hvp : v = p
      · subst hvp
        have := sum_update (List.range g.order) List.nodup_range (fun k => g.m v k) q
        rw [if_pos (by rw [List.mem_range]; omega)] at this
        simp only [true_and, if_true]
        rw [← this]
        congr 1
        apply List.map_congr_left
        intro k _
        by_cases hk : k = q <;> simp [hk]
      · simp [hvp]
    rw [c1, c2]
    rcases hij with ⟨rfl, rfl⟩ | ⟨rfl, rfl⟩ <;>
    · by_cases e1 : v = i <;> by_cases e2 : v = j
      · subst e1; subst e2; simp; omega
      · subst e1; simp [e2, Ne.symm e2]; omega
      · subst e2; simp [e1, Ne.symm e1]; omega
      · simp [e1, e2, Ne.symm e1, Ne.symm e2]; omega

theorem rep_addEdge {g : G} {n : Nat} {es : List (Nat × Nat)} (h : Rep g n es) {i j : Nat} (hi : i < n) (hj : j < n) :
    ∃ g', addEdge g i j = .ok g' ∧ Rep g' n (es ++ [(i, j)]) := by
  have ho := h.order
  unfold addEdge
  by_cases hc : i > j
  · simp only [if_pos hc]
    rw [if_pos (by omega)]
    exact ⟨_, rfl, rep_add_le h i j j i (by omega) hi (Or.inr ⟨rfl, rfl⟩)⟩
  · simp only [if_neg hc]
    rw [if_pos (by omega)]
    exact ⟨_, rfl, rep_add_le h i j i j (by omega) hj (Or.inl ⟨rfl, rfl⟩)⟩

theorem rep_addEdges {g : G} {n : Nat} {es : List (Nat × Nat)} (h : Rep g n es) (fs : List (Nat × Nat))
    (hf : ∀ e ∈ fs, e.1 < n ∧ e.2 < n) : ∃ g', addEdges g fs = .ok g' ∧ Rep g' n (es ++ fs) := by
  induction fs generalizing g es with
  | nil => exact ⟨g, rfl, by simpa using h⟩
  | cons e fs ih =>
    obtain ⟨i, j⟩ := e
    obtain ⟨hi, hj⟩ := hf (i, j) (by simp)
    obtain ⟨g1, e1, r1⟩ := rep_addEdge h hi hj
    obtain ⟨g2, e2, r2⟩ := ih r1 (fun e he => hf e (by simp [he]))
    exact ⟨g2, by simp [addEdges, e1, e2], by simpa using r2⟩

theorem rep_build (n : Nat) (hn : n ≠ 0) (es : List (Nat × Nat)) (hr : ∀ e ∈ es, e.1 < n ∧ e.2 < n) :
    ∃ g, build n es = .ok g ∧ Rep g n es := by
  obtain ⟨g0, e0, r0⟩ := rep_mk n hn
  obtain ⟨g, e1, r1⟩ := rep_addEdges r0 es hr
  exact ⟨g, by simp [build, e0, e1], by simpa using r1⟩

theorem multiplicity_pos {es : List (Nat × Nat)} {a b : Nat} : multiplicity es a b ≠ 0 ↔ Adj es a b := by
  unfold multiplicity Adj
  rw [← Nat.pos_iff_ne_zero, List.countP_pos_iff]
  constructor
  · rintro ⟨⟨x, y⟩, h1, h2⟩
    simp only [decide_eq_true_eq] at h2
    rcases h2 with ⟨rfl, rfl⟩ | ⟨rfl, rfl⟩
    · exact Or.inl h1
    · exact Or.inr h1
  · rintro (h | h)
    · exact ⟨_, h, by simp⟩
    · exact ⟨_, h, by simp⟩

theorem adj_symm {es : List (Nat × Nat)} {a b : Nat} (h : Adj es a b) : Adj es b a := h.symm

theorem multiplicity_comm (es : List (Nat × Nat)) (a b : Nat) : multiplicity es a b = multiplicity es b a := by
  unfold multiplicity
  congr 1
  funext e
  rw [Bool.eq_iff_iff]
  simp only [decide_eq_true_eq]
  exact or_comm

theorem hasEdge_iff {g : G} {n : Nat} {es : List (Nat × Nat)} (h : Rep g n es) (i j : Nat) :
    hasEdge g i j = true ↔ Adj es i j := by
  unfold hasEdge
  by_cases hc : i > j
  · simp only [if_pos hc, decide_eq_true_eq]
    rw [h.entry j i (by omega), multiplicity_pos]
    exact ⟨adj_symm, adj_symm⟩
  · simp only [if_neg hc, decide_eq_true_eq]
    rw [h.entry i j (by omega), multiplicity_pos]

theorem adj_range {g : G} {n : Nat} {es : List (Nat × Nat)} (h : Rep g n es) {a b : Nat} (hab : Adj es a b) :
    a < n ∧ b < n := by
  rcases hab with hab | hab
  · exact h.range _ hab
  · exact ⟨(h.range _ hab).2, (h.range _ hab).1⟩

/-! ### is_connected -/

theorem pushNbrs_eq (g : G) (i : Nat) (visited : Nat → Bool) (stack : List Nat) :
    pushNbrs g i visited stack
      = ((List.range g.order).filter (fun j => hasEdge g i j && !visited j)).reverse ++ stack := by
  unfold pushNbrs
  generalize List.range g.order = l
  induction l generalizing stack with
  | nil => simp
  | cons j l ih =>
    simp only [List.foldl_cons, List.filter_cons]
    rw [ih]
    split <;> simp

def unvisited (n : Nat) (visited : Nat → Bool) : Nat := ((Finset.range n).filter (fun x => visited x = false)).card

/-- The DFS terminates within the fuel and marks exactly the vertices reachable from 0. -/
theorem dfs_spec {g : G} {n : Nat} {es : List (Nat × Nat)} (hr : Rep g n es) (hn : 0 < n) (fuel : Nat)
    (visited : Nat → Bool) (stack : List Nat)
    (hfuel : unvisited n visited * (n + 1) + stack.length < fuel)
    (hs : ∀ x ∈ stack, x < n ∧ Reach es 0 x)
    (hv : ∀ x, visited x = true → x < n ∧ Reach es 0 x)
    (h0 : visited 0 = true ∨ 0 ∈ stack)
    (hclosed : ∀ v w, visited v = true → Adj es v w → visited w = true ∨ w ∈ stack)
    (habove : ∀ pre v post, stack = pre ++ v :: post → visited v = true → ∀ w, Adj es v w → visited w = false →
      w ∈ pre) :
    ∃ vis, dfs g fuel visited stack = .ok vis ∧ ∀ x, vis x = true ↔ Reach es 0 x := by
  induction fuel generalizing visited stack with
  | zero => omega
  | succ fuel ih =>
    cases stack with
    | nil =>
      refine ⟨visited, by simp [dfs], fun x => ⟨fun h => (hv x h).2, fun h => ?_⟩⟩
      induction h with
      | refl => simpa using h0
      | tail _ h2 ih2 => simpa using hclosed _ _ ih2 h2
    | cons i stack =>
      unfold dfs
      simp only
      set visited' : Nat → Bool := fun x => if x = i then true else visited x with hvis'
      rw [pushNbrs_eq]
      set ws := (List.range g.order).filter (fun j => hasEdge g i j && !visited' j) with hws
      obtain ⟨hin, hir⟩ := hs i (by simp)
      have hmem : ∀ w, w ∈ ws ↔ Adj es i w ∧ visited' w = false := by
        intro w
        rw [hws, List.mem_filter, Bool.and_eq_true, hasEdge_iff hr, List.mem_range, hr.order]
        constructor
        · rintro ⟨_, h2, h3⟩; exact ⟨h2, by simpa using h3⟩
        · rintro ⟨h2, h3⟩; exact ⟨(adj_range hr h2).2, h2, by simp [h3]⟩
      have hwlen : ws.length ≤ n := by
        have := List.length_filter_le (fun j => hasEdge g i j && !visited' j) (List.range g.order)
        rw [hr.order] at this; simpa [hws, hr.order] using this
      have hvis'_old : ∀ x, visited x = true → visited' x = true := by
        intro x hx; simp only [hvis']; split <;> simp_all
      -- a vertex popped a second time has no unvisited neighbour
      have hrevisit : visited i = true → ws = [] := by
        intro hi
        rw [List.eq_nil_iff_forall_not_mem]
        intro w hw
        obtain ⟨h1, h2⟩ := (hmem w).1 hw
        have : visited w = false := by
          simp only [hvis'] at h2; split at h2 <;> simp_all
        have := habove [] i stack rfl hi w h1 this
        cases this
      apply ih
      · -- fuel
        by_cases hi : visited i = true
        · have e : visited' = visited := by
            funext x; simp only [hvis']; split
            · rename_i e; rw [e, hi]
            · rfl
          rw [e, hrevisit hi]
          simp at hfuel ⊢; omega
        · have hlt : unvisited n visited' + 1 ≤ unvisited n visited := by
            unfold unvisited
            apply Finset.card_lt_card
            constructor
            · intro x hx
              simp only [Finset.mem_filter, hvis'] at hx ⊢
              split at hx
              · simp at hx
              · exact hx
            · intro hsub
              have : i ∈ (Finset.range n).filter (fun x => visited' x = false) :=
                hsub (by simp [hin, hi])
              simp [hvis'] at this
          have : (unvisited n visited' + 1) * (n + 1) ≤ unvisited n visited * (n + 1) :=
            Nat.mul_le_mul_right _ hlt
          rw [Nat.add_mul] at this
          simp only [List.length_cons, List.length_append, List.length_reverse] at hfuel ⊢
          omega
      · intro x hx
        rcases List.mem_append.1 hx with hx | hx
        · rw [List.mem_reverse, hmem] at hx
          exact ⟨(adj_range hr hx.1).2, hir.tail hx.1⟩
        · exact hs x (by simp [hx])
      · intro x hx
        by_cases e : x = i
        · subst e; exact ⟨hin, hir⟩
        · simp only [hvis', if_neg e] at hx; exact hv x hx
      · rcases h0 with h0 | h0
        · exact Or.inl (hvis'_old 0 h0)
        · rcases List.mem_cons.1 h0 with h0 | h0
          · left; simp [hvis', h0]
          · right; simp [h0]
      · intro v w hvv hvw
        by_cases hw : visited' w = true
        · exact Or.inl hw
        · have hwf : visited' w = false := by simpa using hw
          right
          by_cases e : v = i
          · subst e
            rw [List.mem_append, List.mem_reverse]
            exact Or.inl ((hmem w).2 ⟨hvw, hwf⟩)
          · simp only [hvis', if_neg e] at hvv
            rcases hclosed v w hvv hvw with h | h
            · exact absurd (hvis'_old w h) hw
            · rcases List.mem_cons.1 h with h | h
              · subst h; simp [hvis'] at hwf
              · simp [h]
      · intro pre v post hsplit hvv w hvw hwf
        -- v is not among the newly pushed (they are unvisited)
        have hpos : ∃ pre', stack = pre' ++ v :: post ∧ pre = ws.reverse ++ pre' := by
          rcases List.append_eq_append_iff.1 hsplit with ⟨as, h1, h2⟩ | ⟨bs, h1, h2⟩
          · exact ⟨as, h2, h1⟩
          · cases bs with
            | nil => simp at h2; exact ⟨[], by simp [h2], by simpa using h1.symm⟩
            | cons b bs =>
              simp at h2
              obtain ⟨rfl, _⟩ := h2
              have : v ∈ ws.reverse := by rw [h1]; simp
              rw [List.mem_reverse, hmem] at this
              rw [hvv] at this; cases this.2
        obtain ⟨pre', hp1, hp2⟩ := hpos
        rw [hp2, List.mem_append, List.mem_reverse]
        by_cases e : v = i
        · subst e; exact Or.inl ((hmem w).2 ⟨hvw, hwf⟩)
        · right
          have hvv' : visited v = true := by simpa [hvis', e] using hvv
          have hwf' : visited w = false := by
            cases h : visited w
            · rfl
            · rw [hvis'_old w h] at hwf; cases hwf
          have := habove (i :: pre') v post (by simp [hp1]) hvv' w hvw hwf'
          rcases List.mem_cons.1 this with h | h
          · subst h; simp [hvis'] at hwf
          · exact h

theorem isConnected_spec {g : G} {n : Nat} {es : List (Nat × Nat)} (hr : Rep g n es) (hn : 0 < n) :
    ∃ b, isConnected g = .ok b ∧ (b = true ↔ ∀ x, x < n → Reach es 0 x) := by
  have hu : unvisited n (fun _ => false) ≤ n := by
    unfold unvisited
    have := Finset.card_le_card (Finset.filter_subset (fun x => (fun _ : Nat => false) x = false) (Finset.range n))
    simpa using this
  have hu' := Nat.mul_le_mul_right (n + 1) hu
  obtain ⟨vis, h1, h2⟩ := dfs_spec hr hn (g.order * (g.order + 1) + 2) (fun _ => false) [0]
    (by rw [hr.order]; simp only [List.length_singleton]; omega)
    (by simp; exact ⟨hn, Relation.ReflTransGen.refl⟩) (by simp) (by simp) (by simp) (by simp)
  refine ⟨_, by simp only [isConnected, h1, Outcome.ok_bind, Outcome.pure_eq]; rfl, ?_⟩
  rw [List.all_eq_true]
  simp only [List.mem_range, hr.order, h2]

theorem reach_symm {es : List (Nat × Nat)} {a b : Nat} (h : Reach es a b) : Reach es b a := by
  induction h with
  | refl => exact Relation.ReflTransGen.refl
  | tail _ h2 ih => exact Relation.ReflTransGen.head (adj_symm h2) ih

/-! ### simplicity and degrees -/

theorem isSimple_iff {g : G} {n : Nat} {es : List (Nat × Nat)} (hr : Rep g n es) : isSimple g = true ↔ Simple es := by
  unfold isSimple Simple
  simp only [List.all_eq_true, List.mem_range, Bool.and_eq_true, decide_eq_true_eq, List.mem_range'_1,
    Bool.not_eq_true', decide_eq_false_iff_not, hr.order]
  have hloop : ∀ v, g.m v v = 0 ↔ (v, v) ∉ es := by
    intro v
    rw [hr.entry v v (Nat.le_refl v)]
    have := multiplicity_pos (es := es) (a := v) (b := v)
    unfold Adj at this
    rw [or_self] at this
    constructor
    · intro h hm; exact this.2 hm h
    · intro h; by_contra hne; exact h (this.1 hne)
  constructor
  · intro h
    have hl : ∀ v, (v, v) ∉ es := by
      intro v hv
      exact (hloop v).1 (h v (hr.range _ hv).1).1 hv
    refine ⟨hl, fun a b => ?_⟩
    by_cases hz : multiplicity es a b = 0
    · omega
    · have hab := multiplicity_pos.1 hz
      obtain ⟨ha, hb⟩ := adj_range hr hab
      rcases Nat.lt_trichotomy a b with hlt | heq | hlt
      · have := (h a ha).2 b ⟨by omega, by omega⟩
        rw [hr.entry a b (by omega)] at this; omega
      · subst heq
        have := (h a ha).1
        rw [hr.entry a a (Nat.le_refl a)] at this; omega
      · have := (h b hb).2 a ⟨by omega, by omega⟩
        rw [hr.entry b a (by omega), multiplicity_comm] at this; omega
  · rintro ⟨h1, h2⟩ i hi
    refine ⟨(hloop i).2 (h1 i), fun j hj => ?_⟩
    rw [hr.entry i j (by omega)]
    have := h2 i j; omega

theorem foldl_max_le (l : List Nat) (f : Nat → Int) (a k : Int) :
    l.foldl (fun d i => max d (f i)) a ≤ k ↔ a ≤ k ∧ ∀ i ∈ l, f i ≤ k := by
  induction l generalizing a with
  | nil => simp
  | cons x l ih => simp only [List.foldl_cons, ih, List.mem_cons, forall_eq_or_imp, max_le_iff, and_assoc]

theorem le_foldl_min (l : List Nat) (f : Nat → Int) (a k : Int) :
    k ≤ l.foldl (fun d i => min d (f i)) a ↔ k ≤ a ∧ ∀ i ∈ l, k ≤ f i := by
  induction l generalizing a with
  | nil => simp
  | cons x l ih => simp only [List.foldl_cons, ih, List.mem_cons, forall_eq_or_imp, le_min_iff, and_assoc]

/-! ### connected_components -/

def uncolored (n : Nat) (c : Nat → Option Nat) : Nat := ((Finset.range n).filter (fun x => c x = none)).card

theorem uncolored_set {n : Nat} {c : Nat → Option Nat} {j k : Nat} (hj : j < n) (hn : c j = none) :
    uncolored n (fun x => if x = j then some k else c x) + 1 = uncolored n c := by
  unfold uncolored
  have : (Finset.range n).filter (fun x => (if x = j then some k else c x) = none)
      = ((Finset.range n).filter (fun x => c x = none)).erase j := by
    ext x
    simp only [Finset.mem_filter, Finset.mem_erase]
    by_cases e : x = j
    · simp [e]
    · simp [e]
  rw [this, Finset.card_erase_of_mem (by simp [hj, hn])]
  have : 0 < ((Finset.range n).filter (fun x => c x = none)).card :=
    Finset.card_pos.2 ⟨j, by simp [hj, hn]⟩
  omega

/-- Effect of the marking loop over a duplicate-free list of candidates. -/
theorem mark_fold (g : G) (i k n : Nat) (l : List Nat) (hl : l.Nodup) (hln : ∀ x ∈ l, x < n)
    (c : Nat → Option Nat) (st : List Nat) :
    ∃ c' st', l.foldl (fun (st : (Nat → Option Nat) × List Nat) j =>
        if hasEdge g i j && (st.1 j).isNone then (fun x => if x = j then some k else st.1 x, j :: st.2) else st) (c, st)
        = (c', st') ∧
      (∀ x, c' x = if x ∈ l ∧ hasEdge g i x = true ∧ c x = none then some k else c x) ∧
      (∀ x, x ∈ st' ↔ x ∈ st ∨ (x ∈ l ∧ hasEdge g i x = true ∧ c x = none)) ∧
      uncolored n c' + st'.length = uncolored n c + st.length := by
  induction l generalizing c st with
  | nil => exact ⟨c, st, rfl, by simp, by simp, rfl⟩
  | cons j l ih =>
    rw [List.nodup_cons] at hl
    simp only [List.foldl_cons]
    by_cases hc : (hasEdge g i j && (c j).isNone) = true
    · rw [if_pos hc]
      rw [Bool.and_eq_true, Option.isNone_iff_eq_none] at hc
      obtain ⟨c', st', e1, e2, e3, e4⟩ := ih hl.2 (fun x hx => hln x (by simp [hx]))
        (fun x => if x = j then some k else c x) (j :: st)
      refine ⟨c', st', e1, ?_, ?_, ?_⟩
      · intro x
        rw [e2 x]
        by_cases e : x = j
        · subst e; simp [hl.1, hc.1, hc.2]
        · simp [e]
      · intro x
        rw [e3 x]
        by_cases e : x = j
        · subst e; simp [hc.1, hc.2]
        · simp [e]
      · have := uncolored_set (n := n) (k := k) (hln j (by simp)) hc.2
        simp only [List.length_cons] at e4; omega
    · rw [if_neg hc]
      have hc' : ¬ (hasEdge g i j = true ∧ c j = none) := by
        rw [Bool.and_eq_true, Option.isNone_iff_eq_none] at hc; exact hc
      obtain ⟨c', st', e1, e2, e3, e4⟩ := ih hl.2 (fun x hx => hln x (by simp [hx])) c st
      refine ⟨c', st', e1, ?_, ?_, e4⟩
      · intro x
        rw [e2 x]
        by_cases e : x = j
        · subst e; simp only [hl.1, false_and, if_false, List.mem_cons, true_or, true_and]; rw [if_neg hc']
        · simp [e]
      · intro x
        rw [e3 x]
        by_cases e : x = j
        · subst e; simp only [hl.1, false_and, or_false, List.mem_cons, true_or, true_and]
          constructor
          · exact Or.inl
          · rintro (h | h)
            · exact h
            · exact absurd h hc'
        · simp [e]

theorem flood_spec {g : G} {n : Nat} {es : List (Nat × Nat)} (hr : Rep g n es) (k s : Nat)
    (c0 : Nat → Option Nat) (hdom : ∀ v w, Adj es v w → (c0 v).isSome → (c0 w).isSome)
    (fuel : Nat) (c : Nat → Option Nat) (stack : List Nat)
    (hfuel : uncolored n c + stack.length < fuel)
    (hval : ∀ x, c x = c0 x ∨ (c x = some k ∧ c0 x = none ∧ Reach es s x))
    (hs : c s = some k ∧ c0 s = none)
    (hstack : ∀ x ∈ stack, c x = some k ∧ c0 x = none)
    (hclosed : ∀ v w, c v = some k → c0 v = none → Adj es v w → v ∈ stack ∨ (c w).isSome) :
    ∃ c', flood g k fuel c stack = .ok c' ∧
      (∀ x, Reach es s x → c' x = some k) ∧ (∀ x, ¬ Reach es s x → c' x = c0 x) ∧
      (∀ x, Reach es s x → c0 x = none) := by
  induction fuel generalizing c stack with
  | zero => omega
  | succ fuel ih =>
    cases stack with
    | nil =>
      have hreach : ∀ x, Reach es s x → c x = some k ∧ c0 x = none := by
        intro x hx
        induction hx with
        | refl => exact hs
        | @tail y z _ h2 ih2 =>
          have h3 := hclosed y z ih2.1 ih2.2 h2
          have h3' : (c z).isSome := by simpa using h3
          rcases hval z with h4 | h4
          · rw [h4] at h3'
            have := hdom z y (adj_symm h2) h3'
            rw [ih2.2] at this; cases this
          · exact ⟨h4.1, h4.2.1⟩
      refine ⟨c, by simp [flood], fun x hx => (hreach x hx).1, fun x hx => ?_, fun x hx => (hreach x hx).2⟩
      rcases hval x with h | h
      · exact h
      · exact absurd h.2.2 hx
    | cons i stack =>
      unfold flood
      obtain ⟨c', st', e1, e2, e3, e4⟩ := mark_fold g i k n (List.range g.order) List.nodup_range
        (by intro x hx; rw [List.mem_range, hr.order] at hx; exact hx) c stack
      have e1' : markNbrs g i k c stack = (c', st') := e1
      simp only [e1']
      have hi := hstack i (by simp)
      have hir : Reach es s i := by
        rcases hval i with h | h
        · rw [h, hi.2] at hi; cases hi.1
        · exact h.2.2
      have hmono : ∀ x, (c x).isSome → c' x = c x := by
        intro x hx; rw [e2 x, if_neg]; rintro ⟨_, _, h⟩; rw [h] at hx; cases hx
      have hnew : ∀ x, c x = none → c0 x = none := by
        intro x hx
        rcases hval x with h | h
        · rw [← h]; exact hx
        · exact h.2.1
      apply ih
      · simp only [List.length_cons] at hfuel; omega
      · intro x
        rw [e2 x]
        split
        · rename_i h
          exact Or.inr ⟨rfl, hnew x h.2.2, hir.tail ((hasEdge_iff hr i x).1 h.2.1)⟩
        · exact hval x
      · exact ⟨by rw [hmono s (by simp [hs.1]), hs.1], hs.2⟩
      · intro x hx
        rw [e3 x] at hx
        rcases hx with hx | hx
        · have := hstack x (by simp [hx])
          exact ⟨by rw [hmono x (by simp [this.1]), this.1], this.2⟩
        · exact ⟨by rw [e2 x, if_pos hx], hnew x hx.2.2⟩
      · intro v w hv hv0 hvw
        by_cases hnewv : c v = some k
        · rcases hclosed v w hnewv hv0 hvw with h | h
          · rcases List.mem_cons.1 h with h | h
            · subst h
              right
              rw [e2 w]
              split
              · rfl
              · rename_i hno
                have hwn := (adj_range hr hvw).2
                cases hcw : c w with
                | some _ => rfl
                | none =>
                  exact absurd ⟨by rw [List.mem_range, hr.order]; exact hwn, (hasEdge_iff hr v w).2 hvw, hcw⟩ hno
            · left; rw [e3 v]; exact Or.inl h
          · right; rw [hmono w h]; exact h
        · left
          rw [e2 v] at hv
          split at hv
          · rename_i h; rw [e3 v]; exact Or.inr h
          · exact absurd hv hnewv

/-- State of the outer loop: `ss` are the start vertices found so far. -/
structure CInv (n : Nat) (es : List (Nat × Nat)) (s count : Nat) (c : Nat → Option Nat) (ss : List Nat) : Prop where
  len : ss.length = count
  sorted : ss.Pairwise (· < ·)
  below : ∀ a ∈ ss, a < s
  color : ∀ x k, c x = some k ↔ ∃ a, ss[k]? = some a ∧ Reach es a x
  seen : ∀ x, x < s → (c x).isSome
  minimal : ∀ a ∈ ss, ∀ x, Reach es a x → a ≤ x

theorem componentsLoop_spec {g : G} {n : Nat} {es : List (Nat × Nat)} (hr : Rep g n es) (k s count : Nat)
    (hks : s + k = n) (c : Nat → Option Nat) (ss : List Nat) (hi : CInv n es s count c ss) :
    ∃ c' count' ss', componentsLoop g k s count c = .ok (c', count') ∧ CInv n es n count' c' ss' := by
  induction k generalizing s count c ss with
  | zero =>
    have : s = n := by omega
    subst this
    exact ⟨c, count, ss, rfl, hi⟩
  | succ k ih =>
    unfold componentsLoop
    by_cases hc : (c s).isSome
    · rw [if_pos hc]
      apply ih (s + 1) count (by omega) c ss
      refine ⟨hi.len, hi.sorted, fun a ha => by have := hi.below a ha; omega, hi.color, ?_, hi.minimal⟩
      intro x hx
      by_cases e : x = s
      · subst e; exact hc
      · exact hi.seen x (by omega)
    · rw [if_neg hc]
      have hcn : c s = none := by simpa using hc
      have hdom : ∀ v w, Adj es v w → (c v).isSome → (c w).isSome := by
        intro v w hvw hv
        obtain ⟨kk, hk⟩ := Option.isSome_iff_exists.1 hv
        obtain ⟨a, h1, h2⟩ := (hi.color v kk).1 hk
        rw [(hi.color w kk).2 ⟨a, h1, h2.tail hvw⟩]; rfl
      have hun : uncolored n (fun x => if x = s then some count else c x) ≤ n := by
        unfold uncolored
        have := Finset.card_le_card (Finset.filter_subset
          (fun x => (if x = s then some count else c x) = none) (Finset.range n))
        simpa using this
      obtain ⟨c', h1, h2, h3, h4⟩ := flood_spec hr count s c hdom (g.order + 2)
        (fun x => if x = s then some count else c x) [s]
        (by rw [hr.order]; simp only [List.length_singleton]; omega)
        (by intro x
            by_cases e : x = s
            · subst e; right; exact ⟨by simp, hcn, Relation.ReflTransGen.refl⟩
            · left; simp [e])
        (by simp [hcn]) (by simp [hcn])
        (by intro v w hv hv0 hvw
            by_cases e : v = s
            · left; simp [e]
            · simp only [if_neg e] at hv; rw [hv0] at hv; cases hv)
      simp only [h1, Outcome.ok_bind]
      apply ih (s + 1) (count + 1) (by omega) c' (ss ++ [s])
      have hsn : ∀ x, Reach es s x → s ≤ x := by
        intro x hx
        by_contra hlt
        have := hi.seen x (by omega)
        rw [h4 x hx] at this; cases this
      refine ⟨by simp [hi.len], ?_, ?_, ?_, ?_, ?_⟩
      · rw [List.pairwise_append]
        refine ⟨hi.sorted, by simp, ?_⟩
        intro a ha b hb; simp at hb; subst hb; exact hi.below a ha
      · intro a ha
        rcases List.mem_append.1 ha with ha | ha
        · have := hi.below a ha; omega
        · simp at ha; omega
      · intro x kk
        by_cases hx : Reach es s x
        · rw [h2 x hx]
          constructor
          · intro e
            obtain rfl : count = kk := by simpa using e
            exact ⟨s, by simp [← hi.len], hx⟩
          · rintro ⟨a, ha, hax⟩
            rw [List.getElem?_append] at ha
            split at ha
            · have := (hi.color x kk).2 ⟨a, ha, hax⟩
              rw [h4 x hx] at this; cases this
            · have := (List.getElem?_eq_some_iff.1 ha).1
              simp at this
              rw [← hi.len]; congr 1; omega
        · rw [h3 x hx, hi.color]
          constructor
          · rintro ⟨a, ha, hax⟩
            refine ⟨a, ?_, hax⟩
            rw [List.getElem?_append_left (List.getElem?_eq_some_iff.1 ha).1]; exact ha
          · rintro ⟨a, ha, hax⟩
            rw [List.getElem?_append] at ha
            split at ha
            · exact ⟨a, ha, hax⟩
            · have := List.mem_of_getElem? ha
              simp at this; subst this; exact absurd hax hx
      · intro x hx
        by_cases hxr : Reach es s x
        · rw [h2 x hxr]; rfl
        · rw [h3 x hxr]
          by_cases e : x = s
          · subst e; exact absurd Relation.ReflTransGen.refl hxr
          · exact hi.seen x (by omega)
      · intro a ha x hax
        rcases List.mem_append.1 ha with ha | ha
        · exact hi.minimal a ha x hax
        · simp at ha; subst ha; exact hsn x hax

theorem distribute_spec (c : Nat → Option Nat) (count : Nat) (done todo : List Nat)
    (h : ∀ x ∈ todo, ∃ k, c x = some k ∧ k < count) :
    distribute c todo ((List.range count).map (fun k => done.filter (fun x => decide (c x = some k))))
      = .ok ((List.range count).map (fun k => (done ++ todo).filter (fun x => decide (c x = some k)))) := by
  induction todo generalizing done with
  | nil => simp [distribute]
  | cons i is ih =>
    obtain ⟨k, hk, hlt⟩ := h i (by simp)
    unfold distribute
    simp only [hk, List.length_map, List.length_range, if_pos hlt]
    have : ((List.range count).map (fun k => done.filter (fun x => decide (c x = some k)))).modify k (fun g => g ++ [i])
        = (List.range count).map (fun k => (done ++ [i]).filter (fun x => decide (c x = some k))) := by
      apply List.ext_getElem?
      intro q
      rw [List.getElem?_modify]
      simp only [List.getElem?_map, List.filter_append]
      by_cases hq : q < count
      · rw [List.getElem?_range hq]
        by_cases e : k = q
        · subst e; simp [hk]
        · have : ¬ (some k = some q) := by simpa using e
          simp [e, hk]
      · rw [List.getElem?_eq_none (by simpa using hq)]; rfl
    rw [this, ih (done ++ [i]) (fun x hx => h x (by simp [hx]))]
    simp

theorem connectedComponents_spec {g : G} {n : Nat} {es : List (Nat × Nat)} (hr : Rep g n es) :
    ∃ gs, connectedComponents g = .ok gs ∧ IsClasses n (Reach es) gs := by
  obtain ⟨c, count, ss, h1, hi⟩ := componentsLoop_spec hr n 0 0 (by omega) (fun _ => none) []
    ⟨rfl, by simp, by simp, by simp, by simp, by simp⟩
  have hd := distribute_spec c count [] (List.range n) (by
    intro x hx
    have hx := hi.seen x (by simpa using hx)
    obtain ⟨k, hk⟩ := Option.isSome_iff_exists.1 hx
    obtain ⟨a, ha, _⟩ := (hi.color x k).1 hk
    have := (List.getElem?_eq_some_iff.1 ha).1
    exact ⟨k, hk, by rw [← hi.len]; exact this⟩)
  have hrep : (List.range count).map (fun k => ([] : List Nat).filter (fun x => decide (c x = some k)))
      = List.replicate count [] := by
    rw [List.eq_replicate_iff]; simp
  rw [hrep, List.nil_append] at hd
  refine ⟨(List.range count).map (fun k => (List.range n).filter (fun x => decide (c x = some k))), ?_, ?_⟩
  · rw [connectedComponents, hr.order, h1]; simpa using hd
  have hcol : ∀ x, x < n → ∃ k, k < count ∧ c x = some k := by
    intro x hx
    obtain ⟨k, hk⟩ := Option.isSome_iff_exists.1 (hi.seen x hx)
    obtain ⟨a, ha, _⟩ := (hi.color x k).1 hk
    have := (List.getElem?_eq_some_iff.1 ha).1
    exact ⟨k, by rw [← hi.len]; exact this, hk⟩
  refine ⟨?_, ?_, ?_, ?_, ?_⟩
  · apply (List.perm_ext_iff_of_nodup ?_ List.nodup_range).2
    · intro x
      simp only [List.mem_flatten, List.mem_map, List.mem_range]
      constructor
      · rintro ⟨_, ⟨k, _, rfl⟩, h2⟩
        simpa using (List.mem_filter.1 h2).1
      · intro hx
        obtain ⟨k, hk1, hk2⟩ := hcol x hx
        exact ⟨_, ⟨k, hk1, rfl⟩, by rw [List.mem_filter]; exact ⟨by simpa using hx, by simp [hk2]⟩⟩
    · rw [List.nodup_flatten]
      constructor
      · intro gg hg
        simp only [List.mem_map] at hg
        obtain ⟨r, _, rfl⟩ := hg
        exact List.nodup_range.filter _
      · rw [List.pairwise_map]
        apply List.nodup_range.imp
        intro a b hab x hxa hxb
        simp only [List.mem_filter, decide_eq_true_eq] at hxa hxb
        rw [hxa.2] at hxb
        exact hab (by simpa using hxb.2)
  · intro i j hin hjn
    simp only [List.mem_map, List.mem_range]
    constructor
    · rintro ⟨_, ⟨k, _, rfl⟩, h2, h3⟩
      simp only [List.mem_filter, decide_eq_true_eq] at h2 h3
      obtain ⟨a, ha, hai⟩ := (hi.color i k).1 h2.2
      obtain ⟨b, hb, hbj⟩ := (hi.color j k).1 h3.2
      rw [ha] at hb
      obtain rfl : a = b := by simpa using hb
      exact (reach_symm hai).trans hbj
    · intro hij
      obtain ⟨k, hk1, hk2⟩ := hcol i hin
      obtain ⟨a, ha, hai⟩ := (hi.color i k).1 hk2
      refine ⟨_, ⟨k, hk1, rfl⟩, ?_, ?_⟩
      · simp [List.mem_filter, hin, hk2]
      · simp only [List.mem_filter, List.mem_range, decide_eq_true_eq]
        exact ⟨hjn, (hi.color j k).2 ⟨a, ha, hai.trans hij⟩⟩
  · intro gg hg
    simp only [List.mem_map] at hg
    obtain ⟨r, _, rfl⟩ := hg
    exact List.pairwise_lt_range.filter _
  · intro gg hg
    simp only [List.mem_map, List.mem_range] at hg
    obtain ⟨k, hk, rfl⟩ := hg
    obtain ⟨a, ha⟩ : ∃ a, ss[k]? = some a := ⟨ss[k]'(by rw [hi.len]; exact hk), by simp⟩
    have hmem := List.mem_of_getElem? ha
    intro e
    have : a ∈ (List.range n).filter (fun x => decide (c x = some k)) := by
      simp only [List.mem_filter, List.mem_range, decide_eq_true_eq]
      exact ⟨hi.below a hmem, (hi.color a k).2 ⟨a, ha, Relation.ReflTransGen.refl⟩⟩
    rw [e] at this; cases this
  · -- the head of group k is the start vertex ss[k]
    have hhead : ∀ k, ∀ hk : k < count,
        ((List.range n).filter (fun x => decide (c x = some k))).headD 0 = ss[k]'(by rw [hi.len]; exact hk) := by
      intro k hk
      have ha : ss[k]? = some (ss[k]'(by rw [hi.len]; exact hk)) := by simp
      generalize ss[k]'(by rw [hi.len]; exact hk) = a at ha ⊢
      have hmem := List.mem_of_getElem? ha
      have hain : a ∈ (List.range n).filter (fun x => decide (c x = some k)) := by
        simp only [List.mem_filter, List.mem_range, decide_eq_true_eq]
        exact ⟨hi.below a hmem, (hi.color a k).2 ⟨a, ha, Relation.ReflTransGen.refl⟩⟩
      have hsorted : ((List.range n).filter (fun x => decide (c x = some k))).Pairwise (· < ·) :=
        List.pairwise_lt_range.filter _
      have hmin : ∀ x ∈ (List.range n).filter (fun x => decide (c x = some k)), a ≤ x := by
        intro x hx
        simp only [List.mem_filter, List.mem_range, decide_eq_true_eq] at hx
        obtain ⟨b, hb, hbx⟩ := (hi.color x k).1 hx.2
        rw [ha] at hb
        obtain rfl : a = b := by simpa using hb
        exact hi.minimal a hmem x hbx
      generalize (List.range n).filter (fun x => decide (c x = some k)) = l at hain hsorted hmin
      cases l with
      | nil => cases hain
      | cons y l =>
        simp only [List.headD_cons]
        have h1 := hmin y (by simp)
        rcases List.mem_cons.1 hain with h | h
        · exact h.symm
        · have := (List.pairwise_cons.1 hsorted).1 a h; omega
    rw [List.map_map, List.pairwise_map]
    rw [List.pairwise_iff_getElem]
    intro i j hi' hj' hij
    simp only [List.length_range] at hi' hj'
    simp only [List.getElem_range, Function.comp]
    rw [hhead i hi', hhead j hj']
    exact List.pairwise_iff_getElem.1 hi.sorted i j _ _ hij

end Verif.Graph
