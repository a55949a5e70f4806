import Verif.Model.FineGrid
import Verif.Props.CoarsePoints
import Mathlib.Tactic.Linarith
import Mathlib.Tactic.NormNum
import Mathlib.Tactic.FinCases
import Mathlib.LinearAlgebra.Matrix.Notation
import Mathlib.Data.Matrix.ColumnRowPartitioned

/-! # C24 (schedule independence), C25 (packing), C26 (subgrid solves) -/

namespace Verif.FineGrid

open Verif DomainDivider

/-! ## C25 -/

/-- offset of a packed row -/
theorem tri_succ (r : Nat) : (r + 1) * (r + 1 + 1) / 2 = r * (r + 1) / 2 + (r + 1) := by
  have h : (r + 1) * (r + 1 + 1) = r * (r + 1) + 2 * (r + 1) := by ring
  rw [h, Nat.add_mul_div_left _ _ (by omega)]

theorem tri_le {n r : Nat} (hn : 3 ≤ n) (h1 : 1 ≤ r) (hr : r < n) : r * (r + 1) / 2 + (r + 1) ≤ r * n := by
  rw [← tri_succ]
  have h : (r + 1) * (r + 1 + 1) ≤ 2 * (r * n) := by
    rcases Nat.lt_or_ge r 2 with h2 | h2
    · have : r = 1 := by omega
      subst this
      omega
    · have h3 : r * (r + 1) ≤ r * n := Nat.mul_le_mul_left r hr
      nlinarith
  omega

theorem tri_mono {r s : Nat} (h : r ≤ s) : r * (r + 1) / 2 ≤ s * (s + 1) / 2 :=
  Nat.div_le_div_right (Nat.mul_le_mul h (by omega))

theorem row_in {n r : Nat} (hr : r < n) : r * n + (r + 1) ≤ n * n := by
  have : (r + 1) * n ≤ n * n := Nat.mul_le_mul_right n hr
  nlinarith

theorem range_drop_one_reverse (n : Nat) :
    ((List.range (n + 1)).drop 1).reverse = (List.range n).map (fun k => n - k) := by
  apply List.ext_getElem
  · simp
  · intro i h1 h2
    simp at h1 h2
    simp
    omega

theorem packLoop_spec {α : Type} {n : Nat} (hn : 3 ≤ n) (mem0 : Nat → α) : ∀ (k r : Nat) (mem : Nat → α), 1 ≤ r → r + k = n →
    (∀ i j, i < r → j ≤ i → mem (i * (i + 1) / 2 + j) = mem0 (i * n + j)) →
    (∀ p, r * (r + 1) / 2 ≤ p → mem p = mem0 p) →
    ∃ out, packLoop n ((List.range k).map (fun t => r + t)) mem = .ok out ∧
      ∀ i j, i < n → j ≤ i → out (i * (i + 1) / 2 + j) = mem0 (i * n + j) := by
  intro k
  induction k with
  | zero =>
      intro r mem hr hk h1 h2
      exact ⟨mem, rfl, fun i j hi hj => h1 i j (by omega) hj⟩
  | succ k ih =>
      intro r mem hr hk h1 h2
      have hle := tri_le hn hr (show r < n by omega)
      have hin := row_in (show r < n by omega)
      have hmem : memcpy (n * n) mem (r * (r + 1) / 2) (r * n) (r + 1) =
          .ok (fun p => if r * (r + 1) / 2 ≤ p ∧ p < r * (r + 1) / 2 + (r + 1) then mem (r * n + (p - r * (r + 1) / 2)) else mem p) := by
        unfold memcpy
        rw [if_neg (by omega), if_neg (by omega)]
      have hlist : (List.range (k + 1)).map (fun t => r + t) = r :: (List.range k).map (fun t => r + 1 + t) := by
        rw [List.range_succ_eq_map, List.map_cons, List.map_map]
        congr 1
        apply List.map_congr_left
        intro t _
        simp only [Function.comp]; omega
      obtain ⟨out, ho, hspec⟩ := ih (r + 1)
        (fun p => if r * (r + 1) / 2 ≤ p ∧ p < r * (r + 1) / 2 + (r + 1) then mem (r * n + (p - r * (r + 1) / 2)) else mem p)
        (by omega) (by omega) (by
          intro i j hi hj
          rcases Nat.lt_or_ge i r with h | h
          · have h3 := tri_mono (show i + 1 ≤ r by omega)
            rw [tri_succ] at h3
            rw [if_neg (by omega)]
            exact h1 i j h hj
          · have : i = r := by omega
            subst this
            rw [if_pos (by omega), h2 _ (by omega)]
            congr 1; omega) (by
          intro p hp
          rw [tri_succ] at hp
          rw [if_neg (by omega)]
          exact h2 p (by omega))
      refine ⟨out, ?_, hspec⟩
      rw [hlist]
      simp only [packLoop, hmem, Outcome.ok_bind]
      exact ho

theorem unpackLoop_spec {α : Type} {n : Nat} (hn : 3 ≤ n) (mem0 : Nat → α) : ∀ (r : Nat) (mem : Nat → α), r < n →
    (∀ i j, i ≤ r → j ≤ i → mem (i * (i + 1) / 2 + j) = mem0 (i * n + j)) →
    (∀ i j, r < i → i < n → j ≤ i → mem (i * n + j) = mem0 (i * n + j)) →
    ∃ out, unpackLoop n ((List.range r).map (fun k => r - k)) mem = .ok out ∧
      ∀ i j, i < n → j ≤ i → out (i * n + j) = mem0 (i * n + j) := by
  intro r
  induction r with
  | zero =>
      intro mem hr h1 h2
      refine ⟨mem, rfl, ?_⟩
      intro i j hi hj
      rcases Nat.eq_zero_or_pos i with rfl | h
      · simpa using h1 0 j (by omega) hj
      · exact h2 i j h hi hj
  | succ r ih =>
      intro mem hr h1 h2
      have hle := tri_le hn (show 1 ≤ r + 1 by omega) hr
      have hin := row_in hr
      set s := r + 1 with hs
      have hmem : memcpy (n * n) mem (s * n) (s * (s + 1) / 2) (s + 1) =
          .ok (fun p => if s * n ≤ p ∧ p < s * n + (s + 1) then mem (s * (s + 1) / 2 + (p - s * n)) else mem p) := by
        unfold memcpy
        rw [if_neg (by omega), if_neg (by omega)]
      have hlist : (List.range s).map (fun k => s - k) = s :: (List.range r).map (fun k => r - k) := by
        rw [hs, List.range_succ_eq_map, List.map_cons, List.map_map]
        congr 1
        apply List.map_congr_left
        intro t _
        simp only [Function.comp]; omega
      obtain ⟨out, ho, hspec⟩ := ih
        (fun p => if s * n ≤ p ∧ p < s * n + (s + 1) then mem (s * (s + 1) / 2 + (p - s * n)) else mem p)
        (by omega) (by
          intro i j hi hj
          have h3 := tri_mono (show i + 1 ≤ s by omega)
          rw [tri_succ] at h3
          rw [if_neg (by omega)]
          exact h1 i j (by omega) hj) (by
          intro i j hi hin' hj
          rcases Nat.eq_or_lt_of_le (show s ≤ i by omega) with h | h
          · rw [← h] at hj ⊢
            rw [if_pos (by omega)]
            rw [← h1 s j le_rfl hj]
            congr 1; omega
          · have h3 : (s + 1) * n ≤ i * n := Nat.mul_le_mul_right n h
            have h4 : (s + 1) * n = s * n + n := by ring
            rw [if_neg (by omega)]
            exact h2 i j h hin' hj)
      refine ⟨out, ?_, hspec⟩
      rw [hlist]
      simp only [unpackLoop, hmem, Outcome.ok_bind]
      exact ho

theorem range_drop_one (n : Nat) : (List.range n).drop 1 = (List.range (n - 1)).map (fun t => 1 + t) := by
  cases n with
  | zero => rfl
  | succ n =>
      rw [List.range_succ_eq_map]
      simp only [List.drop_one, List.tail_cons, Nat.add_sub_cancel]
      apply List.map_congr_left
      intro t _; omega

/-- C25: packing the lower triangle of an `n * n` factor in place, sending the first `n (n + 1) / 2` doubles through the
cache into a fresh buffer (whose other entries are arbitrary), and unpacking in place restores every entry of the lower
triangle, without touching memory outside the matrix and without overlapping copies - for every order other than 2. -/
theorem C25_round_trip {α : Type} {n : Nat} (hn : n ≠ 2) (mem : Nat → α) :
    ∃ packed, pack n mem = .ok packed ∧
      ∀ fresh : Nat → α, (∀ k, k < packedSize n → fresh k = packed k) →
        ∃ out, unpack n fresh = .ok out ∧ ∀ i j, i < n → j ≤ i → out (i * n + j) = mem (i * n + j) := by
  rcases Nat.lt_or_ge n 3 with h | h
  · have : n = 0 ∨ n = 1 := by omega
    rcases this with rfl | rfl
    · exact ⟨mem, rfl, fun fresh _ => ⟨fresh, rfl, fun i j hi _ => by omega⟩⟩
    · refine ⟨mem, rfl, fun fresh hf => ⟨fresh, rfl, fun i j hi hj => ?_⟩⟩
      have : i = 0 ∧ j = 0 := by omega
      rw [this.1, this.2]
      exact hf 0 (by simp [packedSize])
  · obtain ⟨packed, hp, hspec⟩ := packLoop_spec h mem (n - 1) 1 mem le_rfl (by omega) (by
      intro i j hi hj
      have : i = 0 ∧ j = 0 := by omega
      rw [this.1, this.2]; simp) (fun p _ => rfl)
    refine ⟨packed, by rw [pack, range_drop_one]; exact hp, ?_⟩
    intro fresh hf
    obtain ⟨m, rfl⟩ : ∃ m, n = m + 1 := ⟨n - 1, by omega⟩
    obtain ⟨out, ho, hout⟩ := unpackLoop_spec h mem m fresh (by omega) (by
      intro i j hi hj
      rw [hf, hspec i j (by omega) hj]
      have h3 := tri_mono (show i + 1 ≤ m + 1 by omega)
      rw [tri_succ] at h3
      simp only [packedSize]
      omega) (by intro i j hi hi' _; omega)
    exact ⟨out, by rw [unpack, range_drop_one_reverse]; exact ho, hout⟩

/-- C25: for order 2 the source and destination of the single `memcpy` overlap, in both directions. -/
theorem C25_order_two_overlaps {α : Type} (mem : Nat → α) : pack 2 mem = .ub ∧ unpack 2 mem = .ub := by
  constructor <;> rfl

/-- C25: a subgrid that results from an actual division never has order 2: with at most 10 polynomial points the reduced
system has order at least 756. -/
theorem C25_divided_domains_are_large {env : Env} (he : env.Ok) {pts grads poly : List Nat} (hpts : pts.Nodup)
    (hgr : grads.Nodup) (hpoly : poly.Nodup) (hl : poly.length ≤ 10)
    (hbig : 1024 < pts.length + env.dim * grads.length) :
    ∃ n ds, (∀ fuel, n < fuel → domains env fuel pts grads poly = some (.ok ds)) ∧
      ∀ d ∈ ds, 756 ≤ d.pts.length + env.dim * d.grads.length - poly.length := by
  obtain ⟨n, ds, h1, _, _, h4⟩ := C22_division he hpts hgr hpoly
  refine ⟨n, ds, h1, ?_⟩
  intro d hd
  obtain ⟨_, _, _, _, _, _, _, h⟩ := h4 d hd
  have := h hbig
  omega

/-! ## C24 -/

theorem interleaving_perm {α : Type} {ts : List (List α)} {s : List α} (h : Interleaving ts s) : s.Perm ts.flatten := by
  induction h with
  | done ts hts => rw [List.flatten_eq_nil_iff.2 hts]
  | step pre post x t s _ ih =>
      rw [List.flatten_append, List.flatten_cons] at ih ⊢
      exact (ih.cons x).trans List.perm_middle.symm

theorem assignAll_not_mem {α : Type} (ps : List (Nat × α)) (k : Nat) : ∀ w : Nat → α, (∀ p ∈ ps, p.1 ≠ k) →
    assignAll w ps k = w k := by
  induction ps with
  | nil => intro w _; rfl
  | cons p ps ih =>
      intro w h
      show assignAll (assign w p) ps k = w k
      rw [ih _ (fun q hq => h q (by simp [hq]))]
      have := h p (by simp)
      simp [assign, this.symm]

theorem assignAll_mem {α : Type} (ps : List (Nat × α)) (k : Nat) (v : α) : ∀ w : Nat → α, (ps.map Prod.fst).Nodup →
    (k, v) ∈ ps → assignAll w ps k = v := by
  induction ps with
  | nil => intro w _ h; simp at h
  | cons p ps ih =>
      intro w hn h
      rw [List.map_cons, List.nodup_cons] at hn
      show assignAll (assign w p) ps k = v
      rcases List.mem_cons.1 h with h | h
      · rw [assignAll_not_mem]
        · simp [assign, ← h]
        · intro q hq hqk
          apply hn.1
          rw [← h]
          exact List.mem_map.2 ⟨q, hq, hqk⟩
      · exact ih _ hn.2 h

theorem assignAll_perm {α : Type} {ps qs : List (Nat × α)} (h : ps.Perm qs) (hn : (ps.map Prod.fst).Nodup) (w : Nat → α) :
    assignAll w ps = assignAll w qs := by
  have hn' := (h.map Prod.fst).nodup_iff.1 hn
  funext k
  by_cases hk : ∃ v, (k, v) ∈ ps
  · obtain ⟨v, hv⟩ := hk
    rw [assignAll_mem ps k v w hn hv, assignAll_mem qs k v w hn' (h.mem_iff.1 hv)]
  · have h1 : ∀ p ∈ ps, p.1 ≠ k := by
      intro p hp hpk
      exact hk ⟨p.2, by rw [← hpk]; exact hp⟩
    rw [assignAll_not_mem ps k w h1, assignAll_not_mem qs k w (fun p hp => h1 p (h.mem_iff.2 hp))]

/-- positions of the value part a domain writes to -/
theorem writes_fst (dim muFull : Nat) {α : Type} (d : Domain) (lam : Nat → α) :
    (writes dim muFull d lam).map Prod.fst =
      (d.pts.filter (fun p => p.2)).map Prod.fst ++
        ((d.grads.filter (fun p => p.2)).map Prod.fst).flatMap (fun i => (List.range dim).map (fun k => muFull + dim * i + k)) := by
  have h : ∀ (l : List (Nat × Bool)) (k : Nat), (l.zipIdx k).filter (fun p => p.1.2) =
      ((l.zipIdx k).filter (fun p => p.1.2)) := fun _ _ => rfl
  have hz : ∀ (l : List (Nat × Bool)) (k : Nat), ((l.zipIdx k).filter (fun p => p.1.2)).map (fun p => p.1) =
      l.filter (fun p => p.2) := by
    intro l
    induction l with
    | nil => intro k; rfl
    | cons a l ih =>
        intro k
        simp only [List.zipIdx_cons, List.filter_cons]
        by_cases ha : a.2
        · simp [ha, ih]
        · simp [ha, ih]
  have hz' : ∀ l : List (Nat × Bool), ((l.zipIdx).filter (fun p => p.1.2)).map (fun p => p.1.1) =
      (l.filter (fun p => p.2)).map Prod.fst := by
    intro l
    rw [← hz l 0, List.map_map]; rfl
  unfold writes
  rw [List.map_append, List.map_map, List.map_flatMap]
  congr 1
  · exact hz' d.pts
  · rw [← hz' d.grads, List.flatMap_map]
    congr 1
    funext p
    rw [List.map_map]; rfl

theorem count_filter_fst (l : List (Nat × Bool)) (i : Nat) :
    ((l.filter (fun p => p.2)).map Prod.fst).count i = l.count (i, true) := by
  induction l with
  | nil => rfl
  | cons a l ih =>
      obtain ⟨j, b⟩ := a
      cases b
      · simp [ih]
      · simp [ih, List.count_cons]

theorem count_flatMap_grads (dim muFull : Nat) (l : List Nat) {k : Nat} (hk : muFull ≤ k) :
    (l.flatMap (fun i => (List.range dim).map (fun t => muFull + dim * i + t))).count k ≤ l.count ((k - muFull) / dim) := by
  induction l with
  | nil => simp
  | cons i l ih =>
      rw [List.flatMap_cons, List.count_append, List.count_cons]
      have h1 : ((List.range dim).map (fun t => muFull + dim * i + t)).count k ≤
          if (i == (k - muFull) / dim) = true then 1 else 0 := by
        by_cases hm : k ∈ (List.range dim).map (fun t => muFull + dim * i + t)
        · obtain ⟨t, ht, hkt⟩ := List.mem_map.1 hm
          rw [List.mem_range] at ht
          have he : (k - muFull) / dim = i := by
            rw [← hkt, Nat.add_assoc, Nat.add_sub_cancel_left, Nat.mul_add_div (by omega), Nat.div_eq_of_lt ht, Nat.add_zero]
          rw [he]
          have hnd : ((List.range dim).map (fun t => muFull + dim * i + t)).Nodup :=
            List.nodup_range.map (fun a b h => by simpa using h)
          simpa using List.nodup_iff_count_le_one.1 hnd k
        · rw [List.count_eq_zero_of_not_mem hm]; omega
      omega

/-- no entry is assigned twice -/
theorem writes_keys_nodup {α : Type} {dim muFull : Nat} {pts grads : List Nat} (hmu : ∀ i ∈ pts, i < muFull)
    {ds : List Domain} (hin : ∀ i, (ds.map (fun d => d.pts.count (i, true))).sum = if i ∈ pts then 1 else 0)
    (hing : ∀ i, (ds.map (fun d => d.grads.count (i, true))).sum = if i ∈ grads then 1 else 0) (lam : Domain → Nat → α) :
    ((ds.map (fun d => writes dim muFull d (lam d))).flatten.map Prod.fst).Nodup := by
  -- inner indices are given points
  have hpi : ∀ d ∈ ds, ∀ i, (i, true) ∈ d.pts → i ∈ pts := by
    intro d hd i hi
    by_contra hc
    have h1 := hin i
    rw [if_neg hc] at h1
    have h2 : d.pts.count (i, true) ≤ (ds.map (fun d => d.pts.count (i, true))).sum :=
      List.single_le_sum (by simp) _ (List.mem_map.2 ⟨d, hd, rfl⟩)
    have := List.count_pos_iff.2 hi
    omega
  have hgi : ∀ d ∈ ds, ∀ i, (i, true) ∈ d.grads → i ∈ grads := by
    intro d hd i hi
    by_contra hc
    have h1 := hing i
    rw [if_neg hc] at h1
    have h2 : d.grads.count (i, true) ≤ (ds.map (fun d => d.grads.count (i, true))).sum :=
      List.single_le_sum (by simp) _ (List.mem_map.2 ⟨d, hd, rfl⟩)
    have := List.count_pos_iff.2 hi
    omega
  rw [List.nodup_iff_count_le_one]
  intro p
  rw [List.map_flatten, List.count_flatten, List.map_map, List.map_map]
  have hle : ∀ d ∈ ds, ((writes dim muFull d (lam d)).map Prod.fst).count p ≤
      if p < muFull then d.pts.count (p, true) else d.grads.count ((p - muFull) / dim, true) := by
    intro d hd
    rw [writes_fst, List.count_append, count_filter_fst]
    split
    · rename_i hp
      rw [List.count_eq_zero_of_not_mem (a := p) (l := List.flatMap _ _)]
      · omega
      · intro hc
        simp only [List.mem_flatMap, List.mem_map, List.mem_range] at hc
        obtain ⟨_, _, k, _, hk⟩ := hc
        omega
    · rename_i hp
      have h0 : d.pts.count (p, true) = 0 := by
        rw [List.count_eq_zero]
        intro hc
        exact hp (hmu p (hpi d hd p hc))
      have h1 := count_flatMap_grads dim muFull ((d.grads.filter (fun p => p.2)).map Prod.fst) (k := p) (by omega)
      rw [count_filter_fst] at h1
      omega
  by_cases hp : p < muFull
  · have h1 := hin p
    have h2 : (ds.map (fun d => ((writes dim muFull d (lam d)).map Prod.fst).count p)).sum ≤
        (ds.map (fun d => d.pts.count (p, true))).sum := by
      apply List.sum_le_sum
      intro d hd
      have := hle d hd
      rwa [if_pos hp] at this
    have h3 : (if p ∈ pts then 1 else 0) ≤ 1 := by split <;> omega
    simp only [Function.comp_def] at h2 ⊢
    omega
  · have h1 := hing ((p - muFull) / dim)
    have h2 : (ds.map (fun d => ((writes dim muFull d (lam d)).map Prod.fst).count p)).sum ≤
        (ds.map (fun d => d.grads.count ((p - muFull) / dim, true))).sum := by
      apply List.sum_le_sum
      intro d hd
      have := hle d hd
      rwa [if_neg hp] at this
    have h3 : (if (p - muFull) / dim ∈ grads then 1 else 0) ≤ 1 := by split <;> omega
    simp only [Function.comp_def] at h2 ⊢
    omega

/-- C24: let the domains be such that every point is inner in exactly one of them (which C22 proves of the divider), with
value point indices below the number `muFull` of value points.  Then whatever the subgrid solutions are and however the
assignments of the parallel sweep interleave, the resulting weights are the same:

* the entry of a value point is the one computed by the domain in which the point is inner,
* so are the `dim` entries of a gradient point,
* all other entries keep their initial value. -/
theorem C24_schedule_independent {α : Type} {dim muFull : Nat} {pts grads : List Nat} (hmu : ∀ i ∈ pts, i < muFull)
    {ds : List Domain} (hin : ∀ i, (ds.map (fun d => d.pts.count (i, true))).sum = if i ∈ pts then 1 else 0)
    (hing : ∀ i, (ds.map (fun d => d.grads.count (i, true))).sum = if i ∈ grads then 1 else 0)
    (lam : Domain → Nat → α) (w0 : Nat → α) {sched : List (Nat × α)}
    (hs : Interleaving (ds.map (fun d => writes dim muFull d (lam d))) sched) :
    (∀ d ∈ ds, ∀ (j i : Nat), d.pts[j]? = some (i, true) → assignAll w0 sched i = lam d j) ∧
    (∀ d ∈ ds, ∀ (j i k : Nat), d.grads[j]? = some (i, true) → k < dim →
      assignAll w0 sched (muFull + dim * i + k) = lam d (d.pts.length + dim * j + k)) ∧
    (∀ p, (p < muFull → p ∉ pts) → (∀ i ∈ grads, ∀ k < dim, p ≠ muFull + dim * i + k) → assignAll w0 sched p = w0 p) := by
  have hperm := interleaving_perm hs
  -- inner indices are given points
  have hpi : ∀ d ∈ ds, ∀ i, (i, true) ∈ d.pts → i ∈ pts := by
    intro d hd i hi
    by_contra hc
    have h1 := hin i
    rw [if_neg hc] at h1
    have h2 : d.pts.count (i, true) ≤ (ds.map (fun d => d.pts.count (i, true))).sum :=
      List.single_le_sum (by simp) _ (List.mem_map.2 ⟨d, hd, rfl⟩)
    have := List.count_pos_iff.2 hi
    omega
  have hgi : ∀ d ∈ ds, ∀ i, (i, true) ∈ d.grads → i ∈ grads := by
    intro d hd i hi
    by_contra hc
    have h1 := hing i
    rw [if_neg hc] at h1
    have h2 : d.grads.count (i, true) ≤ (ds.map (fun d => d.grads.count (i, true))).sum :=
      List.single_le_sum (by simp) _ (List.mem_map.2 ⟨d, hd, rfl⟩)
    have := List.count_pos_iff.2 hi
    omega
  have hfst := writes_keys_nodup (dim := dim) hmu hin hing lam
  have hfst' : (sched.map Prod.fst).Nodup := (hperm.map Prod.fst).nodup_iff.2 hfst
  refine ⟨?_, ?_, ?_⟩
  · intro d hd j i hj
    apply assignAll_mem _ _ _ _ hfst'
    rw [hperm.mem_iff, List.mem_flatten]
    refine ⟨_, List.mem_map.2 ⟨d, hd, rfl⟩, ?_⟩
    unfold writes
    rw [List.mem_append]
    left
    refine List.mem_map.2 ⟨((i, true), j), ?_, rfl⟩
    rw [List.mem_filter, List.mem_zipIdx_iff_getElem?]
    exact ⟨hj, rfl⟩
  · intro d hd j i k hj hk
    apply assignAll_mem _ _ _ _ hfst'
    rw [hperm.mem_iff, List.mem_flatten]
    refine ⟨_, List.mem_map.2 ⟨d, hd, rfl⟩, ?_⟩
    unfold writes
    rw [List.mem_append]
    right
    refine List.mem_flatMap.2 ⟨((i, true), j), ?_, List.mem_map.2 ⟨k, List.mem_range.2 hk, rfl⟩⟩
    rw [List.mem_filter, List.mem_zipIdx_iff_getElem?]
    exact ⟨hj, rfl⟩
  · intro p hp1 hp2
    apply assignAll_not_mem
    intro q hq hqp
    rw [hperm.mem_iff, List.mem_flatten] at hq
    obtain ⟨l, hl, hql⟩ := hq
    obtain ⟨d, hd, rfl⟩ := List.mem_map.1 hl
    have : q.1 ∈ (writes dim muFull d (lam d)).map Prod.fst := List.mem_map.2 ⟨q, hql, rfl⟩
    rw [writes_fst, List.mem_append, hqp] at this
    rcases this with h | h
    · simp only [List.mem_map, List.mem_filter] at h
      obtain ⟨⟨i, b⟩, ⟨h1, h2⟩, h3⟩ := h
      simp only at h2 h3
      subst h2 h3
      have := hpi d hd i h1
      exact hp1 (hmu i this) this
    · simp only [List.mem_flatMap, List.mem_map, List.mem_filter, List.mem_range] at h
      obtain ⟨g, ⟨⟨i, b⟩, ⟨h1, h2⟩, h3⟩, k, hk, hkp⟩ := h
      simp only at h2 h3
      subst h2 h3
      exact hp2 i (hgi d hd i h1) k hk hkp.symm

/-- C24 for the domains the divider yields: the sweep over them gives the same weights under every schedule. -/
theorem C24_sweep_over_divided_domains {α : Type} {env : Env} (he : env.Ok) {muFull : Nat} {pts grads poly : List Nat}
    (hpts : pts.Nodup) (hgr : grads.Nodup) (hpoly : poly.Nodup) (hmu : ∀ i ∈ pts, i < muFull) :
    ∃ n ds, (∀ fuel, n < fuel → domains env fuel pts grads poly = some (.ok ds)) ∧
      ∀ (lam : Domain → Nat → α) (w0 : Nat → α) (s1 s2 : List (Nat × α)),
        Interleaving (ds.map (fun d => writes env.dim muFull d (lam d))) s1 →
        Interleaving (ds.map (fun d => writes env.dim muFull d (lam d))) s2 →
        assignAll w0 s1 = assignAll w0 s2 := by
  obtain ⟨n, ds, h1, h2, h3, _⟩ := C22_division he hpts hgr hpoly
  refine ⟨n, ds, h1, ?_⟩
  intro lam w0 s1 s2 hs1 hs2
  obtain ⟨a1, a2, a3⟩ := C24_schedule_independent hmu h2 h3 lam w0 hs1
  obtain ⟨b1, b2, b3⟩ := C24_schedule_independent hmu h2 h3 lam w0 hs2
  funext p
  by_cases hp : p < muFull ∧ p ∈ pts
  · have h4 := h2 p
    rw [if_pos hp.2] at h4
    obtain ⟨d, hd, hc⟩ : ∃ d ∈ ds, 0 < d.pts.count (p, true) := by
      by_contra hc
      push Not at hc
      have : (ds.map (fun d => d.pts.count (p, true))).sum = 0 := by
        rw [List.sum_eq_zero]
        intro x hx
        obtain ⟨d, hd, rfl⟩ := List.mem_map.1 hx
        have := hc d hd
        omega
      omega
    obtain ⟨j, hj⟩ := List.mem_iff_getElem?.1 (List.count_pos_iff.1 hc)
    rw [a1 d hd j p hj, b1 d hd j p hj]
  · by_cases hg : ∃ i ∈ grads, ∃ k < env.dim, p = muFull + env.dim * i + k
    · obtain ⟨i, hi, k, hk, rfl⟩ := hg
      have h4 := h3 i
      rw [if_pos hi] at h4
      obtain ⟨d, hd, hc⟩ : ∃ d ∈ ds, 0 < d.grads.count (i, true) := by
        by_contra hc
        push Not at hc
        have : (ds.map (fun d => d.grads.count (i, true))).sum = 0 := by
          rw [List.sum_eq_zero]
          intro x hx
          obtain ⟨d, hd, rfl⟩ := List.mem_map.1 hx
          have := hc d hd
          omega
        omega
      obtain ⟨j, hj⟩ := List.mem_iff_getElem?.1 (List.count_pos_iff.1 hc)
      rw [a2 d hd j i k hj hk, b2 d hd j i k hj hk]
    · push Not at hg
      rw [a3 p (fun h1 h2 => hp ⟨h1, h2⟩) hg, b3 p (fun h1 h2 => hp ⟨h1, h2⟩) hg]

/-- A sweep with two domains sharing points 1 and 2: one schedule of four assignments. -/
example : Interleaving ([(⟨[(0, true), (1, true), (2, false)], []⟩ : Domain), ⟨[(1, false), (2, true), (3, true)], []⟩].map
      (fun d => writes 3 4 d (fun k => k)))
    [(2, 1), (0, 0), (3, 2), (1, 1)] := by
  refine .step [_] [] _ _ _ ?_
  refine .step [] [_] _ _ _ ?_
  refine .step [_] [] _ _ _ ?_
  refine .step [] [_] _ _ _ ?_
  exact .done _ (by simp)

/-! ## C26 -/

open Matrix

variable {l r : Type} [Fintype l] [Fintype r] [DecidableEq l] [DecidableEq r]

/-- C26: let `P` be the matrix of the polynomial basis at the points of the subgrid, with the polynomial points first, let
`lag` be the rows of the Lagrange basis (with respect to the polynomial points) at the other points, `A` any matrix and `d`
any right-hand side.  If `gamma` solves the reduced system and `c` the system for the polynomial coefficients, the weights
are orthogonal to the polynomials, and weights and coefficients reproduce `d` at every point of the subgrid. -/
theorem C26_interpolates_and_orthogonal (a : Matrix (l ⊕ r) (l ⊕ r) ℝ) (d : l ⊕ r → ℝ) (p : Matrix (l ⊕ r) l ℝ)
    (lag : Matrix r l ℝ) (hlag : p.submatrix Sum.inr id = lag * p.submatrix Sum.inl id)
    {gamma : r → ℝ} (hg : qtaq a (qTop lag) *ᵥ gamma = qtd (qTop lag) d)
    {c : l → ℝ} (hc : p.submatrix Sum.inl id *ᵥ c = polyRhs a d (lambdaOf (qTop lag) gamma)) :
    p.transpose *ᵥ lambdaOf (qTop lag) gamma = 0 ∧
    a *ᵥ lambdaOf (qTop lag) gamma + p *ᵥ c = d := by
  set q := qTop lag with hq
  set lam := lambdaOf q gamma with hlam
  set pt := p.submatrix Sum.inl id with hpt
  have hpe : p = Matrix.fromRows pt (lag * pt) := by
    rw [← hlag]
    ext i k
    cases i <;> rfl
  constructor
  · have h1 : p.transpose *ᵥ lam = pt.transpose *ᵥ (q *ᵥ gamma) + (lag * pt).transpose *ᵥ gamma := by
      rw [hpe, hlam, lambdaOf, Matrix.transpose_fromRows, Matrix.fromCols_mulVec_sumElim]
    rw [h1, hq, qTop, Matrix.transpose_mul, ← Matrix.mulVec_mulVec, Matrix.neg_mulVec, Matrix.mulVec_neg]
    simp
  · have hA1 : (a *ᵥ lam) ∘ Sum.inl = a.toBlocks₁₁ *ᵥ (q *ᵥ gamma) + a.toBlocks₁₂ *ᵥ gamma := by
      conv_lhs => rw [← Matrix.fromBlocks_toBlocks a]
      rw [hlam, lambdaOf, Matrix.fromBlocks_mulVec]
      rfl
    have hA2 : (a *ᵥ lam) ∘ Sum.inr = a.toBlocks₂₁ *ᵥ (q *ᵥ gamma) + a.toBlocks₂₂ *ᵥ gamma := by
      conv_lhs => rw [← Matrix.fromBlocks_toBlocks a]
      rw [hlam, lambdaOf, Matrix.fromBlocks_mulVec]
      rfl
    have hqT : q.transpose = -lag := by rw [hq, qTop, Matrix.transpose_neg, Matrix.transpose_transpose]
    have hred : (a *ᵥ lam) ∘ Sum.inr = lag *ᵥ ((a *ᵥ lam) ∘ Sum.inl) - lag *ᵥ (d ∘ Sum.inl) + d ∘ Sum.inr := by
      have h2 := hg
      unfold qtaq qtd at h2
      rw [hqT] at h2
      simp only [Matrix.add_mulVec, ← Matrix.mulVec_mulVec, Matrix.neg_mulVec, Matrix.neg_mul] at h2
      rw [hA2, hA1, Matrix.mulVec_add]
      funext i
      have h3 := congrFun h2 i
      simp only [Pi.add_apply, Pi.neg_apply, Pi.sub_apply] at h3 ⊢
      linarith
    have hpc1 : (p *ᵥ c) ∘ Sum.inl = pt *ᵥ c := by
      rw [hpe, Matrix.fromRows_mulVec]; rfl
    have hpc2 : (p *ᵥ c) ∘ Sum.inr = lag *ᵥ (pt *ᵥ c) := by
      rw [hpe, Matrix.fromRows_mulVec]
      show (lag * pt) *ᵥ c = _
      rw [Matrix.mulVec_mulVec]
    have hc' : pt *ᵥ c = d ∘ Sum.inl - (a *ᵥ lam) ∘ Sum.inl := hc
    funext i
    cases i with
    | inl i =>
        have h4 := congrFun hpc1 i
        have h5 := congrFun hc' i
        simp only [Function.comp, Pi.sub_apply, Pi.add_apply] at h4 h5 ⊢
        rw [h4, h5]; ring
    | inr i =>
        have h4 := congrFun hpc2 i
        have h5 := congrFun hred i
        rw [hc', Matrix.mulVec_sub] at h4
        simp only [Function.comp, Pi.sub_apply, Pi.add_apply] at h4 h5 ⊢
        rw [h4, h5]; ring

/-- C26: conversely, any weights that are orthogonal to the polynomials and reproduce `d` together with some coefficients
are the ones the reduced system yields, provided the polynomial points are unisolvent and the reduced system is regular. -/
theorem C26_solution_is_unique (a : Matrix (l ⊕ r) (l ⊕ r) ℝ) (d : l ⊕ r → ℝ) (p : Matrix (l ⊕ r) l ℝ)
    (lag : Matrix r l ℝ) (hlag : p.submatrix Sum.inr id = lag * p.submatrix Sum.inl id)
    (hp : IsUnit (p.submatrix Sum.inl id)) (hr : ∀ g : r → ℝ, qtaq a (qTop lag) *ᵥ g = 0 → g = 0)
    {gamma : r → ℝ} (hg : qtaq a (qTop lag) *ᵥ gamma = qtd (qTop lag) d)
    {lam : l ⊕ r → ℝ} {c : l → ℝ} (h1 : p.transpose *ᵥ lam = 0) (h2 : a *ᵥ lam + p *ᵥ c = d) :
    lam = lambdaOf (qTop lag) gamma := by
  set q := qTop lag with hq
  set pt := p.submatrix Sum.inl id with hpt
  have hpe : p = Matrix.fromRows pt (lag * pt) := by
    rw [← hlag]
    ext i k
    cases i <;> rfl
  have hqT : q.transpose = -lag := by rw [hq, qTop, Matrix.transpose_neg, Matrix.transpose_transpose]
  have hsplit : lam = Sum.elim (lam ∘ Sum.inl) (lam ∘ Sum.inr) := (Sum.elim_comp_inl_inr lam).symm
  -- the first part of the weights is determined by the rest
  have htop : lam ∘ Sum.inl = q *ᵥ (lam ∘ Sum.inr) := by
    have h3 : pt.transpose *ᵥ (lam ∘ Sum.inl + lag.transpose *ᵥ (lam ∘ Sum.inr)) = 0 := by
      rw [hpe, hsplit, Matrix.transpose_fromRows, Matrix.fromCols_mulVec_sumElim, Matrix.transpose_mul,
        ← Matrix.mulVec_mulVec, ← Matrix.mulVec_add] at h1
      exact h1
    have hpT : IsUnit pt.transpose := by
      obtain ⟨u, hu⟩ := hp
      refine ⟨⟨pt.transpose, (u⁻¹).val.transpose, ?_, ?_⟩, rfl⟩
      · rw [← Matrix.transpose_mul, ← hu]; simp
      · rw [← Matrix.transpose_mul, ← hu]; simp
    obtain ⟨u, hu⟩ := hpT
    have h4 : lam ∘ Sum.inl + lag.transpose *ᵥ (lam ∘ Sum.inr) = 0 := by
      have h5 := congrArg (fun v => (u⁻¹).val *ᵥ v) h3
      simp only [Matrix.mulVec_mulVec, Matrix.mulVec_zero] at h5
      rw [← hu] at h5
      simpa using h5
    rw [hq, qTop, Matrix.neg_mulVec]
    exact eq_neg_of_add_eq_zero_left h4
  set g := lam ∘ Sum.inr with hgdef
  have hlam : lam = lambdaOf q g := by rw [hsplit, htop]; rfl
  have hred : qtaq a q *ᵥ g = qtd q d := by
    have hA1 : (a *ᵥ lam) ∘ Sum.inl = a.toBlocks₁₁ *ᵥ (q *ᵥ g) + a.toBlocks₁₂ *ᵥ g := by
      conv_lhs => rw [← Matrix.fromBlocks_toBlocks a, hlam, lambdaOf, Matrix.fromBlocks_mulVec]
      rfl
    have hA2 : (a *ᵥ lam) ∘ Sum.inr = a.toBlocks₂₁ *ᵥ (q *ᵥ g) + a.toBlocks₂₂ *ᵥ g := by
      conv_lhs => rw [← Matrix.fromBlocks_toBlocks a, hlam, lambdaOf, Matrix.fromBlocks_mulVec]
      rfl
    have hpc1 : (p *ᵥ c) ∘ Sum.inl = pt *ᵥ c := by
      rw [hpe, Matrix.fromRows_mulVec]; rfl
    have hpc2 : (p *ᵥ c) ∘ Sum.inr = lag *ᵥ (pt *ᵥ c) := by
      rw [hpe, Matrix.fromRows_mulVec]
      show (lag * pt) *ᵥ c = _
      rw [Matrix.mulVec_mulVec]
    have hd1 : d ∘ Sum.inl = (a *ᵥ lam) ∘ Sum.inl + pt *ᵥ c := by rw [← h2, ← hpc1]; rfl
    have hd2 : d ∘ Sum.inr = (a *ᵥ lam) ∘ Sum.inr + lag *ᵥ (pt *ᵥ c) := by rw [← h2, ← hpc2]; rfl
    unfold qtaq qtd
    rw [hqT, hd1, hd2, hA1, hA2]
    simp only [Matrix.add_mulVec, ← Matrix.mulVec_mulVec, Matrix.neg_mulVec, Matrix.neg_mul, Matrix.mulVec_add]
    funext i
    simp only [Pi.add_apply, Pi.neg_apply]
    ring
  have : g - gamma = 0 := hr _ (by rw [Matrix.mulVec_sub, hred, hg, sub_self])
  rw [hlam, sub_eq_zero.1 this]

/-- C26: the rows of the full Lagrange matrix that are used are the right ones (value point `i` has row `i`, component `j` of
gradient point `i` has row `muFull + dim * i + j`) if there is no gradient data in the subgrid or the subgrid has all value
points (which is the case on a single level). -/
theorem C26_rows_are_right {dim mu muFull : Nat} {pts grads : List Nat} (h : grads = [] ∨ mu = muFull) :
    flatIndices dim mu pts grads =
      pts ++ grads.flatMap (fun i => (List.range dim).map (fun j => muFull + dim * i + j)) := by
  rcases h with rfl | rfl <;> rfl

/-- C26 (violation): with gradient data and fewer value points than the whole problem has, every gradient row is wrong. -/
theorem C26_gradient_rows_are_wrong {dim mu muFull : Nat} (pts grads : List Nat) (hmu : mu < muFull) {i : Nat}
    {k : Nat} (hk : grads[k]? = some i) {j : Nat} (hj : j < dim) :
    (flatIndices dim mu pts grads)[pts.length + dim * k + j]? = some (mu + dim * i + j) ∧
    mu + dim * i + j ≠ muFull + dim * i + j := by
  refine ⟨?_, by omega⟩
  unfold flatIndices
  rw [Nat.add_assoc, List.getElem?_append_right (by omega), Nat.add_sub_cancel_left]
  induction grads generalizing k with
  | nil => simp at hk
  | cons g gs ih =>
      rw [List.flatMap_cons]
      cases k with
      | zero =>
          simp only [List.getElem?_cons_zero, Option.some.injEq] at hk
          subst hk
          rw [List.getElem?_append_left (by simp; omega)]
          simp [hj]
      | succ k =>
          rw [List.getElem?_append_right (by simp; nlinarith)]
          have := ih (k := k) (by simpa using hk)
          simp only [List.length_map, List.length_range]
          rw [show dim * (k + 1) + j - dim = dim * k + j by rw [Nat.mul_succ]; omega]
          exact this

/-- C26 (violation), a concrete case: one dimension, linear polynomials, value points `0, 1, 2` and a gradient at `0`; the
subgrid has the value points `0, 1` and the gradient point.  The Lagrange basis is `(1 - x, x)`, its gradient row is
`(-1, 1)`, but the code takes row 2 of the full matrix, which is the value row `(-1, 2)` of the point `2`.  Whatever nonzero
`gamma` the reduced system yields, the weights are not orthogonal to the polynomials. -/
theorem C26_gradient_weights_not_orthogonal (gamma : ℝ) (hg : gamma ≠ 0) :
    let lagFull : Nat → Fin 2 → ℝ := ![![1, 0], ![0, 1], ![-1, 2], ![-1, 1]] ∘ Fin.ofNat 4
    let p : Matrix (Fin 2 ⊕ Fin 1) (Fin 2) ℝ := Matrix.of (Sum.elim ![![1, 0], ![1, 1]] ![![0, 1]])
    let row := (flatIndices 1 2 [0, 1] [0]).getD 2 0
    let lag : Matrix (Fin 1) (Fin 2) ℝ := Matrix.of (fun _ => lagFull row)
    p.transpose *ᵥ lambdaOf (qTop lag) (fun _ => gamma) ≠ 0 ∧
    p.transpose *ᵥ lambdaOf (qTop (Matrix.of (fun _ => lagFull (3 + 1 * 0 + 0)))) (fun _ : Fin 1 => gamma) = 0 := by
  intro lagFull p row lag
  have hrow : row = 2 := by decide
  constructor
  · intro h
    have := congrFun h 0
    simp only [lambdaOf, qTop, Matrix.mulVec, dotProduct, Fintype.sum_sum_type, Fin.sum_univ_two, Fin.sum_univ_one,
      Matrix.transpose_apply, Matrix.of_apply, p, lag, lagFull, hrow, Sum.elim_inl, Sum.elim_inr, Matrix.neg_apply] at this
    simp at this
    apply hg
    linarith
  · funext k
    fin_cases k <;>
    · simp only [lambdaOf, qTop, Matrix.mulVec, dotProduct, Fintype.sum_sum_type, Fin.sum_univ_two, Fin.sum_univ_one,
        Matrix.transpose_apply, Matrix.of_apply, p, lagFull, Sum.elim_inl, Sum.elim_inr, Matrix.neg_apply]
      simp

/-- A system meeting the hypotheses: three points on a line, linear polynomials (the third point is reached with the Lagrange
basis), kernel `|x - y|`. -/
example : ∃ (a : Matrix (Fin 2 ⊕ Fin 1) (Fin 2 ⊕ Fin 1) ℝ) (p : Matrix (Fin 2 ⊕ Fin 1) (Fin 2) ℝ) (lag : Matrix (Fin 1) (Fin 2) ℝ)
    (gamma : Fin 1 → ℝ), p.submatrix Sum.inr id = lag * p.submatrix Sum.inl id ∧
      qtaq a (qTop lag) *ᵥ gamma = qtd (qTop lag) (Sum.elim ![0, 0] ![1]) ∧ gamma 0 ≠ 0 := by
  refine ⟨Matrix.fromBlocks !![0, 1; 1, 0] !![2; 1] !![2, 1] !![0], Matrix.of (Sum.elim ![![1, 0], ![1, 1]] ![![1, 2]]), !![-1, 2],
    ![-1 / 4], ?_, ?_, ?_⟩
  · ext i k
    fin_cases i
    fin_cases k <;> simp [Matrix.mul_apply, Fin.sum_univ_two] <;> norm_num
  · funext i
    fin_cases i
    simp only [qtaq, qTop, qtd, Matrix.mulVec, dotProduct, Matrix.mul_apply, Fin.sum_univ_two, Fin.sum_univ_one,
      Matrix.add_apply, Matrix.transpose_apply, Matrix.neg_apply, Pi.add_apply, Matrix.toBlocks₁₁, Matrix.toBlocks₁₂,
      Matrix.toBlocks₂₁, Matrix.toBlocks₂₂, Matrix.of_apply, Matrix.fromBlocks_apply₁₁, Matrix.fromBlocks_apply₁₂,
      Matrix.fromBlocks_apply₂₁, Matrix.fromBlocks_apply₂₂, Function.comp]
    simp
    norm_num
  · norm_num

end Verif.FineGrid
