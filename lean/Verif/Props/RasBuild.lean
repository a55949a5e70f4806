import Verif.Props.Ras
import Verif.Props.DomainDivider
import Verif.Props.CoarsePoints

/-!
# C58: what the constructor of the preconditioner sets up
-/

namespace Verif.Ras

open Verif DomainDivider FineGrid

/-- A level starts with the polynomial points and has no point twice. -/
structure LevelOk (poly : List Nat) (lv : Level) : Prop where
  poly : ∃ rest, lv.pts = poly ++ rest
  pts : lv.pts.Nodup
  grads : lv.grads.Nodup

/-- the rows of a level beyond the polynomial points -/
def free (dim : Nat) (poly : List Nat) (lv : Level) : Nat := lv.pts.length - poly.length + dim * lv.grads.length

/-- The domains of a level: each point is inner in exactly one of them, each domain starts with the polynomial points, and none has more than 1024 further rows. -/
structure DomainsOk (dim : Nat) (poly : List Nat) (lv : Level) (ds : List Domain) : Prop where
  pts : ∀ i, (ds.map fun d => d.pts.count (i, true)).sum = if i ∈ lv.pts then 1 else 0
  grads : ∀ i, (ds.map fun d => d.grads.count (i, true)).sum = if i ∈ lv.grads then 1 else 0
  sub : ∀ d ∈ ds, (∀ q ∈ d.pts, q.1 ∈ lv.pts) ∧ ∀ q ∈ d.grads, q.1 ∈ lv.grads
  starts : ∀ d ∈ ds, ∃ rest, d.pts.map Prod.fst = poly ++ rest ∧ rest.length + dim * d.grads.length ≤ 1024

theorem filter_poly {poly rest : List Nat} (h : (poly ++ rest).Nodup) : (poly ++ rest).filter (fun i => i ∉ poly) = rest := by
  rw [List.filter_append]
  have e1 : poly.filter (fun i => decide (i ∉ poly)) = [] := by
    rw [List.filter_eq_nil_iff]
    intro i hi
    simp [hi]
  have e2 : rest.filter (fun i => decide (i ∉ poly)) = rest := by
    rw [List.filter_eq_self]
    intro i hi
    simp only [decide_eq_true_eq]
    exact fun hp => (List.nodup_append.1 h).2.2 i hp i hi rfl
  rw [e1, e2, List.nil_append]

theorem buildLevels_spec {env : Env} (he : env.Ok) {q : Queue} (hq : q.Ok) {drain : List Cluster → List Cluster} (hdr : ∀ cs, (drain cs).Perm cs)
    {poly : List Nat} {asked : Nat → Int} (hm : ∀ k, 1 ≤ k → asked k ≤ asked (k + 1)) (h1 : 1 ≤ asked 1) :
    ∀ (level : Nat) (lv : Level), LevelOk poly lv → (level = 0 ∨ asked level ≤ (free env.dim poly lv : Nat)) →
      ∃ N L, (∀ fuel, N < fuel → buildLevels env q drain fuel asked poly level lv = some (.ok L)) ∧ L.length = level + 1 ∧
        (L[level]?).map Prod.fst = some lv ∧ (∀ (k : Nat) p, L[k]? = some p → LevelOk poly p.1) ∧
        (∀ (k : Nat) p p', L[k]? = some p → L[k + 1]? = some p' → (∀ i ∈ p.1.pts, i ∈ p'.1.pts) ∧ (∀ i ∈ p.1.grads, i ∈ p'.1.grads) ∧
          asked (k + 1) ≤ (free env.dim poly p.1 : Nat) ∧ ((free env.dim poly p.1 : Nat) : Int) ≤ max (env.dim : Int) (asked (k + 1) + 2 * env.dim - 2)) ∧
        ∀ (k : Nat) p, 1 ≤ k → L[k]? = some p → DomainsOk env.dim poly p.1 p.2 := by
  intro level
  induction level with
  | zero =>
    intro lv hl _
    refine ⟨0, [(lv, [])], fun fuel _ => rfl, rfl, rfl, ?_, ?_, ?_⟩
    · intro k p hk
      cases k with
      | zero => simp only [List.getElem?_cons_zero, Option.some.injEq] at hk; subst hk; exact hl
      | succ k => simp at hk
    · intro k p p' _ hk
      simp at hk
    · intro k p h hk
      cases k with
      | zero => omega
      | succ k => simp at hk
  | succ level ih =>
    intro lv hl ha
    have ha : asked (level + 1) ≤ (free env.dim poly lv : Nat) := by
      rcases ha with h | h
      · omega
      · exact h
    obtain ⟨⟨rest, hr⟩, hp, hg⟩ := hl
    have hpoly : poly.Nodup := by rw [hr] at hp; exact (List.nodup_append.1 hp).1
    have hf : lv.pts.filter (fun i => i ∉ poly) = rest := by rw [hr]; exact filter_poly (hr ▸ hp)
    have hfree : free env.dim poly lv = rest.length + env.dim * lv.grads.length := by
      unfold free
      rw [hr, List.length_append, Nat.add_sub_cancel_left]
    have hpos : ∀ k, 1 ≤ k → 1 ≤ asked k := by
      intro k hk
      induction k, hk using Nat.le_induction with
      | base => exact h1
      | succ k hk ih => exact le_trans ih (hm k hk)
    have hne : (∃ i ∈ lv.pts, i ∉ poly) ∨ lv.grads ≠ [] := by
      have h2 := hpos (level + 1) (by omega)
      rw [hfree] at ha
      by_cases hgr : lv.grads = []
      · left
        rw [hgr] at ha
        cases hre : rest with
        | nil => rw [hre] at ha; simp only [List.length_nil, Nat.mul_zero, Nat.add_zero] at ha; omega
        | cons i rest' =>
          have : i ∈ lv.pts.filter (fun i => i ∉ poly) := by rw [hf, hre]; exact List.mem_cons_self
          rw [List.mem_filter] at this
          exact ⟨i, this.1, by simpa using this.2⟩
      · exact Or.inr hgr
    obtain ⟨N1, ds, d1, d2, d3, d4⟩ := C22_division he hp hg hpoly
    obtain ⟨N2, rest', g, c1, c2, c3, c4, c5, c6, c7⟩ := C23_chooses_requested_points he hq hdr hp hg (poly := poly) (n := asked (level + 1)) hne
      (by rw [hf, ← hfree]; exact ha)
    have hnd : (poly ++ rest').Nodup := by
      rw [List.nodup_append]
      exact ⟨hpoly, c2, fun i hi j hj e => (c3 j hj).2 (e ▸ hi)⟩
    have hfree' : free env.dim poly ⟨poly ++ rest', g⟩ = rest'.length + env.dim * g.length := by
      unfold free
      rw [List.length_append, Nat.add_sub_cancel_left]
    obtain ⟨N3, L, b1, b2, b3, b4, b5, b6⟩ := ih ⟨poly ++ rest', g⟩ ⟨⟨rest', rfl⟩, hnd, c4⟩ (by
      rcases Nat.eq_zero_or_pos level with h0 | h0
      · exact Or.inl h0
      · right
        rw [hfree']
        exact le_trans (hm level h0) c6)
    have hlast : ∀ (k : Nat) p, (L ++ [(lv, ds)])[k]? = some p → (k ≤ level ∧ L[k]? = some p) ∨ (k = level + 1 ∧ p = (lv, ds)) := by
      intro k p hk
      by_cases hkl : k ≤ level
      · rw [List.getElem?_append_left (by omega)] at hk
        exact Or.inl ⟨hkl, hk⟩
      · rw [List.getElem?_append_right (by omega), b2] at hk
        right
        have : k < level + 2 := by
          by_contra hc
          rw [List.getElem?_eq_none (by simp; omega)] at hk
          exact absurd hk (by simp)
        have e : k = level + 1 := by omega
        subst e
        simp only [Nat.sub_self, List.getElem?_cons_zero, Option.some.injEq] at hk
        exact ⟨rfl, hk.symm⟩
    refine ⟨max N1 (max N2 N3), L ++ [(lv, ds)], ?_, ?_, ?_, ?_, ?_, ?_⟩
    · intro fuel hfu
      unfold buildLevels
      rw [d1 fuel (by omega)]
      dsimp only
      rw [c1 fuel (by omega)]
      dsimp only
      rw [b1 fuel (by omega)]
      rfl
    · rw [List.length_append, b2]; rfl
    · rw [List.getElem?_append_right (by omega), b2, Nat.sub_self]
      rfl
    · intro k p hk
      rcases hlast k p hk with ⟨-, h⟩ | ⟨-, rfl⟩
      · exact b4 k p h
      · exact ⟨⟨rest, hr⟩, hp, hg⟩
    · intro k p p' hk hk'
      rcases hlast _ _ hk' with ⟨h, h'⟩ | ⟨h, h'⟩
      · rcases hlast _ _ hk with ⟨g1, g2⟩ | ⟨g1, g2⟩
        · exact b5 k p p' g2 h'
        · omega
      · have e : k = level := by omega
        subst e
        rcases hlast _ _ hk with ⟨g1, g2⟩ | ⟨g1, g2⟩
        · rw [g2] at b3
          simp only [Option.map_some, Option.some.injEq] at b3
          rw [h', b3]
          refine ⟨?_, c5, ?_, ?_⟩
          · intro i hi
            rcases List.mem_append.1 hi with hi | hi
            · show i ∈ lv.pts
              rw [hr]; exact List.mem_append_left _ hi
            · exact (c3 i hi).1
          · rw [hfree']; exact c6
          · rw [hfree']; exact c7
        · omega
    · intro k p h1 hk
      rcases hlast _ _ hk with ⟨g1, g2⟩ | ⟨g1, rfl⟩
      · exact b6 k p h1 g2
      · refine ⟨d2, d3, ?_, ?_⟩
        · intro d hd
          obtain ⟨rest'', e1, -, e3, -, e5, -, -⟩ := d4 d hd
          constructor
          · intro x hx
            have : x.1 ∈ d.pts.map Prod.fst := List.mem_map_of_mem hx
            rw [e1, List.mem_append] at this
            rcases this with h | h
            · show x.1 ∈ lv.pts
              rw [hr]; exact List.mem_append_left _ h
            · exact (e3 _ h).1
          · intro x hx
            exact e5 _ (List.mem_map_of_mem hx)
        · intro d hd
          obtain ⟨rest'', e1, -, -, -, -, e6, -⟩ := d4 d hd
          exact ⟨rest'', e1, e6⟩

theorem finest_perm {mu : Nat} (sigma : Nat) {poly : List Nat} (hp : poly.Nodup) (hs : ∀ i ∈ poly, i < mu) : (finestLevel mu sigma poly).pts.Perm (List.range mu) := by
  have hnd : (finestLevel mu sigma poly).pts.Nodup := by
    unfold finestLevel
    rw [List.nodup_append]
    refine ⟨hp, List.nodup_range.filter _, ?_⟩
    intro i hi j hj e
    rw [List.mem_filter] at hj
    subst e
    simp [hi] at hj
  rw [List.perm_ext_iff_of_nodup hnd List.nodup_range]
  intro i
  unfold finestLevel
  rw [List.mem_append, List.mem_filter, List.mem_range]
  constructor
  · rintro (h | h)
    · exact hs i h
    · exact h.1
  · intro h
    by_cases hi : i ∈ poly
    · exact Or.inl hi
    · exact Or.inr ⟨h, by simpa using hi⟩

theorem finest_ok {mu : Nat} (sigma : Nat) {poly : List Nat} (hp : poly.Nodup) (hs : ∀ i ∈ poly, i < mu) : LevelOk poly (finestLevel mu sigma poly) :=
  ⟨⟨_, rfl⟩, (finest_perm sigma hp hs).nodup_iff.2 List.nodup_range, List.nodup_range⟩

theorem poly_le {mu : Nat} {poly : List Nat} (hp : poly.Nodup) (hs : ∀ i ∈ poly, i < mu) : poly.length ≤ mu := by
  have := (finest_perm 0 hp hs).length_eq
  unfold finestLevel at this
  rw [List.length_append, List.length_range] at this
  omega

theorem finest_free {dim mu : Nat} (sigma : Nat) {poly : List Nat} (hp : poly.Nodup) (hs : ∀ i ∈ poly, i < mu) :
    free dim poly (finestLevel mu sigma poly) + poly.length = mu + dim * sigma := by
  have h1 := (finest_perm sigma hp hs).length_eq
  have h2 := poly_le hp hs
  rw [List.length_range] at h1
  unfold free
  rw [h1]
  simp only [finestLevel, List.length_range]
  omega

/-- with three or more levels, at most a third of the rows is asked for when the level below the finest is chosen -/
theorem asked_third {n levels : Nat} (hl : 3 ≤ levels) (hb : 2048 * 10 ^ (levels - 2) < n) : 3 * nCoarsePoints n levels (levels - 1) ≤ n := by
  have h10 : (0 : ℝ) < Real.log 10 := Real.log_pos (by norm_num)
  have hb' : (2048 : ℝ) * 10 ^ (levels - 2) < n := by exact_mod_cast hb
  have hn' : (0 : ℝ) < n := lt_trans (by positivity) hb'
  have hlog : Real.log 2048 + ((levels : ℝ) - 2) * Real.log 10 < Real.log n := by
    have := Real.log_lt_log (by positivity) hb'
    rw [Real.log_mul (by norm_num) (by positivity), Real.log_pow, Nat.cast_sub (by omega)] at this
    exact_mod_cast this
  have hl3 : (3 : ℝ) ≤ levels := by exact_mod_cast hl
  have e1 : ((levels - 1 : ℕ) : ℝ) - 1 = (levels : ℝ) - 2 := by rw [Nat.cast_sub (by omega)]; push_cast; ring
  have hexp : Real.log 2048 / Real.log 10 + (((levels - 1 : ℕ) : ℝ) - 1) * (Real.log n / Real.log 10 - Real.log 2048 / Real.log 10) / ((levels : ℝ) - 1) ≤
      Real.log n / Real.log 10 - 1 / 2 := by
    rw [e1]
    have hx : Real.log 2048 / Real.log 10 + ((levels : ℝ) - 2) ≤ Real.log n / Real.log 10 := by
      rw [le_div_iff₀ h10, add_mul, div_mul_cancel₀ _ h10.ne']
      exact hlog.le
    generalize Real.log n / Real.log 10 = x at *
    generalize Real.log 2048 / Real.log 10 = y at *
    have hp : (0 : ℝ) < (levels : ℝ) - 1 := by linarith
    have : ((levels : ℝ) - 2) * (x - y) / ((levels : ℝ) - 1) ≤ (x - 1 / 2) - y := by
      rw [div_le_iff₀ hp]
      nlinarith
    linarith
  have hpow : (10 : ℝ) ^ (Real.log n / Real.log 10 - 1 / 2) ≤ n / 3 := by
    rw [Real.rpow_sub (by norm_num), Real.rpow_def_of_pos (by norm_num), mul_div_cancel₀ _ h10.ne', Real.exp_log hn', ← Real.sqrt_eq_rpow]
    have h3 : (3 : ℝ) ≤ Real.sqrt 10 := Real.le_sqrt_of_sq_le (by norm_num)
    exact div_le_div_of_nonneg_left hn'.le (by norm_num) h3
  have hq : ((nCoarsePoints n levels (levels - 1) : ℕ) : ℝ) ≤ n / 3 := by
    unfold nCoarsePoints
    exact le_trans (Nat.floor_le (by positivity)) (le_trans (Real.rpow_le_rpow_of_exponent_le (by norm_num) hexp) hpow)
  have : (3 : ℝ) * ((nCoarsePoints n levels (levels - 1) : ℕ) : ℝ) ≤ n := by linarith
  exact_mod_cast this

/-- what is asked for is there, unless the number of rows exceeds 2048 by less than the number of polynomial points -/
theorem asked_le {n l : Nat} (hl : l ≤ 10) (hn : 2048 < n) (hle : 2048 + l ≤ n) : nCoarsePoints n (nLevels n) (nLevels n - 1) + l ≤ n := by
  obtain ⟨h1, h2, h3⟩ := C58_levels (n := n) (by omega)
  have hl2 : 2 ≤ nLevels n := by
    by_contra hc
    have : nLevels n - 1 = 0 := by omega
    rw [this] at h2
    simp at h2
    omega
  rcases Nat.eq_or_lt_of_le hl2 with h | h
  · rw [← h]
    have := (C58_coarse_counts hn (le_refl 2) (by rw [← h] at h2; exact h2)).1
    show nCoarsePoints n 2 1 + l ≤ n
    omega
  · have h4 := h3 hl2
    have := asked_third h h4
    omega

/-- The constructor ends, unless the number of rows exceeds 2048 by less than the number of polynomial points.  It gives the number of levels of
`C58_levels`; the finest level has all points; every level starts with the polynomial points, has no point twice and only points of the next finer one; the coarsest
of several has between 2048 and 2048 + 2 · dim − 2 rows beyond the polynomial points; and the domains of every level but the coarsest cover it. -/
theorem C58_constructor_levels {env : Env} (he : env.Ok) {q : Queue} (hq : q.Ok) {drain : List Cluster → List Cluster} (hdr : ∀ cs, (drain cs).Perm cs)
    {mu sigma : Nat} {poly : List Nat} (hp : poly.Nodup) (hs : ∀ i ∈ poly, i < mu) (hl : poly.length ≤ 10) (h0 : 0 < mu + env.dim * sigma)
    (hle : mu + env.dim * sigma ≤ 2048 ∨ 2048 + poly.length ≤ mu + env.dim * sigma) :
    ∃ N L, (∀ fuel, N < fuel → build env q drain fuel mu sigma poly = some (.ok L)) ∧ L.length = nLevels (mu + env.dim * sigma) ∧
      (∀ p, L[L.length - 1]? = some p → p.1.pts.Perm (List.range mu) ∧ p.1.grads = List.range sigma) ∧ (∀ (k : Nat) p, L[k]? = some p → LevelOk poly p.1) ∧
      (∀ (k : Nat) p p', L[k]? = some p → L[k + 1]? = some p' → (∀ i ∈ p.1.pts, i ∈ p'.1.pts) ∧ ∀ i ∈ p.1.grads, i ∈ p'.1.grads) ∧
      (2 ≤ L.length → ∀ p, L[0]? = some p → 2048 ≤ free env.dim poly p.1 ∧ free env.dim poly p.1 ≤ 2048 + 2 * env.dim - 2) ∧
      ∀ (k : Nat) p, 1 ≤ k → L[k]? = some p → DomainsOk env.dim poly p.1 p.2 := by
  obtain ⟨n, hn⟩ : ∃ n, n = mu + env.dim * sigma := ⟨_, rfl⟩
  rw [← hn] at h0 hle ⊢
  have hd := he.dim_pos
  have hd3 := he.dim_le
  unfold build
  rw [← hn]
  obtain ⟨l1, l2, l3⟩ := C58_levels h0
  have hfin := finest_ok sigma hp hs
  have hlast : ∀ L : List (Level × List Domain), L.length = nLevels n - 1 + 1 → (L[nLevels n - 1]?).map Prod.fst = some (finestLevel mu sigma poly) →
      ∀ p, L[L.length - 1]? = some p → p.1.pts.Perm (List.range mu) ∧ p.1.grads = List.range sigma := by
    intro L e1 e2 p hpk
    rw [e1, Nat.add_sub_cancel] at hpk
    rw [hpk] at e2
    simp only [Option.map_some, Option.some.injEq] at e2
    rw [e2]
    exact ⟨finest_perm sigma hp hs, rfl⟩
  by_cases hnl : nLevels n = 1
  · refine ⟨0, [(finestLevel mu sigma poly, [])], ?_, ?_, ?_, ?_, ?_, ?_, ?_⟩
    · intro fuel _
      dsimp only
      rw [hnl]
      rfl
    · rw [hnl]; rfl
    · apply hlast
      · rw [hnl]; rfl
      · rw [hnl]; rfl
    · intro k p hk
      cases k with
      | zero => simp only [List.getElem?_cons_zero, Option.some.injEq] at hk; subst hk; exact hfin
      | succ k => simp at hk
    · intro k p p' _ hk
      simp at hk
    · intro h; simp at h
    · intro k p h hk
      cases k with
      | zero => omega
      | succ k => simp at hk
  · have hl2 : 2 ≤ nLevels n := by omega
    have h2048 : 2048 < n := by
      refine lt_of_le_of_lt ?_ (l3 hl2)
      exact Nat.le_mul_of_pos_right _ (Nat.pos_of_ne_zero (by positivity))
    obtain ⟨a1, a2, a3⟩ := C58_coarse_counts h2048 hl2 l2
    have hff := finest_free (dim := env.dim) sigma hp hs
    rw [← hn] at hff
    have hask := asked_le hl h2048 (by rcases hle with h | h <;> omega)
    obtain ⟨N, L, b1, b2, b3, b4, b5, b6⟩ := buildLevels_spec he hq hdr (poly := poly) (asked := fun level => (nCoarsePoints n (nLevels n) level : Nat))
      (fun k hk => by have := (a3 k hk).1; exact_mod_cast this) (by rw [a1]; norm_num) (nLevels n - 1) (finestLevel mu sigma poly) hfin
      (Or.inr (by omega))
    refine ⟨N, L, b1, by omega, hlast L b2 b3, b4, fun k p p' h h' => ⟨(b5 k p p' h h').1, (b5 k p p' h h').2.1⟩, ?_, b6⟩
    intro h p hp0
    have h1 : 1 < L.length := h
    obtain ⟨-, -, g3, g4⟩ := b5 0 p L[1] hp0 (List.getElem?_eq_getElem h1)
    rw [a1] at g3 g4
    omega

/-- If the number of rows exceeds 2048 by less than the number of polynomial points, the constructor never returns. -/
theorem C58_constructor_hangs {env : Env} (he : env.Ok) {q : Queue} (hq : q.Ok) (drain : List Cluster → List Cluster)
    {mu sigma : Nat} {poly : List Nat} (hp : poly.Nodup) (hs : ∀ i ∈ poly, i < mu) (hl : poly.length ≤ 10)
    (h1 : 2048 < mu + env.dim * sigma) (h2 : mu + env.dim * sigma < 2048 + poly.length) :
    ∃ N, ∀ fuel, N < fuel → build env q drain fuel mu sigma poly = none := by
  obtain ⟨n, hn⟩ : ∃ n, n = mu + env.dim * sigma := ⟨_, rfl⟩
  have hff := finest_free (dim := env.dim) sigma hp hs
  rw [← hn] at h1 h2 hff
  obtain ⟨l1, l2, l3⟩ := C58_levels (n := n) (by omega)
  have hl2 : nLevels n = 2 := by
    rcases Nat.lt_or_ge (nLevels n) 2 with h | h
    · have : nLevels n - 1 = 0 := by omega
      rw [this] at l2; simp at l2; omega
    · rcases Nat.eq_or_lt_of_le h with h | h'
      · exact h.symm
      · have h3 := l3 h
        have : 10 ^ 1 ≤ 10 ^ (nLevels n - 2) := Nat.pow_le_pow_right (by norm_num) (by omega)
        omega
  have a1 := (C58_coarse_counts h1 (le_refl 2) (by rw [hl2] at l2; exact l2)).1
  obtain ⟨⟨rest, hr⟩, hpn, hg⟩ := finest_ok sigma hp hs
  have hf : (finestLevel mu sigma poly).pts.filter (fun i => i ∉ poly) = rest := by rw [hr]; exact filter_poly (hr ▸ hpn)
  have hfree : free env.dim poly (finestLevel mu sigma poly) = rest.length + env.dim * (finestLevel mu sigma poly).grads.length := by
    unfold free
    rw [hr, List.length_append, Nat.add_sub_cancel_left]
  obtain ⟨N, ds, d1, -⟩ := C22_division he hpn hg hp
  refine ⟨N, fun fuel hfu => ?_⟩
  unfold build
  rw [← hn]
  dsimp only
  rw [hl2]
  show buildLevels env q drain fuel _ poly 1 _ = none
  unfold buildLevels
  rw [d1 fuel hfu]
  dsimp only
  rw [C23_excessive_request_never_returns he hq drain]
  · by_cases hgr : (finestLevel mu sigma poly).grads = []
    · left
      rw [hgr] at hfree
      cases hre : rest with
      | nil => rw [hre] at hfree; simp only [List.length_nil, Nat.mul_zero, Nat.add_zero] at hfree; omega
      | cons i rest' =>
        have : i ∈ (finestLevel mu sigma poly).pts.filter (fun i => i ∉ poly) := by rw [hf, hre]; exact List.mem_cons_self
        rw [List.mem_filter] at this
        exact ⟨i, this.1, by simpa using this.2⟩
    · exact Or.inr hgr
  · rw [hf, ← hfree]
    show ((free env.dim poly (finestLevel mu sigma poly) : Nat) : Int) < ((nCoarsePoints n 2 1 : Nat) : Int)
    rw [a1]
    omega

/-- What the constructor sets up meets the conditions under which the theorems about applying the preconditioner hold. -/
theorem C58_constructor_builds {env : Env} (he : env.Ok) {q : Queue} (hq : q.Ok) {drain : List Cluster → List Cluster} (hdr : ∀ cs, (drain cs).Perm cs)
    {s : Sys} {c : Pre} {poly : List Nat} (hdim : s.dim = env.dim) (hp : poly.Nodup) (hs : ∀ i ∈ poly, i < s.mu) (hl : poly.length ≤ 10) (h0 : 0 < s.N)
    (hle : s.N ≤ 2048 ∨ 2048 + poly.length ≤ s.N) (hn : c.n = nLevels s.N)
    (hlv : ∀ fuel L, build env q drain fuel s.mu s.sigma poly = some (.ok L) → ∀ (k : Nat) p, L[k]? = some p → c.lv k = p.1 ∧ (c.fine k).map Prod.fst = p.2)
    (hsched : ∀ k ts, Interleaving ts (c.sched k ts)) (hap : ∀ i < s.N, ∀ t < s.l, c.ap i t = ∑ j ∈ Finset.range s.N, s.K i j * c.p j t) : Built s c := by
  have hN : s.N = s.mu + env.dim * s.sigma := by unfold Sys.N; rw [hdim]
  rw [hN] at h0 hle hn
  obtain ⟨N, L, b1, b2, b3, b4, b5, -, b6⟩ := C58_constructor_levels he hq hdr hp hs hl h0 hle
  have hlv := hlv (N + 1) L (b1 _ (by omega))
  have hget : ∀ k < c.n, ∃ p, L[k]? = some p ∧ c.lv k = p.1 ∧ (c.fine k).map Prod.fst = p.2 := by
    intro k hk
    have : k < L.length := by omega
    exact ⟨L[k], List.getElem?_eq_getElem this, hlv k _ (List.getElem?_eq_getElem this)⟩
  have hpos := (C58_levels h0).1
  have hsub : ∀ j k, k + j < c.n → ∀ p p', L[k]? = some p → L[k + j]? = some p' → (∀ i ∈ p.1.pts, i ∈ p'.1.pts) ∧ ∀ i ∈ p.1.grads, i ∈ p'.1.grads := by
    intro j
    induction j with
    | zero =>
      intro k _ p p' h h'
      rw [Nat.add_zero, h] at h'
      simp only [Option.some.injEq] at h'
      subst h'
      exact ⟨fun i h => h, fun i h => h⟩
    | succ j ih =>
      intro k hk p p' h h'
      obtain ⟨p1, e1, -, -⟩ := hget (k + j) (by omega)
      obtain ⟨i1, i2⟩ := ih k (by omega) p p1 h e1
      obtain ⟨j1, j2⟩ := b5 (k + j) p1 p' e1 h'
      exact ⟨fun i h => j1 i (i1 i h), fun i h => j2 i (i2 i h)⟩
  have hrange : ∀ k < c.n, (∀ i ∈ (c.lv k).pts, i < s.mu) ∧ ∀ i ∈ (c.lv k).grads, i < s.sigma := by
    intro k hk
    obtain ⟨p, e1, e2, -⟩ := hget k hk
    obtain ⟨p', f1, f2, -⟩ := hget (c.n - 1) (by omega)
    obtain ⟨g1, g2⟩ := b3 p' (by rw [b2, ← hn]; exact f1)
    obtain ⟨h1, h2⟩ := hsub (c.n - 1 - k) k (by omega) p p' e1 (by rw [show k + (c.n - 1 - k) = c.n - 1 by omega]; exact f1)
    rw [e2]
    refine ⟨fun i hi => ?_, fun i hi => ?_⟩
    · have := (g1.mem_iff).1 (h1 i hi)
      exact List.mem_range.1 this
    · have := h2 i hi
      rw [g2] at this
      exact List.mem_range.1 this
  constructor
  · omega
  · intro k hk
    obtain ⟨p, e1, e2, -⟩ := hget k hk
    refine ⟨?_, (hrange k hk).1⟩
    rw [e2]
    exact (b4 k p e1).pts
  · intro k hk
    obtain ⟨p, e1, e2, -⟩ := hget k hk
    refine ⟨?_, (hrange k hk).2⟩
    rw [e2]
    exact (b4 k p e1).grads
  · intro k hk
    obtain ⟨p, e1, e2, -⟩ := hget k (by omega)
    obtain ⟨p', f1, f2, -⟩ := hget (k + 1) hk
    rw [e2, f2]
    exact b5 k p p' e1 f1
  · obtain ⟨p', f1, f2, -⟩ := hget (c.n - 1) (by omega)
    obtain ⟨g1, g2⟩ := b3 p' (by rw [b2, ← hn]; exact f1)
    rw [f2]
    refine ⟨fun i hi => (g1.mem_iff).2 (List.mem_range.2 hi), fun i hi => ?_⟩
    rw [g2]
    exact List.mem_range.2 hi
  · intro k h1 hk f hf
    obtain ⟨p, e1, e2, e3⟩ := hget k hk
    rw [e2]
    apply (b6 k p h1 e1).sub
    rw [← e3]
    exact List.mem_map_of_mem hf
  · intro k h1 hk
    obtain ⟨p, e1, e2, e3⟩ := hget k hk
    have d1 := (b6 k p h1 e1).pts
    have d2 := (b6 k p h1 e1).grads
    rw [e2]
    refine ⟨fun i => ?_, fun i => ?_⟩
    · rw [← d1 i, ← e3, List.map_map]; rfl
    · rw [← d2 i, ← e3, List.map_map]; rfl
  · exact hsched
  · exact hap

/-! ## The coarse grid -/

open Matrix

/-- the place of a row of the coarse grid -/
def place (l : Nat) {r : Nat} : Fin l ⊕ Fin r → Nat
  | Sum.inl i => i
  | Sum.inr i => l + i

theorem sum_place (l r : Nat) (f : Nat → ℝ) : ∑ j ∈ Finset.range (l + r), f j = ∑ x : Fin l ⊕ Fin r, f (place l x) := by
  rw [Fintype.sum_sum_type, Finset.sum_range_add, Finset.sum_range, Finset.sum_range]
  rfl

theorem getD_ofFn {n : Nat} (f : Fin n → ℝ) (i : Fin n) : (List.ofFn f).getD i 0 = f i := by
  rw [List.getD_eq_getElem?_getD, List.getElem?_eq_getElem (by simp), List.getElem_ofFn]
  rfl

theorem getD_place {l r : Nat} (f : Fin l → ℝ) (g : Fin r → ℝ) (x : Fin l ⊕ Fin r) : (List.ofFn f ++ List.ofFn g).getD (place l x) 0 = Sum.elim f g x := by
  cases x with
  | inl i =>
    rw [List.getD_eq_getElem?_getD, List.getElem?_append_left (by simp [place]), ← List.getD_eq_getElem?_getD]
    exact getD_ofFn f i
  | inr i =>
    rw [List.getD_eq_getElem?_getD, List.getElem?_append_right (by simp [place]), ← List.getD_eq_getElem?_getD]
    simp only [place, List.length_ofFn, Nat.add_sub_cancel_left]
    exact getD_ofFn g i

/-- The coarse grid of the code, whose rows of the Lagrange matrix are the right ones (C26) and whose factorisations solve their systems, solves the system of the
interpolation problem at its points. -/
theorem C58_coarse_grid_solves {s : Sys} {c : Pre} {nugget : ℝ} {r : Nat} (hr : (rows s (c.lv 0)).length = s.l + r)
    {a : Matrix (Fin s.l ⊕ Fin r) (Fin s.l ⊕ Fin r) ℝ} {p : Matrix (Fin s.l ⊕ Fin r) (Fin s.l) ℝ} {lag : Matrix (Fin r) (Fin s.l) ℝ}
    {ldlt : (Fin r → ℝ) → Fin r → ℝ} {lu : (Fin s.l → ℝ) → Fin s.l → ℝ} (hcoarse : c.coarse = coarseSolve s.l r a lag ldlt lu)
    (ha : ∀ x y, a x y = s.K ((rows s (c.lv 0)).getD (place s.l x) 0) ((rows s (c.lv 0)).getD (place s.l y) 0) +
      if x = y ∧ (rows s (c.lv 0)).getD (place s.l x) 0 < s.mu then nugget else 0)
    (hp : ∀ x t, p x t = s.P ((rows s (c.lv 0)).getD (place s.l x) 0) t)
    (hlag : p.submatrix Sum.inr id = lag * p.submatrix Sum.inl id) (hldlt : ∀ b, qtaq a (qTop lag) *ᵥ ldlt b = b)
    (hlu : ∀ b, p.submatrix Sum.inl id *ᵥ lu b = b) : CoarseSolves s c nugget := by
  intro d hd
  obtain ⟨dv, hdv⟩ : ∃ dv : Fin s.l ⊕ Fin r → ℝ, dv = Sum.elim (fun i : Fin s.l => d.getD i 0) (fun i : Fin r => d.getD (s.l + i) 0) := ⟨_, rfl⟩
  obtain ⟨g, hg⟩ : ∃ g, g = ldlt (qtd (qTop lag) dv) := ⟨_, rfl⟩
  obtain ⟨lam, hlam⟩ : ∃ lam, lam = lambdaOf (qTop lag) g := ⟨_, rfl⟩
  obtain ⟨co, hco⟩ : ∃ co, co = lu (polyRhs a dv lam) := ⟨_, rfl⟩
  have hl := getD_place (fun i => lam (Sum.inl i)) (fun i => lam (Sum.inr i))
  obtain ⟨o1, o2⟩ := C26_interpolates_and_orthogonal a dv p lag hlag (gamma := g) (by rw [hg, hldlt]) (c := co) (by rw [hco, hlu, hlam])
  rw [← hlam] at o1 o2
  have el : ∀ x, Sum.elim (fun i => lam (Sum.inl i)) (fun i => lam (Sum.inr i)) x = lam x := by
    intro x; cases x <;> rfl
  have hlen : (List.ofFn (fun i => lam (Sum.inl i)) ++ List.ofFn fun i => lam (Sum.inr i)).length = s.l + r := by simp
  refine ⟨List.ofFn (fun i => lam (Sum.inl i)) ++ List.ofFn fun i => lam (Sum.inr i), List.ofFn co, ?_, by rw [hlen, hr], by simp, ?_, ?_⟩
  · rw [hcoarse]
    unfold coarseSolve
    dsimp only
    rw [← hdv, ← hg, ← hlam, ← hco]
  · intro k hk
    dsimp only
    rw [hr] at hk ⊢
    obtain ⟨x, rfl⟩ : ∃ x : Fin s.l ⊕ Fin r, k = place s.l x := by
      by_cases h : k < s.l
      · exact ⟨Sum.inl ⟨k, h⟩, rfl⟩
      · exact ⟨Sum.inr ⟨k - s.l, by omega⟩, by simp only [place]; omega⟩
    rw [sum_place, Finset.sum_range]
    have h1 := congrFun o2 x
    simp only [Pi.add_apply, Matrix.mulVec, dotProduct, ha, hp, add_mul, Finset.sum_add_distrib] at h1
    have h2 : ∑ y, (if x = y ∧ (rows s (c.lv 0)).getD (place s.l x) 0 < s.mu then nugget else 0) * lam y =
        if (rows s (c.lv 0)).getD (place s.l x) 0 < s.mu then nugget * lam x else 0 := by
      split
      · rename_i h
        simp only [h, and_true, ite_mul, zero_mul, Finset.sum_ite_eq, Finset.mem_univ, if_true]
      · rename_i h
        simp only [h, and_false, if_false, zero_mul, Finset.sum_const_zero]
    rw [h2] at h1
    simp only [hl, el]
    have h3 : d.getD (place s.l x) 0 = dv x := by
      rw [hdv]
      cases x <;> rfl
    rw [h3, ← h1]
    congr 1
    exact Finset.sum_congr rfl fun t _ => by rw [getD_ofFn]
  · intro t ht
    rw [hr, sum_place]
    have h1 := congrFun o1 ⟨t, ht⟩
    simp only [Matrix.mulVec, dotProduct, Matrix.transpose_apply, hp, Pi.zero_apply] at h1
    refine Eq.trans ?_ h1
    exact Finset.sum_congr rfl fun x _ => by rw [hl, el]

theorem ofFn_comb {n : Nat} (a b : ℝ) (f g : Fin n → ℝ) : comb a b (List.ofFn f) (List.ofFn g) = List.ofFn fun i => a * f i + b * g i := by
  unfold comb
  apply List.ext_getElem
  · simp
  · intro k h1 h2
    simp

theorem comb_append {a b : ℝ} {x y x' y' : List ℝ} (h : x.length = x'.length) : comb a b (x ++ y) (x' ++ y') = comb a b x x' ++ comb a b y y' :=
  List.zipWith_append h

theorem getD_comb (a b : ℝ) {x y : List ℝ} (h : x.length = y.length) (k : Nat) : (comb a b x y).getD k 0 = a * x.getD k 0 + b * y.getD k 0 := by
  unfold comb
  rw [List.getD_eq_getElem?_getD, List.getD_eq_getElem?_getD, List.getD_eq_getElem?_getD, List.getElem?_zipWith]
  by_cases hk : k < x.length
  · rw [List.getElem?_eq_getElem hk, List.getElem?_eq_getElem (h ▸ hk)]
    rfl
  · rw [List.getElem?_eq_none (by omega), List.getElem?_eq_none (by omega)]
    simp

/-- The coarse grid of the code is linear when the solutions with its factorisations are. -/
theorem C58_coarse_grid_linear {l r : Nat} {m : Matrix (Fin l ⊕ Fin r) (Fin l ⊕ Fin r) ℝ} {lag : Matrix (Fin r) (Fin l) ℝ}
    {ldlt : (Fin r → ℝ) → Fin r → ℝ} {lu : (Fin l → ℝ) → Fin l → ℝ}
    (h1 : ∀ (a b : ℝ) x y, ldlt (fun i => a * x i + b * y i) = fun i => a * ldlt x i + b * ldlt y i)
    (h2 : ∀ (a b : ℝ) x y, lu (fun i => a * x i + b * y i) = fun i => a * lu x i + b * lu y i) (a b : ℝ) {x y : List ℝ} (h : x.length = y.length) :
    coarseSolve l r m lag ldlt lu (comb a b x y) = comb a b (coarseSolve l r m lag ldlt lu x) (coarseSolve l r m lag ldlt lu y) := by
  have mv : ∀ {α β : Type} [Fintype β] (M : Matrix α β ℝ) (u v : β → ℝ) (i : α), (M *ᵥ fun j => a * u j + b * v j) i = a * (M *ᵥ u) i + b * (M *ᵥ v) i := by
    intro α β _ M u v i
    simp only [Matrix.mulVec, dotProduct, mul_add, Finset.sum_add_distrib, Finset.mul_sum]
    congr 1 <;> exact Finset.sum_congr rfl fun j _ => by ring
  have e1 : (Sum.elim (fun i : Fin l => (comb a b x y).getD i 0) (fun i : Fin r => (comb a b x y).getD (l + i) 0) : Fin l ⊕ Fin r → ℝ) =
      fun j => a * Sum.elim (fun i : Fin l => x.getD i 0) (fun i : Fin r => x.getD (l + i) 0) j +
        b * Sum.elim (fun i : Fin l => y.getD i 0) (fun i : Fin r => y.getD (l + i) 0) j := by
    funext j
    cases j <;> simp only [Sum.elim_inl, Sum.elim_inr, getD_comb a b h]
  unfold coarseSolve
  dsimp only
  rw [e1]
  generalize (Sum.elim (fun i : Fin l => x.getD i 0) (fun i : Fin r => x.getD (l + i) 0) : Fin l ⊕ Fin r → ℝ) = u
  generalize (Sum.elim (fun i : Fin l => y.getD i 0) (fun i : Fin r => y.getD (l + i) 0) : Fin l ⊕ Fin r → ℝ) = v
  have e2 : qtd (qTop lag) (fun j => a * u j + b * v j) = fun i => a * qtd (qTop lag) u i + b * qtd (qTop lag) v i := by
    funext i
    have := mv (qTop lag).transpose (u ∘ Sum.inl) (v ∘ Sum.inl) i
    simp only [qtd, Pi.add_apply, Function.comp_apply] at this ⊢
    have e : ((fun j => a * u j + b * v j) ∘ Sum.inl : Fin l → ℝ) = fun j => a * u (Sum.inl j) + b * v (Sum.inl j) := rfl
    rw [e, this]
    ring
  rw [e2, h1]
  generalize ldlt (qtd (qTop lag) u) = gu
  generalize ldlt (qtd (qTop lag) v) = gv
  have e3 : lambdaOf (qTop lag) (fun i => a * gu i + b * gv i) = fun j => a * lambdaOf (qTop lag) gu j + b * lambdaOf (qTop lag) gv j := by
    funext j
    cases j with
    | inl i => exact mv (qTop lag) gu gv i
    | inr i => rfl
  rw [e3]
  generalize lambdaOf (qTop lag) gu = lu'
  generalize lambdaOf (qTop lag) gv = lv'
  have e4 : polyRhs m (fun j => a * u j + b * v j) (fun j => a * lu' j + b * lv' j) = fun i => a * polyRhs m u lu' i + b * polyRhs m v lv' i := by
    funext i
    simp only [polyRhs, Pi.sub_apply, Function.comp_apply]
    rw [mv]
    ring
  rw [e4, h2, comb_append (by simp), comb_append (by simp), ofFn_comb, ofFn_comb, ofFn_comb]

/-! ## Concrete cases -/

theorem interleaving_flatten {α : Type} (pre ts : List (List α)) (h : ∀ t ∈ pre, t = []) : Interleaving (pre ++ ts) ts.flatten := by
  induction ts generalizing pre with
  | nil => rw [List.append_nil]; exact Interleaving.done _ h
  | cons t ts ih =>
    induction t with
    | nil =>
      have := ih (pre ++ [[]]) (by
        intro t ht
        rcases List.mem_append.1 ht with ht | ht
        · exact h t ht
        · simpa using ht)
      rw [List.append_assoc] at this
      exact this
    | cons x t iht => exact Interleaving.step pre ts x t _ iht

/-- 3000 value points and 50 gradient points with four polynomial points -/
example : ∃ N L, (∀ fuel, N < fuel → build demoEnv ⟨demoTop, fun _ => 0⟩ id fuel 3000 50 [0, 5, 9, 700] = some (.ok L)) ∧ L.length = nLevels 3150 := by
  obtain ⟨N, L, h1, h2, -⟩ := C58_constructor_levels demoEnv_ok demoQueue_ok (drain := id) (fun cs => List.Perm.refl cs) (mu := 3000) (sigma := 50)
    (poly := [0, 5, 9, 700]) (by decide) (by decide) (by decide) (by decide) (Or.inr (by decide))
  exact ⟨N, L, h1, h2⟩

/-- 2050 value points with four polynomial points -/
example : ∃ N, ∀ fuel, N < fuel → build demoEnv ⟨demoTop, fun _ => 0⟩ id fuel 2050 0 [0, 5, 9, 700] = none :=
  C58_constructor_hangs demoEnv_ok demoQueue_ok id (by decide) (by decide) (by decide) (by decide) (by decide)

/-- two points on a line, a constant polynomial, a kernel that is one at distance zero and zero elsewhere -/
def demoSys : Sys := ⟨1, 2, 0, 1, fun i j => if i = j then 1 else 0, fun _ _ => 1⟩

/-- two levels; the coarse grid is the one of the code, for one point -/
noncomputable def demoPre : Pre where
  n := 2
  lv := fun k => if k = 0 then ⟨[0], []⟩ else ⟨[0, 1], []⟩
  coarse := coarseSolve 1 0 (fun _ _ => 1) (fun _ _ => 0) id id
  fine := fun _ => [(⟨[(0, true), (1, true)], []⟩, fun d i => if i = 0 then (d.getD 0 0 - d.getD 1 0) / 2 else (d.getD 1 0 - d.getD 0 0) / 2)]
  sched := fun _ ts => ts.flatten
  p := fun _ _ => (Real.sqrt 2)⁻¹
  ap := fun _ _ => (Real.sqrt 2)⁻¹

theorem demo_built : Built demoSys demoPre where
  pos := by simp [demoPre]
  pts := by
    intro k _
    by_cases hk : k = 0 <;> simp [demoPre, demoSys, hk]
  grads := by
    intro k _
    by_cases hk : k = 0 <;> simp [demoPre, hk]
  nested := by
    intro k hk
    have : k = 0 := by simp only [demoPre] at hk; omega
    subst this
    simp [demoPre]
  finest := by
    constructor
    · intro i hi
      have : i < 2 := hi
      simp only [demoPre, Nat.add_one_sub_one, one_ne_zero, if_false, List.mem_cons, List.not_mem_nil, or_false]
      omega
    · intro i hi
      exact absurd hi (Nat.not_lt_zero i)
  domains := by
    intro k h1 _ f hf
    have h0 : k ≠ 0 := by omega
    simp only [demoPre, List.mem_singleton] at hf
    subst hf
    simp [demoPre, h0]
  inner := by
    intro k h1 _
    have h0 : k ≠ 0 := by omega
    constructor
    · intro i
      simp only [demoPre, h0, if_false, List.map_cons, List.map_nil, List.sum_cons, List.sum_nil, Nat.add_zero]
      by_cases h0 : i = 0
      · subst h0; decide
      · by_cases h1 : i = 1
        · subst h1; decide
        · rw [if_neg (by simp [h0, h1]), List.count_eq_zero]
          simp [h0, h1]
    · intro i
      simp [demoPre, h0]
  sched := fun k ts => interleaving_flatten [] ts (by simp)
  ap := by
    intro i hi t _
    have : i < 2 := hi
    show (Real.sqrt 2)⁻¹ = ∑ j ∈ Finset.range 2, (if i = j then 1 else 0) * (Real.sqrt 2)⁻¹
    rw [Finset.sum_range_succ, Finset.sum_range_one]
    have : i = 0 ∨ i = 1 := by omega
    rcases this with rfl | rfl <;> simp

theorem demo_orthonormal : Orthonormal demoSys demoPre := by
  have h2 : Real.sqrt 2 ≠ 0 := by positivity
  have hs : Real.sqrt 2 * Real.sqrt 2 = 2 := Real.mul_self_sqrt (by norm_num)
  constructor
  · intro t ht u hu
    have ht : t < 1 := ht
    have hu : u < 1 := hu
    rw [if_pos (by omega)]
    show ∑ i ∈ Finset.range 2, (Real.sqrt 2)⁻¹ * (Real.sqrt 2)⁻¹ = 1
    rw [Finset.sum_const, Finset.card_range, ← mul_inv, hs]
    norm_num
  · refine ⟨fun _ _ => Real.sqrt 2, fun i _ t _ => ?_⟩
    show (1 : ℝ) = ∑ u ∈ Finset.range 1, (Real.sqrt 2)⁻¹ * Real.sqrt 2
    rw [Finset.sum_range_one, inv_mul_cancel₀ h2]

theorem demo_coarse : CoarseSolves demoSys demoPre 0 := by
  refine C58_coarse_grid_solves (r := 0) (p := fun _ _ => 1) (by decide) (hcoarse := rfl) ?_ (fun _ _ => rfl) ?_ ?_ ?_
  · intro x y
    rcases x with x | x
    · rcases y with y | y
      · have : x.1 < 1 := x.2
        have : y.1 < 1 := y.2
        have e1 : x.1 = 0 := by omega
        have e2 : y.1 = 0 := by omega
        simp [demoSys, place, e1, e2]
      · exact y.elim0
    · exact x.elim0
  · ext i; exact i.elim0
  · intro b; funext i; exact i.elim0
  · intro b
    funext i
    have : b = fun _ => b i := by
      funext j
      congr 1
      have h1 : i.1 < 1 := i.2
      have h2 : j.1 < 1 := j.2
      apply Fin.ext; omega
    show ∑ j : Fin 1, (1 : ℝ) * b j = b i
    rw [Fin.sum_univ_one, one_mul, this]

/-- The hypotheses of the theorems about applying the preconditioner are met on two levels, and the values at the coarse point are reproduced. -/
example (v : Nat → ℝ) : SideConditions demoSys (apply demoSys demoPre v) ∧ full demoSys (apply demoSys demoPre v) 0 = v 0 := by
  refine ⟨C58_side_conditions demo_built demo_orthonormal demo_coarse v, ?_⟩
  obtain ⟨w, x, -, -, -, -, h⟩ := C58_coarse_values demo_built demo_orthonormal demo_coarse v
  exact h rfl 0 (by simp [rows, demoPre])

example : LinearSolves demoSys demoPre where
  length := fun d => by simp [demoPre, coarseSolve, rows, demoSys]
  coarse := fun a b x y h => C58_coarse_grid_linear (fun _ _ _ _ => rfl) (fun _ _ _ _ => rfl) a b h
  fine := by
    intro k f hf a b x y h i
    simp only [demoPre, List.mem_singleton] at hf
    subst hf
    dsimp only
    simp only [getD_comb a b h]
    split <;> ring

end Verif.Ras
