import Verif.Model.PrimitiveLattice
import Mathlib.Tactic.Linarith
import Mathlib.Tactic.LinearCombination
import Mathlib.Tactic.FieldSimp
import Mathlib.Tactic.Ring
import Mathlib.Tactic.Positivity

/-! # Lattice coordinates, and the ranges of the loops -/

namespace Verif.PrimLattice

open Verif Verif.Lattice

namespace Prim

variable {L : Prim}

theorem coords_step (h : L.det ≠ 0) (u : P3) :
    L.coords (u.1 * L.b0.1 + u.2.1 * L.b1.1 + u.2.2 * L.b2.1, u.1 * L.b0.2.1 + u.2.1 * L.b1.2.1 + u.2.2 * L.b2.2.1,
      u.1 * L.b0.2.2 + u.2.1 * L.b1.2.2 + u.2.2 * L.b2.2.2) = u := by
  unfold coords
  refine Prod.ext ?_ (Prod.ext ?_ ?_)
  · show _ / _ = _
    rw [div_eq_iff h]
    unfold det dot cross
    ring
  · show _ / _ = _
    rw [div_eq_iff h]
    unfold det dot cross
    ring
  · show _ / _ = _
    rw [div_eq_iff h]
    unfold det dot cross
    ring

theorem unrounded_at (h : L.det ≠ 0) (u : P3) : L.unrounded (L.at_ u) = u := by
  unfold unrounded at_
  rw [coords_step h ((L.origin.x : ℝ) + u.1, (L.origin.y : ℝ) + u.2.1, (L.origin.z : ℝ) + u.2.2)]
  refine Prod.ext ?_ (Prod.ext ?_ ?_) <;> simp

theorem at_unrounded (h : L.det ≠ 0) (p : P3) : L.at_ (L.unrounded p) = p := by
  unfold unrounded at_ coords
  simp only [add_sub_cancel]
  refine Prod.ext ?_ (Prod.ext ?_ ?_) <;> simp only <;> field_simp <;> unfold det dot cross <;> ring

/-- the box of the loops -/
abbrev InExt (L : Prim) (p : P3) : Prop :=
  ((L.extLo 2).1 ≤ p.1 ∧ (L.extLo 2).2.1 ≤ p.2.1 ∧ (L.extLo 2).2.2 ≤ p.2.2) ∧
    p.1 ≤ (L.extHi 2).1 ∧ p.2.1 ≤ (L.extHi 2).2.1 ∧ p.2.2 ≤ (L.extHi 2).2.2

theorem inBox_iff {lc : LC} : L.inBox lc = true ↔ L.InExt (L.position lc) := by
  unfold inBox; rw [decide_eq_true_eq]

/-! ## Folds -/

theorem fold_minO : ∀ (xs : List ℝ) (a : Option ℝ), (∃ x, x ∈ xs ∨ a = some x) →
    ∃ m, xs.foldl minO a = some m ∧ (∀ x ∈ xs, m ≤ x) ∧ (∀ x, a = some x → m ≤ x) ∧ (m ∈ xs ∨ a = some m)
  | [], a, ⟨x, hx⟩ => by
    rcases hx with hx | hx
    · cases hx
    · exact ⟨x, hx, by simp, fun y hy => by rw [hx] at hy; exact (Option.some.inj hy).le, Or.inr hx⟩
  | x :: xs, a, _ => by
    rw [List.foldl_cons]
    obtain ⟨m, h1, h2, h3, h4⟩ := fold_minO xs (minO a x) ⟨_, Or.inr rfl⟩
    have h5 := h3 _ rfl
    refine ⟨m, h1, ?_, ?_, ?_⟩
    · intro y hy
      rcases List.mem_cons.1 hy with rfl | hy
      · cases a with
        | none => exact h5
        | some z => exact h5.trans (min_le_right _ _)
      · exact h2 y hy
    · intro y hy
      subst hy
      exact h5.trans (min_le_left _ _)
    · rcases h4 with h4 | h4
      · exact Or.inl (List.mem_cons_of_mem _ h4)
      · cases a with
        | none => left; rw [← Option.some.inj h4]; exact List.mem_cons_self
        | some z =>
          have : min z x = m := Option.some.inj h4
          rcases min_choice z x with hc | hc
          · right; rw [← this, hc]
          · left; rw [← this, hc]; exact List.mem_cons_self

theorem fold_maxO : ∀ (xs : List ℝ) (a : Option ℝ), (∃ x, x ∈ xs ∨ a = some x) →
    ∃ m, xs.foldl maxO a = some m ∧ (∀ x ∈ xs, x ≤ m) ∧ (∀ x, a = some x → x ≤ m) ∧ (m ∈ xs ∨ a = some m)
  | [], a, ⟨x, hx⟩ => by
    rcases hx with hx | hx
    · cases hx
    · exact ⟨x, hx, by simp, fun y hy => by rw [hx] at hy; exact (Option.some.inj hy).ge, Or.inr hx⟩
  | x :: xs, a, _ => by
    rw [List.foldl_cons]
    obtain ⟨m, h1, h2, h3, h4⟩ := fold_maxO xs (maxO a x) ⟨_, Or.inr rfl⟩
    have h5 := h3 _ rfl
    refine ⟨m, h1, ?_, ?_, ?_⟩
    · intro y hy
      rcases List.mem_cons.1 hy with rfl | hy
      · cases a with
        | none => exact h5
        | some z => exact (le_max_right _ _).trans h5
      · exact h2 y hy
    · intro y hy
      subst hy
      exact (le_max_left _ _).trans h5
    · rcases h4 with h4 | h4
      · exact Or.inl (List.mem_cons_of_mem _ h4)
      · cases a with
        | none => left; rw [← Option.some.inj h4]; exact List.mem_cons_self
        | some z =>
          have : max z x = m := Option.some.inj h4
          rcases max_choice z x with hc | hc
          · right; rw [← this, hc]
          · left; rw [← this, hc]; exact List.mem_cons_self

/-- a range over a nonempty list of values covers all integers between two of them -/
theorem range_cover {us : List ℝ} {a b : ℝ} (ha : a ∈ us) (hb : b ∈ us) :
    ∃ r, intRange (us.foldl minO none) (us.foldl maxO none) = .ok r ∧ ∀ k : ℤ, a ≤ k → (k : ℝ) ≤ b → r.1 ≤ k ∧ k ≤ r.2 := by
  obtain ⟨m, h1, h2, -, -⟩ := fold_minO us none ⟨a, Or.inl ha⟩
  obtain ⟨M, g1, g2, -, -⟩ := fold_maxO us none ⟨a, Or.inl ha⟩
  rw [h1, g1]
  refine ⟨_, rfl, fun k hk hk' => ⟨?_, ?_⟩⟩
  · have : (⌊m⌋ : ℝ) ≤ k := (Int.floor_le m).trans ((h2 a ha).trans hk)
    exact_mod_cast this
  · have : (k : ℝ) ≤ ⌈M⌉ := hk'.trans ((g2 b hb).trans (Int.le_ceil M))
    exact_mod_cast this

/-! ## The first coordinate -/

theorem slab_spec {lo hi p d t : ℝ} (hl : lo ≤ p + t * d) (hh : p + t * d ≤ hi) : (d = 0 ∧ slab lo hi p d = none) ∨
    ∃ r, slab lo hi p d = some r ∧ r.1 ≤ t ∧ t ≤ r.2 := by
  unfold slab
  by_cases h0 : d = 0
  · exact Or.inl ⟨h0, if_pos h0⟩
  · right
    rw [if_neg h0]
    rcases lt_or_gt_of_ne h0 with hd | hd
    · have e1 : (hi - p) / d ≤ t := by rw [div_le_iff_of_neg hd]; linarith
      have e2 : t ≤ (lo - p) / d := by rw [le_div_iff_of_neg hd]; linarith
      split
      · exact ⟨_, rfl, e1, e2⟩
      · rename_i h
        have : (lo - p) / d = (hi - p) / d := le_antisymm (not_lt.1 h) (e1.trans e2)
        refine ⟨_, rfl, ?_, ?_⟩
        · show (lo - p) / d ≤ t; linarith
        · show t ≤ (hi - p) / d; linarith
    · have e1 : (lo - p) / d ≤ t := by rw [div_le_iff₀ hd]; linarith
      have e2 : t ≤ (hi - p) / d := by rw [le_div_iff₀ hd]; linarith
      split
      · rename_i h
        refine ⟨_, rfl, ?_, ?_⟩
        · show (hi - p) / d ≤ t; linarith [e1.trans e2]
        · show t ≤ (lo - p) / d; linarith [e1.trans e2]
      · exact ⟨_, rfl, e1, e2⟩

theorem b0_ne (h : L.det ≠ 0) : ¬(L.b0.1 = 0 ∧ L.b0.2.1 = 0 ∧ L.b0.2.2 = 0) := by
  rintro ⟨h1, h2, h3⟩
  apply h
  unfold det dot
  rw [h1, h2, h3]
  ring

theorem first_cover (h : L.det ≠ 0) {lc : LC} (hb : L.inBox lc = true) :
    ∃ r, L.firstRange lc.y lc.z = .ok r ∧ r.1 ≤ lc.x ∧ lc.x ≤ r.2 := by
  rw [inBox_iff] at hb
  obtain ⟨⟨l1, l2, l3⟩, u1, u2, u3⟩ := hb
  unfold firstRange
  dsimp only
  generalize hts : List.filterMap id _ = ts
  obtain ⟨t, ht⟩ : ∃ t : ℝ, t = L.origin.x + lc.x := ⟨_, rfl⟩
  have key : ∀ r ∈ ts, r.1 ≤ t ∧ t ≤ r.2 := by
    intro r hr
    rw [← hts, List.mem_filterMap] at hr
    obtain ⟨o, ho, e⟩ := hr
    simp only [id] at e
    subst e
    simp only [List.mem_cons, List.not_mem_nil, or_false] at ho
    rcases ho with ho | ho | ho
    · rcases slab_spec (t := t) (lo := (L.extLo 2).1) (hi := (L.extHi 2).1) (p := ((L.origin.y : ℝ) + lc.y) * L.b1.1 + ((L.origin.z : ℝ) + lc.z) * L.b2.1) (d := L.b0.1)
        (l1.trans_eq (by rw [ht]; unfold position at_ cast; ring)) ((by rw [ht]; unfold position at_ cast; ring : _ = (L.position lc).1).le.trans u1) with h' | ⟨r', h', h2⟩
      · rw [h'.2] at ho; cases ho
      · rw [h'] at ho; obtain rfl := Option.some.inj ho; exact h2
    · rcases slab_spec (t := t) (lo := (L.extLo 2).2.1) (hi := (L.extHi 2).2.1) (p := ((L.origin.y : ℝ) + lc.y) * L.b1.2.1 + ((L.origin.z : ℝ) + lc.z) * L.b2.2.1) (d := L.b0.2.1)
        (l2.trans_eq (by rw [ht]; unfold position at_ cast; ring)) ((by rw [ht]; unfold position at_ cast; ring : _ = (L.position lc).2.1).le.trans u2) with h' | ⟨r', h', h2⟩
      · rw [h'.2] at ho; cases ho
      · rw [h'] at ho; obtain rfl := Option.some.inj ho; exact h2
    · rcases slab_spec (t := t) (lo := (L.extLo 2).2.2) (hi := (L.extHi 2).2.2) (p := ((L.origin.y : ℝ) + lc.y) * L.b1.2.2 + ((L.origin.z : ℝ) + lc.z) * L.b2.2.2) (d := L.b0.2.2)
        (l3.trans_eq (by rw [ht]; unfold position at_ cast; ring)) ((by rw [ht]; unfold position at_ cast; ring : _ = (L.position lc).2.2).le.trans u3) with h' | ⟨r', h', h2⟩
      · rw [h'.2] at ho; cases ho
      · rw [h'] at ho; obtain rfl := Option.some.inj ho; exact h2
  have hne : ∃ r, r ∈ ts := by
    by_contra hc
    have hnil : ts = [] := List.eq_nil_iff_forall_not_mem.2 fun r hr => hc ⟨r, hr⟩
    rw [hnil] at hts
    have hno : ∀ lo hi p d : ℝ, slab lo hi p d = none → d = 0 := by
      intro lo hi p d hs
      unfold slab at hs
      split at hs
      · assumption
      · split at hs <;> cases hs
    rw [List.filterMap_eq_nil_iff] at hts
    simp only [List.mem_cons, List.not_mem_nil, or_false, id] at hts
    exact b0_ne h ⟨hno _ _ _ _ (hts _ (Or.inl rfl)), hno _ _ _ _ (hts _ (Or.inr (Or.inl rfl))), hno _ _ _ _ (hts _ (Or.inr (Or.inr rfl)))⟩
  obtain ⟨r, hr⟩ := hne
  obtain ⟨m, h1, -, -, h2⟩ := fold_maxO (ts.map Prod.fst) none ⟨r.1, Or.inl (List.mem_map.2 ⟨r, hr, rfl⟩)⟩
  obtain ⟨M, g1, -, -, g2⟩ := fold_minO (ts.map Prod.snd) none ⟨r.2, Or.inl (List.mem_map.2 ⟨r, hr, rfl⟩)⟩
  rw [h1, g1]
  have hm : m ≤ t := by
    rcases h2 with h2 | h2
    · obtain ⟨r', hr', e⟩ := List.mem_map.1 h2
      rw [← e]; exact (key r' hr').1
    · cases h2
  have hM : t ≤ M := by
    rcases g2 with g2 | g2
    · obtain ⟨r', hr', e⟩ := List.mem_map.1 g2
      rw [← e]; exact (key r' hr').2
    · cases g2
  have hu : ∀ t : ℝ, (L.unrounded
      (((L.origin.y : ℝ) + lc.y) * L.b1.1 + ((L.origin.z : ℝ) + lc.z) * L.b2.1 + t * L.b0.1,
       ((L.origin.y : ℝ) + lc.y) * L.b1.2.1 + ((L.origin.z : ℝ) + lc.z) * L.b2.2.1 + t * L.b0.2.1,
       ((L.origin.y : ℝ) + lc.y) * L.b1.2.2 + ((L.origin.z : ℝ) + lc.z) * L.b2.2.2 + t * L.b0.2.2)).1 = t - L.origin.x := by
    intro t
    have e := unrounded_at h (t - L.origin.x, (lc.y : ℝ), (lc.z : ℝ))
    have e2 : L.at_ (t - L.origin.x, (lc.y : ℝ), (lc.z : ℝ)) =
      (((L.origin.y : ℝ) + lc.y) * L.b1.1 + ((L.origin.z : ℝ) + lc.z) * L.b2.1 + t * L.b0.1,
       ((L.origin.y : ℝ) + lc.y) * L.b1.2.1 + ((L.origin.z : ℝ) + lc.z) * L.b2.2.1 + t * L.b0.2.1,
       ((L.origin.y : ℝ) + lc.y) * L.b1.2.2 + ((L.origin.z : ℝ) + lc.z) * L.b2.2.2 + t * L.b0.2.2) := by
      unfold at_
      refine Prod.ext ?_ (Prod.ext ?_ ?_) <;> simp only <;> ring
    rw [← e2, e]
  refine ⟨(⌊m - L.origin.x⌋, ⌈M - L.origin.x⌉), ?_, ?_, ?_⟩
  · simp only [Option.map_some, hu]
    rfl
  · have : (⌊m - L.origin.x⌋ : ℝ) ≤ lc.x := (Int.floor_le _).trans (by linarith)
    exact_mod_cast this
  · have : (lc.x : ℝ) ≤ ⌈M - L.origin.x⌉ := le_trans (by linarith) (Int.le_ceil _)
    exact_mod_cast this

/-! ## The third coordinate -/

theorem unrounded_lin (L : Prim) : ∃ (α β : P3) (a b : ℝ), (∀ p, (L.unrounded p).2.1 = dot α p + a) ∧ (∀ p, (L.unrounded p).2.2 = dot β p + b) ∧
    β = ((cross L.b0 L.b1).1 / L.det, (cross L.b0 L.b1).2.1 / L.det, (cross L.b0 L.b1).2.2 / L.det) ∧ b = -L.origin.z := by
  refine ⟨((cross L.b2 L.b0).1 / L.det, (cross L.b2 L.b0).2.1 / L.det, (cross L.b2 L.b0).2.2 / L.det), _, -L.origin.y, _, ?_, ?_, rfl, rfl⟩
  · intro p
    unfold unrounded coords dot
    ring
  · intro p
    unfold unrounded coords dot
    ring

theorem corner_le (α : P3) {lo hi p : P3} (hl : lo.1 ≤ p.1 ∧ lo.2.1 ≤ p.2.1 ∧ lo.2.2 ≤ p.2.2) (hh : p.1 ≤ hi.1 ∧ p.2.1 ≤ hi.2.1 ∧ p.2.2 ≤ hi.2.2) :
    ∃ i < 8, dot α (corner lo hi i) ≤ dot α p := by
  have one : ∀ a l x h : ℝ, l ≤ x → x ≤ h → ∃ b : Bool, a * (if b then h else l) ≤ a * x := by
    intro a l x h h1 h2
    rcases le_total 0 a with ha | ha
    · exact ⟨false, mul_le_mul_of_nonneg_left h1 ha⟩
    · exact ⟨true, mul_le_mul_of_nonpos_left h2 ha⟩
  obtain ⟨b0, e0⟩ := one α.1 lo.1 p.1 hi.1 hl.1 hh.1
  obtain ⟨b1, e1⟩ := one α.2.1 lo.2.1 p.2.1 hi.2.1 hl.2.1 hh.2.1
  obtain ⟨b2, e2⟩ := one α.2.2 lo.2.2 p.2.2 hi.2.2 hl.2.2 hh.2.2
  have hi' : ∀ b0 b1 b2 : Bool, ∃ i < 8, Nat.testBit i 0 = b0 ∧ Nat.testBit i 1 = b1 ∧ Nat.testBit i 2 = b2 := by decide
  obtain ⟨i, hi8, t0, t1, t2⟩ := hi' b0 b1 b2
  refine ⟨i, hi8, ?_⟩
  unfold corner dot
  rw [t0, t1, t2]
  linarith

theorem third_cover (h : L.det ≠ 0) :
    ∃ r, L.thirdRange = .ok r ∧ ∀ lc : LC, L.inBox lc = true → r.1 ≤ lc.z ∧ lc.z ≤ r.2 := by
  obtain ⟨-, β, -, b, -, hβ, -⟩ := unrounded_lin L
  unfold thirdRange
  dsimp only
  generalize hus : List.map _ (List.range 8) = us
  have hmem : ∀ i < 8, (L.unrounded (corner (L.extLo 2) (L.extHi 2) i)).2.2 ∈ us := by
    intro i hi
    rw [← hus]
    exact List.mem_map.2 ⟨i, List.mem_range.2 hi, rfl⟩
  obtain ⟨m, h1, h2, -, -⟩ := fold_minO us none ⟨_, Or.inl (hmem 0 (by norm_num))⟩
  obtain ⟨M, g1, g2, -, -⟩ := fold_maxO us none ⟨_, Or.inl (hmem 0 (by norm_num))⟩
  rw [h1, g1]
  refine ⟨_, rfl, fun lc hlc => ?_⟩
  rw [inBox_iff] at hlc
  have hz : (L.unrounded (L.position lc)).2.2 = lc.z := by unfold position; rw [unrounded_at h]; rfl
  obtain ⟨i, hi, hle⟩ := corner_le β hlc.1 hlc.2
  obtain ⟨j, hj, hge⟩ := corner_le (-β.1, -β.2.1, -β.2.2) hlc.1 hlc.2
  have a1 := h2 _ (hmem i hi)
  have a2 := g2 _ (hmem j hj)
  rw [hβ] at a1 a2 hz
  have a3 : dot β (L.position lc) ≤ dot β (corner (L.extLo 2) (L.extHi 2) j) := by
    unfold dot at hge ⊢
    simp only at hge
    linarith
  constructor
  · have : (⌊m⌋ : ℝ) ≤ lc.z := (Int.floor_le m).trans (by linarith)
    exact_mod_cast this
  · have : (lc.z : ℝ) ≤ ⌈M⌉ := le_trans (by linarith) (Int.le_ceil M)
    exact_mod_cast this

/-! ## The second coordinate -/

theorem exit1 {l h x e : ℝ} (hl : l ≤ x) (hh : x ≤ h) (he : e ≠ 0) :
    ∃ s, 0 ≤ s ∧ (x + s * e = l ∨ x + s * e = h) ∧ ∀ r, 0 ≤ r → r ≤ s → l ≤ x + r * e ∧ x + r * e ≤ h := by
  rcases lt_or_gt_of_ne he with hn | hp
  · refine ⟨(l - x) / e, div_nonneg_of_nonpos (by linarith) hn.le, Or.inl (by field_simp; ring), fun r h0 hr => ?_⟩
    rw [le_div_iff_of_neg hn] at hr
    have : r * e ≤ 0 := mul_nonpos_of_nonneg_of_nonpos h0 hn.le
    constructor <;> linarith
  · refine ⟨(h - x) / e, div_nonneg (by linarith) hp.le, Or.inr (by field_simp; ring), fun r h0 hr => ?_⟩
    rw [le_div_iff₀ hp] at hr
    have : 0 ≤ r * e := mul_nonneg h0 hp.le
    constructor <;> linarith

/-- In a rectangle a point can be moved to the boundary along a line, without increasing a linear function. -/
theorem reduce2 (n1 n2 g1 g2 : ℝ) {l1 h1 l2 h2 x y : ℝ} (a1 : l1 ≤ x) (a2 : x ≤ h1) (b1 : l2 ≤ y) (b2 : y ≤ h2) :
    ∃ x' y', (l1 ≤ x' ∧ x' ≤ h1) ∧ (l2 ≤ y' ∧ y' ≤ h2) ∧ ((x' = l1 ∨ x' = h1) ∨ (y' = l2 ∨ y' = h2)) ∧
      n1 * x' + n2 * y' = n1 * x + n2 * y ∧ g1 * x' + g2 * y' ≤ g1 * x + g2 * y := by
  obtain ⟨e1, e2, hne, hn, hg⟩ : ∃ e1 e2 : ℝ, (e1 ≠ 0 ∨ e2 ≠ 0) ∧ n1 * e1 + n2 * e2 = 0 ∧ g1 * e1 + g2 * e2 ≤ 0 := by
    obtain ⟨e1, e2, hne, hn⟩ : ∃ e1 e2 : ℝ, (e1 ≠ 0 ∨ e2 ≠ 0) ∧ n1 * e1 + n2 * e2 = 0 := by
      by_cases h : n1 = 0 ∧ n2 = 0
      · exact ⟨1, 0, Or.inl one_ne_zero, by rw [h.1, h.2]; ring⟩
      · refine ⟨n2, -n1, ?_, by ring⟩
        by_contra hc
        push Not at hc
        exact h ⟨by linarith [hc.2], hc.1⟩
    rcases le_total (g1 * e1 + g2 * e2) 0 with hg | hg
    · exact ⟨e1, e2, hne, hn, hg⟩
    · refine ⟨-e1, -e2, ?_, by linarith, by linarith⟩
      rcases hne with h | h
      · exact Or.inl (neg_ne_zero.2 h)
      · exact Or.inr (neg_ne_zero.2 h)
  have fin : ∀ s : ℝ, 0 ≤ s → n1 * (x + s * e1) + n2 * (y + s * e2) = n1 * x + n2 * y ∧ g1 * (x + s * e1) + g2 * (y + s * e2) ≤ g1 * x + g2 * y := by
    intro s hs
    constructor
    · linear_combination s * hn
    · have : s * (g1 * e1 + g2 * e2) ≤ 0 := mul_nonpos_of_nonneg_of_nonpos hs hg
      linarith
  by_cases h1 : e1 = 0
  · have h2 := hne.resolve_left (not_not.2 h1)
    obtain ⟨s, s0, hs, hr⟩ := exit1 b1 b2 h2
    have hxx : x + s * e1 = x := by rw [h1]; ring
    exact ⟨x + s * e1, y + s * e2, by rw [hxx]; exact ⟨a1, a2⟩, hr s s0 le_rfl, Or.inr hs, fin s s0⟩
  · obtain ⟨s, s0, hs, hr⟩ := exit1 a1 a2 h1
    by_cases h2 : e2 = 0
    · have hyy : y + s * e2 = y := by rw [h2]; ring
      exact ⟨x + s * e1, y + s * e2, hr s s0 le_rfl, by rw [hyy]; exact ⟨b1, b2⟩, Or.inl hs, fin s s0⟩
    · obtain ⟨u, u0, hu, hv⟩ := exit1 b1 b2 h2
      rcases le_total s u with hsu | hsu
      · exact ⟨x + s * e1, y + s * e2, hr s s0 le_rfl, hv s s0 hsu, Or.inl hs, fin s s0⟩
      · exact ⟨x + u * e1, y + u * e2, hr u u0 hsu, hv u u0 le_rfl, Or.inr hu, fin u u0⟩

theorem meet_some {n p p' q : P3} {c s : ℝ} (hn : dot n (p'.1 - p.1, p'.2.1 - p.2.1, p'.2.2 - p.2.2) ≠ 0) (h0 : 0 ≤ s) (h1 : s ≤ 1)
    (hq : q = (p.1 + s * (p'.1 - p.1), p.2.1 + s * (p'.2.1 - p.2.1), p.2.2 + s * (p'.2.2 - p.2.2))) (hc : dot n q = c) : meet n (-c) p p' = some q := by
  have ht : -(dot n p + -c) / dot n (p'.1 - p.1, p'.2.1 - p.2.1, p'.2.2 - p.2.2) = s := by
    rw [div_eq_iff hn, ← hc, hq]
    unfold dot
    ring
  unfold meet
  dsimp only
  rw [if_neg hn, ht, if_pos ⟨h0, h1⟩, hq]

theorem edge_bits : ∀ b b' : Bool,
    (∃ e ∈ edges, (e.1.testBit 0 = false ∧ e.1.testBit 1 = b ∧ e.1.testBit 2 = b') ∧ e.2.testBit 0 = true ∧ e.2.testBit 1 = b ∧ e.2.testBit 2 = b') ∧
    (∃ e ∈ edges, (e.1.testBit 1 = false ∧ e.1.testBit 0 = b ∧ e.1.testBit 2 = b') ∧ e.2.testBit 1 = true ∧ e.2.testBit 0 = b ∧ e.2.testBit 2 = b') ∧
    (∃ e ∈ edges, (e.1.testBit 2 = false ∧ e.1.testBit 0 = b ∧ e.1.testBit 1 = b') ∧ e.2.testBit 2 = true ∧ e.2.testBit 0 = b ∧ e.2.testBit 1 = b') := by
  decide

theorem bit_of {l h x : ℝ} (hx : x = l ∨ x = h) : ∃ b : Bool, x = if b then h else l := by
  rcases hx with rfl | rfl
  · exact ⟨false, rfl⟩
  · exact ⟨true, rfl⟩

theorem frac_of {l h x : ℝ} (hlh : l < h) (h1 : l ≤ x) (h2 : x ≤ h) : ∃ s : ℝ, 0 ≤ s ∧ s ≤ 1 ∧ x = l + s * (h - l) := by
  refine ⟨(x - l) / (h - l), div_nonneg (by linarith) (by linarith), by rw [div_le_one (by linarith)]; linarith, ?_⟩
  have : h - l ≠ 0 := by linarith
  field_simp
  ring

variable {lo hi : P3}

theorem axis0 {n q : P3} (hw : lo.1 < hi.1) (hn : n.1 ≠ 0) (h0 : lo.1 ≤ q.1 ∧ q.1 ≤ hi.1) (h1 : q.2.1 = lo.2.1 ∨ q.2.1 = hi.2.1) (h2 : q.2.2 = lo.2.2 ∨ q.2.2 = hi.2.2) :
    ∃ e ∈ edges, meet n (-dot n q) (corner lo hi e.1) (corner lo hi e.2) = some q := by
  obtain ⟨b, hb⟩ := bit_of h1
  obtain ⟨b', hb'⟩ := bit_of h2
  obtain ⟨⟨e, he, ⟨t0, t1, t2⟩, u0, u1, u2⟩, -, -⟩ := edge_bits b b'
  obtain ⟨s, s0, s1, hs⟩ := frac_of hw h0.1 h0.2
  have c1 : corner lo hi e.1 = (lo.1, q.2.1, q.2.2) := by unfold corner; rw [t0, t1, t2, hb, hb']; rfl
  have c2 : corner lo hi e.2 = (hi.1, q.2.1, q.2.2) := by unfold corner; rw [u0, u1, u2, hb, hb']; rfl
  refine ⟨e, he, ?_⟩
  rw [c1, c2]
  refine meet_some (s := s) ?_ s0 s1 ?_ rfl
  · simp only [dot, sub_self, mul_zero, add_zero]
    exact mul_ne_zero hn (by linarith)
  · refine Prod.ext hs (Prod.ext ?_ ?_) <;> simp

theorem axis1 {n q : P3} (hw : lo.2.1 < hi.2.1) (hn : n.2.1 ≠ 0) (h0 : lo.2.1 ≤ q.2.1 ∧ q.2.1 ≤ hi.2.1) (h1 : q.1 = lo.1 ∨ q.1 = hi.1) (h2 : q.2.2 = lo.2.2 ∨ q.2.2 = hi.2.2) :
    ∃ e ∈ edges, meet n (-dot n q) (corner lo hi e.1) (corner lo hi e.2) = some q := by
  obtain ⟨b, hb⟩ := bit_of h1
  obtain ⟨b', hb'⟩ := bit_of h2
  obtain ⟨-, ⟨e, he, ⟨t0, t1, t2⟩, u0, u1, u2⟩, -⟩ := edge_bits b b'
  obtain ⟨s, s0, s1, hs⟩ := frac_of hw h0.1 h0.2
  have c1 : corner lo hi e.1 = (q.1, lo.2.1, q.2.2) := by unfold corner; rw [t0, t1, t2, hb, hb']; rfl
  have c2 : corner lo hi e.2 = (q.1, hi.2.1, q.2.2) := by unfold corner; rw [u0, u1, u2, hb, hb']; rfl
  refine ⟨e, he, ?_⟩
  rw [c1, c2]
  refine meet_some (s := s) ?_ s0 s1 ?_ rfl
  · simp only [dot, sub_self, mul_zero, add_zero, zero_add]
    exact mul_ne_zero hn (by linarith)
  · refine Prod.ext ?_ (Prod.ext hs ?_) <;> simp

theorem axis2 {n q : P3} (hw : lo.2.2 < hi.2.2) (hn : n.2.2 ≠ 0) (h0 : lo.2.2 ≤ q.2.2 ∧ q.2.2 ≤ hi.2.2) (h1 : q.1 = lo.1 ∨ q.1 = hi.1) (h2 : q.2.1 = lo.2.1 ∨ q.2.1 = hi.2.1) :
    ∃ e ∈ edges, meet n (-dot n q) (corner lo hi e.1) (corner lo hi e.2) = some q := by
  obtain ⟨b, hb⟩ := bit_of h1
  obtain ⟨b', hb'⟩ := bit_of h2
  obtain ⟨-, -, ⟨e, he, ⟨t0, t1, t2⟩, u0, u1, u2⟩⟩ := edge_bits b b'
  obtain ⟨s, s0, s1, hs⟩ := frac_of hw h0.1 h0.2
  have c1 : corner lo hi e.1 = (q.1, q.2.1, lo.2.2) := by unfold corner; rw [t0, t1, t2, hb, hb']; rfl
  have c2 : corner lo hi e.2 = (q.1, q.2.1, hi.2.2) := by unfold corner; rw [u0, u1, u2, hb, hb']; rfl
  refine ⟨e, he, ?_⟩
  rw [c1, c2]
  refine meet_some (s := s) ?_ s0 s1 ?_ rfl
  · simp only [dot, sub_self, mul_zero, zero_add]
    exact mul_ne_zero hn (by linarith)
  · refine Prod.ext ?_ (Prod.ext ?_ hs) <;> simp

/-- a linear function on the part of a plane in a box is least on an edge of the box -/
theorem edge_le (n g : P3) (hn : ¬(n.1 = 0 ∧ n.2.1 = 0 ∧ n.2.2 = 0)) (w0 : lo.1 < hi.1) (w1 : lo.2.1 < hi.2.1) (w2 : lo.2.2 < hi.2.2) {p : P3}
    (hl : lo.1 ≤ p.1 ∧ lo.2.1 ≤ p.2.1 ∧ lo.2.2 ≤ p.2.2) (hh : p.1 ≤ hi.1 ∧ p.2.1 ≤ hi.2.1 ∧ p.2.2 ≤ hi.2.2) :
    ∃ e ∈ edges, ∃ q, meet n (-dot n p) (corner lo hi e.1) (corner lo hi e.2) = some q ∧ dot g q ≤ dot g p := by
  -- a corner of the box on the plane
  have corner_case : ∀ q : P3, (q.1 = lo.1 ∨ q.1 = hi.1) → (q.2.1 = lo.2.1 ∨ q.2.1 = hi.2.1) → (q.2.2 = lo.2.2 ∨ q.2.2 = hi.2.2) →
      ∃ e ∈ edges, meet n (-dot n q) (corner lo hi e.1) (corner lo hi e.2) = some q := by
    intro q h0 h1 h2
    have bd : ∀ {l h x : ℝ}, l < h → (x = l ∨ x = h) → l ≤ x ∧ x ≤ h := by
      intro l h x hlt hx
      rcases hx with rfl | rfl
      · exact ⟨le_rfl, hlt.le⟩
      · exact ⟨hlt.le, le_rfl⟩
    by_cases g0 : n.1 = 0
    · by_cases g1 : n.2.1 = 0
      · exact axis2 w2 (fun g2 => hn ⟨g0, g1, g2⟩) (bd w2 h2) h0 h1
      · exact axis1 w1 g1 (bd w1 h1) h0 h2
    · exact axis0 w0 g0 (bd w0 h0) h1 h2
  have slide : ∀ (a l h x : ℝ), l ≤ x → x ≤ h → ∃ x', (x' = l ∨ x' = h) ∧ a * x' ≤ a * x := by
    intro a l h x h1 h2
    rcases le_total 0 a with ha | ha
    · exact ⟨l, Or.inl rfl, mul_le_mul_of_nonneg_left h1 ha⟩
    · exact ⟨h, Or.inr rfl, mul_le_mul_of_nonpos_left h2 ha⟩
  -- an edge of the box
  have fin0 : ∀ q : P3, (lo.1 ≤ q.1 ∧ q.1 ≤ hi.1) → (q.2.1 = lo.2.1 ∨ q.2.1 = hi.2.1) → (q.2.2 = lo.2.2 ∨ q.2.2 = hi.2.2) →
      dot n q = dot n p → dot g q ≤ dot g p → ∃ e ∈ edges, ∃ q, meet n (-dot n p) (corner lo hi e.1) (corner lo hi e.2) = some q ∧ dot g q ≤ dot g p := by
    intro q h0 h1 h2 hnq hgq
    by_cases g0 : n.1 = 0
    · obtain ⟨x', hx', hle⟩ := slide g.1 lo.1 hi.1 q.1 h0.1 h0.2
      obtain ⟨e, he, hm⟩ := corner_case (x', q.2.1, q.2.2) hx' h1 h2
      have hdn : dot n (x', q.2.1, q.2.2) = dot n p := by rw [← hnq]; unfold dot; rw [g0]; ring
      have hdg : dot g (x', q.2.1, q.2.2) ≤ dot g q := by unfold dot; simp only; linarith
      rw [hdn] at hm
      exact ⟨e, he, _, hm, hdg.trans hgq⟩
    · obtain ⟨e, he, hm⟩ := axis0 w0 g0 h0 h1 h2
      rw [hnq] at hm
      exact ⟨e, he, q, hm, hgq⟩
  have fin1 : ∀ q : P3, (lo.2.1 ≤ q.2.1 ∧ q.2.1 ≤ hi.2.1) → (q.1 = lo.1 ∨ q.1 = hi.1) → (q.2.2 = lo.2.2 ∨ q.2.2 = hi.2.2) →
      dot n q = dot n p → dot g q ≤ dot g p → ∃ e ∈ edges, ∃ q, meet n (-dot n p) (corner lo hi e.1) (corner lo hi e.2) = some q ∧ dot g q ≤ dot g p := by
    intro q h0 h1 h2 hnq hgq
    by_cases g0 : n.2.1 = 0
    · obtain ⟨x', hx', hle⟩ := slide g.2.1 lo.2.1 hi.2.1 q.2.1 h0.1 h0.2
      obtain ⟨e, he, hm⟩ := corner_case (q.1, x', q.2.2) h1 hx' h2
      have hdn : dot n (q.1, x', q.2.2) = dot n p := by rw [← hnq]; unfold dot; rw [g0]; ring
      have hdg : dot g (q.1, x', q.2.2) ≤ dot g q := by unfold dot; simp only; linarith
      rw [hdn] at hm
      exact ⟨e, he, _, hm, hdg.trans hgq⟩
    · obtain ⟨e, he, hm⟩ := axis1 w1 g0 h0 h1 h2
      rw [hnq] at hm
      exact ⟨e, he, q, hm, hgq⟩
  have fin2 : ∀ q : P3, (lo.2.2 ≤ q.2.2 ∧ q.2.2 ≤ hi.2.2) → (q.1 = lo.1 ∨ q.1 = hi.1) → (q.2.1 = lo.2.1 ∨ q.2.1 = hi.2.1) →
      dot n q = dot n p → dot g q ≤ dot g p → ∃ e ∈ edges, ∃ q, meet n (-dot n p) (corner lo hi e.1) (corner lo hi e.2) = some q ∧ dot g q ≤ dot g p := by
    intro q h0 h1 h2 hnq hgq
    by_cases g0 : n.2.2 = 0
    · obtain ⟨x', hx', hle⟩ := slide g.2.2 lo.2.2 hi.2.2 q.2.2 h0.1 h0.2
      obtain ⟨e, he, hm⟩ := corner_case (q.1, q.2.1, x') h1 h2 hx'
      have hdn : dot n (q.1, q.2.1, x') = dot n p := by rw [← hnq]; unfold dot; rw [g0]; ring
      have hdg : dot g (q.1, q.2.1, x') ≤ dot g q := by unfold dot; simp only; linarith
      rw [hdn] at hm
      exact ⟨e, he, _, hm, hdg.trans hgq⟩
    · obtain ⟨e, he, hm⟩ := axis2 w2 g0 h0 h1 h2
      rw [hnq] at hm
      exact ⟨e, he, q, hm, hgq⟩
  obtain ⟨x, y, hx, hy, hb, e1, e2⟩ := reduce2 n.1 n.2.1 g.1 g.2.1 hl.1 hh.1 hl.2.1 hh.2.1
  rcases hb with hb | hb
  · obtain ⟨y', z', hy', hz', hb', e1', e2'⟩ := reduce2 n.2.1 n.2.2 g.2.1 g.2.2 hy.1 hy.2 hl.2.2 hh.2.2
    have en : dot n (x, y', z') = dot n p := by unfold dot; simp only; linarith
    have eg : dot g (x, y', z') ≤ dot g p := by unfold dot; simp only; linarith
    rcases hb' with hb' | hb'
    · exact fin2 (x, y', z') hz' hb hb' en eg
    · exact fin1 (x, y', z') hy' hb hb' en eg
  · obtain ⟨x', z', hx', hz', hb', e1', e2'⟩ := reduce2 n.1 n.2.2 g.1 g.2.2 hx.1 hx.2 hl.2.2 hh.2.2
    have en : dot n (x', y, z') = dot n p := by unfold dot; simp only; linarith
    have eg : dot g (x', y, z') ≤ dot g p := by unfold dot; simp only; linarith
    rcases hb' with hb' | hb'
    · exact fin2 (x', y, z') hz' hb' hb en eg
    · exact fin0 (x', y, z') hx' hb hb' en eg

theorem plane_vertex (h : L.det ≠ 0) (w0 : (L.extLo 2).1 < (L.extHi 2).1) (w1 : (L.extLo 2).2.1 < (L.extHi 2).2.1) (w2 : (L.extLo 2).2.2 < (L.extHi 2).2.2)
    {lc : LC} (hb : L.inBox lc = true) (g : P3) : ∃ q ∈ L.planeVertices lc.z, dot g q ≤ dot g (L.position lc) := by
  rw [inBox_iff] at hb
  have hn : ¬((cross L.b0 L.b1).1 = 0 ∧ (cross L.b0 L.b1).2.1 = 0 ∧ (cross L.b0 L.b1).2.2 = 0) := by
    rintro ⟨h1, h2, h3⟩
    apply h
    have : L.det = L.b2.1 * (cross L.b0 L.b1).1 + L.b2.2.1 * (cross L.b0 L.b1).2.1 + L.b2.2.2 * (cross L.b0 L.b1).2.2 := by
      unfold det dot cross; ring
    rw [this, h1, h2, h3]; ring
  obtain ⟨e, he, q, hm, hle⟩ := edge_le (cross L.b0 L.b1) g hn w0 w1 w2 hb.1 hb.2
  refine ⟨q, ?_, hle⟩
  unfold planeVertices
  dsimp only
  rw [List.mem_filterMap]
  refine ⟨e, he, ?_⟩
  rw [← hm]
  congr 2
  unfold position at_ cast dot cross
  ring

theorem second_cover (h : L.det ≠ 0) (w0 : (L.extLo 2).1 < (L.extHi 2).1) (w1 : (L.extLo 2).2.1 < (L.extHi 2).2.1) (w2 : (L.extLo 2).2.2 < (L.extHi 2).2.2)
    {lc : LC} (hb : L.inBox lc = true) : ∃ r, L.secondRange lc.z = .ok r ∧ r.1 ≤ lc.y ∧ lc.y ≤ r.2 := by
  obtain ⟨α, -, a, -, hα, -⟩ := unrounded_lin L
  obtain ⟨q, hq, hle⟩ := plane_vertex h w0 w1 w2 hb α
  obtain ⟨q', hq', hge⟩ := plane_vertex h w0 w1 w2 hb (-α.1, -α.2.1, -α.2.2)
  have hy : (L.unrounded (L.position lc)).2.1 = lc.y := by unfold position; rw [unrounded_at h]; rfl
  unfold secondRange
  dsimp only
  obtain ⟨r, hr, hk⟩ := range_cover (us := (L.planeVertices lc.z).map fun v => (L.unrounded v).2.1) (List.mem_map.2 ⟨q, hq, rfl⟩) (List.mem_map.2 ⟨q', hq', rfl⟩)
  refine ⟨r, hr, hk lc.y ?_ ?_⟩
  · rw [← hy, hα, hα]; linarith
  · rw [← hy, hα, hα]
    unfold dot at hge ⊢
    simp only at hge
    linarith

end Prim

end Verif.PrimLattice
