import Verif.Lemmas.Tetrahedron
import Verif.Props.PrimitiveLattice

/-!
# C57: the lattice node and the tetrahedron of a point
-/

namespace Verif.PrimLattice

open Verif Verif.Lattice

namespace Prim

variable {L : Prim}

/-- in the bounding box -/
def InBbox (L : Prim) (p : P3) : Prop :=
  (L.lo.1 ≤ p.1 ∧ L.lo.2.1 ≤ p.2.1 ∧ L.lo.2.2 ≤ p.2.2) ∧ p.1 ≤ L.hi.1 ∧ p.2.1 ≤ L.hi.2.1 ∧ p.2.2 ≤ L.hi.2.2

/-- in the bounding box extended by `k` steps -/
def InExtended (L : Prim) (k : ℕ) (p : P3) : Prop :=
  ((L.extLo k).1 ≤ p.1 ∧ (L.extLo k).2.1 ≤ p.2.1 ∧ (L.extLo k).2.2 ≤ p.2.2) ∧ p.1 ≤ (L.extHi k).1 ∧ p.2.1 ≤ (L.extHi k).2.1 ∧ p.2.2 ≤ (L.extHi k).2.2

theorem round_near (x : ℝ) : |x - roundAway x| ≤ 1 / 2 := by
  unfold roundAway
  rw [abs_le]
  split
  · have h1 := Int.floor_le (x + 1 / 2)
    have h2 := Int.lt_floor_add_one (x + 1 / 2)
    constructor <;> linarith
  · have h1 := Int.le_ceil (x - 1 / 2)
    have h2 := Int.ceil_lt_add_one (x - 1 / 2)
    constructor <;> linarith

theorem round_unique {x : ℝ} {n : ℤ} (h : |x - n| < 1 / 2) : roundAway x = n := by
  have h1 := round_near x
  rw [abs_le] at h1
  rw [abs_lt] at h
  have a : ((roundAway x : ℤ) : ℝ) - n < 1 := by linarith
  have b : -1 < ((roundAway x : ℤ) : ℝ) - n := by linarith
  have a' : roundAway x - n < 1 := by exact_mod_cast a
  have b' : -1 < roundAway x - n := by exact_mod_cast b
  omega

/-- A lattice point rounds to itself. -/
theorem C57_rounded_position (L : Prim) (h : L.det ≠ 0) (lc : LC) : L.rounded (L.position lc) = lc := by
  unfold rounded position
  rw [unrounded_at h]
  unfold Prim.cast
  have : ∀ n : ℤ, roundAway (n : ℝ) = n := fun n => round_unique (by simp)
  rw [this, this, this]

/-- The point clamped to the cell of a node rounds to that node; a point well inside the cell is left as it is. -/
theorem C57_clamp_to_node (L : Prim) (h : L.det ≠ 0) (p : P3) (lc : LC) : L.rounded (L.clampToNode p lc) = lc ∧
    (|(L.unrounded p).1 - lc.x| ≤ 0.495 → |(L.unrounded p).2.1 - lc.y| ≤ 0.495 → |(L.unrounded p).2.2 - lc.z| ≤ 0.495 → L.clampToNode p lc = p) := by
  have key : ∀ (u : ℝ) (c : ℤ), roundAway (clamp1 u c) = c := by
    intro u c
    apply round_unique
    unfold clamp1
    rw [abs_lt]
    constructor
    · have : (c : ℝ) - 0.495 ≤ min (max u ((c : ℝ) - 0.495)) ((c : ℝ) + 0.495) := le_min (le_max_right _ _) (by linarith)
      linarith
    · have : min (max u ((c : ℝ) - 0.495)) ((c : ℝ) + 0.495) ≤ (c : ℝ) + 0.495 := min_le_right _ _
      linarith
  constructor
  · unfold rounded clampToNode
    rw [unrounded_at h]
    simp only [key]
  · intro h1 h2 h3
    have id : ∀ {u : ℝ} {c : ℤ}, |u - c| ≤ 0.495 → clamp1 u c = u := by
      intro u c hu
      rw [abs_le] at hu
      unfold clamp1
      rw [max_eq_left (by linarith), min_eq_left (by linarith)]
    unfold clampToNode
    rw [id h1, id h2, id h3]
    exact at_unrounded h p

/-- `std::sort` has something to leave. -/
theorem ranked_exists (f : Nat → ℝ) : ∃ rank, Ranked f rank := by
  unfold Ranked
  rcases le_total (f 0) (f 1) with h1 | h1 <;> rcases le_total (f 1) (f 2) with h2 | h2 <;> rcases le_total (f 0) (f 2) with h3 | h3
  · exact ⟨(0, 1, 2), by simp, h1, h2⟩
  · exact ⟨(0, 1, 2), by simp, h1, h2⟩
  · exact ⟨(0, 2, 1), by simp, h3, h2⟩
  · exact ⟨(2, 0, 1), by simp, h3, h1⟩
  · exact ⟨(1, 0, 2), by simp, h1, h3⟩
  · exact ⟨(1, 2, 0), by simp, h2, h3⟩
  · exact ⟨(2, 1, 0), by simp, h2, h1⟩
  · exact ⟨(2, 1, 0), by simp, h2, h1⟩

theorem frac_bounds (p : P3) (i : Nat) : 0 ≤ L.frac p i ∧ L.frac p i < 1 := by
  unfold frac
  split
  · exact ⟨by linarith [Int.floor_le (L.unrounded p).1], by linarith [Int.lt_floor_add_one (L.unrounded p).1]⟩
  · exact ⟨by linarith [Int.floor_le (L.unrounded p).2.1], by linarith [Int.lt_floor_add_one (L.unrounded p).2.1]⟩
  · exact ⟨by linarith [Int.floor_le (L.unrounded p).2.2], by linarith [Int.lt_floor_add_one (L.unrounded p).2.2]⟩

theorem kuhn_nonneg {f : Nat → ℝ} (hf : ∀ i, 0 ≤ f i ∧ f i < 1) {rank : Nat × Nat × Nat} (hr : Ranked f rank) :
    0 ≤ (kuhnWeights f rank).r0 ∧ 0 ≤ (kuhnWeights f rank).r1 ∧ 0 ≤ (kuhnWeights f rank).r2 ∧ 0 ≤ (kuhnWeights f rank).r3 ∧
      (kuhnWeights f rank).r0 + (kuhnWeights f rank).r1 + (kuhnWeights f rank).r2 + (kuhnWeights f rank).r3 = 1 := by
  obtain ⟨hm, h1, h2⟩ := hr
  have f0 := hf 0
  have f1 := hf 1
  have f2 := hf 2
  simp only [List.mem_cons, List.not_mem_nil, or_false] at hm
  rcases hm with rfl | rfl | rfl | rfl | rfl | rfl <;> simp only [kuhnWeights] at * <;>
    refine ⟨by linarith, by linarith, by linarith, by linarith, by ring⟩

/-- The four corners `tetrahedron(p)` returns are those of a tetrahedron of the lattice, positively oriented; `p` is in it: the
barycentric coordinates computed for the interpolation are not negative, sum to one, and give `p` back.  However ties are sorted. -/
theorem C57_tetrahedron_contains (L : Prim) (h : 0 < L.det) (p : P3) (rank : Nat × Nat × Nat) (hr : Ranked (L.frac p) rank) :
    (∃ k < 6, ∀ n, n ∈ (L.tetrahedron p rank).toList ↔ ∃ i < 4, n = tetNode (L.cell p) k i) ∧
    0 < volume (L.position (L.tetrahedron p rank).r0) (L.position (L.tetrahedron p rank).r1) (L.position (L.tetrahedron p rank).r2) (L.position (L.tetrahedron p rank).r3) ∧
    (0 ≤ (L.weights p rank).r0 ∧ 0 ≤ (L.weights p rank).r1 ∧ 0 ≤ (L.weights p rank).r2 ∧ 0 ≤ (L.weights p rank).r3) ∧
    (L.weights p rank).r0 + (L.weights p rank).r1 + (L.weights p rank).r2 + (L.weights p rank).r3 = 1 ∧
    p = (L.weights p rank).r0 • L.position (L.tetrahedron p rank).r0 + (L.weights p rank).r1 • L.position (L.tetrahedron p rank).r1 +
      (L.weights p rank).r2 • L.position (L.tetrahedron p rank).r2 + (L.weights p rank).r3 • L.position (L.tetrahedron p rank).r3 := by
  have hm := hr.1
  rw [weights_eq h.ne' p hm]
  obtain ⟨w0, w1, w2, w3, ws⟩ := kuhn_nonneg (frac_bounds (L := L) p) hr
  refine ⟨?_, ?_, ⟨w0, w1, w2, w3⟩, ws, ?_⟩
  · have key : ∀ rank ∈ [(0, 1, 2), (0, 2, 1), (1, 0, 2), (1, 2, 0), (2, 0, 1), (2, 1, 0)], ∃ k < 6,
        [(⟨0, 0, 0⟩ : LC), delta (tetSwitch rank).1, delta (tetSwitch rank).2, delta 4].Perm ((List.range 4).map (Lattice.corner k)) := by decide
    obtain ⟨k, hk, hp⟩ := key rank hm
    refine ⟨k, hk, fun n => ?_⟩
    have e : (L.tetrahedron p rank).toList = [(⟨0, 0, 0⟩ : LC), delta (tetSwitch rank).1, delta (tetSwitch rank).2, delta 4].map (fun d => L.cell p + d) := by
      unfold tetrahedron Rows.toList
      simp only [List.map_cons, List.map_nil, List.cons.injEq, and_true]
      exact ⟨(add_zero' _).symm, rfl, rfl, rfl⟩
    rw [e, (hp.map _).mem_iff]
    simp only [List.mem_map, List.mem_range]
    constructor
    · rintro ⟨d, ⟨i, hi, rfl⟩, rfl⟩; exact ⟨i, hi, rfl⟩
    · rintro ⟨i, hi, rfl⟩; exact ⟨_, ⟨i, hi, rfl⟩, rfl⟩
  · unfold tetrahedron
    rw [tet_volume _ hm]
    linarith
  · have hp : p = L.at_ (((L.cell p).x : ℝ) + L.frac p 0, ((L.cell p).y : ℝ) + L.frac p 1, ((L.cell p).z : ℝ) + L.frac p 2) := by
      rw [← unrounded_frac, at_unrounded h.ne']
    have h0 : L.position (L.cell p) = L.at_ (((L.cell p).x : ℝ) + 0, ((L.cell p).y : ℝ) + 0, ((L.cell p).z : ℝ) + 0) := by simp [position, Prim.cast]
    unfold tetrahedron
    dsimp only
    rw [position_delta, position_delta, position_delta, h0]
    conv_lhs => rw [hp]
    generalize L.frac p = f
    generalize L.cell p = lc
    simp only [List.mem_cons, List.not_mem_nil, or_false] at hm
    rcases hm with rfl | rfl | rfl | rfl | rfl | rfl <;> refine Prod.ext ?_ (Prod.ext ?_ ?_) <;>
      simp only [Prod.fst_add, Prod.snd_add, Prod.smul_fst, Prod.smul_snd, smul_eq_mul, at_, tetSwitch, delta, deltas, kuhnWeights, List.getD_cons_zero,
        List.getD_cons_succ] <;> push_cast <;> ring

theorem half_step {a b c d0 d1 d2 : ℝ} (h0 : |d0| ≤ 1 / 2) (h1 : |d1| ≤ 1 / 2) (h2 : |d2| ≤ 1 / 2) :
    least (steps a b c) ≤ d0 * a + d1 * b + d2 * c ∧ d0 * a + d1 * b + d2 * c ≤ greatest (steps a b c) := by
  have e1 := steps_bound (a := a) (b := b) (c := c) (d := ⟨1, 0, 0⟩) (by decide)
  have e2 := steps_bound (a := a) (b := b) (c := c) (d := ⟨1, 0, 1⟩) (by decide)
  have e3 := steps_bound (a := a) (b := b) (c := c) (d := ⟨0, 0, 1⟩) (by decide)
  have e4 := steps_bound (a := a) (b := b) (c := c) (d := ⟨1, 1, 0⟩) (by decide)
  have e5 := steps_bound (a := a) (b := b) (c := c) (d := ⟨1, 1, 1⟩) (by decide)
  have e6 := steps_bound (a := a) (b := b) (c := c) (d := ⟨0, 1, 1⟩) (by decide)
  have e7 := steps_bound (a := a) (b := b) (c := c) (d := ⟨0, 1, 0⟩) (by decide)
  have f1 := steps_bound (a := a) (b := b) (c := c) (d := ⟨-1, 0, 0⟩) (by decide)
  have f2 := steps_bound (a := a) (b := b) (c := c) (d := ⟨-1, 0, -1⟩) (by decide)
  have f3 := steps_bound (a := a) (b := b) (c := c) (d := ⟨0, 0, -1⟩) (by decide)
  have f4 := steps_bound (a := a) (b := b) (c := c) (d := ⟨-1, -1, 0⟩) (by decide)
  have f5 := steps_bound (a := a) (b := b) (c := c) (d := ⟨-1, -1, -1⟩) (by decide)
  have f6 := steps_bound (a := a) (b := b) (c := c) (d := ⟨0, -1, -1⟩) (by decide)
  have f7 := steps_bound (a := a) (b := b) (c := c) (d := ⟨0, -1, 0⟩) (by decide)
  push_cast at e1 e2 e3 e4 e5 e6 e7 f1 f2 f3 f4 f5 f6 f7
  have half : ∀ {d x : ℝ}, |d| ≤ 1 / 2 → -(|x| / 2) ≤ d * x ∧ d * x ≤ |x| / 2 := by
    intro d x hd
    have : |d * x| ≤ |x| / 2 := by
      rw [abs_mul]
      nlinarith [abs_nonneg x, abs_nonneg d]
    exact abs_le.1 this
  have ha := half (x := a) h0
  have hb := half (x := b) h1
  have hc := half (x := c) h2
  rcases abs_cases a with ⟨a1, a2⟩ | ⟨a1, a2⟩ <;> rcases abs_cases b with ⟨b1, b2⟩ | ⟨b1, b2⟩ <;> rcases abs_cases c with ⟨c1, c2⟩ | ⟨c1, c2⟩ <;>
    rw [a1] at ha <;> rw [b1] at hb <;> rw [c1] at hc <;> constructor <;> linarith

theorem near_ext {lc : LC} {p : P3} (hp : L.InBbox p)
    (hx : least (steps L.b0.1 L.b1.1 L.b2.1) ≤ (L.position lc).1 - p.1 ∧ (L.position lc).1 - p.1 ≤ greatest (steps L.b0.1 L.b1.1 L.b2.1))
    (hy : least (steps L.b0.2.1 L.b1.2.1 L.b2.2.1) ≤ (L.position lc).2.1 - p.2.1 ∧ (L.position lc).2.1 - p.2.1 ≤ greatest (steps L.b0.2.1 L.b1.2.1 L.b2.2.1))
    (hz : least (steps L.b0.2.2 L.b1.2.2 L.b2.2.2) ≤ (L.position lc).2.2 - p.2.2 ∧ (L.position lc).2.2 - p.2.2 ≤ greatest (steps L.b0.2.2 L.b1.2.2 L.b2.2.2)) :
    L.InExtended 1 (L.position lc) := by
  obtain ⟨⟨l1, l2, l3⟩, u1, u2, u3⟩ := hp
  obtain ⟨s1, s2, -⟩ := steps_sign L.b0.1 L.b1.1 L.b2.1
  obtain ⟨s3, s4, -⟩ := steps_sign L.b0.2.1 L.b1.2.1 L.b2.2.1
  obtain ⟨s5, s6, -⟩ := steps_sign L.b0.2.2 L.b1.2.2 L.b2.2.2
  unfold InExtended
  rw [(ext0 1).1, (ext0 1).2, (ext1 1).1, (ext1 1).2, (ext2 1).1, (ext2 1).2]
  push_cast
  refine ⟨⟨?_, ?_, ?_⟩, ?_, ?_, ?_⟩ <;> linarith

theorem ext_mono {p : P3} (h : L.InExtended 1 p) : L.InExtended 2 p := by
  obtain ⟨s1, s2, -⟩ := steps_sign L.b0.1 L.b1.1 L.b2.1
  obtain ⟨s3, s4, -⟩ := steps_sign L.b0.2.1 L.b1.2.1 L.b2.2.1
  obtain ⟨s5, s6, -⟩ := steps_sign L.b0.2.2 L.b1.2.2 L.b2.2.2
  unfold InExtended at *
  rw [(ext0 1).1, (ext0 1).2, (ext1 1).1, (ext1 1).2, (ext2 1).1, (ext2 1).2] at h
  rw [(ext0 2).1, (ext0 2).2, (ext1 2).1, (ext1 2).2, (ext2 2).1, (ext2 2).2]
  push_cast at *
  obtain ⟨⟨l1, l2, l3⟩, u1, u2, u3⟩ := h
  refine ⟨⟨?_, ?_, ?_⟩, ?_, ?_, ?_⟩ <;> linarith

/-- For a point of the bounding box, the node it rounds to and the corners of its tetrahedron are in the first extended box, and so
are sampled: all their neighbours are in the second. -/
theorem C57_near_nodes_sampled (L : Prim) (h : 0 < L.det) (p : P3) (hp : L.InBbox p) (rank : Nat × Nat × Nat) (hr : Ranked (L.frac p) rank) :
    L.InExtended 1 (L.position (L.rounded p)) ∧ (∀ n ∈ (L.tetrahedron p rank).toList, L.InExtended 1 (L.position n)) ∧
    ∀ n, L.InExtended 1 (L.position n) → L.InExtended 2 (L.position n) ∧ ∀ e < 14, L.InExtended 2 (L.position (neighbor n e)) := by
  refine ⟨?_, ?_, ?_⟩
  · have e0 : p = L.at_ (L.unrounded p) := (at_unrounded h.ne' p).symm
    obtain ⟨u, hu⟩ : ∃ u, u = L.unrounded p := ⟨_, rfl⟩
    have r0 : |((L.rounded p).x : ℝ) - u.1| ≤ 1 / 2 := by rw [hu, abs_sub_comm]; exact round_near _
    have r1 : |((L.rounded p).y : ℝ) - u.2.1| ≤ 1 / 2 := by rw [hu, abs_sub_comm]; exact round_near _
    have r2 : |((L.rounded p).z : ℝ) - u.2.2| ≤ 1 / 2 := by rw [hu, abs_sub_comm]; exact round_near _
    rw [← hu] at e0
    generalize L.rounded p = lc at *
    apply near_ext hp
    · have := half_step (a := L.b0.1) (b := L.b1.1) (c := L.b2.1) r0 r1 r2
      rw [e0]; unfold position at_ Prim.cast; simp only
      constructor <;> linarith
    · have := half_step (a := L.b0.2.1) (b := L.b1.2.1) (c := L.b2.2.1) r0 r1 r2
      rw [e0]; unfold position at_ Prim.cast; simp only
      constructor <;> linarith
    · have := half_step (a := L.b0.2.2) (b := L.b1.2.2) (c := L.b2.2.2) r0 r1 r2
      rw [e0]; unfold position at_ Prim.cast; simp only
      constructor <;> linarith
  · intro n hn
    obtain ⟨⟨k, hk, hmem⟩, -, ⟨w0, w1, w2, w3⟩, ws, hpe⟩ := C57_tetrahedron_contains L h p rank hr
    obtain ⟨j, hj, rfl⟩ := (hmem n).1 hn
    have hrow : ∀ m ∈ (L.tetrahedron p rank).toList, ∀ a b c : ℝ, least (steps a b c) ≤ L.co a b c (tetNode (L.cell p) k j) - L.co a b c m ∧
        L.co a b c (tetNode (L.cell p) k j) - L.co a b c m ≤ greatest (steps a b c) := by
      intro m hm a b c
      obtain ⟨i, hi, rfl⟩ := (hmem m).1 hm
      exact co_near hk hi hj
    have m0 := hrow (L.tetrahedron p rank).r0 (by simp [Rows.toList])
    have m1 := hrow (L.tetrahedron p rank).r1 (by simp [Rows.toList])
    have m2 := hrow (L.tetrahedron p rank).r2 (by simp [Rows.toList])
    have m3 := hrow (L.tetrahedron p rank).r3 (by simp [Rows.toList])
    generalize L.weights p rank = w at *
    generalize L.tetrahedron p rank = t at *
    generalize tetNode (L.cell p) k j = n at *
    have comb : ∀ (a b c x : ℝ), x = w.r0 * L.co a b c t.r0 + w.r1 * L.co a b c t.r1 + w.r2 * L.co a b c t.r2 + w.r3 * L.co a b c t.r3 →
        least (steps a b c) ≤ L.co a b c n - x ∧ L.co a b c n - x ≤ greatest (steps a b c) := by
      intro a b c x hx
      obtain ⟨p0, q0⟩ := m0 a b c
      obtain ⟨p1, q1⟩ := m1 a b c
      obtain ⟨p2, q2⟩ := m2 a b c
      obtain ⟨p3, q3⟩ := m3 a b c
      generalize least (steps a b c) = lo at *
      generalize greatest (steps a b c) = hi at *
      generalize L.co a b c n = y at *
      have e : y - x = w.r0 * (y - L.co a b c t.r0) + w.r1 * (y - L.co a b c t.r1) + w.r2 * (y - L.co a b c t.r2) + w.r3 * (y - L.co a b c t.r3) := by
        rw [hx]; linear_combination (-y) * ws
      rw [e]
      have hl : lo = w.r0 * lo + w.r1 * lo + w.r2 * lo + w.r3 * lo := by linear_combination (-lo) * ws
      have hh : hi = w.r0 * hi + w.r1 * hi + w.r2 * hi + w.r3 * hi := by linear_combination (-hi) * ws
      constructor
      · linarith [mul_le_mul_of_nonneg_left p0 w0, mul_le_mul_of_nonneg_left p1 w1, mul_le_mul_of_nonneg_left p2 w2, mul_le_mul_of_nonneg_left p3 w3]
      · linarith [mul_le_mul_of_nonneg_left q0 w0, mul_le_mul_of_nonneg_left q1 w1, mul_le_mul_of_nonneg_left q2 w2, mul_le_mul_of_nonneg_left q3 w3]
    apply near_ext hp
    · exact comb L.b0.1 L.b1.1 L.b2.1 p.1 (by conv_lhs => rw [hpe]
                                              rfl)
    · exact comb L.b0.2.1 L.b1.2.1 L.b2.2.1 p.2.1 (by conv_lhs => rw [hpe]
                                                      rfl)
    · exact comb L.b0.2.2 L.b1.2.2 L.b2.2.2 p.2.2 (by conv_lhs => rw [hpe]
                                                      rfl)
  · intro n hn
    refine ⟨ext_mono hn, fun e he => ?_⟩
    have hd : delta e ∈ deltas := by
      unfold delta
      rw [List.getD_eq_getElem?_getD, List.getElem?_eq_getElem (show e < deltas.length from he), Option.getD_some]
      exact List.getElem_mem _
    have hx := steps_bound (a := L.b0.1) (b := L.b1.1) (c := L.b2.1) hd
    have hy := steps_bound (a := L.b0.2.1) (b := L.b1.2.1) (c := L.b2.2.1) hd
    have hz := steps_bound (a := L.b0.2.2) (b := L.b1.2.2) (c := L.b2.2.2) hd
    obtain ⟨s1, s2, -⟩ := steps_sign L.b0.1 L.b1.1 L.b2.1
    obtain ⟨s3, s4, -⟩ := steps_sign L.b0.2.1 L.b1.2.1 L.b2.2.1
    obtain ⟨s5, s6, -⟩ := steps_sign L.b0.2.2 L.b1.2.2 L.b2.2.2
    unfold InExtended at *
    rw [(ext0 1).1, (ext0 1).2, (ext1 1).1, (ext1 1).2, (ext2 1).1, (ext2 1).2] at hn
    rw [(ext0 2).1, (ext0 2).2, (ext1 2).1, (ext1 2).2, (ext2 2).1, (ext2 2).2, position_delta]
    unfold position at_ Prim.cast at hn
    unfold at_
    simp only at hn ⊢
    push_cast at *
    obtain ⟨⟨l1, l2, l3⟩, u1, u2, u3⟩ := hn
    refine ⟨⟨?_, ?_, ?_⟩, ?_, ?_, ?_⟩ <;> linarith

theorem det_invMul (a0 a1 a2 x y z : P3) (h : dot a0 (cross a1 a2) ≠ 0) :
    dot (invMul a0 a1 a2 x) (cross (invMul a0 a1 a2 y) (invMul a0 a1 a2 z)) = dot x (cross y z) / dot a0 (cross a1 a2) := by
  rw [eq_div_iff h]
  obtain ⟨d, hd⟩ : ∃ d, d = dot a0 (cross a1 a2) := ⟨_, rfl⟩
  have hx : dot (cross a1 a2) (cross (cross a2 a0) (cross a0 a1)) = d ^ 2 := by rw [hd]; unfold dot cross; ring
  have e : ∀ v, invMul a0 a1 a2 v = ((v.1 * (cross a1 a2).1 + v.2.1 * (cross a2 a0).1 + v.2.2 * (cross a0 a1).1) / d,
      (v.1 * (cross a1 a2).2.1 + v.2.1 * (cross a2 a0).2.1 + v.2.2 * (cross a0 a1).2.1) / d,
      (v.1 * (cross a1 a2).2.2 + v.2.1 * (cross a2 a0).2.2 + v.2.2 * (cross a0 a1).2.2) / d) := fun v => by rw [hd]; rfl
  rw [e, e, e, ← hd]
  rw [← hd] at h
  generalize cross a1 a2 = p at *
  generalize cross a2 a0 = q at *
  generalize cross a0 a1 = r at *
  have : dot ((x.1 * p.1 + x.2.1 * q.1 + x.2.2 * r.1) / d, (x.1 * p.2.1 + x.2.1 * q.2.1 + x.2.2 * r.2.1) / d, (x.1 * p.2.2 + x.2.1 * q.2.2 + x.2.2 * r.2.2) / d)
      (cross ((y.1 * p.1 + y.2.1 * q.1 + y.2.2 * r.1) / d, (y.1 * p.2.1 + y.2.1 * q.2.1 + y.2.2 * r.2.1) / d, (y.1 * p.2.2 + y.2.1 * q.2.2 + y.2.2 * r.2.2) / d)
        ((z.1 * p.1 + z.2.1 * q.1 + z.2.2 * r.1) / d, (z.1 * p.2.1 + z.2.1 * q.2.1 + z.2.2 * r.2.1) / d, (z.1 * p.2.2 + z.2.1 * q.2.2 + z.2.2 * r.2.2) / d)) =
      dot x (cross y z) * dot p (cross q r) / d ^ 3 := by
    field_simp
    unfold dot cross
    simp only
    field_simp
    ring
  rw [this, hx]
  field_simp

/-- For a positive resolution and an `aniso` with a positive determinant (which the constructor of `Isosurface` requires) the lattice is
positively oriented: the hypothesis of the theorems here. -/
theorem C57_lattice_positive (lo hi : P3) (res : ℝ) (hres : 0 < res) (a0 a1 a2 : P3) (ha : 0 < dot a0 (cross a1 a2)) : 0 < (make lo hi res a0 a1 a2).det := by
  unfold make det
  dsimp only
  rw [det_invMul _ _ _ _ _ _ ha.ne']
  apply div_pos _ ha
  have : dot (res * latticeBasis.1.1, res * latticeBasis.1.2.1, res * latticeBasis.1.2.2)
      (cross (res * latticeBasis.2.1.1, res * latticeBasis.2.1.2.1, res * latticeBasis.2.1.2.2)
        (res * latticeBasis.2.2.1, res * latticeBasis.2.2.2.1, res * latticeBasis.2.2.2.2)) = res ^ 3 * (2 * 0.5773502691896258 * 0.816496580927726 ^ 2) := by
    unfold latticeBasis dot cross
    simp only
    ring
  rw [this]
  positivity

/-- a point of the unit box, its rank and its tetrahedron -/
example : 0 < unitL.det ∧ unitL.InBbox (1 / 2, 1 / 4, 1 / 8) ∧ Ranked (unitL.frac (1 / 2, 1 / 4, 1 / 8)) (2, 1, 0) ∧
    (unitL.tetrahedron (1 / 2, 1 / 4, 1 / 8) (2, 1, 0)).toList = [⟨-1, -1, -1⟩, ⟨0, -1, -1⟩, ⟨0, 0, -1⟩, ⟨0, 0, 0⟩] := by
  have hu : unitL.unrounded (1 / 2, 1 / 4, 1 / 8) = (-1 / 2, -3 / 4, -7 / 8) := by
    unfold unrounded coords
    rw [unit_det, unit_origin]
    norm_num [unitL, dot, cross]
  have f1 : ⌊(-1 / 2 : ℝ)⌋ = -1 := by rw [Int.floor_eq_iff]; norm_num
  have f2 : ⌊(-3 / 4 : ℝ)⌋ = -1 := by rw [Int.floor_eq_iff]; norm_num
  have f3 : ⌊(-7 / 8 : ℝ)⌋ = -1 := by rw [Int.floor_eq_iff]; norm_num
  refine ⟨by rw [unit_det]; norm_num, by norm_num [InBbox, unitL], ⟨by simp, ?_, ?_⟩, ?_⟩
  · simp only [frac, hu, f2, f3]; norm_num
  · simp only [frac, hu, f1, f2]; norm_num
  · unfold tetrahedron cell Rows.toList
    rw [hu]
    simp only [f1, f2, f3]
    decide

end Prim

end Verif.PrimLattice
