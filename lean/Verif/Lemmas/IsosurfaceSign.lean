import Verif.Props.Tetrahedron
import Verif.Props.LatticeMesh
import Mathlib.Topology.Connected.Clopen
import Mathlib.Topology.Order.IntermediateValue
import Mathlib.Topology.Instances.Real.Lemmas

/-!
# A lattice without crossed tetrahedra has one sign in the whole bounding box
-/

namespace Verif.PrimLattice

open Verif Verif.Lattice

namespace Prim

variable {L : Prim}

def ranks : List (Nat × Nat × Nat) := [(0, 1, 2), (0, 2, 1), (1, 0, 2), (1, 2, 0), (2, 0, 1), (2, 1, 0)]

/-- coordinates relative to a node -/
def rel (u : P3) (lc : LC) : Nat → ℝ
  | 0 => u.1 - lc.x
  | 1 => u.2.1 - lc.y
  | _ => u.2.2 - lc.z

/-- the point with lattice coordinates `u` is in the closed tetrahedron at `lc` -/
def InTet (u : P3) (lc : LC) (rank : Nat × Nat × Nat) : Prop :=
  0 ≤ rel u lc rank.1 ∧ rel u lc rank.1 ≤ rel u lc rank.2.1 ∧ rel u lc rank.2.1 ≤ rel u lc rank.2.2 ∧ rel u lc rank.2.2 ≤ 1

/-- its corners -/
def tetCorners (lc : LC) (rank : Nat × Nat × Nat) : List LC := [lc, neighbor lc (tetSwitch rank).1, neighbor lc (tetSwitch rank).2, neighbor lc 4]

/-- the point is where the piecewise linear function that is 1 at `n` and 0 at all other nodes is positive -/
def Hat (u : P3) (n : LC) : Prop := ∀ i < 3, rel u n i < 1 ∧ -1 < rel u n i ∧ ∀ j < 3, rel u n i - rel u n j < 1

theorem neighbor_xyz (lc : LC) (e : Nat) : neighbor lc e = ⟨lc.x + (delta e).x, lc.y + (delta e).y, lc.z + (delta e).z⟩ := rfl

theorem exists_hat {u : P3} {lc : LC} {rank : Nat × Nat × Nat} (hr : rank ∈ ranks) (h : InTet u lc rank) : ∃ n ∈ tetCorners lc rank, Hat u n := by
  obtain ⟨h0, h1, h2, h3⟩ := h
  have hat : ∀ n : LC, (rel u n 0 < 1 ∧ -1 < rel u n 0 ∧ rel u n 0 - rel u n 1 < 1 ∧ rel u n 0 - rel u n 2 < 1 ∧
      rel u n 1 < 1 ∧ -1 < rel u n 1 ∧ rel u n 1 - rel u n 0 < 1 ∧ rel u n 1 - rel u n 2 < 1 ∧
      rel u n 2 < 1 ∧ -1 < rel u n 2 ∧ rel u n 2 - rel u n 0 < 1 ∧ rel u n 2 - rel u n 1 < 1) → Hat u n := by
    rintro n ⟨a1, a2, a3, a4, b1, b2, b3, b4, c1, c2, c3, c4⟩ i hi
    rcases (by omega : i = 0 ∨ i = 1 ∨ i = 2) with rfl | rfl | rfl
    · refine ⟨a1, a2, fun j hj => ?_⟩
      rcases (by omega : j = 0 ∨ j = 1 ∨ j = 2) with rfl | rfl | rfl
      · linarith
      · exact a3
      · exact a4
    · refine ⟨b1, b2, fun j hj => ?_⟩
      rcases (by omega : j = 0 ∨ j = 1 ∨ j = 2) with rfl | rfl | rfl
      · exact b3
      · linarith
      · exact b4
    · refine ⟨c1, c2, fun j hj => ?_⟩
      rcases (by omega : j = 0 ∨ j = 1 ∨ j = 2) with rfl | rfl | rfl
      · exact c3
      · exact c4
      · linarith
  by_cases w0 : rel u lc rank.2.2 < 1
  · refine ⟨lc, by simp [tetCorners], hat _ ?_⟩
    simp only [ranks, List.mem_cons, List.not_mem_nil, or_false] at hr
    rcases hr with rfl | rfl | rfl | rfl | rfl | rfl <;> simp only at h0 h1 h2 h3 w0 <;> refine ⟨?_, ?_, ?_, ?_, ?_, ?_, ?_, ?_, ?_, ?_, ?_, ?_⟩ <;> linarith
  · by_cases w1 : rel u lc rank.2.1 < rel u lc rank.2.2
    · simp only [ranks, List.mem_cons, List.not_mem_nil, or_false] at hr
      rcases hr with rfl | rfl | rfl | rfl | rfl | rfl <;> first
      | (refine ⟨_, List.mem_cons_of_mem _ List.mem_cons_self, hat _ ?_⟩
         simp only [neighbor_xyz, rel, tetSwitch, delta, deltas, List.getD_cons_zero, List.getD_cons_succ] at h0 h1 h2 h3 w0 w1 ⊢
         push_cast
         refine ⟨?_, ?_, ?_, ?_, ?_, ?_, ?_, ?_, ?_, ?_, ?_, ?_⟩ <;> linarith)
      | (refine ⟨_, List.mem_cons_of_mem _ (List.mem_cons_of_mem _ List.mem_cons_self), hat _ ?_⟩
         simp only [neighbor_xyz, rel, tetSwitch, delta, deltas, List.getD_cons_zero, List.getD_cons_succ] at h0 h1 h2 h3 w0 w1 ⊢
         push_cast
         refine ⟨?_, ?_, ?_, ?_, ?_, ?_, ?_, ?_, ?_, ?_, ?_, ?_⟩ <;> linarith)
    · by_cases w2 : rel u lc rank.1 < rel u lc rank.2.1
      · simp only [ranks, List.mem_cons, List.not_mem_nil, or_false] at hr
        rcases hr with rfl | rfl | rfl | rfl | rfl | rfl <;> first
        | (refine ⟨_, List.mem_cons_of_mem _ List.mem_cons_self, hat _ ?_⟩
           simp only [neighbor_xyz, rel, tetSwitch, delta, deltas, List.getD_cons_zero, List.getD_cons_succ] at h0 h1 h2 h3 w0 w1 w2 ⊢
           push_cast
           refine ⟨?_, ?_, ?_, ?_, ?_, ?_, ?_, ?_, ?_, ?_, ?_, ?_⟩ <;> linarith)
        | (refine ⟨_, List.mem_cons_of_mem _ (List.mem_cons_of_mem _ List.mem_cons_self), hat _ ?_⟩
           simp only [neighbor_xyz, rel, tetSwitch, delta, deltas, List.getD_cons_zero, List.getD_cons_succ] at h0 h1 h2 h3 w0 w1 w2 ⊢
           push_cast
           refine ⟨?_, ?_, ?_, ?_, ?_, ?_, ?_, ?_, ?_, ?_, ?_, ?_⟩ <;> linarith)
      · refine ⟨neighbor lc 4, by simp [tetCorners], hat _ ?_⟩
        simp only [ranks, List.mem_cons, List.not_mem_nil, or_false] at hr
        rcases hr with rfl | rfl | rfl | rfl | rfl | rfl <;> simp only [neighbor_xyz, rel, delta, deltas, List.getD_cons_zero, List.getD_cons_succ] at h0 h1 h2 h3 w0 w1 w2 ⊢ <;>
          push_cast <;> refine ⟨?_, ?_, ?_, ?_, ?_, ?_, ?_, ?_, ?_, ?_, ?_, ?_⟩ <;> linarith

theorem hat_corner {u : P3} {lc n : LC} {rank : Nat × Nat × Nat} (hr : rank ∈ ranks) (h : InTet u lc rank) (hn : Hat u n) : n ∈ tetCorners lc rank := by
  obtain ⟨h0, h1, h2, h3⟩ := h
  obtain ⟨a1, a2, a3⟩ := hn 0 (by omega)
  obtain ⟨b1, b2, b3⟩ := hn 1 (by omega)
  obtain ⟨c1, c2, c3⟩ := hn 2 (by omega)
  have a01 := a3 1 (by omega)
  have a02 := a3 2 (by omega)
  have b00 := b3 0 (by omega)
  have b02 := b3 2 (by omega)
  have c00 := c3 0 (by omega)
  have c01 := c3 1 (by omega)
  have hb : ∀ i < 3, 0 ≤ rel u lc i ∧ rel u lc i ≤ 1 := by
    intro i hi
    simp only [ranks, List.mem_cons, List.not_mem_nil, or_false] at hr
    rcases hr with rfl | rfl | rfl | rfl | rfl | rfl <;> simp only at h0 h1 h2 h3 <;> rcases (by omega : i = 0 ∨ i = 1 ∨ i = 2) with rfl | rfl | rfl <;>
      constructor <;> linarith
  obtain ⟨u0, u1, u2⟩ := u
  obtain ⟨x, y, z⟩ := lc
  obtain ⟨x', y', z'⟩ := n
  have e0 := hb 0 (by omega)
  have e1 := hb 1 (by omega)
  have e2 := hb 2 (by omega)
  simp only [rel] at a1 a2 b1 b2 c1 c2 a01 a02 b00 b02 c00 c01 e0 e1 e2
  have two : ∀ {s : ℝ} {p q : ℤ}, 0 ≤ s - p ∧ s - p ≤ 1 → s - q < 1 → -1 < s - q → q = p ∨ q = p + 1 := by
    intro s p q h1 h2 h3
    have i1 : ((p : ℤ) : ℝ) - 1 < q := by linarith
    have i2 : ((q : ℤ) : ℝ) < p + 2 := by linarith
    have i1' : p - 1 < q := by exact_mod_cast i1
    have i2' : q < p + 2 := by exact_mod_cast i2
    omega
  have hx := two e0 a1 a2
  have hy := two e1 b1 b2
  have hz := two e2 c1 c2
  simp only [ranks, List.mem_cons, List.not_mem_nil, or_false] at hr
  rcases hr with rfl | rfl | rfl | rfl | rfl | rfl <;> simp only [rel] at h0 h1 h2 h3 <;>
    rcases hx with rfl | rfl <;> rcases hy with rfl | rfl <;> rcases hz with rfl | rfl <;> push_cast at a01 a02 b00 b02 c00 c01 <;>
      first
      | (exfalso; linarith)
      | (simp [tetCorners, neighbor_xyz, tetSwitch, delta, deltas])

theorem inTet_cell (p : P3) {rank : Nat × Nat × Nat} (hr : Ranked (L.frac p) rank) : InTet (L.unrounded p) (L.cell p) rank := by
  have e : ∀ i, rel (L.unrounded p) (L.cell p) i = L.frac p i := by
    intro i
    unfold rel frac cell
    rfl
  unfold InTet
  rw [e, e, e]
  exact ⟨(frac_bounds p _).1, hr.2.1, hr.2.2, (frac_bounds p _).2.le⟩

theorem tetCorners_perm {rank : Nat × Nat × Nat} (hr : rank ∈ ranks) (lc : LC) : ∃ k < 6, ∀ n, n ∈ tetCorners lc rank ↔ ∃ i < 4, n = tetNode lc k i := by
  have key : ∀ rank ∈ [(0, 1, 2), (0, 2, 1), (1, 0, 2), (1, 2, 0), (2, 0, 1), (2, 1, 0)], ∃ k < 6,
      [(⟨0, 0, 0⟩ : LC), delta (tetSwitch rank).1, delta (tetSwitch rank).2, delta 4].Perm ((List.range 4).map (Lattice.corner k)) := by decide
  obtain ⟨k, hk, hp⟩ := key rank hr
  refine ⟨k, hk, fun n => ?_⟩
  have e : tetCorners lc rank = [(⟨0, 0, 0⟩ : LC), delta (tetSwitch rank).1, delta (tetSwitch rank).2, delta 4].map (fun d => lc + d) := by
    unfold tetCorners
    simp only [List.map_cons, List.map_nil, List.cons.injEq, and_true]
    exact ⟨(add_zero' _).symm, rfl, rfl, rfl⟩
  rw [e, (hp.map _).mem_iff]
  simp only [List.mem_map, List.mem_range]
  constructor
  · rintro ⟨d, ⟨i, hi, rfl⟩, rfl⟩; exact ⟨i, hi, rfl⟩
  · rintro ⟨i, hi, rfl⟩; exact ⟨_, ⟨i, hi, rfl⟩, rfl⟩

theorem const_of_no_faces {σ : LC → Bool} {R : List LC} (h : surface R σ = []) {rank : Nat × Nat × Nat} (hr : rank ∈ ranks) {lc : LC}
    (hR : ∀ n ∈ tetCorners lc rank, n ∈ R) : ∀ n ∈ tetCorners lc rank, σ n = σ lc := by
  obtain ⟨k, hk, hm⟩ := tetCorners_perm hr lc
  have ht : tetFaces σ lc k = [] := by
    rw [List.eq_nil_iff_forall_not_mem]
    intro f hf
    have : f ∈ surface R σ := mem_surface.2 ⟨lc, k, hk, fun i hi => hR _ ((hm _).2 ⟨i, hi, rfl⟩), hf⟩
    rw [h] at this
    cases this
  unfold tetFaces at ht
  rw [List.map_eq_nil_iff] at ht
  have h0 : tetNode lc k 0 = lc := add_zero' lc
  have : ∀ a b c d : Bool, faceTable a b c d = [] → b = a ∧ c = a ∧ d = a := by decide
  obtain ⟨e1, e2, e3⟩ := this _ _ _ _ ht
  intro n hn
  obtain ⟨i, hi, rfl⟩ := (hm n).1 hn
  conv_rhs => rw [← h0]
  rcases (by omega : i = 0 ∨ i = 1 ∨ i = 2 ∨ i = 3) with rfl | rfl | rfl | rfl
  · rfl
  · exact e1
  · exact e2
  · exact e3

theorem unrounded_continuous (L : Prim) : Continuous L.unrounded := by
  unfold unrounded coords dot cross
  fun_prop

theorem isClosed_inTet (L : Prim) (lc : LC) (rank : Nat × Nat × Nat) : IsClosed {p | InTet (L.unrounded p) lc rank} := by
  have hc : ∀ i, Continuous fun p => rel (L.unrounded p) lc i := by
    intro i
    have h := unrounded_continuous L
    unfold rel
    split
    · exact h.fst.sub continuous_const
    · exact h.snd.fst.sub continuous_const
    · exact h.snd.snd.sub continuous_const
  unfold InTet
  exact (isClosed_le continuous_const (hc _)).and ((isClosed_le (hc _) (hc _)).and ((isClosed_le (hc _) (hc _)).and (isClosed_le (hc _) continuous_const)))

theorem bbox_preconnected (L : Prim) : IsPreconnected {p | L.InBbox p} := by
  have e : {p | L.InBbox p} = Set.Icc L.lo.1 L.hi.1 ×ˢ (Set.Icc L.lo.2.1 L.hi.2.1 ×ˢ Set.Icc L.lo.2.2 L.hi.2.2) := by
    ext p
    simp only [InBbox, Set.mem_ofPred_eq, Set.mem_prod, Set.mem_Icc]
    tauto
  rw [e]
  exact isPreconnected_Icc.prod (isPreconnected_Icc.prod isPreconnected_Icc)

/-- the points in a tetrahedron of `R` whose corners have the sign `b` -/
def signed (L : Prim) (σ : LC → Bool) (R : List LC) (b : Bool) : Set P3 :=
  ⋃ x ∈ {x : LC × (Nat × Nat × Nat) | x ∈ R ×ˢ ranks ∧ ∀ n ∈ tetCorners x.1 x.2, σ n = b}, {p | InTet (L.unrounded p) x.1 x.2}

theorem mem_signed {σ : LC → Bool} {R : List LC} {b : Bool} {p : P3} :
    p ∈ signed L σ R b ↔ ∃ lc ∈ R, ∃ rank ∈ ranks, (∀ n ∈ tetCorners lc rank, σ n = b) ∧ InTet (L.unrounded p) lc rank := by
  unfold signed
  constructor
  · intro h
    rw [Set.mem_iUnion₂] at h
    obtain ⟨⟨lc, rank⟩, ⟨h1, h3⟩, h4⟩ := h
    rw [List.mem_product] at h1
    exact ⟨lc, h1.1, rank, h1.2, h3, h4⟩
  · rintro ⟨lc, h1, rank, h2, h3, h4⟩
    exact Set.mem_iUnion₂.2 ⟨(lc, rank), ⟨List.mem_product.2 ⟨h1, h2⟩, h3⟩, h4⟩

theorem isClosed_signed (L : Prim) (σ : LC → Bool) (R : List LC) (b : Bool) : IsClosed (signed L σ R b) := by
  unfold signed
  refine Set.Finite.isClosed_biUnion ?_ (fun x _ => isClosed_inTet L _ _)
  exact Set.Finite.subset (List.finite_toSet (R ×ˢ ranks)) (fun x hx => hx.1)

/-- without faces the whole box has one sign -/
theorem one_sign (h : 0 < L.det) {σ : LC → Bool} {R : List LC} (hR : ∀ lc, L.InExtended 2 (L.position lc) → lc ∈ R) (hs : surface R σ = [])
    {p q : P3} (hp : L.InBbox p) (hq : L.InBbox q) {rp rq : Nat × Nat × Nat} (hrp : Ranked (L.frac p) rp) (hrq : Ranked (L.frac q) rq) :
    σ (L.cell p) = σ (L.cell q) := by
  have hin : ∀ {p rank}, L.InBbox p → Ranked (L.frac p) rank → ∀ n ∈ tetCorners (L.cell p) rank, n ∈ R := by
    intro p rank hp hr n hn
    obtain ⟨-, h2, h3⟩ := C57_near_nodes_sampled L h p hp rank hr
    exact hR n (h3 n (h2 n hn)).1
  have hmem : ∀ {p rank}, L.InBbox p → Ranked (L.frac p) rank → p ∈ signed L σ R (σ (L.cell p)) := by
    intro p rank hp hr
    exact mem_signed.2 ⟨L.cell p, hin hp hr _ (by simp [tetCorners]), rank, hr.1, const_of_no_faces hs hr.1 (hin hp hr), inTet_cell p hr⟩
  by_contra hne
  have key := isPreconnected_closed_iff.1 (bbox_preconnected L) (signed L σ R (σ (L.cell p))) (signed L σ R (σ (L.cell q)))
    (isClosed_signed _ _ _ _) (isClosed_signed _ _ _ _) (by
      intro r hr
      obtain ⟨rank, hrank⟩ := ranked_exists (L.frac r)
      have := hmem hr hrank
      by_cases e : σ (L.cell r) = σ (L.cell p)
      · left; rw [← e]; exact this
      · right
        have e' : σ (L.cell r) = σ (L.cell q) := by
          revert e hne
          cases σ (L.cell r) <;> cases σ (L.cell p) <;> cases σ (L.cell q) <;> simp
        rw [← e']; exact this) ⟨p, hp, hmem hp hrp⟩ ⟨q, hq, hmem hq hrq⟩
  obtain ⟨r, -, h1, h2⟩ := key
  obtain ⟨lc1, -, r1, hr1, c1, t1⟩ := mem_signed.1 h1
  obtain ⟨lc2, -, r2, hr2, c2, t2⟩ := mem_signed.1 h2
  obtain ⟨n, hn, hat⟩ := exists_hat hr1 t1
  have hn2 := hat_corner hr2 t2 hat
  exact hne ((c1 n hn).symm.trans (c2 n hn2))

end Prim

end Verif.PrimLattice
