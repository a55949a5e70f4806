import Verif.Spec.EstimateNormals
import Verif.Props.NormalsToSdf
import Mathlib.Tactic.NormNum
import Mathlib.Tactic.Linarith
import Mathlib.Tactic.FinCases
import Mathlib.Data.Fin.VecNotation

/-!
# C85: estimate-normals
-/

namespace Verif.EstimateNormals

open Verif Verif.Normals Verif.Plane Verif.Plane.Spec

theorem method_ok {a : Args} (h : NoConflict a) :
    method a = .ok (match a.k, a.radius with | some ks, _ => .knn ks | none, some rs => .radius rs | none, none => .knn [10, 30, 100, 300]) := by
  unfold method
  rcases a with ⟨k, radius, t, p, d, cl⟩
  rcases h with ⟨h, -⟩
  dsimp only at h ⊢
  rcases k with _ | k <;> rcases radius with _ | radius <;> simp_all [count]

theorem orientation_ok {a : Args} (h : NoConflict a) :
    orientation a = .ok (match a.point, a.direction with | some p, _ => .point p | none, some d => .direction d | none, none => .closed (a.closed.getD 100)) := by
  unfold orientation
  rcases a with ⟨k, radius, t, p, d, cl⟩
  rcases h with ⟨-, h⟩
  dsimp only at h ⊢
  rcases p with _ | p <;> rcases d with _ | d <;> rcases cl with _ | cl <;> simp_all [count]

/-- **C85**: with both `--k` and `--radius`, or more than one of `--point`, `--direction` and `--closed`, nothing is written. -/
theorem C85_conflict (c : Cloud) (pick : List (Nat × Nat) → Nat) (a : Args) (h : ¬ NoConflict a) : run c pick a = .throws .runtimeError := by
  have hm : method a = .throws .runtimeError ∨ ∃ m, method a = .ok m := by
    unfold method
    split
    · exact .inl rfl
    · right; split
      · exact ⟨_, rfl⟩
      · split <;> exact ⟨_, rfl⟩
  have hb : method a = .throws .runtimeError ∨ orientation a = .throws .runtimeError := by
    unfold method orientation
    unfold NoConflict at h
    rcases a with ⟨k, radius, t, p, d, cl⟩
    rcases k with _ | k <;> rcases radius with _ | radius <;> rcases p with _ | p <;> rcases d with _ | d <;> rcases cl with _ | cl <;> simp_all [count]
  unfold run
  rcases hm with hm | ⟨m, hm⟩
  · rw [hm]; rfl
  · rcases hb with hb | hb
    · rw [hb]; rfl
    · rw [hm, Outcome.ok_bind, hb]; rfl

/-- What filtering and orienting does to an estimate. -/
theorem finish {c : Cloud} {pick : List (Nat × Nat) → Nat} {a : Args} (h : NoConflict a) (hc : ∀ k, a.closed = some k → 0 < k)
    (hknn : ∀ p m, ∀ i ∈ c.knn p m, i < c.n) {m : Method} (hm : method a = .ok m) {e : State} (he : estimated c State.new m = .ok e) (hes : e.estimated = true) :
    ∃ v : Nat → V3, run c pick a = .ok ((List.range c.n).map fun i => (c.point i, v i)) ∧ Faces c.n c.point c.knn a v ∧
      ∀ i < c.n, (e.factors i < a.threshold → v i = 0) ∧ (a.threshold ≤ e.factors i → Same (v i) (e.normals i)) := by
  obtain ⟨f, f1, f2, f3, f4⟩ := C46_filter a.threshold e hes
  have fin : ∀ s' : State, s'.estimated = true → ∀ o, orientation a = .ok o → oriented c pick f o = .ok s' →
      run c pick a = .ok ((List.range c.n).map fun i => (c.point i, s'.normals i)) := by
    intro s' h1 o h2 h3
    unfold run runImpl
    rw [hm, Outcome.ok_bind, h2, Outcome.ok_bind, he, Outcome.ok_bind, f1, Outcome.ok_bind, h3, Outcome.ok_bind]
    unfold State.read
    rw [if_neg (by simp [h1]), Outcome.ok_bind]
  have sgn : ∀ v : Nat → V3, (∀ i, Same (v i) (f.normals i)) →
      ∀ i < c.n, (e.factors i < a.threshold → v i = 0) ∧ (a.threshold ≤ e.factors i → Same (v i) (e.normals i)) := by
    intro v hv i _
    refine ⟨fun hl => ?_, fun hl => ?_⟩
    · have := hv i
      rw [(f4 i).1 hl] at this
      rcases this with h | h
      · exact h
      · rw [h, neg_zero]
    · have := hv i
      rwa [(f4 i).2 hl] at this
  have ho := orientation_ok h
  obtain ⟨-, n1, n2, n3⟩ := h
  cases hp : a.point with
  | some p =>
    have hd : a.direction = none := n1.resolve_left (by rw [hp]; simp)
    rw [hp] at ho
    obtain ⟨s', s1, s2, s3, s4⟩ := C46_point c p f f2
    refine ⟨s'.normals, fin s' s2 _ ho s1, ⟨?_, ?_, ?_⟩, sgn _ fun i => ?_⟩
    · intro q hq i _; rw [hp] at hq; cases hq; exact (s4 i).1
    · intro d hd'; rw [hd] at hd'; cases hd'
    · intro hp'; rw [hp] at hp'; cases hp'
    · rcases le_or_gt 0 (dot (f.normals i) (p - c.point i)) with h | h
      · exact .inl ((s4 i).2.1 h)
      · exact .inr ((s4 i).2.2 h)
  | none =>
    cases hd : a.direction with
    | some d =>
      rw [hp, hd] at ho
      obtain ⟨s', s1, s2, s3, s4⟩ := C46_direction d f f2
      refine ⟨s'.normals, fin s' s2 _ ho s1, ⟨?_, ?_, ?_⟩, sgn _ fun i => ?_⟩
      · intro q hq; rw [hp] at hq; cases hq
      · intro q hq i _; rw [hd] at hq; cases hq; exact (s4 i).1
      · intro _ hd'; rw [hd] at hd'; cases hd'
      · rcases le_or_gt 0 (dot (f.normals i) d) with h | h
        · exact .inl ((s4 i).2.1 h)
        · exact .inr ((s4 i).2.2 h)
    | none =>
      rw [hp, hd] at ho
      have hk : 0 < a.closed.getD 100 := by
        cases hcl : a.closed with
        | none => simp
        | some k => exact hc k hcl
      obtain ⟨s', comps, s1, s2, s3, s4, s5, s6, s7⟩ := C46_closed_surface c pick _ hk hknn f f2
      have hz : ∀ i, isZero (s'.normals i) ↔ isZero (f.normals i) := by
        intro i
        rcases s6 i with h | ⟨-, h⟩
        · rw [h]
        · rw [h]; unfold isZero; simp
      refine ⟨s'.normals, fin s' s2 _ ho (by unfold oriented; dsimp only; rw [s1, Outcome.ok_bind]), ⟨?_, ?_, ?_⟩, sgn _ fun i => ?_⟩
      · intro q hq; rw [hp] at hq; cases hq
      · intro q hq; rw [hd] at hq; cases hq
      · intro _ _
        exact ⟨comps, s4, fun i => by rw [s5, hz], fun part hpart => ⟨(s7 part hpart).tree, (s7 part hpart).top⟩⟩
      · rcases s6 i with h | ⟨-, h⟩
        · exact .inl h
        · exact .inr h

/-- **C85**, `--k` (or neither, which is `--k 10 30 100 300`): for every table of at least three points, a tree that answers with the nearest points, nearest
first, whatever order the queue gives its pairs back in, and options that do not conflict, the command writes one row for each point in their order: the point and a
normal, which belongs to the best plane through the nearest `min(k, n)` points for the `k` with the largest plane factor, or is zero if that factor is below the
threshold; and the normals face where the options say. -/
theorem C85_knn (svd : Svd) (n : Nat) (hn : 3 ≤ n) (point : Nat → V3) (knn : Nat → Nat → List Nat) (radius : Nat → ℝ → List (Nat × ℝ)) (order : Nat → List Nat)
    (horder : ∀ i, ByDistance n point i (order i) ∧ ∀ m, knn i m = (order i).take m) (pick : List (Nat × Nat) → Nat) (a : Args) (h : NoConflict a)
    (hr : a.radius = none) (hk : ∀ ks, a.k = some ks → ks ≠ [] ∧ ∀ k ∈ ks, 3 ≤ k) (hc : ∀ k, a.closed = some k → 0 < k) :
    ∃ v : Nat → V3, run (cloud svd n point knn radius) pick a = .ok ((List.range n).map fun i => (point i, v i)) ∧ Faces n point knn a v ∧
      ∀ i < n, Kept svd point ((a.k.getD [10, 30, 100, 300]).map fun k => (order i).take (min k.toNat n)) a.threshold (v i) := by
  have hlen : ∀ i, (order i).length = n := fun i => by rw [(horder i).1.1.length_eq, List.length_range]
  have hknn : ∀ p m, ∀ i ∈ knn p m, i < n := by
    intro p m i hi
    rw [(horder p).2] at hi
    exact List.mem_range.1 ((horder p).1.1.mem_iff.1 (List.mem_of_mem_take hi))
  have hm := method_ok h
  have hm' : method a = .ok (.knn (a.k.getD [10, 30, 100, 300])) := by
    rw [hm, hr]
    cases a.k <;> rfl
  have hks : a.k.getD [10, 30, 100, 300] ≠ [] ∧ ∀ k ∈ a.k.getD [10, 30, 100, 300], 3 ≤ k := by
    cases hak : a.k with
    | none => simp
    | some ks => exact hk ks hak
  obtain ⟨e, e1, e2, e3⟩ := C46_knn (cloud svd n point knn radius) _ hks.1 hks.2 hn order (fun i hi => ⟨hlen i, (horder i).2⟩) State.new
  obtain ⟨v, v1, v2, v3⟩ := finish (c := cloud svd n point knn radius) (pick := pick) h hc hknn hm' e1 e2
  refine ⟨v, v1, v2, fun i hi => ?_⟩
  obtain ⟨⟨k, k1, k2⟩, k3⟩ := e3 i hi
  have hf : e.factors i = (factorAndNormal svd (((order i).take (min k.toNat n)).map point)).1 := congrArg Prod.fst k2
  have hv : e.normals i = (factorAndNormal svd (((order i).take (min k.toNat n)).map point)).2 := congrArg Prod.snd k2
  refine ⟨_, List.mem_map.2 ⟨k, k1, rfl⟩, ?_, ?_, ?_⟩
  · intro nn' hnn'
    obtain ⟨k', hk', rfl⟩ := List.mem_map.1 hnn'
    rw [← hf]
    exact k3 k' hk'
  · rw [← hf]; exact (v3 i hi).1
  · rw [← hf, ← hv]; exact (v3 i hi).2

open Classical in
/-- **C85**, `--radius`: the same with the points within each radius, if around every point each radius holds at least three points, or none does; in the latter
case the normal is zero. -/
theorem C85_radius (svd : Svd) (n : Nat) (point : Nat → V3) (knn : Nat → Nat → List Nat) (radius : Nat → ℝ → List (Nat × ℝ)) (order : Nat → List Nat)
    (horder : ∀ i, ByDistance n point i (order i) ∧ ∀ m, knn i m = (order i).take m) (near : Nat → List (Nat × ℝ))
    (hnear : ∀ i < n, (near i).Perm ((List.range n).map fun j => (j, Real.sqrt (distPoint2 (point i) (point j)))) ∧ (near i).Pairwise (fun x y => x.2 ≤ y.2) ∧
      ∀ r, radius i r = (near i).filter fun p => decide (p.2 ≤ r)) (pick : List (Nat × Nat) → Nat) (a : Args) (h : NoConflict a)
    (rs : List ℝ) (hr : a.radius = some rs) (hne : rs ≠ []) (hpos : ∀ r ∈ rs, 0 < r) (hc : ∀ k, a.closed = some k → 0 < k)
    (hfew : ∀ i < n, (∀ r ∈ rs, (within (near i) r).length < 3) ∨ ∀ r ∈ rs, 3 ≤ (within (near i) r).length) :
    ∃ v : Nat → V3, run (cloud svd n point knn radius) pick a = .ok ((List.range n).map fun i => (point i, v i)) ∧ Faces n point knn a v ∧
      ∀ i < n, ((∀ r ∈ rs, (within (near i) r).length < 3) → v i = 0) ∧
        ((∀ r ∈ rs, 3 ≤ (within (near i) r).length) → Kept svd point (rs.map (within (near i))) a.threshold (v i)) := by
  have hknn : ∀ p m, ∀ i ∈ knn p m, i < n := by
    intro p m i hi
    rw [(horder p).2] at hi
    exact List.mem_range.1 ((horder p).1.1.mem_iff.1 (List.mem_of_mem_take hi))
  have hk : a.k = none := h.1.resolve_right (by rw [hr]; simp)
  have hm : method a = .ok (.radius rs) := by rw [method_ok h, hr, hk]
  obtain ⟨e, e1, e2, e3⟩ := C46_radius (cloud svd n point knn radius) rs hne hpos near (fun i hi => (hnear i hi).2) hfew State.new
  obtain ⟨v, v1, v2, v3⟩ := finish (c := cloud svd n point knn radius) (pick := pick) h hc hknn hm e1 e2
  refine ⟨v, v1, v2, fun i hi => ⟨fun hf => ?_, fun hf => ?_⟩⟩
  · obtain ⟨z1, z2⟩ := (e3 i hi).1 hf
    rcases lt_or_ge (e.factors i) a.threshold with hl | hl
    · exact (v3 i hi).1 hl
    · have := (v3 i hi).2 hl
      rw [z1] at this
      rcases this with h | h
      · exact h
      · rw [h, neg_zero]
  · obtain ⟨⟨r, r1, r2⟩, r3⟩ := (e3 i hi).2 hf
    have hf' : e.factors i = (factorAndNormal svd ((within (near i) r).map point)).1 := congrArg Prod.fst r2
    have hv : e.normals i = (factorAndNormal svd ((within (near i) r).map point)).2 := congrArg Prod.snd r2
    refine ⟨_, List.mem_map.2 ⟨r, r1, rfl⟩, ?_, ?_, ?_⟩
    · intro nn' hnn'
      obtain ⟨r', hr', rfl⟩ := List.mem_map.1 hnn'
      rw [← hf']
      exact r3 r' hr'
    · rw [← hf']; exact (v3 i hi).1
    · rw [← hf', ← hv]; exact (v3 i hi).2

/-- **C85**: with one or two points every normal is zero. -/
theorem C85_few (c : Cloud) (hn : c.n < 3) (hknn : ∀ p m, ∀ i ∈ c.knn p m, i < c.n) (pick : List (Nat × Nat) → Nat) (a : Args) (h : NoConflict a)
    (hr : a.radius = none) (hk : ∀ ks, a.k = some ks → ks ≠ [] ∧ ∀ k ∈ ks, 3 ≤ k) (hc : ∀ k, a.closed = some k → 0 < k) :
    run c pick a = .ok ((List.range c.n).map fun i => (c.point i, 0)) := by
  have hm' : method a = .ok (.knn (a.k.getD [10, 30, 100, 300])) := by
    rw [method_ok h, hr]
    cases a.k <;> rfl
  have hks : a.k.getD [10, 30, 100, 300] ≠ [] ∧ ∀ k ∈ a.k.getD [10, 30, 100, 300], 3 ≤ k := by
    cases hak : a.k with
    | none => simp
    | some ks => exact hk ks hak
  obtain ⟨v, v1, -, v3⟩ := finish (pick := pick) h hc hknn hm' (C46_knn_few_points c _ hks.1 hks.2 hn State.new) rfl
  rw [v1]
  congr 1
  apply List.map_congr_left
  intro i hi
  have hi := List.mem_range.1 hi
  congr 1
  rcases lt_or_ge (0 : ℝ) a.threshold with hl | hl
  · exact (v3 i hi).1 hl
  · rcases (v3 i hi).2 hl with h | h
    · exact h
    · rw [h]; exact neg_zero

/-- **C85**: a neighbour count below three and a radius that is not positive are refused. -/
theorem C85_refused (c : Cloud) (pick : List (Nat × Nat) → Nat) (a : Args) (h : NoConflict a) :
    ((∃ ks, a.k = some ks ∧ (ks = [] ∨ ∃ k ∈ ks, k < 3)) → run c pick a = .throws .runtimeError) ∧
    ((∃ rs, a.radius = some rs ∧ (rs = [] ∨ ∃ r ∈ rs, r ≤ 0)) → run c pick a = .throws .runtimeError) := by
  obtain ⟨b1, b2, b3, b4⟩ := C46_bad_arguments c State.new
  constructor
  · rintro ⟨ks, hk, hb⟩
    have : estimateWithKnn c ks State.new = .throws .runtimeError := by
      rcases hb with rfl | hb
      · exact b1
      · exact b3 ks hb
    have hm : method a = .ok (.knn ks) := by rw [method_ok h, hk]
    unfold run runImpl
    rw [hm, Outcome.ok_bind, orientation_ok h, Outcome.ok_bind]
    unfold estimated
    dsimp only
    rw [this]
    rfl
  · rintro ⟨rs, hr, hb⟩
    have hk : a.k = none := h.1.resolve_right (by rw [hr]; simp)
    have : estimateWithRadius c rs State.new = .throws .runtimeError := by
      rcases hb with rfl | hb
      · exact b2
      · exact b4 rs hb
    have hm : method a = .ok (.radius rs) := by rw [method_ok h, hr, hk]
    unfold run runImpl
    rw [hm, Outcome.ok_bind, orientation_ok h, Outcome.ok_bind]
    unfold estimated
    dsimp only
    rw [this]
    rfl

/-! ## From points to signed distances -/

theorem same_unit {v e : V3} (h : Same v e) (he : dot e e = 1) : dot v v = 1 := by
  rcases h with rfl | rfl
  · exact he
  · rwa [neg_neg_dot]

/-- A kept normal is zero or a unit vector. -/
theorem kept_unit {svd : Svd} (hsvd : svd.Correct) {point : Nat → V3} {lists : List (List Nat)} (hl : ∀ nn ∈ lists, 3 ≤ nn.length) {t : ℝ} {v : V3}
    (h : Kept svd point lists t v) : v = 0 ∨ dot v v = 1 := by
  obtain ⟨nn, h1, -, h3, h4⟩ := h
  rcases lt_or_ge (factorAndNormal svd (nn.map point)).1 t with hlt | hge
  · exact .inl (h3 hlt)
  · exact .inr (same_unit (h4 hge) (best_of_factor hsvd (by rw [List.length_map]; exact hl nn h1)).1)

/-- **C85**, followed by normals-to-sdf: for every table of at least three different points the two commands one after the other end, without error, and write every
point with the value zero and two more for each of the chosen oriented points. -/
theorem C85_then_sdf (svd : Svd) (hsvd : svd.Correct) (n : Nat) (hn : 3 ≤ n) (point : Nat → V3) (hd : ∀ i < n, ∀ j < n, i ≠ j → point i ≠ point j)
    (knn : Nat → Nat → List Nat) (radius : Nat → ℝ → List (Nat × ℝ)) (order : Nat → List Nat)
    (horder : ∀ i, ByDistance n point i (order i) ∧ ∀ m, knn i m = (order i).take m) (pick : List (Nat × Nat) → Nat) (a : Args) (h : NoConflict a)
    (hr : a.radius = none) (hk : ∀ ks, a.k = some ks → ks ≠ [] ∧ ∀ k ∈ ks, 3 ≤ k) (hc : ∀ k, a.closed = some k → 0 < k)
    (tree : V3 → Nat → List Nat) (ht : Sdf.KnnOk n point tree) (shuffled : List Nat) (hs : shuffled.Perm (List.range n)) (ratio offset : ℝ) (h0 : 0 ≤ ratio)
    (h1 : ratio ≤ 1) (tree' : V3 → Nat → List Nat) :
    ∃ v : Nat → V3, run (cloud svd n point knn radius) pick a = .ok ((List.range n).map fun i => (point i, v i)) ∧
      ∃ f0, ∀ fuel ≥ f0, ∃ l, NormalsToSdf.run shuffled (some ratio) ⟨n, point, v, tree⟩ offset 1 tree' fuel = .ok (.done l) ∧
        ∃ (kept : List Nat) (rest : List (V3 × ℝ)), kept.Nodup ∧ (∀ i ∈ kept, i < n ∧ v i ≠ 0) ∧ (kept.length : ℝ) ≤ ratio * n + 1 / 2 ∧
          l = (List.range n).map (fun i => (point i, 0)) ++ rest ∧ rest.length = 2 * kept.length := by
  classical
  obtain ⟨v, v1, -, v3⟩ := C85_knn svd n hn point knn radius order horder pick a h hr hk hc
  have hks : ∀ k ∈ a.k.getD [10, 30, 100, 300], 3 ≤ k := by
    cases hak : a.k with
    | none => simp
    | some ks => exact (hk ks hak).2
  have hu : ∀ i < n, isZero (v i) ∨ Sdf.norm (v i) = 1 := by
    intro i hi
    rcases kept_unit hsvd (by
      intro nn hnn
      obtain ⟨k, hk', rfl⟩ := List.mem_map.1 hnn
      have := hks k hk'
      rw [List.length_take, (horder i).1.1.length_eq, List.length_range]
      omega) (v3 i hi) with h | h
    · left; rw [h]; intro j; simp; norm_num
    · right; unfold Sdf.norm; rw [h, Real.sqrt_one]
  refine ⟨v, v1, ?_⟩
  obtain ⟨f0, hf⟩ := NormalsToSdf.C83_ends (c := ⟨n, point, v, tree⟩) hs h0 h1 offset tree' ht hd hu
  refine ⟨f0, fun fuel hfuel => ?_⟩
  obtain ⟨l, hl⟩ := hf fuel hfuel
  obtain ⟨kept, neg, pos, r1, r2, r3, r4, r5, r6⟩ := NormalsToSdf.C83_rows (c := ⟨n, point, v, tree⟩) hs h0 h1 offset tree' ht hu fuel l hl
  have hsub : ((List.range n).filter fun i => decide (i ∈ kept ∧ ¬ isZero (v i))).length ≤ kept.length := by
    apply List.Subperm.length_le
    apply List.subperm_of_subset (List.nodup_range.filter _)
    intro i hi
    rw [List.mem_filter, decide_eq_true_iff] at hi
    exact hi.2.1
  refine ⟨l, hl, (List.range n).filter fun i => decide (i ∈ kept ∧ ¬ isZero (v i)), neg ++ pos, List.nodup_range.filter _, ?_, ?_, ?_, ?_⟩
  · intro i hi
    rw [List.mem_filter, decide_eq_true_iff, List.mem_range] at hi
    refine ⟨hi.1, fun h => hi.2.2 ?_⟩
    rw [h]; intro j; simp; norm_num
  · have := (abs_le.1 r3).2
    have h2 : (((List.range n).filter fun i => decide (i ∈ kept ∧ ¬ isZero (v i))).length : ℝ) ≤ kept.length := by exact_mod_cast hsub
    dsimp only at this
    linarith
  · rw [r4, List.append_assoc]
  · have hE : (List.range n).filter (fun i => decide (i ∈ kept ∧ ¬ isZero (v i))) =
        (List.range n).filter fun i => decide (i ∈ kept ∧ Sdf.Oriented ⟨n, point, v, tree⟩ i) :=
      List.filter_congr fun i _ => decide_eq_decide.2 Iff.rfl
    have l5 := r5.length_eq
    have l6 := r6.length_eq
    dsimp only at l5 l6
    rw [List.length_append, ← l5, ← l6, two_mul, hE]

/-! ## "set to 1.0 to disable filtering" -/

/-- Six points along an axis: one pair at the distance 1 from the middle, two pairs at the distance 1/10 across. -/
noncomputable def needle : List V3 := [![1, 0, 0], ![-1, 0, 0], ![0, 1 / 10, 0], ![0, -(1 / 10), 0], ![0, 0, 1 / 10], ![0, 0, -(1 / 10)]]

theorem perm_sum {l l' : List V3} (h : l.Perm l') (f : V3 → ℝ) : (l.map f).sum = (l'.map f).sum := (h.map f).sum_eq

theorem dot_eq3 (a b : V3) : dot a b = a 0 * b 0 + a 1 * b 1 + a 2 * b 2 := by
  unfold dot; rw [Fin.sum_univ_three]

/-- Whatever the decomposition, the plane factor of these points is less than one. -/
theorem needle_factor (svd : Svd) (hsvd : svd.Correct) (points : List V3) (hp : points.Perm needle) : (factorAndNormal svd points).1 < 1 := by
  have hlen : points.length = 6 := by rw [hp.length_eq]; rfl
  obtain ⟨e, he, e1, e2, e3, e4, e5⟩ := C68_errors svd hsvd points (by omega)
  have hx : dot (![1, 0, 0] : V3) ![1, 0, 0] = 1 := by rw [dot_eq3]; simp
  have hb := (C68_best svd hsvd points (by omega) e he 0 ![1, 0, 0] hx).2.1
  have hbary : barycenter points = 0 := by
    funext j
    unfold barycenter
    rw [perm_sum hp fun p => p j]
    fin_cases j <;> simp [needle]
  have hn : dot e.planeNormal e.planeNormal = 1 := by
    have := e1 2 2
    rwa [if_pos rfl] at this
  have hpoint : rms (distPoint2 0) points = Real.sqrt (34 / 100) := by
    unfold rms
    rw [perm_sum hp, hlen]
    congr 1
    simp [needle, distPoint2, dot_eq3]
    norm_num
  have hline : rms (distLine2 0 ![1, 0, 0]) points = Real.sqrt (4 / 600) := by
    unfold rms
    rw [perm_sum hp, hlen]
    congr 1
    simp [needle, distLine2, dot_eq3]
    norm_num
  have hplane : Real.sqrt (2 / 600) ≤ rms (distPlane2 0 e.planeNormal) points := by
    unfold rms
    rw [perm_sum hp, hlen]
    apply Real.sqrt_le_sqrt
    rw [dot_eq3] at hn
    generalize e.planeNormal = w at hn
    simp [needle, distPlane2, dot_eq3]
    nlinarith [mul_self_nonneg (w 0)]
  rw [hbary, hpoint] at e2
  rw [hbary] at e3 e4 hb
  rw [hline] at hb
  have p1 : (0.58 : ℝ) ≤ Real.sqrt (34 / 100) := Real.le_sqrt_of_sq_le (by norm_num)
  have p2 : Real.sqrt (34 / 100) ≤ 0.6 := Real.sqrt_le_iff.2 ⟨by norm_num, by norm_num⟩
  have p3 : Real.sqrt (4 / 600) ≤ 0.082 := Real.sqrt_le_iff.2 ⟨by norm_num, by norm_num⟩
  have p4 : (0.057 : ℝ) ≤ Real.sqrt (2 / 600) := Real.le_sqrt_of_sq_le (by norm_num)
  have q1 : 0.58 ≤ e.pointErr := by rw [e2]; exact le_max_of_le_left p1
  have q2 : e.pointErr ≤ 0.6 := by rw [e2]; exact max_le p2 (by norm_num)
  have q3 : e.lineErr ≤ 0.082 := by rw [e3]; exact max_le (hb.trans p3) (by linarith)
  have q4 : 0 ≤ e.lineErr := by rw [e3]; exact le_max_of_le_right (by linarith)
  have q5 : 0.057 ≤ e.planeErr := by rw [e4]; exact le_max_of_le_left (p4.trans hplane)
  have hfac : (factorAndNormal svd points).1 = e.planeFactor := by unfold factorAndNormal; rw [he]
  rw [hfac, e5, div_lt_one (by positivity)]
  nlinarith

/-- **C85**: the help text says that a threshold of 1.0 disables filtering; with these six points, whatever the singular value decomposition, all the normals are
lost. -/
theorem C85_threshold_one (svd : Svd) (hsvd : svd.Correct) (knn : Nat → Nat → List Nat) (radius : Nat → ℝ → List (Nat × ℝ)) (order : Nat → List Nat)
    (horder : ∀ i, ByDistance 6 (fun j => needle.getD j 0) i (order i) ∧ ∀ m, knn i m = (order i).take m) (pick : List (Nat × Nat) → Nat) :
    run (cloud svd 6 (fun j => needle.getD j 0) knn radius) pick ⟨none, none, 1, none, none, none⟩ =
      .ok ((List.range 6).map fun i => (needle.getD i 0, 0)) := by
  obtain ⟨v, v1, -, v3⟩ := C85_knn svd 6 (by norm_num) (fun j => needle.getD j 0) knn radius order horder pick ⟨none, none, 1, none, none, none⟩
    ⟨.inl rfl, .inl rfl, .inl rfl, .inl rfl⟩ rfl (fun ks h => by cases h) (fun k h => by cases h)
  rw [v1]
  congr 1
  apply List.map_congr_left
  intro i hi
  congr 1
  obtain ⟨nn, h1, -, h3, -⟩ := v3 i (List.mem_range.1 hi)
  apply h3
  have hnn : nn = order i := by
    obtain ⟨k, hk, rfl⟩ := List.mem_map.1 h1
    have hl : (order i).length = 6 := by rw [(horder i).1.1.length_eq]; rfl
    apply List.take_of_length_le
    simp only [Option.getD_none, List.mem_cons, List.not_mem_nil, or_false] at hk
    rcases hk with rfl | rfl | rfl | rfl <;> rw [hl] <;> decide
  rw [hnn]
  apply needle_factor svd hsvd
  have := (horder i).1.1.map fun j => needle.getD j 0
  exact this

/-- Such orders exist, and so do trees. -/
theorem order_exists (n : Nat) (point : Nat → V3) : ∃ order : Nat → List Nat, ∀ i, ByDistance n point i (order i) := by
  classical
  refine ⟨fun i => (List.range n).mergeSort fun a b => decide (distPoint2 (point i) (point a) ≤ distPoint2 (point i) (point b)), fun i => ⟨List.mergeSort_perm _ _, ?_⟩⟩
  have := List.pairwise_mergeSort (le := fun a b => decide (distPoint2 (point i) (point a) ≤ distPoint2 (point i) (point b)))
    (fun a b c h1 h2 => by simp only [decide_eq_true_eq] at *; linarith)
    (fun a b => by simp only [Bool.or_eq_true, decide_eq_true_eq]; exact le_total _ _) (List.range n)
  exact this.imp fun h => by simpa using h

/-- Any four points, with the default options: four rows are written. -/
example (point : Nat → V3) : ∃ (svd : Svd) (knn : Nat → Nat → List Nat) (rows : List (V3 × V3)),
    run (cloud svd 4 point knn fun _ _ => []) (fun _ => 0) ⟨none, none, 1.8, none, none, none⟩ = .ok rows ∧ rows.length = 4 := by
  obtain ⟨svd, -⟩ := exists_correct_svd
  obtain ⟨order, ho⟩ := order_exists 4 point
  obtain ⟨v, v1, -⟩ := C85_knn svd 4 (by norm_num) point (fun i m => (order i).take m) (fun _ _ => []) order (fun i => ⟨ho i, fun _ => rfl⟩) (fun _ => 0)
    ⟨none, none, 1.8, none, none, none⟩ ⟨.inl rfl, .inl rfl, .inl rfl, .inl rfl⟩ rfl (fun ks h => by cases h) (fun k h => by cases h)
  exact ⟨svd, _, _, v1, by simp⟩

/-- The six points with a threshold of 1.0: the case is met. -/
example : ∃ (svd : Svd) (knn : Nat → Nat → List Nat),
    run (cloud svd 6 (fun j => needle.getD j 0) knn fun _ _ => []) (fun _ => 0) ⟨none, none, 1, none, none, none⟩ =
      .ok ((List.range 6).map fun i => (needle.getD i 0, 0)) := by
  obtain ⟨svd, hsvd⟩ := exists_correct_svd
  obtain ⟨order, ho⟩ := order_exists 6 fun j => needle.getD j 0
  exact ⟨svd, _, C85_threshold_one svd hsvd _ _ order (fun i => ⟨ho i, fun _ => rfl⟩) _⟩

end Verif.EstimateNormals
