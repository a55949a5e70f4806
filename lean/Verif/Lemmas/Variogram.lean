import Verif.Spec.Variogram
import Mathlib.Tactic.Linarith
import Mathlib.Tactic.Ring
import Mathlib.Tactic.FieldSimp
import Mathlib.Data.List.Nodup
import Mathlib.Algebra.BigOperators.Group.List.Basic

namespace Verif.Variogram

open Verif BigOperators Classical Spec

variable {dim : Nat}

/-- The state of a builder that has been given the samples `S`. -/
noncomputable def ofSamples (lag tol : ℝ) (n : Int) (u : Vec dim) (S : List (ℝ × ℝ)) : Builder dim :=
  ⟨lag, tol, n, u,
   (List.range n.toNat).map (fun b => ((inBin lag tol b S).map Prod.fst).sum),
   (List.range n.toNat).map (fun b => ((inBin lag tol b S).map Prod.snd).sum),
   (List.range n.toNat).map (fun b => (inBin lag tol b S).length)⟩

theorem map_range_congr {n : Nat} {f g : Nat → α} (h : ∀ i < n, f i = g i) :
    (List.range n).map f = (List.range n).map g := by
  apply List.map_congr_left
  intro i hi
  exact h i (List.mem_range.1 hi)

theorem new_eq (lag tol : ℝ) {n : Int} (hn : 0 ≤ n) (u : Vec dim) :
    Builder.new lag tol n u = .ok (ofSamples lag tol n u []) := by
  unfold Builder.new ofSamples
  rw [if_neg (by omega)]
  simp [inBin, List.map_const']

theorem updateAt_map {n i : Nat} (hi : i < n) (f : Nat → α) (g : α → α) :
    updateAt ((List.range n).map f) i g = .ok ((List.range n).map (fun j => if j = i then g (f j) else f j)) := by
  unfold updateAt
  rw [if_pos (by simpa using hi)]
  congr 1
  apply List.ext_getElem
  · simp
  · intro j h1 h2
    simp only [List.getElem_modify, List.getElem_map, List.getElem_range]
    by_cases h : i = j
    · simp [h]
    · rw [if_neg h, if_neg (fun x => h x.symm)]

theorem forEach_addToBin (b : Builder dim) (n : Nat) (dist gamma : ℝ) :
    ∀ (L : List Nat), L.Nodup → (∀ i ∈ L, i < n) → ∀ (f g : Nat → ℝ) (h : Nat → Nat),
    forEach (fun b bin => b.addToBin dist gamma bin) L
      { b with binDistance := (List.range n).map f, binGamma := (List.range n).map g,
               binNumPairs := (List.range n).map h } =
    .ok { b with binDistance := (List.range n).map (fun j => if j ∈ L then f j + dist else f j),
                 binGamma := (List.range n).map (fun j => if j ∈ L then g j + gamma else g j),
                 binNumPairs := (List.range n).map (fun j => if j ∈ L then h j + 1 else h j) }
  | [], _, _, f, g, h => by simp [forEach]
  | i :: L, hnd, hlt, f, g, h => by
      have hi := hlt i (by simp)
      have hnd' := List.nodup_cons.1 hnd
      have hstep : Builder.addToBin { b with binDistance := (List.range n).map f, binGamma := (List.range n).map g, binNumPairs := (List.range n).map h } dist gamma i = .ok { b with
            binDistance := (List.range n).map (fun j => if j = i then f j + dist else f j)
            binGamma := (List.range n).map (fun j => if j = i then g j + gamma else g j)
            binNumPairs := (List.range n).map (fun j => if j = i then h j + 1 else h j) } := by
        simp only [Builder.addToBin, updateAt_map hi, Outcome.ok_bind, Outcome.pure_eq]
      simp only [forEach]
      rw [hstep, Outcome.ok_bind, forEach_addToBin b n dist gamma L hnd'.2 (fun j hj => hlt j (by simp [hj]))]
      congr 1
      congr 1 <;>
      · apply map_range_congr
        intro j _
        by_cases hji : j = i
        · subst hji; simp [hnd'.1]
        · simp [hji]

theorem mem_bins_iff {lag tol d : ℝ} (hl : 0 < lag) {n : Int} {j : Nat} (hj : j < n.toNat) :
    (j ∈ List.range' (max ⌈1 / lag * (d - tol)⌉ 0).toNat
      (min ⌊1 / lag * (d + tol)⌋ (n - 1) + 1 - max ⌈1 / lag * (d - tol)⌉ 0).toNat) ↔ |d - j * lag| ≤ tol := by
  rw [List.mem_range'_1, abs_le]
  have h1 : ⌈1 / lag * (d - tol)⌉ ≤ (j : Int) ↔ d - j * lag ≤ tol := by
    rw [Int.ceil_le, one_div, inv_mul_le_iff₀ hl]
    push_cast
    constructor <;> intro h <;> linarith
  have h2 : (j : Int) ≤ ⌊1 / lag * (d + tol)⌋ ↔ -tol ≤ d - j * lag := by
    rw [Int.le_floor, one_div, le_inv_mul_iff₀ hl]
    push_cast
    constructor <;> intro h <;> linarith
  rw [← h1, ← h2]
  constructor
  · rintro ⟨ha, hb⟩; constructor <;> omega
  · rintro ⟨ha, hb⟩; constructor <;> omega

theorem inBin_append (lag tol : ℝ) (b : Nat) (S T : List (ℝ × ℝ)) :
    inBin lag tol b (S ++ T) = inBin lag tol b S ++ inBin lag tol b T := by
  simp [inBin]

/-- A pair whose distance is in the range of the index type. -/
def InRange (lag tol d : ℝ) : Prop := (d + tol) / lag ≤ 2 ^ 63 - 1

theorem toIndex_ok {z : Int} (h1 : -2 ^ 63 ≤ z) (h2 : z < 2 ^ 63) : toIndex z = .ok z := by
  unfold toIndex; rw [if_pos ⟨h1, h2⟩]

theorem norm_nonneg' (v : Vec dim) : 0 ≤ norm v := Real.sqrt_nonneg _

theorem addPair_ofSamples {lag tol : ℝ} (hl : 0 < lag) (ht : 0 ≤ tol) {n : Int} (u : Vec dim) (S : List (ℝ × ℝ))
    (pi pj : Vec dim) (vi vj : ℝ) (hr : InRange lag tol (norm (pj - pi))) :
    (ofSamples lag tol n u S).addPair pi pj vi vj =
      .ok (ofSamples lag tol n u (S ++ [(norm (pj - pi), (vj - vi) ^ 2 / 2)])) := by
  unfold Builder.addPair
  have hd := norm_nonneg' (pj - pi)
  set d := norm (pj - pi) with hddef
  have e1 : (ofSamples lag tol n u S).lag = lag := rfl
  have e2 : (ofSamples lag tol n u S).tol = tol := rfl
  have e3 : (ofSamples lag tol n u S).numLags = n := rfl
  rw [e1, e2, e3, if_neg hl.ne']
  dsimp only
  unfold InRange at hr
  have hr' : 1 / lag * (d + tol) ≤ 2 ^ 63 - 1 := by rw [one_div, inv_mul_eq_div]; exact hr
  have hq : 0 ≤ 1 / lag * (d + tol) := by positivity
  have hle : 1 / lag * (d - tol) ≤ 1 / lag * (d + tol) := by
    apply mul_le_mul_of_nonneg_left _ (by positivity); linarith
  have hge : -(1 / lag * (d + tol)) ≤ 1 / lag * (d - tol) := by
    rw [← mul_neg]; apply mul_le_mul_of_nonneg_left _ (by positivity); linarith
  have c1 : -2 ^ 63 ≤ ⌈1 / lag * (d - tol)⌉ := by
    rw [Int.le_ceil_iff]; push_cast; linarith
  have c2 : ⌊1 / lag * (d + tol)⌋ < 2 ^ 63 := by
    rw [Int.floor_lt]; push_cast; linarith
  have c3 : -2 ^ 63 ≤ ⌊1 / lag * (d + tol)⌋ := by
    have : (0:Int) ≤ ⌊1 / lag * (d + tol)⌋ := Int.floor_nonneg.2 hq
    omega
  have c4 : ⌈1 / lag * (d - tol)⌉ < 2 ^ 63 := by
    have : ⌈1 / lag * (d - tol)⌉ ≤ 2 ^ 63 - 1 := by
      rw [Int.ceil_le]; push_cast; linarith
    omega
  rw [toIndex_ok c1 c4, toIndex_ok c3 c2]
  simp only [Outcome.ok_bind]
  have key := forEach_addToBin (ofSamples lag tol n u S) n.toNat d (0.5 * ((vj - vi) * (vj - vi)))
    (List.range' (max ⌈1 / lag * (d - tol)⌉ 0).toNat
      (min ⌊1 / lag * (d + tol)⌋ (n - 1) + 1 - max ⌈1 / lag * (d - tol)⌉ 0).toNat)
    List.nodup_range' (by intro i hi; rw [List.mem_range'_1] at hi; omega)
    (fun b => ((inBin lag tol b S).map Prod.fst).sum) (fun b => ((inBin lag tol b S).map Prod.snd).sum)
    (fun b => (inBin lag tol b S).length)
  refine Eq.trans key ?_
  congr 1
  unfold ofSamples
  congr 1
  all_goals
    apply map_range_congr
    intro j hj
    rw [if_congr (mem_bins_iff hl hj) rfl rfl, inBin_append]
    by_cases hb : |d - j * lag| ≤ tol
    · rw [if_pos hb]; simp [inBin, hb]; try ring
    · rw [if_neg hb]; simp [inBin, hb]

theorem forEach_mergeBin (b : Builder dim) (o : Builder dim) (n : Nat) (f' g' : Nat → ℝ) (h' : Nat → Nat)
    (ho : o.binDistance = (List.range n).map f' ∧ o.binGamma = (List.range n).map g' ∧
      o.binNumPairs = (List.range n).map h') :
    ∀ (L : List Nat), L.Nodup → (∀ i ∈ L, i < n) → ∀ (f g : Nat → ℝ) (h : Nat → Nat),
    forEach (Builder.mergeBin o) L
      { b with binDistance := (List.range n).map f, binGamma := (List.range n).map g,
               binNumPairs := (List.range n).map h } =
    .ok { b with binDistance := (List.range n).map (fun j => if j ∈ L then f j + f' j else f j),
                 binGamma := (List.range n).map (fun j => if j ∈ L then g j + g' j else g j),
                 binNumPairs := (List.range n).map (fun j => if j ∈ L then h j + h' j else h j) }
  | [], _, _, f, g, h => by simp [forEach]
  | i :: L, hnd, hlt, f, g, h => by
      have hi := hlt i (by simp)
      have hnd' := List.nodup_cons.1 hnd
      have e1 : o.binDistance[i]? = some (f' i) := by rw [ho.1]; simp [hi]
      have e2 : o.binGamma[i]? = some (g' i) := by rw [ho.2.1]; simp [hi]
      have e3 : o.binNumPairs[i]? = some (h' i) := by rw [ho.2.2]; simp [hi]
      simp only [forEach, Builder.mergeBin, e1, e2, e3, updateAt_map hi, Outcome.ok_bind, Outcome.pure_eq]
      rw [forEach_mergeBin b o n f' g' h' ho L hnd'.2 (fun j hj => hlt j (by simp [hj]))]
      congr 1
      congr 1 <;>
      · apply map_range_congr
        intro j _
        by_cases hji : j = i
        · subst hji; simp [hnd'.1]
        · simp [hji]

theorem merge_ofSamples (lag tol : ℝ) (n : Int) (u u' : Vec dim) (S T : List (ℝ × ℝ)) :
    (ofSamples lag tol n u S).merge (ofSamples lag tol n u' T) = .ok (ofSamples lag tol n u (S ++ T)) := by
  unfold Builder.merge
  refine Eq.trans (forEach_mergeBin (ofSamples lag tol n u S) (ofSamples lag tol n u' T) n.toNat _ _ _
    ⟨rfl, rfl, rfl⟩ (List.range n.toNat) List.nodup_range (fun i hi => List.mem_range.1 hi) _ _ _) ?_
  congr 1
  unfold ofSamples
  congr 1
  all_goals
    apply map_range_congr
    intro j hj
    rw [if_pos (List.mem_range.2 hj), inBin_append]
    simp

theorem compact_map (L : List Nat) (f g : Nat → ℝ) (h : Nat → Nat) :
    compact (L.map f) (L.map g) (L.map h) =
      ((L.filter (fun j => decide (h j ≠ 0))).map (fun j => f j / h j),
       (L.filter (fun j => decide (h j ≠ 0))).map (fun j => g j / h j),
       (L.filter (fun j => decide (h j ≠ 0))).map h) := by
  induction L with
  | nil => simp [compact]
  | cons i L ih =>
      simp only [List.map_cons, compact]
      by_cases hz : h i = 0
      · rw [if_pos hz, ih]; simp [hz]
      · rw [if_neg hz, ih]; simp [hz]

theorem intoVariogram_ofSamples (lag tol : ℝ) (n : Int) (u : Vec dim) (S : List (ℝ × ℝ)) :
    (ofSamples lag tol n u S).intoVariogram = vario lag tol n.toNat u S := by
  unfold Builder.intoVariogram ofSamples
  simp only [compact_map]
  have hb : (List.range n.toNat).filter (fun j => decide ((inBin lag tol j S).length ≠ 0)) =
      bins lag tol n.toNat S := by
    unfold bins
    congr 1
    funext j
    simp
  rw [hb]
  unfold vario mean
  simp

theorem inBin_perm {lag tol : ℝ} {b : Nat} {S T : List (ℝ × ℝ)} (h : S.Perm T) :
    (inBin lag tol b S).Perm (inBin lag tol b T) := h.filter _

theorem ofSamples_perm {lag tol : ℝ} {n : Int} {u : Vec dim} {S T : List (ℝ × ℝ)} (h : S.Perm T) :
    ofSamples lag tol n u S = ofSamples lag tol n u T := by
  unfold ofSamples
  congr 1
  · apply map_range_congr
    intro j _
    exact ((inBin_perm h).map _).sum_eq
  · apply map_range_congr
    intro j _
    exact ((inBin_perm h).map _).sum_eq
  · apply map_range_congr
    intro j _
    exact (inBin_perm h).length_eq

/-! ## The calculator -/

/-- The builders of all directions after the samples `S k`. -/
noncomputable def state (lag tol : ℝ) (n : Int) (dirs : List (Vec dim)) (S : Nat → List (ℝ × ℝ)) :
    List (Builder dim) :=
  (List.range dirs.length).map (fun k => ofSamples lag tol n (dirs.getD k 0) (S k))

theorem builders_eq (c : Calculator dim) (hn : 0 ≤ c.numLags) :
    c.builders = .ok (state c.lag c.lagTolerance c.numLags c.directions (fun _ => [])) := by
  unfold Calculator.builders
  rw [Outcome.traverse_ok (g := fun u => ofSamples c.lag c.lagTolerance c.numLags u [])
    (fun u _ => new_eq _ _ hn u)]
  congr 1
  unfold state
  apply List.ext_getElem
  · simp
  · intro i h1 h2
    simp at h1
    simp [h1]

theorem updateBuilder_state {lag tol : ℝ} {n : Int} {dirs : List (Vec dim)} {S : Nat → List (ℝ × ℝ)} {k : Nat}
    (hk : k < dirs.length) {f : Builder dim → Outcome (Builder dim)} {T : List (ℝ × ℝ)}
    (hf : f (ofSamples lag tol n (dirs.getD k 0) (S k)) = .ok (ofSamples lag tol n (dirs.getD k 0) T)) :
    updateBuilder (state lag tol n dirs S) k f = .ok (state lag tol n dirs (fun j => if j = k then T else S j)) := by
  unfold updateBuilder
  have : (state lag tol n dirs S)[k]? = some (ofSamples lag tol n (dirs.getD k 0) (S k)) := by
    simp [state, hk]
  rw [this]
  simp only [hf, Outcome.ok_bind, Outcome.pure_eq]
  congr 1
  unfold state
  apply List.ext_getElem
  · simp
  · intro i h1 h2
    simp only [List.getElem_set, List.getElem_map, List.getElem_range]
    by_cases h : k = i
    · subst h; simp
    · rw [if_neg h, if_neg (fun x => h x.symm)]

theorem forEach_update {lag tol : ℝ} {n : Int} {dirs : List (Vec dim)}
    {f : Nat → Builder dim → Outcome (Builder dim)} {X : Nat → List (ℝ × ℝ)} :
    ∀ (L : List Nat), L.Nodup → (∀ k ∈ L, k < dirs.length) →
    (∀ k ∈ L, ∀ S, f k (ofSamples lag tol n (dirs.getD k 0) S) = .ok (ofSamples lag tol n (dirs.getD k 0) (S ++ X k))) →
    ∀ S : Nat → List (ℝ × ℝ),
    forEach (fun bs k => updateBuilder bs k (f k)) L (state lag tol n dirs S) =
      .ok (state lag tol n dirs (fun k => if k ∈ L then S k ++ X k else S k))
  | [], _, _, _, S => by simp [forEach]
  | k :: L, hnd, hlt, hf, S => by
      have hnd' := List.nodup_cons.1 hnd
      simp only [forEach]
      rw [updateBuilder_state (hlt k (by simp)) (hf k (by simp) (S k))]
      simp only [Outcome.ok_bind]
      rw [forEach_update L hnd'.2 (fun j hj => hlt j (by simp [hj])) (fun j hj => hf j (by simp [hj]))]
      congr 1
      unfold state
      apply map_range_congr
      intro j _
      by_cases h : j = k
      · subst h; simp [hnd'.1]
      · simp [h]

/-- `maxCoeff(&k)` returns a position of the vector. -/
def ArgmaxOk (argmax : List ℝ → Nat) : Prop :=
  ∀ l : List ℝ, l ≠ [] → argmax l < l.length ∧ ∀ x ∈ l, x ≤ l.getD (argmax l) 0

theorem selected_nodup (c : Calculator dim) (argmax : List ℝ → Nat) (v : Vec dim) : (c.selected argmax v).Nodup := by
  unfold Calculator.selected
  dsimp only
  split
  · simp
  · exact List.nodup_range.filter _

theorem selected_lt {c : Calculator dim} {argmax : List ℝ → Nat} (ha : ArgmaxOk argmax) (hd : c.directions ≠ [])
    (v : Vec dim) : ∀ k ∈ c.selected argmax v, k < c.directions.length := by
  intro k
  unfold Calculator.selected
  dsimp only
  split
  · intro hk
    simp only [List.mem_singleton] at hk
    have := (ha (c.directions.map (fun u => dot v u ^ 2)) (by simpa using hd)).1
    rw [hk]; simpa using this
  · intro hk
    simp only [List.mem_filter, List.mem_range] at hk
    exact hk.1

/-- The samples a list of pairs contributes to direction `k`. -/
noncomputable def contrib (select : Vec dim → List Nat) (pts : List (Vec dim)) (vals : List ℝ) (k : Nat)
    (P : List (Nat × Nat)) : List (ℝ × ℝ) :=
  (P.filter (fun ij => decide (k ∈ select (pts.getD ij.2 0 - pts.getD ij.1 0)))).map (sample pts vals)

theorem contrib_append (select : Vec dim → List Nat) (pts : List (Vec dim)) (vals : List ℝ) (k : Nat)
    (P Q : List (Nat × Nat)) :
    contrib select pts vals k (P ++ Q) = contrib select pts vals k P ++ contrib select pts vals k Q := by
  simp [contrib]

/-- What a run needs: a positive lag, a non-negative tolerance, as many values as points, distances within the range of the
index type. -/
structure Ready (c : Calculator dim) (argmax : List ℝ → Nat) (pts : List (Vec dim)) (vals : List ℝ) : Prop where
  lag : 0 < c.lag
  tol : 0 ≤ c.lagTolerance
  numLags : 0 ≤ c.numLags
  directions : c.directions ≠ []
  argmax : ArgmaxOk argmax
  values : vals.length = pts.length
  range : ∀ p ∈ pts, ∀ q ∈ pts, InRange c.lag c.lagTolerance (norm (q - p))

theorem pair_state {c : Calculator dim} {argmax : List ℝ → Nat} {pts : List (Vec dim)} {vals : List ℝ}
    (h : Ready c argmax pts vals) {i j : Nat} (hi : i < pts.length) (hj : j < pts.length)
    (S : Nat → List (ℝ × ℝ)) :
    c.pair argmax pts vals i (state c.lag c.lagTolerance c.numLags c.directions S) j =
      .ok (state c.lag c.lagTolerance c.numLags c.directions
        (fun k => S k ++ contrib (c.selected argmax) pts vals k [(i, j)])) := by
  have gi : Outcome.get pts i = .ok (pts.getD i 0) := by simp [Outcome.get, hi]
  have gj : Outcome.get pts j = .ok (pts.getD j 0) := by simp [Outcome.get, hj]
  have vi : Outcome.get vals i = .ok (vals.getD i 0) := by simp [Outcome.get, h.values, hi]
  have vj : Outcome.get vals j = .ok (vals.getD j 0) := by simp [Outcome.get, h.values, hj]
  unfold Calculator.pair
  simp only [gi, gj, vi, vj, Outcome.ok_bind]
  have hr : InRange c.lag c.lagTolerance (norm (pts.getD j 0 - pts.getD i 0)) :=
    h.range _ (by simp [hi]) _ (by simp [hj])
  rw [forEach_update (f := fun _ b => b.addPair (pts.getD i 0) (pts.getD j 0) (vals.getD i 0) (vals.getD j 0))
    (X := fun _ => [sample pts vals (i, j)]) _ (selected_nodup c argmax _) (selected_lt h.argmax h.directions _)
    (fun k _ S => addPair_ofSamples h.lag h.tol _ S _ _ _ _ hr)]
  congr 1
  unfold state
  apply map_range_congr
  intro k _
  congr 1
  unfold contrib
  dsimp only
  by_cases hk : k ∈ c.selected argmax (pts.getD j 0 - pts.getD i 0)
  · rw [if_pos hk]; simp only [List.filter_cons, hk, decide_true, if_true]; simp
  · rw [if_neg hk]; simp only [List.filter_cons, hk, decide_false, List.filter_nil]; simp

theorem forEach_state {c : Calculator dim} {f : List (Builder dim) → ι → Outcome (List (Builder dim))}
    {X : ι → Nat → List (ℝ × ℝ)} : ∀ (L : List ι),
    (∀ x ∈ L, ∀ S, f (state c.lag c.lagTolerance c.numLags c.directions S) x =
      .ok (state c.lag c.lagTolerance c.numLags c.directions (fun k => S k ++ X x k))) →
    ∀ S, forEach f L (state c.lag c.lagTolerance c.numLags c.directions S) =
      .ok (state c.lag c.lagTolerance c.numLags c.directions (fun k => S k ++ L.flatMap (fun x => X x k)))
  | [], _, S => by simp [forEach]
  | x :: L, h, S => by
      simp only [forEach, h x (by simp), Outcome.ok_bind]
      rw [forEach_state L (fun y hy => h y (by simp [hy]))]
      simp [List.append_assoc]

/-- The pairs an outer loop iteration handles. -/
def rowPairs (n i : Nat) : List (Nat × Nat) := (List.range' (i + 1) (n - (i + 1))).map (fun j => (i, j))

theorem contrib_flatMap (select : Vec dim → List Nat) (pts : List (Vec dim)) (vals : List ℝ) (k : Nat) (L : List ι)
    (F : ι → List (Nat × Nat)) :
    contrib select pts vals k (L.flatMap F) = L.flatMap (fun x => contrib select pts vals k (F x)) := by
  induction L with
  | nil => simp [contrib]
  | cons x L ih => simp [contrib_append, ih]

theorem row_state {c : Calculator dim} {argmax : List ℝ → Nat} {pts : List (Vec dim)} {vals : List ℝ}
    (h : Ready c argmax pts vals) {i : Nat} (hi : i < pts.length) (S : Nat → List (ℝ × ℝ)) :
    c.row argmax pts vals (state c.lag c.lagTolerance c.numLags c.directions S) i =
      .ok (state c.lag c.lagTolerance c.numLags c.directions
        (fun k => S k ++ contrib (c.selected argmax) pts vals k (rowPairs pts.length i))) := by
  unfold Calculator.row
  rw [forEach_state (X := fun j k => contrib (c.selected argmax) pts vals k [(i, j)]) _
    (fun j hj S => pair_state h hi (by rw [List.mem_range'_1] at hj; omega) S)]
  congr 1
  congr 1
  funext k
  congr 1
  rw [← contrib_flatMap]
  unfold rowPairs
  congr 1
  induction List.range' (i + 1) (pts.length - (i + 1)) with
  | nil => rfl
  | cons x l ih => simp [ih]

theorem mergeAll_state (lag tol : ℝ) (n : Int) (dirs : List (Vec dim)) (S T : Nat → List (ℝ × ℝ)) :
    mergeAll dirs.length (state lag tol n dirs S) (state lag tol n dirs T) =
      .ok (state lag tol n dirs (fun k => S k ++ T k)) := by
  unfold mergeAll
  have key := forEach_update (lag := lag) (tol := tol) (n := n) (dirs := dirs)
    (f := fun k b => b.merge (ofSamples lag tol n (dirs.getD k 0) (T k))) (X := T) (List.range dirs.length)
    List.nodup_range (fun k hk => List.mem_range.1 hk) (fun k _ S => merge_ofSamples _ _ _ _ _ _ _) S
  have hcongr : ∀ (L : List Nat), (∀ k ∈ L, k < dirs.length) → ∀ bs,
      forEach (fun bs k => match (state lag tol n dirs T)[k]? with
        | none => .throws .outOfRange
        | some l => updateBuilder bs k (fun b => b.merge l)) L bs =
      forEach (fun bs k => updateBuilder bs k (fun b => b.merge (ofSamples lag tol n (dirs.getD k 0) (T k)))) L bs := by
    intro L hL
    induction L with
    | nil => intro bs; rfl
    | cons k L ih =>
        intro bs
        have : (state lag tol n dirs T)[k]? = some (ofSamples lag tol n (dirs.getD k 0) (T k)) := by
          simp [state, hL k (by simp)]
        simp only [forEach, this]
        cases updateBuilder bs k (fun b => b.merge (ofSamples lag tol n (dirs.getD k 0) (T k))) with
        | ok b => simpa using ih (fun j hj => hL j (by simp [hj])) b
        | throws e => rfl
        | ub => rfl
  refine (hcongr _ (fun k hk => List.mem_range.1 hk) _).trans (key.trans ?_)
  congr 1
  unfold state
  apply map_range_congr
  intro k hk
  dsimp only
  rw [if_pos (List.mem_range.2 hk)]

theorem thread_state {c : Calculator dim} {argmax : List ℝ → Nat} {pts : List (Vec dim)} {vals : List ℝ}
    (h : Ready c argmax pts vals) {rows : List Nat} (hrows : ∀ i ∈ rows, i < pts.length) (S : Nat → List (ℝ × ℝ)) :
    c.thread argmax pts vals (state c.lag c.lagTolerance c.numLags c.directions S) rows =
      .ok (state c.lag c.lagTolerance c.numLags c.directions
        (fun k => S k ++ contrib (c.selected argmax) pts vals k (rows.flatMap (rowPairs pts.length)))) := by
  unfold Calculator.thread
  rw [builders_eq c h.numLags]
  simp only [Outcome.ok_bind]
  rw [forEach_state (X := fun i k => contrib (c.selected argmax) pts vals k (rowPairs pts.length i)) _
    (fun i hi S => row_state h (hrows i hi) S)]
  simp only [Outcome.ok_bind, List.nil_append]
  rw [mergeAll_state]
  simp only [contrib_flatMap]

theorem calculate_state {c : Calculator dim} {argmax : List ℝ → Nat} {pts : List (Vec dim)} {vals : List ℝ}
    (h : Ready c argmax pts vals) {schedule : List (List Nat)} (hs : ∀ rows ∈ schedule, ∀ i ∈ rows, i < pts.length) :
    c.calculate argmax pts vals schedule = .ok (collect (state c.lag c.lagTolerance c.numLags c.directions
        (fun k => contrib (c.selected argmax) pts vals k (schedule.flatten.flatMap (rowPairs pts.length))))) := by
  unfold Calculator.calculate
  rw [builders_eq c h.numLags]
  simp only [Outcome.ok_bind]
  rw [forEach_state (X := fun rows k => contrib (c.selected argmax) pts vals k (rows.flatMap (rowPairs pts.length))) _
    (fun rows hr S => thread_state h (hs rows hr) S)]
  simp only [Outcome.ok_bind, List.nil_append, Outcome.pure_eq]
  congr 2
  congr 1
  funext k
  rw [← contrib_flatMap]
  congr 1
  induction schedule with
  | nil => rfl
  | cons r s ih => simp [ih (fun rows hr => hs rows (by simp [hr]))]

theorem vario_num_pairs_ne_zero (lag tol : ℝ) (n : Nat) (u : Vec dim) (S : List (ℝ × ℝ)) :
    (vario lag tol n u S).binNumPairs.sum ≠ 0 ↔ bins lag tol n S ≠ [] := by
  unfold vario
  dsimp only
  constructor
  · intro h hb; rw [hb] at h; simp at h
  · intro h hz
    rw [List.sum_eq_zero_iff] at hz
    obtain ⟨b, hb⟩ := List.exists_mem_of_ne_nil _ h
    have h0 := hz _ (List.mem_map_of_mem hb)
    unfold bins at hb
    simp only [List.mem_filter, decide_eq_true_eq] at hb
    exact hb.2 (List.length_eq_zero_iff.1 h0)

theorem collect_state (lag tol : ℝ) (n : Int) (dirs : List (Vec dim)) (S : Nat → List (ℝ × ℝ)) :
    collect (state lag tol n dirs S) =
      ((List.range dirs.length).filter (fun k => decide (bins lag tol n.toNat (S k) ≠ []))).map
        (fun k => vario lag tol n.toNat (dirs.getD k 0) (S k)) := by
  unfold collect state
  rw [List.map_map, List.filter_map]
  have : (Builder.intoVariogram ∘ fun k => ofSamples lag tol n (dirs.getD k 0) (S k)) =
      fun k => vario lag tol n.toNat (dirs.getD k 0) (S k) := by
    funext k; exact intoVariogram_ofSamples _ _ _ _ _
  rw [this]
  congr 1
  congr 1
  funext k
  have := vario_num_pairs_ne_zero lag tol n.toNat (dirs.getD k 0) (S k)
  by_cases hb : bins lag tol n.toNat (S k) = []
  · have h0 : (vario lag tol n.toNat (dirs.getD k 0) (S k)).binNumPairs.sum = 0 := by
      by_contra hne; exact (this.1 hne) hb
    simp only [Function.comp, h0, hb]; simp
  · have h0 := this.2 hb
    simp only [Function.comp, bne_iff_ne, ne_eq, hb, not_false_eq_true, decide_true]
    simpa using h0

end Verif.Variogram
