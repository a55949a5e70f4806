import Verif.Model.Outcome
import Mathlib.Data.Real.Basic
import Mathlib.Algebra.BigOperators.Fin

/-!
# src/point_cloud/normal_estimator.cpp, include/polatory/point_cloud/normal_estimator.hpp

Doubles are real numbers.  The kd-tree and the plane estimator (a singular value decomposition) are arbitrary functions: what
the tree reports for a query, in the order after sorting by distance, and the plane factor and normal of a list of points.
`for` loops marked `omp parallel` write each their own row, so their order does not matter.
-/

namespace Verif.Normals

open Verif

abbrev V3 := Fin 3 → ℝ

/-- `a.dot(b)` -/
def dot (a b : V3) : ℝ := ∑ i, a i * b i

/-- What the estimator is built from: the points, the tree and the plane estimator. -/
structure Cloud where
  n : Nat
  point : Nat → V3
  /-- `knn_search` followed by `zip_sort` (`normal_estimator.cpp:49-52`) -/
  knn : Nat → Nat → List Nat
  /-- `radius_search` followed by `zip_sort`: indices with distances (`normal_estimator.cpp:107-114`) -/
  radius : Nat → ℝ → List (Nat × ℝ)
  /-- `PlaneEstimator(points).plane_factor(), plane_normal()` -/
  plane : List Nat → ℝ × V3

/-- `plane_estimator.cpp:8-17` - with fewer than three points there are fewer than three singular values, and the third is
read out of bounds (the assertion is compiled out in release builds). -/
def Cloud.planeEst (c : Cloud) (nn : List Nat) : Outcome (ℝ × V3) := if nn.length < 3 then .ub else .ok (c.plane nn)

/-- `normal_estimator.hpp:92-94` -/
structure State where
  estimated : Bool
  normals : Nat → V3
  factors : Nat → ℝ

/-- a new estimator -/
def State.new : State := ⟨false, 0, 0⟩

open Classical in
/-- `std::max_element` over the plane factors, then `plane_normals.at(best)`: the first entry with the largest factor. -/
noncomputable def best : List (ℝ × V3) → Option (ℝ × V3)
  | [] => none
  | x :: xs => some (xs.foldl (fun b y => if b.1 < y.1 then y else b) x)

/-- `normal_estimator.cpp:54-67` - for each `k`, in decreasing order, the list of neighbours is cut to `min(k, n)`. -/
def knnPlanes (c : Cloud) : List Nat → List Nat → Outcome (List (ℝ × V3))
  | [], _ => .ok []
  | k :: ks, nn => do
      let nn := nn.take (min k c.n)
      let e ← c.planeEst nn
      let es ← knnPlanes c ks nn
      .ok (e :: es)

/-- `normal_estimator.cpp:47-68` - one point; `plane_normals.at(best)` would throw for an empty list. -/
noncomputable def knnPoint (c : Cloud) (ksSorted : List Nat) (i : Nat) : Outcome (ℝ × V3) := do
  let kmax := min (ksSorted.headD 0) c.n
  let es ← knnPlanes c ksSorted (c.knn i kmax)
  match best es with
  | some b => .ok b
  | none => .throws .outOfRange

open Classical in
/-- `normal_estimator.cpp:22-73` -/
noncomputable def estimateWithKnn (c : Cloud) (ks : List Int) (s : State) : Outcome State :=
  if ks = [] then .throws .runtimeError
  else if ks.any (fun k => decide (k < 3)) then .throws .runtimeError
  else if c.n < 3 then .ok ⟨true, 0, 0⟩
  else do
    let sorted := (ks.map Int.toNat).mergeSort (fun a b => decide (b ≤ a))
    let es ← Outcome.traverse (knnPoint c sorted) (List.range c.n)
    let _ := s
    .ok ⟨true, fun i => (es.getD i (0, 0)).2, fun i => (es.getD i (0, 0)).1⟩

open Classical in
/-- `normal_estimator.cpp:118-126` - for each radius, in decreasing order, the neighbours are cut at `upper_bound`. -/
noncomputable def radiusPlanes (c : Cloud) : List ℝ → List (Nat × ℝ) → Outcome (List (ℝ × V3))
  | [], _ => .ok []
  | r :: rs, nn => do
      let nn := nn.takeWhile (fun p => decide (p.2 ≤ r))
      let e ← c.planeEst (nn.map Prod.fst)
      let es ← radiusPlanes c rs nn
      .ok (e :: es)

/-- `normal_estimator.cpp:105-133` - one point; with fewer than three neighbours the row stays zero. -/
noncomputable def radiusPoint (c : Cloud) (radiiSorted : List ℝ) (i : Nat) : Outcome (ℝ × V3) :=
  let nn := c.radius i (radiiSorted.headD 0)
  if nn.length < 3 then .ok (0, 0)
  else do
    let es ← radiusPlanes c radiiSorted nn
    match best es with
    | some b => .ok b
    | none => .throws .outOfRange

open Classical in
/-- `normal_estimator.cpp:80-138` -/
noncomputable def estimateWithRadius (c : Cloud) (radii : List ℝ) (s : State) : Outcome State :=
  if radii = [] then .throws .runtimeError
  else if radii.any (fun r => decide (¬ (r > 0))) then .throws .runtimeError
  else do
    let sorted := radii.mergeSort (fun a b => decide (b ≤ a))
    let es ← Outcome.traverse (radiusPoint c sorted) (List.range c.n)
    let _ := s
    .ok ⟨true, fun i => (es.getD i (0, 0)).2, fun i => (es.getD i (0, 0)).1⟩

open Classical in
/-- `normal_estimator.cpp:140-150` -/
noncomputable def filterByPlaneFactor (threshold : ℝ) (s : State) : Outcome State :=
  if ¬ s.estimated then .throws .runtimeError
  else .ok { s with normals := fun i => if s.factors i < threshold then 0 else s.normals i }

open Classical in
/-- `normal_estimator.cpp:152-164` -/
noncomputable def orientTowardDirection (d : V3) (s : State) : Outcome State :=
  if ¬ s.estimated then .throws .runtimeError
  else .ok { s with normals := fun i => if dot (s.normals i) d < 0 then -s.normals i else s.normals i }

open Classical in
/-- `normal_estimator.cpp:166-179` -/
noncomputable def orientTowardPoint (c : Cloud) (p : V3) (s : State) : Outcome State :=
  if ¬ s.estimated then .throws .runtimeError
  else .ok { s with normals := fun i => if dot (s.normals i) (p - c.point i) < 0 then -s.normals i else s.normals i }

/-! ## Orientation of a closed surface -/

/-- `normal_estimator.cpp:201-208` - the local variables: normals, which points are oriented, the queue of pairs (previous,
current), the component.  The weight of a pair only decides the order in which the queue gives the pairs back. -/
structure Work where
  normals : Nat → V3
  oriented : Nat → Bool
  queue : List (Nat × Nat)
  component : List Nat

/-- The number of points not yet oriented; used for termination only. -/
def openCount (n : Nat) (oriented : Nat → Bool) : Nat := ((Finset.range n).filter (fun i => oriented i = false)).card

theorem openCount_update {n : Nat} {o : Nat → Bool} {i : Nat} (hi : i < n) (ho : o i = false) :
    openCount n (Function.update o i true) < openCount n o := by
  unfold openCount
  apply Finset.card_lt_card
  rw [Finset.ssubset_iff_of_subset]
  · exact ⟨i, by simp [hi, ho], by simp⟩
  · intro j hj
    simp only [Finset.mem_filter, Finset.mem_range] at hj ⊢
    refine ⟨hj.1, ?_⟩
    by_cases hji : j = i
    · subst hji; exact ho
    · rw [Function.update_of_ne hji] at hj; exact hj.2

/-- `normal_estimator.cpp:219-230, 251-262` - the neighbours not yet oriented join the queue. -/
def pushNeighbors (knn : Nat → List Nat) (oriented : Nat → Bool) (cur : Nat) (queue : List (Nat × Nat)) : List (Nat × Nat) :=
  queue ++ ((knn cur).filter (fun i => !oriented i)).map (fun i => (cur, i))

open Classical in
/-- `normal_estimator.cpp:233-263` - the loop over the queue.  `pick` is the position of the pair the priority queue gives
back; any choice is allowed.  `oriented.at` checks the index. -/
noncomputable def propagate (n : Nat) (knn : Nat → List Nat) (pick : List (Nat × Nat) → Nat) (w : Work) : Outcome Work :=
  if hq : w.queue = [] then .ok w
  else
    let at_ := pick w.queue % w.queue.length
    let pair := w.queue[at_]'(Nat.mod_lt _ (List.length_pos_of_ne_nil hq))
    let rest := w.queue.eraseIdx at_
    let prev := pair.1
    let cur := pair.2
    if hn : ¬ cur < n then .throws .outOfRange
    else if ho : w.oriented cur then propagate n knn pick { w with queue := rest }
    else
      let normals := if dot (w.normals cur) (w.normals prev) < 0 then
          Function.update w.normals cur (-w.normals cur) else w.normals
      let oriented := Function.update w.oriented cur true
      propagate n knn pick ⟨normals, oriented, pushNeighbors knn oriented cur rest, w.component ++ [cur]⟩
termination_by (openCount n w.oriented, w.queue.length)
decreasing_by
  · apply Prod.Lex.right
    have := Nat.mod_lt (pick w.queue) (List.length_pos_of_ne_nil hq)
    simp only [List.length_eraseIdx]
    split <;> omega
  · apply Prod.Lex.left
    exact openCount_update (by simpa using hn) (by simpa using ho)

open Classical in
/-- `normal_estimator.cpp:265-272` - the seed is the first point of the component with the largest `z`; if its normal points
down, the whole component is negated. -/
noncomputable def flipComponent (c : Cloud) (normals : Nat → V3) (component : List Nat) : Nat → V3 :=
  match component with
  | [] => normals
  | x :: xs =>
      let seed := xs.foldl (fun b i => if c.point b 2 < c.point i 2 then i else b) x
      if normals seed 2 < 0 then fun i => if i ∈ component then -normals i else normals i else normals

/-- `normal_estimator.cpp:210-230` - the seed of a component is oriented and its neighbours join the queue. -/
def startComponent (knn : Nat → List Nat) (normals : Nat → V3) (oriented : Nat → Bool) (cur : Nat) : Work :=
  let oriented := Function.update oriented cur true
  ⟨normals, oriented, pushNeighbors knn oriented cur [], [cur]⟩

theorem find_lt {n : Nat} {o : Nat → Bool} {i : Nat} (h : (List.range n).find? (fun i => !o i) = some i) :
    i < n ∧ o i = false := by
  have h1 := List.find?_some h
  have h2 := List.mem_of_find?_eq_some h
  exact ⟨List.mem_range.1 h2, by simpa using h1⟩

open Classical in
/-- `propagate` never makes an oriented point unoriented; used for termination of the outer loop only. -/
theorem propagate_oriented (n : Nat) (knn : Nat → List Nat) (pick : List (Nat × Nat) → Nat) : ∀ w w',
    propagate n knn pick w = .ok w' → ∀ i, w.oriented i = true → w'.oriented i = true := by
  intro w
  induction w using propagate.induct n knn pick with
  | case1 w hq =>
      intro w' h i hi
      rw [propagate, dif_pos hq] at h
      cases h; exact hi
  | case2 w hq at_ pair cur hn =>
      intro w' h i hi
      rw [propagate, dif_neg hq] at h
      simp only [at_, pair, cur] at hn
      dsimp only at h
      rw [dif_pos hn] at h
      cases h
  | case3 w hq at_ pair rest cur hn ho ih =>
      intro w' h i hi
      rw [propagate, dif_neg hq] at h
      simp only [at_, pair, cur] at hn ho
      dsimp only at h
      rw [dif_neg hn, dif_pos ho] at h
      exact ih w' h i hi
  | case4 w hq at_ pair rest prev cur hn ho normals oriented ih =>
      intro w' h i hi
      rw [propagate, dif_neg hq] at h
      simp only [at_, pair, cur] at hn ho
      dsimp only at h
      rw [dif_neg hn, dif_neg ho] at h
      refine ih w' h i ?_
      change Function.update w.oriented cur true i = true
      by_cases hic : i = cur
      · rw [hic, Function.update_self]
      · rw [Function.update_of_ne hic]; exact hi

open Classical in
/-- `normal_estimator.cpp:207-275` - the loop over the components; `std::find` continues from the last component's start, all
earlier points being oriented.  Returns the normals and the components. -/
noncomputable def components (c : Cloud) (knn : Nat → List Nat) (pick : List (Nat × Nat) → Nat) (normals : Nat → V3)
    (oriented : Nat → Bool) (acc : List (List Nat)) : Outcome ((Nat → V3) × List (List Nat)) :=
  match hf : (List.range c.n).find? (fun i => !oriented i) with
  | none => .ok (normals, acc)
  | some cur =>
      match hp : propagate c.n knn pick (startComponent knn normals oriented cur) with
      | .throws e => .throws e
      | .ub => .ub
      | .ok w => components c knn pick (flipComponent c w.normals w.component) w.oriented (w.component :: acc)
termination_by openCount c.n oriented
decreasing_by
  obtain ⟨h1, h2⟩ := find_lt hf
  refine lt_of_le_of_lt ?_ (openCount_update h1 h2)
  unfold openCount
  apply Finset.card_le_card
  intro j hj
  simp only [Finset.mem_filter, Finset.mem_range] at hj ⊢
  refine ⟨hj.1, ?_⟩
  by_contra hne
  have := propagate_oriented c.n knn pick _ _ hp j (by
    simp only [startComponent]
    cases h : Function.update oriented cur true j with
    | true => rfl
    | false => exact absurd h hne)
  rw [this] at hj
  exact absurd hj.2 (by simp)

/-- Eigen's `isZero()`: every coefficient is at most the default precision `1e-12` in absolute value. -/
def isZero (v : V3) : Prop := ∀ i, |v i| ≤ 1e-12

open Classical in
/-- `normal_estimator.cpp:189-280`.  With `k ≤ 0` the first neighbour search throws, if there is anything to orient. -/
noncomputable def orientClosedSurface (c : Cloud) (pick : List (Nat × Nat) → Nat) (k : Int) (s : State) :
    Outcome (State × List (List Nat)) :=
  if ¬ s.estimated then .throws .runtimeError
  else
    let k := min k c.n
    let oriented : Nat → Bool := fun i => decide (isZero (s.normals i))
    if k ≤ 0 ∧ (List.range c.n).any (fun i => !oriented i) then .throws .invalidArgument
    else do
      let r ← components c (fun i => c.knn i k.toNat) pick s.normals oriented []
      .ok ({ s with normals := r.1 }, r.2)

/-- The public calls. -/
inductive Op where
  | knn (ks : List Int)
  | radius (radii : List ℝ)
  | filter (threshold : ℝ)
  | direction (d : V3)
  | point (p : V3)
  | closed (k : Int)

/-- A call. -/
noncomputable def Op.run (c : Cloud) (pick : List (Nat × Nat) → Nat) (s : State) : Op → Outcome State
  | .knn ks => estimateWithKnn c ks s
  | .radius rs => estimateWithRadius c rs s
  | .filter t => filterByPlaneFactor t s
  | .direction d => orientTowardDirection d s
  | .point p => orientTowardPoint c p s
  | .closed k => do
      let r ← orientClosedSurface c pick k s
      .ok r.1

/-- `normal_estimator.hpp:48-58` - reading the normals. -/
def State.read (s : State) : Outcome (Nat → V3) := if ¬ s.estimated then .throws .runtimeError else .ok s.normals

end Verif.Normals
