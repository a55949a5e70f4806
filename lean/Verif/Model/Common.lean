import Verif.Model.Outcome

/-!
# include/polatory/common: zip_sort, complementary_indices, concatenate
-/

namespace Verif.Common

open Verif

/-! ## zip_sort.hpp -/

/-- `zip_sort.hpp:20-22` - moves `*it1, *it2` of both ranges into a vector of pairs.  The second range is
given by its begin only, so a second range shorter than the first is read out of bounds (`ub`).
Returns the pairs and the untouched rest of the second sequence. -/
def zipLoop : List α → List β → Outcome (List (α × β) × List β)
  | [], ys => .ok ([], ys)
  | _ :: _, [] => .ub
  | x :: xs, y :: ys => do
      let (zs, rest) ← zipLoop xs ys
      return ((x, y) :: zs, rest)

/-- `zip_sort.hpp:26-30` - writes the sorted pairs back to both ranges. -/
def unzipLoop : List (α × β) → List α × List β
  | [] => ([], [])
  | (x, y) :: zs => (x :: (unzipLoop zs).1, y :: (unzipLoop zs).2)

/-- `zip_sort.hpp:12-31` - `zip_sort(first1, last1, first2, comp)`.  `sort` stands for
`std::sort(·, ·, comp)` (line 24); any function meeting the contract of `std::sort` may be used. -/
def zipSort (sort : List (α × β) → List (α × β)) (r1 : List α) (r2 : List β) :
    Outcome (List α × List β) := do
  let (zipped, rest) ← zipLoop r1 r2
  let sorted := sort zipped
  let (a, b) := unzipLoop sorted
  return (a, b ++ rest)

/-! ## complementary_indices.hpp -/

/-- `complementary_indices.hpp:16` - `std::set_difference` of two sorted ranges (the algorithm of the C++
standard library, multiset semantics). -/
def setDifference : List Int → List Int → List Int
  | [], _ => []
  | xs@(_ :: _), [] => xs
  | x :: xs, y :: ys =>
      if x < y then x :: setDifference xs (y :: ys)
      else if y < x then setDifference (x :: xs) ys
      else setDifference xs ys
  termination_by xs ys => xs.length + ys.length

/-- `complementary_indices.hpp:13` - `boost::irange<Index>(0, n_points)`. -/
def irange (n : Nat) : List Int := (List.range n).map Int.ofNat

/-- `complementary_indices.hpp:10-19`.  `sort` stands for `std::sort` (line 15).
Line 11 allocates exactly `n_points - indices.size()` zeros: the subtraction is unsigned, so more indices than
points is a `std::length_error`.  Line 16 writes the difference through an unchecked iterator: more elements
than the buffer holds is undefined behaviour; fewer would leave zeros at the end. -/
def complementaryIndices (sort : List Int → List Int) (indices : List Int) (n : Nat) :
    Outcome (List Int) :=
  if n < indices.length then .throws .lengthError
  else
    let size := n - indices.length
    let d := setDifference (irange n) (sort indices)
    if size < d.length then .ub
    else .ok (d ++ List.replicate (size - d.length) 0)

/-! ## concatenate.hpp -/

/-- A dense matrix: shape and entries (entries outside of the shape are meaningless). -/
structure Mat (α : Type u) where
  rows : Nat
  cols : Nat
  entry : Nat → Nat → α

/-- `concatenate.hpp:13-25` - `common_cols(m, args...)`: note the recursion compares `m` against the common
count of the rest, so the rest is checked first. -/
def commonCols (m : Mat α) : List (Mat α) → Outcome Nat
  | [] => .ok m.cols
  | m' :: rest => do
      let c ← commonCols m' rest
      if m.cols ≠ c then .throws .invalidArgument else return m.cols

/-- `concatenate.hpp:27-38` - `common_rows(m, args...)`. -/
def commonRows (m : Mat α) : List (Mat α) → Outcome Nat
  | [] => .ok m.rows
  | m' :: rest => do
      let r ← commonRows m' rest
      if m.rows ≠ r then .throws .invalidArgument else return m.rows

/-- Assignment of `m` to the block of `dst` starting at row `r0`, column `c0` (Eigen block assignment). -/
def Mat.setBlock (dst : Mat α) (r0 c0 : Nat) (m : Mat α) : Mat α :=
  { dst with entry := fun i j =>
      if r0 ≤ i ∧ i < r0 + m.rows ∧ c0 ≤ j ∧ j < c0 + m.cols then m.entry (i - r0) (j - c0)
      else dst.entry i j }

/-- `concatenate.hpp:55-68` - fills the rows of the result from the top; the recursion works on the remaining
bottom rows, which is the block starting at row `r0`.  The last call assigns a whole block of exactly the size
of the last matrix (`concatenate.hpp:58`). -/
def concatRowsImpl (dst : Mat α) (r0 : Nat) : List (Mat α) → Mat α
  | [] => dst
  | m :: rest => concatRowsImpl (dst.setBlock r0 0 m) (r0 + m.rows) rest

/-- `concatenate.hpp:40-53` - the same for columns. -/
def concatColsImpl (dst : Mat α) (c0 : Nat) : List (Mat α) → Mat α
  | [] => dst
  | m :: rest => concatColsImpl (dst.setBlock 0 c0 m) (c0 + m.cols) rest

/-- `concatenate.hpp:81-88` - `concatenate_rows<Result>(args...)` (at least one argument; `init` is the
uninitialised content of the freshly constructed result). -/
def concatenateRows (init : Nat → Nat → α) (m : Mat α) (rest : List (Mat α)) : Outcome (Mat α) := do
  let c ← commonCols m rest
  let dst : Mat α := ⟨((m :: rest).map Mat.rows).sum, c, init⟩
  return concatRowsImpl dst 0 (m :: rest)

/-- `concatenate.hpp:72-79` - `concatenate_cols<Result>(args...)`. -/
def concatenateCols (init : Nat → Nat → α) (m : Mat α) (rest : List (Mat α)) : Outcome (Mat α) := do
  let r ← commonRows m rest
  let dst : Mat α := ⟨r, ((m :: rest).map Mat.cols).sum, init⟩
  return concatColsImpl dst 0 (m :: rest)

end Verif.Common
