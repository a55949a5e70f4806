import Verif.Model.Outcome
import Verif.Model.DomainDivider
import Mathlib.Data.Matrix.Mul
import Mathlib.Data.Matrix.Block
import Mathlib.Data.Real.Basic

/-!
# preconditioner/fine_grid.hpp, preconditioner/coarse_grid.hpp, ras_preconditioner.hpp:280-297

Arithmetic is exact (real numbers).  Buffers of doubles are functions from offsets, with their size kept beside them.
-/

namespace Verif.FineGrid

open Verif DomainDivider

/-! ## packing of the factor -/

/-- `std::memcpy` of `len` doubles inside one buffer of `size` doubles: out-of-range and overlapping ranges are undefined -/
def memcpy {α : Type} (size : Nat) (mem : Nat → α) (dst src len : Nat) : Outcome (Nat → α) :=
  if size < src + len ∨ size < dst + len then .ub
  else if 0 < len ∧ src < dst + len ∧ dst < src + len then .ub
  else .ok (fun k => if dst ≤ k ∧ k < dst + len then mem (src + (k - dst)) else mem k)

/-- `fine_grid.hpp:162-167` - the remaining rows `row, row + 1, ...`; the matrix is `n * n`, stored row by row
(`types.hpp:10`) -/
def packLoop {α : Type} (n : Nat) : List Nat → (Nat → α) → Outcome (Nat → α)
  | [], mem => .ok mem
  | row :: rows, mem => do
      let mem ← memcpy (n * n) mem (row * (row + 1) / 2) (row * n) (row + 1)
      packLoop n rows mem

/-- `fine_grid.hpp:161-167` -/
def pack {α : Type} (n : Nat) (mem : Nat → α) : Outcome (Nat → α) :=
  packLoop n ((List.range n).drop 1) mem

/-- `fine_grid.hpp:150-155` -/
def unpackLoop {α : Type} (n : Nat) : List Nat → (Nat → α) → Outcome (Nat → α)
  | [], mem => .ok mem
  | row :: rows, mem => do
      let mem ← memcpy (n * n) mem (row * n) (row * (row + 1) / 2) (row + 1)
      unpackLoop n rows mem

/-- `fine_grid.hpp:149-155` - rows from the last one down to 1 -/
def unpack {α : Type} (n : Nat) (mem : Nat → α) : Outcome (Nat → α) :=
  unpackLoop n ((List.range n).drop 1).reverse mem

/-- `fine_grid.hpp:168` - number of doubles handed to the cache -/
def packedSize (n : Nat) : Nat := n * (n + 1) / 2

/-! ## writing the solution of a subgrid -/

/-- `fine_grid.hpp:97-110` - the assignments made to `weights_full`, in order.  `lambda` is `lambda_`. -/
def writes {α : Type} (dim muFull : Nat) (d : Domain) (lambda : Nat → α) : List (Nat × α) :=
  ((d.pts.zipIdx.filter (fun p => p.1.2)).map (fun p => (p.1.1, lambda p.2))) ++
  ((d.grads.zipIdx.filter (fun p => p.1.2)).flatMap (fun p =>
    (List.range dim).map (fun k => (muFull + dim * p.1.1 + k, lambda (d.pts.length + dim * p.2 + k)))))

/-- one assignment -/
def assign {α : Type} (w : Nat → α) (p : Nat × α) : Nat → α := fun k => if k = p.1 then p.2 else w k

/-- a sequence of assignments -/
def assignAll {α : Type} (w : Nat → α) (ps : List (Nat × α)) : Nat → α := ps.foldl assign w

/-- `ras_preconditioner.hpp:288-293` - a schedule of the parallel loop: at every moment one of the threads that have
something left to do makes its next assignment -/
inductive Interleaving {α : Type} : List (List α) → List α → Prop
  | done (ts : List (List α)) : (∀ t ∈ ts, t = []) → Interleaving ts []
  | step (pre post : List (List α)) (x : α) (t s : List α) :
      Interleaving (pre ++ t :: post) s → Interleaving (pre ++ (x :: t) :: post) (x :: s)

/-! ## the reduced system -/

/-- `fine_grid.hpp:69-75`, `coarse_grid.hpp:50-56` - rows of the full Lagrange matrix that are used; `mu` is the number of
value points of the subgrid -/
def flatIndices (dim mu : Nat) (pts grads : List Nat) : List Nat :=
  pts ++ grads.flatMap (fun i => (List.range dim).map (fun j => mu + dim * i + j))

variable {l r : Type} [Fintype l] [Fintype r] [DecidableEq l] [DecidableEq r]

open Matrix

/-- `fine_grid.hpp:79`, `coarse_grid.hpp:60` - `lag` are the rows of the Lagrange matrix below the first `l` -/
def qTop (lag : Matrix r l ℝ) : Matrix l r ℝ := -lag.transpose

/-- `fine_grid.hpp:82-85`, `coarse_grid.hpp:64-66` -/
def qtaq (a : Matrix (l ⊕ r) (l ⊕ r) ℝ) (q : Matrix l r ℝ) : Matrix r r ℝ :=
  q.transpose * a.toBlocks₁₁ * q + q.transpose * a.toBlocks₁₂ + a.toBlocks₂₁ * q + a.toBlocks₂₂

/-- `fine_grid.hpp:124`, `coarse_grid.hpp:113` -/
def qtd (q : Matrix l r ℝ) (d : l ⊕ r → ℝ) : r → ℝ := q.transpose *ᵥ (d ∘ Sum.inl) + d ∘ Sum.inr

/-- `fine_grid.hpp:132-133`, `coarse_grid.hpp:119-120` -/
def lambdaOf (q : Matrix l r ℝ) (gamma : r → ℝ) : l ⊕ r → ℝ := Sum.elim (q *ᵥ gamma) gamma

/-- `coarse_grid.hpp:126-127` - the right-hand side of the system for the polynomial coefficients -/
def polyRhs (a : Matrix (l ⊕ r) (l ⊕ r) ℝ) (d : l ⊕ r → ℝ) (lambda : l ⊕ r → ℝ) : l → ℝ :=
  d ∘ Sum.inl - (a *ᵥ lambda) ∘ Sum.inl

end Verif.FineGrid
