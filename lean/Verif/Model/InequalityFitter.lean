import Verif.Model.IncrementalFitter
import Mathlib.Logic.Function.Basic

/-!
# interpolation/inequality_fitter.hpp : InequalityFitter

Exact real arithmetic.  Points are numbered; an absent value or bound (NaN) is `none`.  The solver, the evaluator, the
radius search and the sort are parameters.  The weight vector is split into the weights of the points (a function of the
point's number) and the polynomial tail.  The two `std::set`s of active indices are given by their membership; they only
ever hold indices below `n`, so iterating over one in order enumerates `0 .. n-1` and keeps the members.
-/

namespace Verif.Inequality

open Verif DistanceFilter Incremental

structure Problem where
  /-- `n_points_`, `n_poly_basis_` -/
  n : Nat
  l : Nat
  values : Nat → Option ℝ
  lb : Nat → Option ℝ
  ub : Nat → Option ℝ
  tol : ℝ
  /-- `bbox_.width().norm()` -/
  d0 : ℝ
  /-- `initial_weights`, or zeros -/
  w0 : Nat → ℝ
  q0 : List ℝ
  search : ℝ → Nat → List Nat
  /-- `solver.set_points(centers); solver.solve(values, tolerance, max_iter, &initial)` -/
  solve : List Nat → List (Option ℝ) → List ℝ → Outcome (List ℝ)
  /-- `res_eval` with the given centers and weights, at a point -/
  eval : List Nat → List ℝ → Nat → ℝ
  /-- `zip_sort` by descending second component (C01) -/
  sortD : List (Nat × ℝ) → List (Nat × ℝ)

/-- `std::set_union` of two ascending ranges -/
def setUnion : List Nat → List Nat → List Nat
  | [], b => b
  | a, [] => a
  | x :: a, y :: b =>
      if x < y then x :: setUnion a (y :: b)
      else if y < x then y :: setUnion (x :: a) b
      else x :: setUnion a b

variable (pb : Problem)

/-- `inequality_fitter.hpp:190-199` - `arg_where(v, not_nan)` -/
def argWhere (n : Nat) (v : Nat → Option ℝ) : List Nat := (List.range n).filter (fun i => (v i).isSome)

/-- `inequality_fitter.hpp:51` -/
def eqIdcs : List Nat := argWhere pb.n pb.values

/-- `inequality_fitter.hpp:54-58` -/
def ineqIdcs : List Nat := setUnion (argWhere pb.n pb.lb) (argWhere pb.n pb.ub)

/-- The state at the head of the loop. -/
structure St where
  actLb : Nat → Bool
  actUb : Nat → Bool
  wp : Nat → ℝ
  wq : List ℝ
  fd : ℝ

/-- `inequality_fitter.hpp:47, 65-72` -/
noncomputable def init : St := ⟨fun _ => false, fun _ => false, pb.w0, pb.q0, max pb.d0 kMinDistance⟩

/-- `inequality_fitter.hpp:82-84` -/
def centers (s : St) : List Nat :=
  eqIdcs pb ++ setUnion ((List.range pb.n).filter s.actLb) ((List.range pb.n).filter s.actUb)

/-- `inequality_fitter.hpp:93-97` -/
def centerValues (s : St) (c : List Nat) : List (Option ℝ) :=
  c.zipIdx.map (fun (idx, i) =>
    if i < (eqIdcs pb).length then pb.values idx else if s.actLb idx then pb.lb idx else pb.ub idx)

/-- `inequality_fitter.hpp:106-109`; the solver returns at least one weight per center. -/
def scatter (c : List Nat) (w : List ℝ) (wp : Nat → ℝ) : Nat → ℝ :=
  (c.zip w).foldl (fun f p => Function.update f p.1 p.2) wp

/-- `inequality_fitter.hpp:88-118` - the weights of the centers, the fitted values, the new full weights. -/
def fitStep (s : St) (c : List Nat) : Outcome (List ℝ × List ℝ × (Nat → ℝ) × List ℝ) :=
  if c.length ≥ pb.l then do
    let w ← pb.solve c (centerValues pb s c) (c.map s.wp ++ s.wq)
    return (w, (ineqIdcs pb).map (pb.eval c w), scatter c w s.wp, w.drop (w.length - pb.l))
  else return (List.replicate pb.l 0, List.replicate (ineqIdcs pb).length 0, s.wp, s.wq)

/-- `inequality_fitter.hpp:124-132` - the residual at position `i` of `indices`: it reads `values_fit(i)`. -/
noncomputable def residual (valuesFit : List ℝ) (p : Nat × Nat) : Outcome ℝ := do
  let lbRes ← (match pb.lb p.1 with
    | none => Outcome.ok 0
    | some b => do let f ← Outcome.get valuesFit p.2; return max (b - f) 0)
  let ubRes ← (match pb.ub p.1 with
    | none => Outcome.ok 0
    | some b => do let f ← Outcome.get valuesFit p.2; return max (f - b) 0)
  return max lbRes ubRes

/-- `inequality_fitter.hpp:133-137` -/
noncomputable def filterIndices (fd : ℝ) (sorted : List (Nat × ℝ)) : Outcome (List Nat) :=
  match (DF.new pb.n).filter pb.search (some fd) (sorted.map Prod.fst) with
  | (f, .ok ()) => f.filteredIndices
  | (_, .throws e) => .throws e
  | (_, .ub) => .ub

/-- What the update of the active set changes. -/
structure Act where
  actLb : Nat → Bool
  actUb : Nat → Bool
  wp : Nat → ℝ
  changed : Bool

open Classical in
/-- `inequality_fitter.hpp:145-160` -/
noncomputable def updLb (filtered : List Nat) (f : ℝ) (idx : Nat) (a : Act) : Act :=
  match pb.lb idx with
  | none => a
  | some b =>
      if a.actLb idx then
        if a.wp idx ≤ 0 then { a with actLb := Function.update a.actLb idx false, changed := true } else a
      else if f < b - pb.tol then
        if filtered.contains idx then
          ⟨Function.update a.actLb idx true, a.actUb, Function.update a.wp idx 0, true⟩
        else { a with changed := true }
      else a

open Classical in
/-- `inequality_fitter.hpp:161-176` -/
noncomputable def updUb (filtered : List Nat) (f : ℝ) (idx : Nat) (a : Act) : Act :=
  match pb.ub idx with
  | none => a
  | some b =>
      if a.actUb idx then
        if a.wp idx ≥ 0 then { a with actUb := Function.update a.actUb idx false, changed := true } else a
      else if f > b + pb.tol then
        if filtered.contains idx then
          ⟨a.actLb, Function.update a.actUb idx true, Function.update a.wp idx 0, true⟩
        else { a with changed := true }
      else a

/-- `inequality_fitter.hpp:142-177` - the loop over the pairs of a position and an inequality index. -/
noncomputable def updLoop (filtered : List Nat) (valuesFit : List ℝ) : List (Nat × Nat) → Act → Outcome Act
  | [], a => .ok a
  | (idx, i) :: l, a => do
      let f ← Outcome.get valuesFit i
      updLoop filtered valuesFit l (updUb pb filtered f idx (updLb pb filtered f idx a))

/-- `inequality_fitter.hpp:74-184` - one pass of the loop. -/
noncomputable def round (s : St) : Outcome ((List Nat × List ℝ) ⊕ St) := do
  let c := centers pb s
  let (w, valuesFit, wp, wq) ← fitStep pb s c
  let indices ← compl c pb.n
  let res ← Outcome.traverse (residual pb valuesFit) indices.zipIdx
  let filtered ← filterIndices pb s.fd (pb.sortD (indices.zip res))
  let a ← updLoop pb filtered valuesFit (ineqIdcs pb).zipIdx ⟨s.actLb, s.actUb, wp, false⟩
  if !a.changed then return .inl (c, w)
  else return .inr ⟨a.actLb, a.actUb, a.wp, wq, max (1 / 2 * s.fd) kMinDistance⟩

/-- The `while (true)` loop run for at most `fuel` passes; `none` if it has not ended by then. -/
noncomputable def loop : Nat → St → Option (Outcome (List Nat × List ℝ))
  | 0, _ => none
  | fuel + 1, s =>
      match round pb s with
      | .ok (.inl r) => some (.ok r)
      | .ok (.inr s') => loop fuel s'
      | .throws e => some (.throws e)
      | .ub => some .ub

/-- `inequality_fitter.hpp:43-187` -/
noncomputable def fit (fuel : Nat) : Option (Outcome (List Nat × List ℝ)) := loop pb fuel (init pb)

end Verif.Inequality
