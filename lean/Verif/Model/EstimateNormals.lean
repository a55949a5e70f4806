import Verif.Model.PlaneEstimator

/-!
# cli/estimate_normals_command.cpp

The table is read and written as in `Model/Cli.lean` (it has at least one row); here are the points in the first three columns and the rows of points and normals
that are written.  Doubles are real numbers.  Parsing of the command line (Boost) is left out: an option that is not given is `none`.
-/

namespace Verif.EstimateNormals

open Verif Verif.Normals

/-- `estimate_normals_command.cpp:84-106` - the options -/
structure Args where
  k : Option (List Int)
  radius : Option (List ℝ)
  threshold : ℝ
  point : Option V3
  direction : Option V3
  closed : Option Int

/-- `estimate_normals_command.cpp:88-91, 96` - an option and what it was given -/
def count {α : Type} (o : Option α) : Nat := if o.isSome then 1 else 0

/-- `estimate_normals_command.cpp:25, 33-34` - the estimation method with its parameters -/
inductive Method where
  | knn (ks : List Int)
  | radius (radii : List ℝ)

/-- `estimate_normals_command.cpp:27, 36-39` - the orientation method with its parameters -/
inductive Orientation where
  | point (p : V3)
  | direction (d : V3)
  | closed (k : Int)

/-- `estimate_normals_command.cpp:131-141` -/
def method (a : Args) : Outcome Method :=
  if count a.k + count a.radius > 1 then .throws .runtimeError
  else
    match a.k with
    | some ks => .ok (.knn ks)
    | none =>
        match a.radius with
        | some rs => .ok (.radius rs)
        | none => .ok (.knn [10, 30, 100, 300])

/-- `estimate_normals_command.cpp:143-157` -/
def orientation (a : Args) : Outcome Orientation :=
  if count a.point + count a.direction + count a.closed > 1 then .throws .runtimeError
  else
    match a.point with
    | some p => .ok (.point p)
    | none =>
        match a.direction with
        | some d => .ok (.direction d)
        | none =>
            match a.closed with
            | some k => .ok (.closed k)
            | none => .ok (.closed 100)

/-- `estimate_normals_command.cpp:50-57` -/
noncomputable def estimated (c : Cloud) (s : State) : Method → Outcome State
  | .knn ks => estimateWithKnn c ks s
  | .radius rs => estimateWithRadius c rs s

/-- `estimate_normals_command.cpp:61-71` -/
noncomputable def oriented (c : Cloud) (pick : List (Nat × Nat) → Nat) (s : State) : Orientation → Outcome State
  | .point p => orientTowardPoint c p s
  | .direction d => orientTowardDirection d s
  | .closed k => do
      let r ← orientClosedSurface c pick k s
      .ok r.1

/-- `estimate_normals_command.cpp:44-76` - `concatenate_cols<MatX>(points, normals)` by rows -/
noncomputable def runImpl (c : Cloud) (pick : List (Nat × Nat) → Nat) (m : Method) (threshold : ℝ) (o : Orientation) : Outcome (List (V3 × V3)) := do
  let s ← estimated c State.new m
  let s ← filterByPlaneFactor threshold s
  let s ← oriented c pick s o
  let normals ← s.read
  Outcome.ok ((List.range c.n).map fun i => (c.point i, normals i))

/-- `estimate_normals_command.cpp:80-160` -/
noncomputable def run (c : Cloud) (pick : List (Nat × Nat) → Nat) (a : Args) : Outcome (List (V3 × V3)) := do
  let m ← method a
  let o ← orientation a
  runImpl c pick m a.threshold o

end Verif.EstimateNormals
