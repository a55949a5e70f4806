import Verif.Model.Cli
import Verif.Model.Obj
import Verif.Model.Pipeline
import Verif.Model.SeedTracking
import Verif.Model.Tetrahedron

/-!
# cli: isosurface, surface-25d

A command is a function from the contents of the files it reads to the contents of the OBJ file it writes.  Parsing of the command line (Boost) is left out, so are
files that cannot be opened; an option that is not given (or given as an empty file name) is `none`.  Points are real: the numbers of a table are converted
by a function, and the vertices back by another one.  Evaluation of the interpolant does not throw once it is fitted, and `--acc`, `--grad-acc`, which only configure the
evaluator, are left out (see C18, C75 for it).
-/

namespace Verif.IsoCommand

open Verif Verif.Table Verif.Cli Verif.Lattice Verif.Iso Verif.Pipeline
open Verif.PrimLattice (Prim dot cross)
open Verif.PrimLattice.Prim (Rows)
open Verif.Predicates (P3)
open Verif.SeedTracking (track ctxOf startsOf clampPoint)

variable (N : Num)

/-- What the commands rely on and the model leaves open: conversion of numbers; the parts of the mesh steps that are open in `Pipeline.Env`; the loops and the orders of the hash maps; how ties
are broken when the fractional coordinates of a point are sorted; the directions of the gradients. -/
structure Machine where
  toReal : N.D → ℝ
  ofReal : ℝ → N.D
  base : Env
  geo : Prim → Geo ℝ
  rank : Prim → P3 → Nat × Nat × Nat
  dir : Prim → Fld ℝ → LC → P3

variable {N}

/-- `isosurface.hpp:27-33, 136`, `primitive_lattice.hpp:31-38`, `rbf_field_function.hpp:21-23` - a generator with the box `lo`, `hi`, the given resolution and the rows of the anisotropy matrix,
and the field function and isovalue of its one call -/
noncomputable def envOf (M : Machine N) (lo hi : P3) (res : ℝ) (a0 a1 a2 : P3) (value : P3 → ℝ) (iso : ℝ) : Env :=
  { M.base with
    L := Prim.make lo hi res a0 a1 a2
    resolution := res
    T := fun d => (dot a0 d, dot a1 d, dot a2 d)
    Tinv := Prim.invMul a0 a1 a2
    field := fun _ ps => ps.map value
    isovalue := fun _ => iso }

/-- `lattice.hpp:424-431` - the field minus the isovalue at the lattice points -/
noncomputable def fieldOf (L : Prim) (value : P3 → ℝ) (iso : ℝ) : Fld ℝ := ⟨fun lc => value (L.position lc) - iso, fun _ => false⟩

/-- `isosurface.hpp:30-32` -/
noncomputable def checkAniso (a0 a1 a2 : P3) : Outcome Unit :=
  open Classical in if 0 < dot a0 (cross a1 a2) then .ok () else .throws .invalidArgument

/-- a row with three entries as a point -/
def pointOf (M : Machine N) (r : List N.D) : P3 :=
  match r with
  | [x, y, z] => (M.toReal x, M.toReal y, M.toReal z)
  | _ => (0, 0, 0)

/-- `isosurface_command.cpp:50-52`, `surface_25d_command.cpp:46-48` - `seed_points = table(kAll, {0, 1, 2})` -/
def readSeeds (M : Machine N) (file : Option (List Char)) : Outcome (List P3) :=
  match file with
  | none => .ok []
  | some file => do
      let table ← readTable N delims file
      let rows ← columns N table 0 3
      Outcome.ok (rows.map (pointOf M))

/-- `isosurface_command.cpp:57-59` -/
def readTolerances (M : Machine N) (table : Mat N) : Outcome (List ℝ) :=
  if 4 ≤ table.cols then do
    let c ← columns N table 3 1
    Outcome.ok (c.flatten.map M.toReal)
  else .ok []

/-- `isosurface.hpp:60-66` - whether `set_snap_points` accepts the tolerances -/
noncomputable def acceptable (points : List P3) (tols : List ℝ) : Bool :=
  open Classical in
  if tols = [] then true else decide (tols.length = points.length ∧ (∀ t ∈ tols, 0 ≤ t) ∧ ∀ t ∈ tols, t ≤ 1)

/-- `isosurface.hpp:69-70, 86` - the members after `set_snap_points`; without points they are not looked at -/
noncomputable def snapOf (points : List P3) (tols : List ℝ) : Option Snap :=
  match points with
  | [] => none
  | p :: ps => some (p :: ps, tols)

/-- `isosurface.hpp:27-33, 136-141` - a new generator -/
def newGen : Gen ℝ Snap := ⟨LatS.fresh, none⟩

/-- the object after a call without a result -/
def after (r : Run (Gen ℝ Snap) (Option (Res Clip.Mesh))) : Outcome (Gen ℝ Snap) :=
  match r with
  | .done _ g => .ok g
  | .threw _ => .throws .invalidArgument
  | .undef => .ub

/-- `isosurface_command.cpp:55-61` - the generator after `set_snap_points`, if it is called -/
noncomputable def setSnap (M : Machine N) (E : Env) (file : Option (List Char)) : Outcome (Gen ℝ Snap) :=
  match file with
  | none => .ok newGen
  | some file => do
      let table ← readTable N delims file
      let tols ← readTolerances M table
      let rows ← columns N table 0 3
      let points := rows.map (pointOf M)
      after (Iso.step E.steps (M.geo E.L) newGen (.setSnap (snapOf points tols) (acceptable points tols)))

/-- `isosurface.hpp:46-58`, `lattice.hpp:68-74` - `generate_from_seed_points`: the tracking, and the rest of the call with the nodes it has added -/
noncomputable def fromSeeds (M : Machine N) (E : Env) (fuel : Nat) (F : Fld ℝ) (g : Gen ℝ Snap) (p : P3) (points : List P3) : Run (Gen ℝ Snap) (Option (Res Clip.Mesh)) :=
  match track (ctxOf E.L F (M.dir E.L F)) fuel fuel (startsOf E.L (p :: points)) with
  | .ok (some (_, batches)) =>
      Iso.step E.steps (M.geo E.L) g
        (.seeds (some ((E.L.tetrahedron (clampPoint E.L p) (M.rank E.L (clampPoint E.L p)), E.L.weights (clampPoint E.L p) (M.rank E.L (clampPoint E.L p))), batches)) fuel F true)
  | _ => .undef

/-- `isosurface_command.cpp:63-65`, `surface_25d_command.cpp:50-51` -/
noncomputable def generate (M : Machine N) (E : Env) (fuel : Nat) (F : Fld ℝ) (g : Gen ℝ Snap) (seeds : List P3) : Run (Gen ℝ Snap) (Option (Res Clip.Mesh)) :=
  match seeds with
  | [] => Iso.step E.steps (M.geo E.L) g (.all F true)
  | p :: points => fromSeeds M E fuel F g p points

/-- a vertex as it is stored -/
def vertexOf (M : Machine N) (p : P3) : N.D × N.D × N.D := (M.ofReal p.1, M.ofReal p.2.1, M.ofReal p.2.2)

/-- `isosurface_command.cpp:67`, `surface_25d_command.cpp:53` - the contents of the file -/
def exported (M : Machine N) (r : Run (Gen ℝ Snap) (Option (Res Clip.Mesh))) : Outcome (List Char) :=
  match r with
  | .done (some (.mesh m)) _ => .ok (Obj.exportObj (Obj.Mesh.of N (m.vertices.map (vertexOf M)) m.faces))
  | .done (some .entire) _ => .ok (Obj.exportObj (Obj.Mesh.whole N))
  | .done none _ => .ub
  | .threw _ => .throws .runtimeError
  | .undef => .ub

/-- `interpolant.hpp:325-329` - `throw_if_not_fitted` -/
def checkFitted (fitted : Bool) : Outcome Unit := if fitted then .ok () else .throws .runtimeError

/-! ## isosurface -/

/-- the three-dimensional interpolant in its file: whether it is fitted, its bounding box, its values -/
structure Loaded where
  fitted : Bool
  lo : P3
  hi : P3
  value : P3 → ℝ

/-- `isosurface_command.cpp:30-41`; `bbox` is `none` for the default, an empty box -/
structure Options where
  seeds : Option (List Char)
  snap : Option (List Char)
  isoval : ℝ
  bbox : Option (P3 × P3)
  res : ℝ
  aniso : P3 × P3 × P3

/-- `bbox3d.hpp:48` - `is_empty` -/
noncomputable def boxEmpty (b : P3 × P3) : Bool :=
  open Classical in decide (b.2.1 < b.1.1 ∨ b.2.2.1 < b.1.2.1 ∨ b.2.2.2 < b.1.2.2)

/-- `interpolant.hpp:42-46` -/
def interpolantBox (s : Loaded) : Outcome (P3 × P3) := do
  let _ ← checkFitted s.fitted
  Outcome.ok (s.lo, s.hi)

/-- `isosurface_command.cpp:45` -/
noncomputable def bboxOf (bbox : Option (P3 × P3)) (s : Loaded) : Outcome (P3 × P3) :=
  match bbox with
  | none => interpolantBox s
  | some b => if boxEmpty b then interpolantBox s else .ok b

/-- `isosurface_command.cpp:43-68` - `inter` is the result of `Interpolant<3>::load`; `set_evaluation_bbox` throws if the interpolant is not fitted
(`interpolant.hpp:201-203`). -/
noncomputable def isosurface (M : Machine N) (fuel : Nat) (o : Options) (inter : Outcome Loaded) : Outcome (List Char) := do
  let s ← inter
  let b ← bboxOf o.bbox s
  let _ ← checkAniso o.aniso.1 o.aniso.2.1 o.aniso.2.2
  let E := envOf M b.1 b.2 o.res o.aniso.1 o.aniso.2.1 o.aniso.2.2 s.value o.isoval
  let seeds ← readSeeds M o.seeds
  let g ← setSnap M E o.snap
  let _ ← checkFitted s.fitted
  exported M (generate M E fuel (fieldOf E.L s.value o.isoval) g seeds)

/-! ## surface-25d -/

/-- the two-dimensional interpolant in its file -/
structure Loaded2 where
  fitted : Bool
  value : ℝ × ℝ → ℝ

/-- `rbf_field_function_25d.hpp:21-25` -/
def heightField (f : ℝ × ℝ → ℝ) (p : P3) : ℝ := p.2.2 - f (p.1, p.2.1)

/-- `surface_25d_command.cpp:39-54` -/
noncomputable def surface25d (M : Machine N) (fuel : Nat) (seeds : Option (List Char)) (lo hi : P3) (res : ℝ) (inter : Outcome Loaded2) : Outcome (List Char) := do
  let s ← inter
  let _ ← checkAniso (1, 0, 0) (0, 1, 0) (0, 0, 1)
  let E := envOf M lo hi res (1, 0, 0) (0, 1, 0) (0, 0, 1) (heightField s.value) 0
  let seeds ← readSeeds M seeds
  let _ ← checkFitted s.fitted
  exported M (generate M E fuel (fieldOf E.L (heightField s.value) 0) newGen seeds)

end Verif.IsoCommand
