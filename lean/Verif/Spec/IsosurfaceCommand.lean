import Verif.Model.IsosurfaceCommand
import Verif.Spec.Cli
import Verif.Spec.Obj
import Verif.Spec.Pipeline
import Verif.Props.Isosurface

/-!
# What a user relies on in the commands isosurface and surface-25d
-/

namespace Verif.IsoCommand

open Verif Verif.Table Verif.Cli Verif.Iso Verif.Pipeline
open Verif.PrimLattice (Prim)
open Verif.PrimLattice.Prim (Ranked)
open Verif.Predicates (P3)

variable {N : Num}

/-- The parts that the model leaves open work: printed numbers are read back, the loops are those of `add_all_nodes`, sorting sorts, and interpolation (in clipping) stays between its arguments. -/
structure Machine.Ok (M : Machine N) : Prop where
  text : N.Ok [' ']
  loops : ∀ L, OfPrim L (M.rank L L.center) (M.geo L)
  ranks : ∀ L p, Ranked (L.frac p) (M.rank L p)
  sorting : ∀ l, (M.base.sorts.candidates l).Perm l
  between : M.base.arith.Between

/-- The seed points: none without a file, otherwise the first three columns of the table. -/
def Seeds (M : Machine N) (file : Option (List Char)) (seeds : List P3) : Prop :=
  (file = none ∧ seeds = []) ∨ ∃ f rows n, file = some f ∧ Holds N f rows n ∧ 3 ≤ n ∧ seeds = rows.map fun r => pointOf M (r.take 3)

/-- The numbers in the fourth column of a table. -/
def fourth (M : Machine N) (rows : List (List N.D)) : List ℝ := rows.flatMap fun r => (r.drop 3).head?.toList.map M.toReal

/-- A file of snap points that is in order: a table with three columns, or with four or more of which the fourth holds numbers from 0 to 1. -/
def SnapFile (M : Machine N) (file : Option (List Char)) : Prop :=
  file = none ∨ ∃ f rows n, file = some f ∧ Holds N f rows n ∧ 3 ≤ n ∧ (4 ≤ n → ∀ t ∈ fourth M rows, 0 ≤ t ∧ t ≤ 1)

/-- A box with the corners `lo` and `hi`. -/
def Box (lo hi : P3) : Prop := lo.1 ≤ hi.1 ∧ lo.2.1 ≤ hi.2.1 ∧ lo.2.2 ≤ hi.2.2

/-- The box of the output: the given one, or else that of the interpolant. -/
def OutputBox (bbox : Option (P3 × P3)) (s : Loaded) (lo hi : P3) : Prop := Box lo hi ∧ (bbox = some (lo, hi) ∨ bbox = none ∧ lo = s.lo ∧ hi = s.hi)

/-- The text is an OBJ file of the mesh: its vertices (converted to doubles) and its faces in order, and a comment only if there are no faces. -/
def FileOf (M : Machine N) (m : Clip.Mesh) (text : List Char) : Prop :=
  Obj.readObj N text = some (m.vertices.map fun p => (M.ofReal p.1, M.ofReal p.2.1, M.ofReal p.2.2), m.faces, if m.faces = [] then ["# empty".toList] else [])

/-- No two of the fractional lattice coordinates of the point are both one half (see C38 for what happens if they are). -/
def Clear (L : Prim) (p : P3) : Prop := ∀ i < 3, ∀ j < 3, i ≠ j → ¬(L.frac p i = 1 / 2 ∧ L.frac p j = 1 / 2)

/-- The first seed point, moved into the box, is not halfway between lattice points in two directions. -/
def FirstClear (L : Prim) (seeds : List P3) : Prop := ∀ p ∈ seeds.head?, Clear L (SeedTracking.clampPoint L p)

end Verif.IsoCommand
