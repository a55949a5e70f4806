import Verif.Model.Main
import Mathlib.Data.List.Forall2

/-!
# The commands by name, the files they read and write (C92)
-/

namespace Verif.Main

/-- the names a user types -/
def commands : List (String × Cmd) :=
  [("create-model", .createModel), ("cross-validate", .crossValidate), ("estimate-normals", .estimateNormals), ("evaluate", .evaluate), ("extract-model", .extractModel), ("fit", .fit),
   ("fit-model-to-variogram", .fitModelToVariogram), ("isosurface", .isosurface), ("normals-to-sdf", .normalsToSdf), ("show-model", .showModel), ("show-variogram", .showVariogram),
   ("surface-25d", .surface25D), ("unique", .unique), ("variogram", .variogram)]

/-- The files a command has for input, with whether they may be left out. -/
def inputs (c : Cmd) (f : Files) : List (String × Bool) :=
  match c with
  | .createModel => []
  | .crossValidate => [(f.input, false), (f.model, true)]
  | .evaluate => [(f.input, false), (f.points, false)]
  | .fit => [(f.input, false), (f.gradIn, true), (f.model, true), (f.initial, true)]
  | .fitModelToVariogram => [(f.input, false), (f.model, true)]
  | .isosurface => [(f.input, false), (f.seeds, true), (f.snap, true)]
  | .surface25D => [(f.input, false), (f.seeds, true)]
  | _ => [(f.input, false)]

/-- The file a command writes, if any. -/
def output (c : Cmd) (f : Files) : Option String :=
  match c with
  | .showModel => none
  | .showVariogram => none
  | .fitModelToVariogram => if f.out = "" then none else some f.out
  | _ => some f.out

/-- The contents of an input: not given, or readable with these bytes. -/
def HasInput (E : Env) (fs : Fs) (i : String × Bool) (b : Option Bytes) : Prop :=
  (i.2 = true ∧ i.1 = "" ∧ b = none) ∨ (¬ (i.2 = true ∧ i.1 = "") ∧ E.canRead i.1 = true ∧ b.isSome ∧ fs i.1 = b)

/-- The contents of all inputs. -/
def HasInputs (E : Env) (fs : Fs) (l : List (String × Bool)) (bs : List (Option Bytes)) : Prop := List.Forall₂ (HasInput E fs) l bs

end Verif.Main
