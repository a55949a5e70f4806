import Verif.Model.Outcome
import Mathlib.Logic.Function.Basic

/-!
# cli/main.cpp, and what the commands do to files

A file is a list of bytes (as characters).  Boost's parser is a parameter, so is what a command computes from the files it has read (for that see C77 - C90).  All files of a command are
read before anything is computed here; the code throws some exceptions between two reads, which changes neither the status nor any file.  What is printed on the
terminal is left out.
-/

namespace Verif.Main

open Verif

abbrev Bytes := List Char

/-- The files there are. -/
abbrev Fs := String → Option Bytes

/-- What the system allows: files that can be opened for reading and for writing, and the number of bytes that can be written before the disk is full. -/
structure Env where
  canRead : String → Bool
  canWrite : String → Bool
  room : Nat

/-- What a program does to files. -/
inductive Prog
  | done (r : Outcome Unit)
  | read (file : String) (k : Bytes → Prog)
  | write (file : String) (b : Bytes) (k : Prog)

/-- `table.hpp:17-20, 65-68`, `io.hpp:149-152, 159-162`, `mesh.hpp:29-32` - a file that cannot be opened throws.  Opening for writing empties the file, then it grows; the streams are not looked at
after that (`table.hpp:70-80`, `io.hpp:164`, `mesh.hpp:34-50`), so that bytes for which there is no room are lost silently.  Result: the states of the files passed through, the last one, and how the program ends. -/
def exec (E : Env) : Prog → Fs → List Fs × Fs × Outcome Unit
  | .done r, fs => ([], fs, r)
  | .read file k, fs =>
      match E.canRead file, fs file with
      | true, some b => exec E (k b) fs
      | _, _ => ([], fs, .throws .runtimeError)
  | .write file b k, fs =>
      if E.canWrite file then
        let states := (List.range (min E.room b.length + 1)).map fun n => Function.update fs file (some (b.take n))
        let r := exec E k (Function.update fs file (some (b.take E.room)))
        (states ++ r.1, r.2)
      else ([], fs, .throws .runtimeError)

/-- the classes of `commands.hpp:18-31` -/
inductive Cmd
  | createModel | crossValidate | estimateNormals | evaluate | extractModel | fit | fitModelToVariogram | isosurface | normalsToSdf | showModel | showVariogram | surface25D | unique | variogram
  deriving DecidableEq

/-- `commands.hpp:18-31` -/
def kName : Cmd → String
  | .createModel => "create-model"
  | .crossValidate => "cross-validate"
  | .estimateNormals => "estimate-normals"
  | .evaluate => "evaluate"
  | .extractModel => "extract-model"
  | .fit => "fit"
  | .fitModelToVariogram => "fit-model-to-variogram"
  | .isosurface => "isosurface"
  | .normalsToSdf => "normals-to-sdf"
  | .showModel => "show-model"
  | .showVariogram => "show-variogram"
  | .surface25D => "surface-25d"
  | .unique => "unique"
  | .variogram => "variogram"

/-- The options that are names of files; empty if not given. -/
structure Files where
  input : String
  points : String
  model : String
  gradIn : String
  initial : String
  seeds : String
  snap : String
  out : String

/-- Options as parsed: the names of files, and the others (`α`). -/
structure Opts (α : Type) where
  files : Files
  rest : α

/-- What is not modelled here: parsing (`none` if it throws `po::error`), the checks of a command on its options, among them that of the dimension, and its computation from the files read; `none` for a
file not given. -/
structure Lib (α : Type) where
  parse : Cmd → List String → Option (Opts α)
  check : Cmd → Opts α → Outcome Unit
  compute : Cmd → Opts α → List (Option Bytes) → Outcome Bytes

/-- `if (!file.empty())` - a file that may be left out, as in `fit_command.cpp:63-64`, `fit_command.cpp:72-73`, `fit_command.cpp:76-77`, `isosurface_command.cpp:50-51` -/
def readOpt (file : String) (k : Option Bytes → Prog) : Prog := if file = "" then k none else .read file fun b => k (some b)

/-- the end of `run_impl`: the result is computed and written, e.g. `unique_command.cpp:31-35` -/
def finish (r : Outcome Bytes) (out : String) : Prog :=
  match r with
  | .ok b => .write out b (.done (.ok ()))
  | .throws e => .done (.throws e)
  | .ub => .done .ub

/-- the end of `run_impl` if the result is printed: `show_model_command.cpp:25`, `show_variogram_command.cpp:39-74` -/
def show_ (r : Outcome Bytes) : Prog :=
  match r with
  | .ok _ => .done (.ok ())
  | .throws e => .done (.throws e)
  | .ub => .done .ub

/-- the bodies `run_impl` -/
def runImpl {α : Type} (L : Lib α) (c : Cmd) (o : Opts α) : Prog :=
  let f := o.files
  match c with
  -- create_model_command.cpp:22-25
  | .createModel => finish (L.compute c o []) f.out
  -- cross_validate_command.cpp:39-55
  | .crossValidate => .read f.input fun a => readOpt f.model fun b => finish (L.compute c o [some a, b]) f.out
  -- estimate_normals_command.cpp:42-74
  | .estimateNormals => .read f.input fun a => finish (L.compute c o [some a]) f.out
  -- evaluate_command.cpp:30-50
  | .evaluate => .read f.input fun a => .read f.points fun b => finish (L.compute c o [some a, some b]) f.out
  -- extract_model_command.cpp:24-30
  | .extractModel => .read f.input fun a => finish (L.compute c o [some a]) f.out
  -- fit_command.cpp:45-93
  | .fit => .read f.input fun a => readOpt f.gradIn fun b => readOpt f.model fun d => readOpt f.initial fun e => finish (L.compute c o [some a, b, d, e]) f.out
  -- fit_model_to_variogram_command.cpp:35-60
  | .fitModelToVariogram => .read f.input fun a => readOpt f.model fun b =>
      if f.out = "" then show_ (L.compute c o [some a, b]) else finish (L.compute c o [some a, b]) f.out
  -- isosurface_command.cpp:42-68
  | .isosurface => .read f.input fun a => readOpt f.seeds fun b => readOpt f.snap fun d => finish (L.compute c o [some a, b, d]) f.out
  -- normals_to_sdf_command.cpp:37-58
  | .normalsToSdf => .read f.input fun a => finish (L.compute c o [some a]) f.out
  -- show_model_command.cpp:21-26
  | .showModel => .read f.input fun a => show_ (L.compute c o [some a])
  -- show_variogram_command.cpp:34-75
  | .showVariogram => .read f.input fun a => show_ (L.compute c o [some a])
  -- surface_25d_command.cpp:36-53
  | .surface25D => .read f.input fun a => readOpt f.seeds fun b => finish (L.compute c o [some a, b]) f.out
  -- unique_command.cpp:27-36
  | .unique => .read f.input fun a => finish (L.compute c o [some a]) f.out
  -- variogram_command.cpp:38-68
  | .variogram => .read f.input fun a => finish (L.compute c o [some a]) f.out

/-- the functions `run`, alike in all commands, e.g. `unique_command.cpp:60-91` -/
def run {α : Type} (L : Lib α) (c : Cmd) (args : List String) (help : Bool) : Prog :=
  if help then .done (.ok ())
  else
    match L.parse c args with
    | none => .done (.throws .runtimeError)
    | some o =>
        match L.check c o with
        | .ok () => runImpl L c o
        | .throws e => .done (.throws e)
        | .ub => .done .ub

/-- `main.cpp:36-67` -/
def dispatch {α : Type} (L : Lib α) (command : String) (args : List String) (help : Bool) : Prog :=
  if command = kName .createModel then run L .createModel args help
  else if command = kName .crossValidate then run L .crossValidate args help
  else if command = kName .estimateNormals then run L .estimateNormals args help
  else if command = kName .evaluate then run L .evaluate args help
  else if command = kName .extractModel then run L .extractModel args help
  else if command = kName .fit then run L .fit args help
  else if command = kName .fitModelToVariogram then run L .fitModelToVariogram args help
  else if command = kName .isosurface then run L .isosurface args help
  else if command = kName .normalsToSdf then run L .normalsToSdf args help
  else if command = kName .showModel then run L .showModel args help
  else if command = kName .showVariogram then run L .showVariogram args help
  else if command = kName .surface25D then run L .surface25D args help
  else if command = kName .unique then run L .unique args help
  else if command = kName .variogram then run L .variogram args help
  else .done (.throws .runtimeError)

/-- How the process ends. -/
inductive Exit
  | status (n : Nat)
  | undefined
  deriving DecidableEq

/-- `main.cpp:69-76` -/
def exitOf : Outcome Unit → Exit
  | .ok () => .status 0
  | .throws _ => .status 1
  | .ub => .undefined

/-- `main.cpp:11-77` - `parsed` is `--help` and the arguments left over by the parser for global options, `none` if that throws. -/
def main {α : Type} (L : Lib α) (E : Env) (parsed : Option (Bool × List String)) (fs : Fs) : List Fs × Fs × Exit :=
  match parsed with
  | none => ([], fs, .status 1)
  | some (help, []) => ([], fs, .status (if help then 0 else 1))
  | some (help, command :: args) =>
      let r := exec E (dispatch L command args help) fs
      (r.1, r.2.1, exitOf r.2.2)

end Verif.Main
