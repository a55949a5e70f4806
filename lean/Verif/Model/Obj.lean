import Verif.Model.Table

/-!
# include/polatory/isosurface/mesh.hpp: the mesh and its OBJ file

Vertices are triples of numbers with a printing function (`numeric::to_string`, as in `Model/Table.lean`), faces triples of indices.  A file that cannot be
opened throws, and errors while writing go unnoticed; both are left out.
-/

namespace Verif.Obj

open Verif Verif.Table

variable (N : Num)

/-- `mesh.hpp:66-69` -/
structure Mesh where
  vertices : List (N.D × N.D × N.D)
  faces : List (Nat × Nat × Nat)
  entire : Bool

/-- `mesh.hpp:22` -/
def Mesh.empty : Mesh N := ⟨[], [], false⟩

/-- `mesh.hpp:24` -/
def Mesh.of (vertices : List (N.D × N.D × N.D)) (faces : List (Nat × Nat × Nat)) : Mesh N := ⟨vertices, faces, false⟩

/-- `mesh.hpp:26` -/
def Mesh.whole : Mesh N := ⟨[], [], true⟩

variable {N}

/-- `mesh.hpp:55` -/
def Mesh.isEmpty (m : Mesh N) : Bool := m.faces.length == 0 && !m.entire

/-- `mesh.hpp:57` -/
def Mesh.isEntire (m : Mesh N) : Bool := m.entire

/-- an integer written to a stream -/
def decimal (n : Nat) : List Char := Nat.toDigits 10 n

/-- `mesh.hpp:34-40` -/
def header (m : Mesh N) : List Char :=
  if m.faces.length = 0 then (if m.entire then "# entire\n".toList else "# empty\n".toList) else []

/-- `mesh.hpp:42-45` -/
def vertexLine (v : N.D × N.D × N.D) : List Char :=
  "v ".toList ++ N.toStr v.1 ++ [' '] ++ N.toStr v.2.1 ++ [' '] ++ N.toStr v.2.2 ++ ['\n']

/-- `mesh.hpp:47-49` -/
def faceLine (f : Nat × Nat × Nat) : List Char :=
  "f ".toList ++ decimal (f.1 + 1) ++ [' '] ++ decimal (f.2.1 + 1) ++ [' '] ++ decimal (f.2.2 + 1) ++ ['\n']

/-- `mesh.hpp:28-50` - the contents of the file -/
def exportObj (m : Mesh N) : List Char := header m ++ m.vertices.flatMap vertexLine ++ m.faces.flatMap faceLine

end Verif.Obj
