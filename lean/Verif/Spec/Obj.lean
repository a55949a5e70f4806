import Verif.Model.Obj

/-!
# Reading an OBJ file
-/

namespace Verif.Obj

open Verif Verif.Table

/-- the number written in decimal digits, if there are only digits -/
def number (s : List Char) : Option Nat :=
  if s ≠ [] ∧ s.all Char.isDigit then some (s.foldl (fun n c => 10 * n + (c.toNat - 48)) 0) else none

/-- One line of an OBJ file: a comment, the coordinates of a vertex, or the numbers of the corners of a face, counted from one. -/
inductive Line (D : Type) where
  | comment (text : List Char)
  | vertex (v : D × D × D)
  | face (f : Nat × Nat × Nat)

/-- the numbers of the corners, counted from one -/
def corners (a b c : Option Nat) : Option (Nat × Nat × Nat) :=
  match a, b, c with
  | some (a + 1), some (b + 1), some (c + 1) => some (a, b, c)
  | _, _, _ => none

/-- the words of a line and what they mean -/
def parseLine (N : Num) (l : List Char) : Option (Line N.D) :=
  if l.head? = some '#' then some (.comment l)
  else
    match split [' '] l with
    | [k, a, b, c] =>
        if k = ['v'] then some (.vertex (N.toD a, N.toD b, N.toD c))
        else if k = ['f'] then (corners (number a) (number b) (number c)).map .face
        else none
    | _ => none

/-- a vertex -/
def Line.vertex? {D : Type} : Line D → Option (D × D × D)
  | .vertex v => some v
  | _ => none

/-- a face -/
def Line.face? {D : Type} : Line D → Option (Nat × Nat × Nat)
  | .face f => some f
  | _ => none

/-- a comment -/
def Line.comment? {D : Type} : Line D → Option (List Char)
  | .comment t => some t
  | _ => none

/-- The vertices, faces and comments of a file; none if a line cannot be understood. -/
def readObj (N : Num) (file : List Char) : Option (List (N.D × N.D × N.D) × List (Nat × Nat × Nat) × List (List Char)) :=
  ((lines file).mapM (parseLine N)).map fun ls => (ls.filterMap Line.vertex?, ls.filterMap Line.face?, ls.filterMap Line.comment?)

end Verif.Obj
