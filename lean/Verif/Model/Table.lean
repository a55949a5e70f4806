import Verif.Model.Outcome

/-!
# include/polatory/table.hpp, include/polatory/numeric/conv.hpp

A file is a list of characters.  Numbers are an arbitrary type with a printing and a parsing function (`std::to_chars`,
`fast_float::from_chars`); what is assumed about them is stated in the theorems.  A file that cannot be opened throws; that
branch is left out.
-/

namespace Verif.Table

open Verif

/-- The number type with its conversions. -/
structure Num where
  D : Type
  /-- `conv.hpp:25-30`, `to_string` -/
  toStr : D → List Char
  /-- `conv.hpp:12-16`, `to_double`; NaN if nothing can be parsed -/
  toD : List Char → D

/-- `std::getline` until the end of the file: the lines without their newlines; a last line without a newline counts if it has a
character. -/
def lines : List Char → List (List Char)
  | [] => []
  | c :: cs =>
      if c = '\n' then [] :: lines cs
      else
        match lines cs with
        | [] => [[c]]
        | l :: ls => (c :: l) :: ls

/-- `boost::split(row, line, is_any_of(delimiters))` without token compression: one more cell than there are delimiters. -/
def split (delims : List Char) : List Char → List (List Char)
  | [] => [[]]
  | c :: cs =>
      if c ∈ delims then [] :: split delims cs
      else
        match split delims cs with
        | [] => [[c]]
        | l :: ls => (c :: l) :: ls

/-- `std::isspace` in the default locale -/
def isSpace (c : Char) : Bool := c = ' ' || c = '\t' || c = '\n' || c = '\x0b' || c = '\x0c' || c = '\r'

/-- `boost::trim_copy` -/
def trim (s : List Char) : List Char := ((s.dropWhile isSpace).reverse.dropWhile isSpace).reverse

variable (N : Num)

/-- The local variables of `read_table`: the number of columns (0 before the first line) and the buffer. -/
structure St where
  nCols : Nat
  buffer : List N.D

/-- `table.hpp:27-52` - one turn of the loop. -/
def step (delims : List Char) (s : St N) (line : List Char) : St N :=
  if line.head? = some '#' then s
  else
    let row := split delims line
    if s.nCols ≠ 0 ∧ row.length ≠ s.nCols then s
    else
      ⟨if s.nCols = 0 then row.length else s.nCols, s.buffer ++ row.map (fun cell => N.toD (trim cell))⟩

/-- A matrix: numbers of rows and columns, and the entries. -/
structure Mat where
  rows : Nat
  cols : Nat
  entry : Nat → Nat → Option N.D

/-- `table.hpp:16-60` - `read_table`.  `MatX` is stored by rows (`types.hpp:9-15`), so entry `(i, j)` of the map is element
`i * n_cols + j` of the buffer. -/
def readTable (delims : List Char) (file : List Char) : Outcome (Mat N) :=
  let s := (lines file).foldl (step N delims) ⟨0, []⟩
  if s.nCols = 0 then .throws .runtimeError
  else .ok ⟨s.buffer.length / s.nCols, s.nCols, fun i j =>
    if i < s.buffer.length / s.nCols ∧ j < s.nCols then s.buffer[i * s.nCols + j]? else none⟩

/-- `table.hpp:70-80` - one row: the cells with a delimiter after each but the last, then a newline. -/
def writeRow (delim : Char) : List N.D → List Char
  | [] => ['\n']
  | [x] => N.toStr x ++ ['\n']
  | x :: y :: xs => N.toStr x ++ delim :: writeRow delim (y :: xs)

/-- `table.hpp:62-81` - `write_table`; the file's contents. -/
def writeTable (delim : Char) (rows : List (List N.D)) : List Char := (rows.map (writeRow N delim)).flatten

end Verif.Table
