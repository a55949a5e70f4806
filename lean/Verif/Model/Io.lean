import Verif.Model.RbfModel

/-!
# common/io.hpp and the Read/Write specialisations

Target: 64-bit little-endian (sizes and `Index` 8 bytes, `int` 4 bytes, `bool` 1 byte, `double` 8 bytes).
An input stream is the remaining bytes and the fail bit.  `istream::read(p, n)` copies `n` bytes; if fewer are left it
copies those, leaves the rest of the destination unchanged and sets the fail bit; once the fail bit is set it copies
nothing.  The code never looks at the stream state afterwards (`io.hpp:22-24, 104-201, 219-227`).
`alloc n` says whether a container of `n` elements can be allocated.
-/

namespace Verif.Io

open Verif RbfModel

abbrev Byte := UInt8

structure IS where
  rest : List Byte
  fail : Bool
  deriving DecidableEq

/-- `is.read(dst, dst.length)` where `dst` holds the bytes of the destination before the call. -/
def isRead (dst : List Byte) (s : IS) : List Byte × IS :=
  if s.fail then (dst, s)
  else if dst.length ≤ s.rest.length then (s.rest.take dst.length, ⟨s.rest.drop dst.length, false⟩)
  else (s.rest ++ dst.drop s.rest.length, ⟨[], true⟩)

/-- A reader and a writer of one type; `read` fills a freshly constructed object. -/
structure Codec (α : Type) where
  write : α → List Byte
  read : IS → Outcome (α × IS)

/-- Little-endian bytes of a number. -/
def encLE : Nat → Nat → List Byte
  | 0, _ => []
  | k + 1, n => UInt8.ofNat (n % 256) :: encLE k (n / 256)

def decLE : List Byte → Nat
  | [] => 0
  | b :: bs => b.toNat + 256 * decLE bs

/-- A trivially copyable type: its size, object representation and its value when freshly constructed. -/
structure Pod (α : Type) where
  size : Nat
  enc : α → List Byte
  dec : List Byte → α
  dflt : α

/-- `std::size_t`, `Index` and the bit pattern of a `double` -/
def u64 : Pod (BitVec 64) := ⟨8, fun x => encLE 8 x.toNat, fun bs => BitVec.ofNat 64 (decLE bs), 0⟩
/-- `int` -/
def i32 : Pod (BitVec 32) := ⟨4, fun x => encLE 4 x.toNat, fun bs => BitVec.ofNat 32 (decLE bs), 0⟩
/-- `bool` -/
def bool1 : Pod Bool := ⟨1, fun b => [if b then 1 else 0], fun bs => bs != [0], false⟩
/-- `char` -/
def char1 : Pod Byte := ⟨1, fun b => [b], fun bs => bs.headD 0, 0⟩

/-- `io.hpp:31-45` -/
def pod (p : Pod α) : Codec α where
  write := p.enc
  read s :=
    let (bs, s') := isRead (p.enc p.dflt) s
    .ok (p.dec bs, s')

/-- The elements stored in a contiguous buffer. -/
def decMany (p : Pod α) : Nat → List Byte → List α
  | 0, _ => []
  | n + 1, bs => p.dec (bs.take p.size) :: decMany p n (bs.drop p.size)

variable (alloc : Nat → Bool)

/-- `is.read(t.data(), sizeof(T) * n)` into `n` freshly constructed elements -/
def readBuffer (p : Pod α) (n : Nat) (s : IS) : List α × IS :=
  let (bs, s') := isRead ((List.replicate n (p.enc p.dflt)).flatten) s
  (decMany p n bs, s')

/-- `io.hpp:47-85` - strings and vectors of trivially copyable elements. -/
def vecPod (p : Pod α) : Codec (List α) where
  write xs := u64.enc (BitVec.ofNat 64 xs.length) ++ xs.flatMap p.enc
  read s := do
    let (n, s) ← (pod u64).read s
    if alloc n.toNat then return readBuffer p n.toNat s else .throws .lengthError

/-- `io.hpp:96-98` - the loop over the elements. -/
def readMany (c : Codec α) : Nat → IS → Outcome (List α × IS)
  | 0, s => .ok ([], s)
  | n + 1, s => do
      let (x, s) ← c.read s
      let (xs, s) ← readMany c n s
      return (x :: xs, s)

/-- `io.hpp:87-110` - vectors of other elements. -/
def vecOf (c : Codec α) : Codec (List α) where
  write xs := u64.enc (BitVec.ofNat 64 xs.length) ++ xs.flatMap c.write
  read s := do
    let (n, s) ← (pod u64).read s
    if alloc n.toNat then readMany c n.toNat s else .throws .lengthError

/-- A matrix of doubles: its shape and its entries in storage order. -/
structure Mx where
  rows : Nat
  cols : Nat
  data : List Dbl
  deriving DecidableEq

/-- `io.hpp:112-145` - matrices; a dimension is fixed (`some n`) or dynamic (`none`). -/
def matrix (rows cols : Option Nat) : Codec Mx where
  write m :=
    (match rows with | none => u64.enc (BitVec.ofNat 64 m.rows) | some _ => []) ++
    (match cols with | none => u64.enc (BitVec.ofNat 64 m.cols) | some _ => []) ++
    m.data.flatMap u64.enc
  read s := do
    let (r, s) ← (match rows with
      | none => do
          let (r, s) ← (pod u64).read s
          return (r.toNat, s)
      | some n => .ok (n, s))
    let (c, s) ← (match cols with
      | none => do
          let (c, s) ← (pod u64).read s
          return (c.toNat, s)
      | some n => .ok (n, s))
    if alloc (r * c) then
      let (data, s) := readBuffer u64 (r * c) s
      return (⟨r, c, data⟩, s)
    else .throws .lengthError

/-- The bytes of a short name. -/
def nameBytes (n : String) : List Byte := n.toList.map (fun c => UInt8.ofNat c.toNat)

/-- The name with the given bytes among the known ones; other names only have to be different from these. -/
def bytesName (bs : List Byte) : String := String.ofList (bs.map (fun b => Char.ofNat b.toNat))

/-- `rbf_io.hpp:9-35`, `Dim = d`; `make_rbf` runs after all three fields were read. -/
def rbf (detPos : List Dbl → Bool) (identity : List Dbl) (d : Nat) : Codec Rbf where
  write r := (vecPod alloc char1).write (nameBytes r.kind.shortName) ++ (vecPod alloc u64).write r.params ++
    (matrix alloc (some d) (some d)).write ⟨d, d, r.aniso⟩
  read s := do
    let (name, s) ← (vecPod alloc char1).read s
    let (params, s) ← (vecPod alloc u64).read s
    let (aniso, s) ← (matrix alloc (some d) (some d)).read s
    let r ← makeRbf identity (bytesName name) params
    match r.setAnisotropy detPos aniso.data with
    | (r, .ok ()) => return (r, s)
    | (_, .throws e) => .throws e
    | (_, .ub) => .ub

/-- `model.hpp:304-320`; `poly_degree_` is an `int`. -/
def model (detPos : List Dbl → Bool) (identity : List Dbl) (d : Nat) : Codec Mdl where
  write m := (vecOf alloc (rbf alloc detPos identity d)).write m.rbfs ++ i32.enc (BitVec.ofInt 32 m.polyDegree) ++
    u64.enc m.nugget
  read s := do
    let (rbfs, s) ← (vecOf alloc (rbf alloc detPos identity d)).read s
    let (deg, s) ← (pod i32).read s
    let (nugget, s) ← (pod u64).read s
    return (⟨rbfs, deg.toInt, nugget⟩, s)

/-- the state of a bounding box (`bbox3d.hpp:70-71`) -/
structure BboxS where
  min : Mx
  max : Mx
  deriving DecidableEq

/-- `bbox3d.hpp:82-96` -/
def bbox (d : Nat) : Codec BboxS where
  write b := (matrix alloc (some 1) (some d)).write b.min ++ (matrix alloc (some 1) (some d)).write b.max
  read s := do
    let (a, s) ← (matrix alloc (some 1) (some d)).read s
    let (b, s) ← (matrix alloc (some 1) (some d)).read s
    return (⟨a, b⟩, s)

/-- `variogram.hpp:47-50` -/
structure VariogramS where
  binDistance : List Dbl
  binGamma : List Dbl
  binNumPairs : List (BitVec 64)
  direction : Mx
  deriving DecidableEq

/-- `variogram.hpp:57-75` -/
def variogram (d : Nat) : Codec VariogramS where
  write v := (vecPod alloc u64).write v.binDistance ++ (vecPod alloc u64).write v.binGamma ++
    (vecPod alloc u64).write v.binNumPairs ++ (matrix alloc (some 1) (some d)).write v.direction
  read s := do
    let (a, s) ← (vecPod alloc u64).read s
    let (b, s) ← (vecPod alloc u64).read s
    let (c, s) ← (vecPod alloc u64).read s
    let (e, s) ← (matrix alloc (some 1) (some d)).read s
    return (⟨a, b, c, e⟩, s)

/-- `variogram_set.hpp:50, 57-69` -/
def variogramSet (d : Nat) : Codec (List VariogramS) := vecOf alloc (variogram alloc d)

/-- the serialised fields of an interpolant (`interpolant.hpp:331-336`) -/
structure InterpolantS where
  model : Mdl
  fitted : Bool
  centers : Mx
  gradCenters : Mx
  bbox : BboxS
  weights : Mx
  deriving DecidableEq

/-- `interpolant.hpp:345-367` -/
def interpolant (detPos : List Dbl → Bool) (identity : List Dbl) (d : Nat) : Codec InterpolantS where
  write t := (model alloc detPos identity d).write t.model ++ bool1.enc t.fitted ++
    (matrix alloc none (some d)).write t.centers ++ (matrix alloc none (some d)).write t.gradCenters ++
    (bbox alloc d).write t.bbox ++ (matrix alloc none (some 1)).write t.weights
  read s := do
    let (m, s) ← (model alloc detPos identity d).read s
    let (f, s) ← (pod bool1).read s
    let (c, s) ← (matrix alloc none (some d)).read s
    let (g, s) ← (matrix alloc none (some d)).read s
    let (b, s) ← (bbox alloc d).read s
    let (w, s) ← (matrix alloc none (some 1)).read s
    return (⟨m, f, c, g, b, w⟩, s)

/-- `io.hpp:147-155` with `POLATORY_IMPLEMENT_LOAD_SAVE` - `T::load(filename)` of a file with these bytes. -/
def load (c : Codec α) (file : List Byte) : Outcome α := do
  let (x, _) ← c.read ⟨file, false⟩
  return x

/-- `io.hpp:157-165` - `save(filename)` (the bytes of the file; write errors are not modelled). -/
def save (c : Codec α) (x : α) : List Byte := c.write x

end Verif.Io
