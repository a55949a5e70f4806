import Verif.Model.Outcome
import Mathlib.Data.List.Basic

/-!
# isosurface/bit.hpp and isosurface/rmt/node.hpp

A value of an unsigned type of `w` bits is a `BitVec w`.
-/

namespace Verif.Bits

open Verif

/-- `std::popcount` - the number of one bits. -/
def popcount (x : BitVec w) : Nat := (List.range w).countP (fun i => x.getLsbD i)

/-- `std::countr_zero` - the number of consecutive zero bits starting from the least significant bit. -/
def countrZero (x : BitVec w) : Nat := (List.range w).findIdx (fun i => x.getLsbD i)

/-- `bit.hpp:7-10` -/
def bitCount (x : BitVec w) : Int := popcount x

/-- `bit.hpp:12-19` -/
def bitPeek (x : BitVec w) : Int := if x = 0 then -1 else countrZero x

/-- `bit.hpp:21-32` - the returned index and the new value of `*bit_set`. -/
def bitPop (x : BitVec w) : Int × BitVec w :=
  if x = 0 then (-1, x)
  else
    let bitIndex := bitPeek x
    let bit := 1#w <<< bitIndex.toNat
    (bitIndex, x ^^^ bit)

/-- The loop `while ((i = bit_pop(&x)) != -1) use(i);`, run for at most `fuel` rounds. -/
def drain : Nat → BitVec w → List Int × BitVec w
  | 0, x => ([], x)
  | fuel + 1, x =>
      let (i, x') := bitPop x
      if i = -1 then ([], x')
      else
        let (l, r) := drain fuel x'
        (i :: l, r)

/-! ## node.hpp

The near intersections (line 79), all intersections (line 82) and the packed vertex indices (line 86; a null pointer is
the empty vector).  Assertions are compiled out; the position and the value are in `Model/Lattice.lean`. -/

structure NodeV where
  intersections : BitVec 16
  allIntersections : BitVec 16
  vis : List Int
  deriving DecidableEq

/-- `node.hpp:20` -/
def NodeV.new : NodeV := ⟨0, 0, []⟩

/-- `node.hpp:23, 34, 50, 67` -/
def edgeBit (e : Nat) : BitVec 16 := 1#16 <<< e

/-- `node.hpp:22-25` -/
def NodeV.hasVertex (n : NodeV) (e : Nat) : Bool := (n.intersections &&& edgeBit e) != 0

/-- `node.hpp:27-43` -/
def NodeV.insertVertex (n : NodeV) (vi : Int) (e : Nat) : NodeV :=
  let mask := edgeBit e - 1
  let ints := n.intersections ||| edgeBit e
  let pos := popcount (ints &&& mask)
  { n with intersections := ints, vis := n.vis.insertIdx pos vi }

/-- `node.hpp:45` -/
def NodeV.isFree (n : NodeV) : Bool := n.allIntersections == 0

/-- `node.hpp:49-53` -/
def NodeV.setIntersection (n : NodeV) (e : Nat) : NodeV := { n with allIntersections := n.allIntersections ||| edgeBit e }

/-- `node.hpp:64-70` - `vector::at` throws outside the vector. -/
def NodeV.vertex (n : NodeV) (e : Nat) : Outcome Int :=
  let mask := edgeBit e - 1
  match n.vis[popcount (n.intersections &&& mask)]? with
  | some v => .ok v
  | none => .throws .outOfRange

end Verif.Bits
