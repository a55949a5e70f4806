import Verif.Model.Outcome

/-!
# src/isosurface/spatial_grid.hpp : SpatialGrid, src/isosurface/face_grid.hpp : FaceGrid

Coordinates live in an arbitrary type `R`; `cellOf : R → Int` stands for `floor(x / resolution_)` cast to `int`
(`spatial_grid.hpp:116`).  The theorems only need it to be monotone, which holds for real and for IEEE arithmetic as
long as the quotient fits in an `int` (overflow of that cast is not modelled).  The hash map is a partial function.
-/

namespace Verif.SpatialGrid

open Verif

abbrev Cell := Int × Int × Int

/-- An axis-aligned box `lo, hi`. -/
structure Box (R : Type) where
  lo : R × R × R
  hi : R × R × R

/-- `spatial_grid.hpp:118-121`.  `visited` is a vector (size and entries); `guard` is a non-negative `int`. -/
structure Grid where
  grid : Cell → Option (List Nat)
  visitedSize : Nat
  visited : Nat → Nat
  guard : Nat

/-- `std::numeric_limits<int>::max()` -/
def intMax : Nat := 2147483647

/-- `spatial_grid.hpp:33` -/
def Grid.init (capacity : Nat) : Grid := ⟨fun _ => none, capacity, fun _ => 0, 0⟩

/-- `for (auto i = a; i <= b; i++)` -/
def intRange (a b : Int) : List Int := (List.range (b + 1 - a).toNat).map (fun k => a + Int.ofNat k)

variable {R : Type} (cellOf : R → Int)

/-- The triple loop over the cells of a box (`spatial_grid.hpp:47-51, 72-76, 95-99`). -/
def cellsOf (b : Box R) : List Cell :=
  (intRange (cellOf b.lo.1) (cellOf b.hi.1)).flatMap fun i =>
    (intRange (cellOf b.lo.2.1) (cellOf b.hi.2.1)).flatMap fun j =>
      (intRange (cellOf b.lo.2.2) (cellOf b.hi.2.2)).map fun k => (i, j, k)

/-- `spatial_grid.hpp:109-113` -/
def Grid.reserve (g : Grid) (capacity : Nat) : Grid :=
  if g.visitedSize < capacity then
    { g with visitedSize := capacity, visited := fun i => if i < g.visitedSize then g.visited i else 0 }
  else g

/-- `spatial_grid.hpp:77` - `grid_[cell].push_back(item)` -/
def Grid.push (g : Grid) (c : Cell) (item : Nat) : Grid :=
  { g with grid := fun c' => if c' = c then some ((g.grid c).getD [] ++ [item]) else g.grid c' }

/-- `spatial_grid.hpp:70-81` -/
def Grid.insert (g : Grid) (item : Nat) (b : Box R) : Grid :=
  (cellsOf cellOf b).foldl (fun g c => g.push c item) (g.reserve (item + 1))

/-- `spatial_grid.hpp:100-103` - `std::erase(it->second, item)` -/
def Grid.eraseIn (g : Grid) (c : Cell) (item : Nat) : Grid :=
  match g.grid c with
  | none => g
  | some l => { g with grid := fun c' => if c' = c then some (l.filter (fun x => x ≠ item)) else g.grid c' }

/-- `spatial_grid.hpp:94-107` -/
def Grid.remove (g : Grid) (item : Nat) (b : Box R) : Grid :=
  (cellsOf cellOf b).foldl (fun g c => g.eraseIn c item) g

/-- Result of visiting items: continue, or return because `fn` gave false. -/
inductive Flow (σ : Type) where
  | go (g : Grid) (s : σ)
  | stop (g : Grid) (s : σ)

/-- `spatial_grid.hpp:56-64` - the loop over the items of one cell; `fn` is the (stateful) callback. -/
def visitItems {σ : Type} (fn : σ → Nat → σ × Bool) : List Nat → Grid → σ → Outcome (Flow σ)
  | [], g, s => .ok (.go g s)
  | item :: items, g, s =>
      if item < g.visitedSize then
        if g.visited item = g.guard then visitItems fn items g s
        else
          let g' := { g with visited := fun i => if i = item then g.guard else g.visited i }
          match fn s item with
          | (s', true) => visitItems fn items g' s'
          | (s', false) => .ok (.stop g' s')
      else .throws .outOfRange

/-- `spatial_grid.hpp:49-67` - the loop over cells. -/
def visitCells {σ : Type} (fn : σ → Nat → σ × Bool) : List Cell → Grid → σ → Outcome (Grid × σ)
  | [], g, s => .ok (g, s)
  | c :: cs, g, s =>
      match g.grid c with
      | none => visitCells fn cs g s
      | some items =>
          match visitItems fn items g s with
          | .ok (.go g' s') => visitCells fn cs g' s'
          | .ok (.stop g' s') => .ok (g', s')
          | .throws e => .throws e
          | .ub => .ub

/-- `spatial_grid.hpp:38-68` - `for_each(lo, hi, fn)`. -/
def Grid.forEach {σ : Type} (g : Grid) (q : Box R) (fn : σ → Nat → σ × Bool) (s : σ) : Outcome (Grid × σ) :=
  let g1 := if g.guard = intMax then { g with visited := fun _ => 0, guard := 0 } else g
  let g2 := { g1 with guard := g1.guard + 1 }
  visitCells fn (cellsOf cellOf q) g2 s

/-! ## FaceGrid -/

/-- `face_grid.hpp:67-68` (`box_` is a vector: size and entries; a fresh entry is an unspecified box). -/
structure FaceGrid (R : Type) where
  g : Grid
  boxSize : Nat
  box : Nat → Box R

/-- `face_grid.hpp:17` -/
def FaceGrid.init (dflt : Box R) (capacity : Nat) : FaceGrid R := ⟨.init capacity, capacity, fun _ => dflt⟩

/-- `face_grid.hpp:42-46` (with `reserve`, 59-64) -/
def FaceGrid.insert (dflt : Box R) (f : FaceGrid R) (fi : Nat) (b : Box R) : FaceGrid R :=
  let sz := if f.boxSize < fi + 1 then fi + 1 else f.boxSize
  { g := (f.g.reserve (fi + 1)).insert cellOf fi b
    boxSize := sz
    box := fun i => if i = fi then b else if i < f.boxSize then f.box i else dflt }

/-- `face_grid.hpp:54-57` -/
def FaceGrid.remove (f : FaceGrid R) (fi : Nat) : Outcome (FaceGrid R) :=
  if fi < f.boxSize then .ok { f with g := f.g.remove cellOf fi (f.box fi) } else .throws .outOfRange

/-- `face_grid.hpp:37-40` -/
def FaceGrid.forEach {σ : Type} (f : FaceGrid R) (q : Box R) (fn : σ → Nat → σ × Bool) (s : σ) :
    Outcome (FaceGrid R × σ) := do
  let (g', s') ← f.g.forEach cellOf q fn s
  return ({ f with g := g' }, s')

/-- `face_grid.hpp:20-31` - `any_of(lo, hi, hits)`. -/
def FaceGrid.anyOf (f : FaceGrid R) (q : Box R) (hits : Nat → Bool) : Outcome (FaceGrid R × Bool) :=
  f.forEach cellOf q (fun hit fi => if hits fi then (true, false) else (hit, true)) false

/-- Public operations of the face grid. -/
inductive Op (R : Type) where
  | insert (fi : Nat) (b : Box R)
  | remove (fi : Nat)
  | query (q : Box R) (stopAfter : Nat)

/-- A query that records what it visits and asks to stop after `stopAfter` items. -/
def recorder (stopAfter : Nat) : List Nat → Nat → List Nat × Bool :=
  fun seen i => (seen ++ [i], decide ((seen ++ [i]).length < stopAfter))

def step (dflt : Box R) (f : FaceGrid R) : Op R → Outcome (FaceGrid R)
  | .insert fi b => .ok (f.insert cellOf dflt fi b)
  | .remove fi => f.remove cellOf fi
  | .query q k => do
      let (f', _) ← f.forEach cellOf q (recorder k) []
      return f'

def run (dflt : Box R) (f : FaceGrid R) : List (Op R) → Outcome (FaceGrid R)
  | [] => .ok f
  | op :: ops => do
      let f' ← step cellOf dflt f op
      run dflt f' ops

end Verif.SpatialGrid
