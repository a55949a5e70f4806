import Verif.Model.Graph
import Verif.Model.SpatialGrid
import Mathlib.Order.Lattice
import Mathlib.Order.Defs.LinearOrder
import Mathlib.Data.List.Sort

/-!
# src/isosurface/mesh_defects_finder.cpp : MeshDefectsFinder, src/isosurface/utility.hpp : triangles_intersect

Coordinates are an arbitrary linear order (NaN coordinates are not modelled).  The narrow phase of the geometric
predicates (the floating-point tests that come after the bounding-box rejection tests) is a parameter, see `Narrow`.
A parallel region is a schedule: the list, in the order in which the threads reach the critical section, of the
iterations each thread executed.
-/

namespace Verif.MeshDefects

open Verif SpatialGrid

/-- A row of `faces_`. -/
abbrev Face := Nat × Nat × Nat

abbrev Point (R : Type) := R × R × R

structure Finder (R : Type) where
  vertices : List (Point R)
  faces : List Face
  vf : Nat → List Nat

/-- `mesh_defects_finder.cpp:24` - `vf_.at(v).push_back(fi)` -/
def pushVf (nv : Nat) (vf : Nat → List Nat) (v fi : Nat) : Outcome (Nat → List Nat) :=
  if v < nv then .ok (fun x => if x = v then vf x ++ [fi] else vf x) else .throws .outOfRange

/-- `mesh_defects_finder.cpp:22-27`, from face number `fi` on. -/
def fillVf (nv : Nat) : List Face → Nat → (Nat → List Nat) → Outcome (Nat → List Nat)
  | [], _, vf => .ok vf
  | f :: fs, fi, vf => do
      let vf ← pushVf nv vf f.1 fi
      let vf ← pushVf nv vf f.2.1 fi
      let vf ← pushVf nv vf f.2.2 fi
      fillVf nv fs (fi + 1) vf

/-- `mesh_defects_finder.cpp:15-28` -/
def mk {R : Type} (vertices : List (Point R)) (faces : List Face) : Outcome (Finder R) := do
  let vf ← fillVf vertices.length faces 0 (fun _ => [])
  return ⟨vertices, faces, vf⟩

/-- `mesh_defects_finder.cpp:126-135` -/
def nextVertex (f : Face) (vi : Nat) : Nat :=
  if f.1 = vi then f.2.1 else if f.2.1 = vi then f.2.2 else f.1

/-- `mesh_defects_finder.cpp:137-146` -/
def prevVertex (f : Face) (vi : Nat) : Nat :=
  if f.1 = vi then f.2.2 else if f.2.1 = vi then f.1 else f.2.1

/-- `faces_.row(fi)` (unchecked) -/
def face {R : Type} (m : Finder R) (fi : Nat) : Outcome Face :=
  match m.faces[fi]? with
  | some f => .ok f
  | none => .ub

/-- `mesh_defects_finder.cpp:97` - `to_local_vi.emplace(k, to_local_vi.size())`; the map is an association list in
insertion order. -/
def emplace (m : List (Nat × Nat)) (k : Nat) : List (Nat × Nat) :=
  if (m.lookup k).isSome then m else m ++ [(k, m.length)]

/-- `to_local_vi.at(k)` -/
def mapAt (m : List (Nat × Nat)) (k : Nat) : Outcome Nat :=
  match m.lookup k with
  | some i => .ok i
  | none => .throws .outOfRange

/-- `mesh_defects_finder.cpp:96-99` -/
def fillLocal {R : Type} (M : Finder R) (vi : Nat) : List Nat → List (Nat × Nat) → Outcome (List (Nat × Nat))
  | [], m => .ok m
  | fi :: fis, m => do
      let f ← face M fi
      fillLocal M vi fis (emplace (emplace m (nextVertex f vi)) (prevVertex f vi))

/-- `mesh_defects_finder.cpp:106-110` -/
def addLinks {R : Type} (M : Finder R) (vi : Nat) (m : List (Nat × Nat)) : List Nat → Graph.G → Outcome Graph.G
  | [], g => .ok g
  | fi :: fis, g => do
      let f ← face M fi
      let i ← mapAt m (nextVertex f vi)
      let j ← mapAt m (prevVertex f vi)
      let g ← Graph.addEdge g i j
      addLinks M vi m fis g

/-- `mesh_defects_finder.cpp:88-116` - one iteration: whether the vertex is pushed to the result. -/
def singularIter {R : Type} (M : Finder R) (vi : Nat) : Outcome Bool :=
  match M.vf vi with
  | [] => .ok false
  | fis => do
      let m ← fillLocal M vi fis []
      let g ← Graph.mk m.length
      let g ← addLinks M vi m fis g
      let c ← Graph.isConnected g
      return !(Graph.isSimple g && c && decide (Graph.maxDegree g ≤ 2))

/-- The iterations of one thread, collecting the reported vertices. -/
def singularThread {R : Type} (M : Finder R) : List Nat → Outcome (List Nat)
  | [] => .ok []
  | vi :: vis => do
      let b ← singularIter M vi
      let r ← singularThread M vis
      return if b then vi :: r else r

/-- `mesh_defects_finder.cpp:79-124` -/
def singularVertices {R : Type} (M : Finder R) : (sched : List (List Nat)) → Outcome (List Nat)
  | [] => .ok []
  | t :: ts => do
      let l ← singularThread M t
      let r ← singularVertices M ts
      return l ++ r

/-! ## Intersections -/

section
variable {R : Type} [LinearOrder R]

/-- The tests made after the bounding boxes were found to overlap: `predicates.hpp:137-164`
(`segment3_triangle3_intersect` with precomputed orientations) and `folded`, `predicates.hpp:230-249`. -/
structure Narrow (R : Type) where
  segTri : Point R → Point R → Point R → Point R → Point R → Bool
  folded : Point R → Point R → Point R → Point R → Bool

/-- `cwiseMin` -/
def cmin (a b : Point R) : Point R := (min a.1 b.1, min a.2.1 b.2.1, min a.2.2 b.2.2)
/-- `cwiseMax` -/
def cmax (a b : Point R) : Point R := (max a.1 b.1, max a.2.1 b.2.1, max a.2.2 b.2.2)

/-- `(x.array() < y.array()).any()` -/
def anyLt (x y : Point R) : Bool := decide (x.1 < y.1) || decide (x.2.1 < y.2.1) || decide (x.2.2 < y.2.2)

/-- `predicates.hpp:166-181` -/
def segTriIntersect (N : Narrow R) (a b p q r : Point R) : Bool :=
  if anyLt (cmax a b) (cmin (cmin p q) r) || anyLt (cmax (cmax p q) r) (cmin a b) then false
  else N.segTri a b p q r

/-- `predicates.hpp:183-207` -/
def triTriIntersect (N : Narrow R) (a b c p q r : Point R) : Bool :=
  if anyLt (cmax (cmax a b) c) (cmin (cmin p q) r) || anyLt (cmax (cmax p q) r) (cmin (cmin a b) c) then false
  else N.segTri a b p q r || N.segTri b c p q r || N.segTri c a p q r ||
    N.segTri p q a b c || N.segTri q r a b c || N.segTri r p a b c

/-- `a.at(i)` for the three corners -/
def corner (t : Point R × Point R × Point R) (i : Nat) : Point R :=
  if i = 0 then t.1 else if i = 1 then t.2.1 else t.2.2

/-- `utility.hpp:114-123` - the pairs `(i, j)` of equal corners, in loop order. -/
def shared (a b : Point R × Point R × Point R) : List (Nat × Nat) :=
  [(0, 0), (0, 1), (0, 2), (1, 0), (1, 1), (1, 2), (2, 0), (2, 1), (2, 2)].filter
    (fun ij => decide (corner a ij.1 = corner b ij.2))

/-- `utility.hpp:107-144`.  `as` and `bs` are vectors of static capacity 3: a fourth `push_back` throws
`std::bad_alloc`. -/
def trianglesIntersect (N : Narrow R) (a b : Point R × Point R × Point R) : Outcome Bool :=
  match shared a b with
  | [] => .ok (triTriIntersect N a.1 a.2.1 a.2.2 b.1 b.2.1 b.2.2)
  | [(s, t)] =>
      let i := (s + 1) % 3
      let j := (s + 2) % 3
      let k := (t + 1) % 3
      let l := (t + 2) % 3
      .ok (segTriIntersect N (corner a i) (corner a j) b.1 b.2.1 b.2.2 ||
        segTriIntersect N (corner b k) (corner b l) a.1 a.2.1 a.2.2)
  | [(s0, t0), (s1, t1)] =>
      -- `3 - as[0] - as[1]` is signed; `.at` throws for an apex index outside of 0..2, which needs a triangle that
      -- repeats a corner
      if s0 + s1 ≤ 3 ∧ t0 + t1 ≤ 3 then
        if 3 - s0 - s1 < 3 ∧ 3 - t0 - t1 < 3 then
          .ok (N.folded (corner a s0) (corner a s1) (corner a (3 - s0 - s1)) (corner b (3 - t0 - t1)))
        else .throws .outOfRange
      else .throws .outOfRange
  | [_, _, _] => .ok false
  | _ => .throws .badAlloc

/-- `vertices_(faces_.row(fi), kAll)` (unchecked) -/
def corners (M : Finder R) (fi : Nat) : Outcome (Point R × Point R × Point R) := do
  let f ← face M fi
  match M.vertices[f.1]?, M.vertices[f.2.1]?, M.vertices[f.2.2]? with
  | some a, some b, some c => .ok (a, b, c)
  | _, _, _ => .ub

/-- `face_grid.hpp:48-52` - `colwise().minCoeff()`, `colwise().maxCoeff()` -/
def bboxOf (t : Point R × Point R × Point R) : Box R :=
  ⟨cmin (cmin t.1 t.2.1) t.2.2, cmax (cmax t.1 t.2.1) t.2.2⟩

variable (cellOf : R → Int) (dflt : Box R) (N : Narrow R)

/-- `mesh_defects_finder.cpp:39-41` -/
def insertFaces (M : Finder R) : List Nat → FaceGrid R → Outcome (FaceGrid R)
  | [], g => .ok g
  | fi :: fis, g => do
      let t ← corners M fi
      insertFaces M fis (g.insert cellOf dflt fi (bboxOf t))

/-- `mesh_defects_finder.cpp:44-52` -/
def collectPairs : List Nat → FaceGrid R → List (Nat × Nat) → Outcome (List (Nat × Nat))
  | [], _, pairs => .ok pairs
  | fi :: fis, g, pairs =>
      if fi < g.boxSize then do
        let (g, pairs) ← g.forEach cellOf (g.box fi)
          (fun ps fj => (if fi < fj then ps ++ [(fi, fj)] else ps, true)) pairs
        collectPairs fis g pairs
      else .throws .outOfRange

/-- `mesh_defects_finder.cpp:61-67` - one thread; exceptions escaping a parallel region terminate the program (modelled
as the call throwing). -/
def intersectThread (M : Finder R) (pairs : List (Nat × Nat)) : List Nat → Outcome (List Nat)
  | [] => .ok []
  | i :: is => do
      let (fi, fj) ← (match pairs[i]? with
        | some p => .ok p
        | none => .throws .outOfRange)
      let a ← corners M fi
      let b ← corners M fj
      let hit ← trianglesIntersect N a b
      let r ← intersectThread M pairs is
      return if hit then fi :: fj :: r else r

/-- `mesh_defects_finder.cpp:56-71` -/
def intersectThreads (M : Finder R) (pairs : List (Nat × Nat)) : (sched : List (List Nat)) → Outcome (List Nat)
  | [] => .ok []
  | t :: ts => do
      let l ← intersectThread N M pairs t
      let r ← intersectThreads M pairs ts
      return l ++ r

/-- `std::ranges::unique` + `erase`: drops an element equal to its predecessor. -/
def unique : List Nat → List Nat
  | [] => []
  | [a] => [a]
  | a :: b :: l => if a = b then unique (b :: l) else a :: unique (b :: l)

/-- `mesh_defects_finder.cpp:37-77`.  The schedule of the parallel loop may depend on the number of pairs.
`std::ranges::sort` on integers is insertion sort (its result is determined by being a sorted permutation). -/
def intersectingFaces (M : Finder R) (sched : Nat → List (List Nat)) : Outcome (List Nat) := do
  let nf := M.faces.length
  let g ← insertFaces cellOf dflt M (List.range nf) (FaceGrid.init dflt nf)
  let pairs ← collectPairs cellOf (List.range nf) g []
  let result ← intersectThreads N M pairs (sched pairs.length)
  return unique (result.insertionSort (· ≤ ·))

end

end Verif.MeshDefects
