import Verif.Model.Outcome
import Mathlib.Data.Real.Basic
import Mathlib.Data.List.Basic

/-!
# include/polatory/isosurface/clip.hpp

Coordinates are real numbers, compared exactly.  What the code computes in floating point is a parameter (`Arith`): the
interpolated point and the outcome of the in-circle test; `exact` is the interpolation in exact arithmetic.
-/

namespace Verif.Clip

open Verif

abbrev P3 := ℝ × ℝ × ℝ
abbrev Tri := P3 × P3 × P3

/-- the arithmetic -/
structure Arith where
  /-- `clip.hpp:198-199`: `a + t * (b - a)` for `t = (threshold - a(0)) / (b(0) - a(0))` -/
  interp : ℝ → P3 → P3 → P3
  /-- `clip.hpp:159-165`: `incircle(a, b, c, d) < 0.0` for the rotated triangle and the two points `p10`, `p20` -/
  incircle : Tri → P3 → P3 → Bool

/-- `clip.hpp:198-199` in exact arithmetic -/
noncomputable def exactInterp (th : ℝ) (a b : P3) : P3 :=
  let t := (th - a.1) / (b.1 - a.1)
  (a.1 + t * (b.1 - a.1), a.2.1 + t * (b.2.1 - a.2.1), a.2.2 + t * (b.2.2 - a.2.2))

open Classical in
/-- `std::lexicographical_compare(a.begin(), a.end(), b.begin(), b.end())` -/
noncomputable def lexLess (a b : P3) : Bool :=
  if a.1 < b.1 then true else if b.1 < a.1 then false
  else if a.2.1 < b.2.1 then true else if b.2.1 < a.2.1 then false
  else decide (a.2.2 < b.2.2)

/-- `clip.hpp:194-202` -/
noncomputable def intersect (A : Arith) (th : ℝ) (a b : P3) : P3 :=
  let p := if lexLess b a then A.interp th b a else A.interp th a b
  (th, p.2.1, p.2.2)

open Classical in
/-- `clip.hpp:186-188` -/
noncomputable def degenerate (t : Tri) : Bool := decide (t.1 = t.2.1) || decide (t.2.1 = t.2.2) || decide (t.2.2 = t.1)

/-- `clip.hpp:117-121` -/
noncomputable def append (t : Tri) : List Tri := if degenerate t then [] else [t]

/-- `tri({i, (i + 1) % 3, (i + 2) % 3}, kAll)` -/
def rot (i : Nat) (t : Tri) : Tri :=
  match i with
  | 0 => t
  | 1 => (t.2.1, t.2.2, t.1)
  | _ => (t.2.2, t.1, t.2.1)

def rows (t : Tri) : List P3 := [t.1, t.2.1, t.2.2]

open Classical in
/-- `clip.hpp:101-184` -/
noncomputable def clipTri (A : Arith) (th : ℝ) (tri : Tri) : List Tri :=
  let interior := (rows tri).countP (fun v => decide (v.1 < th))
  let boundary := (rows tri).countP (fun v => !decide (v.1 < th) && decide (v.1 = th))
  let exterior := (rows tri).countP (fun v => !decide (v.1 < th) && !decide (v.1 = th))
  match interior, boundary, exterior with
  | 1, 0, 2 =>
      let t := rot ((rows tri).findIdx (fun v => decide (v.1 < th))) tri
      append (t.1, intersect A th t.1 t.2.1, intersect A th t.1 t.2.2)
  | 1, 1, 1 =>
      let t := rot ((rows tri).findIdx (fun v => decide (v.1 = th))) tri
      let p12 := intersect A th t.2.1 t.2.2
      if t.2.1.1 < t.2.2.1 then append (t.1, t.2.1, p12) else append (t.1, p12, t.2.2)
  | 2, 0, 1 =>
      let t := rot ((rows tri).findIdx (fun v => decide (v.1 > th))) tri
      let p10 := intersect A th t.2.1 t.1
      let p20 := intersect A th t.2.2 t.1
      if A.incircle t p10 p20 then append (t.2.1, t.2.2, p20) ++ append (t.2.1, p20, p10)
      else append (t.2.1, t.2.2, p10) ++ append (t.2.2, p20, p10)
  | 1, 2, 0 => append tri
  | 2, 1, 0 => append tri
  | 3, 0, 0 => append tri
  | _, _, _ => []

/-- a 3 × 3 matrix by rows -/
abbrev Mat := P3 × P3 × P3

def dot (a b : P3) : ℝ := a.1 * b.1 + a.2.1 * b.2.1 + a.2.2 * b.2.2
def Mat.apply (m : Mat) (p : P3) : P3 := (dot m.1 p, dot m.2.1 p, dot m.2.2 p)
def Mat.transpose (m : Mat) : Mat :=
  ((m.1.1, m.2.1.1, m.2.2.1), (m.1.2.1, m.2.1.2.1, m.2.2.2.1), (m.1.2.2, m.2.1.2.2, m.2.2.2.2))

/-- `clip.hpp:42-49` -/
def permutations : List Mat :=
  [((1, 0, 0), (0, 1, 0), (0, 0, 1)),
   ((-1, 0, 0), (0, 0, 1), (0, 1, 0)),
   ((0, 1, 0), (0, 0, 1), (1, 0, 0)),
   ((0, -1, 0), (1, 0, 0), (0, 0, 1)),
   ((0, 0, 1), (1, 0, 0), (0, 1, 0)),
   ((0, 0, -1), (0, 1, 0), (1, 0, 0))]

/-- `clip.hpp:50-51` -/
def thresholds (lo hi : P3) : List ℝ := [hi.1, -lo.1, hi.2.1, -lo.2.1, hi.2.2, -lo.2.2]

def mapTri (f : P3 → P3) (t : Tri) : Tri := (f t.1, f t.2.1, f t.2.2)

/-- `clip.hpp:54-66` - one side of the box -/
noncomputable def clipSide (A : Arith) (ts : List Tri) (side : Mat × ℝ) : List Tri :=
  (ts.flatMap fun t => clipTri A side.2 (mapTri side.1.apply t)).map (mapTri side.1.transpose.apply)

/-- `clip.hpp:53-67` -/
noncomputable def clipAll (A : Arith) (lo hi : P3) (ts : List Tri) : List Tri :=
  (permutations.zip (thresholds lo hi)).foldl (clipSide A) ts

abbrev Face := Nat × Nat × Nat

/-- the vertices and faces of a mesh (`mesh.hpp`) -/
structure Mesh where
  vertices : List P3
  faces : List Face

/-- `clip.hpp:34-40` - a row index out of range is undefined. -/
def triangles (m : Mesh) : Outcome (List Tri) :=
  Outcome.traverse (fun f => match m.vertices[f.1]?, m.vertices[f.2.1]?, m.vertices[f.2.2]? with
    | some p, some q, some r => .ok (p, q, r)
    | _, _, _ => .ub) m.faces

open Classical in
/-- `clip.hpp:69-76` - the keys of the map in the order of their values. -/
noncomputable def vertexMap (ts : List Tri) : List P3 :=
  (ts.flatMap rows).foldl (fun m v => if v ∈ m then m else m ++ [v]) []

open Classical in
/-- `clip.hpp:78-93` -/
noncomputable def assemble (ts : List Tri) : Mesh :=
  let vm := vertexMap ts
  ⟨vm, ts.map fun t => (vm.findIdx (fun p => decide (p = t.1)), vm.findIdx (fun p => decide (p = t.2.1)), vm.findIdx (fun p => decide (p = t.2.2)))⟩

/-- `clip.hpp:30-94, 238-240` -/
noncomputable def clip (A : Arith) (m : Mesh) (lo hi : P3) : Outcome Mesh := do
  let ts ← triangles m
  return assemble (clipAll A lo hi ts)

end Verif.Clip
