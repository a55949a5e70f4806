import Mathlib.Analysis.InnerProductSpace.Basic

/-!
# src/isosurface/utility.hpp: the nearest point of a triangle, snapping to the bounding box

Arithmetic is exact.  Points and vectors are elements of a real inner product space (`geometry::Point3` is the three-dimensional one);
`x / 0`, a NaN or an infinity in C++ which then spreads over everything computed from it, is `none`.
-/

namespace Verif.ClosestPoint

/-- `x / y` of two doubles; `none`: the result is not a finite number -/
noncomputable def quot (x y : ℝ) : Option ℝ := if y = 0 then none else some (x / y)

variable {V : Type*} [NormedAddCommGroup V] [InnerProductSpace ℝ V]

/-- `u.dot(v)` -/
noncomputable def dot (u v : V) : ℝ := inner ℝ u v

/-- `u.squaredNorm()` -/
noncomputable def sqn (u : V) : ℝ := dot u u

/-- What `point_triangle_closest` hands back: the returned value and the out-parameter `closest`. -/
structure Closest (V : Type*) where
  dist2 : ℝ
  closest : V

/-- `utility.hpp:29-79` - `point_triangle_closest`; `none`: `closest` and the returned value are not finite -/
noncomputable def pointTriangleClosest (p a b c : V) : Option (Closest V) :=
  let ab := b - a
  let ac := c - a
  let ap := p - a
  let d1 := dot ab ap
  let d2 := dot ac ap
  if d1 ≤ 0 ∧ d2 ≤ 0 then some ⟨sqn ap, a⟩ else
  let bp := p - b
  let d3 := dot ab bp
  let d4 := dot ac bp
  if d3 ≥ 0 ∧ d4 ≤ d3 then some ⟨sqn bp, b⟩ else
  let cp := p - c
  let d5 := dot ab cp
  let d6 := dot ac cp
  if d6 ≥ 0 ∧ d5 ≤ d6 then some ⟨sqn cp, c⟩ else
  let vc := d1 * d4 - d3 * d2
  if vc ≤ 0 ∧ d1 ≥ 0 ∧ d3 ≤ 0 then
    (quot d1 (d1 - d3)).map fun v => ⟨sqn (ap - v • ab), a + v • ab⟩ else
  let vb := d5 * d2 - d1 * d6
  if vb ≤ 0 ∧ d2 ≥ 0 ∧ d6 ≤ 0 then
    (quot d2 (d2 - d6)).map fun w => ⟨sqn (ap - w • ac), a + w • ac⟩ else
  let va := d3 * d6 - d5 * d4
  if va ≤ 0 ∧ d4 - d3 ≥ 0 ∧ d5 - d6 ≥ 0 then
    (quot (d4 - d3) ((d4 - d3) + (d5 - d6))).map fun w => ⟨sqn (p - (b + w • (c - b))), b + w • (c - b)⟩ else
  (quot 1 (va + vb + vc)).map fun denom =>
    let v := vb * denom
    let w := vc * denom
    ⟨sqn (p - (a + v • ab + w • ac)), a + v • ab + w • ac⟩

/-- `utility.hpp:81-85` - `point_triangle_dist2` -/
noncomputable def pointTriangleDist2 (p a b c : V) : Option ℝ := (pointTriangleClosest p a b c).map (·.dist2)

/-- `utility.hpp:24` (and, with `max`, line 25): one coordinate of `((q - m).abs() < tiny).select(m, q)` -/
noncomputable def select (tiny m q : ℝ) : ℝ := if |q - m| < tiny then m else q

/-- `utility.hpp:17-27` - `snap_to_bbox`; points are functions of the coordinate's number -/
noncomputable def snapToBbox (p lo hi : Fin 3 → ℝ) (resolution : ℝ) : Fin 3 → ℝ :=
  let tiny := 1e-10 * resolution
  let q := fun i => select tiny (lo i) (p i)
  fun i => select tiny (hi i) (q i)

end Verif.ClosestPoint
