import Verif.Model.MeshDefects
import Mathlib.Analysis.Real.Sqrt

/-!
# include/polatory/isosurface/predicates.hpp

Coordinates are real numbers: the rounding of the arithmetic is not modelled.  The tolerance factor is a parameter `tf`; the code's is
`kTinyFactor`.
-/

namespace Verif.Predicates

open Verif MeshDefects

abbrev P3 := Point ℝ

/-- `predicates.hpp:15` - the double nearest to `1e-12` is not distinguished from it. -/
noncomputable def kTinyFactor : ℝ := 1 / 1000000000000

/-- `p(i)` for `i` in 0..2 -/
def coord (p : P3) (i : Nat) : ℝ := if i = 0 then p.1 else if i = 1 then p.2.1 else p.2.2

/-- `predicates.hpp:19-25` -/
def orient2d (a b c : ℝ × ℝ) : ℝ := (a.1 - c.1) * (b.2 - c.2) - (a.2 - c.2) * (b.1 - c.1)

/-- `predicates.hpp:27-34` - the determinant, expanded along the first row. -/
def orient3d (a b c d : P3) : ℝ :=
  (a.1 - d.1) * ((b.2.1 - d.2.1) * (c.2.2 - d.2.2) - (b.2.2 - d.2.2) * (c.2.1 - d.2.1)) -
  (a.2.1 - d.2.1) * ((b.1 - d.1) * (c.2.2 - d.2.2) - (b.2.2 - d.2.2) * (c.1 - d.1)) +
  (a.2.2 - d.2.2) * ((b.1 - d.1) * (c.2.1 - d.2.1) - (b.2.1 - d.2.1) * (c.1 - d.1))

/-- `(hi - lo).norm()` -/
noncomputable def extent (lo hi : P3) : ℝ := √((hi.1 - lo.1) ^ 2 + (hi.2.1 - lo.2.1) ^ 2 + (hi.2.2 - lo.2.2) ^ 2)

open Classical in
/-- `(hi - lo).maxCoeff(&i)` - the first index of the largest coefficient -/
noncomputable def argmax (lo hi : P3) : Nat :=
  if hi.2.1 - lo.2.1 ≤ hi.1 - lo.1 then (if hi.2.2 - lo.2.2 ≤ hi.1 - lo.1 then 0 else 2)
  else (if hi.2.2 - lo.2.2 ≤ hi.2.1 - lo.2.1 then 1 else 2)

open Classical in
/-- `(hi - lo).minCoeff(&k)` - the first index of the smallest coefficient -/
noncomputable def argmin (lo hi : P3) : Nat :=
  if hi.1 - lo.1 ≤ hi.2.1 - lo.2.1 then (if hi.1 - lo.1 ≤ hi.2.2 - lo.2.2 then 0 else 2)
  else (if hi.2.1 - lo.2.1 ≤ hi.2.2 - lo.2.2 then 1 else 2)

open Classical in
/-- `predicates.hpp:56-78` - the comparisons with NaN are not modelled. -/
noncomputable def segSeg1d (a b p q : P3) : Bool :=
  let lo := cmin (cmin (cmin a b) p) q
  let hi := cmax (cmax (cmax a b) p) q
  let i := argmax lo hi
  if coord a i < coord p i ∧ coord a i < coord q i ∧ coord b i < coord p i ∧ coord b i < coord q i then false
  else if coord a i > coord p i ∧ coord a i > coord q i ∧ coord b i > coord p i ∧ coord b i > coord q i then false
  else true

open Classical in
/-- `predicates.hpp:80-97` -/
noncomputable def segSeg2d (tf : ℝ) (a b p q : P3) (abp abq apq bpq : ℝ) : Bool :=
  let lo := cmin (cmin (cmin a b) p) q
  let hi := cmax (cmax (cmax a b) p) q
  let scale := extent lo hi
  let tiny := tf * scale * scale
  if (abp < -tiny ∧ abq < -tiny) ∨ (abp > tiny ∧ abq > tiny) then false
  else if (apq < -tiny ∧ bpq < -tiny) ∨ (apq > tiny ∧ bpq > tiny) then false
  else segSeg1d a b p q

/-- `geometry::Point2(a(i), a(j))` -/
def proj (i j : Nat) (a : P3) : ℝ × ℝ := (coord a i, coord a j)

open Classical in
/-- `predicates.hpp:99-135` -/
noncomputable def segTri2d (tf : ℝ) (a b p q r : P3) (i j : Nat) (scale : ℝ) : Bool :=
  let tiny := tf * scale * scale
  let a2 := proj i j a
  let b2 := proj i j b
  let p2 := proj i j p
  let q2 := proj i j q
  let r2 := proj i j r
  let apq := orient2d a2 p2 q2
  let aqr := orient2d a2 q2 r2
  let arp := orient2d a2 r2 p2
  let bpq := orient2d b2 p2 q2
  let bqr := orient2d b2 q2 r2
  let brp := orient2d b2 r2 p2
  if (apq ≤ tiny ∧ aqr ≤ tiny ∧ arp ≤ tiny) ∨ (apq ≥ -tiny ∧ aqr ≥ -tiny ∧ arp ≥ -tiny) then true
  else if (bpq ≤ tiny ∧ bqr ≤ tiny ∧ brp ≤ tiny) ∨ (bpq ≥ -tiny ∧ bqr ≥ -tiny ∧ brp ≥ -tiny) then true
  else
    let abp := orient2d a2 b2 p2
    let abq := orient2d a2 b2 q2
    let abr := orient2d a2 b2 r2
    segSeg2d tf a b p q abp abq apq bpq || segSeg2d tf a b q r abq abr aqr bqr || segSeg2d tf a b r p abr abp arp brp

open Classical in
/-- `predicates.hpp:137-164` - after the orientations `apqr` and `bpqr` of the ends were computed -/
noncomputable def segTri (tf : ℝ) (a b p q r : P3) (apqr bpqr : ℝ) : Bool :=
  let lo := cmin (cmin (cmin (cmin a b) p) q) r
  let hi := cmax (cmax (cmax (cmax a b) p) q) r
  let scale := extent lo hi
  let tiny := tf * scale * scale * scale
  if (apqr < -tiny ∧ bpqr < -tiny) ∨ (apqr > tiny ∧ bpqr > tiny) then false
  else
    let k := argmin lo hi
    let i := (k + 1) % 3
    let j := (k + 2) % 3
    if segTri2d tf a b p q r i j scale = false then false
    else
      let abpq := orient3d a b p q
      let abqr := orient3d a b q r
      let abrp := orient3d a b r p
      decide ((abpq ≤ tiny ∧ abqr ≤ tiny ∧ abrp ≤ tiny) ∨ (abpq ≥ -tiny ∧ abqr ≥ -tiny ∧ abrp ≥ -tiny))

open Classical in
/-- `predicates.hpp:209-227` -/
noncomputable def folded2d (tf : ℝ) (a b p q : P3) (i j : Nat) (scale : ℝ) : Bool :=
  let tiny := tf * scale * scale
  let abp := orient2d (proj i j a) (proj i j b) (proj i j p)
  let abq := orient2d (proj i j a) (proj i j b) (proj i j q)
  if (abp < -tiny ∧ abq > tiny) ∨ (abp > tiny ∧ abq < -tiny) then false else true

open Classical in
/-- `predicates.hpp:230-249` -/
noncomputable def folded (tf : ℝ) (a b p q : P3) : Bool :=
  let lo := cmin (cmin (cmin a b) p) q
  let hi := cmax (cmax (cmax a b) p) q
  let scale := extent lo hi
  let tiny := tf * scale * scale * scale
  let k := argmin lo hi
  let i := (k + 1) % 3
  let j := (k + 2) % 3
  if folded2d tf a b p q i j scale = false then false
  else decide (|orient3d a b p q| ≤ tiny)

/-- The floating-point tests of `MeshDefects`, in exact arithmetic. -/
noncomputable def narrow (tf : ℝ) : Narrow ℝ where
  segTri a b p q r := segTri tf a b p q r (orient3d a p q r) (orient3d b p q r)
  folded a b p q := folded tf a b p q

end Verif.Predicates
