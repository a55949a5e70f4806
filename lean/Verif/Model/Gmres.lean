import Mathlib.Analysis.InnerProductSpace.Basic
import Mathlib.Data.Real.Sqrt
import Mathlib.Algebra.BigOperators.Group.Finset.Basic

/-!
# krylov/gmres_base.cpp, krylov/gmres.cpp, krylov/fgmres.cpp

Exact real arithmetic: vectors are elements of a real inner product space, the entries of `r_`, `c_`, `s_`, `g_` and the
lists `vs_`, `zs_` are functions of their indices.  The operator and the left preconditioner are linear; the right
preconditioner is an arbitrary function (a missing preconditioner is the identity).  A division by zero, which gives
NaN or infinity in C++, gives zero here; the theorems say where none occurs.
-/

namespace Verif.Gmres

variable {V : Type*} [NormedAddCommGroup V] [InnerProductSpace ℝ V]

/-- `gmres_base.hpp:48-72` - what is fixed before `setup()`. -/
structure Prob (V : Type*) [NormedAddCommGroup V] [InnerProductSpace ℝ V] where
  op : V →ₗ[ℝ] V
  left : V →ₗ[ℝ] V
  right : V → V
  rhs : V
  x0 : V
  /-- `x0_.isZero()`: Eigen's test with its default tolerance -/
  isZero : V → Prop
  maxIter : Nat

/-- `gmres_base.hpp:66-90`, `fgmres.hpp:25` -/
structure St (V : Type*) where
  iter : Nat
  vs : Nat → V
  zs : Nat → V
  r : Nat → Nat → ℝ
  c : Nat → ℝ
  s : Nat → ℝ
  g : Nat → ℝ

variable (pb : Prob V)

open Classical in
/-- `gmres_base.cpp:41-42` -/
noncomputable def initialResidual : V :=
  pb.left (if pb.isZero pb.x0 then pb.rhs else pb.rhs - pb.op pb.x0)

/-- `gmres_base.cpp:35-47` -/
noncomputable def setup : St V where
  iter := 0
  vs := fun i => if i = 0 then (‖initialResidual pb‖)⁻¹ • initialResidual pb else 0
  zs := fun _ => 0
  r := fun _ _ => 0
  c := fun _ => 0
  s := fun _ => 0
  g := fun i => if i = 0 then ‖initialResidual pb‖ else 0

/-- `gmres_base.cpp:7` -/
noncomputable def absoluteResidual (st : St V) : ℝ := |st.g st.iter|

/-- `gmres.cpp:17, 19` - the new vector before orthogonalisation -/
noncomputable def newVector (st : St V) : V := pb.left (pb.op (pb.right (st.vs st.iter)))

/-- `gmres.cpp:21-23` - `r_(i, j)` for `i <= j` -/
noncomputable def dots (st : St V) (i : Nat) : ℝ := inner ℝ (st.vs i) (newVector pb st)

/-- `gmres.cpp:24-26` - the new vector after orthogonalisation -/
noncomputable def orthogonalised (st : St V) : V :=
  (List.range (st.iter + 1)).foldl (fun u i => u - dots pb st i • st.vs i) (newVector pb st)

/-- `gmres.cpp:21-27` - the new column of `r_` before the rotations -/
noncomputable def column (st : St V) (i : Nat) : ℝ :=
  if i ≤ st.iter then dots pb st i else if i = st.iter + 1 then ‖orthogonalised pb st‖ else 0

/-- `gmres.cpp:32-37` - one earlier rotation applied to the new column -/
def rotate (c s : ℝ) (i : Nat) (col : Nat → ℝ) : Nat → ℝ :=
  let x := col i
  let y := col (i + 1)
  Function.update (Function.update col i (c * x + s * y)) (i + 1) (-s * x + c * y)

/-- `gmres.cpp:31-38` -/
noncomputable def rotated (st : St V) : Nat → ℝ :=
  (List.range st.iter).foldl (fun col i => rotate (st.c i) (st.s i) i col) (column pb st)

/-- `gmres.cpp:39-41` -/
noncomputable def den (st : St V) : ℝ :=
  Real.sqrt (rotated pb st st.iter ^ 2 + rotated pb st (st.iter + 1) ^ 2)

/-- `gmres.cpp:9-50` -/
noncomputable def iterateProcess (st : St V) : St V :=
  if st.iter = pb.maxIter then st
  else
    let j := st.iter
    let z := pb.right (st.vs j)
    let u := orthogonalised pb st
    let col := rotated pb st
    let x := col j
    let y := col (j + 1)
    let cj := x / den pb st
    let sj := y / den pb st
    { iter := j + 1
      vs := Function.update st.vs (j + 1) ((‖u‖)⁻¹ • u)
      zs := Function.update st.zs j z
      r := fun a b => if b = j then (if a = j then cj * x + sj * y else col a) else st.r a b
      c := Function.update st.c j cj
      s := Function.update st.s j sj
      g := Function.update (Function.update st.g (j + 1) (-sj * st.g j)) j (cj * st.g j) }

/-- `gmres_base.cpp:53-59`, `fgmres.cpp:12-18` - backward substitution, entry `j` after the entries above it -/
noncomputable def backLoop (r : Nat → Nat → ℝ) (g : Nat → ℝ) (k : Nat) : Nat → (Nat → ℝ) → Nat → ℝ
  | 0, y => y
  | j + 1, y =>
      let yj := ((List.range' (j + 1) (k - 1 - j)).foldl (fun a i => a - r j i * y i) (g j)) / r j j
      backLoop r g k j (Function.update y j yj)

/-- the coefficients `y` -/
noncomputable def coefficients (st : St V) : Nat → ℝ := backLoop st.r st.g st.iter st.iter (fun _ => 0)

/-- `fgmres.cpp:8-26` -/
noncomputable def solutionF (st : St V) : V :=
  (List.range st.iter).foldl (fun x i => x + coefficients st i • st.zs i) pb.x0

/-- `gmres_base.cpp:49-69` -/
noncomputable def solutionG (st : St V) : V :=
  pb.right ((List.range st.iter).foldl (fun x i => x + coefficients st i • st.vs i) 0) + pb.x0

/-- `n` calls of `iterate_process()` after `setup()` -/
noncomputable def run (n : Nat) : St V := (iterateProcess pb)^[n] (setup pb)

end Verif.Gmres
