import Verif.Model.Gmres

/-!
# krylov/minres.cpp

The same conventions as for GMRES (`Model/Gmres.lean`): exact real arithmetic, the base class `gmres_base.cpp` is shared.
-/

namespace Verif.Minres

open Verif.Gmres

variable {V : Type*} [NormedAddCommGroup V] [InnerProductSpace ℝ V]

/-- `gmres_base.hpp:66-90`, `minres.hpp:16` -/
structure St (V : Type*) extends Gmres.St V where
  beta : ℝ

variable (pb : Prob V)

/-- `gmres_base.cpp:35-47`, `minres.hpp:16` -/
noncomputable def setup : St V := { Gmres.setup pb with beta := 0 }

/-- `minres.cpp:17-18` - `r_(j, j)` -/
noncomputable def alpha (st : St V) : ℝ := inner ℝ (st.vs st.iter) (newVector pb st.toSt)

/-- `minres.cpp:19-24` - the new vector before it is normalised -/
noncomputable def lanczos (st : St V) : V :=
  if st.iter = 0 then newVector pb st.toSt - alpha pb st • st.vs st.iter
  else newVector pb st.toSt - (st.beta • st.vs (st.iter - 1) + alpha pb st • st.vs st.iter)

/-- `minres.cpp:18, 22, 25` - the new column of `r_`, which `setup()` filled with zeros -/
noncomputable def column (st : St V) (i : Nat) : ℝ :=
  if i = st.iter + 1 then ‖lanczos pb st‖ else if i = st.iter then alpha pb st else if i + 1 = st.iter then st.beta else 0

/-- `minres.cpp:30-37` - the last two earlier rotations -/
noncomputable def rotated (st : St V) : Nat → ℝ :=
  (List.range' (st.iter - 2) (st.iter - (st.iter - 2))).foldl (fun col i => rotate (st.c i) (st.s i) i col) (column pb st)

/-- `minres.cpp:38-40` -/
noncomputable def den (st : St V) : ℝ := Real.sqrt (rotated pb st st.iter ^ 2 + rotated pb st (st.iter + 1) ^ 2)

/-- `minres.cpp:9-49`; the preconditioned vectors are not kept. -/
noncomputable def iterateProcess (st : St V) : St V :=
  if st.iter = pb.maxIter then st
  else
    let j := st.iter
    let u := lanczos pb st
    let col := rotated pb st
    let x := col j
    let y := col (j + 1)
    let cj := x / den pb st
    let sj := y / den pb st
    { iter := j + 1
      vs := Function.update st.vs (j + 1) ((‖u‖)⁻¹ • u)
      zs := st.zs
      r := fun a b => if b = j then (if a = j then cj * x + sj * y else col a) else st.r a b
      c := Function.update st.c j cj
      s := Function.update st.s j sj
      g := Function.update (Function.update st.g (j + 1) (-sj * st.g j)) j (cj * st.g j)
      beta := ‖u‖ }

/-- `n` calls of `iterate_process()` after `setup()` -/
noncomputable def run (n : Nat) : St V := (iterateProcess pb)^[n] (setup pb)

end Verif.Minres
