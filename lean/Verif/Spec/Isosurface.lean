import Verif.Model.Isosurface

/-!
# What the calls of an `Isosurface` should do, whatever calls came before
-/

namespace Verif.Iso

open Verif Verif.Lattice

variable {K : Type} [Field K] [LinearOrder K]

/-- calls that fill or clear the lattice -/
def Op.usesLattice : Op K Sn → Bool
  | .all _ _ => true
  | .seeds (some _) _ _ _ => true
  | .seeds none _ _ _ => false
  | .setSnap _ _ => false
  | .clear => true

/-- the snap points that were last accepted -/
def lastSnap : Option Sn → List (Op K Sn) → Option Sn
  | sn, [] => sn
  | _, .setSnap sn true :: ops => lastSnap sn ops
  | sn, _ :: ops => lastSnap sn ops

/-- Did the last call that uses the lattice throw?  `b` is the answer for the calls before. -/
def lastThrew (T : Steps K M Sn) (G : Geo K) : Gen K Sn → Bool → List (Op K Sn) → Bool
  | _, b, [] => b
  | g, b, op :: ops => match step T G g op with
    | .done _ g => lastThrew T G g (if op.usesLattice then false else b) ops
    | .threw g => lastThrew T G g (if op.usesLattice then true else b) ops
    | .undef => b

/-- an object just constructed -/
def Gen.new : Gen K Sn := ⟨LatS.fresh, none⟩

/-- what a call that generates should return for the mesh `m` and the field value `v` inside the box -/
noncomputable def expected (T : Steps K M Sn) (m : M) (v : K) : Res M :=
  open Classical in if T.faces m = 0 ∧ v < 0 then .entire else .mesh m

end Verif.Iso
