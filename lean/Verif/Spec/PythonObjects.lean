import Verif.Model.PythonObjects

/-!
# What a statement assigns (C93)
-/

namespace Verif.PythonObjects

variable {P D : Type}

/-- The name a statement binds or unbinds. -/
def target : Op P D → Option String
  | .newModel x _ => some x
  | .newInterp x _ => some x
  | .fieldFn f _ => some f
  | .model y _ => some y
  | .weights w _ => some w
  | .setParameters _ _ => none
  | .fit _ _ => none
  | .assign y _ => some y
  | .del x => some x

end Verif.PythonObjects
