import Verif.Model.BinaryCache

/-! # Specification of the on-disk cache: an append-only list of byte strings, ids 1, 2, 3, ... -/

namespace Verif.BinaryCache.Spec

open Verif

/-- The stored byte strings after a sequence of completed calls (newest first in the log), oldest first. -/
def stored : List Event → List Bytes
  | [] => []
  | .get _ _ :: l => stored l
  | .put _ d :: l => stored l ++ [d]

/-- What `get id` must give when `ds` is stored: id 0 is a built-in empty record. -/
def get (ds : List Bytes) (id : Nat) : Outcome Bytes :=
  if id = 0 then .ok []
  else match ds[id - 1]? with
    | some d => .ok d
    | none => .throws .outOfRange

/-- Every completed call (newest first) gave the result it should. -/
def Correct : List Event → Prop
  | [] => True
  | .get id r :: l => r = get (stored l) id ∧ Correct l
  | .put id _ :: l => id = (stored l).length + 1 ∧ Correct l

/-- The OS never writes short in this schedule: whenever the scheduled thread is about to write, all its bytes are
accepted. -/
def FullWrites (s : Sys) : Schedule → Prop
  | [] => True
  | (t, op, w) :: sch => (∀ d, s.pc t = .putSought d → d.length ≤ w) ∧ FullWrites (step s t op w) sch

end Verif.BinaryCache.Spec
