import Verif.Model.Lru

/-!
# Specification of a bounded least-recently-used map

Independent of the list/iterator machinery: a bag of entries, each with the time stamp of its last insertion or use;
when there are too many entries, the one with the oldest stamp goes.
-/

namespace Verif.Lru.Spec

variable {K V : Type} [DecidableEq K]

structure Entry (K V : Type) where
  key : K
  val : V
  stamp : Nat

structure State (K V : Type) where
  capacity : Nat
  entries : List (Entry K V)
  clock : Nat

def init (capacity : Nat) : State K V := ⟨capacity, [], 0⟩

def lookup (s : State K V) (k : K) : Option V := (s.entries.find? (fun e => e.key = k)).map Entry.val

/-- Removes the entries with the oldest stamp. -/
def removeOldest (es : List (Entry K V)) : List (Entry K V) :=
  es.filter (fun e => es.any (fun e' => e'.stamp < e.stamp))

def step (s : State K V) : Op K V → State K V × Out V
  | .find k => (s, .value (lookup s k))
  | .use k =>
      ({ s with
          entries := s.entries.map (fun e => if e.key = k then { e with stamp := s.clock } else e)
          clock := s.clock + 1 }, .value (lookup s k))
  | .emplace k v =>
      if (lookup s k).isSome then (s, .emplaced (lookup s k) false)
      else
        let es := s.entries ++ [⟨k, v, s.clock⟩]
        let s' := { s with
          entries := if es.length > s.capacity then removeOldest es else es
          clock := s.clock + 1 }
        (s', .emplaced (lookup s' k) true)
  | .clear => ({ s with entries := [] }, .done)

def run (s : State K V) : List (Op K V) → State K V × List (Out V)
  | [] => (s, [])
  | op :: ops =>
      let (s', o) := step s op
      let (s'', os) := run s' ops
      (s'', o :: os)

end Verif.Lru.Spec
