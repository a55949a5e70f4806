import Verif.Model.Outcome

/-!
# src/fmm/lru_cache.hpp : LruCache

The list is modelled with explicit node identities, because iterators (stored in `map_` and returned to
callers) refer to nodes, not to positions.  `std::unordered_map` is a partial function.
-/

namespace Verif.Lru

open Verif

/-- A node of `std::list<std::pair<const Key, T>>` (`lru_cache.hpp:11-12`). -/
structure Node (K V : Type) where
  id : Nat
  key : K
  val : V

/-- `lru_cache.hpp:74-76` - `capacity_`, `list_`, `map_`; `fresh` supplies identities for new nodes. -/
structure Cache (K V : Type) where
  capacity : Nat
  list : List (Node K V)
  map : K → Option Nat
  fresh : Nat

/-- An iterator: `none` is `end()`. -/
abbrev Iter := Option Nat

variable {K V : Type} [DecidableEq K]

/-- `lru_cache.hpp:17` -/
def init (capacity : Nat) : Cache K V := ⟨capacity, [], fun _ => none, 0⟩

/-- `lru_cache.hpp:23-26` -/
def clear (c : Cache K V) : Cache K V := { c with list := [], map := fun _ => none }

/-- `lru_cache.hpp:32-39` (and 41-48) -/
def find (c : Cache K V) (k : K) : Iter :=
  match c.map k with
  | none => none
  | some i => some i

/-- `lru_cache.hpp:50` -/
def size (c : Cache K V) : Nat := c.list.length

/-- `lru_cache.hpp:19` - `begin()`: the identity of the first node, `end()` if empty. -/
def begin (c : Cache K V) : Iter := (c.list.head?).map Node.id

/-- Dereferencing an iterator; `end()` or an erased node is undefined behaviour. -/
def deref (c : Cache K V) (it : Iter) : Outcome (K × V) :=
  match it with
  | none => .ub
  | some i =>
    match c.list.find? (fun n => n.id == i) with
    | none => .ub
    | some n => .ok (n.key, n.val)

/-- `lru_cache.hpp:52` - `touch(it)`: splices the node to the front (`ub` for `end()` or an erased node). -/
def touch (c : Cache K V) (it : Iter) : Outcome (Cache K V) :=
  match it with
  | none => .ub
  | some i =>
    match c.list.find? (fun n => n.id == i) with
    | none => .ub
    | some n => .ok { c with list := n :: c.list.filter (fun m => !(m.id == i)) }

/-- `lru_cache.hpp:61-63` - `emplace_front` and `map_.try_emplace` (which keeps an existing entry). -/
def pushFront (c : Cache K V) (k : K) (v : V) : Cache K V :=
  { c with
    list := ⟨c.fresh, k, v⟩ :: c.list
    map := fun k' => if k' = k then (match c.map k with | some i => some i | none => some c.fresh)
                     else c.map k'
    fresh := c.fresh + 1 }

/-- `lru_cache.hpp:65-68` - evicts the back node if the list has grown beyond the capacity. -/
def evict (c : Cache K V) : Cache K V :=
  if c.list.length > c.capacity then
    match c.list.getLast? with
    | none => c
    | some b => { c with list := c.list.dropLast, map := fun k' => if k' = b.key then none else c.map k' }
  else c

/-- `lru_cache.hpp:54-71` - `try_emplace(key, args...)`. -/
def tryEmplace (c : Cache K V) (k : K) (v : V) : Cache K V × Iter × Bool :=
  match find c k with
  | some i => (c, some i, false)
  | none =>
    let c' := evict (pushFront c k v)
    (c', begin c', true)

/-- Client operations.  `use k` is the pattern of the FMM evaluators: `find(k)`, and if found read the value and
`touch` it. -/
inductive Op (K V : Type) where
  | find (k : K)
  | use (k : K)
  | emplace (k : K) (v : V)
  | clear

/-- What a client observes: for lookups the value (if any); for `emplace` the value the returned iterator refers to
(`none` if it is `end()`) and whether an insertion took place. -/
inductive Out (V : Type) where
  | value (v : Option V)
  | emplaced (v : Option V) (inserted : Bool)
  | done
  deriving DecidableEq

/-- Reading through an iterator if it is not `end()`. -/
def read (c : Cache K V) (it : Iter) : Outcome (Option V) :=
  match it with
  | none => .ok none
  | some i => do let (_, v) ← deref c (some i); return some v

/-- One client operation. -/
def step (c : Cache K V) : Op K V → Outcome (Cache K V × Out V)
  | .find k => do
      let v ← read c (find c k)
      return (c, .value v)
  | .use k =>
      match find c k with
      | none => return (c, .value none)
      | some i => do
          let v ← read c (some i)
          let c' ← touch c (some i)
          return (c', .value v)
  | .emplace k v => do
      let (c', it, b) := tryEmplace c k v
      let r ← read c' it
      return (c', .emplaced r b)
  | .clear => return (clear c, .done)

/-- A finite history of client operations. -/
def run (c : Cache K V) : List (Op K V) → Outcome (Cache K V × List (Out V))
  | [] => return (c, [])
  | op :: ops => do
      let (c', o) ← step c op
      let (c'', os) ← run c' ops
      return (c'', o :: os)

end Verif.Lru
