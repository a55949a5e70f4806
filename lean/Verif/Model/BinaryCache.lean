import Verif.Model.Outcome

/-!
# include/polatory/preconditioner/binary_cache.hpp : BinaryCache (POSIX branch)

Threads call `put` and `get` concurrently.  The model runs at the granularity of system calls: the file descriptor
has one shared file position, so `lseek` and `read`/`write` of different threads would interfere without the mutex.
Modelled: locking, seeking, reading, writing, the record table.  `write` may be short (the code ignores its result);
how many bytes the OS accepts is chosen by the environment.  `read` from the regular file returns everything up to the
end of file (partial reads by signals or huge sizes are not modelled).
-/

namespace Verif.BinaryCache

open Verif

abbrev Bytes := List UInt8

/-- `binary_cache.hpp:92-95` -/
structure Record where
  offset : Nat
  size : Nat
  deriving DecidableEq

/-- A call made by a thread. -/
inductive Op where
  | get (id : Nat)
  | put (data : Bytes)

/-- Where a thread is inside a call. -/
inductive Pc where
  | idle
  /-- `binary_cache.hpp:57-59`: lock held, about to look up the record. -/
  | getLocked (id : Nat)
  /-- `binary_cache.hpp:67` done. -/
  | getSought (id : Nat) (r : Record)
  /-- `binary_cache.hpp:73` done. -/
  | putLocked (data : Bytes)
  /-- `binary_cache.hpp:81` done. -/
  | putSought (data : Bytes)
  /-- `binary_cache.hpp:82` done. -/
  | putWritten (data : Bytes)

/-- Completed calls as the callers see them. -/
inductive Event where
  | get (id : Nat) (result : Outcome Bytes)
  | put (id : Nat) (data : Bytes)

structure Sys where
  file : Bytes
  pos : Nat
  records : List Record
  lock : Option Nat
  pc : Nat → Pc
  /-- completed calls, newest first -/
  log : List Event

/-- `binary_cache.hpp:20-41` - constructor: an empty file and a first dummy record. -/
def init : Sys := ⟨[], 0, [⟨0, 0⟩], none, fun _ => .idle, []⟩

/-- POSIX `write` of the first `w` bytes of `data` at the current position. -/
def osWrite (s : Sys) (data : Bytes) (w : Nat) : Sys :=
  let d := data.take w
  { s with file := s.file.take s.pos ++ d ++ s.file.drop (s.pos + d.length), pos := s.pos + d.length }

def setPc (s : Sys) (t : Nat) (p : Pc) : Sys :=
  { s with pc := fun t' => if t' = t then p else s.pc t' }

/-- Thread `t` is scheduled.  If it is idle it starts `op` (blocking while the mutex is held); otherwise it performs
the next system-call-sized step of its current call.  `w` is the number of bytes the OS accepts if the step is a
`write`. -/
def step (s : Sys) (t : Nat) (op : Op) (w : Nat) : Sys :=
  match s.pc t with
  | .idle =>
      match s.lock with
      | some _ => s                                        -- `std::lock_guard` blocks
      | none =>
          match op with
          | .get id => setPc { s with lock := some t } t (.getLocked id)
          | .put d => setPc { s with lock := some t } t (.putLocked d)
  | .getLocked id =>                                       -- `binary_cache.hpp:59, 67`
      match s.records[id]? with
      | none =>                                            -- `.at(id)` throws, the guard unlocks
          setPc { s with lock := none, log := .get id (.throws .outOfRange) :: s.log } t .idle
      | some r => setPc { s with pos := r.offset } t (.getSought id r)
  | .getSought id r =>                                     -- `binary_cache.hpp:68`, then unlock
      let d := (s.file.drop s.pos).take r.size
      setPc { s with pos := s.pos + d.length, lock := none, log := .get id (.ok d) :: s.log } t .idle
  | .putLocked d => setPc { s with pos := s.file.length } t (.putSought d)   -- `binary_cache.hpp:81`
  | .putSought d => setPc (osWrite s d w) t (.putWritten d)                  -- `binary_cache.hpp:82`
  | .putWritten d =>                                       -- `binary_cache.hpp:85-88`, then unlock
      let id := s.records.length
      match s.records.getLast? with
      | none => s
      | some b => setPc { s with
          records := s.records ++ [⟨b.offset + b.size, d.length⟩]
          lock := none
          log := .put id d :: s.log } t .idle

/-- A schedule: which thread runs, which call it makes if idle, how much the OS writes if it writes. -/
abbrev Schedule := List (Nat × Op × Nat)

def run (s : Sys) : Schedule → Sys
  | [] => s
  | (t, op, w) :: sch => run (step s t op w) sch

end Verif.BinaryCache
