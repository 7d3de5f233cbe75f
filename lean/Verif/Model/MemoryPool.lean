/-
Threads that reserve and return ingested memory.

Source: crates/modelardb_server/src/storage/types.rs:57-128

The counter is protected by a mutex and requests wait for a condition variable. What a thread does between acquiring and
releasing the mutex is one step. `Condvar::wait` releases the mutex and starts waiting in one step. `notify_all` is called after the mutex
is released. The counter is an unbounded integer. Sizes of 2^63 bytes or more panic in the code and are not modelled.
-/
namespace ModelarDB.Model.MemoryPool

/-- What a thread that requests memory is doing. -/
inductive Phase where
  /-- It is about to acquire the mutex and check if there is enough memory. -/
  | ready
  /-- It waits for the condition variable. -/
  | waiting
  /-- It has the memory. -/
  | holding
deriving DecidableEq, Repr

/-- A thread and the amount of memory it requests. -/
structure Request where
  size : Nat
  phase : Phase
deriving DecidableEq, Repr

/-- The counter, the requests of all threads, how many threads have changed the counter and not yet called `notify_all`, and,
only to state properties, the amount that is configured. -/
structure Pool where
  remaining : Int
  requests : List Request
  notifying : Nat
  budget : Int
deriving DecidableEq, Repr

/-- `MemoryPool::new`, types.rs:62-88. -/
def Pool.new (size : Nat) : Pool := ⟨size, [], 0, size⟩

inductive Op where
  /-- `wait_for_ingested_memory` is called. -/
  | request (size : Nat)
  /-- Thread `i` acquires the mutex, types.rs:112-128. -/
  | run (i : Nat)
  /-- Thread `i` wakes up although it was not notified. -/
  | spurious (i : Nat)
  /-- `adjust_ingested_memory` is called with the memory of request `i`, types.rs:90-98. -/
  | release (i : Nat)
  /-- `adjust_ingested_memory` is called because the configuration is changed, types.rs:90-98. -/
  | adjust (change : Int)
  /-- `notify_all`, types.rs:97. -/
  | notify
deriving DecidableEq, Repr

/-- Waking up a thread. -/
def wake (r : Request) : Request := if r.phase = .waiting then { r with phase := .ready } else r

/-- One step; `none` if it cannot be taken. -/
def Pool.step (p : Pool) : Op → Option Pool
  | .request size => some { p with requests := p.requests ++ [⟨size, .ready⟩] }
  | .run i =>
    match p.requests[i]? with
    | some ⟨size, .ready⟩ =>
      if p.remaining < size then some { p with requests := p.requests.set i ⟨size, .waiting⟩ }
      else some { p with remaining := p.remaining - size, requests := p.requests.set i ⟨size, .holding⟩ }
    | _ => none
  | .spurious i =>
    match p.requests[i]? with
    | some ⟨size, .waiting⟩ => some { p with requests := p.requests.set i ⟨size, .ready⟩ }
    | _ => none
  | .release i =>
    match p.requests[i]? with
    | some ⟨size, .holding⟩ =>
      some { p with remaining := p.remaining + size, requests := p.requests.eraseIdx i, notifying := p.notifying + 1 }
    | _ => none
  | .adjust change =>
    some { p with remaining := p.remaining + change, notifying := p.notifying + 1, budget := p.budget + change }
  | .notify =>
    if 0 < p.notifying then some { p with requests := p.requests.map wake, notifying := p.notifying - 1 } else none

/-- A sequence of steps. -/
def Pool.run (p : Pool) : List Op → Option Pool
  | [] => some p
  | op :: ops => (p.step op).bind fun p => p.run ops

end ModelarDB.Model.MemoryPool
