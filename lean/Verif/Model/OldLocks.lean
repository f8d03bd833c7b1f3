import Verif.Model.Heap

/-!
The mutex, recursive mutex and condition lock of concurrency/mutex.cfa.  Every operation is one critical
section under the spin lock of the object, so it is one step.  Parking is modelled by the state of the
thread: a thread that is queued and parked runs again when it is unparked (Model/Park.lean models the
kernel's side, where an unpark before the park is not lost).  Threads are numbers.
-/
namespace Verif.OldLocks
open Verif

/-! ## `mutex_lock` with a `cond_lock` -/

inductive Pc where
  /-- outside of the operations, not holding the lock -/
  | out
  /-- in `lock`, queued and parked (mutex.cfa 42-44) -/
  | parked
  /-- holds the lock: `lock`, `try_lock` or `wait` returned -/
  | inside
  /-- in `wait`, queued and parked (mutex.cfa 161-163, 169-172); the flag says whether `wait` has a lock -/
  | waiting (l : Bool)
  /-- in `wait`, awake and before `lock(l)` (mutex.cfa 173) -/
  | relock
  deriving DecidableEq, Repr

/-- One lock and one condition lock (mutex.hfa 33-42, 77-83). -/
structure State where
  locked : Bool
  blocked : List Nat
  conds : List Nat
  pc : Nat → Pc
  /-- for the properties: the threads that asked for the lock (except a `try_lock` that fails), in order -/
  asked : List Nat
  /-- for the properties: the threads that got it, in order -/
  got : List Nat
  /-- for the properties: the threads that waited for the condition, in order -/
  waited : List Nat
  /-- for the properties: the threads that were notified, in order -/
  woken : List Nat

/-- The constructors (mutex.cfa 29-33, 133-135). -/
def init : State := ⟨false, [], [], fun _ => .out, [], [], [], []⟩

/-- `lock` of a mutex (mutex.cfa 39-50). -/
def lock (s : State) (t : Nat) : State :=
  if s.locked then
    { s with blocked := s.blocked ++ [t], pc := upd s.pc t .parked, asked := s.asked ++ [t] }
  else
    { s with locked := true, pc := upd s.pc t .inside, asked := s.asked ++ [t], got := s.got ++ [t] }

/-- `try_lock` of a mutex (mutex.cfa 52-61). -/
def tryLock (s : State) (t : Nat) : State × Bool :=
  if !s.locked then
    ({ s with locked := true, pc := upd s.pc t .inside, asked := s.asked ++ [t], got := s.got ++ [t] }, true)
  else (s, false)

/-- The body of `unlock` of a mutex (mutex.cfa 63-70): `unpark` does nothing for the null pointer. -/
def release (s : State) : State :=
  let s := { s with locked := !s.blocked.isEmpty }
  match s.blocked with
  | [] => s
  | u :: q => { s with blocked := q, pc := upd s.pc u .inside, got := s.got ++ [u] }

/-- `unlock` by thread `t` (mutex.cfa 63-70). -/
def unlock (s : State) (t : Nat) : State :=
  release { s with pc := upd s.pc t .out }

/-- `wait` with no lock (mutex.cfa 159-164). -/
def waitOnly (s : State) (t : Nat) : State :=
  { s with conds := s.conds ++ [t], pc := upd s.pc t (.waiting false), waited := s.waited ++ [t] }

/-- `wait` with the lock, to the `park` (mutex.cfa 167-172).  The spin lock of the condition is held over
`unlock(l)`, so no notification comes between the two; it is one step. -/
def wait (s : State) (t : Nat) : State :=
  release { s with conds := s.conds ++ [t], pc := upd s.pc t (.waiting true), waited := s.waited ++ [t] }

/-- `notify_one` (mutex.cfa 141-147). -/
def notifyOne (s : State) : State :=
  match s.conds with
  | [] => s
  | u :: q => { s with conds := q, pc := upd s.pc u (if s.pc u = .waiting true then .relock else .out)
                       woken := s.woken ++ [u] }

/-- `n` rounds of the loop of `notify_all`. -/
def notifyLoop : Nat → State → State
  | 0, s => s
  | n + 1, s => notifyLoop n (notifyOne s)

/-- `notify_all` (mutex.cfa 149-157): a round takes one thread off the queue, and the loop ends when it
is empty. -/
def notifyAll (s : State) : State := notifyLoop s.conds.length s

inductive Act where
  | lock (t : Nat)
  | tryLock (t : Nat)
  | unlock (t : Nat)
  | waitOnly (t : Nat)
  | wait (t : Nat)
  | relock (t : Nat)
  | notifyOne
  | notifyAll
  deriving Repr

/-- One step of a schedule.  An action of a thread that is not at this point of its program does nothing:
a thread locks and waits without a lock when it does not hold the lock, and unlocks and waits with the
lock when it holds it.  Any thread notifies. -/
def step (s : State) : Act → State
  | .lock t => if s.pc t = .out then lock s t else s
  | .tryLock t => if s.pc t = .out then (tryLock s t).1 else s
  | .unlock t => if s.pc t = .inside then unlock s t else s
  | .waitOnly t => if s.pc t = .out then waitOnly s t else s
  | .wait t => if s.pc t = .inside then wait s t else s
  | .relock t => if s.pc t = .relock then lock s t else s
  | .notifyOne => notifyOne s
  | .notifyAll => notifyAll s

/-- A schedule. -/
def run (s : State) (as : List Act) : State := as.foldl step s

/-! ## `recursive_mutex_lock` -/

/-- A recursive lock (mutex.hfa 52-64).  The count is not bounded here. -/
structure RState where
  owner : Option Nat
  count : Nat
  blocked : List Nat
  /-- whether the thread is parked in `lock` or in `wait` -/
  asleep : Nat → Bool
  /-- for the properties: how many calls of `lock` and `try_lock` took the lock for this thread, less
  its calls of `unlock` -/
  depth : Nat → Nat
  /-- for the properties: the threads that asked for the lock while they did not have it, and that got it -/
  asked : List Nat
  got : List Nat

/-- The constructor (mutex.cfa 74-79). -/
def rinit : RState := ⟨none, 0, [], fun _ => false, fun _ => 0, [], []⟩

/-- `lock` of a recursive mutex (mutex.cfa 85-101). -/
def rlock (s : RState) (t : Nat) : RState :=
  if s.owner = none then
    { s with owner := some t, count := 1, depth := upd s.depth t (s.depth t + 1)
             asked := s.asked ++ [t], got := s.got ++ [t] }
  else if s.owner = some t then
    { s with count := s.count + 1, depth := upd s.depth t (s.depth t + 1) }
  else { s with blocked := s.blocked ++ [t], asleep := upd s.asleep t true, asked := s.asked ++ [t] }

/-- `try_lock` of a recursive mutex (mutex.cfa 103-117). -/
def rtryLock (s : RState) (t : Nat) : RState × Bool :=
  if s.owner = none then
    ({ s with owner := some t, count := 1, depth := upd s.depth t (s.depth t + 1)
              asked := s.asked ++ [t], got := s.got ++ [t] }, true)
  else if s.owner = some t then
    ({ s with count := s.count + 1, depth := upd s.depth t (s.depth t + 1) }, true)
  else (s, false)

/-- `unlock` of a recursive mutex (mutex.cfa 119-129).  A thread that is unparked returns from its call of
`lock`. -/
def runlock (s : RState) (t : Nat) : RState :=
  let s := { s with count := s.count - 1, depth := upd s.depth t (s.depth t - 1) }
  if s.count = 0 then
    match s.blocked with
    | [] => { s with owner := none, count := 0 }
    | u :: q => { s with owner := some u, count := 1, blocked := q, asleep := upd s.asleep u false
                         depth := upd s.depth u (s.depth u + 1), got := s.got ++ [u] }
  else s

inductive RAct where
  | lock (t : Nat)
  | tryLock (t : Nat)
  | unlock (t : Nat)
  deriving Repr

/-- One step of a schedule: a parked thread does nothing, and a thread unlocks what it has locked. -/
def rstep (s : RState) : RAct → RState
  | .lock t => if s.asleep t then s else rlock s t
  | .tryLock t => if s.asleep t then s else (rtryLock s t).1
  | .unlock t => if s.asleep t ∨ s.depth t = 0 then s else runlock s t

def rrun (s : RState) (as : List RAct) : RState := as.foldl rstep s

/-- `wait( cond, l )` with a recursive lock, to the `park` (mutex.cfa 167-172): one `unlock`. -/
def rwait (s : RState) (t : Nat) : RState :=
  let s := runlock s t
  { s with asleep := upd s.asleep t true }

end Verif.OldLocks
