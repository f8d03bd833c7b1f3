import Verif.Model.Trans
import Verif.Model.Heap
/-!
`blocking_lock` (single_acquisition_lock and owner_lock, locks.cfa:57-185, locks.hfa:117-151), `simple_owner_lock` (locks.hfa:503-611) and
the condition variables on them (`cond_lock`, `pthread_cond_var`; locks.cfa:321-560). One lock, one condition variable, any number of
threads. Each critical section under the spin lock of the lock or of the condition variable is one step; threads are non-zero numbers,
0 is the null pointer. The checks `verifyf` are only compiled into the debugging version and are left out. Waits without a lock, the
use of locks in `waituntil`, and the copy of the user information are left out.
-/
namespace Verif.OwnerLock
open Verif

inductive Pc where
  /-- outside of the operations -/
  | run
  /-- parked in `lock` (locks.cfa:85, locks.hfa:544) -/
  | locking
  /-- in `wait`, on the list of the condition variable, before `on_wait` (locks.cfa:397-401) -/
  | preWait
  /-- parked in `on_wait` with the saved recursion count (locks.cfa:178) -/
  | waiting (r : Nat)
  /-- woken in `wait`, before `on_wakeup` (locks.cfa:404) -/
  | waking (r : Nat)
  deriving DecidableEq, Repr

structure State where
  owner : Nat
  count : Nat
  waitCount : Nat
  queue : List Nat
  cond : List Nat
  pc : Nat → Pc
  /-- the node of a waiting thread (`link_node`) has been set up by `on_wait` -/
  node : Nat → Bool
  /-- `signalled` of the last wait of a thread -/
  signalled : Nat → Bool
  /-- an uninitialised or dead `link_node` was used -/
  broken : Bool
  /-- for the properties: how often a thread has the lock: completed `lock` and successful `try_lock` calls minus completed `unlock` calls -/
  depth : Nat → Nat
  /-- for the properties: threads in the order in which they joined the queue, and left it with the lock -/
  arrived : List Nat
  served : List Nat
  /-- for the properties: waits begun, waits ended by a signal or time-out, and waits that returned -/
  waits : Nat → Nat
  signals : Nat → Nat
  returns : Nat → Nat

/-- locks.cfa:59-67, 325-329; locks.hfa:523-528 (constructors). -/
def start : State :=
  { owner := 0, count := 0, waitCount := 0, queue := [], cond := [], pc := fun _ => .run, node := fun _ => false, signalled := fun _ => false,
    broken := false, depth := fun _ => 0, arrived := [], served := [], waits := fun _ => 0, signals := fun _ => 0, returns := fun _ => 0 }

/-- A thread popped from the queue by `wake_one` and unparked: a thread in `lock` returns from it, a thread in `wait` goes on. -/
def wake (s : State) (u : Nat) : State :=
  match s.pc u with
  | .locking => { s with pc := upd s.pc u .run, depth := upd s.depth u 1 }
  | .waiting r => { s with pc := upd s.pc u (.waking r) }
  | _ => s

/-- locks.cfa:116-129, locks.hfa:552-564 (`pop_node`): hand the lock to the first waiting thread. (`__handle_waituntil_OR` does nothing
    for nodes that are not part of a `waituntil`.) -/
def popNode (s : State) : State :=
  match s.queue with
  | u :: q => wake { s with queue := q, waitCount := s.waitCount - 1, owner := u, count := 1, served := s.served ++ [u] } u
  | [] => { s with owner := 0, count := 0 }

/-- locks.cfa:149-163, locks.hfa:578-591 (`on_notify`). -/
def onNotify (s : State) (u : Nat) : State :=
  if s.owner ≠ 0 then
    if s.node u then { s with queue := s.queue ++ [u], waitCount := s.waitCount + 1, arrived := s.arrived ++ [u] }
    else { s with broken := true }
  else wake { s with owner := u, count := 1 } u

/-- locks.cfa:333-345 (`process_popped`) for the first thread of the list, locks.cfa:506-510. -/
def popCond (s : State) : State :=
  match s.cond with
  | [] => s
  | u :: c => onNotify { s with cond := c, signalled := upd s.signalled u true, signals := upd s.signals u (s.signals u + 1) } u

/-- locks.cfa:358-360, 518-522: the loop of `notify_all`, for a list of `n` threads. -/
def popAll (s : State) : Nat → State
  | 0 => s
  | n + 1 => popAll (popCond s) n

inductive Act where
  | lock (t : Nat)
  | tryLock (t : Nat)
  | unlock (t : Nat)
  | wait (t : Nat)
  | onWait (t : Nat)
  | wakeup (t : Nat)
  | notifyOne (t : Nat)
  | notifyAll (t : Nat)
  | timeout (t : Nat)
  deriving Repr

/-- One step; `multi` is `multi_acquisition` (true for `simple_owner_lock`). -/
def next (multi : Bool) (s : State) : Act → Option State
  -- locks.cfa:72-94, locks.hfa:533-550
  | .lock t =>
    if s.pc t = .run ∧ t ≠ 0 then
      if s.owner ≠ 0 ∧ s.owner ≠ t then
        some { s with queue := s.queue ++ [t], waitCount := s.waitCount + 1, pc := upd s.pc t .locking, arrived := s.arrived ++ [t] }
      else if s.owner = t ∧ multi then some { s with count := s.count + 1, depth := upd s.depth t (s.depth t + 1) }
      else some { s with owner := t, count := 1, depth := upd s.depth t (s.depth t + 1) }
    else none
  -- locks.cfa:96-114
  | .tryLock t =>
    if s.pc t = .run ∧ t ≠ 0 then
      if s.owner = 0 then some { s with owner := t, count := 1, depth := upd s.depth t (s.depth t + 1) }
      else if s.owner = t ∧ multi then some { s with count := s.count + 1, depth := upd s.depth t (s.depth t + 1) }
      else some s
    else none
  -- locks.cfa:131-143, locks.hfa:566-576
  | .unlock t =>
    if s.pc t = .run ∧ t ≠ 0 then
      let s := { s with count := s.count - 1, depth := upd s.depth t (s.depth t - 1) }
      some (if s.count = 0 then popNode s else s)
    else none
  -- locks.cfa:396-398, 551-554: onto the list of the condition variable
  | .wait t =>
    if s.pc t = .run ∧ t ≠ 0 then
      some { s with cond := s.cond ++ [t], pc := upd s.pc t .preWait, node := upd s.node t false, waits := upd s.waits t (s.waits t + 1) }
    else none
  -- locks.cfa:165-181, locks.hfa:593-609 (`on_wait`): give up the lock whatever its recursion count, and park
  | .onWait t =>
    if s.pc t = .preWait then
      let r := s.count
      let s := popNode s
      some { s with node := upd s.node t true, pc := upd s.pc t (.waiting r) }
    else none
  -- locks.cfa:183-185, locks.hfa:611 (`on_wakeup`)
  | .wakeup t =>
    match s.pc t with
    | .waking r => some { s with count := r, pc := upd s.pc t .run, returns := upd s.returns t (s.returns t + 1) }
    | _ => none
  -- locks.cfa:347-353, 503-513
  | .notifyOne t => if s.pc t = .run ∧ t ≠ 0 then some (popCond s) else none
  -- locks.cfa:355-363, 515-525
  | .notifyAll t => if s.pc t = .run ∧ t ≠ 0 then some (popAll s s.cond.length) else none
  -- locks.cfa:260-281, 300-313 (`timeout_handler` of a waiting thread `t`); the alarm is registered by `on_wait` just before parking
  | .timeout t =>
    match s.pc t with
    | .waiting _ =>
      if t ∈ s.cond then
        some (onNotify { s with cond := s.cond.erase t, signalled := upd s.signalled t false, signals := upd s.signals t (s.signals t + 1) } t)
      else some s
    | _ => none

end Verif.OwnerLock
