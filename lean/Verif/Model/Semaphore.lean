import Verif.Model.Trans
import Verif.Model.Heap
/-!
Counting semaphores (locks.cfa:586-659, locks.hfa:84-114). Every operation is one critical section under the spin lock of the semaphore,
so it is one step; `V` unparks after leaving it, which is a second step. Parking is modelled by the state of the thread: a thread in
state `blocked` runs again when it is unparked (Model/Park.lean models the kernel's side). Threads and semaphores are numbers.
-/
namespace Verif.Semaphore
open Verif

inductive Pc where
  /-- outside of the operations -/
  | run
  /-- in `P` on semaphore `k`, queued and parked -/
  | blocked (k : Nat)
  /-- in `V`, about to unpark `u` (locks.cfa:648) -/
  | waking (u : Nat)
  deriving DecidableEq, Repr

structure State where
  count : Nat → Int
  queue : Nat → List Nat
  pc : Nat → Pc
  /-- for the properties: permits added by `V`, granted to `P` -/
  added : Nat → Nat
  granted : Nat → Nat
  /-- for the properties: threads that had to wait, threads released, in order -/
  waited : Nat → List Nat
  released : Nat → List Nat

/-- locks.cfa:589-593 (constructors): the initial counts, no waiting threads. -/
def start (init : Nat → Int) : State :=
  { count := init, queue := fun _ => [], pc := fun _ => .run, added := fun _ => 0, granted := fun _ => 0, waited := fun _ => [],
    released := fun _ => [] }

inductive Act where
  | P (t k : Nat)
  | tryP (t k : Nat)
  | V (t k : Nat)
  | Vn (t k n : Nat)
  | PV (t k l : Nat)
  | unpark (t : Nat)
  deriving Repr

/-- `append( waiting$, active_thread() )` and `park` (locks.cfa:599-601, 620-622). -/
def wait (s : State) (t k : Nat) : State :=
  { s with queue := upd s.queue k (s.queue k ++ [t]), pc := upd s.pc t (.blocked k), waited := upd s.waited k (s.waited k ++ [t]) }

/-- locks.cfa:597-605: the body of `P` after decrementing, and of `P( sem, lock )` from line 619 on. -/
def block (s : State) (t k : Nat) : State :=
  if s.count k < 0 then wait s t k else { s with granted := upd s.granted k (s.granted k + 1) }

/-- `pop_head( waiting$ )`: the first thread, which has now got its permit. -/
def pop (s : State) (k : Nat) : State × Option Nat :=
  match s.queue k with
  | [] => (s, none)
  | u :: q => ({ s with queue := upd s.queue k q, granted := upd s.granted k (s.granted k + 1), released := upd s.released k (s.released k ++ [u]) }, some u)

/-- unpark of a popped thread (kernel.cfa:556-565: nothing for the null pointer). -/
def unpark (s : State) (u : Option Nat) : State :=
  match u with
  | none => s
  | some u => { s with pc := upd s.pc u .run }

/-- locks.cfa:656: the loop of `V( sem, count )`, `n` iterations left. -/
def popLoop (s : State) (k : Nat) : Nat → State
  | 0 => s
  | n + 1 => let (s, u) := pop s k; popLoop (unpark s u) k n

/-- locks.cfa:654: `max( (size_t)-count$, count )`. -/
def release (count : Int) (n : Nat) : Nat := max ((-count) % 2 ^ 64).toNat n

/-- locks.cfa:640-646: the critical section of `V`. -/
def vBody (s : State) (k : Nat) : State × Option Nat :=
  let s := { s with count := upd s.count k (s.count k + 1), added := upd s.added k (s.added k + 1) }
  if s.count k ≤ 0 then pop s k else (s, none)

/-- One step of the operations (locks.cfa:595-659). In `P( sem, lock )` the nested `V( lock )`, which unparks while the spin lock of
    `sem` is held, is part of the step; `P( sem, sem )` does not change the count (lines 610-613). -/
def next (s : State) : Act → Option State
  | .P t k =>
    if s.pc t = .run then some (block { s with count := upd s.count k (s.count k - 1) } t k) else none
  | .tryP t k =>
    if s.pc t = .run then
      if s.count k ≤ 0 then some s
      else some { s with count := upd s.count k (s.count k - 1), granted := upd s.granted k (s.granted k + 1) }
    else none
  | .V t k =>
    if s.pc t = .run then
      match vBody s k with
      | (s, none) => some s
      | (s, some u) => some { s with pc := upd s.pc t (.waking u) }
    else none
  | .Vn t k n =>
    if s.pc t = .run then
      some (popLoop { s with count := upd s.count k (s.count k + n), added := upd s.added k (s.added k + n) } k (release (s.count k) n))
    else none
  | .PV t k l =>
    if s.pc t = .run then
      if k = l then
        -- the V and the P of the same semaphore, without changing the count
        let s := { s with added := upd s.added k (s.added k + 1) }
        let s := if s.count k < 0 then let (s, u) := pop s k; unpark s u else s
        some (block s t k)
      else
        let (s, u) := vBody s l
        let s := unpark s u
        some (block { s with count := upd s.count k (s.count k - 1) } t k)
    else none
  | .unpark t =>
    match s.pc t with
    | .waking u => some { s with pc := upd (upd s.pc u .run) t .run }
    | _ => none

/-! The spin locks of `P( sem, lock )` in detail, for two threads that use two semaphores in opposite order: `P( a, b )` by thread 0 and
`P( b, a )` by thread 1. -/

/-- Owners of the spin locks of `a` and `b`, and the progress of the two threads. -/
structure Spin where
  a : Option Bool
  b : Option Bool
  pc : Bool → Nat

/-- Thread `x` (false for thread 0) takes the spin lock of its first semaphore (locks.cfa:609), then that of its second one inside `V`
    (locks.cfa:615, 642), and gives back both (locks.cfa:647, 621). -/
def spinNext (s : Spin) (x : Bool) : Option Spin :=
  let first := if x then s.b else s.a
  let second := if x then s.a else s.b
  let put (s : Spin) (i : Bool) (o : Option Bool) : Spin := if i == x then { s with a := o } else { s with b := o }
  let go (s : Spin) (n : Nat) : Spin := { s with pc := fun y => if y = x then n else s.pc y }
  match s.pc x with
  | 0 => if first = none then some (go (put s false (some x)) 1) else none
  | 1 => if second = none then some (go (put s true (some x)) 2) else none
  | 2 => some (go (put s true none) 3)
  | 3 => some (go (put s false none) 4)
  | _ => none

def spinStart : Spin := { a := none, b := none, pc := fun _ => 0 }

/-- locks.hfa:103-111 (`front`): in a debug build the test for an empty queue is inverted. -/
def front (debug : Bool) (shadow : Nat → Nat) (queue : List Nat) : Outcome Nat :=
  if debug && !queue.isEmpty then .abort
  else match queue with
    | [] => .undef
    | u :: _ => .ret (shadow u)

/-- locks.hfa:114 (`empty`, documented as "empty waiting queue"). -/
def isEmpty (s : State) (k : Nat) : Bool := s.count k = 0

end Verif.Semaphore
