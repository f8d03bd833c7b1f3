import Verif.Model.Trans
import Verif.Model.Heap
/-!
`exp_backoff_then_block_lock` (locks.hfa:370-444), `fast_block_lock` (locks.hfa:446-501), and the locks that spin on a flag inside of another
lock: `spin_queue_lock`, `mcs_block_spin_lock` and `block_spin_lock` (locks.hfa:667-797). Each atomic instruction and each critical section
under a `__spinlock_t` is one step. A thread that has put itself on a list of blocked threads counts as parked from then on (an `unpark`
that comes before the `park` makes the `park` return at once, C50).
-/
namespace Verif.HybridLock
open Verif

/-! ## exp_backoff_then_block_lock -/

inductive EPc where
  | idle
  /-- in the back-off loop with the given value of `spin`, before the compare-and-exchange (locks.hfa:420-427) -/
  | spin (n : Nat)
  /-- before `try_lock_contention` (locks.hfa:429, 431) -/
  | exch
  /-- before the critical section of `block` (locks.hfa:403-405) -/
  | block
  /-- on the list of blocked threads, parked (locks.hfa:409-411) -/
  | parked
  | has
  /-- in `unlock`, before the critical section (locks.hfa:436) -/
  | pop
  /-- in `unlock`, before `unpark` of a thread (locks.hfa:439) -/
  | unpark (u : Nat)
  deriving DecidableEq, Repr

structure EState where
  val : Nat
  blocked : List Nat
  pc : Nat → EPc

inductive EAct where
  | lock (t : Nat)
  | tryLock (t : Nat)
  | go (t : Nat)
  | unlock (t : Nat)
  deriving Repr

/-- locks.hfa:383-387 -/
def estart : EState := { val := 0, blocked := [], pc := fun _ => .idle }

/-- One step of `exp_backoff_then_block_lock`. -/
def enext (s : EState) : EAct → Option EState
  -- locks.hfa:415-417
  | .lock t => if s.pc t = .idle then some { s with pc := upd s.pc t (.spin 4) } else none
  -- locks.hfa:397
  | .tryLock t => if s.pc t = .idle then (if s.val = 0 then some { s with val := 1, pc := upd s.pc t .has } else some s) else none
  | .go t =>
    match s.pc t with
    -- locks.hfa:420-429
    | .spin n =>
      if s.val = 0 then some { s with val := 1, pc := upd s.pc t .has }
      else if s.val = 2 then some { s with pc := upd s.pc t .block }
      else if 1024 ≤ n then some { s with pc := upd s.pc t .exch }
      else some { s with pc := upd s.pc t (.spin (n + n)) }
    -- locks.hfa:399-401
    | .exch => some { s with val := 2, pc := upd s.pc t (if s.val = 0 then .has else .block) }
    -- locks.hfa:403-413
    | .block =>
      if s.val ≠ 2 then some { s with pc := upd s.pc t .exch }
      else some { s with blocked := s.blocked ++ [t], pc := upd s.pc t .parked }
    -- locks.hfa:436-438; `unpark` of a null pointer does nothing (kernel.cfa:557)
    | .pop =>
      match s.blocked with
      | [] => some { s with pc := upd s.pc t .idle }
      | u :: l => some { s with blocked := l, pc := upd s.pc t (.unpark u) }
    -- locks.hfa:439
    | .unpark u => some { s with pc := upd (upd s.pc t .idle) u .exch }
    | _ => none
  -- locks.hfa:435
  | .unlock t =>
    if s.pc t = .has then some { s with val := 0, pc := upd s.pc t (if s.val = 1 then .idle else .pop) } else none

/-! ## fast_block_lock -/

inductive FPc where
  | run
  /-- parked in `lock` (locks.hfa:479) -/
  | locking
  | has
  /-- in `wait` of a condition variable, on its list, before `on_wait` -/
  | preWait
  /-- in `wait`, parked -/
  | waiting
  deriving DecidableEq, Repr

structure FState where
  held : Bool
  blocked : List Nat
  cond : List Nat
  pc : Nat → FPc
  /-- for the properties: the threads in the order in which they were put on the list of blocked threads, and left it with the lock -/
  arrived : List Nat
  served : List Nat

/-- locks.hfa:464-468 -/
def fstart : FState := { held := false, blocked := [], cond := [], pc := fun _ => .run, arrived := [], served := [] }

/-- locks.hfa:486-493 (`unlock`) -/
def release (s : FState) : FState :=
  match s.blocked with
  | [] => { s with held := false }
  | u :: l => { s with blocked := l, held := true, pc := upd s.pc u .has, served := s.served ++ [u] }

inductive FAct where
  | lock (t : Nat)
  | unlock (t : Nat)
  | wait (t : Nat)
  | onWait (t : Nat)
  | notifyOne (t : Nat)
  | timeout (t : Nat)
  deriving Repr

/-- One step of `fast_block_lock` with a condition variable. -/
def fnext (s : FState) : FAct → Option FState
  -- locks.hfa:474-484
  | .lock t =>
    if s.pc t = .run then
      if s.held then some { s with blocked := s.blocked ++ [t], pc := upd s.pc t .locking, arrived := s.arrived ++ [t] }
      else some { s with held := true, pc := upd s.pc t .has }
    else none
  | .unlock t => if s.pc t = .has then some (release { s with pc := upd s.pc t .run }) else none
  -- locks.cfa:396-398: onto the list of the condition variable
  | .wait t => if s.pc t = .has then some { s with cond := s.cond ++ [t], pc := upd s.pc t .preWait } else none
  -- locks.hfa:68-73 (`DEFAULT_ON_WAIT`), 500
  | .onWait t => if s.pc t = .preWait then some (release { s with pc := upd s.pc t .waiting }) else none
  -- locks.cfa:333-353, locks.hfa:495-499 (`on_notify`)
  | .notifyOne _ =>
    match s.cond with
    | [] => some s
    | u :: c => some { s with cond := c, blocked := s.blocked ++ [u], arrived := s.arrived ++ [u] }
  -- locks.cfa:260-281, locks.hfa:495-499
  | .timeout t =>
    if s.pc t = .waiting ∧ t ∈ s.cond then
      some { s with cond := s.cond.erase t, blocked := s.blocked ++ [t], arrived := s.arrived ++ [t] }
    else none

/-! ## Locks that spin on a flag inside of another lock -/

inductive SPc where
  | idle
  /-- in `lock` of the inner lock -/
  | inner
  /-- has the inner lock, before the load of the flag (locks.hfa:694, 734, 773) -/
  | spin
  /-- saw the flag false, before the store (locks.hfa:695, 735, 774) -/
  | set
  /-- has the lock, before `unlock` of the inner lock (locks.hfa:696, 736, 775) -/
  | hasInner
  | has
  deriving DecidableEq, Repr

structure SState where
  held : Bool
  /-- the thread that has the inner lock; the inner lock gives mutual exclusion (C38 for `mcs_lock` and `mcs_spin_lock`, C40 for
      `fast_block_lock`) -/
  inner : Option Nat
  pc : Nat → SPc

inductive SAct where
  | lock (t : Nat)
  | go (t : Nat)
  | unlock (t : Nat)
  deriving Repr

/-- locks.hfa:682-685, 722-725, 762-765 -/
def sstart : SState := { held := false, inner := none, pc := fun _ => .idle }

/-- One step. -/
def snext (s : SState) : SAct → Option SState
  -- locks.hfa:691, 731, 771
  | .lock t => if s.pc t = .idle then some { s with pc := upd s.pc t .inner } else none
  | .go t =>
    match s.pc t with
    -- locks.hfa:693, 733, 772
    | .inner => if s.inner = none then some { s with inner := some t, pc := upd s.pc t .spin } else none
    -- locks.hfa:694, 734, 773
    | .spin => if s.held then some s else some { s with pc := upd s.pc t .set }
    -- locks.hfa:695, 735, 774
    | .set => some { s with held := true, pc := upd s.pc t .hasInner }
    -- locks.hfa:696, 736, 775
    | .hasInner => some { s with inner := none, pc := upd s.pc t .has }
    | _ => none
  -- locks.hfa:699-701, 739-741, 778-780
  | .unlock t => if s.pc t = .has then some { s with held := false, pc := upd s.pc t .idle } else none

end Verif.HybridLock
