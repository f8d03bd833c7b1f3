import Verif.Model.Trans
import Verif.Model.Heap
/-!
The futex-based locks `futex_mutex` (locks.hfa:238-299) and `go_mutex` (locks.hfa:301-368). Each atomic instruction, plain read of `val` and
system call is one step. The kernel: FUTEX_WAIT compares and sleeps in one step, FUTEX_WAKE wakes some sleeping thread, and a sleeping thread
may be woken spuriously (futex(2)). `Pause` and `sched_yield` have no effect on the state.
-/
namespace Verif.Futex
open Verif

/-- The word of the lock and the threads that sleep on it. -/
structure State (Pc : Type) where
  val : Nat
  sleepers : List Nat
  pc : Nat → Pc

/-! ## futex_mutex -/

/-- Where a thread is in `lock` and `unlock` of `futex_mutex`. -/
inductive FPc where
  | idle
  /-- in the loop with the given value of `spin`, before the compare-and-exchange (locks.hfa:271-277) -/
  | spin (n : Nat)
  /-- before `internal_exchange` (locks.hfa:280, 285) -/
  | exch
  /-- before FUTEX_WAIT (locks.hfa:284) -/
  | wait
  /-- asleep in FUTEX_WAIT -/
  | asleep
  /-- past `lock` -/
  | has
  /-- in `unlock`, before FUTEX_WAKE (locks.hfa:294) -/
  | wake
  deriving DecidableEq, Repr

inductive FAct where
  | lock (t : Nat)
  /-- the next instruction of a thread in `lock` -/
  | go (t : Nat)
  | unlock (t : Nat)
  /-- FUTEX_WAKE by `t`, which wakes the thread at a position of the list -/
  | wake (t i : Nat)
  | spurious (t : Nat)
  deriving Repr

/-- locks.hfa:257 -/
def fstart : State FPc := { val := 0, sleepers := [], pc := fun _ => .idle }

/-- One step of `futex_mutex`. -/
def fnext (s : State FPc) : FAct → Option (State FPc)
  -- locks.hfa:271: `spin` starts at 4
  | .lock t => if s.pc t = .idle then some { s with pc := upd s.pc t (.spin 4) } else none
  | .go t =>
    match s.pc t with
    -- locks.hfa:271-277
    | .spin n =>
      if s.val = 0 then some { s with val := 1, pc := upd s.pc t .has }
      else if s.val = 2 then some { s with pc := upd s.pc t .wait }
      else if n + n < 1024 then some { s with pc := upd s.pc t (.spin (n + n)) }
      else some { s with pc := upd s.pc t .exch }
    -- locks.hfa:280, 283, 285
    | .exch => some { s with val := 2, pc := upd s.pc t (if s.val = 0 then .has else .wait) }
    -- locks.hfa:284
    | .wait =>
      if s.val = 2 then some { s with sleepers := s.sleepers ++ [t], pc := upd s.pc t .asleep }
      else some { s with pc := upd s.pc t .exch }
    | _ => none
  -- locks.hfa:291
  | .unlock t =>
    if s.pc t = .has then some { s with val := 0, pc := upd s.pc t (if s.val = 1 then .idle else .wake) } else none
  -- locks.hfa:294
  | .wake t i =>
    if s.pc t = .wake then
      if s.sleepers = [] then some { s with pc := upd s.pc t .idle }
      else match s.sleepers[i]? with
        | some u => some { s with sleepers := s.sleepers.erase u, pc := upd (upd s.pc t .idle) u .exch }
        | none => none
    else none
  | .spurious t =>
    if s.pc t = .asleep then some { s with sleepers := s.sleepers.erase t, pc := upd s.pc t .exch } else none

/-! ## go_mutex -/

/-- Where a thread is in `lock` and `unlock` of `go_mutex`; `b`: `init_state` is 2 (otherwise it is 1). -/
inductive GPc where
  | idle
  /-- before the speculative exchange (locks.hfa:332) -/
  | grab
  /-- in the spinning phase: before the test of `val`, the given number of rounds to go (locks.hfa:336-348) -/
  | test (b : Bool) (k : Nat)
  /-- `val` was 0: before the compare-and-exchange (locks.hfa:339, 346) -/
  | cas (b : Bool) (k : Nat)
  /-- before `internal_exchange( this, 2 )` (locks.hfa:351) -/
  | exch (b : Bool)
  /-- before FUTEX_WAIT (locks.hfa:354) -/
  | wait
  | asleep
  | has
  /-- in `unlock`, before FUTEX_WAKE -/
  | wake
  deriving DecidableEq, Repr

inductive GAct where
  | lock (t : Nat)
  | go (t : Nat)
  | unlock (t : Nat)
  | wake (t i : Nat)
  | spurious (t : Nat)
  deriving Repr

/-- The value of `init_state`. -/
def lockVal (b : Bool) : Nat := if b then 2 else 1

/-- locks.hfa:315 -/
def gstart : State GPc := { val := 0, sleepers := [], pc := fun _ => .idle }

/-- One step of `go_mutex`. The loop of four rounds and the test after it are counted as five rounds. -/
def gnext (s : State GPc) : GAct → Option (State GPc)
  | .lock t => if s.pc t = .idle then some { s with pc := upd s.pc t .grab } else none
  | .go t =>
    match s.pc t with
    -- locks.hfa:332-334
    | .grab => some { s with val := 1, pc := upd s.pc t (if s.val = 0 then .has else .test (s.val == 2) 4) }
    -- locks.hfa:337, 344
    | .test b k =>
      if s.val = 0 then some { s with pc := upd s.pc t (.cas b k) }
      else match k with
        | k + 1 => some { s with pc := upd s.pc t (.test b k) }
        | 0 => some { s with pc := upd s.pc t (.exch b) }
    -- locks.hfa:339, 346
    | .cas b k =>
      if s.val = 0 then some { s with val := lockVal b, pc := upd s.pc t .has }
      else some { s with pc := upd s.pc t (.test b k) }
    -- locks.hfa:351-352
    | .exch _ => some { s with val := 2, pc := upd s.pc t (if s.val = 0 then .has else .wait) }
    -- locks.hfa:353-354
    | .wait =>
      if s.val = 2 then some { s with sleepers := s.sleepers ++ [t], pc := upd s.pc t .asleep }
      else some { s with pc := upd s.pc t (.test true 4) }
    | _ => none
  -- locks.hfa:360
  | .unlock t =>
    if s.pc t = .has then some { s with val := 0, pc := upd s.pc t (if s.val = 1 then .idle else .wake) } else none
  -- locks.hfa:363
  | .wake t i =>
    if s.pc t = .wake then
      if s.sleepers = [] then some { s with pc := upd s.pc t .idle }
      else match s.sleepers[i]? with
        | some u => some { s with sleepers := s.sleepers.erase u, pc := upd (upd s.pc t .idle) u (.test true 4) }
        | none => none
    else none
  | .spurious t =>
    if s.pc t = .asleep then some { s with sleepers := s.sleepers.erase t, pc := upd s.pc t (.test true 4) } else none

end Verif.Futex
