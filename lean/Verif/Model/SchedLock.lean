import Verif.Model.Heap
import Verif.Model.Trans
/-!
The reader-writer lock of the scheduler (libcfa/src/concurrency/kernel/private.hfa:145-300, kernel/cluster.cfa:70-192): a processor reads
while it uses the ready queues, and writes while it adds or removes ready queues, processors or clusters.

Any number of kernel threads, numbered from 1; 0 is the null pointer. The local lock of a thread, `kernelTLS().sched_lock`, is in its
thread-local storage, so a pointer to it is the number of the thread. Each access to a shared variable is a step; memory is sequentially
consistent. A thread that spins has no step. A kernel thread registers once (startup.cfa:738-771 for processors, preemption.cfa:607, 675 for
the alarm thread), and its storage disappears when it ends, some time after it has unregistered. Not modelled: a writer that is not
registered (start-up, before there are other threads), and the `verify` checks.
-/
namespace Verif.SchedLock
open Verif

/-- Where a thread is; `c` is its identifier once it is registered. -/
inductive PC where
  /-- not registered -/
  | out
  /-- cluster.cfa:97, the head of the search loop -/
  | scan (i s : Nat)
  /-- cluster.cfa:103, the exchange -/
  | cas (i s : Nat)
  /-- cluster.cfa:110 -/
  | chk
  /-- cluster.cfa:113 -/
  | faa
  /-- cluster.cfa:117 -/
  | fill (n : Nat)
  /-- cluster.cfa:118-124 -/
  | publish (n : Nat)
  /-- registered, outside of the lock -/
  | idle (c : Nat)
  /-- private.hfa:224 -/
  | rdSpin (c : Nat)
  /-- private.hfa:233 -/
  | rdAcq (c : Nat)
  /-- `ready_schedule_lock` has returned -/
  | reading (c : Nat)
  /-- cluster.cfa:150 -/
  | wAcq (c : Nat)
  /-- cluster.cfa:161 -/
  | wSize (c : Nat)
  /-- cluster.cfa:162-163, the head of the loop and the read of the cell -/
  | wLoop (c i s : Nat)
  /-- cluster.cfa:164 -/
  | wLock (c i s p : Nat)
  /-- `ready_mutate_lock` has returned `s` -/
  | writing (c s : Nat)
  /-- cluster.cfa:180-181 -/
  | rel (c i s : Nat)
  /-- cluster.cfa:182 -/
  | relStore (c i s p : Nat)
  /-- cluster.cfa:187 -/
  | relW (c : Nat)
  /-- unregistered; the storage of the thread may be gone -/
  | gone
deriving DecidableEq

structure State where
  /-- number of cells handed out -/
  alloc : Nat
  /-- number of cells a writer looks at -/
  ready : Nat
  writeLock : Bool
  /-- the cells: whose local lock, or 0 -/
  data : Nat → Nat
  /-- the local locks -/
  lock : Nat → Bool
  pc : Nat → PC
  /-- the program has been aborted -/
  aborted : Bool
  /-- a cell outside of `data` was accessed -/
  outside : Bool
  /-- the local lock of a thread that is gone was accessed -/
  dangling : Bool

/-- cluster.cfa:73-78. The local locks are in storage that is 0 at first. -/
def start : State := ⟨0, 0, false, fun _ => 0, fun _ => false, fun _ => .out, false, false, false⟩

inductive Act where
  /-- call of `register_proc_id` -/
  | register (t : Nat)
  /-- call of `ready_schedule_lock` -/
  | readLock (t : Nat)
  /-- call of `ready_schedule_unlock` -/
  | readUnlock (t : Nat)
  /-- call of `ready_mutate_lock` -/
  | writeLock (t : Nat)
  /-- call of `ready_mutate_unlock` with what `ready_mutate_lock` returned -/
  | writeUnlock (t : Nat)
  /-- call of `unregister_proc_id` with what `register_proc_id` returned -/
  | unregister (t : Nat)
  /-- the next step of the call that the thread is in -/
  | go (t : Nat)
deriving DecidableEq

/-- A step of a program that has not been aborted. `max` is the number of cells. -/
def step (max : Nat) (s : State) : Act → Option State
  -- cluster.cfa:89-93
  | .register t => if t ≠ 0 ∧ s.pc t = .out then some { s with pc := upd s.pc t (.scan 0 s.ready) } else none
  | .readLock t => match s.pc t with
    | .idle c => some { s with pc := upd s.pc t (.rdSpin c) }
    | _ => none
  -- private.hfa:238-251
  | .readUnlock t => match s.pc t with
    | .reading c => some { s with lock := upd s.lock t false, pc := upd s.pc t (.idle c) }
    | _ => none
  | .writeLock t => match s.pc t with
    | .idle c => some { s with pc := upd s.pc t (.wAcq c) }
    | _ => none
  | .writeUnlock t => match s.pc t with
    | .writing c n => some { s with pc := upd s.pc t (.rel c 0 n) }
    | _ => none
  -- cluster.cfa:132-140
  | .unregister t => match s.pc t with
    | .idle c => some { s with data := upd s.data c 0, pc := upd s.pc t .gone }
    | _ => none
  | .go t => match s.pc t with
    -- cluster.cfa:96-107
    | .scan i n =>
      if i < n then some { s with outside := s.outside || decide (max ≤ i), pc := upd s.pc t (if s.data i = 0 then .cas i n else .scan (i + 1) n) }
      else some { s with pc := upd s.pc t .chk }
    | .cas i n =>
      if s.data i = 0 then some { s with data := upd s.data i t, pc := upd s.pc t (.idle i) }
      else some { s with pc := upd s.pc t (.scan (i + 1) n) }
    -- cluster.cfa:110
    | .chk => if max ≤ s.alloc then some { s with aborted := true } else some { s with pc := upd s.pc t .faa }
    -- cluster.cfa:113-114
    | .faa =>
      if max ≤ s.alloc then some { s with alloc := s.alloc + 1, aborted := true }
      else some { s with alloc := s.alloc + 1, pc := upd s.pc t (.fill s.alloc) }
    -- cluster.cfa:117
    | .fill n => some { s with outside := s.outside || decide (max ≤ n), data := upd s.data n t, pc := upd s.pc t (.publish n) }
    -- cluster.cfa:118-124: the thread spins until the cells before are published
    | .publish n => if s.ready = n then some { s with ready := n + 1, pc := upd s.pc t (.idle n) } else none
    -- private.hfa:224-225
    | .rdSpin c => if s.writeLock then none else some { s with pc := upd s.pc t (.rdAcq c) }
    -- private.hfa:233, 165-170: `__atomic_acquire` of the thread's own lock
    | .rdAcq c => if s.lock t then none else some { s with lock := upd s.lock t true, pc := upd s.pc t (.reading c) }
    -- cluster.cfa:150
    | .wAcq c => if s.writeLock then none else some { s with writeLock := true, pc := upd s.pc t (.wSize c) }
    -- cluster.cfa:161
    | .wSize c => some { s with pc := upd s.pc t (.wLoop c 0 s.ready) }
    -- cluster.cfa:162-164
    | .wLoop c i n =>
      if i < n then some { s with
        outside := s.outside || decide (max ≤ i)
        pc := upd s.pc t (if s.data i = 0 then .wLoop c (i + 1) n else .wLock c i n (s.data i)) }
      else some { s with pc := upd s.pc t (.writing c n) }
    -- cluster.cfa:164: `__atomic_acquire( llock )`
    | .wLock c i n p =>
      if s.lock p then none
      else some { s with
        lock := upd s.lock p true
        dangling := s.dangling || decide (s.pc p = .gone)
        pc := upd s.pc t (.wLoop c (i + 1) n) }
    -- cluster.cfa:180-182
    | .rel c i n =>
      if i < n then some { s with
        outside := s.outside || decide (max ≤ i)
        pc := upd s.pc t (if s.data i = 0 then .rel c (i + 1) n else .relStore c i n (s.data i)) }
      else some { s with pc := upd s.pc t (.relW c) }
    | .relStore c i n p => some { s with
        lock := upd s.lock p false
        dangling := s.dangling || decide (s.pc p = .gone)
        pc := upd s.pc t (.rel c (i + 1) n) }
    -- cluster.cfa:187
    | .relW c => some { s with writeLock := false, pc := upd s.pc t (.idle c) }
    | _ => none

/-- After `abort` there are no steps. -/
def next (max : Nat) (s : State) (a : Act) : Option State := if s.aborted then none else step max s a

end Verif.SchedLock
