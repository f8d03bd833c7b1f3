import Verif.Model.Heap
/-!
Model of a lane of the ready queue, /repo/libcfa/src/concurrency/ready_subqueue.hfa.

Threads and the mock heads of the lanes are addresses; the anchor of a lane is the `rdy_link` of its mock head
(`mock_head`, lines 24-30). A lane is named by the address of its mock head. Null is 0. The caller holds the lane's lock
(lines 35, 65). `dbg` says whether `verify` is compiled in. The statistics counter is not modelled.
-/
namespace Verif.Lane
open Verif

/-- `MAX`, `ULLONG_MAX`. -/
def MAX : Nat := 2 ^ 64 - 1

structure St where
  /-- `rdy_link.next`, invoke.h:165-168 -/
  next : Nat → Nat
  /-- `rdy_link.ts` -/
  ts : Nat → Nat
  /-- `l.prev` of each lane: the last thread, or the mock head -/
  prev : Nat → Nat

def verify (dbg b : Bool) : Outcome Unit := if dbg && !b then .abort else .ret ()

/-- kernel/cluster.cfa:452-480 (lane constructor), thread.cfa:47-48 (thread constructor). -/
def init : St := ⟨fun _ => 0, fun _ => MAX, fun q => q⟩

/-- ready_subqueue.hfa:34-59 `push`; `now` is what `rdtsc` returns. -/
def push (dbg : Bool) (now : Nat) (s : St) (q n : Nat) : Outcome St := do
  verify dbg (s.next n == 0)
  verify dbg (s.ts n == MAX)
  verify dbg (s.next (s.prev q) == 0)
  verify dbg (s.ts (s.prev q) == MAX)
  (if s.next q = 0 then do
    verify dbg (s.next q == 0)
    verify dbg (s.ts q == MAX)
    verify dbg (s.ts q != 0)
    verify dbg (s.prev q == q)
  else do
    verify dbg (s.next q != 0)
    verify dbg (s.ts q != MAX)
    verify dbg (s.ts q != 0)
    verify dbg (s.prev q != q))
  let s := { s with next := upd s.next (s.prev q) n }
  let s := { s with ts := upd s.ts (s.prev q) now }
  pure { s with prev := upd s.prev q n }

/-- ready_subqueue.hfa:64-91 `pop`. Following a null anchor is undefined. -/
def pop (dbg : Bool) (s : St) (q : Nat) : Outcome (St × Nat × Nat) := do
  verify dbg (s.next q != 0)
  verify dbg (s.ts q != MAX)
  verify dbg (s.ts q != 0)
  let node := s.next q
  if node = 0 then .undef else
  let s := { s with next := upd s.next q (s.next node) }
  let s := { s with ts := upd s.ts q (s.ts node) }
  let isEmpty := s.next q == 0
  let s := { s with next := upd s.next node 0 }
  let s := { s with ts := upd s.ts node MAX }
  let s := if isEmpty then { s with prev := upd s.prev q q } else s
  let ats := s.ts q
  verify dbg (s.next node == 0)
  verify dbg (s.ts node == MAX)
  verify dbg (s.ts node != 0)
  verify dbg (ats != 0)
  verify dbg ((ats == MAX) == isEmpty)
  pure (s, node, ats)

/-- ready_subqueue.hfa:94-96 `is_empty`. -/
def isEmpty (s : St) (q : Nat) : Bool := s.next q == 0

/-- ready_subqueue.hfa:99-104 `ts`. -/
def ts (dbg : Bool) (s : St) (q : Nat) : Outcome Nat := do
  verify dbg (s.ts q != 0)
  pure (s.ts q)

inductive Op where
  | push (now q n : Nat) | pop (q : Nat) | isEmpty (q : Nat) | ts (q : Nat)

inductive Res where
  | unit | popped (n stamp : Nat) | bool (b : Bool) | stamp (t : Nat)

def step (dbg : Bool) (s : St) : Op → Outcome (St × Res)
  | .push now q n => do let s ← push dbg now s q n; pure (s, .unit)
  | .pop q => do let (s, n, t) ← pop dbg s q; pure (s, .popped n t)
  | .isEmpty q => .ret (s, .bool (isEmpty s q))
  | .ts q => do let t ← ts dbg s q; pure (s, .stamp t)

def run (dbg : Bool) (s : St) : List Op → Outcome (St × List Res)
  | [] => .ret (s, [])
  | o :: os => do
    let (s, r) ← step dbg s o
    let (s, rs) ← run dbg s os
    pure (s, r :: rs)

end Verif.Lane
