import Verif.Model.Base
import Verif.Model.Heap
import Verif.Model.Trans
/-!
Actor executors: mailboxes, the loop of the workers, and work stealing (libcfa/src/concurrency/actor.hfa, with `__STEAL`). A critical
section under the spin lock of a mailbox is one step; every other access to a variable shared by workers is a step of its own. Mailboxes,
workers, actors, messages and threads are numbers.

Not modelled: statistics, allocation failure, wrapping of `buffer_size`, shutdown (`is_shutdown`, destructors), the status of actors and
messages after a delivery (Model/ActorCount.lean has the number of actors), the virtual processors. The heuristics of the workers (the order in which a
worker looks at its mailboxes, when it looks for a victim, and which one: actor.hfa:527-537, 558-573, 583-585, 594-602, 609-629) are left open: the
model allows every choice, which only adds executions.
-/
namespace Verif.Actor
open Verif

/-- actor.hfa:53-57 `request`: receiver, message and function (one number); the sending thread is for the properties only. -/
structure Req where
  snd : Nat
  rcv : Nat
  msg : Nat
  deriving DecidableEq, Repr

/-- actor.hfa:75-78 `copy_queue`; `buffer_size` is the length of `buf`, storage that was not written is `none`. -/
structure CQ where
  buf : List (Option Req)
  count : Nat
  index : Nat
  utilized : Nat
  last : Nat
  deriving DecidableEq, Repr

/-- actor.hfa:80-87 `?{}( copy_queue &, size_t )`. -/
def CQ.new (size : Nat) : CQ := ⟨List.replicate size none, 0, 0, 0, 0⟩

/-- actor.hfa:95-100: `buffer_size = 2 * buffer_size` and `realloc`. -/
def CQ.grow (x : CQ) : CQ :=
  if x.buf.length ≤ x.count then
    { x with last := x.buf.length, buf := x.buf ++ List.replicate (2 * x.buf.length - x.buf.length) none }
  else x

/-- actor.hfa:94-103 `insert( copy_queue &, request & )`. -/
def CQ.insert (x : CQ) (r : Req) : Outcome CQ :=
  let x := x.grow
  if x.count < x.buf.length then .ret { x with buf := x.buf.set x.count (some r), count := x.count + 1 } else .undef

/-- actor.hfa:107-115 `remove`: the request, `none` for the null reference; the use of storage that was not written is undefined. -/
def CQ.remove (x : CQ) : Outcome (Option Req × CQ) :=
  if 0 < x.count then
    match x.buf[x.index]? with
    | some (some r) => .ret (some r, { x with count := x.count - 1, index := if x.count - 1 = 0 then 0 else x.index + 1 })
    | _ => .undef
  else .ret (none, x)

/-- actor.hfa:118-123 `reclaim`. -/
def CQ.reclaim (x : CQ) : CQ :=
  if x.last ≤ x.utilized ∨ x.buf.length ≤ 4 then { x with utilized := 0 }
  else { x with utilized := 0, buf := x.buf.take (x.buf.length - 1) }

/-- The executor: number of workers, number of mailboxes, initial size of the buffers, and the mailbox of each actor. -/
structure Cfg where
  nw : Nat
  nr : Nat
  bufSize : Nat
  ticket : Nat → Nat

/-- actor.hfa:326-328: `start` of worker `i`, the sum of the ranges before. -/
def range (c : Cfg) (i : Nat) : Nat := c.nr / c.nw + (if i < c.nr % c.nw then 1 else 0)

/-- actor.hfa:326: `start += range`. -/
def begin (c : Cfg) : Nat → Nat
  | 0 => 0
  | i + 1 => begin c i + range c i

/-- actor.hfa:511-520 (`choose_queue`): start and range of the victim. -/
def victim (c : Cfg) (v : Nat) : Nat × Nat :=
  let per := c.nr / c.nw
  let extras := c.nr % c.nw
  if extras > v then ((per + 1) * v, per + 1) else (extras + v * per, per)

inductive Pc where
  /-- about to look at a mailbox (actor.hfa:594-595) -/
  | top
  /-- has `curr_work_queue`, may or may not call `transfer` (actor.hfa:602-610) -/
  | got (q : Nat)
  /-- after `transfer` (actor.hfa:615) -/
  | chk (q : Nat)
  /-- in the loop (actor.hfa:633) -/
  | drain (q : Nat)
  /-- inside of the `receive` of an actor (actor.hfa:639) -/
  | running (q : Nat) (r : Req)
  /-- about to clear `being_processed` (actor.hfa:642) -/
  | fin (q : Nat)
  /-- about to call `reclaim` (actor.hfa:649) -/
  | recl
  /-- in `try_swap_queues( this, v, m )`: about to read `request_queues[m]` (actor.hfa:485) -/
  | s1 (v m : Nat)
  | s2 (v m my : Nat)
  /-- about to set the own slot to 0p (actor.hfa:492) -/
  | s3 (v m my other : Nat)
  /-- about to set the slot of the victim (actor.hfa:496) -/
  | s4 (v m my other : Nat)
  /-- about to write back the own slot, which was set to 0p (actor.hfa:498, 503) -/
  | s5 (m q : Nat)
  deriving DecidableEq, Repr

structure State where
  cq : Nat → CQ
  /-- `c_queue` and `being_processed` of a mailbox -/
  cur : Nat → Nat
  proc : Nat → Bool
  /-- `current_queue` and place of a worker -/
  loc : Nat → Nat
  pc : Nat → Pc
  /-- `worker_req_queues` -/
  slot : Nat → Option Nat
  /-- undefined behaviour has happened -/
  bad : Bool
  /-- for the properties: the requests in the order of the `insert`s, and in the order in which `receive` was called -/
  sent : List Req
  dlv : List Req

/-- actor.hfa:309-329 `?{}( executor & )`: the copy queues of mailboxes have even numbers, those of workers odd ones. -/
def start (c : Cfg) : State :=
  { cq := fun _ => CQ.new c.bufSize, cur := fun q => 2 * q, proc := fun _ => false, loc := fun w => 2 * w + 1, pc := fun _ => .top,
    slot := fun j => if j < c.nr then some j else none, bad := false, sent := [], dlv := [] }

/-- actor.hfa:153-157 `insert( work_queue &, request & )`. -/
def deposit (s : State) (q : Nat) (r : Req) : State :=
  match (s.cq (s.cur q)).insert r with
  | .ret x => { s with cq := upd s.cq (s.cur q) x, sent := s.sent ++ [r] }
  | _ => { s with bad := true }

/-- actor.hfa:159-183 `transfer`, by worker `w`. -/
def transfer (s : State) (w q : Nat) : State :=
  if s.proc q then s
  else
    { s with proc := upd s.proc q ((s.cq (s.cur q)).count ≠ 0),
             cq := upd s.cq (s.cur q) { s.cq (s.cur q) with utilized := (s.cq (s.cur q)).count },
             loc := upd s.loc w (s.cur q), cur := upd s.cur q (s.loc w) }

inductive Act where
  /-- a thread sends (actor.hfa:653-660) -/
  | send (r : Req)
  /-- worker `w` looks at mailbox number `i` of its range -/
  | look (w i : Nat)
  /-- worker `w` goes on without a transfer, or after an empty one -/
  | skip (w : Nat)
  /-- worker `w` tries to swap the mailbox number `i` of its range with the one number `j` of the range of worker `v` -/
  | steal (w i v j : Nat)
  | step (w : Nat)
  deriving Repr

/-- actor.hfa:577-651 `main( worker & )`, 484-505 `try_swap_queues`. -/
def stepW (s : State) (w : Nat) : Option State :=
  match s.pc w with
  | .top => none
  | .got q => some { transfer s w q with pc := upd s.pc w (.chk q) }
  | .chk q => if (s.cq (s.loc w)).count = 0 then some { s with pc := upd s.pc w .top } else some { s with pc := upd s.pc w (.drain q) }
  | .drain q =>
    if (s.cq (s.loc w)).count = 0 then some { s with pc := upd s.pc w (.fin q) }
    else
      match (s.cq (s.loc w)).remove with
      | .ret (some r, x) =>
        some { s with cq := upd s.cq (s.loc w) x, pc := upd s.pc w (.running q r), dlv := s.dlv ++ [r] }
      | .ret (none, x) => some { s with cq := upd s.cq (s.loc w) x }
      | _ => some { s with bad := true }
  | .running q _ => some { s with pc := upd s.pc w (.drain q) }
  | .fin q => some { s with proc := upd s.proc q false, pc := upd s.pc w .recl }
  | .recl => some { s with cq := upd s.cq (s.loc w) (s.cq (s.loc w)).reclaim, pc := upd s.pc w .top }
  -- 485: the own slot; the code has no test for 0p here
  | .s1 v m =>
    match s.slot m with
    | some my => some { s with pc := upd s.pc w (.s2 v m my) }
    | none => some { s with bad := true }
  -- 486-489
  | .s2 v m my =>
    match s.slot v with
    | some other => some { s with pc := upd s.pc w (.s3 v m my other) }
    | none => some { s with pc := upd s.pc w .top }
  -- 492-493
  | .s3 v m my other =>
    if s.slot m = some my then some { s with slot := upd s.slot m none, pc := upd s.pc w (.s4 v m my other) }
    else some { s with pc := upd s.pc w .top }
  -- 496
  | .s4 v m my other =>
    if s.slot v = some other then some { s with slot := upd s.slot v (some my), pc := upd s.pc w (.s5 m other) }
    else some { s with pc := upd s.pc w (.s5 m my) }
  | .s5 m q => some { s with slot := upd s.slot m (some q), pc := upd s.pc w .top }

def next (c : Cfg) (s : State) : Act → Option State
  | .send r => if s.bad = false ∧ c.ticket r.rcv < c.nr then some (deposit s (c.ticket r.rcv) r) else none
  | .look w i =>
    if s.bad = false ∧ w < c.nw ∧ i < range c w ∧ s.pc w = .top then
      match s.slot (begin c w + i) with
      | some q => some { s with pc := upd s.pc w (.got q) }
      -- 602: `curr_work_queue->c_queue` of the null pointer
      | none => some { s with bad := true }
    else none
  | .skip w =>
    if s.bad = false then
      match s.pc w with
      | .got _ => some { s with pc := upd s.pc w .top }
      | _ => none
    else none
  | .steal w i v j =>
    if s.bad = false ∧ w < c.nw ∧ v < c.nw ∧ i < range c w ∧ j < (victim c v).2 ∧ s.pc w = .top then
      some { s with pc := upd s.pc w (.s1 ((victim c v).1 + j) (begin c w + i)) }
    else none
  | .step w => if s.bad = false ∧ w < c.nw then stepW s w else none

end Verif.Actor
