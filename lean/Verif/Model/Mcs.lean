import Verif.Model.Trans
import Verif.Model.Heap
/-!
`mcs_lock` (locks.hfa:153-178, with `push` and `advance` of `mcs_queue`, lockfree.hfa:18-57, and `wait` and `post` of `single_sem`,
kernel/fwd.hfa:138-173) and `mcs_spin_lock` (locks.hfa:180-236). Threads are non-zero numbers; each thread has one node, so that the node is
identified with the thread; 0 is the null pointer. Each atomic instruction and each access to a field of a node is one step. The semaphore of
a node is a flag: `wait` passes, and clears it, when it is set (C51).
-/
namespace Verif.Mcs
open Verif

/-- Which lock, and how the nodes are used. -/
inductive Kind where
  /-- `mcs_lock` -/
  | block
  /-- `mcs_spin_lock` with a newly constructed node for each acquisition (as `spin_queue_lock` uses it) -/
  | spinFresh
  /-- `mcs_spin_lock` with one node for all acquisitions of a thread -/
  | spinReuse
  deriving DecidableEq, Repr

inductive Pc where
  | idle
  /-- before the exchange of the tail (locks.hfa:209, lockfree.hfa:29) -/
  | swap
  /-- before the store into the `next` field of the previous node (locks.hfa:211, lockfree.hfa:32) -/
  | link (p : Nat)
  /-- waiting (locks.hfa:217, 171) -/
  | wait
  | has
  /-- in `unlock`, before the compare-and-exchange of the tail (locks.hfa:230, lockfree.hfa:44) -/
  | cas
  /-- waiting for the `next` field (locks.hfa:231, lockfree.hfa:47) -/
  | waitNext
  /-- `mcs_lock`: before the `next` field is reset (lockfree.hfa:53) -/
  | reset (n : Nat)
  /-- `mcs_lock`: before `post` (locks.hfa:176) -/
  | post (n : Nat)
  deriving DecidableEq, Repr

structure State where
  tail : Nat
  next : Nat → Nat
  /-- the field `locked` is false; the semaphore is posted -/
  go : Nat → Bool
  pc : Nat → Pc
  /-- for the properties: the number of the last exchange of the tail by a thread, the thread of an exchange, the number of exchanges and of
      releases -/
  ticket : Nat → Nat
  who : Nat → Nat
  arrivals : Nat
  releases : Nat

/-- locks.hfa:160, 195, lockfree.hfa:20, kernel/fwd.hfa:132-134 (constructors) -/
def start : State :=
  { tail := 0, next := fun _ => 0, go := fun _ => false, pc := fun _ => .idle, ticket := fun _ => 0, who := fun _ => 0, arrivals := 0, releases := 0 }

inductive Act where
  | lock (t : Nat)
  | go (t : Nat)
  | unlock (t : Nat)
  deriving DecidableEq, Repr

/-- One step. -/
def next (k : Kind) (s : State) : Act → Option State
  | .lock t =>
    if s.pc t = .idle ∧ t ≠ 0 then
      match k with
      -- locks.hfa:169
      | .block => some { s with pc := upd s.pc t .swap }
      -- locks.hfa:195, 202
      | .spinFresh => some { s with go := upd s.go t false, next := upd s.next t 0, pc := upd s.pc t .swap }
      -- locks.hfa:202
      | .spinReuse => some { s with go := upd s.go t false, pc := upd s.pc t .swap }
    else none
  | .go t =>
    match s.pc t with
    -- locks.hfa:209-210, lockfree.hfa:29, locks.hfa:170
    | .swap =>
      some { s with
        tail := t, ticket := upd s.ticket t s.arrivals, who := upd s.who s.arrivals t, arrivals := s.arrivals + 1,
        pc := upd s.pc t (if s.tail = 0 then .has else .link s.tail) }
    -- locks.hfa:211, lockfree.hfa:32
    | .link p => some { s with next := upd s.next p t, pc := upd s.pc t .wait }
    -- locks.hfa:217, 171
    | .wait =>
      if s.go t then
        match k with
        | .block => some { s with go := upd s.go t false, pc := upd s.pc t .has }
        | _ => some { s with pc := upd s.pc t .has }
      else none
    -- locks.hfa:230, lockfree.hfa:44
    | .cas =>
      if s.tail = t then some { s with tail := 0, releases := s.releases + 1, pc := upd s.pc t .idle }
      else some { s with pc := upd s.pc t .waitNext }
    | .waitNext =>
      if s.next t ≠ 0 then
        match k with
        -- lockfree.hfa:47-50
        | .block => some { s with pc := upd s.pc t (.reset (s.next t)) }
        -- locks.hfa:231-237
        | _ => some { s with go := upd s.go (s.next t) true, releases := s.releases + 1, pc := upd s.pc t .idle }
      else none
    -- lockfree.hfa:53
    | .reset n => some { s with next := upd s.next t 0, pc := upd s.pc t (.post n) }
    -- locks.hfa:176
    | .post n => some { s with go := upd s.go n true, releases := s.releases + 1, pc := upd s.pc t .idle }
    | _ => none
  -- locks.hfa:174, 222
  | .unlock t => if s.pc t = .has then some { s with pc := upd s.pc t .cas } else none

end Verif.Mcs
