import Verif.Model.Trans
import Verif.Model.Heap
/-!
`call_once` (once.hfa) with its `poison_list` (collections/lockfree.hfa:136-194). One flag, any number of threads, each calling `call_once` any
number of times with the same function. Each access to the shared `state`, `head` and `next` is a step of its own; the atomics are sequentially
consistent and so are the relaxed accesses. `verify` is off (release build). park and unpark: the ticket of C50, one wake-up is remembered.
-/
namespace Verif.Once
open Verif

/-- A pointer to a thread: `0p`, `1p` or a thread. -/
inductive Link where
  | null
  | one
  | at (t : Nat)
  deriving DecidableEq, Repr

inductive Pc where
  /-- outside -/
  | run
  /-- past the test for READY (once.hfa:82) -/
  | cas
  /-- the function is running (once.hfa:48) -/
  | func
  /-- the function has returned (once.hfa:54) -/
  | store
  /-- before the poisoning (once.hfa:57) -/
  | poison
  /-- the waking loop, before `advance` (once.hfa:62-64) -/
  | waking (sleeper : Link)
  /-- the waking loop, before `unpark` (once.hfa:67) -/
  | waking2 (sleeper : Nat) (nx : Link)
  /-- in `push`, before line 150 of lockfree.hfa -/
  | push0
  /-- in `push`, before line 153 -/
  | push1
  /-- in `push`, in the loop (lockfree.hfa:154-159) -/
  | push2 (expected : Link)
  /-- in `push`, the exchange has succeeded (lockfree.hfa:168) -/
  | push3 (expected : Link)
  /-- in `park` (once.hfa:39) -/
  | park
  deriving DecidableEq, Repr

structure State where
  /-- 0 ARMED, 1 IN_PROGRESS, 2 READY (once.hfa:21-25) -/
  state : Nat
  head : Link
  nxt : Nat → Link
  token : Nat → Bool
  pc : Nat → Pc
  /-- for the properties: the number of times the function has been entered and completed, and what the calls of `call_once` have returned -/
  entered : Nat
  completed : Nat
  rets : List (Nat × Bool)

/-- once.hfa:33, lockfree.hfa:140 -/
def start : State :=
  { state := 0, head := .null, nxt := fun _ => .null, token := fun _ => false, pc := fun _ => .run, entered := 0, completed := 0, rets := [] }

inductive Act where
  /-- a call of `call_once` -/
  | call (t : Nat)
  /-- the next step of the thread; `weak`: a weak compare-and-exchange fails although it could succeed -/
  | step (t : Nat) (weak : Bool)
  deriving DecidableEq, Repr

/-- One step. -/
def next (s : State) : Act → Option State
  | .call t => if s.pc t = .run then
      -- once.hfa:76-79
      if s.state = 2 then some { s with rets := s.rets ++ [(t, false)] } else some { s with pc := upd s.pc t .cas }
    else none
  | .step t weak => match s.pc t with
    | .run => none
    -- once.hfa:82-97
    | .cas => if s.state = 0 then some { s with state := 1, pc := upd s.pc t .func, entered := s.entered + 1 } else some { s with pc := upd s.pc t .push0 }
    -- once.hfa:48
    | .func => some { s with pc := upd s.pc t .store, completed := s.completed + 1 }
    -- once.hfa:54
    | .store => some { s with state := 1, pc := upd s.pc t .poison }
    -- once.hfa:57, lockfree.hfa:190-192
    | .poison => some { s with head := .one, pc := upd s.pc t (.waking s.head) }
    | .waking sl => match sl with
      -- once.hfa:62, 92
      | .null => some { s with pc := upd s.pc t .run, rets := s.rets ++ [(t, true)] }
      | .one => none
      -- once.hfa:64, lockfree.hfa:182
      | .at u => if s.nxt u = .one then none else some { s with pc := upd s.pc t (.waking2 u (s.nxt u)) }
    -- once.hfa:67-70
    | .waking2 u nx => some { s with token := upd s.token u true, pc := upd s.pc t (.waking nx) }
    -- lockfree.hfa:150
    | .push0 => some { s with nxt := upd s.nxt t .one, pc := upd s.pc t .push1 }
    -- lockfree.hfa:153
    | .push1 => some { s with pc := upd s.pc t (.push2 s.head) }
    | .push2 e =>
      -- lockfree.hfa:156; once.hfa:37, 103
      if e = .one then some { s with pc := upd s.pc t .run, rets := s.rets ++ [(t, false)] }
      -- lockfree.hfa:159
      else if s.head = e ∧ weak = false then some { s with head := .at t, pc := upd s.pc t (.push3 e) }
      else some { s with pc := upd s.pc t (.push2 s.head) }
    -- lockfree.hfa:168
    | .push3 e => some { s with nxt := upd s.nxt t e, pc := upd s.pc t .park }
    -- once.hfa:39, 103
    | .park => if s.token t then some { s with token := upd s.token t false, pc := upd s.pc t .run, rets := s.rets ++ [(t, false)] } else none

end Verif.Once
