import Verif.Model.Trans
import Verif.Model.Heap
/-!
Channels (channel.hfa). One channel, any number of threads. Each critical section under `mutex_lock` (a `go_mutex`, C37) is one step; so
is the unprotected test of `closed` before it. A thread that has put itself on one of the lists counts as parked from then on. Threads in
a `waituntil` statement are left out: all nodes on the lists are those of blocked threads, for which `__handle_waituntil_OR` is true exactly
when the list is not empty (select.hfa:170-183).
-/
namespace Verif.Channel
open Verif

/-- Where a thread is. -/
inductive Pc (α : Type) where
  /-- outside of the operations; the last operation has returned -/
  | run
  /-- in `insert` with an element, past the test of `closed`, before `lock` (channel.hfa:220) -/
  | ins (e : α)
  /-- in `remove`, past the test of `closed`, before `lock` (channel.hfa:320) -/
  | rem
  /-- parked in `insert` (channel.hfa:29, 249) -/
  | blockedIns (e : α)
  /-- parked in `remove` (channel.hfa:29, 347) -/
  | blockedRem
  /-- in `__closed_insert` (channel.hfa:207) -/
  | closedIns (e : α)
  /-- in `__closed_remove` (channel.hfa:308) -/
  | closedRem
  /-- the last operation has thrown `channel_closed` -/
  | thrown
  deriving DecidableEq, Repr

structure State (α : Type) where
  size : Nat
  front : Nat
  back : Nat
  count : Nat
  /-- the memory of the buffer -/
  buffer : Nat → α
  prods : List (Nat × α)
  cons : List Nat
  closed : Bool
  pc : Nat → Pc α
  /-- for the properties: the elements whose insertion the channel has accepted, in the order of the critical sections of the insertions
      (including those of blocked threads); and the elements that have been delivered, with the thread they were delivered to -/
  log : List α
  got : List (Nat × α)

/-- channel.hfa:96-110; `b` is what the uninitialised buffer contains. -/
def start {α : Type} (size : Nat) (b : Nat → α) : State α :=
  { size := size, front := 0, back := 0, count := 0, buffer := b, prods := [], cons := [], closed := false, pc := fun _ => .run, log := [], got := [] }

variable {α : Type}

/-- channel.hfa:173-178 `__buf_insert` -/
def bufInsert (s : State α) (e : α) : State α :=
  { s with buffer := upd s.buffer s.back e, count := s.count + 1, back := if s.back + 1 = s.size then 0 else s.back + 1 }

/-- channel.hfa:153-156 `__cons_handoff`, to the thread `c` (the first of the list, the rest of which is `l`): it returns from `remove`. -/
def consHandoff (s : State α) (e : α) (c : Nat) (l : List Nat) : State α :=
  { s with cons := l, pc := upd s.pc c .run, log := s.log ++ [e], got := s.got ++ [(c, e)] }

/-- channel.hfa:187-199, 234-255: the common part of `__internal_try_insert` and `insert`; none when the buffer is full. -/
def putNow (s : State α) (e : α) : Option (State α) :=
  match s.cons with
  | c :: l => some (consHandoff s e c l)
  | [] => if s.count = s.size then none else some { bufInsert s e with log := s.log ++ [e] }

/-- channel.hfa:259-268 `__do_remove` by the thread `t`. -/
def doRemove (s : State α) (t : Nat) : State α :=
  let s := { s with got := s.got ++ [(t, s.buffer s.front)], count := s.count - 1, front := (s.front + 1) % s.size }
  if s.count = s.size - 1 then
    match s.prods with
    | p :: l => { bufInsert s p.2 with prods := l, pc := upd s.pc p.1 .run }
    | [] => s
  else s

/-- channel.hfa:277-289, 333-355: the common part of `__internal_try_remove` and `remove` by the thread `t`; none when there is nothing. -/
def getNow (s : State α) (t : Nat) : Option (State α) :=
  match s.size, s.prods with
  -- channel.hfa:159-162 `__prods_handoff`
  | 0, p :: l => some { s with prods := l, pc := upd s.pc p.1 .run, got := s.got ++ [(t, p.2)] }
  | _, _ => if s.count = 0 then none else some (doRemove s t)

/-- channel.hfa:135-140: all waiting consumers are woken with `extra` 0. -/
def wakeCons (pc : Nat → Pc α) : List Nat → Nat → Pc α
  | [] => pc
  | c :: l => upd (wakeCons pc l) c .closedRem

/-- channel.hfa:141-146: all waiting producers are woken with `extra` 0. -/
def wakeProds (pc : Nat → Pc α) : List (Nat × α) → Nat → Pc α
  | [] => pc
  | p :: l => upd (wakeProds pc l) p.1 (.closedIns p.2)

/-- channel.hfa:166-168: the loop of `flush`: each waiting consumer gets the element. -/
def flushLoop (s : State α) (e : α) : Nat → State α
  | 0 => s
  | n + 1 =>
    match s.cons with
    | c :: l => if s.count = 0 then flushLoop (consHandoff s e c l) e n else s
    | [] => s

inductive Act (α : Type) where
  | insert (t : Nat) (e : α)
  | remove (t : Nat)
  | tryInsert (t : Nat) (e : α)
  | tryRemove (t : Nat)
  | close (t : Nat)
  | flush (t : Nat) (e : α)
  /-- the critical section of `insert` or `remove` -/
  | go (t : Nat)
  /-- in `__closed_insert` or `__closed_remove`: a resumption handler of the thread returned, the operation is tried again -/
  | retry (t : Nat)
  /-- in `__closed_insert` or `__closed_remove`: there is no resumption handler -/
  | noHandler (t : Nat)

/-- One step. -/
def next (s : State α) : Act α → Option (State α)
  -- channel.hfa:213-218
  | .insert t e => match s.pc t with
    | .run | .thrown => some { s with pc := upd s.pc t (if s.closed then .closedIns e else .ins e) }
    | _ => none
  -- channel.hfa:314-319
  | .remove t => match s.pc t with
    | .run | .thrown => some { s with pc := upd s.pc t (if s.closed then .closedRem else .rem) }
    | _ => none
  -- channel.hfa:181-204
  | .tryInsert t e => match s.pc t with
    | .run | .thrown => some ((putNow s e).getD s)
    | _ => none
  -- channel.hfa:271-305
  | .tryRemove t => match s.pc t with
    | .run | .thrown => some ((getNow s t).getD s)
    | _ => none
  -- channel.hfa:130-148
  | .close t => match s.pc t with
    | .run | .thrown =>
      some { s with
        closed := true, cons := [], prods := [], pc := wakeProds (wakeCons s.pc s.cons) s.prods,
        log := s.log.take (s.log.length - s.prods.length) }
    | _ => none
  -- channel.hfa:164-170
  | .flush t e => match s.pc t with
    | .run | .thrown => some (flushLoop s e s.cons.length)
    | _ => none
  | .go t => match s.pc t with
    -- channel.hfa:220-255
    | .ins e =>
      if s.closed then some { s with pc := upd s.pc t (.closedIns e) }
      else match putNow s e with
        | some s' => some { s' with pc := upd s'.pc t .run }
        | none => some { s with prods := s.prods ++ [(t, e)], pc := upd s.pc t (.blockedIns e), log := s.log ++ [e] }
    -- channel.hfa:320-355
    | .rem =>
      if s.closed then some { s with pc := upd s.pc t .closedRem }
      else match getNow s t with
        | some s' => some { s' with pc := upd s'.pc t .run }
        | none => some { s with cons := s.cons ++ [t], pc := upd s.pc t .blockedRem }
    | _ => none
  | .retry t => match s.pc t with
    -- channel.hfa:210
    | .closedIns e => match putNow s e with
      | some s' => some { s' with pc := upd s'.pc t .run }
      | none => some { s with pc := upd s.pc t .thrown }
    -- channel.hfa:311
    | .closedRem => match getNow s t with
      | some s' => some { s' with pc := upd s'.pc t .run }
      | none => some { s with pc := upd s.pc t .thrown }
    | _ => none
  -- channel.hfa:209, 310; the default resumption handler throws the exception (exception.h:156-158)
  | .noHandler t => match s.pc t with
    | .closedIns _ | .closedRem => some { s with pc := upd s.pc t .thrown }
    | _ => none

end Verif.Channel
