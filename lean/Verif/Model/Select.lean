import Verif.Model.Trans
import Verif.Model.Heap
/-!
The `waituntil` statement whose clauses are all joined by `or` (libcfa/src/concurrency/select.hfa, channel.hfa:370-588 and the code that
src/Concurrency/Waituntil.cpp:939-1204 generates), for any number of threads and channels. Clauses read from or write to channels, or wait
for a time-out. Threads outside of `waituntil` statements call `try_insert` and `try_remove`.

A step is one access to the status word of a statement, with the code around it that the lock of a channel protects. A node of a list is
the thread and the number of the clause. The buffer of a channel is the list of its elements (C39 has the array), and `put` and
`took` record what completed writes put into the channel and completed reads received from it. Not modelled: `close`, blocked threads outside of `waituntil` statements, `when` conditions,
the `else` clause, statements with `and`, exceptions.
-/
namespace Verif.Select
open Verif

/-- A clause of a `waituntil` statement: a read from channel `c` (`none`), a write of `v` to it (`some v`), or a time-out. -/
inductive Clause where
  | chan (c : Nat) (v : Option Nat)
  | timeout
  deriving DecidableEq, Repr

/-- The status word of a statement: `__SELECT_UNSAT`, `__SELECT_PENDING`, `__SELECT_SAT` or the address of the node of a clause
    (select.hfa:27-30, 157). -/
inductive Status where
  | unsat
  | pending
  | sat
  | node (i : Nat)
  deriving DecidableEq, Repr

inductive Pc where
  | idle
  /-- about to register clause `i`, or to park when there is none (Waituntil.cpp:1049-1080) -/
  | reg (i : Nat)
  /-- in `register_select$` of clause `i`: about to mark the own status word pending (channel.hfa:424, 525) -/
  | mark (i : Nat)
  /-- about to set the status word of the first node of the opposite list (select.hfa:134) -/
  | pend (i : Nat)
  /-- about to reset the own status word (select.hfa:139) -/
  | toggle (i : Nat)
  /-- about to mark it pending again (select.hfa:141) -/
  | retoggle (i : Nat)
  /-- won the first node of the opposite list, about to hand off (channel.hfa:430, 530) -/
  | hand (i : Nat)
  /-- about to mark the own status word satisfied (channel.hfa:431, 531) -/
  | setSat (i : Nat)
  /-- the opposite list is drained: about to reset the own status word (channel.hfa:436, 536) -/
  | unset (i : Nat)
  /-- about to test whether the operation can be completed (channel.hfa:439, 539) -/
  | check (i : Nat)
  /-- about to set the own status word to the own node (channel.hfa:440, 540) -/
  | avail (i : Nat)
  /-- about to do the operation on the buffer (channel.hfa:474, 575) -/
  | buffer (i : Nat)
  /-- about to park (Waituntil.cpp:975) -/
  | park
  /-- about to run the body of clause `i` -/
  | body (i : Nat)
  /-- the `finally` clause: about to unregister clause `j` -/
  | unreg (j : Nat)
  /-- in `try_insert`: before `lock` -/
  | ins (c v : Nat)
  /-- in `try_insert`, with the lock: about to set the status word of the first consumer -/
  | insOr (c v : Nat)
  /-- in `try_insert`, won the first consumer: about to hand off -/
  | insHand (c v : Nat)
  /-- in `try_remove`: before `lock` -/
  | rem (c : Nat)
  /-- in `try_remove` from a channel of size 0, with the lock: about to set the status word of the first producer -/
  | remOr (c : Nat)
  /-- the same, won the first producer: about to hand off -/
  | remHand (c : Nat)
  /-- in `try_remove` from a channel of non-zero size, in `__do_remove`: about to set the status word of the first producer -/
  | refillOr (c : Nat)
  /-- the same, won the first producer: about to insert its element -/
  | refill (c : Nat)
  deriving DecidableEq, Repr

structure State where
  size : Nat → Nat
  buf : Nat → List Nat
  /-- the lists `prods` (`true`) and `cons` (`false`) of each channel -/
  wait : Nat → Bool → List (Nat × Nat)
  lock : Nat → Option Nat
  /-- the status word and the clauses of each thread's statement -/
  status : Nat → Status
  prog : Nat → List Clause
  /-- whether the alarm of a clause is set -/
  armed : Nat → Nat → Bool
  pc : Nat → Pc
  /-- an `unpark` the thread has not consumed -/
  token : Nat → Bool
  /-- for the properties: the clauses of the current statement whose body was run; and those whose channel operation was performed, with
      the element in the case of a read -/
  ran : Nat → List Nat
  did : Nat → List (Nat × Option Nat)
  /-- for the properties: what was put into and taken from each channel -/
  put : Nat → List Nat
  took : Nat → List Nat

/-- channel.hfa:96-110, for channels of any sizes. -/
def start (size : Nat → Nat) : State :=
  { size := size, buf := fun _ => [], wait := fun _ _ => [], lock := fun _ => none, status := fun _ => .unsat, prog := fun _ => [],
    armed := fun _ _ => false, pc := fun _ => .idle, token := fun _ => false, ran := fun _ => [], did := fun _ => [], put := fun _ => [],
    took := fun _ => [] }

def setWait (s : State) (c : Nat) (b : Bool) (l : List (Nat × Nat)) : State :=
  { s with wait := upd s.wait c (fun b' => if b' = b then l else s.wait c b') }

def goto (s : State) (t : Nat) (p : Pc) : State := { s with pc := upd s.pc t p }

def setStatus (s : State) (t : Nat) (v : Status) : State := { s with status := upd s.status t v }

def unlock (s : State) (c : Nat) : State := { s with lock := upd s.lock c none }

/-- Elements are put into a channel by a completed write, and received from it by a completed read. -/
def record (s : State) (c : Nat) (inn out : List Nat) : State :=
  { s with put := upd s.put c (s.put c ++ inn), took := upd s.took c (s.took c ++ out) }

/-- The operation of clause `j` of thread `u` is completed; `r` is the element it reads. -/
def perform (s : State) (u j : Nat) (r : Option Nat) : State :=
  let s' := { s with did := upd s.did u (s.did u ++ [(j, r)]) }
  match (s.prog u)[j]?, r with
  | some (.chan c none), some e => record s' c [] [e]
  | some (.chan c (some v)), none => record s' c [v] []
  | _, _ => s'

/-- The element that the node points to (`extra`, channel.hfa:515). -/
def elem (s : State) (n : Nat × Nat) : Nat :=
  match (s.prog n.1)[n.2]? with
  | some (.chan _ (some v)) => v
  | _ => 0

/-- channel.hfa:153-162 `__cons_handoff` and `__prods_handoff`, select.hfa:186-193 `wake_one`: the operation of the first node of a list is
    performed, and its thread is unparked. -/
def wake (s : State) (c : Nat) (b : Bool) (v : Option Nat) : State :=
  match s.wait c b with
  | [] => s
  | (u, j) :: l => perform { setWait s c b l with token := upd s.token u true } u j v

/-- select.hfa:116-126 `__mark_select_node` and select.hfa:170-183 `__handle_waituntil_OR`, one attempt for the first node of the list: go to
    `won`, to `drained` if the list is empty; try again if the status word is pending; discard the node if it has lost. -/
def handleOr (s : State) (t c : Nat) (b : Bool) (won : Pc) (drained : State) : Option State :=
  match s.wait c b with
  | [] => some drained
  | (u, j) :: l =>
    match s.status u with
    | .unsat => some (goto (setStatus s u (.node j)) t won)
    | .pending => some s
    | _ => some (setWait s c b l)

/-- A step of a thread that registers or runs clause `i`, which is a read from (`v = none`) or a write to channel `c`. -/
def stepChan (s : State) (t i c : Nat) (v : Option Nat) : Pc → Option State
  -- channel.hfa:414-424, 514-525
  | .reg _ =>
    if s.lock c = none then
      some (goto { s with lock := upd s.lock c (some t) } t (if s.wait c (!v.isSome) = [] then .check i else .mark i))
    else none
  -- channel.hfa:424-427, select.hfa:116-126
  | .mark _ =>
    match s.status t with
    | .unsat => some (goto (setStatus s t .pending) t (.pend i))
    | .pending => some s
    | _ => some (goto (unlock s c) t (.reg (i + 1)))
  -- channel.hfa:385-399, select.hfa:129-137
  | .pend _ =>
    match s.wait c (!v.isSome) with
    | [] => some (goto s t (.unset i))
    | (u, j) :: l =>
      match s.status u with
      | .unsat => some (goto (setStatus s u (.node j)) t (.hand i))
      | .pending => some (goto s t (.toggle i))
      | _ => some (setWait s c (!v.isSome) l)
  -- select.hfa:139
  | .toggle _ => some (goto (setStatus s t .unsat) t (.retoggle i))
  -- select.hfa:140-143; channel.hfa:392-393, 435, 535
  | .retoggle _ =>
    match s.status t with
    | .unsat => some (goto (setStatus s t .pending) t (.pend i))
    | _ => some (goto s t (.check i))
  -- channel.hfa:430, 530
  | .hand _ =>
    match v with
    | none =>
      let e := elem s ((s.wait c true).headD (0, 0))
      some (goto (perform (wake s c true none) t i (some e)) t (.setSat i))
    | some e => some (goto (perform (wake s c false (some e)) t i none) t (.setSat i))
  -- channel.hfa:431-433, 531-533
  | .setSat _ => some (goto (unlock (setStatus s t .sat) c) t (.body i))
  -- channel.hfa:435-436, 535-536
  | .unset _ => some (goto (setStatus s t .unsat) t (.check i))
  -- channel.hfa:439, 463-471; 539, 564-572
  | .check _ =>
    if (s.buf c).length ≠ (if v.isSome then s.size c else 0) ∨ s.wait c (!v.isSome) ≠ [] then
      some (goto s t (.avail i))
    else some (goto (unlock (setWait s c v.isSome (s.wait c v.isSome ++ [(t, i)])) c) t (.reg (i + 1)))
  -- channel.hfa:440-443, 540-543
  | .avail _ =>
    match s.status t with
    | .unsat => some (goto (setStatus s t (.node i)) t (.buffer i))
    | .pending => some s
    | _ => some (goto (unlock s c) t (.reg (i + 1)))
  -- channel.hfa:474-476, 575-577; there is no step if the opposite list is not empty, which never happens here (C46_moves)
  | .buffer _ =>
    if s.wait c (!v.isSome) ≠ [] then none
    else match v, s.buf c with
    | none, e :: l => some (goto (unlock (perform { s with buf := upd s.buf c l } t i (some e)) c) t (.body i))
    | none, [] => none
    | some e, l => some (goto (unlock (perform { s with buf := upd s.buf c (l ++ [e]) } t i none) c) t (.body i))
  | _ => none

/-- select.cfa:41-46: register a time-out. -/
def stepTimeout (s : State) (t i : Nat) : Pc → Option State
  | .reg _ => some (goto { s with armed := upd s.armed t (upd (s.armed t) i true) } t (.reg (i + 1)))
  | _ => none

/-- Unregister clause `j` (channel.hfa:370-382, select.cfa:47-50). -/
def unregister (s : State) (t j : Nat) : Clause → Option State
  | .timeout => some (goto { s with armed := upd s.armed t (upd (s.armed t) j false) } t (.unreg (j + 1)))
  | .chan c v =>
    if (t, j) ∈ s.wait c v.isSome then
      if s.lock c = none then some (goto (setWait s c v.isSome ((s.wait c v.isSome).erase (t, j))) t (.unreg (j + 1))) else none
    else some (goto s t (.unreg (j + 1)))

def stepClause (s : State) (t i : Nat) (p : Pc) : Option State :=
  match (s.prog t)[i]? with
  | some (.chan c v) => stepChan s t i c v p
  | some .timeout => stepTimeout s t i p
  | none => match p with
    -- Waituntil.cpp:973-978
    | .reg _ => some (goto s t .park)
    | _ => none

/-- The next step of a thread. -/
def step (s : State) (t : Nat) : Option State :=
  match s.pc t with
  | .idle => none
  | .reg i => stepClause s t i (s.pc t)
  | .mark i => stepClause s t i (s.pc t)
  | .pend i => stepClause s t i (s.pc t)
  | .toggle i => stepClause s t i (s.pc t)
  | .retoggle i => stepClause s t i (s.pc t)
  | .hand i => stepClause s t i (s.pc t)
  | .setSat i => stepClause s t i (s.pc t)
  | .unset i => stepClause s t i (s.pc t)
  | .check i => stepClause s t i (s.pc t)
  | .avail i => stepClause s t i (s.pc t)
  | .buffer i => stepClause s t i (s.pc t)
  -- Waituntil.cpp:949-961, 975
  | .park =>
    if s.token t then
      match s.status t with
      | .node i => some (goto { s with token := upd s.token t false } t (.body i))
      | _ => some (goto { s with token := upd s.token t false } t (.unreg 0))
    else none
  | .body i => some (goto { s with ran := upd s.ran t (s.ran t ++ [i]) } t (.unreg 0))
  -- Waituntil.cpp:1119-1155; the node of a clause that was not set up is on no list, and its alarm is not set
  | .unreg j =>
    match (s.prog t)[j]? with
    | some cl => unregister s t j cl
    | none => some (goto s t .idle)
  -- channel.hfa:181-200
  | .ins c v => if s.lock c = none then some (goto { s with lock := upd s.lock c (some t) } t (.insOr c v)) else none
  | .insOr c v =>
    handleOr s t c false (.insHand c v)
      (goto (unlock (if (s.buf c).length = s.size c then s else record { s with buf := upd s.buf c (s.buf c ++ [v]) } c [v] []) c) t .idle)
  | .insHand c v => some (goto (unlock (record (wake s c false (some v)) c [v] []) c) t .idle)
  -- channel.hfa:271-290, 259-268
  | .rem c =>
    if s.lock c = none then
      if s.size c = 0 then some (goto { s with lock := upd s.lock c (some t) } t (.remOr c))
      else match s.buf c with
        | [] => some (goto s t .idle)
        | e :: l =>
          let s' := record { s with buf := upd s.buf c l } c [] [e]
          if l.length = s.size c - 1 ∧ s.wait c true ≠ [] then some (goto { s' with lock := upd s'.lock c (some t) } t (.refillOr c))
          else some (goto s' t .idle)
    else none
  | .remOr c => handleOr s t c true (.remHand c) (goto (unlock s c) t .idle)
  | .remHand c =>
    let e := elem s ((s.wait c true).headD (0, 0))
    some (goto (unlock (record (wake s c true none) c [] [e]) c) t .idle)
  | .refillOr c => handleOr s t c true (.refill c) (goto (unlock s c) t .idle)
  | .refill c =>
    let e := elem s ((s.wait c true).headD (0, 0))
    let s' := wake s c true none
    some (goto (unlock { s' with buf := upd s'.buf c (s'.buf c ++ [e]) } c) t .idle)

inductive Act where
  /-- a thread starts a `waituntil` statement -/
  | wait (t : Nat) (cs : List Clause)
  | tryInsert (t c v : Nat)
  | tryRemove (t c : Nat)
  /-- the next step of a thread -/
  | step (t : Nat)
  /-- the alarm of clause `i` of thread `t` goes off: select.cfa:34-37 -/
  | fire (t i : Nat)
  deriving DecidableEq, Repr

def next (s : State) : Act → Option State
  -- Waituntil.cpp:1061-1068
  | .wait t cs =>
    if s.pc t = .idle ∧ cs ≠ [] then
      some (goto { setStatus s t .unsat with prog := upd s.prog t cs, ran := upd s.ran t [], did := upd s.did t [] } t (.reg 0))
    else none
  | .tryInsert t c v => if s.pc t = .idle then some (goto s t (.ins c v)) else none
  | .tryRemove t c => if s.pc t = .idle then some (goto s t (.rem c)) else none
  | .step t => step s t
  | .fire t i =>
    if s.armed t i ∧ s.status t = .unsat then some { setStatus s t (.node i) with token := upd s.token t true } else none

end Verif.Select
