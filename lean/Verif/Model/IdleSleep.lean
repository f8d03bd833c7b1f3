import Verif.Model.Heap
import Verif.Model.Trans

/-!
# Idle processors

Model of the idle sleep of processors, `libcfa/src/concurrency/kernel.cfa`
149-272 (main loop), 454-464 (making a thread ready), 633-793, and of the
search of the ready queue, `libcfa/src/concurrency/ready_queue.cfa` 62-107,
164-241: one cluster with `n` processors and `c` lanes.  Threads are made ready
by any number `m` of callers (processors of this or other clusters, or other
kernel threads), which are agents of their own.

Simplifications: every access to shared memory is atomic and sequentially
consistent; of a lane only the number of threads is kept (the order is the
subject of `Model/Lane.lean`); the number of lanes does not change.  A running
processor may try any lane (`pop_fast`, `pop_slow`), run threads or decide to
halt at any time.
-/
namespace IdleSleep
open Verif

/-- `idle_wctx.sem`, kernel.cfa 646-667, 710-716, 759: 0, 1, or the number of the
event descriptor. -/
inductive Sem where
  | zero | one | fd
deriving DecidableEq

/-- Where a processor is. -/
inductive PC where
  /-- in the main loop, or running a thread -/
  | awake
  /-- `try_pop` on lane `j` with its lock held, ready_queue.cfa 181-210 -/
  | popping (j : Nat)
  /-- `mark_idle` before `try_lock`, kernel.cfa 762 -/
  | mi1
  /-- `mark_idle` before `insert_first`, kernel.cfa 763-766 -/
  | mi2
  /-- `mark_idle` before the store to `fdw` and `unlock`, kernel.cfa 768-770 -/
  | mi3
  /-- before `__next_thread_search`, kernel.cfa 220 -/
  | mi4
  /-- `search`, ready_queue.cfa 226-241, at iteration `i` -/
  | search (off i : Nat)
  /-- `try_pop` in `search` with the lock held -/
  | hold (off i : Nat)
  /-- `idle_sleep` before the load of `sem`, kernel.cfa 710 -/
  | s1
  /-- before the compare-and-exchange, kernel.cfa 716 -/
  | s2 (e : Sem)
  /-- in `read`, kernel.cfa 733 -/
  | reading
  /-- `mark_awake` before `lock`, kernel.cfa 778 -/
  | ma1
  /-- before `remove`, kernel.cfa 779-782 -/
  | ma2
  /-- before the store to `fdw` and `unlock`, kernel.cfa 784-791 -/
  | ma3
  /-- the main loop has been left -/
  | dead
deriving DecidableEq

/-- Where a caller is. -/
inductive WPC where
  | none
  /-- `push` with the lock of lane `j` held, ready_queue.cfa 97-101 -/
  | push (j : Nat)
  /-- `__wake_one` before the load of `fdw`, kernel.cfa 641 -/
  | w1
  /-- before the load of `sem`, kernel.cfa 647 -/
  | w2 (p : Nat)
  /-- before the exchange, kernel.cfa 648 -/
  | w3 (p : Nat)
  /-- before `eventfd_write`, kernel.cfa 670 -/
  | w4 (p : Nat)
  /-- `__wake_proc` before the store to `sem`, kernel.cfa 692 -/
  | t1 (p : Nat)
  /-- `__wake_proc` before `eventfd_write`, kernel.cfa 698 -/
  | t2 (p : Nat)
deriving DecidableEq

/-- Who holds the lock of a lane. -/
inductive Own where
  | proc (p : Nat)
  | caller (w : Nat)
deriving DecidableEq

structure St where
  pc : Nat → PC
  wk : Nat → WPC
  /-- number of threads in each lane -/
  lane : Nat → Nat
  /-- locks of the lanes -/
  ll : Nat → Option Own
  sem : Nat → Sem
  /-- counters of the event descriptors -/
  ev : Nat → Nat
  /-- `do_terminate` -/
  tm : Nat → Bool
  /-- lock of the lists of processors -/
  lk : Option Nat
  /-- `procs.idles` -/
  idles : List Nat
  /-- `procs.fdw` -/
  fdw : Option Nat

/-- The lane looked at in iteration `i` of `search`, ready_queue.cfa 230-232:
`( offset + i ) % count` with 32-bit unsigned numbers. -/
def ix (c off i : Nat) : Nat := (off + i) % 2 ^ 32 % c

inductive Act where
  /-- no thread was found: `p` wants to sleep, kernel.cfa 212-217, 759 -/
  | halt (p : Nat)
  /-- `p` tries lane `j`, ready_queue.cfa 184-191 -/
  | pop (p j : Nat)
  /-- `p` goes on -/
  | adv (p : Nat)
  /-- `p` begins to search at `off`, ready_queue.cfa 230 -/
  | off (p off : Nat)
  /-- `read` is interrupted, kernel.cfa 740 -/
  | intr (p : Nat)
  /-- caller `w` makes a thread ready and has the lock of lane `j`, ready_queue.cfa 71-95 -/
  | ready (w j : Nat)
  /-- caller `w` goes on -/
  | wake (w : Nat)
  /-- caller `w` destroys processor `p`, `libcfa/src/concurrency/kernel/startup.cfa` 600-607 -/
  | term (w p : Nat)
  /-- `p` sees `do_terminate` and leaves the main loop, kernel.cfa 214, 249 -/
  | quit (p : Nat)
deriving DecidableEq

/-- A step of processor `p`: `try_pop` and `search`, ready_queue.cfa 176-241; `mark_idle`, `mark_awake` and
`idle_sleep`, kernel.cfa 704-793. -/
def stepP (c : Nat) (st : St) (p : Nat) : Option St :=
  match st.pc p with
  | .popping j =>
    if st.lane j = 0 then some { st with pc := upd st.pc p .awake, ll := upd st.ll j none }
    else some { st with pc := upd st.pc p .awake, ll := upd st.ll j none, lane := upd st.lane j (st.lane j - 1) }
  | .mi1 =>
    if st.lk = none then some { st with pc := upd st.pc p .mi2, lk := some p }
    else some { st with pc := upd st.pc p .awake }
  | .mi2 => some { st with pc := upd st.pc p .mi3, idles := p :: st.idles }
  | .mi3 => some { st with pc := upd st.pc p .mi4, fdw := some p, lk := none }
  | .search off i =>
    if i < c then
      if st.lane (ix c off i) = 0 then some { st with pc := upd st.pc p (.search off (i + 1)) }
      else if st.ll (ix c off i) = none then
        some { st with pc := upd st.pc p (.hold off i), ll := upd st.ll (ix c off i) (some (.proc p)) }
      else some { st with pc := upd st.pc p (.search off (i + 1)) }
    else some { st with pc := upd st.pc p .s1 }
  | .hold off i =>
    if st.lane (ix c off i) = 0 then
      some { st with pc := upd st.pc p (.search off (i + 1)), ll := upd st.ll (ix c off i) none }
    else some { st with pc := upd st.pc p .ma1, ll := upd st.ll (ix c off i) none,
                        lane := upd st.lane (ix c off i) (st.lane (ix c off i) - 1) }
  | .s1 =>
    if st.sem p = .one then some { st with pc := upd st.pc p .ma1 }
    else some { st with pc := upd st.pc p (.s2 (st.sem p)) }
  | .s2 e =>
    if st.sem p = e then some { st with pc := upd st.pc p .reading, sem := upd st.sem p .fd }
    else some { st with pc := upd st.pc p .s1 }
  | .reading =>
    if st.ev p = 0 then none
    else some { st with pc := upd st.pc p .ma1, ev := upd st.ev p 0 }
  | .ma1 => if st.lk = none then some { st with pc := upd st.pc p .ma2, lk := some p } else none
  | .ma2 => some { st with pc := upd st.pc p .ma3, idles := st.idles.filter (· ≠ p) }
  | .ma3 => some { st with pc := upd st.pc p .awake, fdw := st.idles.head?, lk := none }
  | .awake => none
  | .mi4 => none
  | .dead => none

/-- A step of caller `w`: `push`, ready_queue.cfa 97-101; `__wake_one` and `__wake_proc`, kernel.cfa 634-702. -/
def stepW (st : St) (w : Nat) : Option St :=
  match st.wk w with
  | .none => none
  | .push j =>
    some { st with wk := upd st.wk w .w1, ll := upd st.ll j none, lane := upd st.lane j (st.lane j + 1) }
  | .w1 =>
    match st.fdw with
    | none => some { st with wk := upd st.wk w .none }
    | some p => some { st with wk := upd st.wk w (.w2 p) }
  | .w2 p =>
    if st.sem p = .one then some { st with wk := upd st.wk w .none }
    else some { st with wk := upd st.wk w (.w3 p) }
  | .w3 p =>
    if st.sem p = .fd then some { st with wk := upd st.wk w (.w4 p), sem := upd st.sem p .one }
    else some { st with wk := upd st.wk w .none, sem := upd st.sem p .one }
  | .w4 p => some { st with wk := upd st.wk w .none, ev := upd st.ev p (st.ev p + 1) }
  | .t1 p => some { st with wk := upd st.wk w (.t2 p), sem := upd st.sem p .one }
  | .t2 p => some { st with wk := upd st.wk w .none, ev := upd st.ev p (st.ev p + 1) }

/-- One step (the parts are cited at `Act`).  `offs`: the random numbers `search` may begin with. -/
def next (n c m : Nat) (offs : Nat → Bool) (st : St) : Act → Option St
  | .halt p =>
    if p < n ∧ st.pc p = .awake then
      some { st with pc := upd st.pc p .mi1, sem := upd st.sem p .zero }
    else none
  | .pop p j =>
    if p < n ∧ j < c ∧ st.pc p = .awake ∧ st.lane j ≠ 0 ∧ st.ll j = none then
      some { st with pc := upd st.pc p (.popping j), ll := upd st.ll j (some (.proc p)) }
    else none
  | .adv p => if p < n then stepP c st p else none
  | .off p off =>
    if p < n ∧ st.pc p = .mi4 ∧ off < 2 ^ 32 ∧ offs off = true then
      some { st with pc := upd st.pc p (.search off 0) }
    else none
  | .intr p =>
    if p < n ∧ st.pc p = .reading then some { st with pc := upd st.pc p .ma1 } else none
  | .ready w j =>
    if w < m ∧ j < c ∧ st.wk w = .none ∧ st.ll j = none then
      some { st with wk := upd st.wk w (.push j), ll := upd st.ll j (some (.caller w)) }
    else none
  | .wake w => if w < m then stepW st w else none
  | .term w p =>
    if w < m ∧ p < n ∧ st.wk w = .none ∧ st.tm p = false then
      some { st with wk := upd st.wk w (.t1 p), tm := upd st.tm p true }
    else none
  | .quit p =>
    if p < n ∧ st.pc p = .awake ∧ st.tm p = true then some { st with pc := upd st.pc p .dead } else none

/-- All processors run, nothing is ready. -/
def init : St :=
  ⟨fun _ => .awake, fun _ => .none, fun _ => 0, fun _ => none, fun _ => .zero, fun _ => 0, fun _ => false,
    none, [], none⟩

/-- All states, with any random numbers. -/
def Run (n c m : Nat) : St → Prop := Reach (next n c m fun _ => true) init

/-- Without destruction of processors, and with certain random numbers only. -/
def nextK (n c m : Nat) (offs : Nat → Bool) (st : St) (a : Act) : Option St :=
  match a with
  | .term _ _ => none
  | a => next n c m offs st a

def RunK (n c m : Nat) (offs : Nat → Bool) : St → Prop := Reach (nextK n c m offs) init

end IdleSleep
