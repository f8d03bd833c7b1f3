import Verif.Model.Trans
import Verif.Model.Heap
import Verif.Model.Sort
/-!
Monitors: mutual exclusion, internal scheduling (`wait`, `signal`, `signal_block`) and external scheduling (`waitfor`) over any number
of monitors (libcfa/src/concurrency/monitor.cfa, monitor.hfa, invoke.h). Monitors, threads, conditions and functions are numbers; the
number of a monitor is its address.

A critical section under the spin lock of a monitor is one step, and so is one under the spin locks of several monitors (`lock_all` ...
`unlock_all`), with one exception: `wait` gives up its monitors one at a time and other threads may act in between, which only adds
executions. A second `lock_all` of the same spin lock never returns, so such a step is not enabled. `unpark` leaves a token for a thread
that has not parked yet (Model/Park.lean models the kernel's side). A waiting thread has one condition node, and its criteria are known
by the thread and the monitor. Not modelled: destructors and `join` (`__dtor_enter`, `__dtor_leave`, `__thread_finish`, the low bit of
`owner`), the `user_info` of `wait`, wrapping of `recursion` after 2^32 nested calls, timeouts (not supported by the code either).
-/
namespace Verif.Monitor
open Verif

/-- invoke.h:155-161 `__monitor_group_t`, and monitor.hfa:160-163 `__acceptable_t` for routines that are no destructors; `none` is the
    null function. -/
structure Group where
  mons : List Nat
  fn : Option Nat
  deriving DecidableEq, Repr

/-- monitor.hfa:44-48 `monitor_guard_t`, with `func` for the calls of `is_accepted`; with `stmt` the guard of a mutex statement
    (mutex_stmt.hfa:17-28), which has no group. -/
structure Guard where
  mons : List Nat
  fn : Option Nat
  prev : Group
  stmt : Bool
  deriving Repr

inductive Pc where
  /-- user code -/
  | run
  /-- about to enter the monitor number `i` of the innermost guard (monitor.cfa:327-331) -/
  | enter (i : Nat)
  /-- queued at the monitor number `i` of the innermost guard, about to park or parked (monitor.cfa:126-127, 1005-1006) -/
  | epark (i : Nat)
  /-- about to leave the monitors number `i - 1` ... `0` of the innermost guard (monitor.cfa:335-339) -/
  | leave (i : Nat)
  /-- has left the monitor number `i`, about to unpark its new owner (monitor.cfa:276) -/
  | lwake (i : Nat) (u : Option Nat)
  /-- in `wait`, appended to the condition (monitor.cfa:452) -/
  | w1 (c : Nat)
  /-- in `wait`, `signal_block` or `waitfor`: monitors to give up, then threads to unpark -/
  | rel (ms ts : List Nat)
  /-- about to park or parked (monitor.cfa:484, 550, 636, 674) -/
  | park
  /-- woken, about to restore the recursion levels and masks (monitor.cfa:487, 556, 639, 681) -/
  | restore
  deriving DecidableEq, Repr

structure State where
  owner : Nat → Option Nat
  recn : Nat → Int
  /-- the waiting thread, which has the variable `accepted` points to, and the acceptable calls; `none` for null `data` -/
  mask : Nat → Option (Nat × List Group)
  entry : Nat → List Nat
  /-- the threads of the criteria on the stack, the top first -/
  sig : Nat → List Nat
  /-- the monitors of a condition (`none`: null) and the threads of its queue -/
  brand : Nat → Option (List Nat)
  blocked : Nat → List Nat
  pc : Nat → Pc
  tok : Nat → Bool
  /-- `thread$.monitors` -/
  grp : Nat → Group
  stk : Nat → List Guard
  /-- the condition node of a thread: targets and `ready` of its criteria; the saved recursion levels and masks -/
  wm : Nat → List Nat
  rd : Nat → Nat → Bool
  sv : Nat → Nat → Int
  svm : Nat → Nat → Option (Nat × List Group)
  /-- the result of the last `waitfor` of a thread, `none` for -1 -/
  accepted : Nat → Option Nat
  /-- for the properties: the time at which a thread was last queued at a monitor -/
  arr : Nat → Nat
  now : Nat

/-- monitor.hfa:30-40 `?{}(monitor$ &)`, 134-137 `?{}( condition & )`; no thread has entered a monitor. -/
def start : State :=
  { owner := fun _ => none, recn := fun _ => 0, mask := fun _ => none, entry := fun _ => [], sig := fun _ => [], brand := fun _ => none,
    blocked := fun _ => [], pc := fun _ => .run, tok := fun _ => false, grp := fun _ => ⟨[], none⟩, stk := fun _ => [],
    wm := fun _ => [], rd := fun _ _ => false, sv := fun _ _ => 0, svm := fun _ _ => none, accepted := fun _ => none,
    arr := fun _ => 0, now := 0 }

/-- bits/algorithm.hfa:115-125 `__libcfa_small_sort` by address; Model/Sort.lean has the algorithm. -/
def sortMons (ms : List Nat) : List Nat :=
  match Sort.smallSort ms with
  | .ret r => r
  | _ => ms

/-- monitor.cfa:688-696 `__set_owner( monitor$ *, thread$ * )`. -/
def setOwner (s : State) (m : Nat) (o : Option Nat) : State :=
  { s with owner := upd s.owner m o, recn := upd s.recn m (if o.isSome then 1 else 0) }

/-- monitor.cfa:698-709 `__set_owner( monitor$ * [], count, owner )`: recursion 1 for the first monitor and 0 for the others. -/
def setOwners (s : State) (ms : List Nat) (o : Nat) : State :=
  { s with owner := fun m => if m ∈ ms then some o else s.owner m,
           recn := fun m => if m ∈ ms then (if ms.head? = some m then 1 else 0) else s.recn m }

/-- monitor.cfa:869-891 `check_condition`: marks the criterion of monitor `m` of thread `x`; the thread if all its criteria are ready. -/
def checkCondition (s : State) (x m : Nat) : State × Option Nat :=
  let s := { s with rd := upd s.rd x (upd (s.rd x) m true) }
  (s, if (s.wm x).all (s.rd x) then some x else none)

/-- monitor.cfa:723-746 `next_thread`: the top of the signaller stack, else the head of the entry queue, becomes the owner. -/
def nextThread (s : State) (m : Nat) : State × Option Nat :=
  match s.sig m with
  | x :: xs => checkCondition (setOwner { s with sig := upd s.sig m xs } m (some x)) x m
  | [] =>
    match s.entry m with
    | x :: xs => (setOwner { s with entry := upd s.entry m xs } m (some x), some x)
    | [] => (setOwner s m none, none)

/-- monitor.cfa:748-770 `is_accepted`: the state with `*accepted` written if the call is accepted. For a monitor that is not the first
    of the group, line 757 compares the pointer `accepted` with 0, which is always true. -/
def isAccepted (s : State) (m : Nat) (g : Group) : Option State :=
  match s.mask m with
  | none => none
  | some (a, cl) =>
    if g.mons.head? = some m then
      match cl.findIdx? (fun c => c = g) with
      | some i => some { s with accepted := upd s.accepted a (some i) }
      | none => none
    else some s

/-- monitor.cfa:118-125 (and 1001-1004): queueing at a monitor. -/
def enqueue (s : State) (t m i : Nat) : State :=
  { s with entry := upd s.entry m (s.entry m ++ [t]), pc := upd s.pc t (.epark i), arr := upd s.arr t s.now, now := s.now + 1 }

/-- monitor.cfa:87-141 `__enter`, and 974-1015 `lock( monitor$ * )` for mutex statements: thread `t` enters monitor `m`, the number `i`
    of its guard `g`. -/
def enterMon (s : State) (t m i : Nat) (g : Guard) : State :=
  match s.owner m with
  | none => { setOwner s m (some t) with pc := upd s.pc t (.enter (i + 1)) }
  | some o =>
    if o = t then { s with recn := upd s.recn m (s.recn m + 1), pc := upd s.pc t (.enter (i + 1)) }
    else if g.stmt then enqueue s t m i
    else
      match isAccepted s m ⟨g.mons, g.fn⟩ with
      | some s' => { setOwner s' m (some t) with mask := upd s'.mask m none, pc := upd s'.pc t (.enter (i + 1)) }
      | none => enqueue s t m i

/-- monitor.cfa:239-277 `__leave` up to the `unlock`: thread `t` leaves monitor `m`, the number `i` of its guard. -/
def leaveMon (s : State) (t m i : Nat) : State :=
  let s := { s with recn := upd s.recn m (s.recn m - 1) }
  if s.recn m ≠ 0 then { s with pc := upd s.pc t (.leave i) }
  else
    let r := nextThread s m
    { r.1 with pc := upd r.1.pc t (.lwake i r.2) }

/-- kernel: `unpark`, nothing for the null pointer. -/
def unpark (s : State) (u : Option Nat) : State :=
  match u with
  | none => s
  | some u => { s with tok := upd s.tok u true }

/-- monitor.cfa:938-948 `insert_unique`, without its accesses (Model/WaitforAgg.lean has them). -/
def insertUnique (ts : List Nat) (v : Option Nat) : List Nat :=
  match v with
  | none => ts
  | some v => if v ∈ ts then ts else ts ++ [v]

/-- monitor.cfa:838-846 `save`, into the context of thread `t`. -/
def save (s : State) (t : Nat) : State :=
  { s with sv := upd s.sv t s.recn, svm := upd s.svm t s.mask }

/-- monitor.cfa:848-861 `restore`. -/
def restore (s : State) (t : Nat) : State :=
  { s with recn := fun m => if m ∈ s.wm t then s.sv t m else s.recn m,
           mask := fun m => if m ∈ s.wm t then s.svm t m else s.mask m }

/-- monitor.cfa:772-778 `init`: a new node of thread `t`. -/
def initNode (s : State) (t : Nat) (ms : List Nat) : State :=
  { s with wm := upd s.wm t ms, rd := upd s.rd t (fun _ => false) }

/-- The criteria of thread `x` go to the signaller stacks of their monitors (monitor.cfa:516-520, 783-785). -/
def pushAll (s : State) (x : Nat) : State :=
  { s with sig := fun m => if m ∈ s.wm x then x :: s.sig m else s.sig m }

/-- monitor.cfa:893-905 `brand_condition`. -/
def brandCond (s : State) (t c : Nat) : State :=
  match s.brand c with
  | some _ => s
  | none => { s with brand := upd s.brand c (some (s.grp t).mons) }

/-- monitor.cfa:907-935 `search_entry_queue`: the first acceptable call, in the order of the `waitfor`, that some thread in the queue
    makes, and the first such thread. -/
def search (s : State) (q : List Nat) : List Group → Nat → Option (Nat × Nat)
  | [], _ => none
  | g :: gs, i =>
    match q.find? (fun u => g = s.grp u) with
    | some u => some (u, i)
    | none => search s q gs (i + 1)

/-- monitor.cfa:959-971 `aggregate`: the monitors of the acceptable calls without duplicates, sorted. -/
def aggregate (cl : List Group) : List Nat :=
  sortMons ((cl.flatMap (·.mons)).foldl (fun l m => insertUnique l (some m)) [])

/-- monitor.cfa:720 `set_mask`. -/
def setMask (s : State) (ms : List Nat) (t : Nat) (cl : List Group) : State :=
  { s with mask := fun m => if m ∈ ms then some (t, cl) else s.mask m }

/-- monitor.cfa:581-687 `__waitfor_internal`; `blk` is a negative duration, otherwise it is 0. -/
def waitfor (s : State) (t : Nat) (cl : List Group) (blk : Bool) : State :=
  let cl := cl.map fun g => { g with mons := sortMons g.mons }
  let s := { s with accepted := upd s.accepted t none }
  match aggregate cl with
  | [] => s
  | m0 :: ms =>
    match search s (s.entry m0) cl 0 with
    | some (u, i) =>
      let s := { s with accepted := upd s.accepted t (some i), entry := upd s.entry m0 ((s.entry m0).erase u) }
      let s := setOwners (save (pushAll (initNode s t (m0 :: ms)) t) t) (m0 :: ms) u
      { s with pc := upd s.pc t (.rel [] [u]) }
    | none =>
      if blk then
        let s := setMask (save (pushAll (initNode s t (m0 :: ms)) t) t) (m0 :: ms) t cl
        { s with pc := upd s.pc t (.rel [] []) }
      else s

/-- monitor.cfa:493-524 `signal`, release build. -/
def signal (s : State) (c : Nat) : State :=
  match s.blocked c with
  | [] => s
  | x :: xs => pushAll { s with blocked := upd s.blocked c xs } x

/-- monitor.cfa:526-559 `signal_block` of thread `t` up to the `unlock_all`. -/
def signalBlock (s : State) (t c : Nat) : State :=
  match s.blocked c with
  | [] => s
  | x :: xs =>
    let ms := (s.brand c).getD []
    let s := setOwners (save (pushAll (initNode { s with blocked := upd s.blocked c xs } t ms) t) t) ms x
    { s with pc := upd s.pc t (.rel [] [x]) }

inductive Act where
  /-- a call of a mutex routine, or a mutex statement -/
  | call (t : Nat) (ms : List Nat) (f : Nat)
  | stmt (t : Nat) (ms : List Nat)
  /-- the end of the innermost call or statement -/
  | ret (t : Nat)
  | wait (t c : Nat)
  | signal (t c : Nat)
  | signalBlock (t c : Nat)
  | waitfor (t : Nat) (cl : List Group) (blk : Bool)
  /-- the next step of a thread inside of the operations -/
  | step (t : Nat)
  deriving Repr

/-- The next step of thread `t` inside of the operations. -/
def stepThread (s : State) (t : Nat) : Option State :=
  match s.pc t with
  | .run => none
  | .enter i =>
    match s.stk t with
    | [] => none
    | g :: _ =>
      match g.mons[i]? with
      | none => some { s with pc := upd s.pc t .run }
      | some m => some (enterMon s t m i g)
  | .epark i => if s.tok t then some { s with tok := upd s.tok t false, pc := upd s.pc t (.enter (i + 1)) } else none
  | .leave 0 =>
    match s.stk t with
    | [] => none
    -- monitor.cfa:382 restores the group of the thread
    | g :: gs => some { s with stk := upd s.stk t gs, grp := if g.stmt then s.grp else upd s.grp t g.prev, pc := upd s.pc t .run }
  | .leave (i + 1) =>
    match s.stk t with
    | [] => none
    | g :: _ =>
      match g.mons[i]? with
      | none => none
      | some m => some (leaveMon s t m i)
  | .lwake i u => some { unpark s u with pc := upd s.pc t (.leave i) }
  -- monitor.cfa:454-463
  | .w1 _ => if (s.wm t).Nodup then some { save s t with pc := upd s.pc t (.rel (s.wm t) []) } else none
  -- monitor.cfa:465-469
  | .rel (m :: ms) ts =>
    let r := nextThread s m
    some { r.1 with pc := upd r.1.pc t (.rel ms (insertUnique ts r.2)) }
  -- monitor.cfa:477-479, 548, 633
  | .rel [] (u :: us) => some { unpark s (some u) with pc := upd s.pc t (.rel [] us) }
  | .rel [] [] => some { s with pc := upd s.pc t .park }
  | .park => if s.tok t then some { s with tok := upd s.tok t false, pc := upd s.pc t .restore } else none
  | .restore => some { restore s t with pc := upd s.pc t .run }

def next (s : State) : Act → Option State
  -- monitor.cfa:343-364 `?{}( monitor_guard_t &, ...)`
  | .call t ms f =>
    if s.pc t = .run then
      some { s with stk := upd s.stk t (⟨sortMons ms, some f, s.grp t, false⟩ :: s.stk t), grp := upd s.grp t ⟨sortMons ms, some f⟩,
                    pc := upd s.pc t (.enter 0) }
    else none
  -- mutex_stmt.hfa:22-28
  | .stmt t ms =>
    if s.pc t = .run then
      some { s with stk := upd s.stk t (⟨sortMons ms, none, s.grp t, true⟩ :: s.stk t), pc := upd s.pc t (.enter 0) }
    else none
  -- monitor.cfa:372-383 `^?{}( monitor_guard_t & )`
  | .ret t =>
    if s.pc t = .run then
      match s.stk t with
      | [] => none
      | g :: _ => some { s with pc := upd s.pc t (.leave g.mons.length) }
    else none
  -- monitor.cfa:434-452 `wait`
  | .wait t c =>
    if s.pc t = .run then
      let s := brandCond s t c
      let s := initNode s t ((s.brand c).getD [])
      some { s with blocked := upd s.blocked c (s.blocked c ++ [t]), pc := upd s.pc t (.w1 c) }
    else none
  | .signal t c =>
    if s.pc t = .run then some (signal s c) else none
  | .signalBlock t c =>
    if s.pc t = .run then some (signalBlock s t c) else none
  | .waitfor t cl blk =>
    if s.pc t = .run then some (waitfor s t cl blk) else none
  | .step t => stepThread s t

/-- How often monitor `m` occurs in these guards. -/
def below (gs : List Guard) (m : Nat) : Nat := (gs.map fun g => g.mons.count m).sum

/-- How often a thread has entered monitor `m`, from its program counter and its guards; a thread that waits counts. -/
def dep (pc : Pc) (stk : List Guard) (m : Nat) : Nat :=
  match pc, stk with
  | .enter i, g :: gs | .epark i, g :: gs | .leave i, g :: gs | .lwake i _, g :: gs => (g.mons.take i).count m + below gs m
  | _, gs => below gs m

/-- The rules of use: a thread waits on, signals and signal-blocks a condition only in a routine with exactly the monitors of the first
    `wait` on the condition (a debug build checks this for `signal`), and names in a `waitfor` only monitors that it has entered, in calls
    of routines with at least one monitor. -/
def Proper (s : State) : Act → Prop
  | .wait t c => (s.grp t).mons ≠ [] ∧ (s.brand c = none ∨ s.brand c = some (s.grp t).mons)
  | .signal t c => s.brand c = some (s.grp t).mons ∨ s.blocked c = []
  | .signalBlock t c => s.brand c = some (s.grp t).mons ∨ s.blocked c = []
  | .waitfor t cl _ => ∀ g ∈ cl, g.mons ≠ [] ∧ g.fn ≠ none ∧ ∀ m ∈ g.mons, 0 < dep (s.pc t) (s.stk t) m
  | _ => True

instance (s : State) (a : Act) : Decidable (Proper s a) := by cases a <;> unfold Proper <;> infer_instance

/-- Executions in which the threads follow the rules of use. -/
def nextP (s : State) (a : Act) : Option State := if Proper s a then next s a else none

end Verif.Monitor
