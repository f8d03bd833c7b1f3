import Mathlib.Data.List.Basic

/-!
# Preemption (`libcfa/src/concurrency/preemption.cfa`)

The first part is one processor: the code that runs on it, step by step, and the signal for
preemption, which arrives between any two steps.  The second part is the timer of the program and
the alarms that wait for it.
-/

namespace Verif.Preempt

/-! ## One processor -/

/-- Where the processor is.  `user` is any code that is not in this file; the others are the places
between the steps of the routines.  A step is one access to the variables of `preemption_state` or
to `pending_preemption`. -/
inductive Pc where
  /-- other code -/
  | user
  /-- `disable_interrupts` (preemption.cfa 270-286): before the store at line 278, and after it. -/
  | d0 | d1
  /-- `enable_interrupts( poll )` (preemption.cfa 290-321): at the start, before line 311, before line
  315, and before the return. -/
  | e0 (poll : Bool) | e1 (poll : Bool) | e2 (poll : Bool) | e3
  /-- `poll_interrupts` (preemption.cfa 328-342): at the start, before line 336; it returns from
  `e3`. -/
  | p0 | p1
  /-- `force_yield` (`kernel.cfa` 611-628): at the start; in its call of `disable_interrupts`; where
  it leaves the processor to other threads (line 624); in its call of `enable_interrupts( false )`,
  before line 297 and before line 311; before its return. -/
  | f0 | f1 | f2 | f3 | f4 | f5
deriving DecidableEq, Repr

/-- Is the place in the regions `__libcfa_nopreempt` and `__libcfathrd_nopreempt` (preemption.cfa
240-253)?  The routines marked `libcfa_nopreempt` are: `disable_interrupts`, `enable_interrupts` and
`poll_interrupts`, also when they are called by `force_yield`, which is not itself. -/
def Pc.inRegion : Pc → Bool
  | .user | .f0 | .f2 | .f5 => false
  | _ => true

/-- A processor.  `stack` has the place of the running routine first, and then the places to return
to; `nest` is the number of sections the user code is in: its calls of `disable_interrupts` that have
returned and for which it has not called `enable_interrupts`. -/
structure Proc where
  enabled : Bool
  count : Nat
  pending : Bool
  stack : List Pc
  nest : Nat
deriving DecidableEq, Repr

/-- A processor that runs user code with preemption enabled. -/
def Proc.start : Proc := ⟨true, 0, false, [.user], 0⟩

/-- What happens on a processor. -/
inductive Act where
  /-- The user code calls `disable_interrupts`, `enable_interrupts( poll )`, `poll_interrupts`. -/
  | callDisable | callEnable (poll : Bool) | callPoll
  /-- The next step of the routine that runs. -/
  | step
  /-- The signal for preemption arrives. -/
  | signal
deriving DecidableEq, Repr

/-- The signal handler (preemption.cfa 545-598 with `preemption_ready`, lines 452-465): in a region,
or with preemption not enabled, the signal is noted as pending; otherwise the note is cleared and
`force_yield` is called.  (`in_progress` is not modelled: the signal is blocked while it is set.  The
values other than `PREEMPT_NORMAL` do the same.) -/
def onSignal (p : Proc) (pc : Pc) : Proc :=
  let ready := !pc.inRegion && p.enabled
  if ready then { p with pending := false, stack := .f0 :: p.stack }
  else { p with pending := true }

/-- One step of the routine at the top of the stack; `rest` is the stack below it.  Counts are
`unsigned short`. -/
def micro (p : Proc) (pc : Pc) (rest : List Pc) : Proc :=
  match pc with
  | .user => p
  | .d0 => { p with enabled := false, stack := .d1 :: rest }
  | .d1 => { p with count := (p.count + 1) % 65536, stack := rest, nest := p.nest + 1 }
  | .e0 poll =>
    { p with count := (p.count + 65535) % 65536,
             stack := (if p.count = 1 then .e1 poll else .e3) :: rest }
  | .e1 poll => { p with enabled := true, stack := .e2 poll :: rest }
  | .e2 poll =>
    if poll && p.pending then { p with pending := false, stack := .f0 :: .e3 :: rest }
    else { p with stack := .e3 :: rest }
  | .e3 => { p with stack := rest }
  | .p0 => { p with stack := (if p.enabled then .p1 else .e3) :: rest }
  | .p1 =>
    if p.pending then { p with pending := false, stack := .f0 :: .e3 :: rest }
    else { p with stack := .e3 :: rest }
  | .f0 => { p with enabled := false, stack := .f1 :: rest }
  | .f1 => { p with count := (p.count + 1) % 65536, stack := .f2 :: rest }
  | .f2 => { p with stack := .f3 :: rest }
  | .f3 =>
    { p with count := (p.count + 65535) % 65536, stack := (if p.count = 1 then .f4 else .f5) :: rest }
  | .f4 => { p with enabled := true, stack := .f5 :: rest }
  | .f5 => { p with stack := rest }

/-- What an event does; `none` if it cannot take place.  The user code calls `enable_interrupts` only
in a section. -/
def act (p : Proc) (a : Act) : Option Proc :=
  match p.stack with
  | [] => none
  | pc :: rest =>
    match a with
    | .signal => some (onSignal p pc)
    | .step => if pc = .user then none else some (micro p pc rest)
    | .callDisable => if pc = .user then some { p with stack := .d0 :: p.stack } else none
    | .callEnable poll =>
      if pc = .user ∧ 0 < p.nest then
        some { p with stack := .e0 poll :: p.stack, nest := p.nest - 1 }
      else none
    | .callPoll => if pc = .user then some { p with stack := .p0 :: p.stack } else none

/-- The processor is given to another thread in this step (`returnToKernel`, `kernel.cfa` 624). -/
def switches (p : Proc) (a : Act) : Bool := a == .step && p.stack.head? == some .f2

/-! ## The timer -/

/-- The timer (`ITIMER_REAL`): the time when it rings, if it is armed; the signal `SIGALRM`, which
waits for the alarm thread; and the alarms, by deadline.  Times are in nanoseconds. -/
structure Timer where
  now : Nat
  rings : Option Nat
  sigalrm : Bool
  alarms : List (Nat × Nat)
deriving DecidableEq, Repr

/-- `getitimer`: what is left, in microseconds rounded down, but not 0 while the timer is armed. -/
def getitimer (t : Timer) : Nat :=
  match t.rings with
  | none => 0
  | some r => max 1000 ((r - t.now) / 1000 * 1000)

/-- `__kernel_set_timer` (`alarm.cfa` 39-47); `setitimer` has microseconds (`time.hfa` 148-152). -/
def setTimer (t : Timer) (alarm : Nat) : Timer :=
  let alarm := max alarm 1000
  let od := getitimer t
  if od = 0 ∨ od > alarm then { t with rings := some (t.now + alarm / 1000 * 1000) } else t

/-- `insert` of the alarm list (`alarm.cfa` 85-90): alarms are pairs of deadline and period. -/
def insert (n : Nat × Nat) : List (Nat × Nat) → List (Nat × Nat)
  | [] => [n]
  | a :: as => if a.1 ≤ n.1 then a :: insert n as else n :: a :: as

/-- The loop of `tick_preemption` (preemption.cfa 116-144): alarms whose deadline is past are taken
out; those with a period are put back.  The result: the alarms left, and those that went off.  The
first argument bounds the number of alarms. -/
def expire (now : Nat) : Nat → List (Nat × Nat) → List (Nat × Nat) × List (Nat × Nat)
  | 0, as => (as, [])
  | _ + 1, [] => ([], [])
  | f + 1, a :: as =>
    if now ≤ a.1 then (a :: as, [])
    else
      let r := expire now f (if 0 < a.2 then insert (now + a.2, a.2) as else as)
      (r.1, a :: r.2)

/-- `tick_preemption` (preemption.cfa 110-151). -/
def tick (t : Timer) : Timer × List (Nat × Nat) :=
  let r := expire t.now t.alarms.length t.alarms
  let t' := { t with alarms := r.1 }
  (match r.1 with
   | [] => t'
   | a :: _ => setTimer t' (a.1 - t.now), r.2)

/-- What happens to the timer. -/
inductive TAct where
  /-- Time passes. -/
  | wait (d : Nat)
  /-- `register_self` (`alarm.cfa` 102-118), of an alarm with this deadline and period. -/
  | register (n : Nat × Nat)
  /-- `unregister_self` (`alarm.cfa` 120-130), of the alarm at this place of the list. -/
  | unregister (i : Nat)
  /-- The alarm thread receives `SIGALRM` (preemption.cfa 620-671). -/
  | alarm
deriving DecidableEq, Repr

/-- What an event does to the timer.  A timer whose time has come sends `SIGALRM` and is disarmed.
What is done with the lock held (`register_self`, `unregister_self` and `tick_preemption`) takes no
time here. -/
def tact (t : Timer) : TAct → Timer
  | .wait d =>
    match t.rings with
    | none => { t with now := t.now + d }
    | some r => if r ≤ t.now + d then ⟨t.now + d, none, true, t.alarms⟩ else { t with now := t.now + d }
  | .register n => setTimer { t with alarms := insert n t.alarms } (n.1 - t.now)
  | .unregister i => { t with alarms := t.alarms.eraseIdx i }
  | .alarm => if t.sigalrm then (tick { t with sigalrm := false }).1 else t

/-- The alarm of a processor when its `preemption_scope` is constructed (preemption.cfa 524-530 with
`alarm.cfa` 62-69 and `update_preemption`, lines 154-162): its deadline is that of its constructor,
with a duration of 0; its period is the preemption rate. -/
def scopeAlarm (now rate : Nat) : Nat × Nat := (now + 0, rate)

end Verif.Preempt
