import Verif.Model.Dlist
/-!
Model of the alarm list, /repo/libcfa/src/concurrency/alarm.cfa and the expiry pass of
/repo/libcfa/src/concurrency/preemption.cfa, on top of the model of `dlist`.

The list header is at address `Q`. Times are unbounded integers (nanoseconds). `register_self` and `unregister_self` run
under the event kernel's lock with interrupts disabled, so each call is one step. What an alarm does when it fires
(`preempt`, `timeout`, `callback`) is recorded by the node only. The interval timer is not modelled.
-/
namespace Verif.Alarm
open Verif

/-- Address of `event_kernel->alarms`. -/
def Q : Nat := 2
def H (a : Nat) : Bool := a == Q

/-- alarm.hfa:47-62 `alarm_node_t`, fields of all nodes. -/
structure St where
  d : Dlist.St
  deadline : Nat → Int
  period : Nat → Int
  set : Nat → Bool

def init : St := ⟨Dlist.init H, fun _ => 0, fun _ => 0, fun _ => false⟩

/-- `verify( validate( *this ) )`. -/
def check (dbg : Bool) (fuel : Nat) (s : St) : Outcome Unit :=
  if dbg then do
    let b ← Dlist.validate s.d Q fuel
    Dlist.verify true b
  else .ret ()

/-- alarm.cfa:53-77, constructors; `deadline` is the clock reading plus `alarm`. -/
def create (s : St) (n : Nat) (deadline period : Int) : St :=
  { s with deadline := upd s.deadline n deadline, period := upd s.period n period, set := upd s.set n false }

/-- alarm.cfa:87, the loop of `insert`: where the iterator stops. Out of fuel is `undef`. -/
def insertLoop (s : St) (n : Nat) : Nat → Nat → Outcome Nat
  | 0, _ => .undef
  | fuel + 1, it => do
    let r ← Dlist.advance s.d it
    if r.2 = true ∧ s.deadline r.1 ≤ s.deadline n then insertLoop s n fuel r.1 else pure r.1

/-- alarm.cfa:85-90 `insert`. -/
def insert (dbg : Bool) (fuel : Nat) (s : St) (n : Nat) : Outcome St := do
  let it ← insertLoop s n fuel (Dlist.iter Q)
  let d ← Dlist.insertBefore dbg s.d it n
  let s := { s with d := d }
  check dbg fuel s
  pure s

/-- alarm.cfa:92-100 `pop`. -/
def pop (dbg : Bool) (fuel : Nat) (s : St) : Outcome (St × Nat) := do
  check dbg fuel s
  let head ← Dlist.first s.d Q
  let s ← (if head ≠ 0 then do
      let d ← Dlist.remove dbg s.d head
      pure { s with d := d }
    else pure s)
  check dbg fuel s
  pure (s, head)

/-- alarm.cfa:102-118 `register_self`. -/
def register (dbg : Bool) (fuel : Nat) (s : St) (n : Nat) : Outcome St := do
  check dbg fuel s
  let s ← insert dbg fuel s n
  pure { s with set := upd s.set n true }

/-- alarm.cfa:120-130 `unregister_self`, and the destructor, lines 79-83. -/
def unregister (dbg : Bool) (fuel : Nat) (s : St) (n : Nat) : Outcome St := do
  check dbg fuel s
  let s ← (if s.set n = true then do
      let d ← Dlist.remove dbg s.d n
      pure { s with d := d }
    else pure s)
  pure { s with set := upd s.set n false }

/-- preemption.cfa:103-107 `get_expired`. -/
def getExpired (dbg : Bool) (fuel : Nat) (s : St) (now : Int) : Outcome (St × Nat) := do
  let f ← Dlist.first s.d Q
  if f = 0 then pure (s, 0)
  else if s.deadline f ≥ now then pure (s, 0)
  else pop dbg fuel s

/-- preemption.cfa:116-144, the loop of `tick_preemption`; the nodes fired, in order. `k` is the fuel of the loop. -/
def tick (dbg : Bool) (fuel : Nat) (now : Int) : Nat → St → Outcome (St × List Nat)
  | 0, _ => .undef
  | k + 1, s => do
    let (s, n) ← getExpired dbg fuel s now
    if n = 0 then pure (s, []) else
    let s := if s.period n = 0 then { s with set := upd s.set n false } else s
    let s ← (if s.period n > 0 then
        insert dbg fuel { s with deadline := upd s.deadline n (now + s.period n) } n
      else pure s)
    let (s, l) ← tick dbg fuel now k s
    pure (s, n :: l)

inductive Op where
  | create (n : Nat) (deadline period : Int) | register (n : Nat) | unregister (n : Nat) | tick (now : Int) | pending

inductive Res where
  | unit | nodes (l : List Nat)

/-- `pending` observes the list by a traversal. -/
def step (dbg : Bool) (fuel : Nat) (s : St) : Op → Outcome (St × Res)
  | .create n d p => .ret (create s n d p, .unit)
  | .register n => do let s ← register dbg fuel s n; pure (s, .unit)
  | .unregister n => do let s ← unregister dbg fuel s n; pure (s, .unit)
  | .tick now => do let (s, l) ← tick dbg fuel now fuel s; pure (s, .nodes l)
  | .pending => do let (l, _) ← Dlist.foreach s.d fuel (Dlist.iter Q); pure (s, .nodes l)

def run (dbg : Bool) (fuel : Nat) (s : St) : List Op → Outcome (St × List Res)
  | [] => .ret (s, [])
  | o :: os => do
    let (s, r) ← step dbg fuel s o
    let (s, rs) ← run dbg fuel s os
    pure (s, r :: rs)

end Verif.Alarm
