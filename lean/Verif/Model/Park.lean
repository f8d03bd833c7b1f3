import Verif.Model.Trans
/-!
The ticket protocol of park and unpark (kernel.cfa:281-395, 436-464, 525-572, invoke.h:190-195). One thread, any number of processors and of threads that
unpark it. The fields of the state count where the thread is, so that being in two places at once, or in none, can be expressed.
-/
namespace Verif.Park
open Verif

/-- `thrd->state` as far as these routines set it. -/
inductive TState where
  | ready
  | active
  | blocked
  deriving DecidableEq, Repr

structure State where
  /-- -1 TICKET_BLOCKED, 0 TICKET_RUNNING, 1 TICKET_UNBLOCK -/
  ticket : Int
  tstate : TState
  /-- `thrd->preempted != __NO_PREEMPTION` -/
  preempted : Bool
  /-- how many times the thread is in a ready queue -/
  queued : Nat
  /-- the number of processors executing the thread -/
  running : Nat
  /-- the number of processors that have switched away from the thread, before kernel.cfa:342 -/
  left : Nat
  /-- the same, before kernel.cfa:371 -/
  leaving : Nat
  /-- the number of threads that have found the thread blocked and are going to schedule it (kernel.cfa:559-562) -/
  waking : Nat
  aborted : Bool
  /-- for the properties: the number of calls of `park`, of returns of `park`, and of calls of `unpark` -/
  parks : Nat
  returned : Nat
  unparks : Nat
  deriving DecidableEq, Repr

/-- A thread that has been put in a ready queue for the first time. -/
def start : State :=
  { ticket := 0, tstate := .ready, preempted := false, queued := 1, running := 0, left := 0, leaving := 0, waking := 0, aborted := false,
    parks := 0, returned := 0, unparks := 0 }

inductive Act where
  /-- a processor takes the thread from a ready queue (kernel.cfa:296-321); the thread returns from `park` if it was in `park` -/
  | run
  /-- the thread calls `park` (kernel.cfa:567-572) -/
  | park
  /-- the thread is preempted or yields -/
  | preempt
  /-- kernel.cfa:342-368 -/
  | check
  /-- kernel.cfa:371-384 -/
  | block
  /-- `__must_unpark`, called by a thread that unparks this one (kernel.cfa:525-539, 556-559) -/
  | unpark
  /-- `schedule_thread$`, the rest of `unpark` (kernel.cfa:562, 451-458) -/
  | schedule
  deriving DecidableEq, Repr

/-- One step. -/
def next (s : State) (a : Act) : Option State := if s.aborted then none else match a with
  | .run => if 0 < s.queued then some
      { s with
        queued := s.queued - 1, tstate := .active, running := s.running + 1, preempted := false,
        returned := if s.preempted then s.returned else s.parks }
    else none
  | .park => if 0 < s.running then some { s with running := s.running - 1, left := s.left + 1, parks := s.parks + 1 } else none
  | .preempt => if 0 < s.running then some { s with running := s.running - 1, left := s.left + 1, preempted := true } else none
  | .check => if 0 < s.left then
      -- kernel.cfa:342-349, 451-458
      if s.preempted then some { s with left := s.left - 1, queued := s.queued + 1 }
      -- kernel.cfa:364
      else some { s with left := s.left - 1, leaving := s.leaving + 1, tstate := .blocked }
    else none
  | .block => if 0 < s.leaving then
      let s1 := { s with leaving := s.leaving - 1, ticket := s.ticket - 1 }
      if s.ticket = 0 then some s1
      -- kernel.cfa:380, 297-321
      else if s.ticket = 1 then some { s1 with tstate := .active, running := s.running + 1, returned := s.parks }
      else some { s1 with aborted := true }
    else none
  | .unpark =>
    let s1 := { s with ticket := s.ticket + 1, unparks := s.unparks + 1 }
    if s.ticket = 0 then some s1
    else if s.ticket = -1 then some { s1 with waking := s.waking + 1 }
    else some { s1 with aborted := true }
  | .schedule => if 0 < s.waking then
      some { s with waking := s.waking - 1, queued := s.queued + 1, tstate := if s.preempted then s.tstate else .ready }
    else none

/-- Matched use: each `unpark` is for the park the thread is in, or, if it is in none, for the next one: so far there have been as many unparks as the
    thread has returned from parks. -/
def Proper (s : State) : Act → Prop
  | .unpark => s.unparks = s.returned
  | _ => True

instance (s : State) (a : Act) : Decidable (Proper s a) := by cases a <;> simp only [Proper] <;> infer_instance

def nextP (s : State) (a : Act) : Option State := if Proper s a then next s a else none

end Verif.Park
