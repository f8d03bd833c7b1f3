/-
Model of coroutines on one thread: resume, prime, suspend, the end of a main, destruction,
cancellation, and exceptions sent from one coroutine to another.

  libcfa/src/concurrency/coroutine.hfa   $ctx_switch, suspend, resume
  libcfa/src/concurrency/coroutine.cfa   constructor, destructor, prime, leave, finish, poll, resumeAt
  libcfa/src/concurrency/invoke.c        the frame below the main of a coroutine
  libcfa/src/concurrency/exception.cfa   the end of a cancelled coroutine

A coroutine is a number; 0 is the thread's own.  What the mains compute is not modelled: at any
moment the active coroutine may perform any operation.  Stacks, `__cfactx_switch` (assembly) and
the unwinder are trusted: switching to a coroutine continues where it switched away, which is kept
as `wait`.  The assertions are taken as switched on.  The storage of a destroyed coroutine is taken
to keep its last contents.
-/
namespace Verif.Model.Coroutine

/-- `enum __Coroutine_State` (invoke.h 87), the states that are used. -/
inductive CState
  | Halted | Start | Primed | Blocked | Active | Cancelled
  deriving DecidableEq, Repr

/-- `cancellation`: null, `1p`, or an exception to unwind with. -/
inductive Canc
  | null | one | exc
  deriving DecidableEq, Repr

/-- Where a coroutine is that is not running: what follows the return of `__cfactx_switch`. -/
inductive Wait
  | fresh                 -- `__cfactx_invoke_coroutine` (invoke.c 34-48)
  | inPrime               -- the suspend in `__cfactx_cor_finish`
  | inResume (d : Nat)    -- `resume( T & )`
  | inResumePtr           -- `resume( coroutine$ * )`
  | inSuspend
  | inDelete              -- the destructor of another coroutine
  | inLeave               -- `__cfactx_cor_leave`, followed by abort
  | inCancelStop          -- `coroutine_cancelstop`, followed by abort
  deriving DecidableEq, Repr

/-- Is the stack being unwound, and what follows at its end: `__cfactx_coroutine_unwindstop`
(invoke.c 50-67) or `coroutine_cancelstop` (exception.cfa 62-68). -/
inductive Mode
  | no | unwind | cancel
  deriving DecidableEq, Repr

/-- `struct coroutine$` (invoke.h 89-113).  `started` is `context.SP != 0p`. -/
structure Cor where
  state : CState
  starter : Option Nat
  last : Option Nat
  cancellation : Canc
  started : Bool
  wait : Wait
  mode : Mode
  ehm_buffer : List Nat
  ehm_enabled : Bool

/-- `curr` is `curr_cor`.  `raised`: `CoroutineCancelled` exceptions, with the coroutine they are
raised in and the one they name.  `nonlocal`: exceptions raised by `poll`, with the coroutine they
are raised in.  `cut`: coroutines whose clean-up was cut short, as unwinding began again in the
middle of it. -/
structure Sys where
  cor : Nat → Cor
  curr : Nat
  raised : List (Nat × Nat)
  nonlocal : List (Nat × Nat)
  cut : List Nat

def upd (s : Sys) (c : Nat) (v : Cor) : Sys :=
  { s with cor := fun k => if k = c then v else s.cor k }

/-- `?{}( coroutine$ & )`: coroutine.cfa 123-135. -/
def newCor : Cor :=
  { state := .Start, starter := none, last := none, cancellation := .null, started := false,
    wait := .fresh, mode := .no, ehm_buffer := [], ehm_enabled := false }

/-- A thread that has just begun: only its own coroutine runs. -/
def init : Sys :=
  { cor := fun c => if c = 0 then { newCor with state := .Active, started := true } else newCor
    curr := 0, raised := [], nonlocal := [], cut := [] }

/-- What follows the return of `__cfactx_switch` in `d`: the rest of `$ctx_switch` (coroutine.hfa
122-134), and of `resume` (coroutine.hfa 197-201) with `__cfaehm_cancelled_coroutine` (coroutine.cfa
63-80).  `none`: the program stops. -/
def returnIn (s : Sys) (d : Nat) : Option Sys :=
  let c := { s.cor d with state := .Active }
  if c.cancellation = .exc then
    some { upd s d { c with mode := .unwind } with
      cut := if c.mode = .no then s.cut else s.cut ++ [d] }
  else
    match c.wait with
    | .fresh => none
    | .inLeave => none
    | .inCancelStop => none
    | .inResume e =>
      if c.cancellation = .one then
        let s := upd s d { c with cancellation := .null }
        -- verify( desc->cancellation )
        if (s.cor e).cancellation ≠ .exc then none
        else
          some { upd s e { s.cor e with state := .Cancelled, cancellation := .null } with
            raised := s.raised ++ [(d, e)] }
      else some (upd s d c)
    | _ => some (upd s d c)

/-- The front of `$ctx_switch`: coroutine.hfa 104-119. -/
def switchFrom (s : Sys) (src dst : Nat) (w : Wait) : Sys :=
  let c := s.cor src
  let s := upd s src { c with state := if c.state = .Halted then .Halted else .Blocked, wait := w }
  { s with curr := dst }

/-- `__cfactx_switch` to something that is not fresh. -/
def arriveBack (s : Sys) : Option Sys :=
  if (s.cor s.curr).started then returnIn s s.curr else none

/-- `__cfactx_suspend`: coroutine.hfa 142-161. -/
def suspendIn (s : Sys) (w : Wait) (arrive : Sys → Option Sys) : Option Sys :=
  let src := s.curr
  match (s.cor src).last with
  | none => none
  | some l =>
    if (s.cor l).state = .Halted then none
    else arrive (switchFrom s src l w)

/-- `__cfactx_switch`; a fresh coroutine begins with `__cfactx_cor_finish` (coroutine.cfa
294-311). -/
def arrive (s : Sys) : Option Sys :=
  let c := s.cor s.curr
  if c.started then
    if c.wait = .fresh then
      if c.state = .Primed then suspendIn s .inPrime arriveBack
      else some (upd s s.curr { c with state := .Active })
    else returnIn s s.curr
  else none

/-- `resume( T & )`: coroutine.hfa 169-204. -/
def resume (s : Sys) (dst : Nat) : Option Sys :=
  let src := s.curr
  let d := s.cor dst
  let s := if d.started then s else upd s dst { d with started := true, wait := .fresh }
  if src ≠ dst then
    if (s.cor dst).state = .Halted then none
    else
      let s := upd s dst { s.cor dst with
        last := some src
        starter := match (s.cor dst).starter with | some x => some x | none => some src }
      arrive (switchFrom s src dst (.inResume dst))
  else arrive (switchFrom s src dst (.inResume dst))

/-- `resume( coroutine$ * )`: coroutine.hfa 209-231. -/
def resumePtr (s : Sys) (dst : Nat) : Option Sys :=
  let src := s.curr
  if src ≠ dst then
    if (s.cor dst).state = .Halted then none
    else
      let s := upd s dst { s.cor dst with last := some src }
      arrive (switchFrom s src dst .inResumePtr)
  else arrive (switchFrom s src dst .inResumePtr)

/-- `prime`: coroutine.cfa 176-182. -/
def prime (s : Sys) (dst : Nat) : Option Sys :=
  if (s.cor dst).state = .Start then
    resume (upd s dst { s.cor dst with state := .Primed }) dst
  else none

/-- `__cfactx_cor_leave`: coroutine.cfa 277-292. -/
def leave (s : Sys) : Option Sys :=
  let src := s.curr
  let starter := if (s.cor src).cancellation ≠ .null then (s.cor src).last else (s.cor src).starter
  let s := upd s src { s.cor src with state := .Halted, mode := .no }
  match starter with
  | none => none
  | some t =>
    if (s.cor t).state = .Halted then none
    else arrive (switchFrom s src t .inLeave)

/-- `coroutine_cancelstop`: exception.cfa 62-68. -/
def cancelstop (s : Sys) : Option Sys :=
  let src := s.curr
  match (s.cor src).last with
  | none => none
  | some dst =>
    let s := upd s src { s.cor src with mode := .no }
    let s := upd s dst { s.cor dst with cancellation := .one }
    arrive (switchFrom s src dst .inCancelStop)

/-- The main of the active coroutine returns, or its unwinding comes to an end.  (The thread's own
main is not modelled.) -/
def ret (s : Sys) : Option Sys :=
  if (s.cor s.curr).mode = .cancel then cancelstop s else leave s

/-- `__cfaehm_cancellation_unwind` in a coroutine that is not the thread's own: exception.cfa
76-98. -/
def cancel (s : Sys) : Option Sys :=
  if s.curr = 0 then none
  else some (upd s s.curr { s.cor s.curr with cancellation := .exc, mode := .cancel })

/-- `^?{}( coroutine$ & )`: coroutine.cfa 137-170.  A cancelled coroutine has been unwound: it
leaves at once. -/
def delete (s : Sys) (dst : Nat) : Option Sys :=
  let src := s.curr
  let d := { s.cor dst with ehm_buffer := [] }
  let s := upd s dst d
  if d.state ≠ .Halted ∧ d.state ≠ .Start ∧ d.state ≠ .Primed then
    if src = dst then none
    else
      let s := upd s dst { d with cancellation := .exc, last := some src }
      if d.wait = .inCancelStop then
        let s := upd s dst { s.cor dst with state := .Halted, wait := .inLeave }
        arrive { switchFrom s src dst .inDelete with curr := src }
      else arrive (switchFrom s src dst .inDelete)
  else some s

/-- `resumeAt`: coroutine.cfa 418-438. -/
def resumeAt (s : Sys) (dst : Nat) (x : Nat) : Sys :=
  upd s dst { s.cor dst with ehm_buffer := (s.cor dst).ehm_buffer ++ [x] }

/-- One turn of the loop of `poll` (coroutine.cfa 374-387); a handler may do anything between two
turns. -/
def poll (s : Sys) : Sys :=
  match (s.cor s.curr).ehm_buffer with
  | [] => s
  | x :: xs =>
    { upd s s.curr { s.cor s.curr with ehm_buffer := xs } with
      nonlocal := s.nonlocal ++ [(s.curr, x)] }

/-- `checked_poll`: coroutine.cfa 393. -/
def checkedPoll (s : Sys) : Sys := if (s.cor s.curr).ehm_enabled then poll s else s

inductive Op
  | resume (d : Nat) | resumePtr (d : Nat) | prime (d : Nat) | suspend | ret | cancel
  | delete (d : Nat) | resumeAt (d x : Nat) | poll | checkedPoll | enable (b : Bool)
  deriving DecidableEq, Repr

/-- The active coroutine performs `op`. -/
def step (s : Sys) : Op → Option Sys
  | .resume d => resume s d
  | .resumePtr d => resumePtr s d
  | .prime d => prime s d
  | .suspend => suspendIn s .inSuspend arrive
  | .ret => ret s
  | .cancel => cancel s
  | .delete d => delete s d
  | .resumeAt d x => some (resumeAt s d x)
  | .poll => some (poll s)
  | .checkedPoll => some (checkedPoll s)
  | .enable b => some (upd s s.curr { s.cor s.curr with ehm_enabled := b })

def runFrom (s : Sys) : List Op → Option Sys
  | [] => some s
  | op :: ops => (step s op).bind fun s' => runFrom s' ops

def run (ops : List Op) : Option Sys := runFrom init ops

end Verif.Model.Coroutine
