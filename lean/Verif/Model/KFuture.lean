import Verif.Model.Trans
import Verif.Model.Heap
import Verif.Model.SingleSem
/-!
The kernel's `future_t` (kernel/fwd.hfa:219-408) with its `oneshot` wait contexts (179-217). An unbounded array of futures, one client thread, and for each future a
server that fulfils it once. Each access to a shared word is a step. `reset` and the `available` test are not modelled. The paranoid `verify` checks are not modelled.
The wait context is a local of the client's `wait` or `wait_any`: it is created at an arbitrary address `c` chosen by the caller, and dies when the call returns.
park and unpark: the ticket of C50, `token` counts the client's wake-ups not yet consumed.
-/
namespace Verif.KFuture
open Verif Verif.SingleSem

/-- kernel/fwd.hfa:224-233: the value of `future_t.ptr`: armed, fulfilled, in progress, abandoned, the address of a wait context. -/
inductive FPtr where
  | armed
  | ful
  | prog
  | aband
  | ctx (c : Nat)
  deriving DecidableEq, Repr

/-- Where the client is: outside; in `setup` of future `i` before the read, before the exchange; in `wait` of the context at the beginning of the loop, before the
    exchange, in `park`; in `wait` of a future, line 372; in `retract` of future `i` (with `r` the value of the variable `ret` so far), spinning in it;
    spinning in `abandon`. -/
inductive CPc where
  | run
  | setR (i : Nat)
  | setC (i : Nat) (e : FPtr)
  | osL
  | osC (e : Ptr)
  | osP
  | spin
  | ret (i : Nat) (r : Option Nat)
  | retS (i : Nat) (r : Option Nat)
  | abd (f : Nat)
  deriving DecidableEq, Repr

/-- Where the server of a future is in `fulfil`: before it, before the read of line 333, before the exchange, before `post` of context `c`, before
    `unpark` in it, before the store of line 356, returned. -/
inductive SPc where
  | run
  | rd
  | cas (e : FPtr)
  | post (c : Nat)
  | unpark
  | store
  | done
  deriving DecidableEq, Repr

structure State where
  ptr : Nat → FPtr
  /-- the word at the address of a wait context -/
  os : Nat → Ptr
  token : Nat
  c : CPc
  sv : Nat → SPc
  /-- the current call of the client: the futures `lo ≤ f < hi`, whether it is `wait_any`, the address of its context -/
  lo : Nat
  hi : Nat
  any : Bool
  ctx : Nat
  /-- for the properties: whether the context exists, the futures the client abandoned, how often a future was freed, whether a freed future was accessed,
      whether a dead context was accessed, the abort of line 302, what the calls of the client returned: the future, `none` for an uninitialized index -/
  live : Bool
  ab : Nat → Bool
  freed : Nat → Nat
  uaf : Bool
  dead : Bool
  abort : Bool
  rets : List (Option Nat)

def start : State :=
  { ptr := fun _ => .armed, os := fun _ => .zero, token := 0, c := .run, sv := fun _ => .run, lo := 0, hi := 0, any := false, ctx := 0, live := false,
    ab := fun _ => false, freed := fun _ => 0, uaf := false, dead := false, abort := false, rets := [] }

inductive Act where
  /-- the client calls `wait` of future `f`, `wait_any` of the futures `lo ≤ f < hi`, with its context at address `c`; `abandon` of future `f` -/
  | wait (f c : Nat)
  | waitAny (lo hi c : Nat)
  | abandon (f : Nat)
  /-- the server of `f` calls `fulfil` -/
  | fulfil (f : Nat)
  /-- the next step of the client, of the server of `f` -/
  | stepC
  | stepS (f : Nat)
  deriving DecidableEq, Repr

/-- The client's step after future `i` is set up: the next one, or `wait` of the context (fwd.hfa:366-369, 392-398). -/
def afterSetup (s : State) (i : Nat) : CPc := if i + 1 < s.hi then .setR (i + 1) else .osL

/-- The client leaves its call and its context dies. -/
def leave (s : State) (r : Option Nat) : State := { s with c := .run, live := false, rets := s.rets ++ [r] }

/-- The client's step after `wait` of the context: line 372 of `wait`, the loop of lines 402-404 in `wait_any`. -/
def afterWait (s : State) : State :=
  if s.any then (if s.lo < s.hi then { s with c := .ret s.lo none } else leave s none) else { s with c := .spin }

/-- The client's step after `retract` of future `i`. -/
def afterRet (s : State) (i : Nat) (r : Option Nat) : State := if i + 1 < s.hi then { s with c := .ret (i + 1) r } else leave s r

/-- An access to future `f`. -/
def touch (s : State) (f : Nat) : State := { s with uaf := s.uaf || decide (0 < s.freed f) }

def next (s : State) : Act → Option State
  -- fwd.hfa:364-366
  | .wait f c => if s.c = .run then
      some { s with c := .setR f, lo := f, hi := f + 1, any := false, ctx := c, os := upd s.os c .zero, live := true } else none
  -- fwd.hfa:389-395
  | .waitAny lo hi c => if s.c = .run then
      some { s with c := if lo < hi then .setR lo else .osL, lo := lo, hi := hi, any := true, ctx := c, os := upd s.os c .zero, live := true } else none
  | .abandon f => if s.c = .run then
      let s1 := { touch s f with ab := upd s.ab f true, ptr := upd s.ptr f .aband }
      match s.ptr f with
      -- fwd.hfa:313
      | .armed => some s1
      -- fwd.hfa:317-318
      | .prog => some { s1 with c := .abd f }
      -- fwd.hfa:324-325
      | _ => some { s1 with freed := upd s.freed f (s.freed f + 1) }
    else none
  | .fulfil f => if s.sv f = .run then some { s with sv := upd s.sv f .rd } else none
  | .stepC => match s.c with
    | .run => none
    -- fwd.hfa:259-261; 366, 394
    | .setR i => if s.ptr i = .ful then some (leave (touch s i) (some i)) else some { touch s i with c := .setC i (s.ptr i) }
    -- fwd.hfa:264-266
    | .setC i e => if s.ptr i = e then some { touch s i with ptr := upd s.ptr i (.ctx s.ctx), c := afterSetup s i } else some { touch s i with c := .setR i }
    -- fwd.hfa:199-200
    | .osL => if s.os s.ctx = .one then some (afterWait s) else some { s with c := .osC (s.os s.ctx) }
    -- fwd.hfa:201
    | .osC e => if s.os s.ctx = e then some { s with os := upd s.os s.ctx .thr, c := .osP } else some { s with c := .osL }
    -- fwd.hfa:202
    | .osP => if 0 < s.token then some (afterWait { s with token := s.token - 1 }) else none
    -- fwd.hfa:372, 384
    | .spin => if s.ptr s.lo = .prog then some (touch s s.lo) else some (leave (touch s s.lo) (some s.lo))
    | .ret i r =>
      if s.ptr i = .ctx s.ctx then
        -- fwd.hfa:279-281
        some (afterRet { touch s i with ptr := upd s.ptr i .armed } i r)
      else match s.ptr i with
        -- fwd.hfa:285
        | .armed => some (afterRet (touch s i) i r)
        -- fwd.hfa:290
        | .ful => some (afterRet (touch s i) i (some i))
        -- fwd.hfa:294
        | .prog => some { touch s i with c := .retS i r }
        -- fwd.hfa:302
        | _ => some { touch s i with abort := true, c := .run }
    -- fwd.hfa:295-297
    | .retS i r => if s.ptr i = .ful then some (afterRet (touch s i) i (some i)) else some { touch s i with c := .retS i r }
    -- fwd.hfa:318-325
    | .abd f => if s.ptr f = .ful then some { touch s f with freed := upd s.freed f (s.freed f + 1), c := .run } else some (touch s f)
  | .stepS f => match s.sv f with
    | .run => none
    | .done => none
    -- fwd.hfa:333, 341
    | .rd => if s.ptr f = .aband then some { touch s f with freed := upd s.freed f (s.freed f + 1), sv := upd s.sv f .done }
      else some { touch s f with sv := upd s.sv f (.cas (s.ptr f)) }
    -- fwd.hfa:353-354
    | .cas e => if s.ptr f = e then
        match e with
        | .armed => some { touch s f with ptr := upd s.ptr f .ful, sv := upd s.sv f .done }
        | .ctx c => some { touch s f with ptr := upd s.ptr f .prog, sv := upd s.sv f (.post c) }
        | _ => none
      else some { touch s f with sv := upd s.sv f .rd }
    -- fwd.hfa:212-213
    | .post c => some { s with
        os := upd s.os c .one, dead := s.dead || !(s.live && decide (s.ctx = c)), sv := upd s.sv f (if s.os c = .thr then .unpark else .store) }
    -- fwd.hfa:214
    | .unpark => some { s with token := s.token + 1, sv := upd s.sv f .store }
    -- fwd.hfa:356-357
    | .store => some { touch s f with ptr := upd s.ptr f .ful, sv := upd s.sv f .done }

end Verif.KFuture
