import Verif.Model.Trans
import Verif.Model.Heap
/-!
`single_sem` and `oneshot` (kernel/fwd.hfa:127-217). One object, one thread that waits, any number of threads that post. Each access to `ptr` is a step.
park and unpark: the ticket of C50, `token` counts wake-ups not yet consumed.
-/
namespace Verif.SingleSem
open Verif

/-- The value of `ptr`: `0p`, `1p`, the waiting thread. -/
inductive Ptr where
  | zero
  | one
  | thr
  deriving DecidableEq, Repr

/-- Where the waiting thread is: outside, at the beginning of the loop, before the exchange that expects `1p`, before the one that expects something else,
    in `park`. -/
inductive WPc where
  | run
  | loop
  | casOne
  | casOther (e : Ptr)
  | park
  deriving DecidableEq, Repr

/-- Where a posting thread is: outside, at the beginning of the loop, before the exchange, before `unpark`. -/
inductive PPc where
  | run
  | loop
  | cas (e : Ptr)
  | unpark
  deriving DecidableEq, Repr

structure State where
  ptr : Ptr
  token : Nat
  w : WPc
  p : Nat → PPc
  /-- for the properties: the number of posts that have taken effect (stored `1p` or took the waiting thread), the number of posts that found a
      post pending, what the calls of `wait` and of `post` have returned -/
  posts : Nat
  merged : Nat
  waits : List Bool
  rets : List (Nat × Bool)

/-- fwd.hfa:132-134, 189-191 -/
def start : State := { ptr := .zero, token := 0, w := .run, p := fun _ => .run, posts := 0, merged := 0, waits := [], rets := [] }

inductive Act where
  | wait
  | post (t : Nat)
  /-- the next step of the waiting thread, of a posting thread -/
  | stepW
  | stepP (t : Nat)
  deriving DecidableEq, Repr

/-- One step of a `single_sem`. -/
def next (s : State) : Act → Option State
  | .wait => if s.w = .run then some { s with w := .loop } else none
  | .post t => if s.p t = .run then some { s with p := upd s.p t .loop } else none
  | .stepW => match s.w with
    | .run => none
    -- fwd.hfa:140-141
    | .loop => some { s with w := if s.ptr = .one then .casOne else .casOther s.ptr }
    -- fwd.hfa:142-144
    | .casOne => if s.ptr = .one then some { s with ptr := .zero, w := .run, waits := s.waits ++ [false] } else some { s with w := .loop }
    -- fwd.hfa:148
    | .casOther e => if s.ptr = e then some { s with ptr := .thr, w := .park } else some { s with w := .loop }
    -- fwd.hfa:149-150
    | .park => if 0 < s.token then some { s with token := s.token - 1, w := .run, waits := s.waits ++ [true] } else none
  | .stepP t => match s.p t with
    | .run => none
    -- fwd.hfa:159-160
    | .loop => if s.ptr = .one then some { s with p := upd s.p t .run, merged := s.merged + 1, rets := s.rets ++ [(t, false)] }
      else some { s with p := upd s.p t (.cas s.ptr) }
    | .cas e => if s.ptr = e then
        -- fwd.hfa:161-164
        if e = .zero then some { s with ptr := .one, p := upd s.p t .run, posts := s.posts + 1, rets := s.rets ++ [(t, false)] }
        -- fwd.hfa:167
        else some { s with ptr := .zero, p := upd s.p t .unpark, posts := s.posts + 1 }
      else some { s with p := upd s.p t .loop }
    -- fwd.hfa:168-169
    | .unpark => some { s with token := s.token + 1, p := upd s.p t .run, rets := s.rets ++ [(t, true)] }

/-- One step of a `oneshot`; the wait is called once. -/
def next1 (s : State) : Act → Option State
  | .wait => if s.w = .run ∧ s.waits = [] then some { s with w := .loop } else none
  | .post t => if s.p t = .run then some { s with p := upd s.p t .loop } else none
  | .stepW => match s.w with
    | .run => none
    -- fwd.hfa:199-200
    | .loop => if s.ptr = .one then some { s with w := .run, waits := s.waits ++ [false] } else some { s with w := .casOther s.ptr }
    -- fwd.hfa:201
    | .casOther e => if s.ptr = e then some { s with ptr := .thr, w := .park } else some { s with w := .loop }
    -- fwd.hfa:202-204
    | .park => if 0 < s.token then some { s with token := s.token - 1, w := .run, waits := s.waits ++ [true] } else none
    | .casOne => none
  | .stepP t => match s.p t with
    | .run => none
    -- fwd.hfa:212-213
    | .loop => match s.ptr with
      | .zero => some { s with ptr := .one, p := upd s.p t .run, posts := s.posts + 1, rets := s.rets ++ [(t, false)] }
      | .one => some { s with p := upd s.p t .run, merged := s.merged + 1, rets := s.rets ++ [(t, false)] }
      | .thr => some { s with ptr := .one, p := upd s.p t .unpark, posts := s.posts + 1 }
    -- fwd.hfa:214-215
    | .unpark => some { s with token := s.token + 1, p := upd s.p t .run, rets := s.rets ++ [(t, true)] }
    | .cas _ => none

end Verif.SingleSem
