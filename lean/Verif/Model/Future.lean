import Verif.Model.Trans
import Verif.Model.Heap
/-!
The multi-consumer future of future.hfa (lines 28-220). One future, any number of threads. `lock` is a `futex_mutex` (C36): acquiring it is a
step that is possible when it is free; the rest of a critical section is one step, which frees it. `unlock` frees it whoever calls it
(locks.hfa:289-294). A thread that has put its node on `waiters` counts as parked. Nodes of `waituntil` statements are left out.
-/
namespace Verif.Future
open Verif

/-- Where a thread is. `i` counts the values given to the future before the one the call is for. -/
inductive Pc (α : Type) where
  /-- outside -/
  | run
  /-- in `get`, past `lock` (future.hfa:124, 152) -/
  | inGet
  /-- in `try_get`, past `lock` (future.hfa:159) -/
  | inTry
  /-- in `fulfil` with a value, past `lock` (future.hfa:195) -/
  | inFul (v : α)
  /-- in `fulfil` with an exception, past `lock` (future.hfa:203) -/
  | inFulEx (x : Nat)
  /-- in `reset`, past `lock` (future.hfa:212) -/
  | inReset
  /-- parked in `get` (future.hfa:135) -/
  | parked (i : Nat)
  /-- unparked, before the test for an exception (future.hfa:136); `v` is what has been stored in `ret_val` -/
  | woken (i : Nat) (v : α)
  /-- a resumption has been raised in `get`, from line 126 (`d` true) or line 136 (`d` false) -/
  | raised (d : Bool) (i : Nat) (v : α) (x : Nat)
  deriving DecidableEq, Repr

structure State (α : Type) where
  fulfilled : Bool
  result : α
  except : Option Nat
  lock : Bool
  waiters : List Nat
  /-- `abort` has been called: nothing runs any more -/
  aborted : Bool
  pc : Nat → Pc α
  /-- for the properties: the values given by `fulfil`, in order; what the calls of `get` have returned (the thread, the number of the value the
      call is for, what was returned); what the calls of `try_get` have returned -/
  given : List α
  rets : List (Nat × Nat × α)
  tries : List (Nat × Option α)

/-- future.hfa:99-102; `r` is the uninitialised `result`. -/
def start {α : Type} (r : α) : State α :=
  { fulfilled := false, result := r, except := none, lock := false, waiters := [], aborted := false, pc := fun _ => .run,
    given := [], rets := [], tries := [] }

variable {α : Type}

inductive Act (α : Type) where
  | get (t : Nat)
  | tryGet (t : Nat)
  | fulfil (t : Nat) (v : α)
  | fulfilEx (t : Nat) (x : Nat)
  | reset (t : Nat)
  /-- the rest of a critical section -/
  | body (t : Nat)
  /-- a woken thread continues -/
  | wake (t : Nat)
  /-- the handler of a resumption returns -/
  | handled (t : Nat)

/-- future.hfa:177-186: every waiter gets the result and is woken. -/
def wakeAll (pc : Nat → Pc α) (r : α) : List Nat → Nat → Pc α
  | [] => pc
  | c :: l => upd (wakeAll pc r l) c (match pc c with | .parked i => .woken i r | p => p)

/-- Acquire the lock. -/
def acquire (s : State α) (t : Nat) (p : Pc α) : Option (State α) :=
  match s.pc t with
  | .run => if s.lock || s.aborted then none else some { s with lock := true, pc := upd s.pc t p }
  | _ => none

/-- One step. -/
def next (s : State α) : Act α → Option (State α)
  | .get t => acquire s t .inGet
  | .tryGet t => acquire s t .inTry
  | .fulfil t v => acquire s t (.inFul v)
  | .fulfilEx t x => acquire s t (.inFulEx x)
  | .reset t => acquire s t .inReset
  | .body t => if s.aborted then none else match s.pc t with
    | .inGet =>
      if s.fulfilled then
        match s.except with
        -- future.hfa:115-119
        | some x => some { s with lock := false, pc := upd s.pc t (.raised true (s.given.length - 1) s.result x) }
        -- future.hfa:127-129
        | none => some { s with lock := false, pc := upd s.pc t .run, rets := s.rets ++ [(t, s.given.length - 1, s.result)] }
      -- future.hfa:132-135
      else some { s with lock := false, waiters := s.waiters ++ [t], pc := upd s.pc t (.parked s.given.length) }
    -- future.hfa:160-167
    | .inTry => some { s with lock := false, pc := upd s.pc t .run, tries := s.tries ++ [(t, if s.fulfilled then some s.result else none)] }
    | .inFul v =>
      -- future.hfa:196
      if s.fulfilled then some { s with aborted := true }
      -- future.hfa:197-198, 174-189
      else some { s with
        fulfilled := true, result := v, lock := false, waiters := [], pc := upd (wakeAll s.pc v s.waiters) t .run, given := s.given ++ [v] }
    | .inFulEx x =>
      -- future.hfa:204
      if s.fulfilled then some { s with aborted := true }
      -- future.hfa:205-207, 174-189
      else some { s with
        fulfilled := true, except := some x, lock := false, waiters := [], pc := upd (wakeAll s.pc s.result s.waiters) t .run }
    | .inReset =>
      -- future.hfa:213
      if s.waiters ≠ [] then some { s with aborted := true }
      -- future.hfa:214-217
      else some { s with fulfilled := false, except := none, lock := false, pc := upd s.pc t .run }
    | _ => none
  | .wake t => if s.aborted then none else match s.pc t with
    | .woken i v => match s.except with
      -- future.hfa:115-119, from line 136: the lock is not held
      | some x => some { s with lock := false, pc := upd s.pc t (.raised false i v x) }
      -- future.hfa:137
      | none => some { s with pc := upd s.pc t .run, rets := s.rets ++ [(t, i, v)] }
    | _ => none
  | .handled t => if s.aborted then none else match s.pc t with
    -- future.hfa:127-129, and the second `unlock`
    | .raised true i _ _ => some { s with lock := false, pc := upd s.pc t .run, rets := s.rets ++ [(t, i, s.result)] }
    -- future.hfa:137
    | .raised false i v _ => some { s with pc := upd s.pc t .run, rets := s.rets ++ [(t, i, v)] }
    | _ => none

/-- Use of the future with values only. -/
def Proper : Act α → Bool
  | .fulfilEx _ _ => false
  | _ => true

def nextV (s : State α) (a : Act α) : Option (State α) := if Proper a then next s a else none

/-- The thread is inside a critical section. -/
def inside : Pc α → Bool
  | .inGet | .inTry | .inFul _ | .inFulEx _ | .inReset => true
  | _ => false

end Verif.Future
