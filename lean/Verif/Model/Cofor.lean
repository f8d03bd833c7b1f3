import Mathlib.Data.List.Basic
import Mathlib.Data.Int.Init

/-!
# Parallel loops (`libcfa/src/concurrency/cofor.hfa`, `cofor.cfa`, `src/Concurrency/Corun.cpp`)
-/

namespace Verif.Cofor

/-! ## `COFOR` -/

/-- One of the two loops that construct the tasks (cofor.cfa 35-37, 39-41): `k` tasks from `it` on, of
`stride` each; the pairs are the fields `low` and `high` of the tasks. -/
def tasks : Nat → Int → Int → List (Int × Int)
  | 0, _, _ => []
  | k + 1, it, stride => (it, it + stride) :: tasks k (it + stride) stride

/-- `__Cofor__` (cofor.cfa 22-45): the tasks.  (Only the first difference is taken modulo `2^64`; if it
does not overflow, nothing else does.  `delete` of each task waits for it.) -/
def cofor (low high nprocs : Int) : List (Int × Int) :=
  let range := (high - low).bmod 18446744073709551616
  if range ≤ 0 then [] else
  if nprocs = 0 then [] else
  let threads := if range < nprocs then range else nprocs
  let stride := range.tdiv threads + 1
  let extras := range.tmod threads
  tasks extras.toNat low stride ++
    tasks (threads - extras).toNat (low + extras * stride) (stride - 1)

/-- What a task does (cofor.cfa 17-20): the numbers for which it calls the body, in order; `k` is at
least the number of iterations. -/
def taskLoop : Nat → Int → Int → List Int
  | 0, _, _ => []
  | k + 1, i, high => if i < high then i :: taskLoop k (i + 1) high else []

/-- `main` of a task (cofor.cfa 17-20). -/
def taskMain (t : Int × Int) : List Int := taskLoop (t.2 - t.1).toNat t.1 t.2

/-! ## `cofor` -/

/-- Where a runner is in its `main` (cofor.hfa 34-45): at the test of `done`, at the test of `empty`,
before the removal, or before the call of the function for an item; or `main` has returned. -/
inductive Pc (α : Type) where
  | done
  | empty
  | remove
  | run (v : α)
  | exit
deriving DecidableEq, Repr

/-- The state of a statement `cofor`.  `rest` is the iterations that the loop has not reached; `curr` is
`curr_proc`; `ended` is how many runners have `done` set; `items` and `pc` are those of each runner,
and `log` is for which values it has called the function. -/
structure St (α : Type) where
  rest : List α
  curr : Nat
  ended : Nat
  items : Nat → List α
  pc : Nat → Pc α
  log : Nat → List α

/-- After `start_runners` (Corun.cpp 126-180; cofor.hfa 47-51). -/
def St.init {α : Type} (vals : List α) : St α :=
  ⟨vals, 0, 0, fun _ => [], fun _ => .done, fun _ => []⟩

/-- Who makes a step. -/
inductive Act where
  | sender
  | runner (r : Nat)
deriving DecidableEq, Repr

/-- Change the value for one runner. -/
def upd {β : Type} (f : Nat → β) (r : Nat) (x : β) : Nat → β := fun i => if i = r then x else f i

/-- The thread that executes the statement: the next iteration sends its value (`send_work`, cofor.hfa
59-67; the loop, Corun.cpp 182-228), then `end_runners` sets the flags one by one (cofor.hfa 53-57),
and then the destructors of the runners wait. -/
def sendStep {α : Type} (n : Nat) (s : St α) : St α :=
  match s.rest with
  | v :: vs => { s with
      rest := vs
      items := upd s.items s.curr (s.items s.curr ++ [v])
      curr := (s.curr + 1) % n }
  | [] => if s.ended < n then { s with ended := s.ended + 1 } else s

/-- A runner (cofor.hfa 34-45).  (The removal is one step, since it is done under the lock.) -/
def runStep {α : Type} (s : St α) (r : Nat) : St α :=
  match s.pc r with
  | .done => { s with pc := upd s.pc r (if r < s.ended then .empty else .remove) }
  | .empty => { s with pc := upd s.pc r (if (s.items r).isEmpty then .exit else .remove) }
  | .remove =>
    match s.items r with
    | [] => { s with pc := upd s.pc r .done }
    | v :: vs => { s with items := upd s.items r vs, pc := upd s.pc r (.run v) }
  | .run v => { s with log := upd s.log r (s.log r ++ [v]), pc := upd s.pc r .done }
  | .exit => s

/-- A step, with `n` runners. -/
def step {α : Type} (n : Nat) (s : St α) : Act → St α
  | .sender => sendStep n s
  | .runner r => if r < n then runStep s r else s

end Verif.Cofor
