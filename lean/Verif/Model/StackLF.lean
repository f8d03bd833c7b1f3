import Verif.Model.Trans
import Verif.Model.Heap
import Verif.Model.Base
/-!
The lock-free stack (collections/lockfree.hfa:197-255). One stack, any number of threads; a node is a number other than 0 (`0p`). The two words of
a `Link` are read and written one by one, in any order, where the code does not use an atomic operation; the compare-and-exchange is one step.
-/
namespace Verif.StackLF
open Verif

/-- Where a thread is. -/
inductive Pc where
  | run
  /-- in `push n`, copying the stack to the link of `n` (lockfree.hfa:225); `a`, `b`: the first, second word has been copied -/
  | push (n : Nat) (a b : Bool)
  /-- in `pop`, copying the stack to `t` (lockfree.hfa:232) -/
  | pop (top count : Option Nat)
  /-- in `pop`, the first word of the link of the top node has been read (lockfree.hfa:235-236) -/
  | pop2 (top count nx : Nat)
  deriving DecidableEq, Repr

structure State where
  /-- the two words of the stack -/
  top : Nat
  count : Nat
  /-- the two words of the link of a node -/
  nxTop : Nat → Nat
  nxCount : Nat → Nat
  pc : Nat → Pc
  /-- for the properties: the nodes in the stack, top first; the nodes being pushed; the number of completed pushes; for each thread in `pop`: whether the stack has been empty
      at some moment of the call; what the calls of `pop` have returned -/
  abs : List Nat
  busy : Nat → Bool
  pushes : Nat
  wasEmpty : Nat → Bool
  rets : List (Nat × Nat)

/-- lockfree.hfa:220 -/
def start : State :=
  { top := 0, count := 0, nxTop := fun _ => 0, nxCount := fun _ => 0, pc := fun _ => .run, abs := [], busy := fun _ => false, pushes := 0,
    wasEmpty := fun _ => false, rets := [] }

inductive Act where
  | push (t n : Nat)
  | pop (t : Nat)
  /-- copy the first word, the second word -/
  | word1 (t : Nat)
  | word2 (t : Nat)
  /-- in `pop`: the test for an empty stack and the read of the link (lockfree.hfa:234-235) -/
  | look (t : Nat)
  /-- the compare-and-exchange -/
  | cas (t : Nat)
  deriving DecidableEq, Repr

/-- After each step, note for the threads in `pop` whether the stack is empty. -/
def note (s : State) : State := { s with wasEmpty := fun t => s.wasEmpty t || s.abs.isEmpty }

/-- One step. -/
def next (s : State) : Act → Option State
  | .push t n => if s.pc t = .run then some { s with pc := upd s.pc t (.push n false false), busy := upd s.busy n true } else none
  | .pop t => if s.pc t = .run then some { s with pc := upd s.pc t (.pop none none), wasEmpty := upd s.wasEmpty t s.abs.isEmpty } else none
  | .word1 t => match s.pc t with
    | .push n _ b => some { s with nxTop := upd s.nxTop n s.top, pc := upd s.pc t (.push n true b) }
    | .pop none c => some { s with pc := upd s.pc t (.pop (some s.top) c) }
    | _ => none
  | .word2 t => match s.pc t with
    | .push n a _ => some { s with nxCount := upd s.nxCount n s.count, pc := upd s.pc t (.push n a true) }
    | .pop a none => some { s with pc := upd s.pc t (.pop a (some s.count)) }
    | _ => none
  | .look t => match s.pc t with
    | .pop (some a) (some c) =>
      if a = 0 then some { s with pc := upd s.pc t .run, rets := s.rets ++ [(t, 0)] }
      else some { s with pc := upd s.pc t (.pop2 a c (s.nxTop a)) }
    | _ => none
  | .cas t => match s.pc t with
    -- lockfree.hfa:227
    | .push n true true =>
      if s.top = s.nxTop n ∧ s.count = s.nxCount n then
        some (note { s with
          top := n, count := (s.nxCount n + 1) % 2 ^ 64, pc := upd s.pc t .run, abs := n :: s.abs,
          busy := upd s.busy n false, pushes := s.pushes + 1 })
      else some { s with nxTop := upd s.nxTop n s.top, nxCount := upd s.nxCount n s.count }
    -- lockfree.hfa:236
    | .pop2 a c nx =>
      if s.top = a ∧ s.count = c then
        some (note { s with top := nx, pc := upd s.pc t .run, abs := s.abs.tail, rets := s.rets ++ [(t, a)] })
      else some { s with pc := upd s.pc t (.pop (some s.top) (some s.count)) }
    | _ => none

/-- Correct use: a node is pushed only while it is not in the stack nor being pushed by another thread; and fewer than 2^64 pushes: the count
    does not wrap around. -/
def Proper (s : State) : Act → Prop
  | .push _ n => n ≠ 0 ∧ n ∉ s.abs ∧ s.busy n = false
  | .cas _ => s.pushes + 1 < 2 ^ 64
  | _ => True

instance (s : State) (a : Act) : Decidable (Proper s a) := by cases a <;> simp only [Proper] <;> infer_instance

/-- The steps of programs that use the stack correctly. -/
def nextP (s : State) (a : Act) : Option State := if Proper s a then next s a else none

/-- lockfree.hfa:240-253 `unsafe_remove`: the loop looks at the address of the first word of a link (line 245 takes it, instead of what is stored there).
    `S` is the address of the stack, `off` the place of the link in a node. None: the loop goes on with the link at the address returned.
    Reading outside of the stack object is undefined. -/
def unsafeRemoveStep (off node link : Nat) : Sum Nat Bool :=
  if link = node then .inr true else if link = 0 then .inr false else .inl (link + off)

end Verif.StackLF
