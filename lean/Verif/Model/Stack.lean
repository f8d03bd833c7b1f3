import Verif.Model.Heap
/-!
Model of `libcfa/src/bits/stack.hfa` (intrusive LIFO stack) and `libcfa/src/bits/collection.hfa`.

The state holds the `next` field of every node and the `root` field of every stack. Dereferencing null is undefined.
`dbg` says whether the code is compiled with `__CFA_DEBUG__`. Loops take a number of iterations `fuel`.
-/
namespace Verif.Stack

/-- collection.hfa:19-23 `Colable`, 61-63 `Collection`; stack.hfa:12-14 `Stack`. -/
structure St where
  next : Nat → Nat
  root : Nat → Nat

/-- collection.hfa:28-30, 70-72, stack.hfa:25-27: all nodes unlisted, all stacks empty. -/
def St.init : St := ⟨fun _ => 0, fun _ => 0⟩

/-- `Next( n )` as a value: collection.hfa:43-45 `Next`. -/
def rd (s : St) (n : Nat) : Outcome Nat := if n = 0 then .undef else .ret (s.next n)

/-- `Next( n ) = v`: collection.hfa:43-45 `Next`. -/
def wr (s : St) (n v : Nat) : Outcome St := if n = 0 then .undef else .ret { s with next := upd s.next n v }

/-- collection.hfa:33-35 `listed`. -/
def listed (s : St) (n : Nat) : Outcome Bool := do
  let x ← rd s n
  pure (decide (x ≠ 0))

/-- stack.hfa:34-36: the debug check of `addHead`. -/
def check (dbg : Bool) (s : St) (n : Nat) : Outcome Unit :=
  if dbg then do
    let b ← listed s n
    if b then .abort else .ret ()
  else .ret ()

/-- collection.hfa:74-76 `empty`. -/
def empty (s : St) (q : Nat) : Bool := decide (s.root q = 0)

/-- stack.hfa:18-20 `head`, 29-31 `top` (null when empty). -/
def top (s : St) (q : Nat) : Nat := s.root q

/-- stack.hfa:33-40 `addHead` (`add` 42-44 and `push` 46-48 are the same). -/
def push (dbg : Bool) (s : St) (q n : Nat) : Outcome St := do
  check dbg s n
  let s ← wr s n (if top s q ≠ 0 then top s q else n)
  pure { s with root := upd s.root q n }

/-- stack.hfa:50-58 `drop` (`pop` 60-62 is the same); returns null when empty. -/
def pop (s : St) (q : Nat) : Outcome (St × Nat) :=
  let t := top s q
  if s.root q ≠ 0 then do
    let x ← rd s (s.root q)
    let s := { s with root := upd s.root q x }
    let s := if top s q = t then { s with root := upd s.root q 0 } else s
    let s ← wr s t 0
    pure (s, t)
  else .ret (s, t)

/-- stack.hfa:93-100 `?|?`: the element produced (null at the end) and the iterator's next position. -/
def iterNext (s : St) (curr : Nat) : Outcome (Nat × Nat) :=
  if curr ≠ 0 then do
    let n ← rd s curr
    pure (curr, if n = curr then 0 else n)
  else .ret (0, curr)

/-- `while ( it | node )`: elements produced from position `curr` until `?|?` returns false (stack.hfa:93-100). -/
def iterate (s : St) : (fuel curr : Nat) → Outcome (List Nat)
  | 0, _ => .undef
  | fuel + 1, curr => do
    let (e, c) ← iterNext s curr
    if e ≠ 0 then do
      let l ← iterate s fuel c
      pure (e :: l)
    else .ret []

/-- One call of the interface. -/
inductive Op where
  | push (q n : Nat) | pop (q : Nat) | top (q : Nat) | iterate (q : Nat) | iterateFrom (q n : Nat) | empty (q : Nat) | listed (n : Nat)
  deriving DecidableEq, Repr

/-- What a call returns. -/
inductive Res where
  | unit | node (n : Nat) | nodes (l : List Nat) | bool (b : Bool)
  deriving DecidableEq, Repr

/-- Iterators start at the top (stack.hfa:80-82, 89-91) or at a given node (stack.hfa:84-86). -/
def step (dbg : Bool) (fuel : Nat) (s : St) : Op → Outcome (St × Res)
  | .push q n => do let s ← push dbg s q n; pure (s, .unit)
  | .pop q => do let (s, n) ← pop s q; pure (s, .node n)
  | .top q => .ret (s, .node (top s q))
  | .iterate q => do let l ← iterate s fuel (top s q); pure (s, .nodes l)
  | .iterateFrom _ n => do let l ← iterate s fuel n; pure (s, .nodes l)
  | .empty q => .ret (s, .bool (empty s q))
  | .listed n => do let b ← listed s n; pure (s, .bool b)

/-- A history of calls. -/
def run (dbg : Bool) (fuel : Nat) : St → List Op → Outcome (St × List Res)
  | s, [] => .ret (s, [])
  | s, o :: os => do
    let (s, r) ← step dbg fuel s o
    let (s, rs) ← run dbg fuel s os
    pure (s, r :: rs)

end Verif.Stack
