import Verif.Model.Heap
/-!
Model of `libcfa/src/bits/queue.hfa` (intrusive FIFO queue) and `libcfa/src/bits/collection.hfa`.

The state holds the `next` field of every node and the `root` and `last` fields of every queue, so that several queues
share the nodes. Dereferencing null is undefined. `dbg` says whether the code is compiled with `__CFA_DEBUG__`.
Loops take a number of iterations `fuel`; running out of it counts as undefined.
-/
namespace Verif.Queue

/-- collection.hfa:19-23 `Colable`, 61-63 `Collection`; queue.hfa:12-15 `Queue`. -/
structure St where
  next : Nat → Nat
  root : Nat → Nat
  last : Nat → Nat

/-- collection.hfa:28-30, 70-72, queue.hfa:26-29: all nodes unlisted, all queues empty. -/
def St.init : St := ⟨fun _ => 0, fun _ => 0, fun _ => 0⟩

/-- `Next( n )` as a value: collection.hfa:43-45 `Next`. -/
def rd (s : St) (n : Nat) : Outcome Nat := if n = 0 then .undef else .ret (s.next n)

/-- `Next( n ) = v`: collection.hfa:43-45 `Next`. -/
def wr (s : St) (n v : Nat) : Outcome St := if n = 0 then .undef else .ret { s with next := upd s.next n v }

/-- collection.hfa:33-35 `listed`. -/
def listed (s : St) (n : Nat) : Outcome Bool := do
  let x ← rd s n
  pure (decide (x ≠ 0))

/-- The debug checks, e.g. queue.hfa:45-47: abort when `listed` is not `want`. -/
def check (dbg : Bool) (s : St) (n : Nat) (want : Bool) : Outcome Unit :=
  if dbg then do
    let b ← listed s n
    if b = want then .ret () else .abort
  else .ret ()

/-- collection.hfa:74-76 `empty`. -/
def empty (s : St) (q : Nat) : Bool := decide (s.root q = 0)

/-- queue.hfa:19-21 `head` (null when empty). -/
def head (s : St) (q : Nat) : Nat := s.root q

/-- queue.hfa:31-33 `tail` (null when empty). -/
def tail (s : St) (q : Nat) : Nat := s.last q

/-- queue.hfa:35-42 `succ`. -/
def succ (dbg : Bool) (s : St) (n : Nat) : Outcome Nat := do
  check dbg s n true
  let x ← rd s n
  pure (if x = n then 0 else x)

/-- queue.hfa:44-56 `addHead`. -/
def addHead (dbg : Bool) (s : St) (q n : Nat) : Outcome St := do
  check dbg s n false
  if s.last q ≠ 0 then do
    let s ← wr s n (s.root q)
    pure { s with root := upd s.root q n }
  else
    wr { s with root := upd s.root q n, last := upd s.last q n } n n

/-- queue.hfa:58-67 `addTail` (`add` is the same, 69-71). -/
def addTail (dbg : Bool) (s : St) (q n : Nat) : Outcome St := do
  check dbg s n false
  let s ← (if s.last q ≠ 0 then wr s (s.last q) n else .ret { s with root := upd s.root q n })
  wr { s with last := upd s.last q n } n n

/-- queue.hfa:73-83 `dropHead` (`drop` is the same, 85-87); returns null when empty. -/
def dropHead (s : St) (q : Nat) : Outcome (St × Nat) :=
  let t := s.root q
  if t ≠ 0 then do
    let x ← rd s t
    let s := { s with root := upd s.root q x }
    let s := if s.root q = t then { s with root := upd s.root q 0, last := upd s.last q 0 } else s
    let s ← wr s t 0
    pure (s, t)
  else .ret (s, t)

/-- queue.hfa:95-107, the body of `remove` once the node is found. -/
def unlink (s : St) (q n prev : Nat) : Outcome St := do
  let s ← (if s.root q = n then do
      let (s, _) ← dropHead s q
      pure s
    else if s.last q = n then
      wr { s with last := upd s.last q prev } prev prev
    else do
      let x ← rd s n
      wr s prev x)
  wr s n 0

/-- queue.hfa:95-114: the loop of `remove`. -/
def removeLoop (dbg : Bool) (s : St) (q n : Nat) : (fuel prev curr : Nat) → Outcome St
  | 0, _, _ => .undef
  | fuel + 1, prev, curr =>
    if n = curr then unlink s q n prev
    else if dbg ∧ curr = s.last q then .abort
    else do
      let x ← rd s curr
      removeLoop dbg s q n fuel curr x

/-- queue.hfa:89-116 `remove`. -/
def remove (dbg : Bool) (fuel : Nat) (s : St) (q n : Nat) : Outcome St := do
  check dbg s n true
  removeLoop dbg s q n fuel 0 (s.root q)

/-- queue.hfa:118-121 `dropTail`. -/
def dropTail (dbg : Bool) (fuel : Nat) (s : St) (q : Nat) : Outcome (St × Nat) :=
  let n := tail s q
  if n ≠ 0 then do
    let s ← remove dbg fuel s q n
    pure (s, n)
  else .ret (s, 0)

/-- queue.hfa:124-133 `transfer`. -/
def transfer (s : St) (q from_ : Nat) : Outcome St :=
  if empty s from_ then .ret s
  else do
    let s ← (if empty s q then .ret { s with root := upd s.root q (s.root from_) }
      else wr s (s.last q) (head s from_))
    let s := { s with last := upd s.last q (s.last from_) }
    pure { s with root := upd s.root from_ 0, last := upd s.last from_ 0 }

/-- queue.hfa:137-151 `split`. The local queue `to` gets an unused queue number. -/
def split (dbg : Bool) (s : St) (q from_ n to : Nat) : Outcome St := do
  check dbg s n true
  let s := { s with root := upd s.root to (s.root from_), last := upd s.last to n }
  let x ← rd s n
  let s := { s with root := upd s.root from_ x }
  let s ← (if n = s.root from_ then .ret { s with root := upd s.root from_ 0, last := upd s.last from_ 0 }
    else wr s n n)
  transfer s q to

/-- queue.hfa:179-186 `?|?`: the element produced (null at the end) and the iterator's next position. -/
def iterNext (s : St) (curr : Nat) : Outcome (Nat × Nat) :=
  if curr ≠ 0 then do
    let n ← rd s curr
    pure (curr, if n = curr then 0 else n)
  else .ret (0, curr)

/-- `while ( it | node )`: elements produced from position `curr` until `?|?` returns false (queue.hfa:179-186). -/
def iterate (s : St) : (fuel curr : Nat) → Outcome (List Nat)
  | 0, _ => .undef
  | fuel + 1, curr => do
    let (e, c) ← iterNext s curr
    if e ≠ 0 then do
      let l ← iterate s fuel c
      pure (e :: l)
    else .ret []

/-- One call of the interface. -/
inductive Op where
  | addHead (q n : Nat) | addTail (q n : Nat) | dropHead (q : Nat) | dropTail (q : Nat) | remove (q n : Nat)
  | transfer (q from_ : Nat) | split (q from_ n : Nat)
  | head (q : Nat) | tail (q : Nat) | succ (q n : Nat) | iterate (q : Nat) | empty (q : Nat) | listed (n : Nat)
  deriving DecidableEq, Repr

/-- What a call returns. -/
inductive Res where
  | unit | node (n : Nat) | nodes (l : List Nat) | bool (b : Bool)
  deriving DecidableEq, Repr

/-- Queue number 0 is reserved for the local queue of `split` (queue.hfa:141). -/
def step (dbg : Bool) (fuel : Nat) (s : St) : Op → Outcome (St × Res)
  | .addHead q n => do let s ← addHead dbg s q n; pure (s, .unit)
  | .addTail q n => do let s ← addTail dbg s q n; pure (s, .unit)
  | .dropHead q => do let (s, n) ← dropHead s q; pure (s, .node n)
  | .dropTail q => do let (s, n) ← dropTail dbg fuel s q; pure (s, .node n)
  | .remove q n => do let s ← remove dbg fuel s q n; pure (s, .unit)
  | .transfer q f => do let s ← transfer s q f; pure (s, .unit)
  | .split q f n => do let s ← split dbg s q f n 0; pure (s, .unit)
  | .head q => .ret (s, .node (head s q))
  | .tail q => .ret (s, .node (tail s q))
  | .succ _ n => do let m ← succ dbg s n; pure (s, .node m)
  | .iterate q => do let l ← iterate s fuel (head s q); pure (s, .nodes l)
  | .empty q => .ret (s, .bool (empty s q))
  | .listed n => do let b ← listed s n; pure (s, .bool b)

/-- A history of calls. -/
def run (dbg : Bool) (fuel : Nat) : St → List Op → Outcome (St × List Res)
  | s, [] => .ret (s, [])
  | s, o :: os => do
    let (s, r) ← step dbg fuel s o
    let (s, rs) ← run dbg fuel s os
    pure (s, r :: rs)

end Verif.Queue
