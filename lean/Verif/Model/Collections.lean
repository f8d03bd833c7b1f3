import Verif.Model.Heap
/-!
Model of `libcfa/src/bits/collections.hfa`: the runtime's intrusive `__queue`, `__stack` and `__dllist`.

Null is node 0 and the queue terminator `1p` is node 1, so real nodes are numbered from 2. A failed `verify` is `abort`;
dereferencing `0p` or `1p` is undefined.
-/
namespace Verif.Collections

/-- What a pointer to a pointer can designate: the `head` field of a queue or the `next` field of a node
    (collections.hfa:134-137 `tail`). -/
inductive Loc where
  | head (q : Nat) | next (n : Nat)
  deriving DecidableEq, Repr

/-- collections.hfa:134-137 `__queue`; the `next` field is the node's `get_next`. -/
structure QSt where
  head : Nat → Nat
  next : Nat → Nat
  tail : Nat → Loc

/-- collections.hfa:148-152: all queues constructed, no node on a queue. -/
def QSt.init : QSt := ⟨fun _ => 1, fun _ => 0, fun q => .head q⟩

/-- Reading through a pointer to a pointer; `get_next( *n )` of a non-node is undefined (collections.hfa:72-74 `is_node`). -/
def rd (s : QSt) : Loc → Outcome Nat
  | .head q => .ret (s.head q)
  | .next n => if n ≤ 1 then .undef else .ret (s.next n)

/-- Writing through a pointer to a pointer (collections.hfa:72-74 `is_node`). -/
def wr (s : QSt) (v : Nat) : Loc → Outcome QSt
  | .head q => .ret { s with head := upd s.head q v }
  | .next n => if n ≤ 1 then .undef else .ret { s with next := upd s.next n v }

/-- The `verify` macro (e.g. collections.hfa:155). -/
def verify (b : Bool) : Outcome Unit := if b then .ret () else .abort

/-- collections.hfa:154-161 `append`. -/
def append (s : QSt) (q val : Nat) : Outcome QSt := do
  let x ← rd s (.next val)
  verify (decide (x = 0))
  let t ← rd s (s.tail q)
  verify (decide (t = 1))
  let s ← wr s val (s.tail q)
  let s := { s with tail := upd s.tail q (.next val) }
  wr s 1 (s.tail q)

/-- collections.hfa:163-172 `peek`. -/
def peek (s : QSt) (q : Nat) : Outcome Nat := do
  let t ← rd s (s.tail q)
  verify (decide (t = 1))
  if s.head q ≠ 1 then .ret (s.head q) else .ret 0

/-- collections.hfa:174-189 `pop_head`. -/
def popHead (s : QSt) (q : Nat) : Outcome (QSt × Nat) := do
  let t ← rd s (s.tail q)
  verify (decide (t = 1))
  let h := s.head q
  if h ≠ 1 then do
    let x ← rd s (.next h)
    let s := { s with head := upd s.head q x }
    let y ← rd s (.next h)
    let s := if y = 1 then { s with tail := upd s.tail q (.head q) } else s
    let s ← wr s 0 (.next h)
    let t ← rd s (s.tail q)
    verify (decide (t = 1))
    pure (s, h)
  else .ret (s, 0)

/-- collections.hfa:191-206 `remove`. -/
def remove (s : QSt) (q : Nat) (it : Loc) : Outcome (QSt × Nat) := do
  let val ← rd s it
  verify (decide (val ≠ 0))
  let x ← rd s (.next val)
  let s ← wr s x it
  let s := if s.tail q = .next val then { s with tail := upd s.tail q it } else s
  let s ← wr s 0 (.next val)
  verify (decide (s.head q = 1) == decide (s.tail q = .head q))
  let t ← rd s (s.tail q)
  verify (decide (t = 1))
  pure (s, val)

/-- collections.hfa:208-210 `?!=?` with zero: is the queue non-empty. -/
def nonEmpty (s : QSt) (q : Nat) : Bool := decide (s.head q ≠ 1)

/-- Calls on queues. -/
inductive QOp where
  | append (q n : Nat) | peek (q : Nat) | popHead (q : Nat) | remove (q : Nat) (it : Loc) | nonEmpty (q : Nat)
  deriving DecidableEq, Repr

/-- What a call returns. -/
inductive Res where
  | unit | node (n : Nat) | bool (b : Bool)
  deriving DecidableEq, Repr

def qstep (s : QSt) : QOp → Outcome (QSt × Res)
  | .append q n => do let s ← append s q n; pure (s, .unit)
  | .peek q => do let n ← peek s q; pure (s, .node n)
  | .popHead q => do let (s, n) ← popHead s q; pure (s, .node n)
  | .remove q it => do let (s, n) ← remove s q it; pure (s, .node n)
  | .nonEmpty q => .ret (s, .bool (nonEmpty s q))

def qrun : QSt → List QOp → Outcome (QSt × List Res)
  | s, [] => .ret (s, [])
  | s, o :: os => do
    let (s, r) ← qstep s o
    let (s, rs) ← qrun s os
    pure (s, r :: rs)

/-- collections.hfa:86-88 `__stack`. -/
structure SSt where
  top : Nat → Nat
  next : Nat → Nat

/-- collections.hfa:98-101. -/
def SSt.init : SSt := ⟨fun _ => 0, fun _ => 0⟩

/-- collections.hfa:104-108 `push`. -/
def spush (s : SSt) (q n : Nat) : Outcome SSt :=
  if n = 0 then .undef
  else if s.next n ≠ 0 then .abort
  else .ret ⟨upd s.top q n, upd s.next n (s.top q)⟩

/-- collections.hfa:110-117 `pop`. -/
def spop (s : SSt) (q : Nat) : Outcome (SSt × Nat) :=
  let t := s.top q
  if t ≠ 0 then .ret (⟨upd s.top q (s.next t), upd s.next t 0⟩, t)
  else .ret (s, t)

/-- Calls on stacks. -/
inductive SOp where
  | push (q n : Nat) | pop (q : Nat)
  deriving DecidableEq, Repr

def sstep (s : SSt) : SOp → Outcome (SSt × Res)
  | .push q n => do let s ← spush s q n; pure (s, .unit)
  | .pop q => do let (s, n) ← spop s q; pure (s, .node n)

def srun : SSt → List SOp → Outcome (SSt × List Res)
  | s, [] => .ret (s, [])
  | s, o :: os => do
    let (s, r) ← sstep s o
    let (s, rs) ← srun s os
    pure (s, r :: rs)

/-- collections.hfa:227-230 `__dllist`; `__get` gives the `next` and `prev` fields of a node. -/
structure DSt where
  next : Nat → Nat
  prev : Nat → Nat
  head : Nat → Nat

/-- collections.hfa:241-245. -/
def DSt.init : DSt := ⟨fun _ => 0, fun _ => 0, fun _ => 0⟩

/-- Field accesses through `__get( *n )`; dereferencing null is undefined (collections.hfa:253). -/
def drdN (s : DSt) (n : Nat) : Outcome Nat := if n = 0 then .undef else .ret (s.next n)
/-- As `drdN`, for `prev` (collections.hfa:254). -/
def drdP (s : DSt) (n : Nat) : Outcome Nat := if n = 0 then .undef else .ret (s.prev n)
/-- As `drdN`, assignment to `next` (collections.hfa:253). -/
def dwrN (s : DSt) (n v : Nat) : Outcome DSt := if n = 0 then .undef else .ret { s with next := upd s.next n v }
/-- As `drdN`, assignment to `prev` (collections.hfa:254). -/
def dwrP (s : DSt) (n v : Nat) : Outcome DSt := if n = 0 then .undef else .ret { s with prev := upd s.prev n v }

/-- collections.hfa:250-269 `push_front`. -/
def pushFront (s : DSt) (q node : Nat) : Outcome DSt := do
  let s ← (if s.head q ≠ 0 then do
      let s ← dwrN s node (s.head q)
      let p ← drdP s (s.head q)
      let s ← dwrP s node p
      let s ← dwrP s (s.head q) node
      let p ← drdP s node
      dwrN s p node
    else do
      let s ← dwrN s node node
      dwrP s node node)
  pure { s with head := upd s.head q node }

/-- collections.hfa:273-279: the change of head in `remove`. -/
def dremoveHead (s : DSt) (q node : Nat) : Outcome DSt :=
  if node = s.head q then do
    let x ← drdN s (s.head q)
    if x = s.head q then .ret { s with head := upd s.head q 0 }
    else .ret { s with head := upd s.head q x }
  else .ret s

/-- collections.hfa:271-284 `remove`. -/
def dremove (s : DSt) (q node : Nat) : Outcome DSt := do
  let s ← dremoveHead s q node
  let x ← drdN s node
  let y ← drdP s node
  let s ← dwrP s x y
  let y ← drdP s node
  let x ← drdN s node
  let s ← dwrN s y x
  let s ← dwrN s node 0
  dwrP s node 0

/-- collections.hfa:290-293 `move_to_front`. -/
def moveToFront (s : DSt) (src dst node : Nat) : Outcome DSt := do
  let s ← dremove s src node
  pushFront s dst node

/-- Calls on doubly linked lists. -/
inductive DOp where
  | pushFront (q n : Nat) | remove (q n : Nat) | moveToFront (src dst n : Nat) | head (q : Nat)
  deriving DecidableEq, Repr

/-- collections.hfa:286-288 `?!=?` reads `head`, which callers also read directly. -/
def dstep (s : DSt) : DOp → Outcome (DSt × Res)
  | .pushFront q n => do let s ← pushFront s q n; pure (s, .unit)
  | .remove q n => do let s ← dremove s q n; pure (s, .unit)
  | .moveToFront a b n => do let s ← moveToFront s a b n; pure (s, .unit)
  | .head q => .ret (s, .node (s.head q))

def drun : DSt → List DOp → Outcome (DSt × List Res)
  | s, [] => .ret (s, [])
  | s, o :: os => do
    let (s, r) ← dstep s o
    let (s, rs) ← drun s os
    pure (s, r :: rs)

end Verif.Collections
