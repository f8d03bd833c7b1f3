import Verif.Model.Heap
/-!
Model of the intrusive doubly linked list `dlist`, /repo/libcfa/src/collections/list.hfa.

A pointer is a natural number; memory addresses of list headers and of nodes are even and not 0, 0 is null, and the
origin tag is bit 0 (the fallback case of lines 104-108; on x86-64 the tag is another bit that no address uses, bit 63).
The link fields of the object at address `a` are `next a` and `prev a`; the offset of the link inside an element
(`inner`, lines 30-70) is abstracted: header and elements are identified with the address of their link.
The normal configuration is modelled (no `__EXPERIMENTAL_…__` macro). `dbg` says whether `verify` is compiled in.
Reading or writing a link of null is undefined behaviour.
-/
namespace Verif.Dlist
open Verif

/-- list.hfa:155-158 `dlink`, of all headers and nodes. -/
structure St where
  next : Nat → Nat
  prev : Nat → Nat

/-- list.hfa:113 `ORIGIN_TAG_SET`. -/
def tagSet (p : Nat) : Nat := p - p % 2 + 1
/-- list.hfa:114 `ORIGIN_TAG_CLEAR`. -/
def tagClear (p : Nat) : Nat := p - p % 2
/-- list.hfa:115 `ORIGIN_TAG_QUERY`. -/
def tagQuery (p : Nat) : Bool := p % 2 == 1

def verify (dbg b : Bool) : Outcome Unit := if dbg && !b then .abort else .ret ()

def rdNext (s : St) (a : Nat) : Outcome Nat := if a = 0 then .undef else .ret (s.next a)
def rdPrev (s : St) (a : Nat) : Outcome Nat := if a = 0 then .undef else .ret (s.prev a)
def wrNext (s : St) (a v : Nat) : Outcome St := if a = 0 then .undef else .ret { s with next := upd s.next a v }
def wrPrev (s : St) (a v : Nat) : Outcome St := if a = 0 then .undef else .ret { s with prev := upd s.prev a v }

/-- list.hfa:160-164, 180-183: constructors. `H` says which addresses are list headers; all other links are those of
    constructed, unlisted nodes. -/
def init (H : Nat → Bool) : St :=
  ⟨fun a => if H a then tagSet a else 0, fun a => if H a then tagSet a else 0⟩

/-- list.hfa:172-178, 318-321 `$get_list_origin_addr`, `iter`. -/
def iter (q : Nat) : Nat := tagSet q

/-- list.hfa:190-200 `listed`. -/
def listed (dbg : Bool) (s : St) (n : Nat) : Outcome Bool := do
  verify dbg (n != 0)
  let p ← rdPrev s n
  let x ← rdNext s n
  pure (p != 0 || x != 0)

/-- list.hfa:202-206 `empty`. -/
def empty (s : St) (q : Nat) : Outcome Bool := do
  let f ← rdNext s q
  let f := if tagQuery f then 0 else f
  pure (f == 0)

/-- list.hfa:208-212 `first` of a list; the result is the address of the element, null if there is none. -/
def first (s : St) (q : Nat) : Outcome Nat := do
  let f ← rdNext s q
  pure (if tagQuery f then 0 else f)

/-- list.hfa:214-218 `last` of a list. -/
def last (s : St) (q : Nat) : Outcome Nat := do
  let f ← rdPrev s q
  pure (if tagQuery f then 0 else f)

/-- list.hfa:220-242 `insert_before`; `b` is an element or the origin of a list. -/
def insertBefore (dbg : Bool) (s : St) (b n : Nat) : Outcome St := do
  verify dbg (b != 0)
  verify dbg (n != 0)
  let x ← rdNext s n
  let y ← rdPrev s n
  verify dbg (x == 0)
  verify dbg (y == 0)
  let pos := tagClear b
  let raw ← rdPrev s pos
  let elem := tagClear raw
  let s ← wrNext s n b
  let s ← wrPrev s n raw
  let s ← wrNext s elem n
  wrPrev s pos n

/-- list.hfa:253-275 `insert_after`. -/
def insertAfter (dbg : Bool) (s : St) (a n : Nat) : Outcome St := do
  verify dbg (a != 0)
  verify dbg (n != 0)
  let y ← rdPrev s n
  let x ← rdNext s n
  verify dbg (y == 0)
  verify dbg (x == 0)
  let pos := tagClear a
  let raw ← rdNext s pos
  let elem := tagClear raw
  let s ← wrPrev s n a
  let s ← wrNext s n raw
  let s ← wrPrev s elem n
  wrNext s pos n

/-- list.hfa:286-307 `remove`. -/
def remove (dbg : Bool) (s : St) (n : Nat) : Outcome St := do
  verify dbg (n != 0)
  verify dbg (!tagQuery n)
  let braw ← rdPrev s n
  let belem := tagClear braw
  let araw ← rdNext s n
  let aelem := tagClear araw
  let s ← wrNext s belem araw
  let s ← wrPrev s aelem braw
  let s ← wrPrev s n 0
  wrNext s n 0

/-- list.hfa:323-328 `recede`: the iterator moved, and the result. -/
def recede (s : St) (p : Nat) : Outcome (Nat × Bool) := do
  let r ← rdPrev s (tagClear p)
  pure (r, r != 0 && !tagQuery r)

/-- list.hfa:330-335 `advance`. -/
def advance (s : St) (p : Nat) : Outcome (Nat × Bool) := do
  let r ← rdNext s (tagClear p)
  pure (r, r != 0 && !tagQuery r)

/-- list.hfa:337-339 `first` of a node. -/
def firstNode (s : St) (n : Nat) : Outcome Bool := do
  let r ← recede s n
  pure r.2

/-- list.hfa:341-343 `last` of a node. -/
def lastNode (s : St) (n : Nat) : Outcome Bool := do
  let r ← advance s n
  pure r.2

/-- list.hfa:345-348 `prev`. -/
def prevNode (s : St) (n : Nat) : Outcome Nat := do
  let r ← recede s n
  pure (if r.2 then r.1 else 0)

/-- list.hfa:350-353 `next`. -/
def nextNode (s : St) (n : Nat) : Outcome Nat := do
  let r ← advance s n
  pure (if r.2 then r.1 else 0)

/-- list.hfa:355-358 `insert_first`. -/
def insertFirst (dbg : Bool) (s : St) (q n : Nat) : Outcome St := insertAfter dbg s (iter q) n

/-- list.hfa:369-372, 383-386 `insert_last`, `insert`. -/
def insertLast (dbg : Bool) (s : St) (q n : Nat) : Outcome St := insertBefore dbg s (iter q) n

/-- list.hfa:397-401 `remove_first`. -/
def removeFirst (dbg : Bool) (s : St) (q : Nat) : Outcome (St × Nat) := do
  let f ← first s q
  if f ≠ 0 then
    let s ← remove dbg s f
    pure (s, f)
  else pure (s, f)

/-- list.hfa:403-407 `remove_last`. -/
def removeLast (dbg : Bool) (s : St) (q : Nat) : Outcome (St × Nat) := do
  let f ← last s q
  if f ≠ 0 then
    let s ← remove dbg s f
    pure (s, f)
  else pure (s, f)

/-- list.hfa:483 `FOREACH`, collecting the elements visited, and where the iterator stops. Out of fuel is reported as
    `undef`. -/
def foreach (s : St) : Nat → Nat → Outcome (List Nat × Nat)
  | 0, _ => .undef
  | fuel + 1, it => do
    let r ← advance s it
    if r.2 then
      let (l, e) ← foreach s fuel r.1
      pure (r.1 :: l, e)
    else pure ([], r.1)

/-- list.hfa:484 `FOREACH_REV`. -/
def foreachRev (s : St) : Nat → Nat → Outcome (List Nat × Nat)
  | 0, _ => .undef
  | fuel + 1, it => do
    let r ← recede s it
    if r.2 then
      let (l, e) ← foreachRev s fuel r.1
      pure (r.1 :: l, e)
    else pure ([], r.1)

/-- list.hfa:449-453, the loop of `$validate_fwd`; `none` is the `return false` inside the loop. -/
def fwdLoop (s : St) (q : Nat) : Nat → Nat → Nat → Outcome (Option Nat)
  | 0, _, _ => .undef
  | fuel + 1, it, lag => do
    let r ← advance s it
    if r.2 then
      let f ← first s q
      if lag = 0 ∧ r.1 ≠ f then pure none else fwdLoop s q fuel r.1 r.1
    else pure (some lag)

/-- list.hfa:446-459 `$validate_fwd`. -/
def validateFwd (s : St) (q fuel : Nat) : Outcome Bool := do
  let f ← first s q
  let l ← last s q
  if f = 0 then pure (l == 0) else
    let r ← fwdLoop s q fuel (iter q) 0
    match r with
    | none => pure false
    | some lag => pure (lag == l)

/-- list.hfa:464-468, the loop of `$validate_rev`. -/
def revLoop (s : St) (q : Nat) : Nat → Nat → Nat → Outcome (Option Nat)
  | 0, _, _ => .undef
  | fuel + 1, it, lag => do
    let r ← recede s it
    if r.2 then
      let f ← last s q
      if lag = 0 ∧ r.1 ≠ f then pure none else revLoop s q fuel r.1 r.1
    else pure (some lag)

/-- list.hfa:461-474 `$validate_rev`. -/
def validateRev (s : St) (q fuel : Nat) : Outcome Bool := do
  let l ← last s q
  let f ← first s q
  if l = 0 then pure (f == 0) else
    let r ← revLoop s q fuel (iter q) 0
    match r with
    | none => pure false
    | some lag => pure (lag == f)

/-- list.hfa:476-478 `validate`. -/
def validate (s : St) (q fuel : Nat) : Outcome Bool := do
  let a ← validateFwd s q fuel
  if a then validateRev s q fuel else pure false

/-- The calls of a history. Positions of `insertBefore` and `insertAfter` are iterators: elements or origins. -/
inductive Op where
  | insertFirst (q n : Nat) | insertLast (q n : Nat) | insertBefore (p n : Nat) | insertAfter (p n : Nat)
  | remove (n : Nat) | removeFirst (q : Nat) | removeLast (q : Nat)
  | empty (q : Nat) | first (q : Nat) | last (q : Nat) | listed (n : Nat)
  | next (n : Nat) | prev (n : Nat) | foreach (q : Nat) | foreachRev (q : Nat) | validate (q : Nat)

inductive Res where
  | unit | node (n : Nat) | bool (b : Bool) | nodes (l : List Nat)
  deriving DecidableEq

def step (dbg : Bool) (fuel : Nat) (s : St) : Op → Outcome (St × Res)
  | .insertFirst q n => do let s ← insertFirst dbg s q n; pure (s, .unit)
  | .insertLast q n => do let s ← insertLast dbg s q n; pure (s, .unit)
  | .insertBefore p n => do let s ← insertBefore dbg s p n; pure (s, .unit)
  | .insertAfter p n => do let s ← insertAfter dbg s p n; pure (s, .unit)
  | .remove n => do let s ← remove dbg s n; pure (s, .node n)
  | .removeFirst q => do let (s, n) ← removeFirst dbg s q; pure (s, .node n)
  | .removeLast q => do let (s, n) ← removeLast dbg s q; pure (s, .node n)
  | .empty q => do let b ← empty s q; pure (s, .bool b)
  | .first q => do let b ← first s q; pure (s, .node b)
  | .last q => do let b ← last s q; pure (s, .node b)
  | .listed n => do let b ← listed dbg s n; pure (s, .bool b)
  | .next n => do let b ← nextNode s n; pure (s, .node b)
  | .prev n => do let b ← prevNode s n; pure (s, .node b)
  | .foreach q => do let r ← foreach s fuel (iter q); pure (s, .nodes r.1)
  | .foreachRev q => do let r ← foreachRev s fuel (iter q); pure (s, .nodes r.1)
  | .validate q => do let b ← validate s q fuel; pure (s, .bool b)

def run (dbg : Bool) (fuel : Nat) (s : St) : List Op → Outcome (St × List Res)
  | [] => .ret (s, [])
  | o :: os => do
    let (s, r) ← step dbg fuel s o
    let (s, rs) ← run dbg fuel s os
    pure (s, r :: rs)

end Verif.Dlist
