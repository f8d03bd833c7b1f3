import Verif.Model.Heap
/-!
Model of `libcfa/src/bits/sequence.hfa` (intrusive doubly linked sequence) and `libcfa/src/bits/collection.hfa`.

The state holds the `next` and `back` fields of every node and the `root` field of every sequence. Dereferencing null is
undefined. `dbg` says whether the code is compiled with `__CFA_DEBUG__`. The compiler barriers (`asm`) have no effect on
sequential executions and are left out. Loops take a number of iterations `fuel`.
-/
namespace Verif.Sequence

/-- sequence.hfa:22-26 `Seqable`, 56-59 `Sequence`; collection.hfa:19-23, 61-63. -/
structure St where
  next : Nat → Nat
  back : Nat → Nat
  root : Nat → Nat

/-- sequence.hfa:32-35, 65-67: all nodes unlisted, all sequences empty. -/
def St.init : St := ⟨fun _ => 0, fun _ => 0, fun _ => 0⟩

/-- `Next( n )` as a value: collection.hfa:43-45 `Next`. -/
def rdN (s : St) (n : Nat) : Outcome Nat := if n = 0 then .undef else .ret (s.next n)

/-- `Back( n )` as a value: sequence.hfa:43-45 `Back`. -/
def rdB (s : St) (n : Nat) : Outcome Nat := if n = 0 then .undef else .ret (s.back n)

/-- `Next( n ) = v`: collection.hfa:43-45 `Next`. -/
def wrN (s : St) (n v : Nat) : Outcome St := if n = 0 then .undef else .ret { s with next := upd s.next n v }

/-- `Back( n ) = v`: sequence.hfa:43-45 `Back`. -/
def wrB (s : St) (n v : Nat) : Outcome St := if n = 0 then .undef else .ret { s with back := upd s.back n v }

/-- collection.hfa:33-35, 56-58 `listed`. -/
def listed (s : St) (n : Nat) : Outcome Bool := do
  let x ← rdN s n
  pure (decide (x ≠ 0))

/-- The debug checks, e.g. sequence.hfa:100-102: abort when `listed` is not `want`. -/
def check (dbg : Bool) (s : St) (n : Nat) (want : Bool) : Outcome Unit :=
  if dbg then do
    let b ← listed s n
    if b = want then .ret () else .abort
  else .ret ()

/-- collection.hfa:74-76 `empty`. -/
def empty (s : St) (q : Nat) : Bool := decide (s.root q = 0)

/-- sequence.hfa:72-74 `head` (null when empty). -/
def head (s : St) (q : Nat) : Nat := s.root q

/-- sequence.hfa:77-79 `tail` (null when empty). -/
def tail (s : St) (q : Nat) : Outcome Nat := if s.root q ≠ 0 then rdB s (head s q) else .ret 0

/-- sequence.hfa:82-87 `succ`. -/
def succ (dbg : Bool) (s : St) (q n : Nat) : Outcome Nat := do
  check dbg s n true
  let x ← rdN s n
  pure (if x = head s q then 0 else x)

/-- sequence.hfa:90-95 `pred`. -/
def pred (dbg : Bool) (s : St) (q n : Nat) : Outcome Nat := do
  check dbg s n true
  if n = head s q then .ret 0 else rdB s n

/-- The four assignments of `insertBef` that link `n` before `b`: sequence.hfa:105-110 and 120-125 (and 138-143 in
    `insertAft`). -/
def linkBefore (s : St) (n b : Nat) : Outcome St := do
  let s ← wrN s n b
  let x ← rdB s b
  let s ← wrB s n x
  let s ← wrB s b n
  let y ← rdB s n
  wrN s y n

/-- sequence.hfa:99-128 `insertBef`; `bef` may be null. -/
def insertBef (dbg : Bool) (s : St) (q n bef : Nat) : Outcome St := do
  check dbg s n false
  if bef = head s q then do
    let s ← (if s.root q ≠ 0 then linkBefore s n (head s q)
      else do
        let s ← wrN s n n
        wrB s n n)
    pure { s with root := upd s.root q n }
  else
    linkBefore s n (if bef = 0 then head s q else bef)

/-- sequence.hfa:132-159 `insertAft`; `aft` may be null. -/
def insertAft (dbg : Bool) (s : St) (q aft n : Nat) : Outcome St := do
  check dbg s n false
  if aft = 0 then do
    let s ← (if s.root q ≠ 0 then linkBefore s n (head s q)
      else do
        let s ← wrN s n n
        wrB s n n)
    pure { s with root := upd s.root q n }
  else do
    let x ← rdN s aft
    let s ← wrN s n x
    let s ← wrB s n aft
    let y ← rdN s n
    let s ← wrB s y n
    wrN s aft n

/-- sequence.hfa:166-169: `remove` moves the root when the head is removed. -/
def removeRoot (s : St) (q n : Nat) : Outcome St :=
  if n = head s q then do
    let x ← rdN s (head s q)
    if x = head s q then .ret { s with root := upd s.root q 0 }
    else .ret { s with root := upd s.root q x }
  else .ret s

/-- sequence.hfa:162-174 `remove`. -/
def remove (dbg : Bool) (s : St) (q n : Nat) : Outcome St := do
  check dbg s n true
  let s ← removeRoot s q n
  let x ← rdN s n
  let y ← rdB s n
  let s ← wrB s x y
  let y ← rdB s n
  let x ← rdN s n
  let s ← wrN s y x
  let s ← wrB s n 0
  wrN s n 0

/-- sequence.hfa:177-179 `addHead`. -/
def addHead (dbg : Bool) (s : St) (q n : Nat) : Outcome St := insertAft dbg s q 0 n

/-- sequence.hfa:182-184 `addTail` (`add` is the same, 187-189). -/
def addTail (dbg : Bool) (s : St) (q n : Nat) : Outcome St := insertBef dbg s q n 0

/-- sequence.hfa:192-195 `dropHead` (`drop` is the same, 198-200). -/
def dropHead (dbg : Bool) (s : St) (q : Nat) : Outcome (St × Nat) :=
  let n := head s q
  if n ≠ 0 then do
    let s ← remove dbg s q n
    pure (s, n)
  else .ret (s, 0)

/-- sequence.hfa:203-206 `dropTail`. -/
def dropTail (dbg : Bool) (s : St) (q : Nat) : Outcome (St × Nat) := do
  let n ← tail s q
  if n ≠ 0 then do
    let s ← remove dbg s q n
    pure (s, n)
  else .ret (s, 0)

/-- sequence.hfa:209-222 `transfer`. -/
def transfer (s : St) (q from_ : Nat) : Outcome St :=
  if empty s from_ then .ret s
  else do
    let s ← (if empty s q then .ret { s with root := upd s.root q (s.root from_) }
      else do
        let toEnd ← rdB s (head s q)
        let fromEnd ← rdB s (head s from_)
        let s ← wrB s (s.root q) fromEnd
        let s ← wrN s fromEnd (head s q)
        let s ← wrB s (s.root from_) toEnd
        wrN s toEnd (head s from_))
    pure { s with root := upd s.root from_ 0 }

/-- sequence.hfa:226-242 `split`. The local sequence `to` gets an unused sequence number. -/
def split (dbg : Bool) (s : St) (q from_ n to : Nat) : Outcome St := do
  check dbg s n true
  let s := { s with root := upd s.root to (s.root from_) }
  let x ← rdN s n
  let s := { s with root := upd s.root from_ x }
  let s ← (if s.root to = s.root from_ then .ret { s with root := upd s.root from_ 0 }
    else do
      let l ← rdB s (head s to)
      let s ← wrB s (head s from_) l
      let l ← rdB s (head s to)
      let s ← wrN s l (head s from_)
      let s ← wrN s n (head s to)
      wrB s (head s to) n)
  transfer s q to

/-- sequence.hfa:281-288 `?|?` of `SeqIter`: the element produced (null at the end) and the next position. -/
def iterNext (dbg : Bool) (s : St) (q curr : Nat) : Outcome (Nat × Nat) :=
  if curr ≠ 0 then do
    let n ← succ dbg s q curr
    pure (curr, if n = head s q then 0 else n)
  else .ret (0, curr)

/-- sequence.hfa:324-331 `?|?` of `SeqIterRev`. -/
def iterPrev (dbg : Bool) (s : St) (q curr : Nat) : Outcome (Nat × Nat) :=
  if curr ≠ 0 then do
    let n ← pred dbg s q curr
    let t ← tail s q
    pure (curr, if n = t then 0 else n)
  else .ret (0, curr)

/-- `while ( it | node )` from position `curr` until `?|?` returns false (sequence.hfa:281-288). -/
def iterate (dbg : Bool) (s : St) (q : Nat) : (fuel curr : Nat) → Outcome (List Nat)
  | 0, _ => .undef
  | fuel + 1, curr => do
    let (e, c) ← iterNext dbg s q curr
    if e ≠ 0 then do
      let l ← iterate dbg s q fuel c
      pure (e :: l)
    else .ret []

/-- `while ( it | node )` for a reverse iterator (sequence.hfa:324-331). -/
def iterateRev (dbg : Bool) (s : St) (q : Nat) : (fuel curr : Nat) → Outcome (List Nat)
  | 0, _ => .undef
  | fuel + 1, curr => do
    let (e, c) ← iterPrev dbg s q curr
    if e ≠ 0 then do
      let l ← iterateRev dbg s q fuel c
      pure (e :: l)
    else .ret []

/-- One call of the interface. -/
inductive Op where
  | addHead (q n : Nat) | addTail (q n : Nat) | insertBef (q n bef : Nat) | insertAft (q aft n : Nat)
  | dropHead (q : Nat) | dropTail (q : Nat) | remove (q n : Nat)
  | transfer (q from_ : Nat) | split (q from_ n : Nat)
  | head (q : Nat) | tail (q : Nat) | succ (q n : Nat) | pred (q n : Nat)
  | iterate (q : Nat) | iterateRev (q : Nat) | iterateFrom (q n : Nat) | iterateRevFrom (q n : Nat)
  | empty (q : Nat) | listed (n : Nat)
  deriving DecidableEq, Repr

/-- What a call returns. -/
inductive Res where
  | unit | node (n : Nat) | nodes (l : List Nat) | bool (b : Bool)
  deriving DecidableEq, Repr

/-- Sequence number 0 is reserved for the local sequence of `split` (sequence.hfa:230). Iterators start at the head
    (263-267), at the tail (306-310) or at a given node (269-273, 312-316). -/
def step (dbg : Bool) (fuel : Nat) (s : St) : Op → Outcome (St × Res)
  | .addHead q n => do let s ← addHead dbg s q n; pure (s, .unit)
  | .addTail q n => do let s ← addTail dbg s q n; pure (s, .unit)
  | .insertBef q n b => do let s ← insertBef dbg s q n b; pure (s, .unit)
  | .insertAft q a n => do let s ← insertAft dbg s q a n; pure (s, .unit)
  | .dropHead q => do let (s, n) ← dropHead dbg s q; pure (s, .node n)
  | .dropTail q => do let (s, n) ← dropTail dbg s q; pure (s, .node n)
  | .remove q n => do let s ← remove dbg s q n; pure (s, .unit)
  | .transfer q f => do let s ← transfer s q f; pure (s, .unit)
  | .split q f n => do let s ← split dbg s q f n 0; pure (s, .unit)
  | .head q => .ret (s, .node (head s q))
  | .tail q => do let n ← tail s q; pure (s, .node n)
  | .succ q n => do let m ← succ dbg s q n; pure (s, .node m)
  | .pred q n => do let m ← pred dbg s q n; pure (s, .node m)
  | .iterate q => do let l ← iterate dbg s q fuel (head s q); pure (s, .nodes l)
  | .iterateRev q => do let t ← tail s q; let l ← iterateRev dbg s q fuel t; pure (s, .nodes l)
  | .iterateFrom q n => do let l ← iterate dbg s q fuel n; pure (s, .nodes l)
  | .iterateRevFrom q n => do let l ← iterateRev dbg s q fuel n; pure (s, .nodes l)
  | .empty q => .ret (s, .bool (empty s q))
  | .listed n => do let b ← listed s n; pure (s, .bool b)

/-- A history of calls. -/
def run (dbg : Bool) (fuel : Nat) : St → List Op → Outcome (St × List Res)
  | s, [] => .ret (s, [])
  | s, o :: os => do
    let (s, r) ← step dbg fuel s o
    let (s, rs) ← run dbg fuel s os
    pure (s, r :: rs)

end Verif.Sequence
