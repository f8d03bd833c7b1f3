import Verif.Spec.WaitUntil
import Verif.Model.Trans
import Verif.Model.Heap
/-!
The code that the compiler generates for a `waituntil` statement without `else` (src/Concurrency/Waituntil.cpp), and how it is executed
(libcfa/src/concurrency/select.hfa). The statement that is generated for a predicate with `or` only is in Model/Select.lean; here only
the decision which of the two forms is generated.
-/
namespace Verif.WaitUntil
open Verif

/-- A `ClauseNode` with the marks of the compiler (src/AST/Stmt.hpp:475-493): `amb` is `ambiguousWhen`, `ofAnd` is `childOfAnd`. -/
inductive Node where
  | leaf (guarded amb ofAnd : Bool)
  | node (isAnd amb : Bool) (l r : Node)
  deriving DecidableEq, Repr

def Node.amb : Node → Bool
  | .leaf _ a _ => a
  | .node _ a _ _ => a

def Node.leaves : Node → Nat
  | .leaf .. => 1
  | .node _ _ l r => l.leaves + r.leaves

/-- Waituntil.cpp:202-249 `updateAmbiguousWhen`, `paintWhenTree`. The arguments `andBelow` and `orBelow` are references: a leaf leaves
    them as they are, and the results are their new values. -/
def paint : Tree → (andAbove orAbove andBelow orBelow : Bool) → Node × Bool × Bool
  | .and l r, _, orAbove, _, _ =>
    let (l', a1, o1) := paint l true orAbove false false
    let (r', a2, o2) := paint r true orAbove a1 o1
    (.node true (l'.amb && r'.amb && ((orAbove || o2) && (a2 || true))) l' r', true, o2)
  | .or l r, andAbove, _, _, _ =>
    let (l', a1, o1) := paint l andAbove true false false
    let (r', a2, o2) := paint r andAbove true a1 o1
    (.node false (l'.amb && r'.amb && ((true || o2) && (a2 || andAbove))) l' r', a2, true)
  | .leaf guarded, _, _, andBelow, orBelow => (.leaf guarded guarded false, andBelow, orBelow)

/-- Waituntil.cpp:253-257, 1212-1213: whether the statement is compiled as an `or` of all clauses. -/
def allOr (t : Tree) : Bool := !(paint t false false false false).2.1

/-- Waituntil.cpp:274-297 `collectWhens`: marks the leaves, and yields `ambigIdxs` and `andIdxs`. -/
def collect : Node → (index : Nat) → (parentAmbig parentAnd : Bool) → Node × List Nat × List Nat
  | .node isAnd amb l r, k, _, _ =>
    let (l', x1, y1) := collect l k amb isAnd
    let (r', x2, y2) := collect r (k + l.leaves) amb isAnd
    (.node isAnd amb l' r', x1 ++ x2, y1 ++ y2)
  | .leaf guarded amb _, k, parentAmbig, parentAnd =>
    (.leaf guarded amb (parentAnd && guarded), if parentAmbig then [k] else [], if parentAnd && guarded then [k] else [])

/-- Waituntil.cpp:310-318 `updateWhenState`: the `whenState` of a node, from those of the leaves. -/
def whenState (ws : Nat → Bool) : Node → Nat → Bool
  | .leaf .., k => ws k
  | .node _ _ l r, k => whenState ws l k || whenState ws r (k + l.leaves)

/-- The status of a clause (select.hfa:27-30); `__SELECT_PENDING` is not used here. -/
inductive St where
  | unsat
  | sat
  | run
  deriving DecidableEq, Repr

/-- Waituntil.cpp:322-376 `genSubtreeAssign`: the assignments to clause statuses. -/
def subtreeAssign : Node → (status : Bool) → (idx : Nat) → List (Nat × St)
  | .node isAnd _ l r, status, k =>
    let x := subtreeAssign l status k
    let y := subtreeAssign r status (k + l.leaves)
    if isAnd == status then x ++ y
    else if x.length < y.length then x else y
  | .leaf _ _ ofAnd, status, k =>
    if status && !ofAnd then [(k, .run)]
    else if !status && ofAnd then [(k, .unsat)]
    else []

/-- Waituntil.cpp:378-423 `genStatusAssign`. -/
def statusAssign (ws : Nat → Bool) : Node → (idx : Nat) → List (Nat × St)
  | .node isAnd amb l r, k =>
    match whenState ws l k, whenState ws r (k + l.leaves) with
    | false, false => subtreeAssign (.node isAnd amb l r) true k
    | false, true => subtreeAssign l isAnd k ++ statusAssign ws r (k + l.leaves)
    | true, false => statusAssign ws l k ++ subtreeAssign r isAnd (k + l.leaves)
    | true, true => statusAssign ws l k ++ statusAssign ws r (k + l.leaves)
  | .leaf .., _ => []

/-- Generated code: assignments, or `if ( __when_cond_i ) ... else ...`. -/
inductive Code where
  | assign (as : List (Nat × St))
  | ite (i : Nat) (a b : Code)

/-- Waituntil.cpp:425-471 `getStatusAssignment`, `genWhenStateConditions`, for the remaining ambiguous clauses. The recursion of the code
    ends at the last clause; here at the empty list, which also covers 1287, where nothing is generated if there are no such clauses. -/
def whenConditions (n : Node) (ws : Nat → Bool) : List Nat → Code
  | [] => .assign (statusAssign ws n 0)
  | i :: l => .ite i (whenConditions n (upd ws i true) l) (whenConditions n (upd ws i false) l)

def assignAll (s : Nat → St) (as : List (Nat × St)) : Nat → St := as.foldl (fun s a => upd s a.1 a.2) s

def runCode (g : Nat → Bool) (s : Nat → St) : Code → Nat → St
  | .assign as => assignAll s as
  | .ite i a b => if g i then runCode g s a else runCode g s b

/-- Waituntil.cpp:1252-1289: the initial statuses, for the values `g` of the `when` conditions. -/
def initial (t : Tree) (g : Nat → Bool) : Nat → St :=
  let (n, ambiguous, ands) := collect (paint t false false false false).1 0 false false
  let s := ands.foldl (fun s i => if !g i then upd s i .run else s) (fun _ => .unsat)
  if ambiguous.isEmpty then s else runCode g s (whenConditions n (fun _ => true) ambiguous)

/-- Waituntil.cpp:493-522 `genPredExpr` with `genRunExpr`, select.hfa:33: the predicate `__is_run_sat_`. -/
def runSat (s : Nat → St) : Tree → Nat → Bool
  | .leaf _, k => s k == .run
  | .and l r, k => runSat s l k && runSat s r (k + l.leaves)
  | .or l r, k => runSat s l k || runSat s r (k + l.leaves)

/-- Whether clause `i` has a `when` condition. -/
def Tree.guarded : Tree → Nat → Nat → Bool
  | .leaf b, k, i => i == k && b
  | .and l r, k, i | .or l r, k, i => l.guarded k i || r.guarded (k + l.leaves) i

/-- Waituntil.cpp:1165-1191: the statement with `or` only is skipped if all clauses have conditions and all are false. -/
def skipped (t : Tree) (g : Nat → Bool) : Bool := (List.range t.leaves).all fun i => t.guarded 0 i && !g i

/-- Whether the statement need wait no longer when the clauses in `x` have been executed (C46 for the form with `or` only; 855-862 for the
    other form). -/
def finished (t : Tree) (g x : Nat → Bool) : Bool :=
  if allOr t then skipped t g || (List.range t.leaves).any x
  else runSat (fun i => if x i then .run else initial t g i) t 0

/-! The execution of the general form. -/

inductive Pc where
  /-- about to register clause `i` (1294-1296) -/
  | reg (i : Nat)
  /-- about to test the predicate (859-860) -/
  | test
  /-- in `park` (select.hfa:34-37) -/
  | park
  /-- about to look at clause `i` (666-810) -/
  | scan (i : Nat)
  /-- has executed clause `i` and set its status: about to unregister it (717) -/
  | unreg (i : Nat)
  /-- in the `finally` clause: about to unregister clause `i` (1321-1380) -/
  | fin (i : Nat)
  | done
  deriving DecidableEq, Repr

structure State where
  st : Nat → St
  /-- `park_counter` -/
  counter : Int
  /-- an `unpark` the thread has not consumed -/
  token : Bool
  pc : Pc
  /-- whether the node of a clause is known to its resource -/
  reg : Nat → Bool
  /-- whether another thread has set the status of a clause and is about to increment the counter -/
  inc : Nat → Bool
  /-- for the properties: the clauses executed in the loop, and in the `finally` clause -/
  ran : List Nat
  late : List Nat

/-- A resource: `sync` says whether its `unregister_select$` waits for a thread that is making the clause available (channel.hfa:370-382 and
    locks.cfa:220-239 lock, future.hfa:80-86 does not if the node is not listed), `keeps` whether it returns true for a clause that has been made
    available (channel.hfa:381). -/
structure Res where
  sync : Bool
  keeps : Bool
  deriving DecidableEq, Repr

/-- 1227-1289 -/
def start (t : Tree) (g : Nat → Bool) : State :=
  { st := initial t g, counter := 0, token := false, pc := .reg 0, reg := fun _ => false, inc := fun _ => false, ran := [], late := [] }

/-- A step of the thread that executes the statement. -/
def step (t : Tree) (g : Nat → Bool) (res : Nat → Res) (s : State) : Option State :=
  match s.pc with
  -- 587-618, 1294-1296
  | .reg i =>
    if i < t.leaves then
      if t.enabled g 0 i then some { s with reg := upd s.reg i true, pc := .reg (i + 1) } else some { s with pc := .reg (i + 1) }
    else some { s with pc := .test }
  -- 859-862; select.hfa:34-37
  | .test =>
    if runSat s.st t 0 then some { s with pc := .fin 0 }
    else if s.counter - 1 < 0 then some { s with counter := s.counter - 1, pc := .park }
    else some { s with counter := s.counter - 1, pc := .scan 0 }
  | .park => if s.token then some { s with token := false, pc := .scan 0 } else none
  -- 778-803
  | .scan i =>
    if i < t.leaves then
      if runSat s.st t 0 then some { s with pc := .test }
      else if s.st i = .sat then some { s with ran := s.ran ++ [i], st := upd s.st i .run, pc := .unreg i }
      else some { s with pc := .scan (i + 1) }
    else some { s with pc := .test }
  | .unreg i => if (res i).sync && s.inc i then none else some { s with reg := upd s.reg i false, pc := .scan (i + 1) }
  -- 1321-1380
  | .fin i =>
    if i < t.leaves then
      if t.enabled g 0 i && s.st i != .run then
        if (res i).sync && s.inc i then none
        else if (res i).keeps && s.st i == .sat then
          some { s with reg := upd s.reg i false, late := s.late ++ [i], pc := .fin (i + 1) }
        else some { s with reg := upd s.reg i false, pc := .fin (i + 1) }
      else some { s with pc := .fin (i + 1) }
    else some { s with pc := .done }
  | .done => none

inductive Act where
  | step
  /-- a thread makes a clause available: it sets the status (select.hfa:154-162) -/
  | avail (i : Nat)
  /-- and then increments the counter (select.hfa:163, 186-191) -/
  | count (i : Nat)
  deriving DecidableEq, Repr

def next (t : Tree) (g : Nat → Bool) (res : Nat → Res) (s : State) : Act → Option State
  | .step => step t g res s
  | .avail i => if s.reg i ∧ s.st i = .unsat then some { s with st := upd s.st i .sat, inc := upd s.inc i true } else none
  | .count i =>
    if s.inc i then
      some { s with inc := upd s.inc i false, counter := s.counter + 1, token := s.token || s.counter + 1 == 0 }
    else none

end Verif.WaitUntil
