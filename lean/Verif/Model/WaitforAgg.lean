import Verif.Model.Base
import Verif.Model.Sort
/-!
The arrays of `waitfor` and `wait` (libcfa/src/concurrency/monitor.cfa:592-595, 464-476, 938-971): storage for the monitors of a `waitfor`
and for the threads that a `wait` wakes. Pointers are numbers, the null pointer is 0; an access outside of the storage is undefined.
-/
namespace Verif.WaitforAgg
open Verif

/-- monitor.cfa:943-945: `for ( i; ~= size ) if ( array[i] == val ) return size;`, `n` iterations from `i` (`~=` includes `size`). -/
def scan (st : List Nat) (val : Nat) : (n i : Nat) → Outcome Bool
  | 0, _ => .ret false
  | n + 1, i =>
    match st[i]? with
    | none => .undef
    | some x => if x = val then .ret true else scan st val n (i + 1)

/-- monitor.cfa:938-949 `insert_unique`: the array and `size` after the call. -/
def insertUnique (st : List Nat) (size val : Nat) : Outcome (List Nat × Nat) :=
  if val = 0 then .ret (st, size)
  else do
    let found ← scan st val (size + 1) 0
    if found then .ret (st, size)
    else if size < st.length then .ret (st.set size val, size + 1)
    else .undef

/-- monitor.cfa:965-967 (and 473-476): insertion one after another. -/
def insertAll : (st : List Nat) → (size : Nat) → List Nat → Outcome (List Nat × Nat)
  | st, size, [] => .ret (st, size)
  | st, size, v :: vs => do
    let r ← insertUnique st size v
    insertAll r.1 r.2 vs

/-- monitor.cfa:951-957 `count_max`. -/
def countMax (clauses : List (List Nat)) : Nat := clauses.foldl (fun m c => m + c.length) 0

/-- monitor.cfa:962-968: the loop of `aggregate`, which also sorts the monitors of each clause in place. -/
def gather : (st : List Nat) → (size : Nat) → List (List Nat) → Outcome (List Nat × Nat × List (List Nat))
  | st, size, [] => .ret (st, size, [])
  | st, size, c :: cs => do
    let c ← Sort.smallSort c
    let r ← insertAll st size c
    let q ← gather r.1 r.2 cs
    .ret (q.1, q.2.1, c :: q.2.2)

/-- monitor.cfa:959-972 `aggregate`: the storage, the number of monitors and the clauses afterwards. -/
def aggregate (st : List Nat) (clauses : List (List Nat)) : Outcome (List Nat × Nat × List (List Nat)) := do
  let q ← gather st 0 clauses
  let sorted ← Sort.smallSort (q.1.take q.2.1)
  .ret (sorted ++ q.1.drop q.2.1, q.2.1, q.2.2)

/-- monitor.cfa:592-595: the storage of `__waitfor_internal`, null pointers before `aggregate`. -/
def waitforMonitors (clauses : List (List Nat)) : Outcome (List Nat × Nat × List (List Nat)) :=
  aggregate (List.replicate (countMax clauses) 0) clauses

/-- monitor.cfa:464-476: the threads that a `wait` with `owners.length` monitors wakes; `next_thread` returned `owners`, 0 for none. -/
def waitThreads (owners : List Nat) : Outcome (List Nat × Nat) :=
  insertAll (List.replicate owners.length 0) 0 owners

end Verif.WaitforAgg
