import Verif.Model.Heap
/-!
Model of the vector with iterators, /repo/libcfa/src/collections/vector2.hfa.

Addresses are natural numbers counted in elements; 0 is the null pointer. The buffer starts at `bf`; its cells are a list,
`none` for a cell that holds no element yet. Access outside the buffer, and reading a cell without an element, are
undefined behaviour; assigning to a cell without an element is taken to construct it. Iterators (`vector_exit` and
`vector_permit` objects) are numbered; each family is a function from numbers to item pointers, `none` for numbers not in
use. The list of live permits is the domain of that function (list order is irrelevant to what is done with it). `aalloc`
returns an address given by the call. Assertions abort. Address arithmetic does not overflow.
-/
namespace Verif.Vector2
open Verif

/-- vector2.hfa:34-53 `vector`, with its exits and permits. -/
structure Vec (α : Type) where
  bf : Nat
  cells : List (Option α)
  ef : Nat
  ee : Nat
  refs : Nat
  permits : Nat → Option Nat
  exits : Nat → Option Nat

variable {α : Type}

/-- `buffer_end_$`: first address after the buffer. -/
def be (v : Vec α) : Nat := v.bf + v.cells.length

/-- vector2.hfa:120-127, constructor, with the address `aalloc` returned. -/
def make (addr capacity : Nat) : Vec α :=
  ⟨addr, List.replicate capacity none, 0, addr, 0, fun _ => none, fun _ => none⟩

/-- Reading the element at an address. -/
def rd (v : Vec α) (p : Nat) : Outcome α :=
  if v.bf ≤ p then
    match v.cells[p - v.bf]? with
    | some (some x) => .ret x
    | _ => .undef
  else .undef

/-- Assigning the element at an address. -/
def wr (v : Vec α) (p : Nat) (x : α) : Outcome (Vec α) :=
  if v.bf ≤ p ∧ p < be v then .ret { v with cells := v.cells.set (p - v.bf) (some x) } else .undef

/-- vector2.hfa:311-313 `capacity`. -/
def capacity (v : Vec α) : Nat := v.cells.length

/-- vector2.hfa:315-319 `length`. -/
def length (v : Vec α) : Nat :=
  if v.ef = 0 then 0
  else if v.ef < v.ee then v.ee - v.ef
  else be v - v.ef + v.ee - v.bf

/-- vector2.hfa:150, the first loop of `findElemMem_$`. The comparison of the `ptrdiff_t` index with the `size_t` length is
    unsigned, as is the subtraction; `u` is the index as an unsigned number. For length 0 the loop does not end unless
    `u = 0`; that is rendered as undefined behaviour. -/
def reduce (len : Nat) (u : Nat) : Outcome Nat :=
  if u > len then
    if len = 0 then .undef else reduce len (u - len)
  else .ret u
termination_by u

/-- vector2.hfa:148-157 `findElemMem_$`, giving the address. The second loop (151) does nothing for lengths below 2^63. -/
def find (v : Vec α) (idx : Int) : Outcome Nat := do
  let u ← reduce (length v) (idx % 2 ^ 64).toNat
  let ret := v.ef + u
  if ret < be v then pure ret
  else
    let ret := ret - v.cells.length
    if v.bf ≤ ret ∧ ret < v.ee then pure ret else .abort

/-- vector2.hfa:159-162, value of `v[idx]`. -/
def get (v : Vec α) (idx : Int) : Outcome α := do let p ← find v idx; rd v p

/-- vector2.hfa:164-166, assignment to `v[idx]`. -/
def set (v : Vec α) (idx : Int) (x : α) : Outcome (Vec α) := do let p ← find v idx; wr v p x

/-- vector2.hfa:252-254, the copy loop of `grow_$`: `k` elements from position `pos`. -/
def copyLoop (v : Vec α) : Nat → Nat → List (Option α) → Outcome (List (Option α))
  | 0, _, c => .ret c
  | k + 1, pos, c => do
    let p ← find v pos
    let x ← rd v p
    if pos < c.length then copyLoop v k (pos + 1) (c.set pos (some x)) else .undef

/-- Pointer moved by a pointer difference. -/
def shift (p newBase oldBase : Nat) : Nat := ((p : Int) + ((newBase : Int) - oldBase)).toNat

/-- vector2.hfa:248-266 `grow_$`, with the address `aalloc` returned. -/
def grow (v : Vec α) (addr : Nat) : Outcome (Vec α) := do
  let newCapacity := 2 * v.cells.length
  let elemCount := length v
  let cells ← copyLoop v elemCount 0 (List.replicate newCapacity none)
  let v' : Vec α := { v with
    permits := fun i => (v.permits i).map (shift · addr v.bf)
    bf := addr, cells := cells, ef := addr, ee := addr + elemCount }
  if v'.ee < be v' then pure v' else .abort

/-- vector2.hfa:277-281, 322-326: the start of `push_last` and `insert_before`. -/
def ensure (v : Vec α) (addr : Nat) : Outcome (Vec α) := do
  if v.refs ≠ 0 then .abort
  if length v ≥ capacity v then
    if length v = capacity v then grow v addr else .abort
  else pure v

/-- vector2.hfa:276-289 `push_last`; also the index the returned transit holds. -/
def pushLast (v : Vec α) (x : α) (addr : Nat) : Outcome (Vec α × Nat) := do
  let v ← ensure v addr
  let idx := length v
  let v ← wr v v.ee x
  let v := if v.ef = 0 then { v with ef := v.ee } else v
  let v := { v with ee := v.ee + 1 }
  let v := if v.ee ≥ be v then { v with ee := v.bf } else v
  pure (v, idx)

/-- vector2.hfa:334-344, a loop `for (tgt = from; tgt > to; tgt--) *tgt = *(tgt-1)`, `k` iterations from `tgt`. -/
def bubble : Nat → Nat → Vec α → Outcome (Vec α)
  | 0, _, v => .ret v
  | k + 1, tgt, v => do
    let x ← rd v (tgt - 1)
    let v ← wr v tgt x
    bubble k (tgt - 1) v

/-- vector2.hfa:268-272 `inRange_$`. -/
def inRange (query frm to : Nat) : Bool :=
  if frm = to then false
  else if frm < to then decide (frm ≤ query) && decide (query < to)
  else decide (query < to) || decide (frm ≤ query)

/-- vector2.hfa:353-356: moving one live permit. -/
def movePermit (v : Vec α) (target : Nat) (item : Nat) : Nat :=
  if inRange item target v.ee then
    if item + 1 ≥ be v then v.bf else item + 1
  else item

/-- vector2.hfa:321-358 `insert_before`. -/
def insertBefore (v : Vec α) (idx : Int) (x : α) (addr : Nat) : Outcome (Vec α) := do
  let v ← ensure v addr
  let target ← find v idx
  let v ← (if v.ee < target then do
      let v ← bubble (v.ee - v.bf) v.ee v
      let y ← rd v (be v - 1)
      let v ← wr v v.bf y
      bubble (be v - 1 - target) (be v - 1) v
    else bubble (v.ee - target) v.ee v)
  let v := { v with ee := v.ee + 1 }
  let v := if v.ee = be v then { v with ee := v.bf } else v
  let v ← wr v target x
  pure { v with permits := fun i => (v.permits i).map (movePermit v target) }

/-- vector2.hfa:230-234, permit constructed from `v[idx]`. -/
def permitAt (v : Vec α) (i : Nat) (idx : Int) : Outcome (Vec α) := do
  let p ← find v idx
  pure { v with permits := upd v.permits i (some p) }

/-- vector2.hfa:226-228, permit destroyed. -/
def permitDrop (v : Vec α) (i : Nat) : Vec α := { v with permits := upd v.permits i none }

/-- vector2.hfa:242-244, value at a permit. -/
def permitVal (v : Vec α) (i : Nat) : Outcome α :=
  match v.permits i with
  | some p => rd v p
  | none => .undef

/-- vector2.hfa:297-309 `origin`. -/
def origin (v : Vec α) (i : Nat) : Vec α := { v with exits := upd v.exits i (some 0), refs := v.refs + 1 }

/-- vector2.hfa:170-175, exit constructed from `v[idx]`. -/
def exitAt (v : Vec α) (i : Nat) (idx : Int) : Outcome (Vec α) := do
  let p ← find v idx
  pure { v with exits := upd v.exits i (some p), refs := v.refs + 1 }

/-- vector2.hfa:184-186, exit destroyed. -/
def exitDrop (v : Vec α) (i : Nat) : Vec α := { v with exits := upd v.exits i none, refs := v.refs - 1 }

/-- vector2.hfa:188-190, value at an exit. -/
def exitVal (v : Vec α) (i : Nat) : Outcome α :=
  match v.exits i with
  | some p => rd v p
  | none => .undef

/-- vector2.hfa:200-222 `moveNext`. -/
def moveNext (v : Vec α) (i : Nat) : Outcome (Vec α × Bool) :=
  match v.exits i with
  | none => .undef
  | some item =>
    if v.ef = 0 then
      if item = 0 then .ret (v, false) else .abort
    else if ¬ v.ef < v.ee then .abort
    else
      let item := if item = 0 then v.ef
        else if item + 1 > be v then v.bf else item + 1
      if item ≥ v.ee then .ret ({ v with exits := upd v.exits i (some 0) }, false)
      else .ret ({ v with exits := upd v.exits i (some item) }, true)

inductive Op (α : Type) where
  | pushLast (x : α) (addr : Nat) | insertBefore (idx : Int) (x : α) (addr : Nat)
  | get (idx : Int) | set (idx : Int) (x : α) | length | capacity
  | permitAt (i : Nat) (idx : Int) | permitDrop (i : Nat) | permitVal (i : Nat)
  | origin (i : Nat) | exitAt (i : Nat) (idx : Int) | exitDrop (i : Nat) | exitVal (i : Nat) | moveNext (i : Nat)

inductive Res (α : Type) where
  | unit | val (x : α) | num (n : Nat) | bool (b : Bool)
  deriving DecidableEq

def step (v : Vec α) : Op α → Outcome (Vec α × Res α)
  | .pushLast x addr => do let (v, n) ← pushLast v x addr; pure (v, .num n)
  | .insertBefore idx x addr => do let v ← insertBefore v idx x addr; pure (v, .unit)
  | .get idx => do let x ← get v idx; pure (v, .val x)
  | .set idx x => do let v ← set v idx x; pure (v, .unit)
  | .length => .ret (v, .num (length v))
  | .capacity => .ret (v, .num (capacity v))
  | .permitAt i idx => do let v ← permitAt v i idx; pure (v, .unit)
  | .permitDrop i => .ret (permitDrop v i, .unit)
  | .permitVal i => do let x ← permitVal v i; pure (v, .val x)
  | .origin i => .ret (origin v i, .unit)
  | .exitAt i idx => do let v ← exitAt v i idx; pure (v, .unit)
  | .exitDrop i => .ret (exitDrop v i, .unit)
  | .exitVal i => do let x ← exitVal v i; pure (v, .val x)
  | .moveNext i => do let (v, b) ← moveNext v i; pure (v, .bool b)

def run (v : Vec α) : List (Op α) → Outcome (Vec α × List (Res α))
  | [] => .ret (v, [])
  | o :: os => do
    let (v, r) ← step v o
    let (v, rs) ← run v os
    pure (v, r :: rs)

end Verif.Vector2
