import Verif.Model.Heap
/-! # Smart pointers (libcfa/src/memory.hfa, memory.cfa)

    `counter_ptr(T)` and `unique_ptr(T)` for types `T` whose objects contain any number of such pointers. Simplifications: what else is in an object and what its constructor and
    destructor do besides destroying its pointers is left out; addresses are not reused, so that a use of freed memory is seen; assertions are not modelled; one thread. -/

namespace Verif.SmartPtr

/-- memory.hfa:23-27: `counter_data(T)`: the counter, and the pointers in the object in the order of their destruction. For `unique_ptr` there is no counter. -/
structure Obj where
  count : Nat
  mems : List Nat

/-- The pointers that exist, with their contents (0 is null), and the objects that are allocated. `made` and `log` are for the specification: the objects that were constructed and those that
    were destroyed. -/
structure St where
  slot : Nat → Option Nat
  obj : Nat → Option Obj
  fresh : Nat
  made : List Nat
  log : List Nat

def init : St := ⟨fun _ => none, fun _ => none, 1, [], []⟩

/-- How an operation ends: `bad` is a use of freed memory. -/
inductive Out
  | ok (st : St)
  | bad
  | timeout

def Out.bind (f : St → Out) : Out → Out
  | .ok st => f st
  | .bad => .bad
  | .timeout => .timeout

/-- What is still to be done when objects are deleted: the destructor of a pointer, and `free`. -/
inductive Item
  | slot (s : Nat)
  | free (a : Nat)
  deriving DecidableEq

/-- memory.cfa:28-32 and stdlib.hfa:315-322: `delete`: the destructor of the object, which destroys its pointers, then `free`. The address is not null. -/
def delete (v : Nat) (o : Obj) (st : St) : St × List Item :=
  ({ st with log := v :: st.log }, o.mems.map .slot ++ [.free v])

/-- memory.cfa:45-50: `internal_decrement`. The counter is an `unsigned int`. -/
def decrement (v : Nat) (st : St) : Option (St × List Item) :=
  if v = 0 then some (st, [])
  else match st.obj v with
    | none => none
    | some o =>
      let c := (o.count + 2 ^ 32 - 1) % 2 ^ 32
      let st := { st with obj := upd st.obj v (some { o with count := c }) }
      if c = 0 then some (delete v o st) else some (st, [])

/-- memory.cfa:135-138, 145-148: `delete(this.data)` of a `unique_ptr` -/
def deleteUnique (v : Nat) (st : St) : Option (St × List Item) :=
  if v = 0 then some (st, [])
  else match st.obj v with
    | none => none
    | some o => some (delete v o { st with obj := upd st.obj v (some { o with count := 0 }) })

/-- The destructors and frees, one after the other; `drop` is what the destructor of a pointer does (memory.cfa:74-77 or 135-138). -/
def run (drop : Nat → St → Option (St × List Item)) : Nat → List Item → St → Out
  | _, [], st => .ok st
  | 0, _ :: _, _ => .timeout
  | n + 1, .slot s :: is, st => match st.slot s with
    | none => .bad
    | some v => match drop v { st with slot := upd st.slot s none } with
      | none => .bad
      | some (st, js) => run drop n (js ++ is) st
  | n + 1, .free a :: is, st => match st.obj a with
    | none => .bad
    | some _ => run drop n is { st with obj := upd st.obj a none }

/-- The pointer `this` gives up its object; its own contents are not changed yet. -/
def give (drop : Nat → St → Option (St × List Item)) (this : Nat) (st : St) : Out :=
  match st.slot this with
  | none => .bad
  | some v => match drop v st with
    | none => .bad
    | some (st, js) => run drop (2 * st.fresh) js st

/-- The destructor of a variable. -/
def destroy (drop : Nat → St → Option (St × List Item)) (s : Nat) (st : St) : Out :=
  run drop (2 * st.fresh) [.slot s] st

/-- `this.data = v` -/
def write (this v : Nat) (st : St) : Out :=
  match st.slot this with
  | none => .bad
  | some _ => .ok { st with slot := upd st.slot this (some v) }

/-- `++data->counter` (memory.cfa:55-57) -/
def increment (v : Nat) (st : St) : Out :=
  if v = 0 then .ok st
  else match st.obj v with
    | none => .bad
    | some o => .ok { st with obj := upd st.obj v (some { o with count := (o.count + 1) % 2 ^ 32 }) }

/-- memory.cfa:34-43, 118-127: a new null pointer -/
def newNull (st : St) : St := { st with slot := upd st.slot st.fresh (some 0), fresh := st.fresh + 1 }

/-- memory.cfa:67-72, 129-133: a new object with `k` null pointers in it, and a new pointer to it -/
def newObj (k : Nat) (st : St) : St :=
  let a := st.fresh
  { slot := fun s => if a < s ∧ s ≤ a + k then some 0 else if s = a + k + 1 then some a else st.slot s
    obj := upd st.obj a (some ⟨1, (List.range k).map (a + 1 + ·)⟩)
    fresh := a + k + 2
    made := a :: st.made
    log := st.log }

/-- memory.cfa:52-65: the copy constructor; the new pointer is `st.fresh`. -/
def copy (t : Nat) (st : St) : Out :=
  match st.slot t with
  | none => .bad
  | some v => increment v { st with slot := upd st.slot st.fresh (some v), fresh := st.fresh + 1 }

/-- memory.cfa:84-90: assignment. The argument `that` is a copy, destroyed at the end of the call. -/
def assign (this t : Nat) (st : St) : Out :=
  (copy t st).bind fun st1 =>
    let that := st.fresh
    Out.bind (destroy decrement that) <| match st1.slot this, st1.slot that with
      | some v, some w => if v = w then .ok st1 else (give decrement this st1).bind fun st2 => (write this w st2).bind (increment w)
      | _, _ => .bad

/-- memory.cfa:92-96, 145-149: assignment of 0 -/
def assignZero (drop : Nat → St → Option (St × List Item)) (this : Nat) (st : St) : Out :=
  (give drop this st).bind (write this 0)

/-- memory.cfa:151-156: `move(this, that)` -/
def move (this that : Nat) (st : St) : Out :=
  (give deleteUnique this st).bind fun st => match st.slot that with
    | none => .bad
    | some w => (write this w st).bind (write that 0)

/-- memory.cfa:158-163: `release(this)`. The result is kept in a variable of the caller, which is a new pointer. -/
def release (this : Nat) (st : St) : Out :=
  match st.slot this with
  | none => .bad
  | some v => .ok { st with slot := upd (upd st.slot this (some 0)) st.fresh (some v), fresh := st.fresh + 1 }

/-- The operations on `counter_ptr`. -/
inductive Op
  | null
  | new (k : Nat)
  | copy (t : Nat)
  | assign (this t : Nat)
  | zero (this : Nat)
  | destroy (this : Nat)

def exec : Op → St → Out
  | .null, st => .ok (newNull st)
  | .new k, st => .ok (newObj k st)
  | .copy t, st => SmartPtr.copy t st
  | .assign s t, st => SmartPtr.assign s t st
  | .zero s, st => assignZero decrement s st
  | .destroy s, st => SmartPtr.destroy decrement s st

/-- The operations on `unique_ptr`. -/
inductive UOp
  | null
  | new (k : Nat)
  | move (this that : Nat)
  | zero (this : Nat)
  | release (this : Nat)
  | destroy (this : Nat)

def uexec : UOp → St → Out
  | .null, st => .ok (newNull st)
  | .new k, st => .ok (newObj k st)
  | .move s t, st => SmartPtr.move s t st
  | .zero s, st => assignZero deleteUnique s st
  | .release s, st => SmartPtr.release s st
  | .destroy s, st => SmartPtr.destroy deleteUnique s st

end Verif.SmartPtr
