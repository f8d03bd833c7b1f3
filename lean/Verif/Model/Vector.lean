import Verif.Model.Base
/-!
Model of the vector with the heap allocator, /repo/libcfa/src/collections/vector.hfa and vector.cfa.

The storage is a list of cells, as many as the capacity; a cell is `some v` while it holds a constructed value and `none`
otherwise. Access outside the storage is undefined behaviour, and so is reading a cell that holds no value. `triv` says
whether constructing and destroying an element are no-ops (`int`, pointers, …); if they are not, destroying a cell that
holds no value is undefined behaviour. Storage sizes are unbounded (`realloc` always succeeds, sizes do not overflow).
The values destroyed are recorded in `gone`. Assigning an element to a cell without a value (vector.cfa:62) is taken to be
construction.
-/
namespace Verif.Vector
open Verif

/-- vector.hfa:22-27, 75-80 `heap_allocator`, `vector`. -/
structure Vec (α : Type) where
  cells : List (Option α)
  size : Nat
  gone : List α

variable {α : Type}

/-- vector.cfa:27-32, 97-102: constructors. -/
def empty : Vec α := ⟨[], 0, []⟩

/-- `realloc` of the storage: contents kept, new cells hold no value. -/
def realloc (cells : List (Option α)) (n : Nat) : List (Option α) := cells.take n ++ List.replicate (n - cells.length) none

/-- vector.cfa:125-134 `realloc_storage`. -/
def reallocStorage (cells : List (Option α)) (size : Nat) : List (Option α) :=
  if size > cells.length then realloc cells (2 * size) else cells

/-- Reading a cell. -/
def rd (cells : List (Option α)) (i : Nat) : Outcome α :=
  match cells[i]? with
  | some (some v) => .ret v
  | _ => .undef

/-- Assigning to a cell. -/
def wr (cells : List (Option α)) (i : Nat) (v : α) : Outcome (List (Option α)) :=
  if i < cells.length then .ret (cells.set i (some v)) else .undef

/-- Destroying the element in a cell. -/
def destroy (triv : Bool) (v : Vec α) (i : Nat) : Outcome (Vec α) :=
  match v.cells[i]? with
  | some (some x) => .ret { v with cells := v.cells.set i none, gone := v.gone ++ [x] }
  | _ => if triv then .ret v else .undef

/-- vector.hfa:84-88 `empty`. -/
def isEmpty (v : Vec α) : Bool := v.size == 0

/-- vector.hfa:96-100 `reserve`. -/
def reserve (v : Vec α) (n : Nat) : Vec α := { v with cells := reallocStorage v.cells n }

/-- vector.hfa:104-114 `at`, `?[?]`. -/
def at_ (v : Vec α) (i : Nat) : Outcome α := rd v.cells i

/-- vector.hfa:116-120 `front`. -/
def front (v : Vec α) : Outcome α := rd v.cells 0

/-- vector.hfa:122-126 `back`; `size - 1` wraps around at 0. -/
def back (v : Vec α) : Outcome α := rd v.cells ((v.size + (2 ^ 64 - 1)) % 2 ^ 64)

/-- vector.cfa:58-64 `push_back`. -/
def pushBack (v : Vec α) (x : α) : Outcome (Vec α) := do
  let cells := reallocStorage v.cells (v.size + 1)
  let cells ← wr cells v.size x
  pure { v with cells := cells, size := v.size + 1 }

/-- vector.cfa:66-71 `pop_back`. -/
def popBack (triv : Bool) (v : Vec α) : Outcome (Vec α) :=
  let size := (v.size + (2 ^ 64 - 1)) % 2 ^ 64
  destroy triv { v with size := size } size

/-- vector.cfa:76-79, the loop of `clear`: destroys the cell at index `size` each time. -/
def clearLoop (triv : Bool) : Nat → Vec α → Outcome (Vec α)
  | 0, v => .ret v
  | k + 1, v => do
    let v ← destroy triv v v.size
    clearLoop triv k v

/-- vector.cfa:73-81 `clear`. -/
def clear (triv : Bool) (v : Vec α) : Outcome (Vec α) := do
  let v ← clearLoop triv v.size v
  pure { v with size := 0 }

/-- What a variable holds before its constructor runs: the storage pointer may be null or anything. -/
inductive Raw where
  | null | other

/-- vector.cfa:104-109, copy constructor of the allocator: reallocates the storage pointer it finds. -/
def copyAlloc (raw : Raw) (rhs : List (Option α)) : Outcome (List (Option α)) :=
  match raw with
  | .null => .ret (realloc [] rhs.length)
  | .other => .undef

/-- vector.cfa:90-92, the loop of `copy_internal`: constructs the cell at index `size` from the cell of the other vector at
    index `size`, each time. -/
def copyLoop (triv : Bool) (other : Vec α) (size : Nat) : Nat → List (Option α) → Outcome (List (Option α))
  | 0, c => .ret c
  | k + 1, c =>
    match other.cells[other.size]?, c[size]? with
    | some (some x), some _ => copyLoop triv other size k (c.set size (some x))
    | some none, some _ => if triv then copyLoop triv other size k (c.set size none) else .undef
    | _, _ => .undef

/-- vector.cfa:34-39, 86-93, copy constructor. -/
def copy (triv : Bool) (raw : Raw) (rhs : Vec α) : Outcome (Vec α) := do
  let cells ← copyAlloc raw rhs.cells
  let cells ← copyLoop triv rhs rhs.size rhs.size cells
  pure ⟨cells, rhs.size, []⟩

inductive Op (α : Type) where
  | pushBack (x : α) | popBack | at_ (i : Nat) | front | back | size | isEmpty | reserve (n : Nat)

inductive Res (α : Type) where
  | unit | val (x : α) | num (n : Nat) | bool (b : Bool)

def step (triv : Bool) (v : Vec α) : Op α → Outcome (Vec α × Res α)
  | .pushBack x => do let v ← pushBack v x; pure (v, .unit)
  | .popBack => do let v ← popBack triv v; pure (v, .unit)
  | .at_ i => do let x ← at_ v i; pure (v, .val x)
  | .front => do let x ← front v; pure (v, .val x)
  | .back => do let x ← back v; pure (v, .val x)
  | .size => .ret (v, .num v.size)
  | .isEmpty => .ret (v, .bool (isEmpty v))
  | .reserve n => .ret (reserve v n, .unit)

def run (triv : Bool) (v : Vec α) : List (Op α) → Outcome (Vec α × List (Res α))
  | [] => .ret (v, [])
  | o :: os => do
    let (v, r) ← step triv v o
    let (v, rs) ← run triv v os
    pure (v, r :: rs)

end Verif.Vector
