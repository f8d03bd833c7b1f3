import Verif.Model.Base
/-!
Models of `maybe`, `result` and `pair`, /repo/libcfa/src/collections/{maybe,result,pair}.{hfa,cfa}.

The storage of the value is a cell, `some x` while it holds a constructed object. Destroying or assigning a cell that holds no
object (or, in `result`, an object of the other type) is undefined behaviour; constructing over an object that was not
destroyed leaks it, which is counted. Temporaries made for parameters and returned values are not modelled.
-/
namespace Verif.Maybe
open Verif

/-- maybe.hfa:21-25 `maybe`. -/
structure May (α : Type) where
  has : Bool
  cell : Option α
  leaks : Nat

variable {α β : Type}

/-- Explicit construction `(this.value){x}`. -/
def May.construct (m : May α) (x : α) : May α :=
  { m with cell := some x, leaks := m.leaks + if m.cell.isSome then 1 else 0 }

/-- Explicit destruction `^(this.value){}`. -/
def May.destroy (m : May α) : Outcome (May α) :=
  match m.cell with
  | some _ => .ret { m with cell := none }
  | none => .undef

/-- Assignment `this.value = x`. -/
def May.assignCell (m : May α) (x : α) : Outcome (May α) :=
  match m.cell with
  | some _ => .ret { m with cell := some x }
  | none => .undef

/-- maybe.cfa:21-24, default constructor. The body does not construct `value`, so the translator inserts a call of the default
    constructor of `T` (src/InitTweak/FixInit.cpp:1083-1120), whose result is `d`. -/
def mk0 (d : α) : May α := ⟨false, some d, 0⟩

/-- maybe.cfa:26-30, constructor from a value. -/
def mk1 (x : α) : May α := (⟨true, none, 0⟩ : May α).construct x

/-- maybe.cfa:32-38, copy constructor. It contains a construction of `value`, so none is inserted. -/
def mkCopy (o : Option α) : May α :=
  match o with
  | some x => (⟨true, none, 0⟩ : May α).construct x
  | none => ⟨false, none, 0⟩

/-- maybe.cfa:40-52 `?=?`; the right operand is given by its value. -/
def assign (m : May α) (that : Option α) : Outcome (May α) :=
  match m.has, that with
  | true, some x => m.assignCell x
  | true, none => do
    let m ← m.destroy
    pure { m with has := false }
  | false, some x => .ret (({ m with has := true } : May α).construct x)
  | false, none => .ret m

/-- maybe.cfa:54-59, destructor. -/
def dtor (m : May α) : Outcome (May α) := if m.has then m.destroy else .ret m

/-- maybe.cfa:61-64, 76-79 `?!=?(0)`, `has_value`. -/
def hasValue (m : May α) : Bool := m.has

/-- maybe.cfa:81-85 `get`. -/
def get (m : May α) : Outcome α :=
  if m.has then
    match m.cell with
    | some x => .ret x
    | none => .undef
  else .abort

/-- maybe.cfa:87-95 `set`. -/
def set (m : May α) (x : α) : Outcome (May α) :=
  if m.has then m.assignCell x else .ret (({ m with has := true } : May α).construct x)

/-- maybe.cfa:97-103 `set_none`. -/
def setNone (m : May α) : Outcome (May α) :=
  if m.has then ({ m with has := false } : May α).destroy else .ret m

/-- result.hfa:21-31 `result`. -/
structure Result (α β : Type) where
  has : Bool
  cell : Option (α ⊕ β)
  leaks : Nat

def Result.construct (r : Result α β) (x : α ⊕ β) : Result α β :=
  { r with cell := some x, leaks := r.leaks + if r.cell.isSome then 1 else 0 }

def Result.destroyV (r : Result α β) : Outcome (Result α β) :=
  match r.cell with
  | some (.inl _) => .ret { r with cell := none }
  | _ => .undef

def Result.destroyE (r : Result α β) : Outcome (Result α β) :=
  match r.cell with
  | some (.inr _) => .ret { r with cell := none }
  | _ => .undef

def Result.assignV (r : Result α β) (x : α) : Outcome (Result α β) :=
  match r.cell with
  | some (.inl _) => .ret { r with cell := some (.inl x) }
  | _ => .undef

def Result.assignE (r : Result α β) (x : β) : Outcome (Result α β) :=
  match r.cell with
  | some (.inr _) => .ret { r with cell := some (.inr x) }
  | _ => .undef

/-- result.cfa:21-25, default constructor; `e` is the default error. -/
def Result.mk0 (e : β) : Result α β := (⟨false, none, 0⟩ : Result α β).construct (.inr e)

/-- result.cfa:27-47, constructors from a value, from an error, and copy constructor. -/
def Result.mk1 (x : α ⊕ β) : Result α β :=
  match x with
  | .inl v => (⟨true, none, 0⟩ : Result α β).construct (.inl v)
  | .inr e => (⟨false, none, 0⟩ : Result α β).construct (.inr e)

/-- result.cfa:49-64 `?=?`; the right operand is given by its value. The function ends without `return`: the second component,
    the value of the assignment expression, is undefined. -/
def Result.assign (r : Result α β) (that : α ⊕ β) : Outcome (Result α β × Outcome (α ⊕ β)) := do
  let r ← (match r.has, that with
    | true, .inl v => r.assignV v
    | true, .inr e => do
      let r ← r.destroyV
      pure (({ r with has := false } : Result α β).construct (.inr e))
    | false, .inl v => do
      let r ← r.destroyE
      pure (({ r with has := true } : Result α β).construct (.inl v))
    | false, .inr e => r.assignE e)
  pure (r, .undef)

/-- result.cfa:66-73, destructor. -/
def Result.dtor (r : Result α β) : Outcome (Result α β) := if r.has then r.destroyV else r.destroyE

/-- result.cfa:95-99 `get`. -/
def Result.get (r : Result α β) : Outcome α :=
  if r.has then
    match r.cell with
    | some (.inl v) => .ret v
    | _ => .undef
  else .abort

/-- result.cfa:101-105 `get_error`. -/
def Result.getError (r : Result α β) : Outcome β :=
  if r.has then .abort
  else match r.cell with
    | some (.inr e) => .ret e
    | _ => .undef

/-- result.cfa:107-116 `set`. -/
def Result.set (r : Result α β) (v : α) : Outcome (Result α β) :=
  if r.has then r.assignV v
  else do
    let r ← r.destroyE
    pure (({ r with has := true } : Result α β).construct (.inl v))

/-- result.cfa:118-127 `set_error`. -/
def Result.setError (r : Result α β) (e : β) : Outcome (Result α β) :=
  if r.has then do
    let r ← r.destroyV
    pure (({ r with has := false } : Result α β).construct (.inr e))
  else r.assignE e

/-! Comparison of pairs, pair.cfa:15-47; the comparisons of the components are those of `R` and `S`. -/

variable {R S : Type} [DecidableEq R] [DecidableEq S] [LT R] [LT S] [LE S] [DecidableLT R] [DecidableLT S] [DecidableLE S]

/-- pair.cfa:15-19. -/
def pairLt (p q : R × S) : Bool := decide (p.1 < q.1) || (decide (p.1 = q.1) && decide (p.2 < q.2))
/-- pair.cfa:21-25. -/
def pairLe (p q : R × S) : Bool := decide (p.1 < q.1) || (decide (p.1 = q.1) && decide (p.2 ≤ q.2))
/-- pair.cfa:27-30. -/
def pairEq (p q : R × S) : Bool := decide (p.1 = q.1) && decide (p.2 = q.2)
/-- pair.cfa:32-35. -/
def pairNe (p q : R × S) : Bool := decide (p.1 ≠ q.1) || decide (p.2 ≠ q.2)
/-- pair.cfa:37-41. -/
def pairGt (p q : R × S) : Bool := decide (p.1 > q.1) || (decide (p.1 = q.1) && decide (p.2 > q.2))
/-- pair.cfa:43-47. -/
def pairGe (p q : R × S) : Bool := decide (p.1 > q.1) || (decide (p.1 = q.1) && decide (p.2 ≥ q.2))

end Verif.Maybe
