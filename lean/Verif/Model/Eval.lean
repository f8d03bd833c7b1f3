import Mathlib.Data.Int.Bitwise
import Verif.Model.Base
/-!
Model of the compiler's evaluator of constant expressions (src/Common/Eval.cpp) and of the comparison of array dimensions that uses it (src/ResolvExpr/Unify.cpp). Resolved
expressions only: an operator carries the integer type at which the resolver chose it, to which its arguments have been converted. Arithmetic on `long long int` that
overflows is undefined behaviour of the compiler.
-/
namespace Verif.Eval
open Verif

/-- An integer type. -/
structure Ty where
  bits : Nat
  signed : Bool
  deriving DecidableEq

inductive Un where
  | plus | neg | compl | not | other
  deriving DecidableEq

inductive Bin where
  | add | sub | mul | div | mod | shl | shr | lt | gt | le | ge | eq | ne | band | xor | bor | other
  deriving DecidableEq

/-- The expressions the evaluator tells apart. `sizeof` stands for the operators `sizeof`, `alignof`, `offsetof`, with the value they have; an enumerator has a value, which the
    compiler may have recorded (src/AST/Decl.cpp:115-139) or not; `other` is any other expression. -/
inductive Expr where
  | const (v : Int)
  | sizeof (v : Int)
  | logical (isAnd : Bool) (a b : Expr)
  | cond (a b c : Expr)
  | cast (t : Ty) (e : Expr)
  | enumerator (v : Int) (recorded : Bool)
  | var (x : Nat)
  | app1 (f : Un) (t : Ty) (a : Expr)
  | app2 (f : Bin) (t : Ty) (a b : Expr)
  | other

/-- src/Common/Eval.hpp:25-29 -/
structure Evaluation where
  value : Int
  known : Bool
  gcc : Bool
  deriving DecidableEq

/-- A result of arithmetic on `long long int`. -/
def ll (x : Int) : Outcome Int := if -2 ^ 63 ≤ x ∧ x < 2 ^ 63 then .ret x else .undef

def ofBool (b : Bool) : Int := if b then 1 else 0

/-- Eval.cpp:133-144: `none` when the operator is not one of those listed. -/
def un (f : Un) (a : Int) : Option (Outcome Int) := match f with
  | .plus => some (.ret a)
  | .neg => some (ll (-a))
  | .compl => some (ll (-a - 1))
  | .not => some (.ret (ofBool (a = 0)))
  | .other => none

/-- A shift by a count outside 0..63 is undefined; a left shift keeps the low 64 bits. -/
def shl64 (a b : Int) : Outcome Int := if 0 ≤ b ∧ b < 64 then .ret ((a * 2 ^ b.toNat).bmod (2 ^ 64)) else .undef
def shr64 (a b : Int) : Outcome Int := if 0 ≤ b ∧ b < 64 then .ret (a / 2 ^ b.toNat) else .undef

/-- Eval.cpp:159-194: `z` is what `result.knownValue` holds before. -/
def bin (f : Bin) (z a b : Int) : Option (Outcome Int) := match f with
  | .add => some (ll (a + b))
  | .sub => some (ll (a - b))
  | .mul => some (ll (a * b))
  | .div => some (if b ≠ 0 then ll (a.tdiv b) else .ret z)
  | .mod => some (if b ≠ 0 then (do let _ ← ll (a.tdiv b); .ret (a.tmod b)) else .ret z)
  | .shl => some (shl64 a b)
  | .shr => some (shr64 a b)
  | .lt => some (.ret (ofBool (a < b)))
  | .gt => some (.ret (ofBool (a > b)))
  | .le => some (.ret (ofBool (a ≤ b)))
  | .ge => some (.ret (ofBool (a ≥ b)))
  | .eq => some (.ret (ofBool (a = b)))
  | .ne => some (.ret (ofBool (a ≠ b)))
  | .band => some (.ret (Int.land a b))
  | .xor => some (.ret (Int.xor a b))
  | .bor => some (.ret (Int.lor a b))
  | .other => none

/-- Eval.cpp:25-198. The result starts as `{ 0, true, true }` (26). -/
def eval : Expr → Outcome Evaluation
  -- 35-39
  | .const v => .ret ⟨v, true, true⟩
  -- 41-54
  | .sizeof _ => .ret ⟨0, false, true⟩
  -- 56-74
  | .logical isAnd a b => do
    let r1 ← eval a
    if !r1.gcc then .ret ⟨0, true, false⟩ else
    let r2 ← eval b
    if !r2.gcc then .ret ⟨0, true, false⟩ else
    if !(r1.known && r2.known) then .ret ⟨0, false, true⟩ else
    .ret ⟨ofBool (if isAnd then r1.value ≠ 0 && r2.value ≠ 0 else r1.value ≠ 0 || r2.value ≠ 0), true, true⟩
  -- 76-94
  | .cond a b c => do
    let r1 ← eval a
    if !r1.gcc then .ret ⟨0, true, false⟩ else
    let r2 ← eval b
    if !r2.gcc then .ret ⟨0, true, false⟩ else
    let r3 ← eval c
    if !r3.gcc then .ret ⟨0, true, false⟩ else
    if !(r1.known && r2.known && r3.known) then .ret ⟨0, false, true⟩ else
    .ret ⟨if r1.value ≠ 0 then r2.value else r3.value, true, true⟩
  -- 96-100
  | .cast _ e => eval e
  -- 102-111
  | .enumerator v recorded => .ret ⟨if recorded then v else 0, recorded, true⟩
  | .var _ => .ret ⟨0, false, false⟩
  -- 123-144
  | .app1 f _ a => do
    let r1 ← eval a
    if !r1.gcc then .ret ⟨0, true, false⟩ else
    if !r1.known then .ret ⟨0, false, true⟩ else
    match un f r1.value with
    | some v => do let v ← v; .ret ⟨v, true, true⟩
    | none => .ret ⟨0, false, false⟩
  -- 145-195
  | .app2 f _ a b => do
    let r1 ← eval a
    if !r1.gcc then .ret ⟨0, true, false⟩ else
    let r2 ← eval b
    if !r2.gcc then .ret ⟨0, true, false⟩ else
    if !(r1.known && r2.known) then .ret ⟨0, false, true⟩ else
    match bin f 0 r1.value r2.value with
    | some v => do let v ← v; .ret ⟨v, true, true⟩
    | none => .ret ⟨0, false, false⟩
  -- 29, 115-119
  | .other => .ret ⟨0, false, false⟩

/-- src/ResolvExpr/Unify.cpp:161-172; the same test in src/GenPoly/GenPoly.cpp:254-264: whether two array dimensions are taken to be the same. -/
def tryMatchOnStaticValue (e1 e2 : Expr) : Outcome Bool := do
  let r1 ← eval e1
  let r2 ← eval e2
  .ret (r1.known && r2.known && decide (r1.value = r2.value))

end Verif.Eval
