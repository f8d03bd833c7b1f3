/-
  Range loops, `for ( i; lo ~ hi ~ step )` and its variants, as the parser rewrites them:
  /repo/src/Parser/parser.yy:229-272 (`UPDOWN`, `makeForCtrl`, `forCtrl`), 1527-1553, 1664-1682.

  The bounds are taken as mathematical integers and compared as such.  The index variable has an integer type;
  arithmetic that leaves an unsigned type wraps, and is undefined for a signed one; a conversion wraps for both.
-/
namespace Verif.RangeLoop

/-- An integer type of `w + 1` bits. -/
structure IntTy where
  signed : Bool
  w : Nat
deriving DecidableEq, Repr

def IntTy.min (t : IntTy) : Int := if t.signed then -2 ^ t.w else 0

def IntTy.max (t : IntTy) : Int := if t.signed then 2 ^ t.w - 1 else 2 ^ (t.w + 1) - 1

/-- The value of the type that is congruent. -/
def IntTy.wrap (t : IntTy) (x : Int) : Int := (x - t.min) % 2 ^ (t.w + 1) + t.min

/-- The comparison: /repo/src/Parser/parser.yy:1667-1682. -/
inductive Op
  | lt
  | gt
  | le
  | ge
deriving DecidableEq, Repr

/-- `UPDOWN` chooses by direction: /repo/src/Parser/parser.yy:231. -/
def Op.up : Op → Bool
  | .lt => true
  | .le => true
  | .gt => false
  | .ge => false

def Op.test : Op → Int → Int → Bool
  | .lt, i, b => i < b
  | .le, i, b => i ≤ b
  | .gt, i, b => i > b
  | .ge, i, b => i ≥ b

/-- A loop after the rewriting: `T i = init; i op bound; i += inc` (or `-=`). -/
structure Loop where
  ty : IntTy
  init : Int
  op : Op
  bound : Int
  inc : Int
deriving DecidableEq, Repr

/-- `forCtrl( ..., UPDOWN( op, lo, hi ), op, UPDOWN( op, hi, lo ), step )`:
/repo/src/Parser/parser.yy:1533-1534, 1552-1553. -/
def desugar (t : IntTy) (op : Op) (lo hi step : Int) : Loop :=
  ⟨t, if op.up then lo else hi, op, if op.up then hi else lo, step⟩

/-- What the loop has done: the values of the index for which the body was executed, and how it stands. -/
inductive Run
  | done (visited : List Int)
  | undef (visited : List Int)
  | more (visited : List Int)
deriving DecidableEq, Repr

def Run.cons (i : Int) : Run → Run
  | .done l => .done (i :: l)
  | .undef l => .undef (i :: l)
  | .more l => .more (i :: l)

/-- Execute at most `n` turns, from index `i`.  `makeForCtrl`: /repo/src/Parser/parser.yy:236-249. -/
def turns (p : Loop) : Nat → Int → Run
  | 0, _ => .more []
  | n + 1, i =>
    if p.op.test i p.bound then
      let j := if p.op.up then i + p.inc else i - p.inc
      if p.ty.min ≤ j ∧ j ≤ p.ty.max then (turns p n j).cons i
      else if p.ty.signed then .undef [i]
      else (turns p n (p.ty.wrap j)).cons i
    else .done []

/-- The loop, from the initialisation. -/
def run (p : Loop) (n : Nat) : Run := turns p n (p.ty.wrap p.init)

end Verif.RangeLoop
