/-!
# What printing an integer means

Nothing here refers to the library.  A numeral is a sequence of digits, most significant first,
without unnecessary leading zeros.  `layout` is the shape C gives a formatted integer: sign, base
prefix, leading zeros up to the precision, and padding up to the width, on the left or on the right.
-/

namespace Verif.OstreamInt.Spec

/-- The digits, in lower or upper case. -/
def digit (upper : Bool) (d : Nat) : Char :=
  (if upper then ['0', '1', '2', '3', '4', '5', '6', '7', '8', '9', 'A', 'B', 'C', 'D', 'E', 'F']
   else ['0', '1', '2', '3', '4', '5', '6', '7', '8', '9', 'a', 'b', 'c', 'd', 'e', 'f']).getD d '?'

/-- Digits of `n` in base `b`, most significant first, put before `acc`; at most `fuel` of them. -/
def digits (upper : Bool) (b : Nat) : Nat → Nat → List Char → List Char
  | 0, _, acc => acc
  | fuel + 1, n, acc =>
    if n < b then digit upper n :: acc
    else digits upper b fuel (n / b) (digit upper (n % b) :: acc)

/-- The numeral of `n` in base `b`. -/
def numeral (upper : Bool) (b n : Nat) : List Char := digits upper b (n + 1) n []

/-- The number a digit stands for. -/
def digitVal (c : Char) : Nat :=
  if '0' ≤ c ∧ c ≤ '9' then c.toNat - '0'.toNat
  else if 'a' ≤ c ∧ c ≤ 'f' then c.toNat - 'a'.toNat + 10
  else if 'A' ≤ c ∧ c ≤ 'F' then c.toNat - 'A'.toNat + 10
  else 0

/-- The number a sequence of digits stands for in base `b`. -/
def valueOf (b : Nat) (cs : List Char) : Nat := cs.foldl (fun a c => a * b + digitVal c) 0

inductive Base
  | bin
  | oct
  | dec
  | hex
deriving DecidableEq, Repr

def Base.radix : Base → Nat
  | .bin => 2
  | .oct => 8
  | .dec => 10
  | .hex => 16

/-- A request to print the number `mag`, or `-mag` if `neg`. -/
structure Req where
  base : Base
  upper : Bool := false
  neg : Bool := false
  mag : Nat
  /-- minimal number of characters -/
  wd : Nat := 1
  /-- minimal number of digits, if given -/
  pc : Option Nat := none
  /-- pad on the right -/
  left : Bool := false
  /-- no base prefix -/
  nobase : Bool := false
  /-- `+` before non-negative numbers -/
  plus : Bool := false
  /-- pad with zeros -/
  pad0 : Bool := false
deriving DecidableEq, Repr

/-- At least the number of digits the precision asks for; an octal prefix is one leading zero. -/
def Req.body (r : Req) : List Char :=
  let ds := numeral r.upper r.base.radix r.mag
  let ds := List.replicate (r.pc.getD 0 - ds.length) '0' ++ ds
  if r.base = .oct ∧ !r.nobase ∧ ds.head? ≠ some '0' then '0' :: ds else ds

/-- Sign, and the base prefix of binary and hexadecimal numbers. -/
def Req.front (r : Req) : List Char :=
  (if r.neg then ['-'] else if r.plus then ['+'] else []) ++
  (if r.nobase then []
   else match r.base with
    | .bin => ['0', if r.upper then 'B' else 'b']
    | .hex => ['0', if r.upper then 'X' else 'x']
    | _ => [])

/-- The characters to be printed. -/
def Req.layout (r : Req) : List Char :=
  let pad := r.wd - (r.front.length + r.body.length)
  if r.left then r.front ++ r.body ++ List.replicate pad ' '
  else if r.pad0 ∧ r.pc = none then r.front ++ List.replicate pad '0' ++ r.body
  else List.replicate pad ' ' ++ r.front ++ r.body

end Verif.OstreamInt.Spec
