import Verif.Model.OstreamInt

/-!
# What the manipulators ask for

How the fields of an integral manipulator read as a request to print a number, and what a stream
looks like after a text has been printed as one value.
-/

namespace Verif.OstreamInt.Spec

open Verif.Ostream

/-- The conversions of integral manipulators. -/
def convs : List Char := ['b', 'B', 'o', 'd', 'u', 'x', 'X']

/-- The base a conversion stands for. -/
def baseOf (c : Char) : Base :=
  if c = 'b' ∨ c = 'B' then .bin
  else if c = 'o' then .oct
  else if c = 'x' ∨ c = 'X' then .hex
  else .dec

/-- The request made by a manipulator for the number `mag`, or `-mag` if `neg`: `wd` and, if given,
    `pc` are the width and the precision; `sign` matters for signed decimal numbers only. -/
def reqOf (f : Manip) (neg : Bool) (mag : Nat) : Req where
  base := baseOf f.base
  upper := f.base == 'B' || f.base == 'X'
  neg := neg
  mag := mag
  wd := f.wd.toNat
  pc := if f.pcF then some f.pc.toNat else none
  left := f.left
  nobase := f.nobsdp
  plus := f.sign && f.base == 'd'
  pad0 := f.pad0

/-- Is the `n`-bit pattern `v` printed as a negative number? -/
def negOf (n : Nat) (c : Char) (v : Nat) : Bool := c == 'd' && decide (2 ^ (n - 1) ≤ v)

/-- The magnitude of the number printed for the `n`-bit pattern `v`. -/
def magOf (n : Nat) (c : Char) (v : Nat) : Nat := if negOf n c v then 2 ^ n - v else v

/-- The stream after printing a value as the characters `text`: the separator if it is due, then
    the characters; the next value is separated unless separators are turned off. -/
def wrote (os : Os) (text : List Char) : Os :=
  { os with
    out := os.out ++ (if os.sepOnOff then sepGetCur os else []) ++ text
    prt := true
    sepOnOff := os.sepDefault
    sawNL := false }

/-- When the formatting of 64-bit integers does what is asked. -/
structure Ok64 (f : Manip) : Prop where
  conv : f.base ∈ convs
  val : f.val < 2 ^ 64
  wd : 0 ≤ f.wd
  pc : 0 ≤ f.pc
  /-- zero is not printed with no digits at all -/
  zero : f.pcF = true → f.pc = 0 → f.val ≠ 0
  /-- a binary number does not have more digits than the precision -/
  bin : baseOf f.base = .bin → f.pcF = true → ((numeral false 2 f.val).length : Int) ≤ f.pc
  /-- a hexadecimal zero is not padded with blanks on the left -/
  hex : baseOf f.base = .hex → f.nobsdp = false → f.val = 0 → f.left = false →
    (f.pad0 = true ∧ f.pcF = false) ∨ f.wd ≤ 2 + (if f.pcF then f.pc else 1)

/-- When the formatting of 128-bit integers does what is asked: `val` is the 128-bit pattern,
    `V` the magnitude of the number. -/
structure Ok128 (signed : Bool) (val : Nat) (f : Manip) (V : Nat) : Prop where
  conv : f.base ∈ convs
  mag : V = magOf 128 f.base val
  val : val < 2 ^ 128
  signed : f.base = 'd' → signed = true
  neg : f.neg = false
  wd : 0 ≤ f.wd
  pc : 0 ≤ f.pc
  /-- zero is not printed with a precision of zero digits -/
  zero : f.pcF = true → f.pc = 0 → V ≠ 0
  /-- not both a precision and padding with zeros -/
  pad0 : f.pcF = true → f.pad0 = true → f.left = true
  /-- a binary number does not have more digits than the precision -/
  bin : baseOf f.base = .bin → f.pcF = true → ((numeral false 2 V).length : Int) ≤ f.pc
  /-- a hexadecimal zero is not padded with blanks on the left -/
  hex : baseOf f.base = .hex → f.nobsdp = false → V = 0 → f.left = false →
    (f.pad0 = true ∧ f.pcF = false) ∨ f.wd ≤ 2 + (if f.pcF then f.pc else 1)
  /-- the number is not the one at which binary and hexadecimal numbers are split -/
  power : baseOf f.base = .bin ∨ baseOf f.base = .hex → V ≠ 2 ^ 64
  /-- signed decimal numbers: the groups of 19 digits are small enough for a signed 64-bit integer -/
  dec : f.base = 'd' → V % 10 ^ 19 < 2 ^ 63 ∧ V / 10 ^ 19 % 10 ^ 19 < 2 ^ 63 ∧
    V ≠ 10 ^ 19 ∧ V / 10 ^ 19 ≠ 10 ^ 19
  /-- decimal numbers justified to the left: the first group of digits is not a power of ten -/
  left : f.left = true → baseOf f.base = .dec → 10 ^ 19 < V →
    ∀ k, (if V / 10 ^ 19 ≤ 10 ^ 19 then V / 10 ^ 19 else V / 10 ^ 19 / 10 ^ 19) ≠ 10 ^ k

end Verif.OstreamInt.Spec
