import Mathlib.Data.Int.Bitwise
/-!
Model of the multi-precision integers: libcfa/src/gmp.hfa.

Simplified throughout: a GMP number is an integer, and the functions of the GMP library do what its manual says (they are part of the trusted base, section "The GMP library" below); storage is not
modelled. `long int` is 64 bits wide. A `long int` or `unsigned long int` is an integer in its range. C arithmetic that overflows wraps around, except that the division instruction traps.
-/
namespace Verif.Gmp

/-! ### C integers -/

/-- conversion to `unsigned long int` -/
def toU (v : Int) : Int := v % 2 ^ 64

/-- conversion to `long int` -/
def toS (v : Int) : Int := (v + 2 ^ 63) % 2 ^ 64 - 2 ^ 63

/-- conversion to an unsigned or a signed integer of `n` bits -/
def toUn (n : Nat) (v : Int) : Int := v % 2 ^ n
def toSn (n : Nat) (v : Int) : Int := (v + 2 ^ (n - 1)) % 2 ^ n - 2 ^ (n - 1)

/-- `a / b` for `unsigned long int`; `none`: the program is stopped by a trap. -/
def udiv (a b : Int) : Option Int := if b = 0 then none else some (a.tdiv b)
def umod (a b : Int) : Option Int := if b = 0 then none else some (a.tmod b)

/-- `a / b` for `long int`: the instruction also traps when the quotient does not fit. -/
def sdiv (a b : Int) : Option Int := if b = 0 ∨ (a = -2 ^ 63 ∧ b = -1) then none else some (a.tdiv b)
def smod (a b : Int) : Option Int := if b = 0 ∨ (a = -2 ^ 63 ∧ b = -1) then none else some (a.tmod b)

/-! ### The GMP library (https://gmplib.org/manual), not part of this repository -/

def mpz_cmp (a b : Int) : Int := (a - b).sign
def mpz_get_ui (a : Int) : Int := a.natAbs % 2 ^ 64
def mpz_get_si (a : Int) : Int := if a > 0 then a % 2 ^ 63 else if a < 0 then -1 - (-a - 1) % 2 ^ 63 else 0
def mpz_fits_ulong (a : Int) : Bool := 0 ≤ a ∧ a < 2 ^ 64
def mpz_fits_slong (a : Int) : Bool := -2 ^ 63 ≤ a ∧ a < 2 ^ 63
def mpz_cmpabs_ui (a u : Int) : Int := (a.natAbs - u).sign
/-- `mpz_tdiv_q`, `mpz_tdiv_r`: division that truncates; division by zero stops the program. -/
def mpz_tdiv_q (a b : Int) : Option Int := if b = 0 then none else some (a.tdiv b)
def mpz_tdiv_r (a b : Int) : Option Int := if b = 0 then none else some (a.tmod b)
/-- `mpz_fdiv_qr`: division that rounds down. -/
def mpz_fdiv_qr (a b : Int) : Option (Int × Int) := if b = 0 then none else some (a.fdiv b, a.fmod b)

/-! ### Operands -/

/-- An operand: an `Int`, a `long int` or an `unsigned long int`. -/
inductive Arg where
  | Z (v : Int)
  | S (v : Int)
  | U (v : Int)
  deriving DecidableEq, Repr

/-! ### Comparison -/

/-- libcfa/src/gmp.hfa:59-63 ?==? (no overload for two C integers: that is the comparison of C, and not modelled here) -/
def eq : Arg → Arg → Bool
  | .Z a, .Z b => mpz_cmp a b == 0
  | .Z a, .S b => mpz_cmp a b == 0
  | .S b, .Z a => mpz_cmp a b == 0
  | .Z a, .U b => mpz_cmp a b == 0
  | .U b, .Z a => mpz_cmp a b == 0
  | _, _ => false

/-- libcfa/src/gmp.hfa:65-69 ?!=? -/
def ne (a b : Arg) : Bool := !eq a b

/-- libcfa/src/gmp.hfa:71-75 ?<? -/
def lt : Arg → Arg → Bool
  | .Z oper1, .Z oper2 => mpz_cmp oper1 oper2 < 0
  | .Z oper1, .S oper2 => mpz_cmp oper1 oper2 < 0
  | .S oper2, .Z oper1 => mpz_cmp oper1 oper2 < 0
  | .Z oper1, .U oper2 => mpz_cmp oper1 oper2 < 0
  | .U oper2, .Z oper1 => mpz_cmp oper1 oper2 < 0
  | _, _ => false

/-- libcfa/src/gmp.hfa:77-81 ?<=? -/
def le : Arg → Arg → Bool
  | .Z oper1, .Z oper2 => mpz_cmp oper1 oper2 ≤ 0
  | .Z oper1, .S oper2 => mpz_cmp oper1 oper2 ≤ 0
  | .S oper2, .Z oper1 => mpz_cmp oper1 oper2 ≤ 0
  | .Z oper1, .U oper2 => mpz_cmp oper1 oper2 ≤ 0
  | .U oper2, .Z oper1 => mpz_cmp oper1 oper2 ≤ 0
  | _, _ => false

/-- libcfa/src/gmp.hfa:83-87 ?>? -/
def gt (a b : Arg) : Bool := !le a b

/-- libcfa/src/gmp.hfa:89-93 ?>=? -/
def ge (a b : Arg) : Bool := !lt a b

/-! ### Arithmetic: `none` when the program is stopped, or there is no such overload -/

/-- libcfa/src/gmp.hfa:100-104 ?&?; `mpz_set_si` and `mpz_set_ui` give the value of a C integer. -/
def and : Arg → Arg → Option Int
  | .Z a, .Z b => some (a.land b)
  | .Z a, .S b => let temp := b; some (a.land temp)
  | .S a, .Z b => let temp := a; some (temp.land b)
  | .Z a, .U b => let temp := b; some (a.land temp)
  | .U a, .Z b => let temp := a; some (temp.land b)
  | _, _ => none

/-- libcfa/src/gmp.hfa:107-111 ?|? -/
def or : Arg → Arg → Option Int
  | .Z a, .Z b => some (a.lor b)
  | .Z a, .S b => let temp := b; some (a.lor temp)
  | .S a, .Z b => let temp := a; some (temp.lor b)
  | .Z a, .U b => let temp := b; some (a.lor temp)
  | .U a, .Z b => let temp := a; some (temp.lor b)
  | _, _ => none

/-- libcfa/src/gmp.hfa:114-118 ?^?: with a C integer, `mpz_ior` is called -/
def xor : Arg → Arg → Option Int
  | .Z a, .Z b => some (Int.xor a b)
  | .Z a, .S b => let temp := b; some (a.lor temp)
  | .S a, .Z b => let temp := a; some (temp.lor b)
  | .Z a, .U b => let temp := b; some (a.lor temp)
  | .U a, .Z b => let temp := a; some (temp.lor b)
  | _, _ => none

/-- libcfa/src/gmp.hfa:121-125 ?+? -/
def add : Arg → Arg → Option Int
  | .Z a, .Z b => some (a + b)
  | .Z addend1, .S addend2 => some (if addend2 ≥ 0 then addend1 + toU addend2 else addend1 - toU (-addend2))
  | .S addend2, .Z addend1 => some (if addend2 ≥ 0 then addend1 + toU addend2 else addend1 - toU (-addend2))
  | .Z addend1, .U addend2 => some (addend1 + addend2)
  | .U addend2, .Z addend1 => some (addend1 + addend2)
  | _, _ => none

/-- libcfa/src/gmp.hfa:132-136 ?-? -/
def sub : Arg → Arg → Option Int
  | .Z a, .Z b => some (a - b)
  | .Z minuend, .S subtrahend => some (if subtrahend ≥ 0 then minuend - toU subtrahend else minuend + toU (-subtrahend))
  | .S minuend, .Z subtrahend =>
    some (if ge (.Z subtrahend) (.S 0) then toU minuend - subtrahend
    else let diff := subtrahend + toU (-minuend); -diff)
  | .Z minuend, .U subtrahend => some (minuend - subtrahend)
  | .U minuend, .Z subtrahend => some (minuend - subtrahend)
  | _, _ => none

/-- libcfa/src/gmp.hfa:143-147 ?*? -/
def mul : Arg → Arg → Option Int
  | .Z a, .Z b => some (a * b)
  | .Z a, .S b => some (a * b)
  | .S b, .Z a => some (a * b)
  | .Z a, .U b => some (a * b)
  | .U b, .Z a => some (a * b)
  | _, _ => none

/-- libcfa/src/gmp.hfa:153-192 ?/? -/
def div : Arg → Arg → Option Int
  | .Z dividend, .Z divisor => mpz_tdiv_q dividend divisor
  | .Z dividend, .U divisor => mpz_tdiv_q dividend divisor
  | .U dividend, .Z divisor =>
    if divisor.sign ≥ 0 then
      if mpz_fits_ulong divisor then udiv dividend (mpz_get_ui divisor) else some 0
    else
      let quotient := -divisor
      if mpz_fits_ulong quotient then (udiv dividend (mpz_get_ui quotient)).map (- ·) else some 0
  | .Z dividend, .S divisor =>
    if divisor ≥ 0 then mpz_tdiv_q dividend (toU divisor) else (mpz_tdiv_q dividend (toU (-divisor))).map (- ·)
  | .S dividend, .Z divisor =>
    if mpz_fits_slong divisor then sdiv dividend (mpz_get_si divisor)
    else some (if mpz_cmpabs_ui divisor (toU (if dividend ≥ 0 then dividend else -dividend)) = 0 then -1 else 0)
  | _, _ => none

/-- libcfa/src/gmp.hfa:200-233 ?%? -/
def mod : Arg → Arg → Option Int
  | .Z dividend, .Z divisor => mpz_tdiv_r dividend divisor
  | .Z dividend, .U divisor => mpz_tdiv_r dividend divisor
  | .U dividend, .Z divisor =>
    if divisor.sign ≥ 0 then
      if mpz_fits_ulong divisor then umod dividend (mpz_get_ui divisor) else some dividend
    else
      let remainder := -divisor
      if mpz_fits_ulong remainder then umod dividend (mpz_get_ui remainder) else some dividend
  | .Z dividend, .S divisor => mpz_tdiv_r dividend (toU (if divisor ≥ 0 then divisor else -divisor))
  | .S dividend, .Z divisor =>
    if mpz_fits_slong divisor then smod dividend (mpz_get_si divisor)
    else some (if mpz_cmpabs_ui divisor (toU (if dividend ≥ 0 then dividend else -dividend)) = 0 then 0 else dividend)
  | _, _ => none

/-- libcfa/src/gmp.hfa:197-198 div: quotient and remainder -/
def divmod : Arg → Arg → Option (Int × Int)
  | .Z dividend, .Z divisor => mpz_fdiv_qr dividend divisor
  | .Z dividend, .U divisor => mpz_fdiv_qr dividend divisor
  | _, _ => none

/-! ### Assignment: the value of the variable afterwards, and the value of the expression -/

/-- libcfa/src/gmp.hfa:126-128, 137-139, 148-150, 193-195, 234-236, 105, 112, 119: `lhs = lhs op rhs` -/
def opAssign (op : Arg → Arg → Option Int) (lhs : Int) (rhs : Arg) : Option (Int × Int) := (op (.Z lhs) rhs).map fun v => (v, v)

/-- libcfa/src/gmp.hfa:129-130 ++?, ?++ (the constant 1 is a `long int`) -/
def preInc (lhs : Int) : Option (Int × Int) := opAssign add lhs (.S 1)
def postInc (lhs : Int) : Option (Int × Int) := let ret := lhs; (opAssign add lhs (.S 1)).map fun p => (p.1, ret)

/-- libcfa/src/gmp.hfa:140-141 --?, ?-- -/
def preDec (lhs : Int) : Option (Int × Int) := opAssign sub lhs (.S 1)
def postDec (lhs : Int) : Option (Int × Int) := let ret := lhs; (opAssign sub lhs (.S 1)).map fun p => (p.1, ret)

/-- libcfa/src/gmp.hfa:45-48 ?=? to `char`, `short int`, `int` and `long int` (`n` bits) -/
def toSigned (n : Nat) (rhs : Int) : Int := toSn n (mpz_get_si rhs)

/-- libcfa/src/gmp.hfa:49-52 ?=? to the unsigned types -/
def toUnsigned (n : Nat) (rhs : Int) : Int := toUn n (mpz_get_ui rhs)

/-- libcfa/src/gmp.hfa:238-240 ?<<?, ?>>? (`mpz_mul_2exp`, `mpz_fdiv_q_2exp`) -/
def shl (a : Int) (n : Nat) : Int := a * 2 ^ n
def shr (a : Int) (n : Nat) : Int := a.fdiv (2 ^ n)

/-! ### Output -/

/-- What is written, in order, and to which stream. -/
abbrev Written := List (Nat × String)

/-- The stream `gmp_printf` writes to. -/
def stdout : Nat := 1

/-- libcfa/src/gmp.hfa:266-272 ?|?: `sep` is what the stream prints as a separator first, if it does -/
def print (os : Nat) (sep : Option String) (v : Int) : Written := (sep.map fun s => (os, s)).toList ++ [(stdout, toString v)]

end Verif.Gmp
