import Verif.Model.IntLit
import Verif.Spec.ArithRes
/-!
Specification for C98: integer constants as they are written, the number each denotes, and the type C (C17 6.4.4.1) or the suffixes of Cforall give it.
-/
namespace Verif.IntLit
open Verif.Arith (Kind rangeOf toInt)

/-! ### Constants as they are written -/

inductive Base where | dec | oct | hex | bin
  deriving DecidableEq, Repr

def Base.radix : Base → Nat | .dec => 10 | .oct => 8 | .hex => 16 | .bin => 2

/-- A letter in lower case or, when `up`, in upper case. -/
def letter (lower upper : Char) (up : Bool) : Char := if up then upper else lower

inductive Size where | s8 | s16 | s32 | s64 | s128
  deriving DecidableEq, Repr

def Size.text : Size → Str | .s8 => ['8'] | .s16 => ['1', '6'] | .s32 => ['3', '2'] | .s64 => ['6', '4'] | .s128 => ['1', '2', '8']

/-- A length: `l`, `l8` to `l128`, `ll`, `h`, `hh` or `n`. -/
inductive Len where | l | sized (s : Size) | ll | h | hh | n
  deriving DecidableEq, Repr

def Len.text (up : Bool) : Len → Str
  | .l => [letter 'l' 'L' up]
  | .sized s => letter 'l' 'L' up :: s.text
  | .ll => [letter 'l' 'L' up, letter 'l' 'L' up]
  | .h => [letter 'h' 'H' up]
  | .hh => [letter 'h' 'H' up, letter 'h' 'H' up]
  | .n => [letter 'n' 'N' up]

/-- A suffix; `uLen` has the `u` before the length and `lenU` after it. The flags say which letters are upper case. -/
inductive Suffix where
  | none
  | u (up : Bool)
  | len (up : Bool) (l : Len)
  | uLen (upU up : Bool) (l : Len)
  | lenU (upU up : Bool) (l : Len)
  | z (up : Bool)
  | p (up : Bool)
  deriving DecidableEq, Repr

def Suffix.text : Suffix → Str
  | .none => []
  | .u up => [letter 'u' 'U' up]
  | .len up l => l.text up
  | .uLen upU up l => letter 'u' 'U' upU :: l.text up
  | .lenU upU up l => l.text up ++ [letter 'u' 'U' upU]
  | .z up => [letter 'z' 'Z' up]
  | .p up => [letter 'p' 'P' up]

/-- An integer constant: base, whether the letter of the prefix is upper case, the digits after the prefix, and the suffix. -/
structure Lit where
  base : Base
  up : Bool
  digits : Str
  suffix : Suffix
  deriving DecidableEq, Repr

def Lit.prefix (c : Lit) : Str :=
  match c.base with
  | .dec => []
  | .oct => ['0']
  | .hex => ['0', letter 'x' 'X' c.up]
  | .bin => ['0', letter 'b' 'B' c.up]

def Lit.text (c : Lit) : Str := c.prefix ++ c.digits ++ c.suffix.text

/-- The digits, in order of their values; letters in both cases. -/
def digitOf : Char → Option Nat
  | '0' => some 0 | '1' => some 1 | '2' => some 2 | '3' => some 3 | '4' => some 4 | '5' => some 5 | '6' => some 6 | '7' => some 7 | '8' => some 8 | '9' => some 9
  | 'a' | 'A' => some 10 | 'b' | 'B' => some 11 | 'c' | 'C' => some 12 | 'd' | 'D' => some 13 | 'e' | 'E' => some 14 | 'f' | 'F' => some 15
  | _ => none

/-- A digit of a base. -/
def IsDigitOf (b : Base) (ch : Char) : Prop := ∃ d, digitOf ch = some d ∧ d < b.radix

/-- Every digit is one of the base; a decimal constant does not begin with `0`; only an octal constant may have no digit after its prefix. -/
structure Lit.Valid (c : Lit) : Prop where
  digits : ∀ ch ∈ c.digits, IsDigitOf c.base ch
  dec : c.base = .dec → c.digits.head? ≠ some '0'
  nonempty : c.base ≠ .oct → c.digits ≠ []

/-- The number a string of digits denotes. -/
def number (r : Nat) (ds : Str) : Nat := ds.foldl (fun n ch => n * r + (digitOf ch).getD 0) 0

/-- The number a constant denotes. -/
def Lit.value (c : Lit) : Nat := number c.base.radix c.digits

/-! ### Types -/

/-- The type of an expression. -/
inductive Ty where
  | zero_t
  | one_t
  | basic (k : Kind)
  | pointer
  deriving DecidableEq, Repr

/-- The first of the types that can represent the number. -/
def firstFit (v : Nat) (l : List Kind) : Option Kind := l.find? fun k => match rangeOf k with | some r => decide ((v : Int) ≤ r.2) | none => false

/-- C17 6.4.4.1p5: the types a constant may have, in order, by base and suffix; and the types of the suffixes of Cforall, which name one type. -/
def Suffix.types (dec : Bool) : Suffix → List Kind
  | .none => if dec then [.signedInt, .longSignedInt, .longLongSignedInt] else [.signedInt, .unsignedInt, .longSignedInt, .longUnsignedInt, .longLongSignedInt, .longLongUnsignedInt]
  | .u _ => [.unsignedInt, .longUnsignedInt, .longLongUnsignedInt]
  | .len _ .l => if dec then [.longSignedInt, .longLongSignedInt] else [.longSignedInt, .longUnsignedInt, .longLongSignedInt, .longLongUnsignedInt]
  | .uLen _ _ .l | .lenU _ _ .l => [.longUnsignedInt, .longLongUnsignedInt]
  | .len _ .ll => if dec then [.longLongSignedInt] else [.longLongSignedInt, .longLongUnsignedInt]
  | .uLen _ _ .ll | .lenU _ _ .ll => [.longLongUnsignedInt]
  | .len _ .hh | .len _ (.sized .s8) => [.signedChar]
  | .len _ .h | .len _ (.sized .s16) => [.shortSignedInt]
  | .len _ .n | .len _ (.sized .s32) => [.signedInt]
  | .len _ (.sized .s64) => [.longSignedInt]
  | .uLen _ _ .hh | .lenU _ _ .hh | .uLen _ _ (.sized .s8) | .lenU _ _ (.sized .s8) => [.unsignedChar]
  | .uLen _ _ .h | .lenU _ _ .h | .uLen _ _ (.sized .s16) | .lenU _ _ (.sized .s16) => [.shortUnsignedInt]
  | .uLen _ _ .n | .lenU _ _ .n | .uLen _ _ (.sized .s32) | .lenU _ _ (.sized .s32) => [.unsignedInt]
  | .uLen _ _ (.sized .s64) | .lenU _ _ (.sized .s64) | .z _ => [.longUnsignedInt]
  | .len _ (.sized .s128) | .uLen _ _ (.sized .s128) | .lenU _ _ (.sized .s128) => [.unsignedInt128]
  | .p _ => []

/-- The type of a constant; `none` when no type of its list can represent it. -/
def Lit.type (c : Lit) : Option Ty :=
  if c.text = ['0'] then some .zero_t
  else if c.text = ['1'] then some .one_t
  else match c.suffix with
    | .p _ => if c.value < 2 ^ 64 then some .pointer else none
    | s => (firstFit c.value (s.types (c.base == .dec))).map .basic

/-! ### What a program sees of the translation -/

/-- The number the leading digits of a string denote. -/
def leading (r : Nat) (t : Str) : Nat := number r (t.takeWhile fun ch => match digitOf ch with | some d => decide (d < r) | none => false)

/-- The number a C compiler reads. -/
def cNumber : Str → Nat
  | '0' :: 'x' :: t => leading 16 t
  | '0' :: 'X' :: t => leading 16 t
  | '0' :: 'b' :: t => leading 2 t
  | '0' :: 'B' :: t => leading 2 t
  | '0' :: t => leading 8 t
  | t => leading 10 t

/-- The types of `<stdint.h>` and `<stddef.h>` on a 64-bit machine. -/
def Lnth.kind : Lnth → Kind
  | .int8_t => .signedChar | .int16_t => .shortSignedInt | .int32_t => .signedInt | .int64_t => .longSignedInt
  | .uint8_t => .unsignedChar | .uint16_t => .shortUnsignedInt | .uint32_t => .unsignedInt | .uint64_t => .longUnsignedInt
  | .size_t => .longUnsignedInt | .uintptr_t => .longUnsignedInt

/-- The type the resolver sees. -/
def Res.type : Res → Ty
  | .zero => .zero_t
  | .one => .one_t
  | .const k _ _ => .basic k
  | .cast k _ => .basic k
  | .castTo t _ => .basic t.kind
  | .pointer _ => .pointer
  | .int128 _ _ => .basic .unsignedInt128

/-- The value the C compiler computes: a `ConstantExpr` is printed as it was written (src/CodeGen/CodeGenerator.cpp:763-766), and the constructor of `unsigned int128` puts its two arguments, of
type `unsigned long`, together (libcfa/prelude/builtins.c:118-120). -/
def Res.raw : Res → Int
  | .zero => 0
  | .one => 1
  | .const _ rep _ => cNumber rep
  | .cast k e => toInt k e.raw
  | .castTo t e => toInt t.kind e.raw
  | .pointer e => toInt .longUnsignedInt e.raw
  | .int128 h l => toInt .unsignedInt128 (toInt .longUnsignedInt h.raw * 2 ^ 64 + toInt .longUnsignedInt l.raw)

/-- The value where an object of its type is initialized with it. -/
def Res.value (r : Res) : Int :=
  match r.type with
  | .basic k => toInt k r.raw
  | _ => r.raw

/-- The value the compiler uses for constant expressions: array dimensions, enumerators (src/AST/Expr.cpp:228-241). -/
def Res.known : Res → Option Nat
  | .zero => some 0
  | .one => some 1
  | .const _ _ v => some v
  | .cast _ e => e.known
  | .castTo _ e => e.known
  | .pointer _ => none
  | .int128 _ _ => none

/-! ### Restrictions -/

/-- The type of the constant depends on its value. -/
def Suffix.Open : Suffix → Bool
  | .none | .u _ | .p _ => true
  | _ => false

/-- Where the type is that of C: not `lu`; no decimal with `u` between `INT_MAX` and `UINT_MAX`; no `l` or `ll` past `LONG_MAX`; no binary constant past `INT_MAX` without a length. -/
structure Lit.Plain (c : Lit) : Prop where
  lu : ∀ a b, c.suffix ≠ .lenU a b .l
  u : ∀ a, c.suffix = .u a → c.base = .dec → c.value < 2 ^ 31 ∨ 2 ^ 32 ≤ c.value
  l : ∀ a, c.suffix = .len a .l ∨ c.suffix = .len a .ll → c.value < 2 ^ 63
  bin : c.base = .bin → c.suffix.Open = true → c.value < 2 ^ 31
  small : ∀ a b, c.suffix ≠ .len a (.sized .s128) ∧ c.suffix ≠ .uLen a b (.sized .s128) ∧ c.suffix ≠ .lenU a b (.sized .s128)

/-- A constant of 128 bits. -/
def Suffix.Is128 : Suffix → Bool
  | .len _ (.sized .s128) | .uLen _ _ (.sized .s128) | .lenU _ _ (.sized .s128) => true
  | _ => false

/-- A suffix with a `u`. -/
def Suffix.HasU : Suffix → Bool
  | .u _ | .uLen _ _ _ | .lenU _ _ _ => true
  | _ => false

/-- The digits read for a base: a constant of 128 bits with more is not accepted. -/
def Base.most : Base → Nat | .dec => 39 | .oct => 43 | .hex => 32 | .bin => 128

/-- Where a constant of 128 bits has the value it denotes: it has no more digits than are read, an unsuffixed decimal is below 2 to the 127 and any other below 2 to the 128; an octal one is
below 2 to the 127; and its lower half is not zero (of a binary constant with more than 64 digits, not below four) unless it is all there is. -/
structure Lit.Fits128 (c : Lit) : Prop where
  size : c.digits.length ≤ c.base.most
  dec : c.base = .dec → c.value < if c.suffix.HasU then 2 ^ 128 else 2 ^ 127
  oct : c.base = .oct → c.value < 2 ^ 127
  low : c.value < 2 ^ 64 ∨ c.value % 2 ^ 64 ≠ 0
  bin : c.base = .bin → c.digits.length ≤ 64 ∨ 4 ≤ c.value % 2 ^ 64

end Verif.IntLit
