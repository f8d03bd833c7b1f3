import Verif.Model.ArithRes
/-!
Model of the translation of integer constants: src/Parser/lex.ll (the token) and src/Parser/ExpressionNode.cpp (its type and value), for a machine with 32-bit `int`, 64-bit `long` and
`__int128`.

Simplified throughout: a `std::string` is a list of characters, and reading a position at or after its end gives NUL; the location of the constant is left out; `SemanticError` is `none`.
Imaginary suffixes are not modelled.
-/
namespace Verif.IntLit
open Verif.Arith (Kind)

abbrev Str := List Char

/-- `str[i]` -/
def at' (s : Str) (i : Nat) : Char := s.getD i '\x00'

/-- `str.find_last_of( … )`, for a set of characters. -/
def findLastOf (p : Char → Bool) : Str → Option Nat
  | [] => none
  | c :: s =>
    match findLastOf p s with
    | some i => some (i + 1)
    | none => if p c then some 0 else none

/-- `str.rfind( "aa" )`, for a string of the same character twice. -/
def rfind2 (a : Char) : Str → Option Nat
  | [] => none
  | c :: s =>
    match rfind2 a s with
    | some i => some (i + 1)
    | none => if c = a ∧ at' s 0 = a then some 0 else none

/-- `str.erase( posn, n )` -/
def erase (s : Str) (posn n : Nat) : Str := s.take posn ++ s.drop (posn + n)

/-- src/Parser/lex.ll:81-91 rm_underscore -/
def rmUnderscore (s : Str) : Str := s.filter fun c => c != '_'

/-- The value of a digit. -/
def digitVal (c : Char) : Nat :=
  if '0' ≤ c ∧ c ≤ '9' then c.toNat - 48
  else if 'a' ≤ c ∧ c ≤ 'f' then c.toNat - 87
  else if 'A' ≤ c ∧ c ≤ 'F' then c.toNat - 55
  else 99

/-- The number the leading digits of a string denote. -/
def digitsFrom (r acc : Nat) : Str → Nat
  | [] => acc
  | c :: s => if digitVal c < r then digitsFrom r (acc * r + digitVal c) s else acc

/-- `sscanf` with `%llo` or `%llu`: it stops at the first character that is not a digit, and gives the greatest value when the number is too large (as the C library of GNU does). -/
def scan (r : Nat) (s : Str) : Nat := min (digitsFrom r 0 s) (2 ^ 64 - 1)

/-- `sscanf` with `%llx`: a prefix `0x` is skipped. -/
def scanHex (s : Str) : Nat :=
  match s with
  | '0' :: 'x' :: t => scan 16 t
  | '0' :: 'X' :: t => scan 16 t
  | _ => scan 16 s

/-- The digit of a number below sixteen. -/
def hexDigit (n : Nat) : Char := if n < 10 then Char.ofNat (48 + n) else Char.ofNat (87 + n)

/-- The hexadecimal digits of a number, before `acc`. -/
def hexGo : Nat → Nat → Str → Str
  | 0, _, acc => acc
  | f + 1, n, acc => if n = 0 then acc else hexGo f (n / 16) (hexDigit (n % 16) :: acc)

/-- `sprintf` with `%#llx` -/
def printHex (n : Nat) : Str := if n = 0 then ['0'] else '0' :: 'x' :: hexGo 16 n []

/-- src/Parser/ExpressionNode.cpp:64-94 lnthSuffix: the string without an explicit length, `type` and `ltype`. -/
def lnthSuffix (s : Str) (type ltype : Int) : Str × Int × Int :=
  match findLastOf (fun c => c == 'l' || c == 'L') s with
  | none => (s, type, ltype)
  | some posn =>
    if posn = s.length - 1 then (s, 3, ltype)
    else
      let next := posn + 1
      let tl : Int × Int :=
        if at' s next = '3' then (2, 2)
        else if at' s next = '6' then (3, 3)
        else if at' s next = '8' then (1, 1)
        else if at' s next = '1' then (if at' s (next + 1) = '6' then (0, 0) else (5, 6))
        else (type, ltype)
      let fix : Str := if at' s (s.length - 1) = 'u' ∨ at' s (s.length - 1) = 'U' then [at' s (s.length - 1)] else []
      let t := s.take posn
      if tl.1 = 5 then (if at' t (t.length - 1) = 'u' ∨ at' t (t.length - 1) = 'U' then t.take (t.length - 1) else t, tl.1, tl.2)
      else (t ++ fix, tl.1, tl.2)

/-- src/Parser/ExpressionNode.cpp:96-114 valueToType: the type and whether it is unsigned, for `INT_MAX`, `UINT_MAX`, `LONG_MAX = LLONG_MAX` and `ULONG_MAX`. -/
def valueToType (v : Nat) (dec uns : Bool) : Int × Bool :=
  if v ≤ 2 ^ 31 - 1 then (2, uns)
  else if v ≤ 2 ^ 32 - 1 ∧ dec = false then (2, true)
  else if v ≤ 2 ^ 63 - 1 then (3, uns)
  else if v ≤ 2 ^ 64 - 1 then (3, true)
  else (4, true)

/-- src/Parser/ExpressionNode.cpp:116-125: the loop of scanbin, at position `i`, with the rest of the string; `last` is the last position. -/
def scanbinGo (last : Nat) : Nat → Nat → Str → Nat
  | _, v, [] => v
  | i, v, c :: s =>
    let v := if c = '1' then v ||| 1 else v
    if i + 1 = last - 1 ∨ (at' s 0 ≠ '0' ∧ at' s 0 ≠ '1') then v else scanbinGo last (i + 1) (v * 2 % 2 ^ 64) s

/-- src/Parser/ExpressionNode.cpp:116-125 scanbin -/
def scanbin (s : Str) : Nat := scanbinGo (s.length - 1) 2 0 (s.drop 2)

/-- src/Parser/ExpressionNode.cpp:128-132: the table `kind` -/
def kindTab (uns : Bool) (type : Int) : Kind :=
  match uns, type with
  | false, 0 => .shortSignedInt | false, 1 => .signedChar | false, 2 => .signedInt | false, 3 => .longSignedInt | false, _ => .longLongSignedInt
  | true, 0 => .shortUnsignedInt | true, 1 => .unsignedChar | true, 2 => .unsignedInt | true, 3 => .longUnsignedInt | true, _ => .longLongUnsignedInt

/-- The names of src/Parser/ExpressionNode.cpp:134-137 -/
inductive Lnth where
  | int16_t | int8_t | int32_t | int64_t | size_t | uintptr_t | uint16_t | uint8_t | uint32_t | uint64_t
  deriving DecidableEq, Repr

/-- src/Parser/ExpressionNode.cpp:134-137: the table `lnthsInt` -/
def lnthTab (uns : Bool) (ltype : Int) : Lnth :=
  match uns, ltype with
  | false, 0 => .int16_t | false, 1 => .int8_t | false, 2 => .int32_t | false, 3 => .int64_t
  | true, 0 => .uint16_t | true, 1 => .uint8_t | true, 2 => .uint32_t | true, 3 => .uint64_t
  | _, 4 => .size_t
  | _, _ => .uintptr_t

/-- The expression made of a constant: `const k rep v` is a `ConstantExpr` of type `k`, printed as `rep`, with the value `v` known to the compiler; `int128` is the compound literal of
`unsigned int128` with its two initializers; `pointer` is the call of `intptr`. -/
inductive Res where
  | zero
  | one
  | const (k : Kind) (rep : Str) (v : Nat)
  | cast (k : Kind) (e : Res)
  | castTo (t : Lnth) (e : Res)
  | pointer (e : Res)
  | int128 (h l : Res)
  deriving DecidableEq, Repr

/-- What the suffix says: the string without what gcc would not accept, whether there is a `u`, the type and the length. -/
structure Suf where
  str : Str
  uns : Bool
  type : Int
  ltype : Int
  deriving DecidableEq, Repr

/-- src/Parser/ExpressionNode.cpp:157-191: the suffix -/
def suffix (s : Str) : Suf :=
  let uns := (findLastOf (fun c => c == 'u' || c == 'U') s).isSome
  if (at' s (s.length - 1)).isDigit then
    let r := lnthSuffix s (-1) (-1)
    ⟨r.1, uns, r.2.1, r.2.2⟩
  else
    match findLastOf (fun c => c == 'p' || c == 'P') s with
    | some posn => ⟨erase s posn 1, uns, -1, 5⟩
    | none =>
    match findLastOf (fun c => c == 'z' || c == 'Z') s with
    | some posn => ⟨erase s posn 1, true, 2, 4⟩
    | none =>
    match rfind2 'h' s with
    | some posn => ⟨erase s posn 2, uns, 1, -1⟩
    | none =>
    match rfind2 'H' s with
    | some posn => ⟨erase s posn 2, uns, 1, -1⟩
    | none =>
    match findLastOf (fun c => c == 'h' || c == 'H') s with
    | some posn => ⟨erase s posn 1, uns, 0, -1⟩
    | none =>
    match findLastOf (fun c => c == 'n' || c == 'N') s with
    | some posn => ⟨erase s posn 1, uns, 2, -1⟩
    | none =>
    if (rfind2 'l' s).isSome || (rfind2 'L' s).isSome then ⟨s, uns, 4, -1⟩
    else
      let r := lnthSuffix s (-1) (-1)
      ⟨r.1, uns, r.2.1, r.2.2⟩

/-- The strings and values of a constant: `str`, `v`, `str2`, `v2`. -/
structure Parts where
  str : Str
  v : Nat
  str2 : Str
  v2 : Nat
  deriving DecidableEq, Repr

/-- The initial `str2` and `v2`, src/Parser/ExpressionNode.cpp:139-140 -/
def one' (s : Str) (v : Nat) : Parts := ⟨s, v, ['0', 'x', '0'], 0⟩

/-- src/Parser/ExpressionNode.cpp:201-217: a hexadecimal constant -/
def hexParts (s : Str) (type : Int) : Option Parts :=
  if type < 5 then some (one' s (scanHex s))
  else if s.length > 2 + 16 + 16 then none
  else if s.length > 2 + 16 then
    let low := '0' :: 'x' :: s.drop (s.length - 16)
    some ⟨s.take (s.length - 16), scanHex (s.take (s.length - 16)), low, scanHex low⟩
  else some (one' s (scanHex s))

/-- src/Parser/ExpressionNode.cpp:218-229: a binary constant -/
def binParts (s : Str) (type : Int) : Option Parts :=
  if type = 5 ∧ s.length > 2 + 64 then
    if s.length > 2 + 64 + 64 then none
    else
      let low := '0' :: 'b' :: s.drop (s.length - 64)
      some ⟨s.take (s.length - 64), scanbin (s.take (s.length - 64)), low, scanbin low⟩
  else some (one' s (scanbin s))

/-- src/Parser/ExpressionNode.cpp:230-260: an octal constant. `val` is a 128-bit word; bits shifted out are lost. -/
def octParts (s : Str) (type : Int) : Option Parts :=
  let len := s.length
  if type < 5 then some (one' s (scan 8 s))
  else if len > 1 + 43 ∨ (len = 1 + 43 ∧ at' s 0 > '3') then none
  else if len ≤ 1 + 21 then some (one' (printHex (scan 8 s)) (scan 8 s))
  else
    let val := scan 8 (s.drop (len - 21))
    let val := val ||| scan 8 ((s.take (len - 21)).drop (if len = 43 then 1 else 0)) * 2 ^ 63 % 2 ^ 128
    let val := if len = 1 + 43 then val ||| scan 8 ((s.take 2).drop 1) * 2 ^ 126 % 2 ^ 128 else val
    some ⟨printHex (val / 2 ^ 64), val / 2 ^ 64, printHex (val % 2 ^ 64), val % 2 ^ 64⟩

/-- `std::string` comparison `a > b` of strings of digits of the same length. -/
def gtStr : Str → Str → Bool
  | a :: as, b :: bs => if a = b then gtStr as bs else decide (b < a)
  | _ :: _, [] => true
  | [], _ => false

/-- src/Parser/ExpressionNode.cpp:261-293: a decimal constant. `val` is a 128-bit word; what exceeds it is lost. -/
def decParts (s : Str) (type : Int) (uns : Bool) : Option Parts :=
  let len := s.length
  if type < 5 then some (one' s (scan 10 s))
  else if len = 39 ∧ gtStr s (if uns then "340282366920938463463374607431768211455".toList else "170141183460469231731687303715884105727".toList) = true then none
  else if len ≤ 19 then some (one' (printHex (scan 10 s)) (scan 10 s))
  else
    let val := scan 10 (s.drop (len - 19))
    let val := (val + scan 10 ((s.take (len - 19)).drop (if len = 39 then 1 else 0)) * 10 ^ 19) % 2 ^ 128
    let val := if len = 39 then (val + scan 10 (s.take 1) * 10 ^ 38) % 2 ^ 128 else val
    some ⟨printHex (val / 2 ^ 64), val / 2 ^ 64, printHex (val % 2 ^ 64), val % 2 ^ 64⟩

/-- src/Parser/ExpressionNode.cpp:199-293: the value -/
def parts (s : Suf) : Option Parts :=
  if at' s.str 0 = '0' then
    if at' s.str 1 = 'x' ∨ at' s.str 1 = 'X' then hexParts s.str s.type
    else if at' s.str 1 = 'b' ∨ at' s.str 1 = 'B' then binParts s.str s.type
    else octParts s.str s.type
  else decParts s.str s.type s.uns

/-- src/Parser/ExpressionNode.cpp:295-321: the expression -/
def finish (dec : Bool) (s : Suf) (p : Parts) : Res :=
  let tu := if s.type = -1 then valueToType p.v dec s.uns else (s.type, s.uns)
  let ret := Res.const (kindTab tu.2 tu.1) p.str p.v
  if tu.2 = true ∧ tu.1 < 2 then .cast (kindTab tu.2 tu.1) ret
  else if s.ltype ≠ -1 then
    if s.ltype = 6 then
      let ret2 := Res.const .longLongSignedInt p.str2 p.v2
      if p.v2 = 0 then .int128 ret2 ret else .int128 ret ret2
    else if s.ltype = 5 then .pointer (.castTo (lnthTab tu.2 s.ltype) ret)
    else .castTo (lnthTab tu.2 s.ltype) ret
  else ret

/-- src/Parser/ExpressionNode.cpp:127-326 build_constantInteger; `none` when the constant is rejected. -/
def build (s : Str) : Option Res :=
  if s = ['0'] then some .zero
  else if s = ['1'] then some .one
  else
    let sf := suffix s
    (parts sf).map (finish (decide (at' sf.str 0 ≠ '0')) sf)

/-- src/Parser/lex.ll:70,382-385: the token of a constant -/
def token (raw : Str) : Option Res := build (rmUnderscore raw)

end Verif.IntLit
