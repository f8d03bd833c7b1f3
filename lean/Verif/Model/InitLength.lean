import Mathlib.Data.List.Basic

/-!
The length of an array that is declared without one: string literals (Parser/ExpressionNode.cpp,
Parser/parser.yy) and initializers (Validate/InitializerLength.cpp).  Texts are lists of characters, and
a character beyond the end is the null character.
-/
namespace Verif.InitLength

/-- `isoctal` (ExpressionNode.cpp 441-443). -/
def isOctal (c : Char) : Bool := decide (48 ≤ c.toNat) && decide (c.toNat ≤ 55)

/-- `isxdigit` of the C library. -/
def isHex (c : Char) : Bool :=
  (decide (48 ≤ c.toNat) && decide (c.toNat ≤ 57)) || (decide (65 ≤ c.toNat) && decide (c.toNat ≤ 70)) ||
  (decide (97 ≤ c.toNat) && decide (c.toNat ≤ 102))

/-- The letters of the simple escape sequences (ExpressionNode.cpp 452-455). -/
def escapes : List Char := ['\'', '"', '?', '\\', 'a', 'b', 'f', 'n', 'r', 't', 'v', 'e']

/-- `sequenceLength` (ExpressionNode.cpp 447-478) of the text that begins at `pos`; `none` is the error. -/
def seqLen (s : List Char) : Option Nat :=
  if s.getD 0 '\x00' ≠ '\\' then some 1 else
  let c := s.getD 1 '\x00'
  if c ∈ escapes then some 2
  else if isOctal c then
    some (if !isOctal (s.getD 2 '\x00') then 2 else if !isOctal (s.getD 3 '\x00') then 3 else 4)
  else if c = 'x' then some (2 + ((s.drop 2).takeWhile isHex).length)
  else if c = 'u' then some 6
  else if c = 'U' then some 10
  else none

/-- The loop of `build_constantStr` (ExpressionNode.cpp 501-509) on the text that begins at `pos`: what it
adds to the length.  The loop goes on while more than one character is left, and a quote skips to the next
one.  The first argument bounds the rounds: the text gets shorter in each. -/
def count : Nat → List Char → Option Nat
  | 0, _ => some 0
  | f + 1, s =>
    if s.length ≤ 1 then some 0
    else if s.getD 0 '\x00' = '"' then
      let s := s.tail.dropWhile (fun c => c != '"')
      (seqLen s).bind fun n => count f (s.drop n)
    else (seqLen s).bind fun n => (count f (s.drop n)).map (· + 1)

/-- `sepString` (ExpressionNode.cpp 412-418): the text up to the last delimiter, and the units. -/
def sepString (s : List Char) (delimit : Char) : List Char × List Char :=
  ((s.reverse.dropWhile (fun c => c != delimit)).reverse, (s.reverse.takeWhile (fun c => c != delimit)).reverse)

/-- `build_constantStr` (ExpressionNode.cpp 493-519): the length of the type of the constant, and whether
the expression is the constant (it is not if there are units). -/
def constantStr (s : List Char) : Option (Nat × Bool) :=
  let (str, units) := sepString s '"'
  (count str.length (str.drop 1)).map fun n => (1 + n, units.isEmpty)

/-- `appendStr` (parser.yy 71-101): `none` is the error. -/
def appendStr (dst frm : List Char) : Option (List Char) :=
  if frm.getD 0 '\x00' ≠ '"' then
    if dst.getD 0 '\x00' ≠ '"' then
      if dst.getD 0 '\x00' ≠ frm.getD 0 '\x00' ∨ dst.getD 1 '\x00' ≠ frm.getD 1 '\x00' then none
      else if frm.getD 1 '\x00' = '8' then some (dst ++ ' ' :: (frm.drop 1).drop 1)
      else some (dst ++ ' ' :: frm.drop 1)
    else if frm.getD 1 '\x00' = '8' then some ('u' :: '8' :: dst ++ ' ' :: (frm.drop 1).drop 1)
    else some (frm.getD 0 '\x00' :: dst ++ ' ' :: frm.drop 1)
  else some (dst ++ ' ' :: frm)

/-- `string_literal` with its list (parser.yy 699-711). -/
def literal (s : List Char) (ss : List (List Char)) : Option (Nat × Bool) :=
  (ss.foldlM appendStr s).bind constantStr

/-- An initializer: the string literals next to each other, another expression, or a list whose items
have designators (AST/Init.hpp 60-106).  An item is its array designator, if it has one. -/
inductive Init where
  | str (s : List Char) (ss : List (List Char))
  | other
  | list (items : List (Option Nat))
  deriving Repr

/-- `makeDimension` (InitializerLength.cpp 40-55). -/
def makeDimension : Init → Option Nat
  | .list items => some items.length
  | .str s ss => (literal s ss).bind fun r => if r.2 then some r.1 else none
  | .other => none

/-- `previsit` (InitializerLength.cpp 57-69): the dimension of the type after it. -/
def dimension (declared : Option Nat) (i : Init) : Option Nat :=
  match declared with
  | some n => some n
  | none => makeDimension i

end Verif.InitLength
