import Verif.Model.InitLength

/-!
The length that C gives an array (C11 6.7.9, 6.4.5, 6.4.4.4).
-/
namespace Verif.InitLength

def Octal (c : Char) : Prop := '0' ≤ c ∧ c ≤ '7'
def Hex (c : Char) : Prop := ('0' ≤ c ∧ c ≤ '9') ∨ ('A' ≤ c ∧ c ≤ 'F') ∨ ('a' ≤ c ∧ c ≤ 'f')

/-- One character of a string, as it is written: itself, a simple escape sequence, an octal or a
hexadecimal one.  Universal character names are left out. -/
inductive Tok where
  | plain (c : Char)
  | simple (c : Char)
  | octal (ds : List Char)
  | hex (ds : List Char)

def Tok.text : Tok → List Char
  | .plain c => [c]
  | .simple c => ['\\', c]
  | .octal ds => '\\' :: ds
  | .hex ds => '\\' :: 'x' :: ds

/-- A character is well written if what comes next does not belong to it: escape sequences are as long
as they can be. -/
def Tok.Ok (next : Char) : Tok → Prop
  | .plain c => c ≠ '"' ∧ c ≠ '\\'
  | .simple c => c ∈ "'\"?\\abfnrtve".toList
  | .octal ds => ds ≠ [] ∧ ds.length ≤ 3 ∧ (∀ c ∈ ds, Octal c) ∧ (ds.length = 3 ∨ ¬ Octal next)
  | .hex ds => ds ≠ [] ∧ (∀ c ∈ ds, Hex c) ∧ ¬ Hex next

/-- The characters between the quotes, and the closing quote. -/
def body (ts : List Tok) : List Char := ts.flatMap Tok.text ++ ['"']

/-- All characters of a literal are well written. -/
def Written : List Tok → Prop
  | [] => True
  | t :: ts => t.Ok ((body ts).headD '\x00') ∧ Written ts

/-- A string literal in the source. -/
def source (ts : List Tok) : List Char := '"' :: body ts

/-- The length of an array of scalars with a list (C11 6.7.9 paragraphs 17 and 22): an item is put at its
designator or after the item before it, and the length is one more than the largest index.  `i` is the
index of the next item. -/
def cLength (i : Nat) : List (Option Nat) → Nat
  | [] => 0
  | d :: ds => let j := d.getD i; max (j + 1) (cLength (j + 1) ds)

/-- The length of an array of arrays of `k` scalars with a list of `n` scalars (C11 6.7.9 paragraph 20). -/
def flatLength (k n : Nat) : Nat := (n + k - 1) / k

end Verif.InitLength
