import Verif.Model.StrInput

/-!
# Reading strings: what the user expects
-/

namespace Verif.StrInput

/-- White space. -/
def White (c : Char) : Prop :=
  c = ' ' ∨ c = '\t' ∨ c = '\n' ∨ c = '\x0b' ∨ c = '\x0c' ∨ c = '\r'

/-- The input is at its end, or goes on with a character at which the reading stops. -/
def Ends (stop : Char → Prop) (rest : List Char) : Prop :=
  rest = [] ∨ ∃ c s, rest = c :: s ∧ stop c

/-- A text is read into an array of `n`: if it fits with its null character it is stored whole and the
input goes on with `after`; if not, as much as fits is stored, the exception is raised and the input
goes on with what is left of the text, and `rest`. -/
def gives (n : Nat) (mem text after rest : List Char) : Res :=
  if text.length < n then ⟨text ++ '\x00' :: mem.drop (text.length + 1), ⟨after, false⟩, none⟩
  else ⟨text.take (n - 1) ++ '\x00' :: mem.drop n, ⟨text.drop (n - 1) ++ rest, false⟩,
    some .cstringLength⟩

/-- A scan set without special characters. -/
def Plain (set : List Char) : Prop := ∀ c ∈ set, c ≠ '-' ∧ c ≠ '^' ∧ c ≠ ']'

/-- The C string at the start of the memory. -/
def cstr (mem : List Char) : List Char := mem.takeWhile fun c => c != '\x00'

/-- Read a number of times, each time into the same array; what is in it, and the exceptions. -/
def readMany (f : Fmt) : Nat → List Char → In → List (List Char × Option Exc)
  | 0, _, _ => []
  | k + 1, mem, st =>
    let r := readStr f mem st
    (cstr r.mem, r.exc) :: readMany f k r.mem r.st

/-- Read a number of enumerators. -/
def readEnums (labels : List (List Char)) : Nat → In → List (Except Exc Nat)
  | 0, _ => []
  | k + 1, st =>
    let r := readEnum labels st
    r.val :: readEnums labels k r.st

/-- The labels of an enumeration: different names, none empty and none with white space. -/
def Labels (labels : List (List Char)) : Prop :=
  labels.Nodup ∧ ∀ l ∈ labels, l ≠ [] ∧ ∀ c ∈ l, ¬ White c

/-- The number that decimal digits denote. -/
def decimal : List Char → Nat
  | [] => 0
  | c :: s => (c.toNat - 48) * 10 ^ s.length + decimal s

/-- A decimal digit. -/
def Digit (c : Char) : Prop := '0' ≤ c ∧ c ≤ '9'

end Verif.StrInput
