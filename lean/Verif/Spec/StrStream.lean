import Verif.Model.StrStream

/-!
# String streams: what the user expects
-/

namespace Verif.StrStream

/-- The text that is not written yet, and the file; `none` after `abort`, which is when the text and
its null character do not fit the buffer. -/
def expect (size : Nat) (st : Option (List Char × List Char)) (a : OAct) :
    Option (List Char × List Char) :=
  match st with
  | none => none
  | some (text, out) =>
    match a with
    | .fmt s => if (text ++ s).length + 1 ≤ size then some (text ++ s, out) else none
    | .write => some ([], out ++ text)
    | .clear => some ([], out)

/-- A word: some characters, none of them white space. -/
def IsWord (w : List Char) : Prop :=
  w ≠ [] ∧ ∀ c ∈ w, c ≠ ' ' ∧ c ≠ '\t' ∧ c ≠ '\n' ∧ c ≠ '\x0b' ∧ c ≠ '\x0c' ∧ c ≠ '\r'

/-- Words, each with what stands after it, one after the other. -/
def render : List (List Char × List Char) → List Char
  | [] => []
  | (w, sep) :: ws => w ++ sep ++ render ws

end Verif.StrStream
