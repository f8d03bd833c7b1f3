import Verif.Model.ConstVal
import Verif.Spec.InitLength

/-!
The values that C gives to character constants (C11 6.4.4.4) and enumerators (C11 6.7.2.2).
-/
namespace Verif.ConstVal
open Verif.InitLength

/-- A character constant with one character in the source. -/
def quoted (t : Tok) : List Char := '\'' :: (t.text ++ ['\''])

/-- The value of a simple escape sequence. -/
def escape (c : Char) : Nat :=
  match c with
  | 'a' => 7 | 'b' => 8 | 't' => 9 | 'n' => 10 | 'v' => 11 | 'f' => 12 | 'r' => 13 | 'e' => 27
  | c => c.toNat

/-- The value of digits to a base, most significant first. -/
def digits (base : Nat) (digit : Char → Nat) (ds : List Char) : Nat := ds.foldl (fun v c => v * base + digit c) 0

def hexDigit (c : Char) : Nat :=
  if c ≤ '9' then c.toNat - 48 else if c ≤ 'F' then c.toNat - 55 else c.toNat - 87

/-- The value of a character, as an unsigned byte. -/
def cChar : Tok → Nat
  | .plain c => c.toNat % 256
  | .simple c => escape c
  | .octal ds => digits 8 (fun c => c.toNat - 48) ds % 256
  | .hex ds => digits 16 hexDigit ds % 256

/-- The value of an initializer. -/
def cIni (env : Map) (next : Int) : Option Ini → Int
  | none => next
  | some (.val a _) => a
  | some (.ref n k) => (env.lookup n).getD 0 + k

/-- The enumerators with their values: the one that is written, or one more than the one before, or 0.
`env` are the enumerators before. -/
def cEnums : List Mem → Map → Int → Map
  | [], _, _ => []
  | m :: ms, env, next =>
    let v := cIni env next m.init
    (m.name, v) :: cEnums ms (env ++ [(m.name, v)]) (v + 1)

/-- Names differ, and an initializer names only enumerators before it. -/
def Proper : List Nat → List Mem → Prop
  | _, [] => True
  | names, m :: ms => m.name ∉ names ∧ (∀ n k, m.init = some (.ref n k) → n ∈ names) ∧
      Proper (names ++ [m.name]) ms

end Verif.ConstVal
