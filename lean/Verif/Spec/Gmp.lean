import Verif.Model.Gmp
/-! Specification for C101: the integers. -/
namespace Verif.Gmp

/-- The number an operand stands for. -/
def Arg.val : Arg → Int
  | .Z v => v
  | .S v => v
  | .U v => v

/-- A C integer is in the range of its type. -/
def Arg.ok : Arg → Prop
  | .Z _ => True
  | .S v => -2 ^ 63 ≤ v ∧ v < 2 ^ 63
  | .U v => 0 ≤ v ∧ v < 2 ^ 64

def Arg.isZ : Arg → Prop
  | .Z _ => True
  | _ => False

/-- One of the operands is an `Int`: only then are these operators meant. -/
def Mixed (a b : Arg) : Prop := a.isZ ∨ b.isZ

end Verif.Gmp
