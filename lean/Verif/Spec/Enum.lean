import Verif.Model.Enum

/-!
# Enumerations: what the user relies on
-/

namespace Verif.Enum

/-- An integer type. -/
structure Base where
  signed : Bool
  bits : Nat

/-- Conversion to an integer type: modulo the number of its values. -/
def Base.conv (b : Base) (x : Int) : Int :=
  if b.signed then x.bmod (2 ^ b.bits) else x % (2 ^ b.bits)

/-- The values of enumerators: the explicit value, or one more than the enumerator before, or 0 for
the first; all of the base type.  `prev` is the value before the first of the list, if any. -/
def valuesAfter (b : Base) : Option Int → List (String × Option Int) → List Int
  | _, [] => []
  | prev, (_, init) :: ms =>
    let v := b.conv (match init, prev with
      | some v, _ => v
      | none, some p => p + 1
      | none, none => 0)
    v :: valuesAfter b (some v) ms

/-- The source of a conversion is inline in the target, where the conversion is right: on the way
from the target, only inline enumerations come before the one that has the source, none of them has
it, and the last of the way, or else they have some enumerators. -/
inductive Way (src : EDecl) : EDecl → Prop
  | child {name : String} {typed : Bool} {pre : List EDecl} {post : List Item}
      (hname : name ≠ src.name) (hpre : ∀ c ∈ pre, has src.name c = false) :
      Way src (expand name typed (pre.map .inl ++ .inl src :: post))
  | deeper {name : String} {typed : Bool} {pre : List EDecl} {mid : EDecl} {post : List Item}
      (hname : name ≠ src.name) (hpre : ∀ c ∈ pre, has src.name c = false)
      (hsome : 0 < (pre.map fun c => c.members.length).sum) (h : Way src mid) :
      Way src (expand name typed (pre.map .inl ++ .inl mid :: post))

end Verif.Enum
