import Verif.Model.Base
/-!
Pointer structures: nodes are non-zero natural numbers (addresses), 0 is the null pointer, a field of all nodes is a
function from addresses. Shared by the models of the intrusive lists.
-/
namespace Verif

/-- Assignment to one field of one node (or to one variable of a family). -/
def upd {α : Type u} (f : Nat → α) (a : Nat) (v : α) : Nat → α := fun x => if x = a then v else f x

/-- The field holds, for each element of the list, the next element, and `t` for the last one. -/
def Links (next : Nat → Nat) : List Nat → Nat → Prop
  | [], _ => True
  | a :: l, t => next a = l.headD t ∧ Links next l t

end Verif
