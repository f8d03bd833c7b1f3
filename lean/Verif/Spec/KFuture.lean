import Verif.Model.KFuture
/-!
C52: correct use of the kernel's futures.
-/
namespace Verif.KFuture
open Verif Verif.SingleSem

/-- The client uses no future it abandoned, waits for at least one future, and no call of `wait_any` meets a future that is already fulfilled after it has set up
    another one. -/
def Proper (s : State) : Act → Prop
  | .wait f _ => s.ab f = false
  | .waitAny lo hi _ => lo < hi ∧ ∀ f, f < hi → lo ≤ f → s.ab f = false
  | .abandon f => s.ab f = false
  | .stepC => match s.c with
    | .setR i => s.ptr i = .ful → i = s.lo
    | _ => True
  | _ => True

instance (s : State) (a : Act) : Decidable (Proper s a) := by
  cases a <;> simp only [Proper] <;> first | infer_instance | (split <;> infer_instance)

def nextP (s : State) (a : Act) : Option State := if Proper s a then next s a else none

end Verif.KFuture
