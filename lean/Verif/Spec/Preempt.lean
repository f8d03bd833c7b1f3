import Verif.Model.Preempt

/-!
# Preemption: what the user sees

An execution is a list of events.  The user code is in a section when it has called
`disable_interrupts` more often than `enable_interrupts`.
-/

namespace Verif.Preempt

/-- An execution. -/
inductive Exec : Proc → List Act → Proc → Prop
  | nil {p : Proc} : Exec p [] p
  | cons {p q r : Proc} {a : Act} {as : List Act} (h : act p a = some q) (hr : Exec q as r) :
      Exec p (a :: as) r

/-- The processor is given to another thread somewhere in the execution. -/
inductive Switched : Proc → List Act → Prop
  | here {p : Proc} {a : Act} {as : List Act} (h : switches p a = true) : Switched p (a :: as)
  | later {p q : Proc} {a : Act} {as : List Act} (h : act p a = some q) (hs : Switched q as) :
      Switched p (a :: as)

/-- The calls of `disable_interrupts`. -/
def disables (as : List Act) : Nat := as.countP fun a => a == .callDisable

/-- The calls of `enable_interrupts`. -/
def enables (as : List Act) : Nat := as.countP fun a => a == .callEnable true || a == .callEnable false

/-- There are never more than 65535 sections in each other. -/
def Within (as : List Act) : Prop := ∀ n, disables (as.take n) ≤ enables (as.take n) + 65535

end Verif.Preempt
