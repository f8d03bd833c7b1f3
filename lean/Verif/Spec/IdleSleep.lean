import Verif.Model.IdleSleep
/-! When a cluster is stalled. -/
namespace IdleSleep

/-- What happens without a cause from outside: processors and callers go on.
(Not: that a thread is made ready, a system call is interrupted or a processor
is destroyed.) -/
def internal : Act → Bool
  | .halt _ | .pop _ _ | .adv _ | .off _ _ | .wake _ | .quit _ => true
  | _ => false

/-- Threads are ready, there are processors, but nothing will happen. -/
def Stalled (n c m : Nat) (st : St) : Prop :=
  (∃ j < c, st.lane j ≠ 0) ∧ (∃ p < n, st.pc p ≠ .dead) ∧
  ∀ a, internal a = true → next n c m (fun _ => true) st a = none

end IdleSleep
