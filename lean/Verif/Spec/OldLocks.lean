import Verif.Model.OldLocks

/-!
What the locks of mutex.cfa are to do, in terms of where the threads are.
-/
namespace Verif.OldLocks

/-- At most one thread holds the lock. -/
def Exclusive (s : State) : Prop := ∀ t u, s.pc t = .inside → s.pc u = .inside → t = u

/-- Thread `t` called `lock`, or `wait` with the lock, and the call has not returned. -/
def Pending (s : State) (t : Nat) : Prop :=
  s.pc t = .parked ∨ s.pc t = .relock ∨ s.pc t = .waiting true

/-- Thread `t` sleeps in `wait`. -/
def Waits (s : State) (t : Nat) : Prop := ∃ l, s.pc t = .waiting l

end Verif.OldLocks
