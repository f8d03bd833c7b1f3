import Verif.Model.Time
/-!
The conversion of absolute times in the timed waits of `pthread_cond_var` (locks.cfa:562-583).
-/
namespace Verif.PthreadTime
open Verif Verif.Time

/-- locks.cfa:567-575 `getDuration( timespec )`, for the time `now` read from the clock. -/
def getDuration (now t : Timespec) : Outcome Duration := do
  let waitUntil ← Duration.ofTimespec t
  let currDur ← Duration.ofTimespec now
  if currDur.ge waitUntil then Duration.sub currDur waitUntil else .ret ⟨0⟩

end Verif.PthreadTime
