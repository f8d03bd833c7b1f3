import Verif.Model.Cofor

/-!
# Parallel loops: what the user expects
-/

namespace Verif.Cofor

/-- The integers from `a` up to, but not including, `b`. -/
def ints (a b : Int) : List Int := (List.range (b - a).toNat).map fun k : Nat => a + (k : Int)

/-- The values at the positions `r`, `r + n`, `r + 2n` and so on. -/
def deal {α : Type} (n r : Nat) (l : List α) : List α :=
  (l.zipIdx.filter fun x => decide (x.2 % n = r)).map (·.1)

/-- The statement is finished: every runner has returned, so that the destructors wait no more. -/
def Finished {α : Type} (n : Nat) (s : St α) : Prop :=
  s.rest = [] ∧ s.ended = n ∧ ∀ r, r < n → s.pc r = .exit

end Verif.Cofor
