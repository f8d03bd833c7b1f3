/-!
What a `waituntil` statement waits for. The clauses are numbered from left to right. A clause may have a `when` condition; a clause whose
condition is false is as if it was not there.
-/
namespace Verif.WaitUntil

/-- The clauses of a statement, joined by `and` and `or`; `guarded` says whether a clause has a `when` condition. -/
inductive Tree where
  | leaf (guarded : Bool)
  | and (l r : Tree)
  | or (l r : Tree)
  deriving DecidableEq, Repr

/-- The number of clauses. -/
def Tree.leaves : Tree → Nat
  | .leaf _ => 1
  | .and l r | .or l r => l.leaves + r.leaves

/-- The condition on the set `x` of clauses, without the clauses that `on` disables; `none` if there is no clause left. The clauses of the
    tree are `k`, `k + 1`, .... -/
def Tree.cond (on x : Nat → Bool) : Tree → Nat → Option Bool
  | .leaf _, k => if on k then some (x k) else none
  | .and l r, k => match l.cond on x k, r.cond on x (k + l.leaves) with
    | some a, some b => some (a && b)
    | some a, none => some a
    | none, b => b
  | .or l r, k => match l.cond on x k, r.cond on x (k + l.leaves) with
    | some a, some b => some (a || b)
    | some a, none => some a
    | none, b => b

/-- Whether the statement need wait no longer when the clauses in `x` have been executed. If all clauses are disabled there is nothing to
    wait for. -/
def Tree.satisfied (t : Tree) (on x : Nat → Bool) : Bool := (t.cond on x 0).getD true

/-- The clauses that have no `when` condition or whose condition is true; `g` are the values of the conditions. -/
def Tree.enabled (g : Nat → Bool) : Tree → Nat → Nat → Bool
  | .leaf guarded, k, i => i == k && (!guarded || g i)
  | .and l r, k, i | .or l r, k, i => l.enabled g k i || r.enabled g (k + l.leaves) i

end Verif.WaitUntil
