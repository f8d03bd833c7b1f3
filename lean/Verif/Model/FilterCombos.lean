import Verif.Model.Base
/-!
Model of `filterCombos` (src/Common/FilterCombos.hpp). The combination iterator is a filter on prefixes: `append x` accepts when `ok` holds of the current prefix followed by `x`, and then
holds that prefix; when it refuses, it is unchanged; `backtrack` removes the last element; `finalize` gives the current combination (FilterCombos.hpp:27-44;
src/ResolvExpr/SatisfyAssertions.cpp:400-428). The number of turns of the outer loop is bounded by `fuel`; running out is undefined.
-/
namespace Verif.FilterCombos
open Verif

variable {α : Type}

/-- The variables of the loop: `inds` (the back of the vector first), the combination held by the iterator, `out`. -/
structure St (α : Type) where
  inds : List Nat
  cur : List α
  out : List (List α)

/-- FilterCombos.hpp:85-92: the inner loop. -/
def back (qs : List (List α)) : List Nat → List α → List Nat × List α
  | [], cur => ([], cur)
  | j :: js, cur => if j + 1 < (qs.getD js.length []).length then ((j + 1) :: js, cur.dropLast) else back qs js cur.dropLast

/-- FilterCombos.hpp:61-96: the outer loop. -/
def loop (ok : List α → Bool) (qs : List (List α)) : Nat → St α → Outcome (List (List α))
  | 0, _ => .undef
  | fuel + 1, s => match s.inds with
    | [] => .undef
    | j :: js => match (qs[js.length]?).bind (fun q => q[j]?) with
      | none => .undef
      | some x =>
        if ok (s.cur ++ [x]) && decide (js.length + 1 ≠ qs.length) then
          -- lines 71-73
          loop ok qs fuel { s with inds := 0 :: j :: js, cur := s.cur ++ [x] }
        else
          -- lines 66-69
          let s := if ok (s.cur ++ [x]) then { s with out := s.out ++ [s.cur ++ [x]] } else s
          -- lines 78-95
          if j + 1 < (qs.getD js.length []).length then loop ok qs fuel { s with inds := (j + 1) :: js }
          else
            let b := back qs js s.cur
            if b.1.isEmpty then .ret s.out else loop ok qs fuel { s with inds := b.1, cur := b.2 }

/-- FilterCombos.hpp:50-97 -/
def filterCombos (ok : List α → Bool) (fuel : Nat) (qs : List (List α)) : Outcome (List (List α)) :=
  if qs.any List.isEmpty then .ret [] else loop ok qs fuel ⟨[0], [], []⟩

end Verif.FilterCombos
