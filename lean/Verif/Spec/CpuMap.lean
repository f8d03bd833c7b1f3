import Verif.Model.CpuMap
import Verif.Spec.CpuList

/-!
Processors and their last-level caches.
-/
namespace Verif.CpuMap
open Verif.CpuList

/-- The files of a system of n processors: the text of each lists, once each, exactly the processors whose
text is the same. -/
def System (shared : Nat → List Char) (n : Nat) : Prop :=
  n < 2 ^ 32 ∧ ∀ i < n, ∃ is : List Item, is ≠ [] ∧ (∀ x ∈ is, x.Ok) ∧ shared i = text is ∧ (cpus is).Nodup ∧
    ∀ k, k ∈ cpus is ↔ k < n ∧ shared k = shared i

/-- What `qsort` may give of the pairings: the same ones, in the order of the caches. -/
def Sorted (shared : Nat → List Char) (n : Nat) (ps : List Pairing) : Prop :=
  ps.Perm (pairings shared n) ∧ ps.Pairwise (fun p q => p.id ≤ q.id)

end Verif.CpuMap
