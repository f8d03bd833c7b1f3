import Verif.Proof.Snzi
/-!
# C58: the scalable non-zero indicator

For every depth of the tree, every number of threads and every schedule of their arrivals and departures: `query` gives true while some
arrival has completed whose departure has not been called, whatever other calls are in progress; and it gives false when every completed
arrival has departed and no call is in progress. The arguments of the calls are arbitrary, and a departure has the argument of an arrival
that it undoes. Both hold also when a count overflows its `char` (it then stays at -128, standing for 128, until a departure).
-/
namespace Verif.Snzi
open Verif

/-- C58, first half. -/
theorem C58_nonzero (depth n : Nat) (s : State) (h : Reach (next depth n) start s) (idx : Int)
    (hheld : 0 < s.held (leafOf depth idx)) : query s = true := by
  have := (inv_reach h).up _ _ (le_refl _) (leafOf_le depth idx) (by omega)
  simp only [query, ne_eq, decide_not, Bool.not_eq_true', decide_eq_false_iff_not]
  omega

/-- C58, second half. -/
theorem C58_zero (depth n : Nat) (s : State) (h : Reach (next depth n) start s) (hidle : ∀ t, t < n → s.stk t = [])
    (hheld : ∀ p, s.held p = 0) : query s = false := by
  have := (inv_reach h).quiet hidle hheld
  simp [query, this]

/-- The tree that the constructor builds: every node but the root has its parent at a higher index, up to the root; leaves are distinct
from inner nodes, and the arguments of `arrive` and `depart` select leaves. -/
theorem C58_tree (depth : Nat) :
    (∀ i, i < root depth → i < par depth i ∧ par depth i ≤ root depth ∧ width depth ≤ par depth i) ∧
    (∀ idx, leafOf depth idx < width depth) ∧ (∀ l, l < width depth → ∃ idx, leafOf depth idx = l) := by
  refine ⟨fun i hi => ⟨(lt_par depth i hi).1, (lt_par depth i hi).2, by unfold par; omega⟩, fun idx => ?_, fun l hl => ⟨4 * l, ?_⟩⟩
  · have hp : (0 : Int) < (width depth : Int) := by have := root_width depth; omega
    have h1 := Int.emod_lt_of_pos (idx / 4) hp
    have h2 := Int.emod_nonneg (idx / 4) (ne_of_gt hp)
    unfold leafOf
    omega
  · unfold leafOf
    rw [Int.mul_ediv_cancel_left _ (by decide), Int.emod_eq_of_lt (by omega) (by omega)]
    rfl

/-- Two threads race at one leaf of a tree of depth 1: the second finds one half, helps, and both arrive at the root; one undoes. -/
def race : List Act :=
  [.arrive 0 0, .step 0, .step 0,            -- 0 claims the leaf
   .arrive 1 0, .step 1, .step 1, .step 1,   -- 1 sees one half and arrives at the root
   .step 1,                                  -- 1 commits
   .step 0, .step 0, .step 0,                -- 0 arrives at the root, fails to commit
   .step 1, .step 1, .step 1]                -- 1 adds itself and returns

example : ∃ s, Reach (next 1 2) start s ∧ 0 < s.held (leafOf 1 0) ∧ s.stk 0 ≠ [] ∧ s.stk 1 = [] ∧ s.all = 2 :=
  ⟨(exec (next 1 2) start race).getD start, Reach.of_isSome _ (by decide +kernel), by decide +kernel, by decide +kernel,
    by decide +kernel, by decide +kernel⟩

/-- The same, then everything departs. -/
example : ∃ s, Reach (next 1 2) start s ∧ (∀ t, t < 2 → s.stk t = []) ∧ (∀ p, p < 2 → s.held p = 0) ∧ (s.val 0).cnt = 0 ∧ (s.val 0).ver = 1 :=
  ⟨(exec (next 1 2) start (race ++ [.step 0, .step 0, .step 0, .depart 0 0, .step 0, .step 0, .depart 1 0, .step 1, .step 1, .step 1])).getD start,
    Reach.of_isSome _ (by decide +kernel), by decide +kernel, by decide +kernel, by decide +kernel, by decide +kernel⟩

end Verif.Snzi
