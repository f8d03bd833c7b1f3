import Verif.Proof.Sort
/-!
C15 (address sort used to order lock acquisition) and C16 (binary searches).
-/
namespace Verif.Sort
open Verif

/-! ## C15 -/

/-- For every array the sort terminates without touching memory outside it and leaves a permutation of the input in
    non-decreasing order. -/
theorem C15_sort (arr : List Nat) : ∃ r, smallSort arr = .ret r ∧ r.Perm arr ∧ r.Pairwise (· ≤ ·) := by
  unfold smallSort
  split
  · next h =>
    refine ⟨arr, rfl, List.Perm.refl _, ?_⟩
    match arr, h with
    | [a], _ => simp
  · next h => exact net_sorts net2 (by decide) arr (fun l hl => net2_bool l (by omega))
  · next h => exact net_sorts net3 (by decide) arr (fun l hl => net3_bool l (by omega))
  · next h => exact net_sorts net4 (by decide) arr (fun l hl => net4_bool l (by omega))
  · next h => exact net_sorts net5 (by decide) arr (fun l hl => net5_bool l (by omega))
  · next h => exact net_sorts net6 (by decide) arr (fun l hl => net6_bool l (by omega))
  · exact sortN_spec arr

/-- Two threads that name the same monitors, in whatever order, acquire them in the same order. -/
theorem C15_same_order (a b : List Nat) (h : a.Perm b) : smallSort a = smallSort b := by
  obtain ⟨r, hr, hp, hs⟩ := C15_sort a
  obtain ⟨r', hr', hp', hs'⟩ := C15_sort b
  rw [hr, hr']
  congr 1
  exact (hp.trans (h.trans hp'.symm)).eq_of_pairwise (fun x y _ _ h1 h2 => Nat.le_antisymm h1 h2) hs hs'

example : smallSort [30, 10, 20] = .ret [10, 20, 30] ∧ smallSort [9, 8, 7, 7, 5, 4, 3, 2] = .ret [2, 3, 4, 5, 7, 7, 8, 9] := by
  decide
example : [30, 10, 20].Perm [10, 20, 30] := by decide

/-! ## C16 -/

/-- `vals` is sorted by `lt`: no later element is less than an earlier one. -/
def Sorted {E : Type} (lt : E → E → Bool) (vals : List E) : Prop :=
  ∀ i j : Nat, ∀ a b : E, i ≤ j → vals[i]? = some a → vals[j]? = some b → lt b a = false

/-- Not being less is transitive (true of every strict weak order). -/
def NegTrans {K : Type} (lt : K → K → Bool) : Prop := ∀ a b c, lt a c = true → lt a b = true ∨ lt b c = true

/-- `p` is the first position whose element fails `below`, and all later ones fail it as well. -/
def IsSplit {E : Type} (below : E → Bool) (vals : List E) (p : Nat) : Prop :=
  p ≤ vals.length ∧ (∀ i a, i < p → vals[i]? = some a → below a = true) ∧
    (∀ i a, p ≤ i → vals[i]? = some a → below a = false)

/-- `bsearchl`: everything before the returned position is less than the key, nothing from it on is. -/
theorem C16_bsearchl {E : Type} (lt : E → E → Bool) (hlt : NegTrans lt) (key : E) (vals : List E) (hs : Sorted lt vals) :
    ∃ p, bsearchl lt key vals = .ret p ∧ IsSplit (fun v => lt v key) vals p := by
  refine searchLoop_spec (fun v => lt v key) vals ?_ 0 vals.length (Nat.zero_le _) (Nat.le_refl _) ?_ ?_
  · intro i j a b hij ha hb h
    rcases hlt b a key h with h1 | h1
    · rw [hs i j a b hij ha hb] at h1; exact absurd h1 (by simp)
    · exact h1
  · intro i a hi; omega
  · intro i a hi ha; rw [List.getElem?_eq_none hi] at ha; exact absurd ha (by simp)

/-- `bsearchu`: nothing before the returned position is greater than the key, everything from it on is. -/
theorem C16_bsearchu {E : Type} (lt : E → E → Bool) (hlt : NegTrans lt) (key : E) (vals : List E) (hs : Sorted lt vals) :
    ∃ p, bsearchu lt key vals = .ret p ∧ IsSplit (fun v => !lt key v) vals p := by
  refine searchLoop_spec (fun v => !lt key v) vals ?_ 0 vals.length (Nat.zero_le _) (Nat.le_refl _) ?_ ?_
  · intro i j a b hij ha hb h
    simp only [Bool.not_eq_true'] at h ⊢
    cases hk : lt key a with
    | false => rfl
    | true =>
      rcases hlt key b a hk with h1 | h1
      · rw [h] at h1; exact absurd h1 (by simp)
      · rw [hs i j a b hij ha hb] at h1; exact absurd h1 (by simp)
  · intro i a hi; omega
  · intro i a hi ha; rw [List.getElem?_eq_none hi] at ha; exact absurd ha (by simp)

/-- The searches by key, on an array sorted by its keys. -/
theorem C16_by_key {K E : Type} (lt : K → K → Bool) (hlt : NegTrans lt) (getKey : E → K) (key : K) (vals : List E)
    (hs : Sorted (fun a b => lt (getKey a) (getKey b)) vals) :
    (∃ p, bsearchlKey lt getKey key vals = .ret p ∧ IsSplit (fun v => lt (getKey v) key) vals p) ∧
    (∃ p, bsearchuKey lt getKey key vals = .ret p ∧ IsSplit (fun v => !lt key (getKey v)) vals p) := by
  constructor
  · refine searchLoop_spec (fun v => lt (getKey v) key) vals ?_ 0 vals.length (Nat.zero_le _) (Nat.le_refl _) ?_ ?_
    · intro i j a b hij ha hb h
      rcases hlt (getKey b) (getKey a) key h with h1 | h1
      · have := hs i j a b hij ha hb; simp only at this; rw [this] at h1; exact absurd h1 (by simp)
      · exact h1
    · intro i a hi; omega
    · intro i a hi ha; rw [List.getElem?_eq_none hi] at ha; exact absurd ha (by simp)
  · refine searchLoop_spec (fun v => !lt key (getKey v)) vals ?_ 0 vals.length (Nat.zero_le _) (Nat.le_refl _) ?_ ?_
    · intro i j a b hij ha hb h
      simp only [Bool.not_eq_true'] at h ⊢
      cases hk : lt key (getKey a) with
      | false => rfl
      | true =>
        rcases hlt key (getKey b) (getKey a) hk with h1 | h1
        · rw [h] at h1; exact absurd h1 (by simp)
        · have := hs i j a b hij ha hb; simp only at this; rw [this] at h1; exact absurd h1 (by simp)
    · intro i a hi; omega
    · intro i a hi ha; rw [List.getElem?_eq_none hi] at ha; exact absurd ha (by simp)

example : bsearchl (fun a b : Nat => decide (a < b)) 5 [1, 3, 5, 5, 5, 8] = .ret 2 ∧
    bsearchu (fun a b : Nat => decide (a < b)) 5 [1, 3, 5, 5, 5, 8] = .ret 5 := by decide +kernel
example : NegTrans (fun a b : Nat => decide (a < b)) := by
  intro a b c h; simp only [decide_eq_true_eq] at *; omega
example : Sorted (fun a b : Nat => decide (a < b)) [1, 5, 5] := by
  intro i j a b hij ha hb
  have hj : j < 3 := (List.getElem?_eq_some_iff.1 hb).1
  match i, j, hij, hj with
  | 0, 0, _, _ | 0, 1, _, _ | 0, 2, _, _ | 1, 1, _, _ | 1, 2, _, _ | 2, 2, _, _ => simp at ha hb; subst ha hb; rfl

end Verif.Sort
