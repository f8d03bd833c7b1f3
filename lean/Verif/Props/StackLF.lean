import Verif.Model.StackLF
import Verif.Proof.Heap
import Mathlib.Tactic.SplitIfs
/-!
C49: the lock-free stack. `Reach nextP start s`: `s` is reached from an empty stack by any interleaving of the steps of any number of threads calling
`push` and `pop`, with nodes being reused at will (`Proper` says what correct use is). `s.abs` is the content of the abstract LIFO stack.
-/
namespace Verif.StackLF
open Verif

structure Inv (s : State) : Prop where
  links : Links s.nxTop s.abs 0
  top : s.top = s.abs.headD 0
  nz : ∀ n, n ∈ s.abs → n ≠ 0
  nd : s.abs.Nodup
  cnt : s.count = s.pushes
  small : s.pushes < 2 ^ 64
  busy1 : ∀ t n a b, s.pc t = .push n a b → s.busy n = true ∧ n ≠ 0
  busy2 : ∀ n, s.busy n = true → n ∉ s.abs
  uniq : ∀ t u n a b c d, s.pc t = .push n a b → s.pc u = .push n c d → t = u
  cle : ∀ t a c, s.pc t = .pop a (some c) → c ≤ s.count
  cle2 : ∀ t a c nx, s.pc t = .pop2 a c nx → c ≤ s.count ∧ a ≠ 0
  key : ∀ t a c nx, s.pc t = .pop2 a c nx → s.count = c → a ∈ s.abs → s.nxTop a = nx
  emp : ∀ t a c, s.pc t = .pop a c → s.abs = [] → s.wasEmpty t = true
  emp2 : ∀ t a c nx, s.pc t = .pop2 a c nx → s.abs = [] → s.wasEmpty t = true
  emp3 : ∀ t c, s.pc t = .pop (some 0) c → s.wasEmpty t = true

theorem start_inv : Inv start := by
  constructor <;> simp [start]

theorem links_upd {nx : Nat → Nat} {l : List Nat} {n v t : Nat} (h : Links nx l t) (hn : n ∉ l) : Links (upd nx n v) l t := by
  induction l with
  | nil => trivial
  | cons a l ih =>
    simp only [links_cons, List.mem_cons, not_or] at *
    exact ⟨by rw [upd_ne _ _ (Ne.symm hn.1)]; exact h.1, ih h.2 hn.2⟩

theorem headD_zero {l : List Nat} (hz : ∀ n, n ∈ l → n ≠ 0) (h : l.headD 0 = 0) : l = [] := by
  cases l with
  | nil => rfl
  | cons a l => exact absurd h (hz a (by simp))

set_option maxHeartbeats 4000000 in
theorem step_inv {s s' : State} {a : Act} (h : nextP s a = some s') (iv : Inv s) : Inv s' := by
  obtain ⟨i1, i2, i3, i4, i5, i6, i7, i8, i9, i10, i11, i12, i13, i14, i15⟩ := iv
  simp only [nextP] at h
  split at h
  swap
  · cases h
  next hp =>
  have hz := headD_zero i3
  cases a with
  | push t n =>
    simp only [Proper] at hp
    simp only [next] at h
    split at h
    swap
    · cases h
    next hpc =>
    cases h
    refine ⟨i1, i2, i3, i4, i5, i6, ?_, ?_, ?_, ?_, ?_, ?_, ?_, ?_, ?_⟩ <;> intros <;> simp only [upd] at * <;> grind
  | pop t =>
    simp only [next] at h
    split at h
    swap
    · cases h
    next hpc =>
    cases h
    refine ⟨i1, i2, i3, i4, i5, i6, ?_, i8, ?_, ?_, ?_, ?_, ?_, ?_, ?_⟩ <;> intros <;> simp only [upd] at * <;> grind
  | word1 t =>
    simp only [next] at h
    split at h
    · next n a b hpc =>
      cases h
      have hn := i8 n (i7 t n a b hpc).1
      have hne : ∀ m, m ∈ s.abs → m ≠ n := by grind
      refine ⟨links_upd i1 hn, i2, i3, i4, i5, i6, ?_, i8, ?_, ?_, ?_, ?_, ?_, ?_, ?_⟩ <;> intros <;> simp only [upd] at * <;> grind
    · next c hpc =>
      cases h
      refine ⟨i1, i2, i3, i4, i5, i6, ?_, i8, ?_, ?_, ?_, ?_, ?_, ?_, ?_⟩ <;> intros <;> simp only [upd] at * <;> grind
    · cases h
  | word2 t =>
    simp only [next] at h
    split at h
    · next n a b hpc =>
      cases h
      refine ⟨i1, i2, i3, i4, i5, i6, ?_, i8, ?_, ?_, ?_, ?_, ?_, ?_, ?_⟩ <;> intros <;> simp only [upd] at * <;> grind
    · next c hpc =>
      cases h
      refine ⟨i1, i2, i3, i4, i5, i6, ?_, i8, ?_, ?_, ?_, ?_, ?_, ?_, ?_⟩ <;> intros <;> simp only [upd] at * <;> grind
    · cases h
  | look t =>
    simp only [next] at h
    split at h
    · next a c hpc =>
      split at h
      · cases h
        refine ⟨i1, i2, i3, i4, i5, i6, ?_, i8, ?_, ?_, ?_, ?_, ?_, ?_, ?_⟩ <;> intros <;> simp only [upd] at * <;> grind
      · cases h
        refine ⟨i1, i2, i3, i4, i5, i6, ?_, i8, ?_, ?_, ?_, ?_, ?_, ?_, ?_⟩ <;> intros <;> simp only [upd] at * <;> grind
    · cases h
  | cas t =>
    simp only [Proper] at hp
    simp only [next] at h
    split at h
    · next n hpc =>
      have hb := i7 t n _ _ hpc
      have hn := i8 n hb.1
      split at h
      · next hcas =>
        cases h
        have hc : (s.nxCount n + 1) % 2 ^ 64 = s.pushes + 1 := by
          rw [← hcas.2, i5]; exact Nat.mod_eq_of_lt hp
        refine ⟨?_, rfl, ?_, ?_, ?_, hp, ?_, ?_, ?_, ?_, ?_, ?_, ?_, ?_, ?_⟩
        · exact ⟨by show s.nxTop n = _; rw [← hcas.1, i2], i1⟩
        all_goals simp only [note]
        · grind
        · exact List.nodup_cons.2 ⟨hn, i4⟩
        · exact hc
        all_goals rw [hc] at *
        all_goals intros <;> simp only [upd] at * <;> grind
      · cases h
        have hne : ∀ m, m ∈ s.abs → m ≠ n := by grind
        refine ⟨links_upd i1 hn, i2, i3, i4, i5, i6, i7, i8, i9, i10, i11, ?_, i13, i14, i15⟩
        intros
        simp only [upd] at *
        grind
    · next a c nx hpc =>
      split at h
      · next hcas =>
        cases h
        obtain hq | ⟨b, q, hq⟩ : s.abs = [] ∨ ∃ b q, s.abs = b :: q := by cases s.abs <;> simp
        · rw [hq] at i2
          have := (i11 t a c nx hpc).2
          simp at i2
          omega
        rw [hq] at i1 i2 i4
        have hba : b = a := by rw [← hcas.1, i2]; rfl
        subst hba
        have hnx := i12 t b c nx hpc hcas.2 (by rw [hq]; simp)
        obtain ⟨l1, l2⟩ := i1
        refine ⟨?_, ?_, ?_, ?_, i5, i6, ?_, ?_, ?_, ?_, ?_, ?_, ?_, ?_, ?_⟩ <;> simp only [note, hq, List.tail_cons] at *
        · exact l2
        · rw [← hnx, l1]
        · grind
        · exact (List.nodup_cons.1 i4).2
        all_goals intros <;> (try simp only [upd] at *) <;> grind
      · cases h
        refine ⟨i1, i2, i3, i4, i5, i6, ?_, i8, ?_, ?_, ?_, ?_, ?_, ?_, ?_⟩ <;> intros <;> simp only [upd] at * <;> grind
    · cases h

theorem reach_inv {s : State} (h : Reach nextP start s) : Inv s := Reach.inv Inv start_inv (fun _ _ _ hi hn => step_inv hn hi) h

/-- C49: the linked nodes are exactly the abstract stack: from the top, following the links, down to `0p`; no node is in it twice. -/
theorem C49_represents {s : State} (h : Reach nextP start s) : s.top = s.abs.headD 0 ∧ Links s.nxTop s.abs 0 ∧ s.abs.Nodup :=
  have iv := reach_inv h
  ⟨iv.top, iv.links, iv.nd⟩

/-- C49: a successful exchange of `push n` pushes `n` on the abstract stack, and the call returns; an unsuccessful one leaves it alone. -/
theorem C49_push {s s' : State} {t n : Nat} (hp : s.pc t = .push n true true) (hs : nextP s (.cas t) = some s') :
    (s'.pc t = .run ∧ s'.abs = n :: s.abs) ∨ (s'.pc t = .push n true true ∧ s'.abs = s.abs) := by
  simp only [nextP] at hs
  split at hs
  swap
  · cases hs
  simp only [next, hp] at hs
  split at hs <;> cases hs
  · exact Or.inl ⟨by simp [note], rfl⟩
  · exact Or.inr ⟨hp, rfl⟩

/-- C49: a successful exchange of `pop` takes the top of the abstract stack and returns it, in spite of nodes having been popped and pushed again
    since the link was read (ABA); an unsuccessful one leaves the stack alone. -/
theorem C49_pop {s s' : State} {t a c nx : Nat} (h : Reach nextP start s) (hp : s.pc t = .pop2 a c nx) (hs : nextP s (.cas t) = some s') :
    (s'.pc t = .run ∧ s.abs = a :: s'.abs ∧ s'.rets = s.rets ++ [(t, a)]) ∨ ((∃ x y, s'.pc t = .pop x y) ∧ s'.abs = s.abs ∧ s'.rets = s.rets) := by
  have iv := reach_inv h
  simp only [nextP] at hs
  split at hs
  swap
  · cases hs
  simp only [next, hp] at hs
  split at hs
  · next hcas =>
    cases hs
    refine Or.inl ⟨by simp [note], ?_, rfl⟩
    have h1 := iv.top
    have h2 := (iv.cle2 t a c nx hp).2
    simp only [note]
    cases hq : s.abs with
    | nil => rw [hq] at h1; simp at h1; omega
    | cons b q => rw [hq] at h1; simp at h1; simp; omega
  · cases hs
    exact Or.inr ⟨⟨_, _, upd_same _ _ _⟩, rfl, rfl⟩

/-- C49: a `pop` that returns `0p` was called on a stack that has been empty at some moment of the call. -/
theorem C49_pop_empty {s s' : State} {t : Nat} (h : Reach nextP start s) (hs : nextP s (.look t) = some s') (hr : s'.rets = s.rets ++ [(t, 0)]) :
    s.wasEmpty t = true := by
  have iv := reach_inv h
  simp only [nextP] at hs
  split at hs
  swap
  · cases hs
  simp only [next] at hs
  split at hs
  · next a c hp =>
    split at hs
    · next ha => subst ha; exact iv.emp3 t _ hp
    · cases hs
      simp at hr
  · cases hs

/-- What `wasEmpty` says: it is false when a call of `pop` starts on a non-empty stack, and afterwards it becomes true only when a step empties the stack. -/
theorem C49_wasEmpty_meaning {s s' : State} {t : Nat} {a : Act} (hs : nextP s a = some s') :
    (a = .pop t → s'.wasEmpty t = s.abs.isEmpty) ∧ (a ≠ .pop t → s'.wasEmpty t = true → s.wasEmpty t = true ∨ s'.abs = []) := by
  simp only [nextP] at hs
  split at hs
  swap
  · cases hs
  constructor
  · rintro rfl
    simp only [next] at hs
    split at hs
    · cases hs; simp
    · cases hs
  · intro ha hw
    cases a <;> simp only [next] at hs <;> repeat' split at hs
    all_goals first
      | (cases hs; left; exact hw)
      | (cases hs; left; simp only [upd] at hw; grind)
      | (cases hs; simp only [note] at hw ⊢; grind)
      | (cases hs; done)

/-- C49: no other step changes the abstract stack or the results of `pop`, so the exchanges above are the moments at which the operations take effect. -/
theorem C49_other_steps {s s' : State} {a : Act} (hs : nextP s a = some s') (ha : ∀ t, a ≠ .cas t) : s'.abs = s.abs := by
  simp only [nextP] at hs
  split at hs
  swap
  · cases hs
  cases a with
  | cas t => exact absurd rfl (ha t)
  | _ =>
    simp only [next] at hs
    repeat' split at hs
    all_goals first | (cases hs; rfl) | (cases hs; done)

/-- The ABA case: thread 1 reads the top node 5 and its link 6; thread 2 pops 5, pops 6 and pushes 5 again; the exchange of thread 1 fails. -/
def demo : List Act :=
  [.push 9 6, .word1 9, .word2 9, .cas 9, .push 9 5, .word2 9, .word1 9, .cas 9,
   .pop 1, .word1 1, .word2 1, .look 1,
   .pop 2, .word1 2, .word2 2, .look 2, .cas 2, .pop 2, .word1 2, .word2 2, .look 2, .cas 2, .push 2 5, .word1 2, .word2 2, .cas 2, .cas 1]

example : let s := (exec nextP start demo).getD start
    Reach nextP start s ∧ s.rets = [(2, 5), (2, 6)] ∧ s.abs = [5] ∧ s.pc 1 = .pop (some 5) (some 3) :=
  ⟨Reach.of_isSome demo (by decide +kernel), by decide +kernel, by decide +kernel, by decide +kernel⟩

example : let s := (exec nextP start (demo ++ [.look 1, .cas 1])).getD start
    Reach nextP start s ∧ s.rets = [(2, 5), (2, 6), (1, 5)] ∧ s.abs = [] :=
  ⟨Reach.of_isSome (demo ++ [.look 1, .cas 1]) (by decide +kernel), by decide +kernel, by decide +kernel⟩

/-- Without the count the case above would corrupt the stack: the exchange of thread 1 would compare equal although its link is stale. -/
example : let s := (exec nextP start (demo.take 26)).getD start
    s.pc 1 = .pop2 5 2 6 ∧ s.top = 5 ∧ s.abs = [5] ∧ s.nxTop 5 ≠ 6 := ⟨by decide +kernel, by decide +kernel, by decide +kernel, by decide +kernel⟩

/-- `unsafe_remove` does not look at what the links contain: whatever the stack holds, its loop visits the addresses `S`, `S + off`, `S + 2 * off`, ...
    So it never finds a node that is not at one of these addresses; with the link at the beginning of the node (`off` 0) it does not end. -/
theorem C49_unsafe_remove_violated (S off node : Nat) (hS : 0 < S) (hn : ∀ k, node ≠ S + k * off) (k : Nat) :
    unsafeRemoveStep off node (S + k * off) = .inl (S + (k + 1) * off) := by
  have := hn k
  simp only [unsafeRemoveStep]
  rw [if_neg (by omega), if_neg (by omega)]
  congr 1
  rw [Nat.succ_mul]
  omega

example : ∀ k, (1000 : Nat) ≠ 64 + k * 0 := by intro k; omega

end Verif.StackLF
