import Verif.Proof.Once
/-!
C47: `call_once`. `Reach next start s`: `s` is reached from a new flag by any interleaving of the steps of any number of threads calling
`call_once`. `s.entered` and `s.completed` count the executions of the function, `s.rets` lists what the calls of `call_once` have returned.
-/
namespace Verif.Once
open Verif

/-- C47: the function is never executed a second time. -/
theorem C47_at_most_once {s : State} (h : Reach next start s) : s.entered ≤ 1 ∧ s.completed ≤ s.entered := by
  obtain ⟨w, l, iv⟩ := reach_inv h
  have h1 := iv.st
  have h2 := iv.ent
  have h3 := iv.comle
  have h4 := iv.com0
  omega

/-- C47: no call returns before the execution of the function has completed. -/
theorem C47_returns_after_completion {s : State} (h : Reach next start s) (hr : s.rets ≠ []) : s.entered = 1 ∧ s.completed = 1 := by
  obtain ⟨w, l, iv⟩ := reach_inv h
  have h1 := iv.rets hr
  have h2 := iv.st
  have h3 := iv.ent
  have h4 := iv.com0
  omega

/-- The thread executes the function, or what `call_once` does after it. -/
def executing (s : State) (t : Nat) : Prop :=
  s.pc t = .func ∨ s.pc t = .store ∨ s.pc t = .poison ∨ (∃ sl, s.pc t = .waking sl) ∨ ∃ u nx, s.pc t = .waking2 u nx

/-- C47: no caller is left asleep: when a thread is in `park` and no thread executes the function or its epilogue any more, it has been woken. -/
theorem C47_all_woken {s : State} (h : Reach next start s) (hn : ∀ t, ¬ executing s t) (t : Nat) (ht : s.pc t = .park) : s.token t = true := by
  obtain ⟨w, l, iv⟩ := reach_inv h
  have hw : isW (s.pc w) = false := by
    have := hn w
    simp only [executing, not_or, not_exists] at this
    cases hq : s.pc w <;> simp_all [isW]
  have hst := iv.push t (by rw [ht]; rfl)
  have hl := (iv.headl hst hw).2
  cases hk : s.token t with
  | true => rfl
  | false =>
    have := (iv.mem t).2 ⟨by rw [ht]; rfl, hk⟩
    simp [hl] at this

/-- C47: a thread that called can always take a step, unless it waits for a thread that executes the function or its epilogue; and the waking
    loop only waits for a thread that is about to take a step. So there is no deadlock. -/
theorem C47_progress {s : State} (h : Reach next start s) (t : Nat) (ht : s.pc t ≠ .run) :
    (next s (.step t false)).isSome = true ∨ (s.pc t = .park ∧ ∃ u, executing s u) ∨
    ∃ u, (∃ e, s.pc u = .push3 e) ∧ s.pc t = .waking (.at u) ∧ (next s (.step u false)).isSome = true := by
  obtain ⟨w, l, iv⟩ := reach_inv h
  cases hq : s.pc t with
  | run => exact absurd hq ht
  | cas => left; simp only [next, hq]; split <;> rfl
  | func => left; simp [next, hq]
  | store => left; simp [next, hq]
  | poison => left; simp [next, hq]
  | waking sl =>
    cases sl with
    | null => left; simp [next, hq]
    | one => have := iv.wk t _ hq; cases l <;> simp [Chain] at this
    | «at» u =>
      by_cases hu : s.nxt u = .one
      · have hch := iv.wk t _ hq
        have hm : u ∈ l := by cases l <;> simp [Chain] at hch ⊢; exact Or.inl hch.1
        have h1 := (iv.mem u).1 hm
        have h2 := iv.nxp u
        have h3 : ∃ e, s.pc u = .push3 e := by
          cases hp : s.pc u <;> simp_all [inList]
        obtain ⟨e, he⟩ := h3
        exact Or.inr (Or.inr ⟨u, ⟨e, he⟩, rfl, by simp [next, he]⟩)
      · left; simp [next, hq, hu]
  | waking2 u nx => left; simp [next, hq]
  | push0 => left; simp [next, hq]
  | push1 => left; simp [next, hq]
  | push2 e => left; simp only [next, hq]; split <;> [rfl; (split <;> rfl)]
  | push3 e => left; simp [next, hq]
  | park =>
    by_cases hk : s.token t = true
    · left; simp [next, hq, hk]
    · right; left
      refine ⟨rfl, ?_⟩
      by_contra hn
      exact hk (C47_all_woken h (fun u hu => hn ⟨u, hu⟩) t hq)

/-- Three callers: 1 executes the function, 2 waits for it and is woken, 3 comes later. -/
def demo : List Act :=
  [.call 1, .call 2, .step 1 false, .step 2 false, .step 2 false, .step 2 false, .step 2 true, .step 2 false, .step 1 false, .step 1 false, .step 1 false,
   .step 2 false, .step 1 false, .step 1 false, .step 1 false, .step 2 false,
   .call 3, .step 3 false, .step 3 false, .step 3 false, .step 3 false]

example : let s := (exec next start demo).getD start
    Reach next start s ∧ s.rets = [(1, true), (2, false), (3, false)] ∧ s.entered = 1 :=
  ⟨Reach.of_exec demo rfl, by decide +kernel, by decide +kernel⟩

example : let s := (exec next start (demo.take 13)).getD start
    Reach next start s ∧ s.pc 2 = .park ∧ s.token 2 = false ∧ s.rets = [] :=
  ⟨Reach.of_exec (demo.take 13) rfl, by decide +kernel, by decide +kernel, by decide +kernel⟩

/-- The flag never becomes READY (line 54 stores IN_PROGRESS), so the check of once.hfa:60 fails in every execution: in a debug build no call that
    runs the function returns. -/
theorem C47_debug_check_violated {s : State} (h : Reach next start s) : s.state ≠ 2 := by
  obtain ⟨w, l, iv⟩ := reach_inv h
  have := iv.st
  omega

/-- A push that finds the list poisoned leaves the link of the thread set to `1p`, so the next `push` of that thread, to any list, fails the check
    of lockfree.hfa:149. -/
theorem C47_link_left_violated : ∃ s : State, Reach next start s ∧ s.pc 3 = .run ∧ s.nxt 3 = .one :=
  ⟨(exec next start demo).getD start, Reach.of_exec demo rfl, by decide +kernel, by decide +kernel⟩

end Verif.Once
