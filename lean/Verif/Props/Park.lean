import Verif.Model.Park
import Mathlib.Tactic.SplitIfs
import Mathlib.Data.List.Basic
/-!
C50: park and unpark. `Reach nextP start s`: `s` is reached by any interleaving of the steps of the thread, the processors and the unparking threads, with
matched parks and unparks (`Proper`).
-/
namespace Verif.Park
open Verif

structure Inv (s : State) : Prop where
  noAbort : s.aborted = false
  one : (s.queued + s.running + s.left + s.leaving + s.waking = 1 ∧ s.ticket ≠ -1) ∨
        (s.queued + s.running + s.left + s.leaving + s.waking = 0 ∧ s.ticket = -1)
  t1 : s.ticket = 0 ∨ s.ticket = 1 ∨ s.ticket = -1
  pre : s.preempted = true → s.running + s.waking + s.leaving = 0 ∧ s.ticket ≠ -1
  /-- in `park` -/
  inp : (s.leaving = 1 ∨ (s.left = 1 ∧ s.preempted = false)) → s.parks = s.returned + 1 ∧ (s.unparks : Int) = s.returned + s.ticket
  outp : (s.running = 1 ∨ s.preempted = true) → s.parks = s.returned ∧ (s.unparks : Int) = s.returned + s.ticket
  blk : s.ticket = -1 → s.parks = s.returned + 1 ∧ s.unparks = s.returned ∧ s.tstate = .blocked
  wak : (s.waking = 1 ∨ (s.queued = 1 ∧ s.preempted = false)) → (s.parks = s.returned + 1 ∧ s.unparks = s.returned + 1 ∧ s.ticket = 0) ∨
    (s.parks = s.returned ∧ (s.unparks : Int) = s.returned + s.ticket ∧ s.waking = 0)
  lvs : s.leaving = 1 → s.tstate = .blocked
  run : s.running = 1 → s.tstate = .active

theorem start_inv : Inv start := by
  constructor <;> simp [start]

set_option maxHeartbeats 4000000 in
theorem step_inv {s s' : State} {a : Act} (h : nextP s a = some s') (iv : Inv s) : Inv s' := by
  obtain ⟨i1, i2, i3, i4, i5, i6, i7, i8, i9, i10⟩ := iv
  simp only [nextP] at h
  split at h
  swap
  · cases h
  next hp =>
  cases a with
  | unpark =>
    simp only [Proper] at hp
    simp only [next, i1, Bool.false_eq_true, if_false] at h
    split at h
    · cases h; constructor <;> grind
    split at h
    · cases h; constructor <;> grind
    · exfalso
      grind
  | _ =>
    simp only [next, i1, Bool.false_eq_true, if_false] at h
    split at h
    swap
    · cases h
    first
      | (cases h; constructor <;> grind)
      | (split at h
         · cases h; constructor <;> grind
         · first
           | (cases h; constructor <;> grind)
           | (split at h
              · cases h; constructor <;> grind
              · exfalso; grind))

theorem reach_inv {s : State} (h : Reach nextP start s) : Inv s := Reach.inv Inv start_inv (fun _ _ _ hi hn => step_inv hn hi) h

/-- C50: the runtime never aborts because of a park/unpark mismatch. -/
theorem C50_no_abort {s : State} (h : Reach nextP start s) : s.aborted = false := (reach_inv h).noAbort

/-- C50: the thread is never scheduled twice at once: it is in at most one place (in a ready queue, executed by a processor, being switched away from,
    or about to be put in a ready queue), and in none exactly when it is blocked in a `park` for which there has been no `unpark`. -/
theorem C50_one_place {s : State} (h : Reach nextP start s) :
    s.queued + s.running + s.left + s.leaving + s.waking ≤ 1 ∧
    (s.queued + s.running + s.left + s.leaving + s.waking = 0 → s.parks = s.returned + 1 ∧ s.unparks = s.returned) := by
  have iv := reach_inv h
  have h1 := iv.one
  have h2 := iv.blk
  constructor <;> grind

/-- C50: the thread is never lost: if there has been an `unpark` for the park it is in, or it is in none, it executes or some processor or thread can
    take a step that brings it nearer to being executed: `schedule` leads to a ready queue, `run` to execution, and after leaving the processor it is
    executed again. -/
theorem C50_not_lost {s : State} (h : Reach nextP start s) (hu : s.returned = s.parks ∨ s.returned < s.unparks) :
    0 < s.running ∨ 0 < s.queued ∨ 0 < s.waking ∨ (0 < s.left ∧ s.preempted = true) ∨
    ((0 < s.left ∨ 0 < s.leaving) ∧ s.ticket = 1) := by
  have iv := reach_inv h
  have h1 := iv.one
  have h2 := iv.blk
  have h3 := iv.inp
  have h4 := iv.t1
  grind

/-- C50: a processor that finds that the thread has been unparked before it had blocked executes it again. -/
theorem C50_racy_case {s : State} (h : Reach nextP start s) (hl : 0 < s.leaving) (ht : s.ticket = 1) :
    ∃ s', nextP s .block = some s' ∧ s'.running = 1 ∧ s'.returned = s'.parks := by
  have iv := reach_inv h
  have h1 := iv.one
  refine ⟨{ s with leaving := s.leaving - 1, ticket := s.ticket - 1, tstate := .active, running := s.running + 1, returned := s.parks }, ?_, ?_, rfl⟩
  · simp [nextP, Proper, next, iv.noAbort, hl, ht]
  · show s.running + 1 = 1
    grind

/-- C50: a thread that is executing has been unparked once for each park it has returned from, plus possibly once in advance: `park` does not return
    without an `unpark`. -/
theorem C50_park_needs_unpark {s : State} (h : Reach nextP start s) (hr : s.running = 1) : s.unparks = s.parks ∨ s.unparks = s.parks + 1 := by
  have iv := reach_inv h
  have h1 := iv.outp (Or.inl hr)
  have h2 := iv.t1
  have h3 := iv.one
  grind

/-- The unpark comes before, while, and after the thread blocks; it is preempted in between. -/
def demo : List Act :=
  [.run, .unpark, .park, .check, .block, .preempt, .check, .run, .park, .check, .unpark, .block, .park, .check, .block, .unpark, .schedule, .run]

example : let s := (exec nextP start demo).getD start
    Reach nextP start s ∧ s.parks = 3 ∧ s.returned = 3 ∧ s.unparks = 3 ∧ s.running = 1 :=
  ⟨Reach.of_isSome demo (by decide +kernel), by decide +kernel, by decide +kernel, by decide +kernel, by decide +kernel⟩

/-- Without the rule that the unpark for a park comes after the return of the one before, the runtime aborts, although the calls could be paired. -/
theorem C50_two_ahead_abort : ∃ s, Reach next start s ∧ s.aborted = true :=
  ⟨_, Reach.of_isSome [.run, .unpark, .unpark] (by decide +kernel), by decide +kernel⟩

end Verif.Park
