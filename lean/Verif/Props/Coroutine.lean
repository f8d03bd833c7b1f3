import Verif.Proof.Coroutine
import Verif.Proof.CoroutineEx
/-
C103: control among coroutines goes where the history says.
-/
namespace Verif.Props.Coroutine
open Verif.Model.Coroutine Verif.Spec.Coroutine Verif.Proof.Coroutine

/-- C103: for every sequence of orderly operations, the runtime system stops with an error exactly
when the specification does.  Otherwise control is where the specification says: resume goes to
the coroutine resumed, suspend to its latest resumer, the end of a main to its first resumer, the
end of an unwinding to who asked for it.  The cancellation exceptions are those expected, no
clean-up was cut short, exactly one coroutine is active and it has not ended.  Partial: the
operations are `Orderly`. -/
theorem C103_control_partial (ops : List Op) (ho : AllOrderly sinit ops) :
    (run ops = none ↔ srun ops = none) ∧
    ∀ s t, run ops = some s → srun ops = some t →
      s.curr = t.active ∧ s.raised = t.raised ∧ s.cut = [] ∧
      (∀ c, (s.cor c).state = .Active ↔ c = t.active) ∧ ended t.hist t.active = false := by
  have h := run_rel ops inv_init ho
  constructor
  · show runFrom init ops = none ↔ srunFrom sinit ops = none
    cases h1 : runFrom init ops <;> cases h2 : srunFrom sinit ops <;> rw [h1, h2] at h
    · simp
    · exact h.elim
    · exact h.elim
    · simp
  · intro s t h1 h2
    have H : Rel (run ops) (srun ops) := h
    rw [h1, h2] at H
    have H : Inv t s := H
    refine ⟨H.curr, H.raised, H.cut, ?_, ((H.cors t.active).active rfl).2.2.1⟩
    intro c
    constructor
    · intro hc
      by_cases hca : c = t.active
      · exact hca
      · exfalso
        cases hb : begun t.hist c with
        | false => rw [((H.cors c).unbegun hb).1] at hc; simp at hc
        | true =>
          cases he : ended t.hist c with
          | true => rcases ((H.cors c).done he).2.1 with z | ⟨z, _⟩ <;> (rw [z] at hc; simp at hc)
          | false => rw [((H.cors c).blocked hca hb he).1] at hc; simp at hc
    · intro hc; exact ((H.cors c).active hc).1

/-- A producer (1) and a consumer (2), each resuming the other; the consumer ends in the producer's
first resumer; the producer is destroyed and ends in who destroyed it; a third is cancelled. -/
def demo : List Op :=
  [.prime 2, .resume 1, .resume 2, .resume 1, .resume 2, .ret, .delete 1, .ret, .resume 3, .cancel,
   .ret, .delete 3]

theorem orderly_of_check {t : SSt} {ops : List Op} :
    checkOrderly t ops = true → AllOrderly t ops := checkOrderly_sound

example : AllOrderly sinit demo ∧ (srun demo).map (·.active) = some 0 ∧
    (srun demo).map (·.raised) = some [(0, 3)] ∧ (srun (demo.take 5)).map (·.active) = some 2 :=
  ⟨orderly_of_check (by decide +kernel), by decide +kernel, by decide +kernel, by decide +kernel⟩

/-- C103: a step of the producer and consumer that is an error: the consumer has ended. -/
example : AllOrderly sinit (demo.take 6 ++ [.resume 2]) ∧ srun (demo.take 6 ++ [.resume 2]) = none :=
  ⟨orderly_of_check (by decide +kernel), by
    have : (srun (demo.take 6 ++ [.resume 2])).isNone = true := by decide +kernel
    simpa using this⟩

/-- C103: for every sequence of operations whatever, the exceptions sent to a coroutine that is not
destroyed are raised in it by its polls in the order they were sent, each once: those raised,
followed by those waiting, are those sent. -/
theorem C103_exceptions (ops : List Op) (s : Sys) (h : run ops = some s) (c : Nat)
    (hd : Op.delete c ∉ ops) :
    raisedIn s c ++ (s.cor c).ehm_buffer = sentTo ops c := by
  have := runFrom_ex c hd h
  simpa [raisedIn, init] using (by
    have e : (init.cor c).ehm_buffer = [] := by
      by_cases hc : c = 0 <;> simp [init, newCor, hc]
    rw [e] at this
    simpa [raisedIn, init] using this)

example : (run [.resumeAt 1 7, .resumeAt 1 8, .resume 1, .poll, .suspend, .resumeAt 1 9]).map
    (fun s => (raisedIn s 1, (s.cor 1).ehm_buffer)) = some ([7], [8, 9]) := by decide +kernel

/-- C103: after any sequence of operations, a poll raises in the active coroutine the exception that
has waited longest for it, if there is one, and a checked poll does so exactly if the coroutine has
enabled that. -/
theorem C103_polls (ops : List Op) (s : Sys) (h : Hist) (ht : traceFrom init [] ops = some (s, h)) :
    (∀ s', step s .poll = some s' →
      s'.nonlocal = s.nonlocal ++ ((s.cor s.curr).ehm_buffer.head?.map fun x => (s.curr, x)).toList) ∧
    (∀ s', step s .checkedPoll = some s' →
      s'.nonlocal = if enabledIn h s.curr
        then s.nonlocal ++ ((s.cor s.curr).ehm_buffer.head?.map fun x => (s.curr, x)).toList
        else s.nonlocal) := by
  have hp : (poll s).nonlocal =
      s.nonlocal ++ ((s.cor s.curr).ehm_buffer.head?.map fun x => (s.curr, x)).toList := by
    unfold poll
    cases (s.cor s.curr).ehm_buffer <;> simp
  refine ⟨fun s' hs => by cases hs; exact hp, fun s' hs => ?_⟩
  cases hs
  have he : (s.cor s.curr).ehm_enabled = enabledIn h s.curr := by
    refine trace_enabled s.curr ?_ ht
    by_cases hc : s.curr = 0 <;> simp [init, newCor, hc, enabledIn]
  unfold checkedPoll
  rw [he]
  split
  · exact hp
  · rfl

example : (traceFrom init [] [.resumeAt 1 7, .resume 1, .checkedPoll, .enable true]).map
    (fun p => (enabledIn p.2 1, enabledIn p.2 0, p.1.nonlocal, (p.1.cor 1).ehm_buffer)) =
    some (true, false, [], [7]) := by decide +kernel

/-- C103 fails: the first resume of a coroutine through a `coroutine$ *` does not prepare its stack,
and the program stops. -/
theorem C103_resume_pointer_violated :
    (srun [.resumePtr 1]).map (·.active) = some 1 ∧ (run [.resumePtr 1]).isNone = true :=
  ⟨by decide +kernel, by decide +kernel⟩

/-- 1 resumes 2, which resumes 3, which resumes 1; they suspend back to 2; 2 is cancelled. -/
def cycle : List Op :=
  [.resume 1, .resume 2, .resume 3, .resume 1, .suspend, .suspend, .cancel, .ret]

/-- C103 fails: if the latest resumer of a cancelled coroutine is not waiting in a resume, no exception
is raised in it, and a later resume it does, of another coroutine, stops the program. -/
theorem C103_cancelled_unnoticed_violated :
    (srun cycle).map (fun t => (t.active, t.raised)) = some (1, [(1, 2)]) ∧
    (run cycle).map (fun s => (s.curr, s.raised)) = some (1, []) ∧
    (srun (cycle ++ [.resume 3, .suspend])).map (·.active) = some 1 ∧
    (run (cycle ++ [.resume 3, .suspend])).isNone = true :=
  ⟨by decide +kernel, by decide +kernel, by decide +kernel, by decide +kernel⟩

/-- 1 resumes 2, which resumes 3; back in 1, which resumes 3, which ends in its first resumer, 2; 2 is
cancelled. -/
def crossed : List Op :=
  [.resume 1, .resume 2, .resume 3, .suspend, .suspend, .resume 3, .ret, .cancel, .ret]

/-- C103 fails: if the latest resumer of a cancelled coroutine is waiting in a resume of another
coroutine, the program stops. -/
theorem C103_cancelled_elsewhere_violated :
    (srun crossed).map (fun t => (t.active, t.raised)) = some (1, [(1, 2)]) ∧
    (run crossed).isNone = true :=
  ⟨by decide +kernel, by decide +kernel⟩

/-- C103 fails: a destructor of a local of a destroyed coroutine that resumes another coroutine is cut
short when that comes back: unwinding starts again in the middle of it. -/
theorem C103_cleanup_cut_violated :
    (run [.resume 1, .suspend, .delete 1, .resume 2, .suspend]).map (fun s => (s.curr, s.cut)) =
      some (1, [1]) := by decide +kernel

/-- C103 fails: if a destructor of a local of a cancelled coroutine resumes another coroutine, the
cancellation exception is never raised. -/
theorem C103_cancelled_cut_violated :
    (srun [.resume 1, .cancel, .resume 2, .suspend, .ret]).map (fun t => (t.active, t.raised)) =
      some (0, [(0, 1)]) ∧
    (run [.resume 1, .cancel, .resume 2, .suspend, .ret]).map (fun s => (s.curr, s.raised)) =
      some (0, []) := ⟨by decide +kernel, by decide +kernel⟩

end Verif.Props.Coroutine
