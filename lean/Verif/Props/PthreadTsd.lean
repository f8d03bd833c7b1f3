import Verif.Proof.PthreadTsd

/-!
# C105: thread-specific data
-/
namespace Verif.Props.PthreadTsd

open Verif.Model.PthreadTsd
open Verif.Spec.PthreadTsd
open Verif.Proof.PthreadTsd

/-- Two threads with one key each and one they share; thread 1 ends and is joined by thread 2. -/
def exOps : List Op :=
  [.spawn 1 false, .spawn 2 true, .create (some 5), .create none, .set 1 0 7, .set 2 0 9, .set 1 1 3,
    .get 1 0, .get 2 1, .exit 1 4 false, .join 2 1, .tick 1, .tick 1, .tick 1, .tick 1, .tick 1,
    .tick 1, .tick 1, .tick 1]

def exTr : Trace :=
  [(.tick 1, .done), (.tick 1, .nothing), (.tick 1, .nothing), (.tick 1, .nothing),
    (.tick 1, .nothing), (.tick 1, .nothing), (.tick 1, .called 0 5 7 2), (.tick 1, .nothing),
    (.join 2 1, .joined 4), (.exit 1 4 false, .nothing), (.get 2 1, .val 0), (.get 1 0, .val 7),
    (.set 1 1 3, .code 0), (.set 2 0 9, .code 0), (.set 1 0 7, .code 0), (.create none, .key 1),
    (.create (some 5), .key 0), (.spawn 2 true, .nothing), (.spawn 1 false, .nothing)]

theorem ex_run : (run 2 exOps).map Prod.snd = some exTr := by decide +kernel

theorem ex_legal : Legal exTr := by
  simp [exTr, Legal, allowed, exited, joined, joins]

theorem run_of_snd {N : Nat} {ops : List Op} {tr : Trace} (h : (run N ops).map Prod.snd = some tr) :
    ∃ s, run N ops = some (s, tr) := by
  cases hr : run N ops with
  | none => rw [hr] at h; cases h
  | some x => rw [hr] at h; cases h; exact ⟨x.1, rfl⟩

/-- For any number of keys, threads and calls, in any order: a key is made that does not exist, and
`EAGAIN` is answered only if all exist; a key is deleted and a value set exactly if the key exists;
a thread gets the value it has last set since the key was made, or null. -/
theorem C105_values {N : Nat} {ops : List Op} {s : Sys} {tr post pre : Trace} {op : Op} {r : Res}
    (h : run N ops = some (s, tr)) (hl : Legal tr) (hs : tr = post ++ (op, r) :: pre) :
    Right N pre op r := by
  obtain ⟨-, -, hg⟩ := run_good h hl
  rw [hs] at hg
  exact (allGood_split hg).right

example : ∃ s post pre, run 2 exOps = some (s, exTr) ∧ Legal exTr ∧
    exTr = post ++ (Op.get 1 0, Res.val 7) :: pre := by
  obtain ⟨s, h⟩ := run_of_snd ex_run
  exact ⟨s, exTr.take 11, exTr.drop 12, h, ex_legal, by decide⟩

/-- In any such history: joining a thread answers what this thread has ended with, and it has ended,
by `pthread_join` and by `pthread_tryjoin_np`. -/
theorem C105_join {N : Nat} {ops : List Op} {s : Sys} {tr post pre : Trace} {op : Op} {t v : Nat}
    (h : run N ops = some (s, tr)) (hl : Legal tr) (hs : tr = post ++ (op, .joined v) :: pre)
    (ho : (∃ j, op = .join j t) ∨ (∃ j, op = .tryjoin j t)) :
    exited pre t ∧ v = result pre t := by
  obtain ⟨-, -, hg⟩ := run_good h hl
  rw [hs] at hg
  exact (allGood_split hg).join t v ho rfl

example : ∃ s post pre, run 2 exOps = some (s, exTr) ∧ Legal exTr ∧
    exTr = post ++ (Op.join 2 1, Res.joined 4) :: pre := by
  obtain ⟨s, h⟩ := run_of_snd ex_run
  exact ⟨s, exTr.take 8, exTr.drop 9, h, ex_legal, by decide⟩

/-- In any such history: a destructor is called for a thread only once it was joined, with the value,
not null, that the thread had for the key, at most once for each key, and it is the destructor of a key
that exists; if no key was deleted in the meantime it is the one this key had.  Partial: with keys
deleted in the meantime see `C105_other_destructor_violated`, for who calls it
`C105_runner_violated`. -/
theorem C105_called_partial {N : Nat} {ops : List Op} {s : Sys} {tr post pre : Trace}
    {t k d v j : Nat} (h : run N ops = some (s, tr)) (hl : Legal tr)
    (hs : tr = post ++ (.tick t, .called k d v j) :: pre) :
    joined pre t ∧ v = held (atJoin pre t) t k ∧ v ≠ 0 ∧ live pre k = some (some d) ∧
    (∀ d' v', ¬ called pre t k d' v') ∧
    (noDelete pre t → live (atJoin pre t) k = some (some d)) := by
  obtain ⟨-, -, hg⟩ := run_good h hl
  rw [hs] at hg
  exact (allGood_split hg).called t k d v j rfl rfl

example : ∃ s post pre, run 2 exOps = some (s, exTr) ∧ Legal exTr ∧
    exTr = post ++ (Op.tick 1, Res.called 0 5 7 2) :: pre := by
  obtain ⟨s, h⟩ := run_of_snd ex_run
  exact ⟨s, exTr.take 6, exTr.drop 7, h, ex_legal, by decide⟩

/-- In any such history in which no key is deleted while a thread's data is: when it is done, the
destructor was called for every value, not null, that the thread had for a key with a destructor.
Partial: for a thread that is not joined see `C105_unjoined_violated`. -/
theorem C105_all_called_partial {N : Nat} {ops : List Op} {s : Sys} {tr post pre : Trace} {t : Nat}
    (h : run N ops = some (s, tr)) (hl : Legal tr) (hs : tr = post ++ (.tick t, .done) :: pre)
    (hn : noDelete pre t) {k d : Nat} (hk : live (atJoin pre t) k = some (some d))
    (hv : held (atJoin pre t) t k ≠ 0) :
    called pre t k d (held (atJoin pre t) t k) := by
  obtain ⟨-, -, hg⟩ := run_good h hl
  rw [hs] at hg
  exact ((allGood_split hg).done t rfl rfl).2 hn k d hk hv

example : ∃ s pre, run 2 exOps = some (s, exTr) ∧ Legal exTr ∧
    exTr = [] ++ (Op.tick 1, Res.done) :: pre ∧ noDelete pre 1 ∧
    live (atJoin pre 1) 0 = some (some 5) ∧ held (atJoin pre 1) 1 0 = 7 := by
  obtain ⟨s, h⟩ := run_of_snd ex_run
  exact ⟨s, exTr.drop 1, h, ex_legal, by decide, by simp [exTr, noDelete, joins, deletes],
    by decide, by decide⟩

/-- In any such history: no call uses memory outside of an object or calls a null pointer, if it is
made by, or about, a thread that `pthread_create` made, and no key is deleted while the data of a
joined thread is.  Partial: see `C105_main_violated` and `C105_null_destructor_violated`. -/
theorem C105_no_crash_partial {N : Nat} {ops : List Op} {s : Sys} {tr : Trace}
    (h : run N ops = some (s, tr)) (hl : Legal tr) {op : Op}
    (h1 : ∀ t, ((∃ k v, op = .set t k v) ∨ (∃ k, op = .get t k) ∨ (∃ j, op = .join j t) ∨
      (∃ j, op = .tryjoin j t)) → ∃ b r, (Op.spawn t b, r) ∈ tr)
    (h2 : ∀ t, op = .tick t → joined tr t → noDelete tr t) :
    run N (ops ++ [op]) ≠ none := by
  obtain ⟨H, L, -⟩ := run_good h hl
  rw [run_snoc h]
  intro hn
  have hs : step N s op = none := by
    unfold exec at hn
    cases hs : step N s op with
    | none => rfl
    | some x => rw [hs] at hn; cases hn
  rcases step_none H L hs with ⟨t, ht, hm⟩ | ⟨t, ht, hj, hd⟩
  · obtain ⟨b, r, hb⟩ := h1 t ht
    exact hm b r hb
  · exact hd (h2 t ht hj)

example : ∃ s, run 2 exOps = some (s, exTr) ∧ Legal exTr ∧
    (∃ b r, (Op.spawn 2 b, r) ∈ exTr) ∧ run 2 (exOps ++ [.get 2 0]) ≠ none := by
  obtain ⟨s, h⟩ := run_of_snd ex_run
  have hm : ∃ b r, (Op.spawn 2 b, r) ∈ exTr := ⟨true, .nothing, by decide⟩
  refine ⟨s, h, ex_legal, hm, C105_no_crash_partial h ex_legal ?_ (by simp)⟩
  intro t ht
  have : t = 2 := by
    rcases ht with ⟨k, v, h⟩ | ⟨k, h⟩ | ⟨j, h⟩ | ⟨j, h⟩ <;> cases h
    rfl
  subst this
  exact hm

/-- C105 fails: the destructor is called by the thread that joins, not by the thread whose value it
is: `pthread_getspecific` in it answers the value of the joining thread, here 9, where POSIX says that
the value of the key is null then. -/
theorem C105_runner_violated : ∃ ops s tr, run 2 ops = some (s, tr) ∧ Legal tr ∧
    ∃ post, tr = (Op.get 2 0, Res.val 9) :: (Op.tick 1, Res.called 0 5 7 2) :: post := by
  have hr : (run 2 (exOps.take 13 ++ [.get 2 0])).map Prod.snd =
      some ((Op.get 2 0, Res.val 9) :: exTr.drop 6) := by decide +kernel
  obtain ⟨s, h⟩ := run_of_snd hr
  refine ⟨_, s, _, h, ?_, exTr.drop 7, by decide⟩
  simp [exTr, Legal, allowed, exited, joined, joins]

/-- C105 fails: the destructors of a thread that is not joined are never called, whatever happens
afterwards, though it has ended with a value that has one; `pthread_detach` stops the program. -/
theorem C105_unjoined_violated : ∃ s tr, run 2 (exOps.take 10) = some (s, tr) ∧ exited tr 1 ∧
    live tr 0 = some (some 5) ∧ held tr 1 0 = 7 ∧
    ∀ ops s' tr', run 2 (exOps.take 10 ++ ops) = some (s', tr') → Legal tr' → ¬ joined tr' 1 →
      ∀ k d v, ¬ called tr' 1 k d v := by
  have hr : (run 2 (exOps.take 10)).map Prod.snd = some (exTr.drop 9) := by decide +kernel
  obtain ⟨s, h⟩ := run_of_snd hr
  refine ⟨s, _, h, ⟨4, false, .nothing, by decide⟩, by decide, by decide, ?_⟩
  intro ops s' tr' h' hl hj k d v
  exact (run_good h' hl).1.nocall 1 k d v hj

/-- C105 fails: a key deleted while the data of a joined thread is, between the test of its
destructor, under the lock, and its call, without: a null pointer is called. -/
theorem C105_null_destructor_violated :
    (run 2 (exOps.take 12 ++ [.delete 0])).isSome = true ∧
    run 2 (exOps.take 12 ++ [.delete 0] ++ [.tick 1]) = none := by
  have h : ((run 2 (exOps.take 12 ++ [.delete 0] ++ [.tick 1])).map Prod.snd) = none := by
    decide +kernel
  have h2 : ((run 2 (exOps.take 12 ++ [.delete 0])).map Prod.snd).isSome = true := by
    decide +kernel
  exact ⟨by simpa using h2, by simpa using h⟩

/-- C105 fails: a key deleted and another made at that point: the destructor of the new key is called
with the value of the old. -/
theorem C105_other_destructor_violated : ∃ s tr pre,
    run 2 (exOps.take 12 ++ [.delete 0, .create (some 6), .tick 1]) = some (s, tr) ∧ Legal tr ∧
    tr = (Op.tick 1, Res.called 0 6 7 2) :: pre ∧ live (atJoin pre 1) 0 = some (some 5) := by
  have hr : (run 2 (exOps.take 12 ++ [.delete 0, .create (some 6), .tick 1])).map Prod.snd =
      some ((Op.tick 1, Res.called 0 6 7 2) :: (.create (some 6), .key 0) :: (.delete 0, .code 0) ::
        exTr.drop 7) := by decide +kernel
  obtain ⟨s, h⟩ := run_of_snd hr
  refine ⟨s, _, _, h, ?_, rfl, by decide⟩
  simp [exTr, Legal, allowed, exited, joined, joins]

/-- C105 fails: the main thread, or any thread not made by `pthread_create`, that sets a value, or asks
for the value of a key that exists, uses memory outside of its thread object. -/
theorem C105_main_violated (N : Nat) (s : Sys) (t k v : Nat) (ht : s.thr t = none) :
    step N s (.set t k v) = none ∧
    (k < N → (s.keys k).in_use = true → step N s (.get t k) = none) := by
  constructor
  · show setspecific N s t k v = none
    unfold setspecific; rw [ht]
  · intro h1 h2
    show getspecific N s t k = none
    unfold getspecific
    rw [if_neg (by simp [h2]; omega), ht]

example : (init.thr 0 = none) ∧
    (run 1 [.create none, .get 0 0]).isSome = false := by
  have h : ((run 1 [.create none, .get 0 0]).map Prod.snd).isSome = false := by decide +kernel
  exact ⟨rfl, by simpa using h⟩

/-- C105 fails: the flag that `pthread_tryjoin_np` tests is not initialised: if the memory of the new
thread is not zero, the call blocks, where it must answer `EBUSY`. -/
theorem C105_tryjoin_blocks_violated :
    (run 1 [.spawn 1 true, .tryjoin 2 1]).map Prod.snd =
      some [(.tryjoin 2 1, .blocks), (.spawn 1 true, .nothing)] ∧
    (run 1 [.spawn 1 false, .tryjoin 2 1]).map Prod.snd =
      some [(.tryjoin 2 1, .code EBUSY), (.spawn 1 false, .nothing)] := by decide +kernel

/-- C105 fails: `pthread_tryjoin_np` of a thread that has called `pthread_exit` raises the cancellation
in the joining thread, where `pthread_join` answers the value. -/
theorem C105_tryjoin_raises_violated :
    (run 1 [.spawn 1 false, .exit 1 4 true, .tryjoin 2 1]).map Prod.snd =
      some [(.tryjoin 2 1, .raises), (.exit 1 4 true, .nothing), (.spawn 1 false, .nothing)] ∧
    (run 1 [.spawn 1 false, .exit 1 4 true, .join 2 1]).map Prod.snd =
      some [(.join 2 1, .joined 4), (.exit 1 4 true, .nothing), (.spawn 1 false, .nothing)] := by
  decide +kernel

end Verif.Props.PthreadTsd
