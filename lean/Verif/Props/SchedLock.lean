import Verif.Proof.SchedLockR
/-!
# C83: the reader-writer lock of the scheduler

Processors use the ready queues as readers while others are added and removed by writers. For any number of kernel threads that register,
read, write and unregister in any order and under any schedule: while a thread writes no other thread reads or writes; the identifiers of
the registered threads are distinct and below the maximum; and when no thread holds the lock, the threads in the middle of a call cannot all
be stuck. Two things a user would expect do not hold: a writer may access the storage of a kernel thread that has ended, and
registration may abort the program although fewer threads than the maximum are registered.
-/
namespace Verif.SchedLock
open Verif

/-- The thread is between `ready_schedule_lock` and `ready_schedule_unlock`. -/
def Reads (s : State) (t : Nat) : Prop := ∃ c, s.pc t = .reading c

/-- The thread is between `ready_mutate_lock` and `ready_mutate_unlock`. -/
def Writes (s : State) (t : Nat) : Prop := ∃ c n, s.pc t = .writing c n

/-- The thread is in the middle of a call. -/
def InCall (s : State) (t : Nat) : Prop :=
  s.pc t ≠ .out ∧ s.pc t ≠ .gone ∧ (∀ c, s.pc t ≠ .idle c) ∧ ¬ Reads s t ∧ ¬ Writes s t

/-- The thread is registered, with this identifier. -/
def Registered (s : State) (t c : Nat) : Prop := reg (s.pc t) = some c

/-- C83, exclusion: while a thread writes, no other thread writes and no thread reads. -/
theorem C83_exclusion (max : Nat) (s : State) (h : Reach (next max) start s) (w : Nat) (hw : Writes s w) :
    (∀ t, ¬ Reads s t) ∧ ∀ t, Writes s t → t = w := by
  obtain ⟨c, n, hw⟩ := hw
  have I := inv_reach h
  refine ⟨fun t ⟨d, ht⟩ => ?_, fun t ⟨d, m, ht⟩ => I.b.sec1 t w (by rw [ht]; rfl) (by rw [hw]; rfl)⟩
  have h1 := I.c.rsz t d w n (by rw [ht]; rfl) (by rw [hw]; rfl)
  have h2 := (I.c.rhas t d w (by rw [ht]; rfl) (by rw [hw]; simpa using h1)).2
  rw [ht] at h2
  cases h2

/-- C83, identifiers: registered threads have distinct identifiers below the maximum, so that at most that many are registered, and no
call accesses a cell outside of the array. -/
theorem C83_ids (max : Nat) (s : State) (h : Reach (next max) start s) (ha : s.aborted = false) :
    (∀ t c, Registered s t c → c < max) ∧ (∀ t u c, Registered s t c → Registered s u c → t = u) ∧ s.outside = false := by
  have I := inv_reach h
  refine ⟨fun t c ht => ?_, fun t u c ht hu => ?_, I.o⟩
  · have := (I.a.cell t c ht).2
    have := I.a.ra
    have := I.a.am ha
    omega
  · rw [← (I.a.cell t c ht).1, (I.a.cell u c hu).1]

/-- C83, progress: if no thread reads or writes, and some thread is in the middle of a call, then some thread can go on. In
particular a thread that waits for the lock, or for its registration, is never left waiting with nobody to let it pass. -/
theorem C83_progress (max : Nat) (s : State) (h : Reach (next max) start s) (ha : s.aborted = false)
    (hr : ∀ t, ¬ Reads s t) (hw : ∀ t, ¬ Writes s t) (t : Nat) (ht : InCall s t) : ∃ u s', next max s (.go u) = some s' := by
  have I := inv_reach h
  have hr' : ∀ t, isReading (s.pc t) = false := fun t => by
    cases hp : s.pc t <;> first | rfl | exact absurd ⟨_, hp⟩ (hr t)
  have hw' : ∀ t c n, s.pc t ≠ .writing c n := fun t c n hp => hw t ⟨c, n, hp⟩
  have nx : ∀ u, (step max s (.go u)).isSome → ∃ u s', next max s (.go u) = some s' := fun u hu =>
    ⟨u, _, by unfold next; rw [ha]; exact Option.eq_some_of_isSome hu⟩
  have sec : s.writeLock = true → ∃ u s', next max s (.go u) = some s' := fun hl => by
    obtain ⟨w, hs⟩ := I.b.secE hl
    exact nx w (sec_go I hr' hw' hs)
  obtain ⟨h1, h2, h3, h4, h5⟩ := ht
  cases hp : s.pc t with
  | out => exact absurd hp h1
  | gone => exact absurd hp h2
  | idle c => exact absurd hp (h3 c)
  | reading c => exact absurd ⟨c, hp⟩ h4
  | writing c n => exact absurd ⟨c, n, hp⟩ h5
  | publish n =>
    by_cases e : s.ready = n
    · exact nx t (by simp [step, hp, e])
    · have := I.a.slots t n (by rw [hp]; rfl)
      obtain ⟨u, hu⟩ := I.a.slotE ha s.ready (Nat.le_refl _) (by omega)
      refine nx u ?_
      cases hq : s.pc u <;> rw [hq] at hu <;> simp at hu <;> simp [step, hq, hu]
  | rdSpin c =>
    by_cases e : s.writeLock = true
    · exact sec e
    · exact nx t (by simp [step, hp, e])
  | wAcq c =>
    by_cases e : s.writeLock = true
    · exact sec e
    · exact nx t (by simp [step, hp, e])
  | rdAcq c =>
    by_cases e : s.lock t = true
    · exact sec (I.c.lkW t c (by rw [hp]; rfl) e (by rw [hp]; rfl))
    · exact nx t (by simp [step, hp, e])
  | wSize c => exact nx t (sec_go I hr' hw' (by rw [hp]; rfl))
  | wLoop c i n => exact nx t (sec_go I hr' hw' (by rw [hp]; rfl))
  | wLock c i n p => exact nx t (sec_go I hr' hw' (by rw [hp]; rfl))
  | rel c i n => exact nx t (sec_go I hr' hw' (by rw [hp]; rfl))
  | relStore c i n p => exact nx t (sec_go I hr' hw' (by rw [hp]; rfl))
  | relW c => exact nx t (sec_go I hr' hw' (by rw [hp]; rfl))
  | scan i n => exact nx t (by simp only [step, hp]; split <;> rfl)
  | cas i n => exact nx t (by simp only [step, hp]; split <;> rfl)
  | chk => exact nx t (by simp only [step, hp]; split <;> rfl)
  | faa => exact nx t (by simp only [step, hp]; split <;> rfl)
  | fill n => exact nx t (by simp only [step, hp]; rfl)

/-- C83: readers do not wait for readers. If no writer is inside of its call or holds the lock, a thread that asks to read has the lock
after two steps of its own. -/
theorem C83_readers (max : Nat) (s : State) (h : Reach (next max) start s) (ha : s.aborted = false)
    (hw : ∀ t, inSec (s.pc t) = false) (t c : Nat) (ht : s.pc t = .idle c) :
    ∃ s', exec (next max) s [.readLock t, .go t, .go t] = some s' ∧ s'.pc t = .reading c := by
  have I := inv_reach h
  have hl : s.writeLock = false := by
    by_contra e
    obtain ⟨w, hs⟩ := I.b.secE (by simpa using e)
    rw [hw w] at hs
    cases hs
  have hk : s.lock t = false := by
    by_contra e
    have := I.c.lkW t c (by rw [ht]; rfl) (by simpa using e) (by rw [ht]; rfl)
    rw [hl] at this
    cases this
  refine ⟨_, by simp [exec, next, step, ha, ht, hl, hk, upd]; rfl, by simp [upd]⟩

/-- The violation of what a user expects of a processor that is deleted: a writer has read the address of the local lock of a thread, the
thread unregisters and ends, and the writer accesses the lock (cluster.cfa:163-164, 134-142, private.hfa:294-297). -/
theorem C83_dangling_violated : ∃ s, Reach (next 1024) start s ∧ s.dangling = true :=
  ⟨(exec (next 1024) start ([.register 1, .go 1, .go 1, .go 1, .go 1, .go 1, .register 2, .go 2, .go 2, .go 2, .go 2, .go 2, .go 2] ++
      [.writeLock 1, .go 1, .go 1, .go 1, .go 1, .go 1, .unregister 2, .go 1])).getD start,
    Reach.of_isSome _ (by decide +kernel), by decide +kernel⟩

/-- Thread 3 finds both cells taken, then thread 2 unregisters. -/
def late : List Act :=
  [.register 1, .go 1, .go 1, .go 1, .go 1, .go 1, .register 2, .go 2, .go 2, .go 2, .go 2, .go 2, .go 2,
   .register 3, .go 3, .go 3, .unregister 2, .go 3, .go 3]

/-- The violation of the limit: with a maximum of 2 a registration aborts the program although only one other thread is registered; a cell
became free after the search had passed it (cluster.cfa:96-114). -/
theorem C83_limit_violated : ∃ s, Reach (next 2) start s ∧ s.aborted = true ∧ Registered s 1 0 ∧
    ∀ t, t ≠ 1 → ∀ c, ¬ Registered s t c := by
  refine ⟨(exec (next 2) start late).getD start, Reach.of_isSome _ (by decide +kernel), by decide +kernel, by unfold Registered; decide +kernel, ?_⟩
  intro t ht c
  have key : reg (((exec (next 2) start late).getD start).pc t) = none := by
    by_cases h2 : t = 2
    · subst h2; decide +kernel
    · by_cases h3 : t = 3
      · subst h3; decide +kernel
      · have ho : ∀ a ∈ late, a.thread ≠ t := by
          have : ∀ a ∈ late, a.thread = 1 ∨ a.thread = 2 ∨ a.thread = 3 := by decide
          intro a ha
          rcases this a ha with e | e | e <;> rw [e] <;> omega
        rcases exec_other (max := 2) late start ho with e | e
        · rw [e]; rfl
        · exact absurd e (Option.isSome_iff_ne_none.mp (by decide +kernel))
  unfold Registered
  rw [key]
  simp

/-! Non-vacuity: two readers at once and a writer that waits for them; then the writer writes while both wait. -/

/-- Three registered threads. -/
def registered : List Act :=
  [.register 1, .go 1, .go 1, .go 1, .go 1, .go 1, .register 2, .go 2, .go 2, .go 2, .go 2, .go 2, .go 2,
   .register 3, .go 3, .go 3, .go 3, .go 3, .go 3, .go 3, .go 3]

/-- Two read and the third asks to write. -/
def readers : List Act :=
  registered ++ [.readLock 1, .go 1, .go 1, .readLock 2, .go 2, .go 2, .writeLock 3, .go 3, .go 3, .go 3]

example : ∃ s, Reach (next 4) start s ∧ s.pc 1 = .reading 0 ∧ s.pc 2 = .reading 1 ∧ s.pc 3 = .wLock 2 0 3 1 ∧ next 4 s (.go 3) = none :=
  ⟨(exec (next 4) start readers).getD start, Reach.of_isSome _ (by decide +kernel), by decide +kernel, by decide +kernel,
    by decide +kernel, Option.isNone_iff_eq_none.mp (by decide +kernel)⟩

example : ∃ s, Reach (next 4) start s ∧ s.pc 3 = .writing 2 3 ∧ s.pc 1 = .rdSpin 0 ∧ s.pc 2 = .rdAcq 1 ∧ s.lock 2 = true ∧ s.aborted = false :=
  ⟨(exec (next 4) start (registered ++ [.readLock 2, .go 2, .writeLock 3] ++ List.replicate 9 (.go 3) ++ [.readLock 1])).getD start,
    Reach.of_isSome _ (by decide +kernel), by decide +kernel, by decide +kernel, by decide +kernel, by decide +kernel, by decide +kernel⟩

/-- A state to which `C83_progress` applies: a thread waits for the publication of a cell before its own. -/
example : ∃ s, Reach (next 4) start s ∧ s.aborted = false ∧ s.pc 2 = .publish 1 ∧ next 4 s (.go 2) = none ∧ s.pc 1 = .fill 0 :=
  ⟨(exec (next 4) start [.register 1, .go 1, .go 1, .go 1, .register 2, .go 2, .go 2, .go 2, .go 2]).getD start,
    Reach.of_isSome _ (by decide +kernel), by decide +kernel, by decide +kernel, Option.isNone_iff_eq_none.mp (by decide +kernel),
    by decide +kernel⟩

end Verif.SchedLock
