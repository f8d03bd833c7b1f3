import Verif.Proof.OldLocks

/-!
# C114: the mutex, recursive mutex and condition lock of mutex.cfa
-/

namespace Verif.OldLocks
open Verif

/-! ## The mutex -/

/-- C114, exclusion: in every schedule of `lock`, `try_lock`, `unlock`, `wait` and the notifications, at
most one thread holds the mutex. -/
theorem C114_exclusion (as : List Act) (t u : Nat) (ht : (run init as).pc t = .inside)
    (hu : (run init as).pc u = .inside) : t = u := (inv_run as).ex t u ht hu

/-- Thread 1 holds the lock, 2 and 3 sleep in `lock`, 4 waits for the condition, 5 failed. -/
def busy : List Act := [.lock 4, .lock 1, .wait 4, .lock 2, .lock 3, .tryLock 5]

example : (List.range 6).map (run init busy).pc = [.out, .inside, .parked, .parked, .waiting true, .out] ∧
    (run init busy).asked = [4, 1, 2, 3] ∧ (run init busy).got = [4, 1] := by decide +kernel

/-- C114, order: the threads get the mutex in the order in which they asked for it, and those that asked
and have not got it are the ones that sleep. -/
theorem C114_fifo (as : List Act) : ∃ q, (run init as).asked = (run init as).got ++ q ∧ q.Nodup ∧
    ∀ t, t ∈ q ↔ (run init as).pc t = .parked :=
  ⟨_, (inv_run as).lo, (inv_run as).nb, (inv_run as).hb⟩

/-- C114, a free mutex: `lock` returns at once, and `try_lock` succeeds, if and only if nobody holds the
mutex; a `try_lock` that fails changes nothing. -/
theorem C114_free (as : List Act) (t : Nat) :
    ((lock (run init as) t).pc t = .inside ↔ ∀ u, (run init as).pc u ≠ .inside) ∧
    ((tryLock (run init as) t).2 = true ↔ ∀ u, (run init as).pc u ≠ .inside) ∧
    ((tryLock (run init as) t).2 = true → (tryLock (run init as) t).1.pc t = .inside) ∧
    ((tryLock (run init as) t).2 = false → (tryLock (run init as) t).1 = run init as) := by
  have v := inv_run as
  generalize run init as = s at v ⊢
  have hl : (∀ u, s.pc u ≠ .inside) ↔ s.locked = false := by
    rw [← Bool.not_eq_true, v.lk]; simp
  rw [hl, tryLock_eq]
  unfold lock
  cases s.locked <;> simp

/-- C114, no thread sleeps for ever: if a thread sleeps in `lock`, some thread holds the mutex, and when
that one unlocks or waits for the condition, the thread that asked first gets it. -/
theorem C114_handoff (as : List Act) (t : Nat) (ht : (run init as).pc t = .parked) :
    ∃ u h q, (run init as).pc u = .inside ∧ (run init as).asked = (run init as).got ++ h :: q ∧
      ∀ a ∈ [Act.unlock u, Act.wait u], (run init (as ++ [a])).pc h = .inside ∧
        (run init (as ++ [a])).got = (run init as).got ++ [h] ∧
        (run init (as ++ [a])).asked = (run init as).asked ∧
        ∀ x, x ≠ h → x ≠ u → (run init (as ++ [a])).pc x = (run init as).pc x := by
  have v := inv_run as
  have hr : ∀ a, run init (as ++ [a]) = step (run init as) a := fun a => by simp [run]
  simp only [hr]
  generalize run init as = s at v ht ⊢
  have hm := (v.hb t).2 ht
  cases hb : s.blocked with
  | nil => rw [hb] at hm; cases hm
  | cons h q =>
    obtain ⟨u, hu⟩ := v.lk.1 (v.wt (by simp [hb]))
    refine ⟨u, h, q, hu, by rw [v.lo, hb], ?_⟩
    intro a ha
    simp only [List.mem_cons, List.not_mem_nil, or_false] at ha
    rcases ha with rfl | rfl
    · simp only [step, hu, if_true, unlock, release, hb]
      exact ⟨upd_same .., trivial, trivial, fun x h1 h2 => by rw [upd_ne _ _ h1, upd_ne _ _ h2]⟩
    · simp only [step, hu, if_true, wait, release, hb]
      exact ⟨upd_same .., trivial, trivial, fun x h1 h2 => by rw [upd_ne _ _ h1, upd_ne _ _ h2]⟩

/-- C114, calls that return: a call of `lock`, or of `wait` with the mutex, returns only after its thread
has got the mutex again. -/
theorem C114_returns (as bs : List Act) (t : Nat) (h : Pending (run init as) t)
    (h' : ¬ Pending (run init (as ++ bs)) t) :
    ∃ l, (run init (as ++ bs)).got = (run init as).got ++ l ∧ t ∈ l := by
  have hr : run init (as ++ bs) = run (run init as) bs := by simp [run]
  rw [hr] at h' ⊢
  exact (kept_run bs t _ (inv_run as) h).resolve_left h'

/-- Thread 4 waits, is notified and has to sleep for the lock again. -/
example : Pending (run init busy) 4 ∧
    (run init (busy ++ [.notifyAll, .relock 4, .unlock 1, .unlock 2])).pc 4 = .parked ∧
    (run init (busy ++ [.notifyAll, .relock 4, .unlock 1, .unlock 2, .unlock 3])).pc 4 = .inside := by
  refine ⟨Or.inr (Or.inr ?_), ?_, ?_⟩ <;> decide +kernel

/-! ## The condition lock -/

/-- C114, waiting: a thread that waits with the mutex gives it up, and from then on it is the last of the
threads that wait; the mutex goes to a thread that sleeps for it, and is free if there is none. -/
theorem C114_wait (as : List Act) (t : Nat) (ht : (run init as).pc t = .inside) :
    Waits (run init (as ++ [.wait t])) t ∧ Pending (run init (as ++ [.wait t])) t ∧
    (∃ q, (run init (as ++ [.wait t])).waited = (run init (as ++ [.wait t])).woken ++ q ++ [t]) ∧
    (∀ u, (run init (as ++ [.wait t])).pc u = .inside → (run init as).pc u = .parked) ∧
    ((∀ u, (run init as).pc u ≠ .parked) → ∀ u, (run init (as ++ [.wait t])).pc u ≠ .inside) := by
  have v := inv_run as
  have hr : run init (as ++ [.wait t]) = wait (run init as) t := by
    rw [show run init (as ++ [.wait t]) = step (run init as) (.wait t) by simp [run]]
    simp [step, ht]
  rw [hr]
  generalize run init as = s at v ht ⊢
  have hl : ∀ x, upd s.pc t (.waiting true) x ≠ .inside := v.leave ht _ (by simp)
  unfold wait release
  cases hb : s.blocked with
  | nil =>
    simp only [hb]
    refine ⟨⟨true, upd_same ..⟩, Or.inr (Or.inr (upd_same ..)), ⟨s.conds, by rw [v.lw]⟩, fun u hu => absurd hu (hl u), fun _ u hu => hl u hu⟩
  | cons h q =>
    simp only [hb]
    have hp := (v.hb h).1 (by simp [hb])
    have hne : t ≠ h := fun e => by rw [e, hp] at ht; cases ht
    refine ⟨⟨true, by simp [upd_ne _ _ hne]⟩, Or.inr (Or.inr (by simp [upd_ne _ _ hne])), ⟨s.conds, by rw [v.lw]⟩, fun u hu => ?_, fun hh => absurd hp (hh h)⟩
    by_cases e : u = h
    · rw [e]; exact hp
    · change upd (upd s.pc t (.waiting true)) h .inside u = .inside at hu
      rw [upd_ne _ _ e] at hu
      exact absurd hu (hl u)

/-- C114, waiting with no lock: the thread is the last of the threads that wait, in a call that does not
take the mutex; no other thread moves. -/
theorem C114_wait_only (as : List Act) (t : Nat) (ht : (run init as).pc t = .out) :
    Waits (run init (as ++ [.waitOnly t])) t ∧ ¬ Pending (run init (as ++ [.waitOnly t])) t ∧
    (∃ q, (run init (as ++ [.waitOnly t])).waited = (run init (as ++ [.waitOnly t])).woken ++ q ++ [t]) ∧
    ∀ u, u ≠ t → (run init (as ++ [.waitOnly t])).pc u = (run init as).pc u := by
  have v := inv_run as
  have hr : run init (as ++ [.waitOnly t]) = waitOnly (run init as) t := by
    rw [show run init (as ++ [.waitOnly t]) = step (run init as) (.waitOnly t) by simp [run]]
    simp [step, ht]
  rw [hr]
  generalize run init as = s at v ht ⊢
  exact ⟨⟨false, upd_same ..⟩, by simp [Pending, waitOnly], ⟨s.conds, by simp [waitOnly, v.lw]⟩,
    fun u hu => upd_ne _ _ hu⟩

/-- C114, waiting threads: the threads are notified in the order in which they began to wait, and those
that wait and have not been notified are the ones that sleep: no notification is lost, and no thread
wakes up without one. -/
theorem C114_waiters (as : List Act) : ∃ q, (run init as).waited = (run init as).woken ++ q ∧ q.Nodup ∧
    ∀ t, t ∈ q ↔ Waits (run init as) t :=
  ⟨_, (inv_run as).lw, (inv_run as).nc, (inv_run as).hc⟩

/-- C114, `notify_one`: it wakes the thread that has waited longest, and moves no other thread; if no
thread waits it does nothing. -/
theorem C114_notify_one (as : List Act) :
    ((∀ t, ¬ Waits (run init as) t) → run init (as ++ [.notifyOne]) = run init as) ∧
    ∀ h q, (run init as).waited = (run init as).woken ++ h :: q →
      (run init (as ++ [.notifyOne])).woken = (run init as).woken ++ [h] ∧
      (run init (as ++ [.notifyOne])).waited = (run init as).waited ∧
      (run init (as ++ [.notifyOne])).pc h =
        (if (run init as).pc h = .waiting true then .relock else .out) ∧
      ∀ x, x ≠ h → (run init (as ++ [.notifyOne])).pc x = (run init as).pc x := by
  have v := inv_run as
  have hr : run init (as ++ [.notifyOne]) = notifyOne (run init as) := by simp [run, step]
  rw [hr]
  generalize run init as = s at v ⊢
  constructor
  · intro hn
    have : s.conds = [] := List.eq_nil_iff_forall_not_mem.2 fun t ht => hn t ((v.hc t).1 ht)
    simp [notifyOne, this]
  · intro h q e
    have hc : s.conds = h :: q := List.append_cancel_left (v.lw.symm.trans e)
    simp only [notifyOne, hc]
    exact ⟨trivial, trivial, upd_same .., fun x hx => upd_ne _ _ hx⟩

theorem loop_pc (n : Nat) : ∀ s, Inv s → n = s.conds.length → ∀ x, (notifyLoop n s).pc x =
    if x ∈ s.conds then (if s.pc x = .waiting true then .relock else .out) else s.pc x := by
  induction n with
  | zero =>
    intro s _ h x
    have : s.conds = [] := List.length_eq_zero_iff.1 h.symm
    simp [notifyLoop, this]
  | succ n ih =>
    intro s v h x
    have v' := v.notifyOne
    simp only [notifyLoop]
    cases hc : s.conds with
    | nil => rw [hc] at h; cases h
    | cons u q =>
      have hn := v.nc
      rw [hc, List.nodup_cons] at hn
      have e1 : (notifyOne s).conds = q := by rw [(notifyOne_conds s).1, hc]; rfl
      have e2 : (notifyOne s).pc = upd s.pc u (if s.pc u = .waiting true then .relock else .out) := by
        simp [notifyOne, hc]
      rw [ih _ v' (by rw [e1]; rw [hc] at h; simpa using h), e1, e2, upd_apply]
      by_cases hx : x = u
      · subst hx; simp [hn.1]
      · simp [hx]

/-- C114, `notify_all`: it wakes every thread that waits, and moves no other thread. -/
theorem C114_notify_all (as : List Act) :
    (∀ t, ¬ Waits (run init (as ++ [.notifyAll])) t) ∧
    (run init (as ++ [.notifyAll])).woken = (run init as).waited ∧
    (∀ t l, (run init as).pc t = .waiting l →
      (run init (as ++ [.notifyAll])).pc t = if l then .relock else .out) ∧
    ∀ t, ¬ Waits (run init as) t → (run init (as ++ [.notifyAll])).pc t = (run init as).pc t := by
  have v := inv_run as
  have v' := inv_run (as ++ [.notifyAll])
  have hr : run init (as ++ [.notifyAll]) = notifyAll (run init as) := by simp [run, step]
  rw [hr] at v' ⊢
  generalize run init as = s at v v' ⊢
  obtain ⟨_, h2, h3, _⟩ := notifyLoop_spec s.conds.length s v
  have hp := loop_pc _ s v rfl
  refine ⟨fun t ht => ?_, ?_, fun t l ht => ?_, fun t ht => ?_⟩
  · have := (v'.hc t).2 ht
    unfold notifyAll at this
    rw [h2] at this
    simp at this
  · unfold notifyAll; rw [h3, v.lw]; simp
  · unfold notifyAll
    rw [hp, if_pos ((v.hc t).2 ⟨l, ht⟩), ht]
    cases l <;> simp
  · unfold notifyAll
    rw [hp, if_neg (fun h => ht ((v.hc t).1 h))]

/-- Two threads wait, one with the lock; `notify_one` wakes the first. -/
example : (run init [.waitOnly 7, .lock 4, .wait 4, .notifyOne]).pc 7 = .out ∧
    (run init [.waitOnly 7, .lock 4, .wait 4, .notifyOne]).pc 4 = .waiting true ∧
    (run init [.waitOnly 7, .lock 4, .wait 4, .notifyAll]).pc 4 = .relock := by decide +kernel

/-! ## The recursive mutex -/

/-- C114, recursive exclusion: in every schedule at most one thread has a recursive mutex locked, and that
thread does not sleep. -/
theorem C114_recursive_exclusion (as : List RAct) (t u : Nat) (ht : 0 < (rrun rinit as).depth t)
    (hu : 0 < (rrun rinit as).depth u) : t = u ∧ (rrun rinit as).asleep t = false := by
  have v := rinv_run as
  have h1 := (v.own t).1 ht
  have h2 := (v.own u).1 hu
  rw [h1] at h2
  exact ⟨by simpa using h2, v.up t h1⟩

/-- C114, recursive order: the threads get it in the order in which they asked, and those that have not
got it are the ones that sleep. -/
theorem C114_recursive_fifo (as : List RAct) :
    ∃ q, (rrun rinit as).asked = (rrun rinit as).got ++ q ∧ q.Nodup ∧
      ∀ t, t ∈ q ↔ (rrun rinit as).asleep t = true :=
  ⟨_, (rinv_run as).lo, (rinv_run as).nb, (rinv_run as).hb⟩

/-- C114, recursive locking: a thread takes the lock at once, with `lock` and with `try_lock`, unless
another thread has it; then `lock` sleeps, and `try_lock` fails and changes nothing. -/
theorem C114_recursive_lock (as : List RAct) (t : Nat) (ht : (rrun rinit as).asleep t = false) :
    let s := rrun rinit as
    ((∀ u, u ≠ t → s.depth u = 0) →
      rtryLock s t = (rlock s t, true) ∧ (rlock s t).asleep = s.asleep ∧
        ∀ x, (rlock s t).depth x = if x = t then s.depth t + 1 else s.depth x) ∧
    (∀ u, u ≠ t → 0 < s.depth u →
      rtryLock s t = (s, false) ∧ (rlock s t).asleep t = true ∧ (rlock s t).depth = s.depth) := by
  have v := rinv_run as
  generalize rrun rinit as = s at v ht ⊢
  constructor
  · intro h
    have ho : s.owner = none ∨ s.owner = some t := by
      cases e : s.owner with
      | none => simp
      | some u =>
        right
        by_cases hu : u = t
        · rw [hu]
        · have := (v.own u).2 e
          have := h u hu
          omega
    refine ⟨by rw [rtryLock_eq, if_pos ho], ?_, ?_⟩
    · unfold rlock
      rcases ho with ho | ho <;> simp [ho]
    · intro x
      unfold rlock
      rcases ho with ho | ho <;> simp [ho, upd_apply]
  · intro u hu hd
    have ho := (v.own u).1 hd
    refine ⟨by rw [rtryLock_eq]; simp [ho, hu], ?_, ?_⟩ <;> simp [rlock, ho, hu]

/-- C114, recursive unlocking: a thread keeps the lock until it has unlocked it as often as it locked it;
then the thread that asked first among those that sleep has it, locked once, and if none sleeps the lock
is free. -/
theorem C114_recursive_unlock (as : List RAct) (t : Nat) (ht : 0 < (rrun rinit as).depth t) :
    let s := rrun rinit as
    (1 < s.depth t → (runlock s t).asleep = s.asleep ∧ (runlock s t).got = s.got ∧
      ∀ x, (runlock s t).depth x = if x = t then s.depth t - 1 else 0) ∧
    (s.depth t = 1 → (∀ x, s.asleep x = false) → ∀ x, (runlock s t).depth x = 0) ∧
    (s.depth t = 1 → ∀ h q, s.asked = s.got ++ h :: q → (runlock s t).got = s.got ++ [h] ∧
      (∀ x, (runlock s t).depth x = if x = h then 1 else 0) ∧
      ∀ x, (runlock s t).asleep x = if x = h then false else s.asleep x) := by
  have v := rinv_run as
  generalize rrun rinit as = s at v ht ⊢
  have ho := (v.own t).1 ht
  have hc := v.cnt t ho
  have hz : ∀ x, x ≠ t → s.depth x = 0 := fun x hx => v.zero (by rw [ho]; simpa using fun e => hx e.symm)
  refine ⟨fun h1 => ?_, fun h1 hs => ?_, fun h1 h q e => ?_⟩
  · have : ¬ s.count - 1 = 0 := by omega
    simp only [runlock, this, if_false]
    refine ⟨trivial, trivial, fun x => ?_⟩
    rw [upd_apply]
    split
    · rfl
    · exact hz x (by assumption)
  · have hb : s.blocked = [] := List.eq_nil_iff_forall_not_mem.2 fun x hx => by
      rw [v.hb, hs x] at hx; cases hx
    intro x
    simp only [runlock, hc, h1, hb]
    simp only [Nat.sub_self, if_true, upd_apply]
    split
    · rfl
    · exact hz x (by assumption)
  · have hb : s.blocked = h :: q := List.append_cancel_left (v.lo.symm.trans e)
    have hh : h ≠ t := fun e => by
      have := (v.hb h).1 (by simp [hb])
      rw [e, v.up t ho] at this; cases this
    simp only [runlock, hc, h1, hb]
    simp only [Nat.sub_self, if_true, upd_apply]
    refine ⟨trivial, fun x => ?_, fun x => trivial⟩
    by_cases hx : x = h
    · simp [hx, hh, hz h hh]
    · by_cases hx' : x = t
      · simp [hx', hh.symm]
      · simp [hx, hx', hz x hx']

/-- Thread 1 locks twice, 2 and 3 sleep; after two unlocks 2 has the lock. -/
example : (rrun rinit [.lock 1, .lock 2, .tryLock 1, .lock 3, .unlock 1]).depth 1 = 1 ∧
    (rrun rinit [.lock 1, .lock 2, .tryLock 1, .lock 3, .unlock 1, .unlock 1]).depth 2 = 1 ∧
    (rrun rinit [.lock 1, .lock 2, .tryLock 1, .lock 3, .unlock 1, .unlock 1]).asleep 3 = true := by
  decide +kernel

/-- C114, nobody sleeps for a free recursive lock: if a thread sleeps in `lock`, another has it. -/
theorem C114_recursive_handoff (as : List RAct) (t : Nat) (ht : (rrun rinit as).asleep t = true) :
    ∃ u, u ≠ t ∧ 0 < (rrun rinit as).depth u := by
  have v := rinv_run as
  generalize rrun rinit as = s at v ht ⊢
  cases e : s.owner with
  | none => have := (v.hb t).2 ht; rw [v.free e] at this; cases this
  | some u =>
    exact ⟨u, (fun h => by have := v.up u e; rw [h, ht] at this; cases this), (v.own u).2 e⟩

/-- C114 fails: `wait` with a recursive mutex that the thread has locked more than once does not give it
up.  The thread sleeps with the lock, and whatever the other threads do, none of them ever gets it. -/
theorem C114_recursive_wait_violated (as : List RAct) (t : Nat) (ht : 1 < (rrun rinit as).depth t)
    (bs : List RAct) (u : Nat) (hu : u ≠ t) :
    (rrun (rwait (rrun rinit as) t) bs).asleep t = true ∧
    0 < (rrun (rwait (rrun rinit as) t) bs).depth t ∧ (rrun (rwait (rrun rinit as) t) bs).depth u = 0 := by
  have v := rinv_run as
  generalize rrun rinit as = s at v ht ⊢
  have ho := (v.own t).1 (by omega)
  have hc := v.cnt t ho
  have hz : ∀ x, x ≠ t → s.depth x = 0 := fun x hx => v.zero (by rw [ho]; simpa using fun e => hx e.symm)
  have base : (rwait s t).asleep t = true ∧ (rwait s t).owner = some t ∧ 0 < (rwait s t).depth t ∧
      ∀ x, x ≠ t → (rwait s t).depth x = 0 := by
    have : ¬ s.count - 1 = 0 := by omega
    simp only [rwait, runlock, this, if_false]
    exact ⟨upd_same .., ho, by rw [upd_same]; omega, fun x hx => by rw [upd_ne _ _ hx]; exact hz x hx⟩
  have key : ∀ bs s, (s.asleep t = true ∧ s.owner = some t ∧ 0 < s.depth t ∧ ∀ x, x ≠ t → s.depth x = 0) →
      ((rrun s bs).asleep t = true ∧ (rrun s bs).owner = some t ∧ 0 < (rrun s bs).depth t ∧
        ∀ x, x ≠ t → (rrun s bs).depth x = 0) := by
    intro bs
    induction bs with
    | nil => exact fun s h => h
    | cons b bs ih =>
      rintro s ⟨h1, h2, h3, h4⟩
      refine ih (rstep s b) ?_
      have self : s.asleep t = true ∧ s.owner = some t ∧ 0 < s.depth t ∧ ∀ x, x ≠ t → s.depth x = 0 :=
        ⟨h1, h2, h3, h4⟩
      cases b with
      | lock x =>
        simp only [rstep]
        split
        · exact self
        · rename_i hx
          have hxt : x ≠ t := fun e => hx (e ▸ h1)
          have : ¬ some t = some x := fun e => hxt (by simpa using e.symm)
          simp only [rlock, h2, this, if_false, reduceCtorEq]
          exact ⟨by rw [upd_ne _ _ hxt.symm]; exact h1, trivial, h3, h4⟩
      | tryLock x =>
        simp only [rstep]
        split
        · exact self
        · rename_i hx
          have hxt : x ≠ t := fun e => hx (e ▸ h1)
          have : ¬ some t = some x := fun e => hxt (by simpa using e.symm)
          rw [rtryLock_eq, if_neg (by simp [h2]; exact hxt.symm)]
          exact self
      | unlock x =>
        simp only [rstep]
        split
        · exact self
        · rename_i hx
          have hxt : x ≠ t := fun e => hx (Or.inl (e ▸ h1))
          exact absurd (h4 x hxt) (fun e => hx (Or.inr e))
  obtain ⟨h1, _, h3, h4⟩ := key bs _ base
  exact ⟨h1, h3, h4 u hu⟩

example : 1 < (rrun rinit [.lock 1, .lock 1]).depth 1 := by decide +kernel

end Verif.OldLocks
