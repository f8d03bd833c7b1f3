import Verif.Model.Future
import Verif.Proof.Heap
/-!
C45: futures. `Reach nextV (start r) s`: `s` is reached from a new future by any interleaving of `get`, `try_get`, `fulfil` with a value and
`reset` by any number of threads. `s.given` lists the values given to the future so far; a triple `(t, i, v)` in `s.rets` says that a call
of `get` by `t` has returned `v`, and that the future had been given `i` values, not counting the one it held, if any, when that call entered
the future: so the call is for the value number `i`.
-/
namespace Verif.Future
open Verif
variable {α : Type}

theorem wakeAll_eq (pc : Nat → Pc α) (r : α) (l : List Nat) (t : Nat) :
    wakeAll pc r l t = if t ∈ l then (match pc t with | .parked i => .woken i r | p => p) else pc t := by
  induction l with
  | nil => rfl
  | cons c l ih => simp only [wakeAll, upd, ih]; grind

def isParked : Pc α → Bool
  | .parked _ => true
  | _ => false

structure Inv (s : State α) : Prop where
  mutex : ∀ t u, inside (s.pc t) = true → inside (s.pc u) = true → t = u
  locked : ∀ t, inside (s.pc t) = true → s.lock = true
  noEx : s.except = none
  noEx1 : ∀ t x, s.pc t ≠ .inFulEx x
  noEx2 : ∀ t d i v x, s.pc t ≠ .raised d i v x
  wait1 : ∀ t, t ∈ s.waiters → isParked (s.pc t) = true
  wait2 : ∀ t i, s.pc t = .parked i → t ∈ s.waiters ∧ i = s.given.length
  wnd : s.waiters.Nodup
  full : s.fulfilled = true → s.waiters = [] ∧ s.given.length ≠ 0 ∧ s.given[s.given.length - 1]? = some s.result
  wok : ∀ t i v, s.pc t = .woken i v → s.given[i]? = some v
  ret : ∀ t i v, (t, i, v) ∈ s.rets → s.given[i]? = some v

theorem start_inv (r : α) : Inv (start r) := by
  constructor <;> simp [start, inside]

theorem acquire_inv {s s' : State α} {t : Nat} {p : Pc α} (h : acquire s t p = some s') (hp : inside p = true) (hx : ∀ x, p ≠ .inFulEx x) (iv : Inv s) :
    Inv s' := by
  obtain ⟨i1, i2, i3, i4, i5, i6, i7, i8, i9, i10, i11⟩ := iv
  simp only [acquire] at h
  split at h
  swap
  · cases h
  next hpc =>
  split at h
  · cases h
  next hl =>
  cases h
  have hl : s.lock = false := by grind
  constructor
  · intro a b; have := i2 a; have := i2 b; simp only [upd]; grind
  · simp
  · exact i3
  · intro a x; have := i4 a x; have := hx x; simp only [upd]; grind
  · intro a d i v x; have := i5 a d i v x; simp only [upd]; split
    · rintro rfl; simp [inside] at hp
    · exact this
  · intro a ha; have := i6 a ha; simp only [upd]; grind [isParked]
  · intro a i; simp only [upd]; split
    · rintro rfl; simp [inside] at hp
    · exact i7 a i
  · exact i8
  · exact i9
  · intro a i v; simp only [upd]; split
    · rintro rfl; simp [inside] at hp
    · exact i10 a i v
  · exact i11

theorem step_inv {s s' : State α} {a : Act α} (h : nextV s a = some s') (iv : Inv s) : Inv s' := by
  cases a with
  | get t => exact acquire_inv h rfl (by simp) iv
  | tryGet t => exact acquire_inv h rfl (by simp) iv
  | fulfil t v => exact acquire_inv h rfl (by simp) iv
  | fulfilEx t x => cases h
  | reset t => exact acquire_inv h rfl (by simp) iv
  | body t =>
    simp only [nextV, Proper, next, if_true] at h
    split at h
    · cases h
    obtain ⟨i1, i2, i3, i4, i5, i6, i7, i8, i9, i10, i11⟩ := iv
    split at h
    · next hpc =>
      have hin : inside (s.pc t) = true := by rw [hpc]; rfl
      rw [i3] at h
      split at h
      · cases h
        constructor <;> intros <;> simp only [upd] at * <;> grind [inside, isParked]
      · cases h
        constructor <;> intros <;> simp only [upd] at * <;> grind [inside, isParked]
    · next hpc =>
      have hin : inside (s.pc t) = true := by rw [hpc]; rfl
      cases h
      constructor <;> intros <;> simp only [upd] at * <;> grind [inside, isParked]
    · next v hpc =>
      have hin : inside (s.pc t) = true := by rw [hpc]; rfl
      split at h
      · cases h; exact ⟨i1, i2, i3, i4, i5, i6, i7, i8, i9, i10, i11⟩
      · cases h
        constructor <;> intros <;> simp only [upd, wakeAll_eq] at * <;> grind [inside, isParked]
    · next x hpc => exact absurd hpc (i4 t x)
    · next hpc =>
      have hin : inside (s.pc t) = true := by rw [hpc]; rfl
      split at h
      · cases h; exact ⟨i1, i2, i3, i4, i5, i6, i7, i8, i9, i10, i11⟩
      · cases h
        constructor <;> intros <;> simp only [upd] at * <;> grind [inside, isParked]
    · cases h
  | wake t =>
    simp only [nextV, Proper, next, if_true] at h
    split at h
    · cases h
    obtain ⟨i1, i2, i3, i4, i5, i6, i7, i8, i9, i10, i11⟩ := iv
    rw [i3] at h
    split at h
    swap
    · cases h
    next i v hpc =>
    cases h
    constructor <;> intros <;> simp only [upd] at * <;> grind [inside, isParked]
  | handled t =>
    simp only [nextV, Proper, next, if_true] at h
    split at h
    · cases h
    split at h
    · next hpc => exact absurd hpc (iv.noEx2 t _ _ _ _)
    · next hpc => exact absurd hpc (iv.noEx2 t _ _ _ _)
    · cases h

theorem reach_inv {r : α} {s : State α} (h : Reach nextV (start r) s) : Inv s :=
  Reach.inv Inv (start_inv r) (fun _ _ _ hi hn => step_inv hn hi) h

/-- C45: every call of `get` returns the value it is for, to every caller, whether the value came before or after the call.
    Partial: futures that are given values; with exceptions see `C45_exception_violated`. -/
theorem C45_get_value_partial {r : α} {s : State α} (h : Reach nextV (start r) s) (t i : Nat) (v : α) (hr : (t, i, v) ∈ s.rets) :
    s.given[i]? = some v := (reach_inv h).ret t i v hr

/-- C45: the critical section of `get` on a fulfilled future returns at once, with the value the future was given last; on an empty future the
    caller waits for the next value. -/
theorem C45_get_ready_partial {r : α} {s s' : State α} {t : Nat} (h : Reach nextV (start r) s) (hp : s.pc t = .inGet) (hs : nextV s (.body t) = some s') :
    (s.fulfilled = true → s'.pc t = .run ∧ ∃ v, s.given.getLast? = some v ∧ s'.rets = s.rets ++ [(t, s.given.length - 1, v)]) ∧
    (s.fulfilled = false → s'.pc t = .parked s.given.length) := by
  have iv := reach_inv h
  have hne := iv.noEx
  refine ⟨fun hf => ?_, fun hf => ?_⟩
  · simp only [nextV, Proper, next, hp, hf, hne, if_true] at hs
    split at hs
    · cases hs
    cases hs
    refine ⟨by simp, s.result, ?_, rfl⟩
    rw [List.getLast?_eq_getElem?]
    exact (iv.full hf).2.2
  · simp only [nextV, Proper, next, hp, hf, if_true] at hs
    split at hs
    · cases hs
    cases hs
    simp

/-- C45: no thread is blocked in `get` while the future is fulfilled, so reading never blocks after fulfilment and no waiter is forgotten by `fulfil`. -/
theorem C45_no_wait_when_fulfilled_partial {r : α} {s : State α} (h : Reach nextV (start r) s) (hf : s.fulfilled = true) (t i : Nat) : s.pc t ≠ .parked i := by
  have iv := reach_inv h
  intro hp
  have := (iv.wait2 t i hp).1
  rw [(iv.full hf).1] at this
  simp at this

/-- C45: the critical section of `fulfil` on an empty future stores the value and releases every waiter with it; on a fulfilled future it is
    rejected (the program aborts), so the value a future holds never changes between resets. -/
theorem C45_fulfil {r : α} {s s' : State α} {t : Nat} {v : α} (h : Reach nextV (start r) s) (hp : s.pc t = .inFul v) (hs : nextV s (.body t) = some s') :
    (s.fulfilled = true → s'.aborted = true ∧ s'.result = s.result ∧ s'.given = s.given ∧ ∀ a, nextV s' a = none ) ∧
    (s.fulfilled = false → s'.fulfilled = true ∧ s'.result = v ∧ s'.given = s.given ++ [v] ∧ ∀ u i, s.pc u = .parked i → s'.pc u = .woken i v) := by
  have iv := reach_inv h
  refine ⟨fun hf => ?_, fun hf => ?_⟩
  · simp only [nextV, Proper, next, hp, hf, if_true] at hs
    split at hs
    · cases hs
    cases hs
    refine ⟨rfl, rfl, rfl, fun a => ?_⟩
    cases a <;> simp only [nextV, Proper, next, acquire] <;> simp
    all_goals split <;> simp
  · simp only [nextV, Proper, next, hp, hf, if_true] at hs
    split at hs
    · cases hs
    cases hs
    refine ⟨rfl, rfl, rfl, fun u i hu => ?_⟩
    simp only [upd, wakeAll_eq]
    have := (iv.wait2 u i hu).1
    grind

/-- C45: between resets the value stays the same: a step other than the critical section of `reset` keeps a fulfilled future fulfilled with its value. -/
theorem C45_stable_partial {r : α} {s s' : State α} {a : Act α} (h : Reach nextV (start r) s) (hf : s.fulfilled = true) (hs : nextV s a = some s')
    (ha : ∀ t, a = .body t → s.pc t ≠ .inReset) : s'.fulfilled = true ∧ s'.result = s.result := by
  have iv := reach_inv h
  cases a with
  | fulfilEx => cases hs
  | body t =>
    have := ha t rfl
    simp only [nextV, Proper, next, hf, iv.noEx, if_true] at hs
    split at hs
    · cases hs
    split at hs
    all_goals first | (cases hs; exact ⟨rfl, rfl⟩) | contradiction | (cases hs; done)
  | _ =>
    simp only [nextV, Proper, next, acquire, iv.noEx, if_true] at hs
    repeat' split at hs
    all_goals first | (cases hs; exact ⟨hf, rfl⟩) | cases hs

/-- Thread 1 waits, thread 2 fulfils with 7, thread 1 returns 7, thread 3 comes later and returns 7 at once. -/
def demo : List (Act Nat) := [.get 1, .body 1, .fulfil 2 7, .body 2, .wake 1, .get 3, .body 3]

example : let s := (exec nextV (start 0) demo).getD (start 0)
    Reach nextV (start 0) s ∧ s.rets = [(1, 0, 7), (3, 0, 7)] ∧ s.given = [7] ∧ s.fulfilled = true :=
  ⟨Reach.of_exec demo rfl, by decide +kernel, by decide +kernel, by decide +kernel⟩

/-- With values only, the critical sections exclude each other. -/
theorem C45_exclusion_partial {r : α} {s : State α} (h : Reach nextV (start r) s) (t u : Nat) (h1 : inside (s.pc t) = true) (h2 : inside (s.pc u) = true) :
    t = u := (reach_inv h).mutex t u h1 h2

/-- C45 fails for a future given an exception: the waiter that is woken frees the lock, which another thread holds, so two threads are in
    critical sections at once, each about to give the future (empty: it has been reset) its value. -/
theorem C45_exception_violated : ∃ s : State Nat, Reach next (start 0) s ∧ s.pc 4 = .inFul 7 ∧ s.pc 5 = .inFul 8 ∧ s.fulfilled = false := by
  let as : List (Act Nat) := [.get 1, .body 1, .fulfilEx 2 5, .body 2, .reset 3, .wake 1, .fulfil 4 7, .body 3, .fulfil 5 8]
  exact ⟨(exec next (start 0) as).getD (start 0), Reach.of_exec as rfl, by decide +kernel, by decide +kernel, by decide +kernel⟩

/-- C45 fails for a future given an exception: `get` on the fulfilled future frees the lock a second time when the handler of the resumption
    returns, so that two threads are in critical sections at once, and it returns the uninitialised result. -/
theorem C45_double_unlock_violated : ∃ s : State Nat, Reach next (start 0) s ∧ s.rets = [(1, 0, 0)] ∧ s.given = [] ∧
    s.pc 4 = .inTry ∧ s.pc 5 = .inTry := by
  let as : List (Act Nat) := [.fulfilEx 2 5, .body 2, .get 1, .body 1, .tryGet 4, .handled 1, .tryGet 5]
  exact ⟨(exec next (start 0) as).getD (start 0), Reach.of_exec as rfl, by decide +kernel, by decide +kernel, by decide +kernel, by decide +kernel⟩

/-- C45 fails for a future given an exception: `try_get` reports that a value is available, and returns the uninitialised result. -/
theorem C45_try_get_violated (r : α) (x : Nat) : ∃ s : State α, Reach next (start r) s ∧ s.given = [] ∧ s.tries = [(1, some r)] :=
  ⟨_, Reach.of_exec [.fulfilEx 0 x, .body 0, .tryGet 1, .body 1] rfl, rfl, rfl⟩

end Verif.Future
