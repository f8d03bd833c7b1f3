import Verif.Model.HybridLock
import Verif.Proof.Heap
/-!
C39 and the part of C40 on `fast_block_lock`, for every schedule of any number of threads.
-/
namespace Verif.HybridLock
open Verif

structure EInv (s : EState) : Prop where
  free : s.val = 0 → ∀ t, s.pc t ≠ .has
  held : s.val ≠ 0 → ∃ t, s.pc t = .has
  one : ∀ t u, s.pc t = .has → s.pc u = .has → t = u
  val : s.val ≤ 2
  nd : s.blocked.Nodup
  mem : ∀ t, t ∈ s.blocked → s.pc t = .parked
  parked : ∀ t, s.pc t = .parked → t ∈ s.blocked ∨ ∃ u, s.pc u = .unpark t
  target : ∀ t u, s.pc t = .unpark u → s.pc u = .parked ∧ u ∉ s.blocked
  once : ∀ t t' u, s.pc t = .unpark u → s.pc t' = .unpark u → t = t'
  live : s.blocked ≠ [] → s.val = 2 ∨ ∃ t, s.pc t = .exch ∨ s.pc t = .pop ∨ ∃ u, s.pc t = .unpark u

theorem estep {s s' : EState} {a : EAct} (iv : EInv s) (h : enext s a = some s') : EInv s' := by
  obtain ⟨free, held, one, val, nd, mem, parked, target, once, live⟩ := iv
  cases a with
  | lock t =>
    simp only [enext] at h
    split at h <;> cases h
    constructor <;> simp only [upd] at * <;> grind
  | tryLock t =>
    simp only [enext] at h
    split at h
    · split at h <;> cases h
      · constructor <;> simp only [upd] at * <;> grind
      · exact ⟨free, held, one, val, nd, mem, parked, target, once, live⟩
    · cases h
  | go t =>
    simp only [enext] at h
    split at h
    · split at h
      · cases h; constructor <;> simp only [upd] at * <;> grind
      · split at h
        · cases h; constructor <;> simp only [upd] at * <;> grind
        · split at h <;> cases h <;> constructor <;> simp only [upd] at * <;> grind
    · cases h; constructor <;> simp only [upd] at * <;> grind
    · split at h <;> cases h <;> constructor <;> simp only [upd] at * <;> grind
    · split at h <;> cases h <;> constructor <;> simp only [upd] at * <;> grind
    · cases h; constructor <;> simp only [upd] at * <;> grind
    · cases h
  | unlock t =>
    simp only [enext] at h
    split at h <;> cases h
    constructor <;> simp only [upd] at * <;> grind

theorem ereach {s : EState} (h : Reach enext estart s) : EInv s :=
  h.inv EInv (by constructor <;> simp [estart]) fun _ _ _ p e => estep p e

/-- C39: at most one thread is past `lock` (or a successful `try_lock`) and not yet past the release in `unlock`. -/
theorem C39_exclusion (s : EState) (h : Reach enext estart s) (t u : Nat) (ht : s.pc t = .has) (hu : s.pc u = .has) : t = u :=
  (ereach h).one t u ht hu

/-- C39: a parked thread is about to be unparked by some thread; or it is on the list of blocked threads, and some thread has the
    lock in the contended state (so that its `unlock` takes a thread from the list), or is about to take a thread from the list or to unpark
    one, or is awake and about to put the lock into the contended state. -/
theorem C39_no_lost_wakeup (s : EState) (h : Reach enext estart s) (t : Nat) (ht : s.pc t = .parked) :
    (∃ u, s.pc u = .unpark t) ∨ (t ∈ s.blocked ∧
      ((∃ u, s.pc u = .has ∧ s.val = 2 ∧ ∀ s', enext s (.unlock u) = some s' → s'.pc u = .pop) ∨
       ∃ u, s.pc u = .exch ∨ s.pc u = .pop ∨ ∃ v, s.pc u = .unpark v)) := by
  have iv := ereach h
  rcases iv.parked t ht with hm | hm
  · refine Or.inr ⟨hm, ?_⟩
    rcases iv.live (fun e => by rw [e] at hm; simp at hm) with hv | hu
    · obtain ⟨u, hu⟩ := iv.held (by omega)
      refine Or.inl ⟨u, hu, hv, fun s' e => ?_⟩
      simp only [enext, if_pos hu, hv, Option.some.injEq] at e
      rw [← e]; simp [upd]
    · exact Or.inr hu
  · exact Or.inl hm

/-- C39: threads are taken from the list in the order in which they were put on it, each is unparked once, and it is then awake. -/
theorem C39_wakes_first (s : EState) (h : Reach enext estart s) (t u : Nat) (l : List Nat) (ht : s.pc t = .pop) (hb : s.blocked = u :: l) :
    ∃ s' s'', enext s (.go t) = some s' ∧ s'.blocked = l ∧ enext s' (.go t) = some s'' ∧ s.pc u = .parked ∧ s''.pc u = .exch ∧ s''.blocked = l := by
  have iv := ereach h
  refine ⟨{ s with blocked := l, pc := upd s.pc t (.unpark u) },
    { s with blocked := l, pc := upd (upd (upd s.pc t (.unpark u)) t .idle) u .exch }, ?_, rfl, ?_, iv.mem u (by rw [hb]; simp), ?_, ?_⟩
  · simp only [enext, ht, hb]
  · simp only [enext, upd_same]
  · simp [upd]
  · rfl

/-- C39: if no thread has the lock and every thread in `lock` or `unlock` is parked, then no thread is parked. -/
theorem C39_no_deadlock (s : EState) (h : Reach enext estart s) (hs : ∀ t, s.pc t = .idle ∨ s.pc t = .parked) (t : Nat) : s.pc t = .idle := by
  rcases hs t with e | e
  · exact e
  · rcases C39_no_lost_wakeup s h t e with ⟨u, hu⟩ | ⟨-, ⟨u, hu, -⟩ | ⟨u, hu | hu | ⟨v, hu⟩⟩⟩ <;> rcases hs u with h | h <;> rw [h] at hu <;> cases hu

/-- Two threads are parked; the holder unlocks and unparks the first one, which takes the lock. -/
example : ∃ s, Reach enext estart s ∧ s.pc 2 = .has ∧ s.pc 3 = .parked ∧ s.val = 2 ∧ s.blocked = [3] :=
  let as := [.tryLock 1, .lock 2] ++ List.replicate 11 (.go 2) ++ [.lock 3, .go 3, .go 3, .unlock 1, .go 1, .go 1, .go 2]
  ⟨_, Reach.of_exec (s' := ((exec enext estart as).getD estart)) as rfl, by decide +kernel, by decide +kernel, by decide +kernel, by decide +kernel⟩

/-! ## Locks that spin on a flag inside of another lock -/

/-- The thread has the inner lock. -/
def hasInner : SPc → Bool
  | .spin | .set | .hasInner => true
  | _ => false

/-- The thread has the lock. -/
def Holds : SPc → Bool
  | .hasInner | .has => true
  | _ => false

structure SInv (s : SState) : Prop where
  inn : ∀ t, hasInner (s.pc t) = true ↔ s.inner = some t
  one : ∀ t u, Holds (s.pc t) = true → Holds (s.pc u) = true → t = u
  held : s.held = true ↔ ∃ t, Holds (s.pc t) = true
  set : ∀ t, s.pc t = .set → s.held = false

theorem sstep {s s' : SState} {a : SAct} (iv : SInv s) (h : snext s a = some s') : SInv s' := by
  obtain ⟨inn, one, held, set⟩ := iv
  cases a with
  | lock t =>
    simp only [snext] at h
    split at h <;> cases h
    constructor <;> simp only [upd] at * <;> grind [hasInner, Holds]
  | go t =>
    simp only [snext] at h
    split at h
    · split at h <;> cases h; constructor <;> simp only [upd] at * <;> grind [hasInner, Holds]
    · split at h <;> cases h
      · exact ⟨inn, one, held, set⟩
      · constructor <;> simp only [upd] at * <;> grind [hasInner, Holds]
    · cases h
      refine ⟨?_, ?_, ⟨fun _ => ⟨t, by simp [upd, Holds]⟩, fun _ => rfl⟩, ?_⟩ <;> simp only [upd] at * <;> grind [hasInner, Holds]
    · cases h; constructor <;> simp only [upd] at * <;> grind [hasInner, Holds]
    · cases h
  | unlock t =>
    simp only [snext] at h
    split at h <;> cases h
    constructor <;> simp only [upd] at * <;> grind [hasInner, Holds]

theorem sreach {s : SState} (h : Reach snext sstart s) : SInv s :=
  h.inv SInv (by constructor <;> simp [sstart, hasInner, Holds]) fun _ _ _ p e => sstep p e

/-- C39: `spin_queue_lock`, `mcs_block_spin_lock` and `block_spin_lock`: at most one thread has the lock. -/
theorem C39_flag_locks_exclusion (s : SState) (h : Reach snext sstart s) (t u : Nat) (ht : s.pc t = .has) (hu : s.pc u = .has) : t = u :=
  (sreach h).one t u (by rw [ht]; rfl) (by rw [hu]; rfl)

/-- C39: the flag of these locks is set exactly while a thread has the lock, so that the thread that spins on it goes on when that
    thread unlocks. -/
theorem C39_flag_locks_progress (s : SState) (h : Reach snext sstart s) (t : Nat) (ht : s.pc t = .spin) (hn : ∀ u, s.pc u ≠ .has) :
    ∃ s1 s2 s3, snext s (.go t) = some s1 ∧ snext s1 (.go t) = some s2 ∧ snext s2 (.go t) = some s3 ∧ s3.pc t = .has := by
  have iv := sreach h
  have hf : s.held = false := by
    cases e : s.held with
    | false => rfl
    | true =>
      obtain ⟨u, hu⟩ := iv.held.1 e
      cases hp : s.pc u <;> rw [hp] at hu <;> simp [Holds] at hu
      · have h1 := (iv.inn u).1 (by rw [hp]; rfl)
        have h2 := (iv.inn t).1 (by rw [ht]; rfl)
        rw [h1] at h2
        cases h2
        rw [ht] at hp; cases hp
      · exact absurd hp (hn u)
  exact ⟨{ s with pc := upd s.pc t .set }, { s with held := true, pc := upd (upd s.pc t .set) t .hasInner },
    { s with inner := none, held := true, pc := upd (upd (upd s.pc t .set) t .hasInner) t .has },
    by simp only [snext, ht, hf]; rfl, by simp only [snext, upd_same], by simp only [snext, upd_same], by simp only [upd_same]⟩

example : ∃ s, Reach snext sstart s ∧ s.pc 2 = .has ∧ s.pc 3 = .spin :=
  ⟨_, Reach.of_exec (s' := ((exec snext sstart [.lock 2, .lock 3, .go 2, .go 2, .go 2, .go 2, .go 3, .go 3]).getD sstart))
    [.lock 2, .lock 3, .go 2, .go 2, .go 2, .go 2, .go 3, .go 3] rfl, by decide +kernel, by decide +kernel⟩

/-! ## fast_block_lock -/

/-- Correct use of the condition variable: a thread notifies while it has the lock, and there are no waits with a time-out. -/
def Proper (s : FState) : FAct → Prop
  | .notifyOne t => s.pc t = .has
  | .timeout _ => False
  | _ => True

instance (s : FState) (a : FAct) : Decidable (Proper s a) := by cases a <;> simp only [Proper] <;> infer_instance

def fnextProper (s : FState) (a : FAct) : Option FState := if Proper s a then fnext s a else none

/-- The thread has the lock. -/
def FHolds : FPc → Bool
  | .has | .preWait => true
  | _ => false

structure FInv (s : FState) : Prop where
  one : ∀ t u, FHolds (s.pc t) = true → FHolds (s.pc u) = true → t = u
  held : s.held = true ↔ ∃ t, FHolds (s.pc t) = true
  free : s.held = false → s.blocked = []
  nb : s.blocked.Nodup
  nc : s.cond.Nodup
  lock : ∀ t, s.pc t = .locking → t ∈ s.blocked
  wait : ∀ t, s.pc t = .waiting → (t ∈ s.blocked ↔ t ∉ s.cond)
  pre : ∀ t, s.pc t = .preWait → t ∈ s.cond
  blk : ∀ t, t ∈ s.blocked → s.pc t = .locking ∨ s.pc t = .waiting
  cnd : ∀ t, t ∈ s.cond → s.pc t = .preWait ∨ s.pc t = .waiting
  dis : ∀ t, t ∈ s.cond → t ∉ s.blocked
  fifo : s.arrived = s.served ++ s.blocked

/-- The state after the holder has given up the lock. -/
structure FLimbo (s : FState) : Prop where
  none : ∀ t, FHolds (s.pc t) = false
  nb : s.blocked.Nodup
  nc : s.cond.Nodup
  lock : ∀ t, s.pc t = .locking → t ∈ s.blocked
  wait : ∀ t, s.pc t = .waiting → (t ∈ s.blocked ↔ t ∉ s.cond)
  blk : ∀ t, t ∈ s.blocked → s.pc t = .locking ∨ s.pc t = .waiting
  cnd : ∀ t, t ∈ s.cond → s.pc t = .waiting
  dis : ∀ t, t ∈ s.cond → t ∉ s.blocked
  fifo : s.arrived = s.served ++ s.blocked

theorem release_inv {s : FState} (h : FLimbo s) : FInv (release s) := by
  obtain ⟨none, nb, nc, lock, wait, blk, cnd, dis, fifo⟩ := h
  unfold release
  split
  · constructor <;> grind [FHolds]
  · rename_i u l hb
    refine ⟨?_, ⟨fun _ => ⟨u, by simp [upd, FHolds]⟩, fun _ => rfl⟩, ?_, ?_, ?_, ?_, ?_, ?_, ?_, ?_, ?_, ?_⟩ <;> simp only [upd] at * <;>
      grind [FHolds]

theorem fstep {s s' : FState} {a : FAct} (iv : FInv s) (h : fnextProper s a = some s') : FInv s' := by
  unfold fnextProper at h
  split at h
  case isFalse => cases h
  rename_i hp
  obtain ⟨one, held, free, nb, nc, lock, wait, pre, blk, cnd, dis, fifo⟩ := iv
  cases a with
  | lock t =>
    simp only [fnext] at h
    split at h
    · split at h <;> cases h
      · constructor <;> simp only [upd] at * <;> grind [FHolds]
      · refine ⟨?_, ⟨fun _ => ⟨t, by simp [upd, FHolds]⟩, fun _ => rfl⟩, ?_, ?_, ?_, ?_, ?_, ?_, ?_, ?_, ?_, ?_⟩ <;> simp only [upd] at * <;>
          grind [FHolds]
    · cases h
  | unlock t =>
    simp only [fnext] at h
    split at h <;> cases h
    apply release_inv
    constructor <;> simp only [upd] at * <;> grind [FHolds]
  | wait t =>
    simp only [fnext] at h
    split at h <;> cases h
    refine ⟨?_, ⟨fun _ => ⟨t, by simp [upd, FHolds]⟩, fun _ => held.2 ⟨t, by simp [*, FHolds]⟩⟩, ?_, ?_, ?_, ?_, ?_, ?_, ?_, ?_, ?_, ?_⟩ <;>
      simp only [upd] at * <;> grind [FHolds]
  | onWait t =>
    simp only [fnext] at h
    split at h <;> cases h
    apply release_inv
    constructor <;> simp only [upd] at * <;> grind [FHolds]
  | notifyOne t =>
    simp only [Proper] at hp
    simp only [fnext] at h
    split at h <;> cases h
    · exact ⟨one, held, free, nb, nc, lock, wait, pre, blk, cnd, dis, fifo⟩
    · constructor <;> grind [FHolds]
  | timeout t => simp only [Proper] at hp

theorem freach {s : FState} (h : Reach fnextProper fstart s) : FInv s :=
  h.inv FInv (by constructor <;> simp [fstart, FHolds]) fun _ _ _ p e => fstep p e

/-- C40: at most one thread has a `fast_block_lock`. -/
theorem C40_fast_block_exclusion_partial (s : FState) (h : Reach fnextProper fstart s) (t u : Nat) (ht : s.pc t = .has) (hu : s.pc u = .has) :
    t = u := (freach h).one t u (by rw [ht]; rfl) (by rw [hu]; rfl)

/-- C40: threads get the lock in the order in which they began to wait for it; a notified thread begins to wait when it is notified; no
    thread waits for a lock that no thread has. -/
theorem C40_fast_block_fifo_partial (s : FState) (h : Reach fnextProper fstart s) :
    s.arrived = s.served ++ s.blocked ∧ (∀ t, s.pc t = .locking → t ∈ s.blocked) ∧
    (s.blocked ≠ [] → ∃ t, s.pc t = .has ∨ s.pc t = .preWait) := by
  have iv := freach h
  refine ⟨iv.fifo, iv.lock, fun hb => ?_⟩
  cases e : s.held with
  | false => exact absurd (iv.free e) hb
  | true =>
    obtain ⟨t, ht⟩ := iv.held.1 e
    refine ⟨t, ?_⟩
    cases hp : s.pc t <;> rw [hp] at ht <;> simp [FHolds] at ht ⊢

/-- C40: `unlock`, and a wait, hand the lock to the thread that has waited longest. -/
theorem C40_fast_block_hand_over_partial (s s' : FState) (t u : Nat) (l : List Nat) (h : Reach fnextProper fstart s) (hb : s.blocked = u :: l)
    (hs : fnext s (.unlock t) = some s' ∨ fnext s (.onWait t) = some s') : s'.pc u = .has ∧ s'.blocked = l ∧ s'.held = true := by
  have _ := freach h
  rcases hs with hs | hs <;> simp only [fnext] at hs <;> split at hs <;> cases hs <;> simp [release, hb, upd]

/-- Thread 1 waits at a condition variable, thread 2 notifies it while thread 3 waits for the lock: thread 3 gets the lock first. -/
example : ∃ s, Reach fnextProper fstart s ∧ s.pc 1 = .has ∧ s.served = [3, 1] :=
  ⟨_, Reach.of_exec (s' := ((exec fnextProper fstart [.lock 1, .wait 1, .onWait 1, .lock 2, .lock 3, .notifyOne 2, .unlock 2, .unlock 3]).getD fstart))
    [.lock 1, .wait 1, .onWait 1, .lock 2, .lock 3, .notifyOne 2, .unlock 2, .unlock 3] rfl, by decide +kernel, by decide +kernel⟩

/-- C40 (and C41) fail for `fast_block_lock` with a condition variable when a waiting thread is notified, or its wait times out, while no thread
    has the lock: it is put on the list of blocked threads of the free lock, and nothing hands it the lock. -/
theorem C40_fast_block_notify_free_violated :
    ∃ s, Reach fnext fstart s ∧ s.held = false ∧ s.blocked = [1] ∧ s.pc 1 = .waiting ∧ s.cond = [] ∧ ∀ t, ¬ FHolds (s.pc t) = true :=
  ⟨_, Reach.of_exec (s' := ((exec fnext fstart [.lock 1, .wait 1, .onWait 1, .notifyOne 2]).getD fstart))
    [.lock 1, .wait 1, .onWait 1, .notifyOne 2] rfl, by decide +kernel, by decide +kernel, by decide +kernel, by decide +kernel, by
      intro t
      show ¬ FHolds (upd (upd (upd (fun _ => FPc.run) 1 .has) 1 .preWait) 1 .waiting t) = true
      by_cases e : t = 1 <;> simp [upd, e, FHolds]⟩

/-- The same in general: whenever the wait of a thread times out while no thread has the lock. -/
theorem C40_fast_block_timeout_violated (s : FState) (h : Reach fnextProper fstart s) (t : Nat) (ht : t ∈ s.cond) (hf : s.held = false) :
    ∃ s', fnext s (.timeout t) = some s' ∧ s'.held = false ∧ s'.blocked = [t] ∧ s'.pc t = .waiting := by
  have iv := freach h
  have hp : s.pc t = .waiting := by
    rcases iv.cnd t ht with hp | hp
    · have := iv.held.2 ⟨t, by rw [hp]; rfl⟩
      rw [hf] at this; cases this
    · exact hp
  refine ⟨{ s with cond := s.cond.erase t, blocked := s.blocked ++ [t], arrived := s.arrived ++ [t] }, ?_, hf, ?_, hp⟩
  · simp only [fnext, if_pos (And.intro hp ht)]
  · simp [iv.free hf]

end Verif.HybridLock
