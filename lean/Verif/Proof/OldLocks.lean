import Verif.Spec.OldLocks
import Verif.Proof.Heap

/-!
Invariants of the locks of mutex.cfa.
-/
namespace Verif.OldLocks
open Verif

/-! ## The mutex and the condition lock -/

/-- The queues are the threads that are parked, in the order in which they came. -/
structure Queues (s : State) : Prop where
  hb : ∀ t, t ∈ s.blocked ↔ s.pc t = .parked
  nb : s.blocked.Nodup
  hc : ∀ t, t ∈ s.conds ↔ Waits s t
  nc : s.conds.Nodup
  lo : s.asked = s.got ++ s.blocked
  lw : s.waited = s.woken ++ s.conds

structure Inv (s : State) : Prop extends Queues s where
  ex : Exclusive s
  lk : s.locked = true ↔ ∃ t, s.pc t = .inside
  wt : s.blocked ≠ [] → s.locked = true

theorem Inv.init : Inv init :=
  ⟨⟨by simp [OldLocks.init], by simp [OldLocks.init], by simp [OldLocks.init, Waits], by simp [OldLocks.init],
    rfl, rfl⟩, by simp [Exclusive, OldLocks.init], by simp [OldLocks.init], by simp [OldLocks.init]⟩

/-- A thread that is in no queue moves to a place that is in no queue. -/
theorem Queues.move {s : State} (q : Queues s) (t : Nat) (p : Pc) (h1 : s.pc t ≠ .parked)
    (h2 : ∀ l, s.pc t ≠ .waiting l) (h3 : p ≠ .parked) (h4 : ∀ l, p ≠ .waiting l) (b : Bool) :
    Queues { s with locked := b, pc := upd s.pc t p } := by
  refine ⟨fun x => ?_, q.nb, fun x => ?_, q.nc, q.lo, q.lw⟩
  · show x ∈ s.blocked ↔ _
    rw [q.hb, show ({ s with locked := b, pc := upd s.pc t p } : State).pc x = upd s.pc t p x from rfl,
      upd_apply]
    split
    · subst x; exact ⟨fun h => absurd h h1, fun h => absurd h h3⟩
    · rfl
  · show x ∈ s.conds ↔ _
    rw [q.hc]
    unfold Waits
    simp only [upd_apply]
    split
    · subst x; exact ⟨fun ⟨l, h⟩ => absurd h (h2 l), fun ⟨l, h⟩ => absurd h (h4 l)⟩
    · rfl

theorem Queues.sleep {s : State} (q : Queues s) (t : Nat) (l : Bool) (h1 : s.pc t ≠ .parked)
    (h2 : ∀ l, s.pc t ≠ .waiting l) :
    Queues { s with conds := s.conds ++ [t], pc := upd s.pc t (.waiting l), waited := s.waited ++ [t] } := by
  have hn : t ∉ s.conds := fun h => by
    obtain ⟨l, h⟩ := (q.hc t).1 h; exact h2 l h
  refine ⟨fun x => ?_, q.nb, fun x => ?_, ?_, q.lo, ?_⟩
  · show x ∈ s.blocked ↔ upd s.pc t _ x = _
    rw [q.hb, upd_apply]
    split
    · subst x; simp [h1]
    · rfl
  · show x ∈ s.conds ++ [t] ↔ _
    unfold Waits
    simp only [upd_apply, List.mem_append, List.mem_singleton]
    split
    · rename_i h; subst h; simp
    · rename_i h; rw [q.hc]; simp [h, Waits]
  · show (s.conds ++ [t]).Nodup
    rw [List.nodup_append]
    exact ⟨q.nc, by simp, by simp; exact fun a ha h => hn (h ▸ ha)⟩
  · show s.waited ++ [t] = s.woken ++ (s.conds ++ [t])
    rw [q.lw, List.append_assoc]

theorem Inv.lock {s : State} (v : Inv s) (t : Nat) (h : s.pc t = .out ∨ s.pc t = .relock) :
    Inv (lock s t) := by
  have h1 : s.pc t ≠ .parked := by rcases h with h | h <;> simp [h]
  have h2 : ∀ l, s.pc t ≠ .waiting l := by rcases h with h | h <;> simp [h]
  have h3 : s.pc t ≠ .inside := by rcases h with h | h <;> simp [h]
  unfold OldLocks.lock
  split
  · rename_i hl
    have hn : t ∉ s.blocked := fun hh => h1 ((v.hb t).1 hh)
    refine ⟨⟨fun x => ?_, ?_, fun x => ?_, v.nc, ?_, v.lw⟩, ?_, ?_, fun _ => hl⟩
    · show x ∈ s.blocked ++ [t] ↔ upd s.pc t _ x = _
      simp only [upd_apply, List.mem_append, List.mem_singleton]
      split
      · simp [*]
      · rename_i h; rw [v.hb]; simp [h]
    · show (s.blocked ++ [t]).Nodup
      rw [List.nodup_append]
      exact ⟨v.nb, by simp, by simp; exact fun a ha h => hn (h ▸ ha)⟩
    · show x ∈ s.conds ↔ _
      rw [v.hc]
      unfold Waits
      simp only [upd_apply]
      split
      · subst x; simp [h2]
      · rfl
    · show s.asked ++ [t] = s.got ++ (s.blocked ++ [t])
      rw [v.lo, List.append_assoc]
    · intro a b ha hb
      simp only [upd_apply] at ha hb
      split at ha
      · cases ha
      · split at hb
        · cases hb
        · exact v.ex a b ha hb
    · show s.locked = true ↔ ∃ x, upd s.pc t _ x = _
      rw [v.lk]
      constructor
      · rintro ⟨x, hx⟩
        exact ⟨x, by rw [upd_ne _ _ (fun e => h3 (by rw [← e]; exact hx))]; exact hx⟩
      · rintro ⟨x, hx⟩
        rw [upd_apply] at hx
        split at hx
        · cases hx
        · exact ⟨x, hx⟩
  · rename_i hl
    have hno : ∀ x, s.pc x ≠ .inside := fun x hx => hl (v.lk.2 ⟨x, hx⟩)
    have hb : s.blocked = [] := by
      by_contra hh; exact hl (v.wt hh)
    have q := v.toQueues.move t .inside h1 h2 (by simp) (by simp) true
    refine ⟨⟨q.hb, q.nb, q.hc, q.nc, ?_, q.lw⟩, ?_, ?_, fun _ => rfl⟩
    · show s.asked ++ [t] = s.got ++ [t] ++ s.blocked
      rw [v.lo, hb]; simp
    · intro a b ha hb
      simp only [upd_apply] at ha hb
      split at ha
      · split at hb
        · simp [*]
        · exact absurd hb (hno b)
      · exact absurd ha (hno a)
    · exact ⟨fun _ => ⟨t, upd_same ..⟩, fun _ => rfl⟩

theorem tryLock_eq (s : State) (t : Nat) :
    tryLock s t = if s.locked then (s, false) else (lock s t, true) := by
  unfold tryLock OldLocks.lock
  cases h : s.locked <;> simp [h]

/-- Giving up the lock when nobody holds it any more. -/
theorem Queues.release {s : State} (q : Queues s) (hno : ∀ t, s.pc t ≠ .inside) : Inv (release s) := by
  unfold OldLocks.release
  cases hb : s.blocked with
  | nil =>
    simp only [hb]
    refine ⟨⟨?_, by simp, q.hc, q.nc, ?_, q.lw⟩, ?_, ?_, ?_⟩
    · have := q.hb
      rwa [hb] at this
    · have := q.lo
      rwa [hb] at this
    · exact fun a _ ha => absurd ha (hno a)
    · simp [hno]
    · simp
  | cons u r =>
    simp only [hb]
    have hu : s.pc u = .parked := (q.hb u).1 (by simp [hb])
    have hn := q.nb
    rw [hb, List.nodup_cons] at hn
    refine ⟨⟨fun x => ?_, hn.2, fun x => ?_, q.nc, ?_, q.lw⟩, ?_, ?_, ?_⟩
    · show x ∈ r ↔ upd s.pc u _ x = _
      rw [upd_apply]
      split
      · subst x; simp [hn.1]
      · rename_i h; rw [← q.hb, hb]; simp [h]
    · show x ∈ s.conds ↔ _
      rw [q.hc]
      unfold Waits
      simp only [upd_apply]
      split
      · subst x; simp [hu]
      · rfl
    · show s.asked = s.got ++ [u] ++ r
      rw [q.lo, hb]; simp
    · intro a b ha hb
      simp only [upd_apply] at ha hb
      split at ha
      · split at hb
        · simp [*]
        · exact absurd hb (hno b)
      · exact absurd ha (hno a)
    · exact ⟨fun _ => ⟨u, upd_same ..⟩, fun _ => by simp⟩
    · simp

theorem Inv.leave {s : State} (v : Inv s) {t : Nat} (h : s.pc t = .inside) (p : Pc) (hp : p ≠ .inside)
    (x : Nat) : upd s.pc t p x ≠ .inside := by
  rw [upd_apply]
  split
  · exact hp
  · rename_i hx; exact fun hh => hx (v.ex x t hh h)

theorem Inv.unlock {s : State} (v : Inv s) (t : Nat) (h : s.pc t = .inside) : Inv (unlock s t) := by
  have q := v.toQueues.move t .out (by simp [h]) (by simp [h]) (by simp) (by simp) s.locked
  exact q.release (v.leave h _ (by simp))

theorem Inv.wait {s : State} (v : Inv s) (t : Nat) (h : s.pc t = .inside) : Inv (wait s t) := by
  have q := v.toQueues.sleep t true (by simp [h]) (by simp [h])
  exact q.release (v.leave h _ (by simp))

theorem Inv.waitOnly {s : State} (v : Inv s) (t : Nat) (h : s.pc t = .out) : Inv (waitOnly s t) := by
  have q := v.toQueues.sleep t false (by simp [h]) (by simp [h])
  refine ⟨q, ?_, ?_, v.wt⟩
  · intro a b ha hb
    simp only [OldLocks.waitOnly, upd_apply] at ha hb
    split at ha
    · cases ha
    · split at hb
      · cases hb
      · exact v.ex a b ha hb
  · show s.locked = true ↔ ∃ x, upd s.pc t _ x = _
    rw [v.lk]
    constructor
    · rintro ⟨x, hx⟩
      exact ⟨x, by rw [upd_ne _ _ (fun e => by rw [e, h] at hx; cases hx)]; exact hx⟩
    · rintro ⟨x, hx⟩
      rw [upd_apply] at hx
      split at hx
      · cases hx
      · exact ⟨x, hx⟩

theorem Inv.notifyOne {s : State} (v : Inv s) : Inv (notifyOne s) := by
  unfold OldLocks.notifyOne
  cases hc : s.conds with
  | nil => exact v
  | cons u r =>
    simp only
    obtain ⟨l, hu⟩ := (v.hc u).1 (by simp [hc])
    have hn := v.nc
    rw [hc, List.nodup_cons] at hn
    generalize hp : (if s.pc u = .waiting true then Pc.relock else .out) = p
    have hp1 : p ≠ .parked ∧ p ≠ .inside ∧ ∀ l, p ≠ .waiting l := by
      rw [← hp]; split <;> simp
    refine ⟨⟨fun x => ?_, v.nb, fun x => ?_, hn.2, v.lo, ?_⟩, ?_, ?_, v.wt⟩
    · show x ∈ s.blocked ↔ upd s.pc u _ x = _
      rw [v.hb, upd_apply]
      split
      · subst x; simp [hu, hp1.1]
      · rfl
    · show x ∈ r ↔ _
      unfold Waits
      simp only [upd_apply]
      split
      · subst x; simp [hn.1, hp1.2.2]
      · rename_i h
        have := v.hc x
        rw [hc] at this
        simpa [h, Waits] using this
    · show s.waited = s.woken ++ [u] ++ r
      rw [v.lw, hc]; simp
    · intro a b ha hb
      simp only [upd_apply] at ha hb
      split at ha
      · exact absurd ha hp1.2.1
      · split at hb
        · exact absurd hb hp1.2.1
        · exact v.ex a b ha hb
    · show s.locked = true ↔ ∃ x, upd s.pc u _ x = _
      rw [v.lk]
      constructor
      · rintro ⟨x, hx⟩
        exact ⟨x, by rw [upd_ne _ _ (fun e => by rw [e, hu] at hx; cases hx)]; exact hx⟩
      · rintro ⟨x, hx⟩
        rw [upd_apply] at hx
        split at hx
        · exact absurd hx hp1.2.1
        · exact ⟨x, hx⟩

theorem notifyOne_conds (s : State) : (notifyOne s).conds = s.conds.tail ∧
    (notifyOne s).woken = s.woken ++ s.conds.take 1 ∧ (notifyOne s).waited = s.waited ∧
    (notifyOne s).got = s.got := by
  unfold OldLocks.notifyOne
  cases h : s.conds <;> simp [h]

theorem notifyLoop_spec (n : Nat) : ∀ s, Inv s → Inv (notifyLoop n s) ∧
    (notifyLoop n s).conds = s.conds.drop n ∧ (notifyLoop n s).woken = s.woken ++ s.conds.take n ∧
    (notifyLoop n s).got = s.got := by
  induction n with
  | zero => intro s v; simp [notifyLoop, v]
  | succ n ih =>
    intro s v
    obtain ⟨h1, h2, h3, h4⟩ := ih _ v.notifyOne
    obtain ⟨c1, c2, _, c3⟩ := notifyOne_conds s
    refine ⟨h1, ?_, ?_, ?_⟩
    · simp only [notifyLoop]; rw [h2, c1]; simp
    · simp only [notifyLoop]; rw [h3, c2, c1]
      cases s.conds <;> simp
    · simp only [notifyLoop]; rw [h4, c3]

theorem Inv.step {s : State} (v : Inv s) (a : Act) : Inv (step s a) := by
  cases a with
  | lock t => simp only [OldLocks.step]; split; exacts [v.lock t (Or.inl (by assumption)), v]
  | tryLock t =>
    simp only [OldLocks.step]; split
    · rw [tryLock_eq]; split
      · exact v
      · exact v.lock t (Or.inl (by assumption))
    · exact v
  | unlock t => simp only [OldLocks.step]; split; exacts [v.unlock t (by assumption), v]
  | waitOnly t => simp only [OldLocks.step]; split; exacts [v.waitOnly t (by assumption), v]
  | wait t => simp only [OldLocks.step]; split; exacts [v.wait t (by assumption), v]
  | relock t => simp only [OldLocks.step]; split; exacts [v.lock t (Or.inr (by assumption)), v]
  | notifyOne => exact v.notifyOne
  | notifyAll => exact (notifyLoop_spec _ s v).1

theorem Inv.runFrom {s : State} (v : Inv s) (as : List Act) : Inv (run s as) := by
  induction as generalizing s with
  | nil => exact v
  | cons a as ih => exact ih (v.step a)

theorem inv_run (as : List Act) : Inv (run init as) := Inv.init.runFrom as

/-! ### A call that has not returned -/

/-- After a step, a call of `t` that had not returned has not, or it returned with the lock. -/
def Kept (s s' : State) (t : Nat) : Prop :=
  (∃ l, s'.got = s.got ++ l) ∧ (Pending s t → Pending s' t ∨ (s'.pc t = .inside ∧ s'.got = s.got ++ [t]))

theorem kept_same (s s' : State) (t : Nat) (hg : s'.got = s.got) (h : Pending s t → Pending s' t) :
    Kept s s' t := ⟨⟨[], by simp [hg]⟩, fun hp => Or.inl (h hp)⟩

theorem kept_release (s s0 : State) (t : Nat) (hg : s0.got = s.got)
    (h : Pending s t → Pending s0 t) : Kept s (release s0) t := by
  unfold OldLocks.release
  cases hb : s0.blocked with
  | nil =>
    simp only [hb]
    exact kept_same _ _ _ hg h
  | cons u r =>
    simp only [hb]
    refine ⟨⟨[u], by simp [hg]⟩, fun hp => ?_⟩
    by_cases hu : t = u
    · subst hu; exact Or.inr ⟨upd_same .., by simp [hg]⟩
    · refine Or.inl ?_
      have := h hp
      unfold Pending at this ⊢
      simpa only [upd_ne _ _ hu] using this

theorem kept_lock (s : State) (t x : Nat) (hx : s.pc x = .out ∨ s.pc x = .relock) :
    Kept s (lock s x) t := by
  unfold OldLocks.lock
  split
  · refine kept_same _ _ _ rfl fun hp => ?_
    unfold Pending at hp ⊢
    simp only [upd_apply]
    split
    · simp
    · exact hp
  · refine ⟨⟨[x], rfl⟩, fun hp => ?_⟩
    by_cases hu : t = x
    · subst hu; exact Or.inr ⟨upd_same .., rfl⟩
    · refine Or.inl ?_
      unfold Pending at hp ⊢
      simpa only [upd_ne _ _ hu] using hp

theorem pending_upd {s s' : State} {t x : Nat} {p : Pc} (h : s'.pc = upd s.pc x p)
    (hx : ¬ Pending s x) (hp : Pending s t) : Pending s' t := by
  have : t ≠ x := fun e => hx (e ▸ hp)
  unfold Pending at hp ⊢
  rw [h]
  simpa only [upd_ne _ _ this] using hp

theorem kept_notify {s : State} (v : Inv s) (t : Nat) : Kept s (notifyOne s) t := by
  refine kept_same _ _ _ (notifyOne_conds s).2.2.2 fun hp => ?_
  unfold OldLocks.notifyOne
  cases hc : s.conds with
  | nil => exact hp
  | cons u r =>
    obtain ⟨l, hu⟩ := (v.hc u).1 (by simp [hc])
    unfold Pending at hp ⊢
    simp only [upd_apply]
    split
    · rename_i e; subst e
      rw [hu] at hp
      simp at hp
      subst hp
      simp [hu]
    · exact hp

theorem kept_loop (n t : Nat) : ∀ s, Inv s → Kept s (notifyLoop n s) t := by
  intro s v
  refine kept_same _ _ _ (notifyLoop_spec n s v).2.2.2 ?_
  induction n generalizing s with
  | zero => exact id
  | succ n ih =>
    intro hp
    refine ih _ v.notifyOne ?_
    rcases (kept_notify v t).2 hp with h | ⟨_, h⟩
    · exact h
    · rw [(notifyOne_conds s).2.2.2] at h
      simp at h

theorem kept_step {s : State} (v : Inv s) (a : Act) (t : Nat) : Kept s (step s a) t := by
  have self : Kept s s t := kept_same _ _ _ rfl id
  cases a with
  | lock x => simp only [OldLocks.step]; split; exacts [kept_lock s t x (Or.inl (by assumption)), self]
  | tryLock x =>
    simp only [OldLocks.step]; split
    · rw [tryLock_eq]; split
      · exact self
      · exact kept_lock s t x (Or.inl (by assumption))
    · exact self
  | unlock x =>
    simp only [OldLocks.step]; split
    · rename_i h
      exact kept_release _ _ _ rfl (pending_upd rfl (by simp [Pending, h]))
    · exact self
  | waitOnly x =>
    simp only [OldLocks.step]; split
    · rename_i h
      exact kept_same _ _ _ rfl (pending_upd rfl (by simp [Pending, h]))
    · exact self
  | wait x =>
    simp only [OldLocks.step]; split
    · rename_i h
      exact kept_release _ _ _ rfl (pending_upd rfl (by simp [Pending, h]))
    · exact self
  | relock x => simp only [OldLocks.step]; split; exacts [kept_lock s t x (Or.inr (by assumption)), self]
  | notifyOne => exact kept_notify v t
  | notifyAll => exact kept_loop _ t s v

theorem got_run (as : List Act) : ∀ s, Inv s → ∃ l, (run s as).got = s.got ++ l := by
  induction as with
  | nil => intro s _; exact ⟨[], by simp [run]⟩
  | cons a as ih =>
    intro s v
    obtain ⟨l, hl⟩ := ih _ (v.step a)
    obtain ⟨l', hl'⟩ := (kept_step v a 0).1
    exact ⟨l' ++ l, by rw [show run s (a :: as) = run (step s a) as from rfl, hl, hl', List.append_assoc]⟩

theorem kept_run (as : List Act) (t : Nat) : ∀ s, Inv s → Pending s t →
    Pending (run s as) t ∨ ∃ l, (run s as).got = s.got ++ l ∧ t ∈ l := by
  induction as with
  | nil => intro s _ h; exact Or.inl h
  | cons a as ih =>
    intro s v hp
    obtain ⟨⟨l, hl⟩, hk⟩ := kept_step v a t
    rw [show run s (a :: as) = run (step s a) as from rfl]
    rcases hk hp with h | ⟨_, h⟩
    · rcases ih _ (v.step a) h with h | ⟨l', h, ht⟩
      · exact Or.inl h
      · exact Or.inr ⟨l ++ l', by rw [h, hl, List.append_assoc], by simp [ht]⟩
    · obtain ⟨l', hl'⟩ := got_run as _ (v.step a)
      exact Or.inr ⟨[t] ++ l', by rw [hl', h, List.append_assoc], by simp⟩

/-! ## The recursive mutex -/

structure RInv (s : RState) : Prop where
  own : ∀ t, 0 < s.depth t ↔ s.owner = some t
  cnt : ∀ t, s.owner = some t → s.count = s.depth t
  free : s.owner = none → s.blocked = []
  hb : ∀ t, t ∈ s.blocked ↔ s.asleep t = true
  nb : s.blocked.Nodup
  lo : s.asked = s.got ++ s.blocked
  up : ∀ t, s.owner = some t → s.asleep t = false

theorem RInv.init : RInv rinit := by
  constructor <;> simp [rinit]

theorem RInv.zero {s : RState} (v : RInv s) {t : Nat} (h : s.owner ≠ some t) : s.depth t = 0 := by
  by_contra hh
  exact h ((v.own t).1 (by omega))

theorem RInv.lock {s : RState} (v : RInv s) (t : Nat) (h : s.asleep t = false) : RInv (rlock s t) := by
  unfold rlock
  split
  · rename_i ho
    have hb := v.free ho
    have hz : ∀ x, s.depth x = 0 := fun x => v.zero (by simp [ho])
    refine ⟨fun x => ?_, ?_, by simp, v.hb, v.nb, by simp [v.lo, hb], ?_⟩
    · simp only [upd_apply, hz]
      split
      · simp [*]
      · rename_i e; simp; exact fun e' => e e'.symm
    · rintro x hx
      cases hx
      simp [hz]
    · rintro x hx
      cases hx
      exact h
  · split
    · rename_i ho ho'
      refine ⟨fun x => ?_, ?_, by simp [ho'], v.hb, v.nb, v.lo, v.up⟩
      · simp only [upd_apply]
        split
        · subst x; simp [ho']
        · exact v.own x
      · intro x hx
        have := v.cnt x hx
        rw [show s.owner = some x from hx] at ho'
        cases ho'
        simp [this]
    · rename_i ho ho'
      have hn : t ∉ s.blocked := fun hh => by
        rw [(v.hb t).1 hh] at h; cases h
      refine ⟨v.own, v.cnt, fun hh => absurd hh ho, fun x => ?_, ?_, ?_, fun x hx => ?_⟩
      · show x ∈ s.blocked ++ [t] ↔ upd s.asleep t true x = true
        simp only [upd_apply, List.mem_append, List.mem_singleton]
        split
        · simp [*]
        · rename_i e; rw [v.hb]; simp [e]
      · show (s.blocked ++ [t]).Nodup
        rw [List.nodup_append]
        exact ⟨v.nb, by simp, by simp; exact fun a ha e => hn (e ▸ ha)⟩
      · show s.asked ++ [t] = s.got ++ (s.blocked ++ [t])
        rw [v.lo, List.append_assoc]
      · show upd s.asleep t true x = false
        rw [upd_ne _ _ (fun e => ho' (by rw [← e]; exact hx))]
        exact v.up x hx

theorem rtryLock_eq (s : RState) (t : Nat) :
    rtryLock s t = if s.owner = none ∨ s.owner = some t then (rlock s t, true) else (s, false) := by
  unfold rtryLock rlock
  by_cases h1 : s.owner = none
  · simp [h1]
  · by_cases h2 : s.owner = some t <;> simp [h1, h2]

theorem RInv.unlock {s : RState} (v : RInv s) (t : Nat) (hd : s.depth t ≠ 0) : RInv (runlock s t) := by
  have ho := (v.own t).1 (by omega)
  have hc := v.cnt t ho
  have hz : ∀ x, x ≠ t → s.depth x = 0 := fun x hx => v.zero (by rw [ho]; simpa using fun e => hx e.symm)
  unfold runlock
  simp only
  split
  · rename_i h0
    have h1 : s.depth t - 1 = 0 := by omega
    have hz' : ∀ x, upd s.depth t (s.depth t - 1) x = 0 := fun x => by
      rw [upd_apply]; split
      · exact h1
      · exact hz x (by assumption)
    split
    · rename_i hb
      change s.blocked = [] at hb
      exact ⟨fun x => by simp [hz'], by simp, fun _ => hb, v.hb, v.nb, v.lo, by simp⟩
    · rename_i u q hb
      change s.blocked = u :: q at hb
      have hn := v.nb
      rw [hb, List.nodup_cons] at hn
      refine ⟨fun x => ?_, ?_, by simp, fun x => ?_, hn.2, ?_, ?_⟩
      · show 0 < upd (upd s.depth t (s.depth t - 1)) u _ x ↔ _
        rw [upd_apply]
        split
        · simp [*]
        · rename_i e; rw [hz']; simp; exact fun e' => e e'.symm
      · rintro x hx
        cases hx
        show 1 = upd (upd s.depth t (s.depth t - 1)) u _ u
        rw [upd_same, hz']
      · show x ∈ q ↔ upd s.asleep u false x = true
        rw [upd_apply]
        split
        · subst x; simp [hn.1]
        · rename_i e; rw [← v.hb, hb]; simp [e]
      · show s.asked = s.got ++ [u] ++ q
        rw [v.lo, hb]; simp
      · rintro x hx
        cases hx
        exact upd_same ..
  · rename_i h0
    refine ⟨fun x => ?_, ?_, v.free, v.hb, v.nb, v.lo, v.up⟩
    · show 0 < upd s.depth t (s.depth t - 1) x ↔ s.owner = some x
      rw [upd_apply]
      split
      · subst x; simp [ho]; omega
      · exact v.own x
    · intro x hx
      change s.owner = some x at hx
      rw [ho] at hx
      cases hx
      show s.count - 1 = upd s.depth t _ t
      rw [upd_same, hc]

theorem RInv.step {s : RState} (v : RInv s) (a : RAct) : RInv (rstep s a) := by
  cases a with
  | lock t =>
    simp only [rstep]; split
    · exact v
    · exact v.lock t (by simpa using ‹¬ s.asleep t = true›)
  | tryLock t =>
    simp only [rstep]; split
    · exact v
    · rw [rtryLock_eq]; split
      · exact v.lock t (by simpa using ‹¬ s.asleep t = true›)
      · exact v
  | unlock t =>
    simp only [rstep]; split
    · exact v
    · rename_i h; exact v.unlock t (fun hh => h (Or.inr hh))

theorem rinv_run (as : List RAct) : RInv (rrun rinit as) := by
  have : ∀ s, RInv s → RInv (rrun s as) := by
    induction as with
    | nil => exact fun s v => v
    | cons a as ih => exact fun s v => ih _ (v.step a)
  exact this _ RInv.init

end Verif.OldLocks
