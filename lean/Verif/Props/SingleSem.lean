import Verif.Model.SingleSem
import Verif.Proof.Heap
import Mathlib.Tactic.SplitIfs
/-!
C51: `single_sem` and `oneshot`. `Reach next start s` (`Reach next1 start s`): `s` is reached from a new `single_sem` (`oneshot`) by any interleaving of the steps
of one waiting thread and any number of posting threads.
-/
namespace Verif.SingleSem
open Verif

/-- `u`: the thread that is about to unpark, if there is one. -/
structure Inv (s : State) (u : Option Nat) : Prop where
  un : ∀ t, s.p t = .unpark ↔ u = some t
  thr : s.ptr = .thr → s.w = .park
  tok : s.token + (if u = none then 0 else 1) + (if s.ptr = .thr then 1 else 0) = if s.w = .park then 1 else 0
  w1 : ∀ e, s.w = .casOther e → e ≠ .one ∧ e ≠ .thr
  p1 : ∀ t e, s.p t = .cas e → e ≠ .one
  eff : s.posts = s.waits.length + s.token + (if u = none then 0 else 1) + (if s.ptr = .one then 1 else 0)
  retT : (s.rets.filter (fun r => r.2)).length = (s.waits.filter id).length + s.token

theorem start_inv : Inv start none := by
  constructor <;> simp [start]

set_option maxHeartbeats 2000000 in
theorem step_inv {s s' : State} {a : Act} {u : Option Nat} (h : next s a = some s') (iv : Inv s u) : ∃ u', Inv s' u' := by
  obtain ⟨i1, i2, i3, i4, i5, i6, i7⟩ := iv
  cases a with
  | wait =>
    simp only [next] at h
    split at h <;> cases h
    refine ⟨u, ?_⟩
    constructor <;> intros <;> grind
  | post t =>
    simp only [next] at h
    split at h <;> cases h
    refine ⟨u, ?_⟩
    constructor <;> intros <;> (try simp only [upd] at *) <;> grind
  | stepW =>
    simp only [next] at h
    split at h
    · cases h
    · cases h; refine ⟨u, ?_⟩; constructor <;> intros <;> grind
    · split at h <;> cases h <;> refine ⟨u, ?_⟩ <;> constructor <;> intros <;> simp_all <;> grind
    · split at h <;> cases h <;> refine ⟨u, ?_⟩ <;> constructor <;> intros <;> simp_all <;> grind
    · split at h <;> cases h
      refine ⟨u, ?_⟩
      constructor <;> intros <;> simp_all <;> grind
  | stepP t =>
    simp only [next] at h
    split at h
    · cases h
    · split at h <;> cases h <;> refine ⟨u, ?_⟩ <;> constructor <;> intros <;> (try simp only [upd] at *) <;> grind
    · next e hp =>
      split at h
      · split at h
        · cases h; refine ⟨u, ?_⟩; constructor <;> intros <;> (try simp only [upd] at *) <;> grind
        · have he : e = .thr := by
            have := i5 t e hp
            cases e <;> simp_all
          have hu : u = none := by grind
          cases h; refine ⟨some t, ?_⟩; constructor <;> intros <;> (try simp only [upd] at *) <;> grind
      · cases h; refine ⟨u, ?_⟩; constructor <;> intros <;> (try simp only [upd] at *) <;> grind
    · next hp =>
      cases h; refine ⟨none, ?_⟩; constructor <;> intros <;> (try simp only [upd] at *) <;> grind

theorem reach_inv {s : State} (h : Reach next start s) : ∃ u, Inv s u :=
  Reach.inv (fun s => ∃ u, Inv s u) ⟨none, start_inv⟩ (fun _ _ _ hi hn => by obtain ⟨u, hi⟩ := hi; exact step_inv hn hi) h

/-- C51, `single_sem`: a wait returns only after a post, one post for each return; and at most one post is remembered
    besides the one that is waking a blocked wait. -/
theorem C51_sem_wait_needs_post {s : State} (h : Reach next start s) :
    s.waits.length ≤ s.posts ∧ s.posts ≤ s.waits.length + 1 + (if s.w = .park then 1 else 0) := by
  obtain ⟨u, iv⟩ := reach_inv h
  have h1 := iv.eff
  have h2 := iv.tok
  have h3 := iv.thr
  constructor
  · omega
  · grind

/-- C51, `single_sem`: no post is lost: if more posts have taken effect than waits have returned, then a wait does not stay blocked: it can take a step now,
    or a posting thread is about to unpark it. -/
theorem C51_sem_not_lost {s : State} (h : Reach next start s) (hp : s.waits.length < s.posts) (hw : s.w ≠ .run) :
    (next s .stepW).isSome = true ∨ ∃ t, s.p t = .unpark ∧ (next s (.stepP t)).isSome = true := by
  obtain ⟨u, iv⟩ := reach_inv h
  have h1 := iv.eff
  have h2 := iv.tok
  have h3 := iv.thr
  cases hq : s.w with
  | run => exact absurd hq hw
  | loop => left; simp [next, hq]
  | casOne => left; simp only [next, hq]; split <;> rfl
  | casOther e => left; simp only [next, hq]; split <;> rfl
  | park =>
    by_cases ht : 0 < s.token
    · left; simp [next, hq, ht]
    · cases hu : u with
      | some t => right; exact ⟨t, (iv.un t).2 hu, by simp [next, (iv.un t).2 hu]⟩
      | none => grind

/-- C51, `single_sem`: a blocked wait for which there has been no post yet is woken by the next post: its exchange takes the waiting thread, and it returns true. -/
theorem C51_sem_post_wakes {s : State} (h : Reach next start s) (hw : s.w = .park) (hp : s.posts = s.waits.length) (t : Nat) (ht : s.p t = .loop) :
    ∃ s', exec next s [.stepP t, .stepP t, .stepP t] = some s' ∧ s'.token = 1 ∧ s'.rets = s.rets ++ [(t, true)] := by
  obtain ⟨u, iv⟩ := reach_inv h
  have h1 := iv.eff
  have h2 := iv.tok
  have hthr : s.ptr = .thr := by grind
  have htok : s.token = 0 := by grind
  refine ⟨_, by simp only [exec, next, ht, hthr, upd_same, upd]; simp; rfl, ?_, ?_⟩ <;> simp [htok]

/-- C51, `single_sem`: a post returns true if and only if it woke the waiting thread: the calls of `post` that have returned true are as many as the blocked
    waits that have returned or are about to return. -/
theorem C51_sem_post_result {s : State} (h : Reach next start s) :
    (s.rets.filter (fun r => r.2)).length = (s.waits.filter id).length + s.token ∧ s.token ≤ 1 := by
  obtain ⟨u, iv⟩ := reach_inv h
  have h2 := iv.tok
  refine ⟨iv.retT, ?_⟩
  split_ifs at h2 <;> omega

example : let s := (exec next start [.post 1, .stepP 1, .stepP 1, .wait, .stepW, .stepW, .wait, .stepW, .stepW, .post 2, .stepP 2, .stepP 2, .stepP 2, .stepW]).getD start
    s.waits = [false, true] ∧ s.rets = [(1, false), (2, true)] ∧ s.posts = 2 := ⟨by decide +kernel, by decide +kernel, by decide +kernel⟩

example : let as : List Act := [.wait, .stepW, .stepW, .post 2]
    let s := (exec next start as).getD start
    Reach next start s ∧ s.w = .park ∧ s.posts = s.waits.length ∧ s.p 2 = .loop :=
  ⟨Reach.of_isSome _ (by decide +kernel), by decide +kernel, by decide +kernel, by decide +kernel⟩

/-! ### oneshot -/

structure Inv1 (s : State) (u : Option Nat) : Prop where
  un : ∀ t, s.p t = .unpark ↔ u = some t
  thr : s.ptr = .thr → s.w = .park
  tok : s.token + (if u = none then 0 else 1) + (if s.ptr = .thr then 1 else 0) = if s.w = .park then 1 else 0
  w1 : ∀ e, s.w = .casOther e → e = .zero
  w2 : s.w ≠ .casOne
  p1 : ∀ t e, s.p t ≠ .cas e
  eff : s.ptr = .one ↔ 0 < s.posts
  one : s.posts ≤ 1
  wts : s.waits ≠ [] → s.posts = 1
  pk : s.w = .park → s.ptr ≠ .zero
  wl : s.waits.length ≤ if s.w = .run then 1 else 0
  retT : (s.rets.filter (fun r => r.2)).length = (s.waits.filter id).length + s.token

theorem start_inv1 : Inv1 start none := by
  constructor <;> simp [start]

set_option maxHeartbeats 2000000 in
theorem step_inv1 {s s' : State} {a : Act} {u : Option Nat} (h : next1 s a = some s') (iv : Inv1 s u) : ∃ u', Inv1 s' u' := by
  obtain ⟨i1, i2, i3, i4, i5, i6, i7, i8, i9, i12, i10, i11⟩ := iv
  have hcov : s.ptr = .zero ∨ s.ptr = .one ∨ s.ptr = .thr := by cases s.ptr <;> simp
  cases a with
  | wait =>
    simp only [next1] at h
    split at h <;> cases h
    refine ⟨u, ?_⟩
    constructor <;> intros <;> grind
  | post t =>
    simp only [next1] at h
    split at h <;> cases h
    refine ⟨u, ?_⟩
    constructor <;> intros <;> (try simp only [upd] at *) <;> grind
  | stepW =>
    simp only [next1] at h
    split at h
    · cases h
    · split at h <;> cases h <;> refine ⟨u, ?_⟩ <;> constructor <;> intros <;> grind
    · split at h <;> cases h <;> refine ⟨u, ?_⟩ <;> constructor <;> intros <;> grind
    · split at h <;> cases h
      refine ⟨u, ?_⟩
      constructor <;> intros <;> grind
    · cases h
  | stepP t =>
    simp only [next1] at h
    split at h
    · cases h
    · split at h
      · cases h; refine ⟨u, ?_⟩; constructor <;> intros <;> (try simp only [upd] at *) <;> grind
      · cases h; refine ⟨u, ?_⟩; constructor <;> intros <;> (try simp only [upd] at *) <;> grind
      · cases h; refine ⟨some t, ?_⟩; constructor <;> intros <;> (try simp only [upd] at *) <;> grind
    · cases h; refine ⟨none, ?_⟩; constructor <;> intros <;> (try simp only [upd] at *) <;> grind
    · cases h

theorem reach_inv1 {s : State} (h : Reach next1 start s) : ∃ u, Inv1 s u :=
  Reach.inv (fun s => ∃ u, Inv1 s u) ⟨none, start_inv1⟩ (fun _ _ _ hi hn => by obtain ⟨u, hi⟩ := hi; exact step_inv1 hn hi) h

/-- C51, `oneshot`: the wait returns only after a post, and the object then is fulfilled (the check of line 203). -/
theorem C51_oneshot_wait_needs_post {s : State} (h : Reach next1 start s) (hw : s.waits ≠ []) : 0 < s.posts ∧ s.ptr = .one := by
  obtain ⟨u, iv⟩ := reach_inv1 h
  have := iv.wts hw
  exact ⟨by omega, iv.eff.2 (by omega)⟩

/-- C51, `oneshot`: once a post happened the wait returns: it can take a step, or a posting thread is about to unpark it; and if it has not begun to block it
    never blocks. -/
theorem C51_oneshot_not_lost {s : State} (h : Reach next1 start s) (hp : 0 < s.posts) (hw : s.w ≠ .run) :
    (next1 s .stepW).isSome = true ∨ ∃ t, s.p t = .unpark ∧ (next1 s (.stepP t)).isSome = true := by
  obtain ⟨u, iv⟩ := reach_inv1 h
  have h1 := iv.eff.2 hp
  have h2 := iv.tok
  cases hq : s.w with
  | run => exact absurd hq hw
  | loop => left; simp [next1, hq, h1]
  | casOne => exact absurd hq iv.w2
  | casOther e => left; simp only [next1, hq]; split <;> rfl
  | park =>
    by_cases ht : 0 < s.token
    · left; simp [next1, hq, ht]
    · cases hu : u with
      | some t => right; exact ⟨t, (iv.un t).2 hu, by simp [next1, (iv.un t).2 hu]⟩
      | none => grind

/-- C51, `oneshot`: after a post a wait that has not blocked returns at once, with false. -/
theorem C51_oneshot_no_block {s : State} (h : Reach next1 start s) (hp : 0 < s.posts) (hw : s.w = .loop) :
    ∃ s', next1 s .stepW = some s' ∧ s'.w = .run ∧ s'.waits = s.waits ++ [false] := by
  obtain ⟨u, iv⟩ := reach_inv1 h
  exact ⟨{ s with w := .run, waits := s.waits ++ [false] }, by simp [next1, hw, iv.eff.2 hp], rfl, rfl⟩

/-- C51, `oneshot`: the calls of `post` that report to have woken a thread are as many as the blocked waits that have returned or are about to; so at most one. -/
theorem C51_oneshot_post_result {s : State} (h : Reach next1 start s) :
    (s.rets.filter (fun r => r.2)).length = (s.waits.filter id).length + s.token ∧ (s.rets.filter (fun r => r.2)).length ≤ 1 := by
  obtain ⟨u, iv⟩ := reach_inv1 h
  refine ⟨iv.retT, ?_⟩
  have h1 := iv.retT
  have h2 := iv.tok
  have h3 := iv.wl
  have h4 := List.length_filter_le id s.waits
  split_ifs at h2 h3 <;> first | omega | (simp_all; done)

example : let s := (exec next1 start [.wait, .stepW, .stepW, .post 1, .post 2, .stepP 2, .stepP 1, .stepP 2, .stepW]).getD start
    s.waits = [true] ∧ s.rets = [(1, false), (2, true)] ∧ s.posts = 1 ∧ s.ptr = .one := ⟨by decide +kernel, by decide +kernel, by decide +kernel, by decide +kernel⟩

end Verif.SingleSem
