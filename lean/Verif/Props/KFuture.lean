import Verif.Proof.KFutureC
/-!
C52: the kernel's futures. `Reach nextP start s`: `s` is reached by any interleaving of the steps of the client and of the servers in which the client uses no future it
abandoned, waits for at least one future, and no call of `wait_any` meets a future that is already fulfilled after it has set up another one
(`Proper` in Spec/KFuture.lean). The witnesses at the end show what happens without the last condition, which a client cannot ensure.
Missing from the full property: the executions excluded by it, in which the property is false.
-/
namespace Verif.KFuture
open Verif Verif.SingleSem

/-- C52: a call of `wait` or `wait_any` that returns, returns one of its futures, which is fulfilled; and then no future refers to a wait context. -/
theorem C52_returns_partial {s s' : State} {r : Option Nat} (h : Reach nextP start s) (hs : nextP s .stepC = some s') (hr : s'.rets = s.rets ++ [r]) :
    (∃ f, r = some f ∧ s.lo ≤ f ∧ f < s.hi ∧ s'.ptr f = .ful) ∧ ∀ g c, s'.ptr g ≠ .ctx c := by
  obtain ⟨u, hit, iv⟩ := reach_inv h
  have iv' := step_client iv hs
  obtain ⟨hp, hn⟩ := nextP_some hs
  have hrun : s'.c = .run := by
    have hne : s'.rets ≠ s.rets := by rw [hr]; simp
    clear iv'
    cases hc : s.c <;> simp only [next, hc, touch, afterSetup, afterWait, afterRet, leave] at hn <;>
      (try split at hn) <;> (try split at hn) <;> (try split at hn) <;> (try split at hn) <;> cases hn <;> first | rfl | exact absurd rfl hne
  refine ⟨?_, fun g c hg => ?_⟩
  · have hsp := iv.spin
    cases hc : s.c with
    | run => simp [next, hc] at hn
    | setR i =>
      have hi := iv.idx i (Or.inl hc)
      simp only [next, hc, touch, leave] at hn
      split at hn
      · next hq => cases hn; simp only [List.append_cancel_left_eq, List.cons.injEq, and_true] at hr; exact ⟨i, hr.symm, hi.1, hi.2, hq⟩
      · cases hn; simp at hrun
    | setC i e =>
      simp only [next, hc, touch, afterSetup] at hn
      split at hn <;> cases hn
      · simp only at hrun; split at hrun <;> simp at hrun
      · simp at hrun
    | osL =>
      have hl := iv.rng (by simp [hc, inCall])
      simp only [next, hc, afterWait, hl, if_true] at hn
      split at hn
      · split at hn <;> cases hn <;> simp at hrun
      · cases hn; simp at hrun
    | osC e =>
      simp only [next, hc] at hn
      split at hn <;> cases hn <;> simp at hrun
    | osP =>
      have hl := iv.rng (by simp [hc, inCall])
      simp only [next, hc, afterWait, hl, if_true] at hn
      split at hn
      · split at hn <;> cases hn <;> simp at hrun
      · cases hn
    | spin =>
      have hl := iv.any (by simp [hc, inCall]) (iv.spin hc)
      simp only [next, hc, touch, leave] at hn
      split at hn
      · cases hn; simp [hc] at hrun
      · next hf =>
        cases hn
        simp only [List.append_cancel_left_eq, List.cons.injEq, and_true] at hr
        refine ⟨s.lo, hr.symm, Nat.le_refl _, by omega, ?_⟩
        obtain ⟨f, hh⟩ := Option.ne_none_iff_exists'.1 (iv.after (Or.inl hc))
        have h2 := iv.hit2 f (by simp [hc, inCall]) hh
        have hfl : f = s.lo := by omega
        subst hfl
        have hd : s.sv s.lo = .done := by
          cases hd : s.sv s.lo with
          | unpark => exact absurd ((iv.prog s.lo).2 (by simp [hd, busy])) hf
          | store => exact absurd ((iv.prog s.lo).2 (by simp [hd, busy])) hf
          | done => rfl
          | _ => simp [hd, posted] at h2
        rcases iv.done _ hd with h3 | h3
        · exact h3
        · have := iv.nab (by simp [hc, inCall]) s.lo (Nat.le_refl _) (by omega)
          exact absurd ((iv.ab s.lo).2 h3) (by simp [this])
    | ret i r0 =>
      have hi := iv.idx i (Or.inr (Or.inr (Or.inl ⟨r0, hc⟩)))
      have hR : ∀ j, r0 = some j → s.ptr j = .ful ∧ s.lo ≤ j ∧ j < s.hi := fun j hj => iv.retR i r0 j (Or.inl hc) hj
      obtain ⟨f, hh⟩ := Option.ne_none_iff_exists'.1 (iv.after (Or.inr ⟨i, r0, Or.inl hc⟩))
      have h2 := iv.hit2 f (by simp [hc, inCall]) hh
      have hz : ¬ i + 1 < s.hi → s.ptr i ≠ .ful → ∃ j, r0 = some j := by
        intro hl hq
        apply Option.ne_none_iff_exists'.1
        by_cases hfi : f < i
        · exact iv.hitr i r0 f (Or.inl hc) hh hfi
        · exfalso
          have hfi : f = i := by omega
          subst hfi
          have hnp : s.ptr f ≠ .prog := by
            intro hq2
            simp only [next, hc, touch, afterRet, hq2] at hn
            rw [if_neg (by simp)] at hn
            cases hn
            simp at hrun
          have hd : s.sv f = .done := by
            cases hd : s.sv f with
            | unpark => exact absurd ((iv.prog f).2 (by simp [hd, busy])) hnp
            | store => exact absurd ((iv.prog f).2 (by simp [hd, busy])) hnp
            | done => rfl
            | _ => simp [hd, posted] at h2
          rcases iv.done _ hd with h3 | h3
          · exact hq h3
          · have := iv.nab (by simp [hc, inCall]) f (by omega) (by omega)
            exact absurd ((iv.ab f).2 h3) (by simp [this])
      simp only [next, hc, touch, afterRet, leave] at hn
      split at hn
      · next hq =>
        split at hn
        · cases hn; simp at hrun
        · next hl =>
          cases hn
          simp only [List.append_cancel_left_eq, List.cons.injEq, and_true] at hr
          obtain ⟨j, hj⟩ := hz hl (by simp [hq])
          obtain ⟨h3, h4, h5⟩ := hR j hj
          refine ⟨j, by rw [← hr, hj], h4, h5, ?_⟩
          show upd s.ptr i .armed j = .ful
          rw [upd_ne _ _ (by rintro rfl; simp [hq] at h3)]
          exact h3
      · split at hn
        · next hq =>
          split at hn
          · cases hn; simp at hrun
          · next hl =>
            cases hn
            simp only [List.append_cancel_left_eq, List.cons.injEq, and_true] at hr
            obtain ⟨j, hj⟩ := hz hl (by simp [hq])
            obtain ⟨h3, h4, h5⟩ := hR j hj
            exact ⟨j, by rw [← hr, hj], h4, h5, h3⟩
        · next hq =>
          split at hn
          · cases hn; simp at hrun
          · next hl =>
            cases hn
            simp only [List.append_cancel_left_eq, List.cons.injEq, and_true] at hr
            exact ⟨i, hr.symm, hi.1, hi.2, hq⟩
        · cases hn; simp at hrun
        · cases hn
          exact absurd hr (by simp)
    | retS i r0 =>
      have hi := iv.idx i (Or.inr (Or.inr (Or.inr ⟨r0, hc⟩)))
      simp only [next, hc, touch, afterRet, leave] at hn
      split at hn
      · next hq =>
        split at hn
        · cases hn; simp at hrun
        · next hl =>
          cases hn
          simp only [List.append_cancel_left_eq, List.cons.injEq, and_true] at hr
          exact ⟨i, hr.symm, hi.1, hi.2, hq⟩
      · cases hn; simp at hrun
    | abd f => exact absurd hc (iv.abd f)
  · have := (iv'.ctx g c hg).2
    simp [armedBy, hrun] at this

/-- C52: outside a call of the client no future refers to a wait context; and no dead context is ever accessed. -/
theorem C52_no_dangling_partial {s : State} (h : Reach nextP start s) :
    s.dead = false ∧ (∀ f c, s.ptr f = .ctx c → s.live = true ∧ c = s.ctx ∧ s.lo ≤ f ∧ f < s.hi) := by
  obtain ⟨u, hit, iv⟩ := reach_inv h
  refine ⟨iv.dead, fun f c hf => ?_⟩
  obtain ⟨h1, h2⟩ := iv.ctx f c hf
  have h3 := iv.live
  have h4 := iv.idx
  cases hc : s.c with
  | setR i => have := h4 i (Or.inl hc); simp [armedBy, hc] at h2; exact ⟨by simp [h3, hc, inCall], h1, by omega, by omega⟩
  | setC i e => have := h4 i (Or.inr (Or.inl ⟨e, hc⟩)); simp [armedBy, hc] at h2; exact ⟨by simp [h3, hc, inCall], h1, by omega, by omega⟩
  | ret i r => have := h4 i (Or.inr (Or.inr (Or.inl ⟨r, hc⟩))); simp [armedBy, hc] at h2; exact ⟨by simp [h3, hc, inCall], h1, by omega, by omega⟩
  | retS i r => have := h4 i (Or.inr (Or.inr (Or.inr ⟨r, hc⟩))); simp [armedBy, hc] at h2; exact ⟨by simp [h3, hc, inCall], h1, by omega, by omega⟩
  | run => simp [armedBy, hc] at h2
  | abd f => simp [armedBy, hc] at h2
  | _ => simp [armedBy, hc] at h2; exact ⟨by simp [h3, hc, inCall], h1, by omega, by omega⟩

/-- C52: the wait is woken at most once: there is never more than one wake-up, and only for a client that is blocked. -/
theorem C52_wake_once_partial {s : State} (h : Reach nextP start s) :
    s.token ≤ 1 ∧ (0 < s.token → s.c = .osP) ∧ (∀ f g, s.sv f = .unpark → s.sv g = .unpark → f = g) ∧ (∀ f, s.sv f = .unpark → s.c = .osP ∧ s.token = 0) := by
  obtain ⟨u, hit, iv⟩ := reach_inv h
  have h1 := iv.tok
  refine ⟨by grind, by grind, fun f g hf hg => ?_, fun f hf => ?_⟩
  · have h2 := (iv.un f).1 hf
    have h3 := (iv.un g).1 hg
    rw [h2] at h3
    exact Option.some.inj h3
  · have := (iv.un f).1 hf
    grind

/-- C52: no wake-up is lost: a client that is blocked although one of its futures has been fulfilled has its wake-up, or a server is about to unpark it. -/
theorem C52_not_lost_partial {s : State} (h : Reach nextP start s) (hb : s.c = .osP) {f : Nat} (h1 : s.lo ≤ f) (h2 : f < s.hi) (hf : s.sv f = .done) :
    0 < s.token ∨ ∃ g, s.sv g = .unpark := by
  obtain ⟨u, hit, iv⟩ := reach_inv h
  have h3 := iv.tok
  have h4 := iv.hit3 f (by simp [armedBy, hb, h1, h2]) (by simp [posted, hf])
  have h5 := (iv.hit1 (by simp [hb, inCall])).2 h4
  cases hu : u with
  | some g => exact Or.inr ⟨g, (iv.un g).2 hu⟩
  | none => left; grind

/-- C52: a future is freed at most once, never accessed after it is freed, and once it is abandoned and its server has fulfilled it, it has been freed; and
    the abort of `retract` does not happen. -/
theorem C52_freed_once_partial {s : State} (h : Reach nextP start s) :
    s.uaf = false ∧ s.abort = false ∧ ∀ f, s.freed f = if s.ab f = true ∧ s.sv f = .done then 1 else 0 := by
  obtain ⟨u, hit, iv⟩ := reach_inv h
  refine ⟨iv.uaf, iv.abort, fun f => ?_⟩
  rw [iv.fr f]
  simp only [iv.ab f]

example : let s := (exec nextP start [.waitAny 2 5 77, .stepC, .stepC, .stepC, .stepC, .fulfil 2, .stepS 2, .stepC, .stepC, .stepC, .stepC, .stepS 2, .fulfil 4, .stepS 4, .stepS 4, .stepS 4,
      .stepS 2, .stepS 2, .stepS 4, .stepC, .stepC, .stepC, .stepC, .stepC, .stepS 4, .stepC, .abandon 3, .abandon 4, .fulfil 3, .stepS 3]).getD start
    s.rets = [some 4] ∧ s.freed 3 = 1 ∧ s.freed 4 = 1 ∧ s.freed 2 = 0 ∧ s.ptr 2 = .ful ∧ s.sv 3 = .done :=
  ⟨by decide +kernel, by decide +kernel, by decide +kernel, by decide +kernel, by decide +kernel, by decide +kernel⟩

example : let s := (exec nextP start [.waitAny 0 2 9, .stepC, .stepC, .stepC, .stepC, .stepC, .stepC, .fulfil 1, .stepS 1, .stepS 1, .stepS 1, .stepS 1, .stepS 1]).getD start
    Reach nextP start s ∧ s.c = .osP ∧ s.sv 1 = .done ∧ s.token = 1 :=
  ⟨Reach.of_isSome _ (by decide +kernel), by decide +kernel, by decide +kernel, by decide +kernel⟩

/-- C52 is false for `wait_any`: it returns at the first future it finds fulfilled, and the futures it has set up before keep a pointer to its dead wait
    context; fulfilling one of them writes to the dead context. -/
theorem C52_early_return_violated : ∃ s, Reach next start s ∧ s.rets = [some 1] ∧ s.live = false ∧ s.ptr 0 = .ctx 9 ∧
    ∃ s', Reach next s s' ∧ s'.dead = true :=
  ⟨(exec next start [.fulfil 1, .stepS 1, .stepS 1, .waitAny 0 2 9, .stepC, .stepC, .stepC]).getD start, Reach.of_isSome _ (by decide +kernel),
    by decide +kernel, by decide +kernel, by decide +kernel, _, Reach.of_isSome [.fulfil 0, .stepS 0, .stepS 0, .stepS 0] (by decide +kernel), by decide +kernel⟩

/-- For the next witness: the client is blocked and no server has its context. -/
structure Stuck (s : State) : Prop where
  c : s.c = .osP
  tok : s.token = 0
  sv : ∀ f, s.sv f = .done ∨ (s.ptr f = .armed ∧ (s.sv f = .run ∨ s.sv f = .rd ∨ s.sv f = .cas .armed))

theorem stuck_step {s s' : State} {a : Act} (iv : Stuck s) (h : next s a = some s') : Stuck s' := by
  obtain ⟨h1, h2, h3⟩ := iv
  cases a with
  | wait f c => simp [next, h1] at h
  | waitAny l m c => simp [next, h1] at h
  | abandon f => simp [next, h1] at h
  | stepC => simp [next, h1, h2] at h
  | fulfil f =>
    simp only [next] at h
    split at h <;> cases h
    constructor <;> (try simp only [upd] at *) <;> grind
  | stepS f =>
    rcases h3 f with h4 | ⟨h5, h4 | h4 | h4⟩
    · simp [next, h4] at h
    · simp [next, h4] at h
    · simp only [next, h4, h5, touch, reduceCtorEq, if_false] at h
      cases h
      constructor <;> (try simp only [upd] at *) <;> grind
    · simp only [next, h4, h5, touch, if_true] at h
      cases h
      constructor <;> (try simp only [upd] at *) <;> grind

/-- C52 is false after such a return: a later wait on a future that is just being fulfilled overwrites its state (`setup` does not look for it). The client blocks on
    future 0 although it is fulfilled, and stays blocked in every execution from there. -/
theorem C52_lost_violated : ∃ s, Reach next start s ∧ s.lo = 0 ∧ s.hi = 1 ∧ s.ptr 0 = .ful ∧ ∀ s', Reach next s s' → s'.c = .osP ∧ s'.token = 0 := by
  refine ⟨(exec next start [.fulfil 1, .stepS 1, .stepS 1, .waitAny 0 2 9, .stepC, .stepC, .stepC, .fulfil 0, .stepS 0, .stepS 0, .stepS 0, .wait 0 9, .stepC, .stepC, .stepC, .stepC,
    .stepS 0]).getD start, Reach.of_isSome _ (by decide +kernel), by decide +kernel, by decide +kernel, by decide +kernel, ?_⟩
  intro s' hr
  have := Reach.inv Stuck ⟨by decide +kernel, by decide +kernel, ?_⟩ (fun _ _ _ hi hn => stuck_step hi hn) hr
  · exact ⟨this.c, this.tok⟩
  · intro f
    match f with
    | 0 => left; decide +kernel
    | 1 => left; decide +kernel
    | f + 2 => right; exact ⟨rfl, Or.inl rfl⟩

/-- C52 is false after such a return: abandoning a future that still has the context frees it at once, and its server accesses the freed future. -/
theorem C52_abandon_violated : ∃ s, Reach next start s ∧ s.freed 0 = 2 ∧ s.uaf = true :=
  ⟨(exec next start [.fulfil 1, .stepS 1, .stepS 1, .waitAny 0 2 9, .stepC, .stepC, .stepC, .abandon 0, .fulfil 0, .stepS 0]).getD start,
    Reach.of_isSome _ (by decide +kernel), by decide +kernel, by decide +kernel⟩

/-- With no futures `wait_any` blocks for ever: nothing can post its context. -/
theorem C52_zero_futures_violated : ∃ s, Reach next start s ∧ s.c = .osP ∧ s.lo = s.hi ∧ s.token = 0 :=
  ⟨(exec next start [.waitAny 0 0 9, .stepC, .stepC]).getD start, Reach.of_isSome _ (by decide +kernel), by decide +kernel, by decide +kernel, by decide +kernel⟩

end Verif.KFuture
