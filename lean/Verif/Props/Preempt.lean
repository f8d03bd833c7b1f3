import Verif.Proof.Preempt

/-!
# C109: preemption
-/

namespace Verif.Preempt

/-- C109, sections: whenever the signal for preemption arrives, and however often, the processor is
given to another thread only when the user code has called `enable_interrupts` as often as
`disable_interrupts`.  Missing: more than 65535 sections in each other, for which it fails. -/
theorem C109_section_partial (as : List Act) (p : Proc) (a : Act) (hp : Exec .start as p)
    (hw : Within as) (ha : switches p a = true) : disables as = enables as := by
  obtain ⟨⟨pc, r, hs, hat, _⟩, hc⟩ := start_inv hp hw
  unfold switches at ha
  rw [hs] at ha
  simp only [Bool.and_eq_true, beq_iff_eq, List.head?_cons, Option.some.injEq] at ha
  obtain ⟨_, rfl⟩ := ha
  unfold inCall at hc
  rw [hs] at hc
  simp only at hc
  have := hat.2.2.1
  omega

/-- Executions from a list of events. -/
def runs (p : Proc) : List Act → Option Proc
  | [] => some p
  | a :: as => (act p a).bind fun q => runs q as

theorem runs_exec : ∀ {as : List Act} {p q : Proc}, runs p as = some q → Exec p as q
  | [], p, q, h => by injection h with h; subst h; exact .nil
  | a :: as, p, q, h => by
    unfold runs at h
    cases ha : act p a with
    | none => rw [ha] at h; cases h
    | some r => rw [ha] at h; exact .cons ha (runs_exec h)

/-- A section in which a signal arrives. -/
def sample : List Act := [.callDisable, .step, .step, .signal, .callEnable true, .step, .step, .step]

/-- The switch takes place after the call of `enable_interrupts`. -/
example : ∃ p, Exec .start (sample ++ [Act.step, .step]) p ∧ Within (sample ++ [Act.step, .step]) ∧
    switches p .step = true :=
  ⟨_, runs_exec (by rfl), (fun n => by
    have h : disables ((sample ++ [Act.step, .step]).take n) ≤ 1 :=
      Nat.le_trans ((List.take_sublist _ _).countP_le (p := fun a => a == Act.callDisable)) (by decide)
    omega), by rfl⟩

/-- C109, signals put off: a signal that arrives while the user code is in a section makes no switch
in the section, and if every call of `enable_interrupts` polls, a switch has taken place by the time
the user code runs again out of all sections. -/
theorem C109_deferred (as bs : List Act) (p q r : Proc) (hp : Exec .start as p)
    (hin : enables as < disables as) (hu : p.stack = [.user]) (hsig : act p .signal = some q)
    (hbs : Exec q bs r) (hw : Within (as ++ .signal :: bs)) (hpoll : ∀ b ∈ bs, b ≠ .callEnable false)
    (hr : r.stack = [.user]) (hout : disables (as ++ .signal :: bs) = enables (as ++ .signal :: bs)) :
    q.stack = [.user] ∧ Switched q bs := by
  obtain ⟨⟨pc, rest, hs, hat, _⟩, hc⟩ := start_inv hp (within_left hw)
  have hin0 : inCall p = 0 := by unfold inCall; rw [hu]
  have hn : 0 < p.nest := by omega
  rw [hu] at hs
  obtain ⟨rfl, rfl⟩ := List.cons.inj hs
  have he : p.enabled = false := by
    obtain ⟨_, _, he⟩ := hat
    rw [he]; simp; omega
  have hq : q = { p with pending := true } := by
    unfold act at hsig
    rw [hu] at hsig
    simp only [onSignal, he, Bool.and_false, Bool.false_eq_true, if_false] at hsig
    injection hsig with hsig
    rw [← hsig, he]
  have hpq := exec_append hp (.cons hsig .nil)
  refine ⟨by rw [hq]; exact hu, ?_⟩
  refine owes_start hpq hbs (by simpa using hw) ?_ hpoll hr (by simpa using hout)
  subst hq
  unfold Owes
  simp only [hu]
  exact ⟨trivial, hn⟩

/-- The execution of the example above meets the hypotheses. -/
example : ∃ p q r, Exec .start [.callDisable, .step, .step] p ∧ p.stack = [.user] ∧
    act p .signal = some q ∧
    Exec q ([.callEnable true] ++ List.replicate 10 .step) r ∧ r.stack = [.user] :=
  ⟨_, _, _, runs_exec (by rfl), by rfl, by rfl, runs_exec (by rfl), by rfl⟩

/-- C109, signals acted on: a signal that arrives while the user code is in no section makes a switch
before the user code runs again. -/
theorem C109_prompt (as bs : List Act) (p q r : Proc) (hp : Exec .start as p)
    (hin : enables as = disables as) (hu : p.stack = [.user]) (hsig : act p .signal = some q)
    (hbs : Exec q bs r) (hw : Within (as ++ .signal :: bs))
    (honly : ∀ b ∈ bs, b = .step ∨ b = .signal) (hr : r.stack = [.user]) : Switched q bs := by
  obtain ⟨⟨pc, rest, hs, hat, _⟩, hc⟩ := start_inv hp (within_left hw)
  have hn : p.nest = 0 := by omega
  rw [hu] at hs
  obtain ⟨rfl, rfl⟩ := List.cons.inj hs
  have he : p.enabled = true := by
    obtain ⟨_, _, he⟩ := hat
    rw [he]; simpa using hn
  have hq : q = { p with pending := false, stack := .f0 :: p.stack } := by
    unfold act at hsig
    rw [hu] at hsig
    simp only [onSignal, he, Pc.inRegion, Bool.not_false, Bool.and_true, if_true] at hsig
    injection hsig with hsig
    rw [← hsig, he]
  have hd : disables bs = 0 := by
    unfold disables
    rw [List.countP_eq_zero]
    intro b hb
    rcases honly b hb with rfl | rfl <;> decide
  have hen : enables bs = 0 := by
    unfold enables
    rw [List.countP_eq_zero]
    intro b hb
    rcases honly b hb with rfl | rfl <;> decide
  refine owes_start (exec_append hp (.cons hsig .nil)) hbs (by simpa using hw) ?_ ?_ hr ?_
  · subst hq; unfold Owes; trivial
  · intro b hb h
    rcases honly b hb with rfl | rfl <;> cases h
  · unfold disables enables at *
    simp only [List.countP_append] at *
    rw [hd, hen, hin]
    rfl

/-- A signal out of all sections, and another while the first is served. -/
example : ∃ q r, act .start .signal = some q ∧
    Exec q (.signal :: List.replicate 3 .step ++ .signal :: List.replicate 9 .step) r ∧
    r.stack = [.user] :=
  ⟨_, _, by rfl, runs_exec (by rfl), by rfl⟩

/-- C109, polling: a signal that is pending makes a switch when the user code polls out of all
sections, before it runs again. -/
theorem C109_poll (as bs : List Act) (p r : Proc) (hp : Exec .start as p)
    (hu : p.stack = [.user]) (hpend : p.pending = true)
    (hbs : Exec p (.callPoll :: bs) r) (hw : Within (as ++ .callPoll :: bs))
    (hpoll : ∀ b ∈ bs, b ≠ .callEnable false) (hr : r.stack = [.user])
    (hout : disables (as ++ .callPoll :: bs) = enables (as ++ .callPoll :: bs)) :
    Switched p (.callPoll :: bs) := by
  cases hbs with
  | cons h hbs =>
    rename_i q
    refine .later h (owes_start (exec_append hp (.cons h .nil)) hbs (by simpa using hw) ?_ hpoll hr
      (by simpa using hout))
    unfold act at h
    rw [hu] at h
    simp only [if_true] at h
    injection h with h
    subst h
    exact hpend

/-- A signal that a section without a poll has left pending. -/
example : ∃ p r, Exec .start [.callDisable, .step, .step, .signal, .callEnable false, .step, .step,
      .step, .step] p ∧ p.stack = [.user] ∧ p.pending = true ∧
    Exec p (.callPoll :: List.replicate 9 .step) r ∧ r.stack = [.user] :=
  ⟨_, _, runs_exec (by rfl), by rfl, by rfl, runs_exec (by rfl), by rfl⟩

/-- C109, returning: wherever signals have put the processor, its routines return to the user code,
if no more signals arrive. -/
theorem C109_returns (as : List Act) (p : Proc) (hp : Exec .start as p) (hw : Within as) :
    ∃ k q, Exec p (List.replicate k .step) q ∧ q.stack = [.user] :=
  returns _ p (start_inv hp hw).1 (Nat.le_refl _)

/-- Is there a switch? -/
def anySwitch (p : Proc) : List Act → Bool
  | [] => false
  | a :: as => switches p a || match act p a with
    | none => false
    | some q => anySwitch q as

theorem switched_any {as : List Act} {p : Proc} (h : Switched p as) : anySwitch p as = true := by
  induction h with
  | here h => unfold anySwitch; rw [h]; rfl
  | later h _ ih => unfold anySwitch; rw [h]; simp only [ih, Bool.or_true]

/-- C109 fails: a signal that arrives when `enable_interrupts` has looked for one, and before it has
returned, is noted, and nothing acts on the note: the user code goes on, out of all sections, with
the signal pending. -/
theorem C109_window_violated : ∃ (as : List Act) (p : Proc), Exec .start as p ∧ Within as ∧
    Act.signal ∈ as ∧ (∀ a ∈ as, a ≠ .callEnable false) ∧ disables as = enables as ∧
    p.stack = [.user] ∧ p.enabled = true ∧ p.pending = true ∧ ¬ Switched .start as := by
  refine ⟨[.callDisable, .step, .step, .callEnable true, .step, .step, .step, .signal, .step], _,
    runs_exec (by rfl), ?_, by decide, by decide, by decide, by rfl, by rfl, by rfl, ?_⟩
  · intro n
    have h : disables (([.callDisable, .step, .step, .callEnable true, .step, .step, .step, .signal,
        .step] : List Act).take n) ≤ 1 :=
      Nat.le_trans ((List.take_sublist _ _).countP_le (p := fun a => a == Act.callDisable)) (by decide)
    omega
  · intro h
    exact absurd (switched_any h) (by decide +kernel)

/-- C109 fails: a signal that arrives in a section stays pending after the section when
`enable_interrupts` is told not to poll. -/
theorem C109_unpolled_violated : ∃ (as : List Act) (p : Proc), Exec .start as p ∧
    disables as = enables as ∧ p.stack = [.user] ∧ p.enabled = true ∧ p.pending = true :=
  ⟨[.callDisable, .step, .step, .signal, .callEnable false, .step, .step, .step, .step], _,
    runs_exec (by rfl), by decide, by rfl, by rfl, by rfl⟩

theorem exec_disables : ∀ n, Exec .start (List.replicate n [Act.callDisable, .step, .step]).flatten
    ⟨decide (n = 0), n % 65536, false, [.user], n⟩
  | 0 => .nil
  | n + 1 => by
    rw [List.replicate_succ', List.flatten_append]
    refine exec_append (exec_disables n) (runs_exec ?_)
    simp [runs, act, micro, Nat.mod_add_mod]

theorem calls_disables (n : Nat) :
    disables (List.replicate n [Act.callDisable, .step, .step]).flatten = n ∧
    enables (List.replicate n [Act.callDisable, .step, .step]).flatten = 0 := by
  induction n with
  | zero => exact ⟨rfl, rfl⟩
  | succ n ih =>
    unfold disables enables at *
    rw [List.replicate_succ', List.flatten_append, List.countP_append, List.countP_append, ih.1, ih.2]
    exact ⟨rfl, rfl⟩

/-- C109 fails: the depth of the sections is counted modulo 65536, so the end of the innermost of
65537 sections enables preemption, and the processor is given away in the others. -/
theorem C109_depth_violated : ∃ (as : List Act) (p : Proc), Exec .start as p ∧
    disables as = enables as + 65536 ∧ switches p .step = true := by
  have h := exec_append (exec_disables 65537)
    (runs_exec (as := [.callEnable true, .step, .step, .step, .step, .signal, .step, .step])
      (q := ⟨false, 1, false, [.f2, .user], 65536⟩) (by decide +kernel))
  refine ⟨_, _, h, ?_, by decide +kernel⟩
  have := calls_disables 65537
  unfold disables enables at *
  rw [List.countP_append, List.countP_append, this.1, this.2]
  rfl

/-! ## The timer -/

/-- No alarms. -/
def Timer.start (now : Nat) : Timer := ⟨now, none, false, []⟩

/-- C109, the timer: whatever alarms are set and removed, whenever, and however late the alarm thread
is, every alarm that is set either has `SIGALRM` on its way, or has the timer armed to ring no later
than its deadline, or than one microsecond from now if the deadline is nearer, give or take one
microsecond. -/
theorem C109_timer (now : Nat) (as : List TAct) (a : Nat × Nat)
    (ha : a ∈ (as.foldl tact (.start now)).alarms) :
    (as.foldl tact (.start now)).sigalrm = true ∨
    ∃ r, (as.foldl tact (.start now)).rings = some r ∧
      r ≤ max a.1 ((as.foldl tact (.start now)).now + 1000) + 1000 := by
  have key : ∀ (as : List TAct) (t : Timer), TInv t → TInv (as.foldl tact t) := by
    intro as
    induction as with
    | nil => intro t h; exact h
    | cons b as ih => intro t h; exact ih _ (tinv_act h b)
  rcases (key as (.start now) ⟨List.Pairwise.nil, (fun r h => by cases h),
    Or.inr fun a h => by cases h⟩).armed with h | h
  · exact Or.inl h
  · exact Or.inr (h a ha)

/-- Two alarms, the second before the first; the timer is armed for the second. -/
example : ([TAct.register (9000000, 0), .wait 1500, .register (5000000, 0)].foldl tact
    (.start 1000000)) = ⟨1001500, some 4999500, false, [(5000000, 0), (9000000, 0)]⟩ := by
  decide +kernel

/-- C109, ticks: when the alarm thread receives `SIGALRM` after any history, the alarms that go off
are exactly those whose deadline is past; those that are left are the others, and the periodic ones
again, one period from now. -/
theorem C109_tick (now : Nat) (as : List TAct) :
    let t := as.foldl tact (.start now)
    (∀ a, a ∈ (tick t).2 ↔ a ∈ t.alarms ∧ a.1 < t.now) ∧
    (∀ a, a ∈ (tick t).1.alarms ↔ (a ∈ t.alarms ∧ t.now ≤ a.1) ∨
      ∃ b ∈ t.alarms, b.1 < t.now ∧ 0 < b.2 ∧ a = (t.now + b.2, b.2)) := by
  intro t
  have key : ∀ (as : List TAct) (t : Timer), TInv t → TInv (as.foldl tact t) := by
    intro as
    induction as with
    | nil => intro t h; exact h
    | cons b as ih => intro t h; exact ih _ (tinv_act h b)
  have hi : TInv t := key as (.start now) ⟨List.Pairwise.nil, (fun r h => by cases h),
    Or.inr fun a h => by cases h⟩
  obtain ⟨_, _, h3, h4⟩ := expire_spec (now := t.now) t.alarms.length t.alarms hi.sorted
    (List.length_filter_le _ _)
  refine ⟨?_, ?_⟩
  · intro a
    unfold tick
    simp only
    rw [h3, List.mem_filter]
    simp
  · intro a
    rw [← h4 a]
    unfold tick
    simp only
    split
    · rename_i he; rw [he]
    · rename_i b bs he
      rw [(setTimer_same (t := _) (d := _)).2.1, he]

/-- A tick with one alarm that goes off and is put back, and one that stays. -/
example : tick ⟨6000, none, false, [(5000, 2000), (9000, 0)]⟩ =
    (⟨6000, some 8000, false, [(8000, 2000), (9000, 0)]⟩, [(5000, 2000)]) := by decide +kernel

/-- C109 fails: the alarm of a processor has its first deadline when it is made, not one preemption
rate later, so the first preemption comes after one microsecond whatever the rate. -/
theorem C109_first_tick_violated (now rate : Nat) :
    let t := [TAct.register (scopeAlarm now rate), .wait 1000].foldl tact (.start now)
    t.sigalrm = true ∧ t.now = now + 1000 ∧ (tick t).2 = [(now, rate)] := by
  simp only [List.foldl, tact, scopeAlarm, Timer.start, insert, setTimer, getitimer]
  simp [tick, expire]
  rw [if_neg (by omega)]

end Verif.Preempt
