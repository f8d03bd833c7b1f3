import Verif.Proof.IdleSleep
/-!
# C93: a ready thread is not left behind while the processors sleep
-/
namespace IdleSleep
open Verif

/-- C93 while no processor is being destroyed, and if the random numbers with
which searches begin let them see all lanes (`Covers`, see
`C93_lanes_partial`): whatever the number of processors, lanes and callers and
whatever the interleaving, there is no state in which threads are ready and
nothing will happen: some processor is looking, is going to look, or has been
told to wake up. -/
theorem C93_noStall_partial (n c m : Nat) (offs : Nat → Bool) (hn : 0 < n)
    (ho : ∀ off < 2 ^ 32, offs off = true → ∀ j < c, ∃ i < c, (off + i) % 2 ^ 32 % c = j)
    (st : St) (h : RunK n c m offs st) : ¬ Stalled n c m st :=
  have hi := run_inv hn ho h
  not_stalled hi.1 hi.2

/-- C93 on clusters whose number of lanes is a power of two (at most 2^32, for
example with one, two or four processors), while no processor is being
destroyed: with any random numbers. -/
theorem C93_noStallPow_partial (n k m : Nat) (hn : 0 < n) (hk : k ≤ 32)
    (st : St) (h : RunK n (2 ^ k) m (fun _ => true) st) : ¬ Stalled n (2 ^ k) m st :=
  C93_noStall_partial n _ m _ hn
    (fun _ _ _ => covers_dvd (Nat.pow_dvd_pow 2 hk) (Nat.two_pow_pos k)) st h

/-- C93 for searches: beginning with `off`, the lanes `(off + i) % 2^32 % c`,
`i < c`, are all lanes if there is no overflow, or if `c` divides 2^32. -/
theorem C93_lanes_partial (c off : Nat) (hc : 0 < c) (h : off + c ≤ 2 ^ 32 ∨ c ∣ 2 ^ 32) :
    ∀ j < c, ∃ i < c, (off + i) % 2 ^ 32 % c = j := by
  rcases h with h | h
  · exact covers_small h
  · exact covers_dvd h hc

/-- C93 for the list of idle processors: whenever no processor is inside the
list's lock, the processor that callers are going to wake is the one that has
been idle for the shortest time, and there is one exactly if some processor is
between `mark_idle` and `mark_awake`. -/
theorem C93_idles_partial (n c m : Nat) (offs : Nat → Bool) (hn : 0 < n)
    (ho : ∀ off < 2 ^ 32, offs off = true → ∀ j < c, ∃ i < c, (off + i) % 2 ^ 32 % c = j)
    (st : St) (h : RunK n c m offs st) (hlk : st.lk = none) :
    st.fdw = st.idles.head? ∧
    ∀ p, p ∈ st.idles ↔ (st.pc p = .mi4 ∨ (∃ off i, st.pc p = .search off i ∨ st.pc p = .hold off i) ∨
      st.pc p = .s1 ∨ (∃ e, st.pc p = .s2 e) ∨ st.pc p = .reading ∨ st.pc p = .ma1) := by
  have hi := (run_inv hn ho h).1
  have hl : ∀ q, (st.pc q).locked = false := by
    intro q
    cases e : (st.pc q).locked
    · rfl
    · have := (hi.lk q).mpr e
      rw [hlk] at this
      simp at this
  refine ⟨hi.fdw (fun q => ⟨fun e => ?_, fun e => ?_⟩), fun p => ?_⟩
  · have := hl q; simp [e, PC.locked] at this
  · have := hl q; simp [e, PC.locked] at this
  · rw [hi.idl p]
    have := hl p
    cases e : st.pc p <;> simp [e, PC.region, PC.locked] at this ⊢

/-! ## The hypotheses are met, and the guarantee is not empty -/

/-- What is seen of a state: places, wake-up marks, counters, threads, the idle list and its head. -/
structure View where
  pc : List PC
  sem : List Sem
  ev : List Nat
  lane : List Nat
  idles : List Nat
  fdw : Option Nat
deriving DecidableEq

def view (n c : Nat) (st : St) : View :=
  ⟨(List.range n).map st.pc, (List.range n).map st.sem, (List.range n).map st.ev, (List.range c).map st.lane,
    st.idles, st.fdw⟩

/-- Processor `p` falls asleep: all `c` lanes are empty, or not looked at. -/
def sleep (c p off : Nat) : List Act :=
  [.halt p, .adv p, .adv p, .adv p, .off p off] ++ List.replicate (c + 3) (.adv p)

/-- Two processors are asleep; a thread is made ready, and the one that fell asleep last wakes up. -/
def wakeRun : List Act :=
  sleep 4 0 7 ++ sleep 4 1 9 ++ [.ready 0 2, .wake 0, .wake 0, .wake 0, .wake 0, .wake 0]

example : (exec (nextK 2 4 1 fun _ => true) init wakeRun).map (view 2 4) =
    some ⟨[.reading, .reading], [.fd, .one], [0, 1], [0, 0, 1, 0], [1, 0], some 1⟩ := by decide +kernel

example : ∃ st, RunK 2 4 1 (fun _ => true) st ∧
    view 2 4 st = ⟨[.reading, .reading], [.fd, .one], [0, 1], [0, 0, 1, 0], [1, 0], some 1⟩ := by
  have h : (exec (nextK 2 4 1 fun _ => true) init wakeRun).map (view 2 4) =
    some ⟨[.reading, .reading], [.fd, .one], [0, 1], [0, 0, 1, 0], [1, 0], some 1⟩ := by decide +kernel
  obtain ⟨st, h1, h2⟩ := Option.map_eq_some_iff.mp h
  exact ⟨st, Reach.of_exec _ h1, h2⟩

/-- The thread is pushed after the search and before the processor sleeps: it does not sleep. -/
example : (exec (nextK 1 2 1 fun _ => true)
    init ([.halt 0, .adv 0, .adv 0, .adv 0, .off 0 5, .adv 0, .adv 0, .adv 0] ++
     [.ready 0 0, .wake 0, .wake 0, .wake 0, .wake 0] ++ [.adv 0])).map (view 1 2) =
    some ⟨[.ma1], [.one], [0], [1, 0], [0], some 0⟩ := by decide +kernel

/-- The offsets that do not overflow meet the hypothesis of `C93_noStall_partial` for six lanes. -/
example : ∀ off < 2 ^ 32, decide (off + 6 ≤ 2 ^ 32) = true → ∀ j < 6, ∃ i < 6, (off + i) % 2 ^ 32 % 6 = j :=
  fun off _ h => C93_lanes_partial 6 off (by decide) (.inl (of_decide_eq_true h))

/-! ## Where it fails -/

/-- Everybody sleeps, nobody is about to wake anybody. -/
def Quiet (n m : Nat) (st : St) : Prop :=
  (∀ p < n, (st.pc p = .reading ∧ st.ev p = 0) ∨ st.pc p = .dead) ∧ ∀ w < m, st.wk w = .none

instance (n m : Nat) (st : St) : Decidable (Quiet n m st) := by unfold Quiet; infer_instance

theorem stalled_of_quiet {n c m : Nat} {st : St} (h : Quiet n m st) (hr : ∃ j < c, st.lane j ≠ 0)
    (hp : ∃ p < n, st.pc p ≠ .dead) : Stalled n c m st := by
  refine ⟨hr, hp, ?_⟩
  intro a ha
  cases a with
  | halt p =>
    simp only [next]
    rw [if_neg]
    rintro ⟨h1, h2⟩
    rcases h.1 p h1 with h3 | h3 <;> simp [h2] at h3
  | pop p j =>
    simp only [next]
    rw [if_neg]
    rintro ⟨h1, _, h2, _⟩
    rcases h.1 p h1 with h3 | h3 <;> simp [h2] at h3
  | adv p =>
    simp only [next]
    split
    · next h1 =>
      rcases h.1 p h1 with h3 | h3
      · simp [stepP, h3.1, h3.2]
      · simp [stepP, h3]
    · rfl
  | off p off =>
    simp only [next]
    rw [if_neg]
    rintro ⟨h1, h2, _⟩
    rcases h.1 p h1 with h3 | h3 <;> simp [h2] at h3
  | wake w =>
    simp only [next]
    split
    · next h1 => simp [stepW, h.2 w h1]
    · rfl
  | quit p =>
    simp only [next]
    rw [if_neg]
    rintro ⟨h1, h2, _⟩
    rcases h.1 p h1 with h3 | h3 <;> simp [h2] at h3
  | intr p => simp [internal] at ha
  | ready w j => simp [internal] at ha
  | term w p => simp [internal] at ha

/-- A decidable way to find stalled states. -/
theorem stalled_of_exec {n c m : Nat} (as : List Act)
    (h : ((exec (next n c m fun _ => true) init as).any fun st =>
      decide (Quiet n m st ∧ (∃ j < c, st.lane j ≠ 0) ∧ ∃ p < n, st.pc p ≠ .dead)) = true) :
    ∃ st, Run n c m st ∧ Stalled n c m st := by
  cases e : exec (next n c m fun _ => true) init as with
  | none => simp [e] at h
  | some st =>
    rw [e] at h
    simp only [Option.any_some, decide_eq_true_eq] at h
    exact ⟨st, Reach.of_exec _ e, stalled_of_quiet h.1 h.2.1 h.2.2⟩

/-- C93 fails: `search` computes `( offset + i ) % count` with 32-bit numbers.
If the random `offset` is near 2^32 the sum overflows, and when `count` does
not divide 2^32 some lanes are looked at twice and others not at all.  On a
cluster of three processors with two lanes each, a thread made ready while all
processors are awake can be in the lane that is left out (number 5, for the
offset 2^32 - 1); then all three go to sleep and the thread is not run. -/
theorem C93_overflow_violated : ∃ st, Run 3 6 1 st ∧ Stalled 3 6 1 st :=
  stalled_of_exec ([.ready 0 5, .wake 0, .wake 0] ++
    sleep 6 0 (2 ^ 32 - 1) ++ sleep 6 1 (2 ^ 32 - 1) ++ sleep 6 2 (2 ^ 32 - 1)) (by decide +kernel)

/-- The lanes that are looked at. -/
example : (List.range 6).map (ix 6 (2 ^ 32 - 1)) = [3, 0, 1, 2, 3, 4] := by decide +kernel

/-- C93 fails while a processor is being destroyed: two threads are made ready
while both processors of a cluster sleep.  Both callers find the same
processor, the second sees that it has been told to wake up and does nothing.
The processor is being destroyed (by a thread of another cluster): it wakes up,
runs the first thread and leaves, without a look at the queue or waking
anybody.  The second thread stays in the queue, the other processor asleep. -/
theorem C93_destroyed_violated : ∃ st, Run 2 4 1 st ∧ Stalled 2 4 1 st :=
  stalled_of_exec (sleep 4 0 7 ++ sleep 4 1 9 ++
    [.ready 0 2, .wake 0, .wake 0, .wake 0, .wake 0, .wake 0,
     .ready 0 3, .wake 0, .wake 0, .wake 0,
     .term 0 1, .wake 0, .wake 0,
     .adv 1, .adv 1, .adv 1, .adv 1, .pop 1 2, .adv 1, .quit 1]) (by decide +kernel)

end IdleSleep
