import Verif.Proof.SelectFifo
/-!
C46: a `waituntil` statement with `or` executes exactly one clause, and C80: channels stay first-in first-out when `waituntil` statements use
them. `s.ran t` are the clauses whose body thread `t` has run in its last statement, `s.did t` the clauses whose operation on a channel was
completed, with the element in the case of a read. `s.put c` and `s.took c` are the elements of the completed writes to and reads from
channel `c`, in the order of completion.
-/
namespace Verif.Select
open Verif

/-- Clause `i` is the one clause of the statement whose operation took place: it is a time-out and no operation on a channel was done, or the
    operation of the clause is the only one that was done; a read got an element. -/
def Only (s : State) (t i : Nat) : Prop :=
  ((s.prog t)[i]? = some .timeout ∧ s.did t = []) ∨
  (∃ c e, (s.prog t)[i]? = some (.chan c none) ∧ s.did t = [(i, some e)]) ∨
  (∃ c v, (s.prog t)[i]? = some (.chan c (some v)) ∧ s.did t = [(i, none)])

theorem only_of_did {s : State} {t i : Nat} (h : Did (s.prog t) (s.did t) i) : Only s t i := by
  rcases h with h | ⟨c, v, r, h1, h2, h3⟩
  · exact Or.inl h
  · right
    cases v with
    | none =>
      cases r with
      | none => simp at h3
      | some e => exact Or.inl ⟨c, e, h1, h2⟩
    | some v =>
      cases r with
      | none => exact Or.inr ⟨c, v, h1, h2⟩
      | some e => simp at h3

/-- A finished statement has run the body of exactly one clause, and the operation of that clause, and of no other clause, was done. -/
theorem C46_exactly_one {size : Nat → Nat} {s : State} (h : Reach next (start size) s) {t : Nat} (hp : s.pc t = .idle) (hs : s.prog t ≠ []) :
    ∃ i, s.ran t = [i] ∧ Only s t i := by
  have hok := (inv_reach h).ok t
  rw [hp] at hok
  obtain ⟨i, h1, h2⟩ := hok.2.2.resolve_left (fun h => hs h.1)
  exact ⟨i, h1, only_of_did h2⟩

/-- Two threads, both with two clauses. The first waits for channels 0 and 1, the second writes 7 to channel 1 or waits for a time-out. -/
def demo : List Act := [.wait 0 [.chan 0 none, .chan 1 none], .step 0, .step 0, .step 0, .step 0, .step 0,
  .wait 1 [.timeout, .chan 1 (some 7)], .step 1, .step 1, .step 1, .step 1]

def demoState (more : List Act) : State := (exec next (start fun _ => 0) (demo ++ more)).getD (start fun _ => 0)

example : let s := demoState [.step 1, .step 1, .step 1, .step 1, .step 1, .step 1, .step 0, .step 0, .step 0, .step 0, .step 0]
    Reach next (start fun _ => 0) s ∧ s.pc 0 = .idle ∧ s.prog 0 ≠ [] ∧ s.ran 0 = [1] ∧ s.did 0 = [(1, some 7)] ∧ s.pc 1 = .idle ∧
      s.ran 1 = [1] ∧ s.did 1 = [(1, none)] :=
  ⟨Reach.of_isSome _ (by decide +kernel), by decide +kernel⟩

/-- At no time has more than one body been run or more than one operation been done; and when a body is about to be run, the operation of
    its clause is the one that was done. -/
theorem C46_at_most_one {size : Nat → Nat} {s : State} (h : Reach next (start size) s) (t : Nat) :
    (s.ran t).length ≤ 1 ∧ (s.did t).length ≤ 1 ∧ ∀ i, s.pc t = .body i → Only s t i := by
  have hok := (inv_reach h).ok t
  have hdid : ∀ {i}, Did (s.prog t) (s.did t) i → (s.did t).length ≤ 1 := by
    rintro i (⟨_, h⟩ | ⟨c, v, r, _, h, _⟩) <;> rw [h] <;> simp
  have hcalm : Calm (s.status t) (s.token t) (s.prog t) (s.ran t) (s.did t) → (s.ran t).length ≤ 1 ∧ (s.did t).length ≤ 1 := by
    rintro ⟨h1, _, _, h4, h5⟩
    refine ⟨by rw [h1]; simp, ?_⟩
    cases htok : s.token t with
    | false => rw [h4 htok]; simp
    | true => obtain ⟨i, _, h⟩ := h5 htok; exact hdid h
  have hout : ((s.prog t = [] ∧ s.ran t = [] ∧ s.did t = []) ∨ ∃ i, s.ran t = [i] ∧ Did (s.prog t) (s.did t) i) → (s.ran t).length ≤ 1 ∧ (s.did t).length ≤ 1 := by
    rintro (⟨_, h1, h2⟩ | ⟨i, h1, h2⟩)
    · rw [h1, h2]; simp
    · exact ⟨by rw [h1]; simp, hdid h2⟩
  cases hp : s.pc t <;> rw [hp] at hok <;> simp only [TOk, Busy] at hok <;> rw [← and_assoc] <;>
    refine ⟨?_, fun i hi => by first | (cases hi; done) | (cases hi; exact only_of_did hok.2.2.2.2)⟩
  all_goals first
    | exact hcalm hok
    | exact hcalm hok.1
    | exact hout hok.2.2
    | exact ⟨by rw [hok.1.1]; simp, by rw [hok.1.2.2.2]; simp⟩
    | exact ⟨by rw [hok.1]; simp, hdid hok.2.2.2.1⟩
    | exact ⟨by rw [hok.1]; simp, hdid hok.2.2.2.2⟩
    | exact ⟨by rw [hok.1]; simp, by rw [hok.2.2.2.1]; simp⟩
    | (obtain ⟨i, h1, h2⟩ := hok.2.2.2; exact ⟨by rw [h1]; simp, hdid h2⟩)

/-- Nothing is lost, duplicated or invented: what completed writes put into a channel is what completed reads got from it and what it still
    holds; and it holds no more than its size. So a clause that is not chosen consumes nothing. -/
theorem C46_conserved {size : Nat → Nat} {s : State} (h : Reach next (start size) s) (c : Nat) :
    (s.put c).Perm (s.took c ++ s.buf c) ∧ (s.buf c).length ≤ size c := by
  have := (inv2_reach h).2.cap c
  rw [size_reach h] at this
  exact ⟨(inv_reach h).cons c, this⟩

/-- A thread that cannot move is outside of all operations, waits for the lock of a channel, or is parked and was not woken. -/
theorem C46_moves {size : Nat → Nat} {s : State} (h : Reach next (start size) s) {t : Nat} (hb : step s t = none) :
    s.pc t = .idle ∨ (s.pc t = .park ∧ s.token t = false) ∨ ∃ c u, s.lock c = some u ∧ u ≠ t := by
  obtain ⟨iv, i2, i3⟩ := inv3_reach h
  have hlk : ∀ {c : Nat}, s.lock c ≠ none → held (s.prog t) (s.pc t) = none → ∃ c u, s.lock c = some u ∧ u ≠ t := by
    intro c hc hh
    obtain ⟨u, hu⟩ := Option.ne_none_iff_exists'.1 hc
    refine ⟨c, u, hu, ?_⟩
    rintro rfl
    rw [(iv.lock c u).1 hu] at hh
    cases hh
  have hclause : ∀ i, IsChan (s.prog t) i → (∀ c v, (s.prog t)[i]? = some (.chan c v) → stepChan s t i c v (s.pc t) ≠ none) →
      stepClause s t i (s.pc t) ≠ none := by
    rintro i ⟨c, v, hcl⟩ hs
    simp only [stepClause, hcl]
    exact hs c v hcl
  have hor : ∀ {c b won d}, handleOr s t c b won d ≠ none := by
    intro c b won d
    unfold handleOr
    split
    · simp
    · split <;> simp
  have hok := iv.ok t
  cases hp : s.pc t with
  | idle => exact Or.inl rfl
  | park =>
    right; left
    refine ⟨rfl, ?_⟩
    simp only [step, hp] at hb
    split at hb
    · split at hb <;> simp at hb
    · next h => simpa using h
  | reg i =>
    right; right
    simp only [step, hp, stepClause] at hb
    split at hb
    · next c v hcl =>
      simp only [stepChan] at hb
      split at hb
      · simp at hb
      · next hc => exact hlk hc (by rw [hp]; rfl)
    · simp [stepTimeout] at hb
    · simp at hb
  | ins c v =>
    right; right
    simp only [step, hp] at hb
    split at hb
    · simp at hb
    · next hc => exact hlk hc (by rw [hp]; rfl)
  | rem c =>
    right; right
    simp only [step, hp] at hb
    split at hb
    · split at hb
      · simp at hb
      · split at hb
        · simp at hb
        · split at hb <;> simp at hb
    · next hc => exact hlk hc (by rw [hp]; rfl)
  | unreg j =>
    right; right
    simp only [step, hp] at hb
    split at hb
    · next cl _ =>
      cases cl with
      | timeout => simp [unregister] at hb
      | chan c v =>
        simp only [unregister] at hb
        split at hb
        · split at hb
          · simp at hb
          · next hc => exact hlk hc (by rw [hp]; rfl)
        · simp at hb
    · simp at hb
  | insOr c v => simp only [step, hp] at hb; exact absurd hb hor
  | remOr c => simp only [step, hp] at hb; exact absurd hb hor
  | refillOr c => simp only [step, hp] at hb; exact absurd hb hor
  | insHand c v => simp [step, hp] at hb
  | remHand c => simp [step, hp] at hb
  | refill c => simp [step, hp] at hb
  | body i => simp [step, hp] at hb
  | buffer i =>
    exfalso
    rw [hp] at hok
    have hown := i2.own t
    rw [hp] at hown
    refine hclause i hok.2.2.2.2 (fun c v hcl => ?_) (by simpa [step, hp] using hb)
    obtain ⟨h1, h2⟩ := hown c v hcl
    rw [hp]
    simp only [stepChan, h1]
    cases v with
    | none =>
      cases hbuf : s.buf c with
      | nil => simp [hbuf] at h2
      | cons e l => simp
    | some e => simp
  | check i =>
    exfalso
    rw [hp] at hok
    refine hclause i hok.2 (fun c v hcl => ?_) (by simpa [step, hp] using hb)
    rw [hp]; simp only [stepChan]
    by_cases hc : (s.buf c).length ≠ (if v.isSome then s.size c else 0) ∨ s.wait c (!v.isSome) ≠ []
    · rw [if_pos hc]; simp
    · rw [if_neg hc]; simp
  | mark i =>
    exfalso
    rw [hp] at hok
    refine hclause i hok.2 (fun c v hcl => ?_) (by simpa [step, hp] using hb)
    rw [hp]; simp only [stepChan]; split <;> simp
  | avail i =>
    exfalso
    rw [hp] at hok
    refine hclause i hok.2 (fun c v hcl => ?_) (by simpa [step, hp] using hb)
    rw [hp]; simp only [stepChan]; split <;> simp
  | retoggle i =>
    exfalso
    rw [hp] at hok
    refine hclause i hok.2 (fun c v hcl => ?_) (by simpa [step, hp] using hb)
    rw [hp]; simp only [stepChan]; split <;> simp
  | pend i =>
    exfalso
    rw [hp] at hok
    refine hclause i hok.2 (fun c v hcl => ?_) (by simpa [step, hp] using hb)
    rw [hp]; simp only [stepChan]; split
    · simp
    · split <;> simp
  | hand i =>
    exfalso
    rw [hp] at hok
    refine hclause i hok.2 (fun c v hcl => ?_) (by simpa [step, hp] using hb)
    rw [hp]; simp only [stepChan]; split <;> simp
  | toggle i =>
    exfalso
    rw [hp] at hok
    refine hclause i hok.2 (fun c v hcl => ?_) (by simpa [step, hp] using hb)
    rw [hp]; simp [stepChan]
  | unset i =>
    exfalso
    rw [hp] at hok
    refine hclause i hok.2 (fun c v hcl => ?_) (by simpa [step, hp] using hb)
    rw [hp]; simp [stepChan]
  | setSat i =>
    exfalso
    rw [hp] at hok
    refine hclause i hok.2.2.2.2 (fun c v hcl => ?_) (by simpa [step, hp] using hb)
    rw [hp]; simp [stepChan]

example : let s := demoState []
    Reach next (start fun _ => 0) s ∧ s.pc 1 = .hand 1 ∧ s.pc 0 = .park ∧ s.status 0 ≠ .unsat ∧ step s 0 = none :=
  ⟨Reach.of_isSome _ (by decide +kernel), by decide +kernel⟩

theorem perform_token (s : State) (u j : Nat) (r : Option Nat) : (perform s u j r).token = s.token := by
  unfold perform; dsimp only; split <;> rfl

/-- A parked statement whose choice is made is woken: it has been, or another thread is about to. -/
theorem C46_woken {size : Nat → Nat} {s : State} (h : Reach next (start size) s) {t : Nat} (hp : s.pc t = .park) (hs : s.status t ≠ .unsat) :
    s.token t = true ∨ ∃ u s', step s u = some s' ∧ s'.token t = true := by
  have iv := inv_reach h
  cases htok : s.token t with
  | true => exact Or.inl rfl
  | false =>
    right
    have hok := iv.ok t
    rw [hp] at hok
    obtain ⟨h1, h2, h3, _⟩ := hok
    cases hst : s.status t with
    | unsat => exact absurd hst hs
    | pending => exact absurd hst h2
    | sat => exact absurd hst h3
    | node i =>
      obtain ⟨u, c, b, l, hh, hw⟩ := iv.lost t i hst (by rw [hp]; trivial) htok
      have hwake : ∀ r, (wake s c b r).token t = true := by
        intro r
        simp only [wake, hw, perform_token]
        exact upd_same _ _ _
      refine ⟨u, ?_⟩
      cases hpu : s.pc u <;> rw [hpu] at hh <;> simp only [Hands] at hh
      · next k =>
        obtain ⟨v, hcl, rfl⟩ := hh
        cases v with
        | none => exact ⟨_, by simp only [step, hpu, stepClause, hcl, stepChan]; rfl, by simp only [goto, perform_token]; exact hwake _⟩
        | some e => exact ⟨_, by simp only [step, hpu, stepClause, hcl, stepChan]; rfl, by simp only [goto, perform_token]; exact hwake _⟩
      · obtain ⟨rfl, rfl⟩ := hh
        exact ⟨_, by simp only [step, hpu]; rfl, by simp only [goto, unlock, record]; exact hwake _⟩
      · obtain ⟨rfl, rfl⟩ := hh
        exact ⟨_, by simp only [step, hpu]; rfl, by simp only [goto, unlock, record]; exact hwake _⟩
      · obtain ⟨rfl, rfl⟩ := hh
        exact ⟨_, by simp only [step, hpu]; rfl, by simp only [goto, unlock]; exact hwake _⟩

/-- A statement does not sleep through something it waits for: when a statement is parked and no thread is in an operation on a channel,
    the channels it reads from are empty and those it writes to are full, and no statement that is parked too waits for the opposite
    operation on such a channel. -/
theorem C46_no_missed_wakeup {size : Nat → Nat} {s : State} (h : Reach next (start size) s) (hl : ∀ c, s.lock c = none) {t : Nat}
    (hp : s.pc t = .park) (ht : s.token t = false) {c : Nat} {v : Option Nat} (hc : .chan c v ∈ s.prog t) :
    (v = none → s.buf c = []) ∧ (v ≠ none → (s.buf c).length = size c) ∧
    ∀ u w, s.pc u = .park → s.token u = false → .chan c w ∈ s.prog u → w.isSome = v.isSome := by
  obtain ⟨iv, i2, i3⟩ := inv3_reach h
  have hlist : ∀ t v, s.pc t = .park → s.token t = false → Clause.chan c v ∈ s.prog t → s.wait c v.isSome ≠ [] := by
    intro t v hp ht hc
    obtain ⟨j, hj⟩ := List.getElem?_of_mem hc
    have hst : s.status t = .unsat := by
      by_contra hne
      have hok := iv.ok t
      rw [hp] at hok
      obtain ⟨h1, h2, h3, _⟩ := hok
      cases hst : s.status t with
      | unsat => exact hne hst
      | pending => exact h2 hst
      | sat => exact h3 hst
      | node i =>
        obtain ⟨u, c, b, l, hh, hw⟩ := iv.lost t i hst (by rw [hp]; trivial) ht
        have := (iv.lock c u).2 hh.held
        rw [hl c] at this
        cases this
    have := i3.listed t j c v (Or.inl hst) (by rw [hp]; trivial) hj
    intro e
    rw [e] at this
    simp at this
  have hm := hlist t v hp ht hc
  refine ⟨?_, ?_, ?_⟩
  · rintro rfl; exact i3.rd c hm
  · intro hv
    have hv' : v.isSome = true := by cases v <;> simp_all
    rw [hv'] at hm
    rcases i3.wr c hm with h1 | ⟨u, hu⟩
    · rw [h1, size_reach h]
    · have := (iv.lock c u).2 (hu.held _)
      rw [hl c] at this
      cases this
  · intro u w hpu htu hcu
    have hm' := hlist u w hpu htu hcu
    rcases i3.one c with h1 | h1 <;> cases hw : w.isSome <;> cases hv : v.isSome <;> simp_all

example : let s := (exec next (start fun _ => 1) [.tryInsert 0 0 1, .step 0, .step 0, .wait 0 [.chan 0 (some 2), .timeout], .step 0, .step 0,
      .step 0, .step 0, .wait 1 [.chan 1 none], .step 1, .step 1, .step 1]).getD (start fun _ => 1)
    Reach next (start fun _ => 1) s ∧ s.pc 0 = .park ∧ s.token 0 = false ∧ .chan 0 (some 2) ∈ s.prog 0 ∧ s.buf 0 = [1] ∧ s.pc 1 = .park ∧
      ∀ c, s.lock c = none :=
  ⟨Reach.of_isSome _ (by decide +kernel), by decide +kernel, by decide +kernel, by decide +kernel, by decide +kernel, by decide +kernel,
    fun c => by
      match c with
      | 0 => decide +kernel
      | 1 => decide +kernel
      | c + 2 => rfl⟩

/-- A thread that holds the lock of a channel can always go on until it releases it, whatever statements the other threads execute, if its
    own statement does not both read from and write to one channel. -/
theorem C46_no_deadlock_partial {size : Nat → Nat} {s : State} (h : Reach next (start size) s) {t c : Nat} (hl : s.lock c = some t)
    (hone : ∀ c, ¬ (.chan c none ∈ s.prog t ∧ ∃ v, .chan c (some v) ∈ s.prog t)) :
    ∃ s', Reach step s s' ∧ s'.lock c = none :=
  frees (inv2_reach h) hl (by
    intro i j c v w hi hj
    have hi := List.mem_of_getElem? hi
    have hj := List.mem_of_getElem? hj
    cases v with
    | none =>
      cases w with
      | none => rfl
      | some w => exact absurd ⟨hi, w, hj⟩ (hone c)
    | some v =>
      cases w with
      | none => exact absurd ⟨hj, v, hi⟩ (hone c)
      | some w => rfl)

example : let s := demoState []
    Reach next (start fun _ => 0) s ∧ s.lock 1 = some 1 ∧ s.prog 1 = [.timeout, .chan 1 (some 7)] :=
  ⟨Reach.of_isSome _ (by decide +kernel), by decide +kernel⟩

/-- A thread that executes `waituntil` on a read from and a write to the same channel, which is empty and which no other thread waits for,
    loops for ever with the lock of the channel, whatever other threads do: no clause is ever executed, and no other operation on the
    channel can begin. -/
theorem C46_self_violated (e : Nat) : ∃ s, Reach next (start fun _ => 1) s ∧ s.prog 0 = [.chan 0 none, .chan 0 (some e)] ∧
    ∀ s', Reach next s s' → s'.lock 0 = some 0 ∧ s'.ran 0 = [] ∧ s'.pc 0 ≠ .idle := by
  let acts : List Act := [.wait 0 [.chan 0 none, .chan 0 (some e)], .step 0, .step 0, .step 0, .step 0]
  obtain ⟨s, hs, hst⟩ : ∃ s, exec next (start fun _ => 1) acts = some s ∧ Stuck e s := by
    simp [acts, exec, next, start, step, stepClause, stepChan, goto, setStatus, unlock, setWait, Stuck]
  have hr := Reach.of_exec acts hs
  refine ⟨s, hr, hst.1, fun s' h' => ?_⟩
  have := Reach.inv (fun s => Inv s ∧ Stuck e s) ⟨inv_reach hr, hst⟩ (fun _ _ _ hi hn => ⟨hi.1.next hn, stuck_next hi.1 hi.2 hn⟩) h'
  refine ⟨this.2.2.2.1, this.2.2.2.2.1, ?_⟩
  rcases this.2.2.2.2.2 with h | h | h <;> rw [h.1] <;> simp

/-- A channel of size 1 is not first-in first-out: it holds 1, a `waituntil` statement waits to write 2, and a `waituntil` statement that
    reads gets the 2. -/
theorem C80_fifo_violated : ∃ s, Reach next (start fun _ => 1) s ∧ s.put 0 = [1, 2] ∧ s.took 0 = [2] ∧ s.buf 0 = [1] ∧
    ∀ t, s.pc t = .idle := by
  let acts : List Act := [.tryInsert 0 0 1, .step 0, .step 0, .wait 0 [.chan 0 (some 2)], .step 0, .step 0, .step 0, .wait 1 [.chan 0 none],
    .step 1, .step 1, .step 1, .step 1, .step 1, .step 1, .step 1, .step 1, .step 0, .step 0, .step 0, .step 0]
  refine ⟨(exec next (start fun _ => 1) acts).getD (start fun _ => 1), Reach.of_isSome _ (by decide +kernel), by decide +kernel,
    by decide +kernel, by decide +kernel, ?_⟩
  intro t
  match t with
  | 0 => decide +kernel
  | 1 => decide +kernel
  | t + 2 => rfl

/-- If `waituntil` statements do not both read from and write to a channel with a buffer, then completed reads got the elements of completed
    writes in the order of the writes, and the rest are in the channel. -/
theorem C80_fifo_partial {size : Nat → Nat} {side : Nat → Bool} {s : State} (h : Reach (nextSided side) (start size) s) (c : Nat) :
    s.put c = s.took c ++ s.buf c := (inv4_reach h).fifo c

example : let s := (exec (nextSided fun c => c == 0) (start fun _ => 2) [.tryInsert 0 0 1, .step 0, .step 0, .wait 0 [.chan 0 (some 2)], .step 0,
      .step 0, .step 0, .step 0, .wait 1 [.chan 0 (some 3), .chan 1 none], .step 1, .step 1, .step 1, .step 1, .step 1, .tryRemove 2 0, .step 2, .step 2,
      .step 2]).getD (start fun _ => 2)
    Reach (nextSided fun c => c == 0) (start fun _ => 2) s ∧ s.put 0 = [1, 2, 3] ∧ s.took 0 = [1] ∧ s.buf 0 = [2, 3] :=
  ⟨Reach.of_isSome _ (by decide +kernel), by decide +kernel⟩

end Verif.Select
