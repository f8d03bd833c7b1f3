import Verif.Proof.Actor
/-!
C56: actor mailboxes; C57: work stealing. The theorems hold in every state that an executor with any number of workers and mailboxes
reaches, with any number of sending threads and any schedule.
-/
namespace Verif.Actor
open Verif

/-! ### C56 -/

/-- The requests for actor `a`, in order. -/
def forActor (a : Nat) (l : List Req) : List Req := l.filter (fun r => r.rcv = a)

/-- Worker `w` is inside of the `receive` of a request. -/
def Receiving (s : State) (w : Nat) (r : Req) : Prop := ∃ q, s.pc w = .running q r

theorem flt_sub (c : Cfg) (a : Nat) (l : List Req) : forActor a (l.filter (fun r => c.ticket r.rcv = c.ticket a)) = forActor a l := by
  unfold forActor
  rw [List.filter_filter]
  apply List.filter_congr
  intro r _
  by_cases h : r.rcv = a <;> simp [h]

theorem prefix_of_map {l l' : List Req} {x : List (Option Req)} (h : l.map some = l'.map some ++ x) : l' <+: l := by
  induction l' generalizing l with
  | nil => exact List.nil_prefix
  | cons a as ih =>
    cases l with
    | nil => simp at h
    | cons b bs =>
      simp only [List.map_cons, List.cons_append, List.cons.injEq, Option.some.injEq] at h
      rw [h.1, List.prefix_cons_inj]
      exact ih h.2

theorem box_eq {c : Cfg} {s : State} (iv : Inv c s) (q : Nat) : ∃ x, flt c s.sent q = flt c s.dlv q ++ x := by
  cases h : s.proc q with
  | false => exact ⟨_, iv.m.eqN q h⟩
  | true =>
    obtain ⟨w, hw⟩ := iv.m.prc q h
    exact ⟨_, by rw [iv.m.eqD w q hw, List.append_assoc]⟩

/-- The requests that an actor has received are, at any time, the first of those that were sent to it, each one once and in the order of
    the sends; no access outside of a buffer and no use of a null pointer has happened. -/
theorem C56_order {c : Cfg} (hb : 1 ≤ c.bufSize) {s : State} (h : Reach (next c) (start c) s) (a : Nat) :
    s.bad = false ∧ forActor a s.dlv <+: forActor a s.sent := by
  have iv := Inv.reach hb h
  refine ⟨iv.bad, ?_⟩
  obtain ⟨x, hx⟩ := box_eq iv (c.ticket a)
  have := prefix_of_map hx
  rw [← flt_sub c a s.dlv, ← flt_sub c a s.sent]
  exact this.filter _

/-- In particular the requests from one sender are received in the order in which it sent them. -/
theorem C56_sender_order {c : Cfg} (hb : 1 ≤ c.bufSize) {s : State} (h : Reach (next c) (start c) s) (a t : Nat) :
    (forActor a s.dlv).filter (fun r => r.snd = t) <+: (forActor a s.sent).filter (fun r => r.snd = t) :=
  (C56_order hb h a).2.filter _

/-- A send is recorded behind all earlier ones. -/
theorem C56_send {c : Cfg} (hb : 1 ≤ c.bufSize) {s s' : State} (h : Reach (next c) (start c) s) {r : Req} (hn : next c s (.send r) = some s') :
    s'.sent = s.sent ++ [r] ∧ s'.dlv = s.dlv := by
  have iv := Inv.reach hb h
  simp only [next] at hn
  split at hn
  · cases hn
    obtain ⟨y, hy, _⟩ := insert_spec (iv.m.good (c.ticket r.rcv)) r
    unfold deposit
    rw [hy]; exact ⟨rfl, rfl⟩
  · cases hn

/-- What is sent and not yet received is not lost: it is in the mailbox of the actor, in order, behind what the worker that empties the
    mailbox still has. -/
theorem C56_nothing_lost {c : Cfg} (hb : 1 ≤ c.bufSize) {s : State} (h : Reach (next c) (start c) s) (q : Nat) :
    ∃ rest : List (Option Req),
      (s.sent.filter (fun r => c.ticket r.rcv = q)).map some = (s.dlv.filter (fun r => c.ticket r.rcv = q)).map some ++ rest ++ view (s.cq (s.cur q)) ∧
      (s.proc q = false → rest = []) ∧
      (s.proc q = true → ∃ w, rest = view (s.cq (s.loc w)) ∧ w < c.nw ∧ s.pc w ≠ .top) := by
  have iv := Inv.reach hb h
  cases hp : s.proc q with
  | false => exact ⟨[], by simpa [flt] using iv.m.eqN q hp, fun _ => rfl, fun h => by cases h⟩
  | true =>
    obtain ⟨w, hw⟩ := iv.m.prc q hp
    have ht : s.pc w ≠ .top := by intro h; rw [h] at hw; cases hw
    exact ⟨_, iv.m.eqD w q hw, fun h => (by cases h), fun _ => ⟨w, rfl, iv.lt w ht, ht⟩⟩

/-- Once no worker is busy with a mailbox and the mailbox is empty, every request for its actors has been received. -/
theorem C56_all_received {c : Cfg} (hb : 1 ≤ c.bufSize) {s : State} (h : Reach (next c) (start c) s) (a : Nat)
    (hp : s.proc (c.ticket a) = false) (he : (s.cq (s.cur (c.ticket a))).count = 0) : forActor a s.dlv = forActor a s.sent := by
  have iv := Inv.reach hb h
  have := iv.m.eqN _ hp
  rw [view_nil he, List.append_nil] at this
  have : s.sent.filter (fun r => c.ticket r.rcv = c.ticket a) = s.dlv.filter (fun r => c.ticket r.rcv = c.ticket a) :=
    List.map_injective_iff.2 (fun a b h => Option.some.inj h) this
  rw [← flt_sub c a s.dlv, ← flt_sub c a s.sent, this]

/-- An actor, and even a mailbox, is served by one worker at a time. -/
theorem C56_one_at_a_time {c : Cfg} (hb : 1 ≤ c.bufSize) {s : State} (h : Reach (next c) (start c) s) {w w' : Nat} {r r' : Req}
    (h1 : Receiving s w r) (h2 : Receiving s w' r') (hm : c.ticket r.rcv = c.ticket r'.rcv) : w = w' := by
  have key : ∀ s, Reach (next c) (start c) s → ∀ w q r, s.pc w = .running q r → c.ticket r.rcv = q := by
    intro s h
    induction h with
    | init => intro w q r h; cases h
    | step hr hn ih =>
      next s s' a =>
      have iv := Inv.reach hb hr
      intro w q r hp
      by_cases hold : s.pc w = .running q r
      · exact ih w q r hold
      -- only a removal leads here
      have hstep : ∃ u, a = .step u := by
        cases a with
        | step u => exact ⟨u, rfl⟩
        | send r' =>
          simp only [next] at hn; split at hn
          · cases hn
            have : (deposit s (c.ticket r'.rcv) r').pc = s.pc := by unfold deposit; split <;> rfl
            rw [this] at hp; exact (hold hp).elim
          · cases hn
        | look u i =>
          simp only [next] at hn; split at hn
          · split at hn <;> cases hn
            · simp only [upd] at hp; split at hp
              · cases hp
              · exact (hold hp).elim
            · exact (hold hp).elim
          · cases hn
        | skip u =>
          simp only [next] at hn; split at hn
          · split at hn <;> cases hn
            simp only [upd] at hp; split at hp
            · cases hp
            · exact (hold hp).elim
          · cases hn
        | steal u i v j =>
          simp only [next] at hn; split at hn
          · cases hn
            simp only [upd] at hp; split at hp
            · cases hp
            · exact (hold hp).elim
          · cases hn
      obtain ⟨u, rfl⟩ := hstep
      simp only [next] at hn; split at hn
      · unfold stepW at hn
        cases hpu : s.pc u with
        | drain q' =>
          rw [hpu] at hn; simp only at hn
          by_cases h0 : (s.cq (s.loc u)).count = 0
          · rw [if_pos h0] at hn; cases hn
            simp only [upd] at hp; split at hp
            · cases hp
            · exact (hold hp).elim
          · obtain ⟨r', x, hrm, ht, _⟩ := iv.m.remove hpu h0
            rw [if_neg h0, hrm] at hn; cases hn
            simp only [upd] at hp; split at hp
            · cases hp; exact ht
            · exact (hold hp).elim
        | _ =>
          rw [hpu] at hn; simp only at hn
          repeat' split at hn
          all_goals first
            | cases hn; done
            | cases hn; simp only [upd] at hp; split at hp
              · cases hp
              · exact (hold hp).elim
            | cases hn; exact (hold hp).elim
      · cases hn
  have iv := Inv.reach hb h
  obtain ⟨q, hq⟩ := h1
  obtain ⟨q', hq'⟩ := h2
  have e1 := key s h w q r hq
  have e2 := key s h w' q' r' hq'
  have : q = q' := by rw [← e1, ← e2, hm]
  subst this
  exact iv.m.unq w w' q (by rw [hq]; rfl) (by rw [hq']; rfl)

/-- An executor created with buffers of size 0: the first send writes outside of the buffer. -/
theorem C56_size_zero_violated : ∃ (c : Cfg) (s' : State), 1 ≤ c.nw ∧ c.nw ≤ c.nr ∧ c.bufSize = 0 ∧
    next c (start c) (.send ⟨0, 0, 0⟩) = some s' ∧ s'.bad = true :=
  ⟨⟨1, 1, 0, fun _ => 0⟩, _, by decide, by decide, rfl, rfl, by decide +kernel⟩

/-! ### C57 -/

/-- Where mailbox `q` is: in a slot, or with a worker that is about to write it to a slot. -/
inductive Place where
  | slot (j : Nat)
  | held (w : Nat)
  deriving DecidableEq

def At (s : State) (q : Nat) : Place → Prop
  | .slot j => s.slot j = some q
  | .held w => ∃ v m o, s.pc w = .s4 v m q o ∨ s.pc w = .s5 m q

theorem at_held {s : State} {q w : Nat} : At s q (.held w) ↔ ∃ m, hold (s.pc w) = some (m, q) := by
  simp only [At]
  constructor
  · rintro ⟨v, m, o, h | h⟩ <;> exact ⟨m, by rw [h]; rfl⟩
  · rintro ⟨m, h⟩
    cases hp : s.pc w <;> rw [hp] at h <;> simp only [hold, Option.some.injEq, Prod.mk.injEq, reduceCtorEq] at h
    · next v m' my o => exact ⟨v, m', o, Or.inl (by rw [h.2])⟩
    · next m' q' => exact ⟨0, m', 0, Or.inr (by rw [h.2])⟩

/-- Every mailbox is in exactly one place: a slot of the executor, or a worker in the middle of a swap. -/
theorem C57_one_place {c : Cfg} (hb : 1 ≤ c.bufSize) {s : State} (h : Reach (next c) (start c) s) {q : Nat} (hq : q < c.nr) :
    ∃ p, At s q p ∧ (∀ p', At s q p' → p' = p) ∧ (∀ j, p = .slot j → j < c.nr) ∧ (∀ w, p = .held w → w < c.nw) := by
  have iv := (Inv.reach hb h)
  have uniq : ∀ p p', At s q p → At s q p' → p' = p := by
    intro p p' h1 h2
    cases p with
    | slot j =>
      cases p' with
      | slot j' => exact congrArg _ (iv.sl.injS _ _ q h2 h1)
      | held w => obtain ⟨m, hm⟩ := at_held.1 h2; exact (iv.sl.injX j w m q h1 hm).elim
    | held w =>
      obtain ⟨m, hm⟩ := at_held.1 h1
      cases p' with
      | slot j' => exact (iv.sl.injX j' w m q h2 hm).elim
      | held w' => obtain ⟨m', hm'⟩ := at_held.1 h2; exact congrArg _ (iv.sl.injH _ _ _ _ q hm' hm)
  rcases iv.sl.sur q hq with ⟨j, hj⟩ | ⟨w, m, hw⟩
  · refine ⟨.slot j, hj, fun p' => uniq _ p' hj, ?_, fun w h => by cases h⟩
    intro j' e; cases e
    by_contra hge
    rw [iv.sl.big j (by omega)] at hj; cases hj
  · have ha : At s q (.held w) := at_held.2 ⟨m, hw⟩
    refine ⟨.held w, ha, fun p' => uniq _ p' ha, fun j h => (by cases h), ?_⟩
    intro w' e; cases e
    exact iv.lt w (by intro h; rw [h] at hw; cases hw)

/-- A slot is empty only while the worker that it belongs to is in the middle of a swap with this slot: after at most two of its steps,
    neither of which waits for anybody, the slot is filled. -/
theorem C57_slot_refilled {c : Cfg} (hb : 1 ≤ c.bufSize) {s : State} (h : Reach (next c) (start c) s) {j : Nat} (hj : j < c.nr)
    (hn : s.slot j = none) : ∃ w, w < c.nw ∧ begin c w ≤ j ∧ j < begin c w + range c w ∧
      ∃ s1, next c s (.step w) = some s1 ∧ (s1.slot j ≠ none ∨ ∃ s2, next c s1 (.step w) = some s2 ∧ s2.slot j ≠ none) := by
  have iv := (Inv.reach hb h)
  obtain ⟨w, q, hw⟩ := iv.sl.null j hj hn
  obtain ⟨h1, h2, h3⟩ := iv.sl.own w j (hold_own hw)
  refine ⟨w, h1, h2, h3, ?_⟩
  cases hp : s.pc w <;> rw [hp] at hw <;> simp only [hold, Option.some.injEq, Prod.mk.injEq, reduceCtorEq] at hw
  · next v m my o =>
    obtain ⟨rfl, rfl⟩ := hw
    by_cases hv : s.slot v = some o
    · refine ⟨{ s with slot := upd s.slot v (some my), pc := upd s.pc w (.s5 m o) },
        by simp [next, iv.bad, h1, stepW, hp, hv], Or.inr ⟨_, by simp [next, iv.bad, h1, stepW]; rfl, by simp⟩⟩
    · refine ⟨{ s with pc := upd s.pc w (.s5 m my) },
        by simp [next, iv.bad, h1, stepW, hp, hv], Or.inr ⟨_, by simp [next, iv.bad, h1, stepW]; rfl, by simp⟩⟩
  · next m q' =>
    obtain ⟨rfl, rfl⟩ := hw
    exact ⟨_, by simp [next, iv.bad, h1, stepW, hp]; rfl, Or.inl (by simp)⟩

/-- The ranges of the workers divide the slots: every slot belongs to exactly one worker, and the range that a thief computes for its
    victim is the range of the victim. -/
theorem C57_ranges {c : Cfg} (hw : 1 ≤ c.nw) :
    (∀ j, j < c.nr → ∃ w, w < c.nw ∧ begin c w ≤ j ∧ j < begin c w + range c w ∧
      ∀ w', begin c w' ≤ j → j < begin c w' + range c w' → w' = w) ∧
    (∀ w i, w < c.nw → i < range c w → begin c w + i < c.nr) ∧
    (∀ v, victim c v = (begin c v, range c v)) ∧
    (c.nw ≤ c.nr → ∀ w, 1 ≤ range c w) := by
  refine ⟨fun j hj => ?_, fun w i => range_lt c, victim_eq c, ?_⟩
  · have hex : ∀ n, j < begin c n → ∃ w, w < n ∧ begin c w ≤ j ∧ j < begin c w + range c w := by
      intro n
      induction n with
      | zero => intro h; simp [begin] at h
      | succ n ih =>
        intro h
        by_cases h' : j < begin c n
        · obtain ⟨w, h1, h2⟩ := ih h'; exact ⟨w, by omega, h2⟩
        · exact ⟨n, by omega, by omega, h⟩
    obtain ⟨w, h1, h2, h3⟩ := hex c.nw (by rw [begin_all c hw]; exact hj)
    exact ⟨w, h1, h2, h3, fun w' h4 h5 => range_own c h4 h5 h2 h3⟩
  · intro h w
    have : 1 ≤ c.nr / c.nw := (Nat.one_le_div_iff hw).2 h
    unfold range; omega

/-! ### Witnesses -/

/-- Two workers, three mailboxes, buffers of size 1; the actor `a` has mailbox `a % 3`. -/
def demoCfg : Cfg := ⟨2, 3, 1, fun a => a % 3⟩

/-- Three requests from thread 7 to actor 0 with a growing buffer, of which worker 0 receives one; it is interrupted there; worker 1
    (slot 2) steals mailbox 1 (slot 1 of worker 0). -/
def demo : List Act :=
  [.send ⟨7, 0, 1⟩, .send ⟨7, 0, 2⟩, .send ⟨8, 3, 3⟩, .look 0 0, .step 0, .step 0, .step 0, .send ⟨7, 0, 4⟩,
   .steal 1 0 0 1, .step 1, .step 1, .step 1, .step 1]

def demoState : State := (exec (next demoCfg) (start demoCfg) demo).getD (start demoCfg)

theorem demo_reach : Reach (next demoCfg) (start demoCfg) demoState := Reach.of_isSome _ (by decide +kernel)

example : 1 ≤ demoCfg.bufSize ∧ forActor 0 demoState.dlv = [⟨7, 0, 1⟩] ∧ forActor 0 demoState.sent = [⟨7, 0, 1⟩, ⟨7, 0, 2⟩, ⟨7, 0, 4⟩] ∧
    demoState.slot 2 = none ∧ demoState.slot 1 = some 2 ∧ demoState.pc 1 = .s5 2 1 ∧ demoState.pc 0 = .running 0 ⟨7, 0, 1⟩ := by
  decide +kernel

example : Receiving demoState 0 ⟨7, 0, 1⟩ := ⟨0, by decide +kernel⟩

/-- Everything received: the hypotheses of `C56_all_received`. -/
example : ∃ s, Reach (next demoCfg) (start demoCfg) s ∧ s.proc 0 = false ∧ (s.cq (s.cur 0)).count = 0 ∧
    forActor 0 s.dlv = [⟨7, 0, 1⟩, ⟨7, 0, 2⟩] :=
  ⟨(exec (next demoCfg) (start demoCfg) [.send ⟨7, 0, 1⟩, .send ⟨7, 0, 2⟩, .look 0 0, .step 0, .step 0, .step 0, .step 0, .step 0, .step 0,
      .step 0, .step 0, .step 0]).getD (start demoCfg), Reach.of_isSome _ (by decide +kernel), by decide +kernel, by decide +kernel,
    by decide +kernel⟩

end Verif.Actor
