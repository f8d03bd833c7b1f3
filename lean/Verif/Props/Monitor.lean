import Verif.Proof.MonitorReach
/-!
C53: monitors; C78: `waitfor`. The theorems hold in every state that threads reach, in any number and with any schedule, that call mutex
routines on any sets of monitors, nest them, use mutex statements, `wait`, `signal`, `signal_block` and `waitfor`, and follow the rules
of use (`Proper`).
-/
namespace Verif.Monitor
open Verif

/-! ### Specification -/

/-- User code of thread `t` runs inside of monitor `m`: a mutex routine or statement of the thread that has `m` is active. -/
def Inside (s : State) (t m : Nat) : Prop := s.pc t = .run ∧ ∃ g ∈ s.stk t, m ∈ g.mons

instance (s : State) (t m : Nat) : Decidable (Inside s t m) := by unfold Inside; infer_instance

/-- How many active entries of monitor `m` the routines and statements of thread `t` have. -/
def entries (s : State) (t m : Nat) : Nat := (s.stk t).foldr (fun g n => g.mons.count m + n) 0

/-- Somebody is about to unpark thread `t`, or has done so. -/
def Woken (s : State) (t : Nat) : Prop :=
  s.tok t = true ∨ ∃ v, (∃ i, s.pc v = .lwake i (some t)) ∨ ∃ ms ts, s.pc v = .rel ms ts ∧ t ∈ ts

theorem entries_below (s : State) (t m : Nat) : entries s t m = below (s.stk t) m := by
  unfold entries below
  induction s.stk t with
  | nil => rfl
  | cons g gs ih => simp only [List.foldr_cons, List.map_cons, List.sum_cons, ih]

theorem Inside.pos {s : State} {t m : Nat} (h : Inside s t m) : 0 < below (s.stk t) m := by
  obtain ⟨_, g, hg, hm⟩ := h
  unfold below
  generalize s.stk t = l at hg
  induction l with
  | nil => cases hg
  | cons a as ih =>
    simp only [List.map_cons, List.sum_cons]
    rcases List.mem_cons.1 hg with rfl | hg
    · have := List.count_pos_iff.2 hm; omega
    · have := ih hg; omega

theorem woken_iff (s : State) (t : Nat) : Woken s t ↔ pendP s.tok s.pc t := by
  unfold Woken pendP
  constructor
  · rintro (h | ⟨v, ⟨i, h⟩ | ⟨ms, ts, h, hm⟩⟩)
    · exact Or.inl h
    · exact Or.inr ⟨v, by rw [h]; simp [wakes]⟩
    · exact Or.inr ⟨v, by rw [h]; exact hm⟩
  · rintro (h | ⟨v, h⟩)
    · exact Or.inl h
    · refine Or.inr ⟨v, ?_⟩
      cases hp : s.pc v with
      | lwake i u =>
        rw [hp] at h; simp only [wakes, Option.mem_toList] at h
        left; exact ⟨i, by rw [h]⟩
      | rel ms ts => rw [hp] at h; right; exact ⟨ms, ts, rfl, h⟩
      | _ => rw [hp] at h; simp [wakes] at h

/-! ### Mutual exclusion and nesting -/

/-- User code of at most one thread runs inside of a monitor. -/
theorem C53_mutual_exclusion {s : State} (h : Reach nextP start s) {m t t' : Nat} (h1 : Inside s t m) (h2 : Inside s t' m) : t = t' := by
  have iv := Inv.reach h
  have e1 := iv.own t m (by rw [h1.1, dep_run]; exact h1.pos) (by rw [h1.1]; simp [relP])
  have e2 := iv.own t' m (by rw [h2.1, dep_run]; exact h2.pos) (by rw [h2.1]; simp [relP])
  rw [e1] at e2; cases e2; rfl

/-- The monitor knows the thread inside of it and counts its active entries: also after nested calls, after `wait`, `signal_block` and
    `waitfor` return, and after calls that were accepted. -/
theorem C53_nesting {s : State} (h : Reach nextP start s) {m t : Nat} (h1 : Inside s t m) :
    s.owner m = some t ∧ s.recn m = entries s t m ∧ s.mask m = none := by
  have iv := Inv.reach h
  have e1 := iv.own t m (by rw [h1.1, dep_run]; exact h1.pos) (by rw [h1.1]; simp [relP])
  refine ⟨e1, ?_, ?_⟩
  · have := iv.rcn t m e1 (by rw [h1.1]; simp [waitP])
    rw [h1.1, dep_run] at this
    rw [entries_below]; simpa [atP] using this
  · cases hk : s.mask m with
    | none => rfl
    | some p =>
      obtain ⟨a, h2, h3⟩ := iv.msk m (by rw [hk]; simp)
      have h4 := (iv.sg a m h3).2.1
      rw [e1] at h2; cases h2; rw [h1.1] at h4; exact h4.elim

/-- A thread that waits on a condition has given up the monitors of the condition. -/
theorem C53_wait_releases {s : State} (h : Reach nextP start s) {t c : Nat} {l : List Nat} (hp : s.pc t = .park) (hb : t ∈ s.blocked c)
    (hl : s.brand c = some l) : ∀ m ∈ l, s.owner m ≠ some t := by
  have iv := Inv.reach h
  intro m hm
  have hw := (iv.blk t c hb).2.1
  rw [hl] at hw
  simp only [Option.some.injEq] at hw
  exact iv.bown t c m hb (hw ▸ hm) (by rw [hp]; simp [relP])

/-! ### Leaving -/

/-- A nested exit keeps the monitor and counts one entry less. -/
theorem C53_leave_nested {s s' : State} (h : Reach nextP start s) {t i m : Nat} {g : Guard} {gs : List Guard} (hp : s.pc t = .leave (i + 1))
    (hs : s.stk t = g :: gs) (hm : g.mons[i]? = some m) (hn : 1 < s.recn m) (hst : next s (.step t) = some s') :
    s'.owner m = some t ∧ s'.recn m = s.recn m - 1 ∧ s'.entry m = s.entry m ∧ s'.sig m = s.sig m := by
  have iv := Inv.reach h
  have hd : 0 < dep (s.pc t) (s.stk t) m := by rw [hp, hs, dep_leave, count_take_succ hm, if_pos rfl]; omega
  have ho := iv.own t m hd (by rw [hp]; simp [relP])
  simp only [next, stepThread, hp, hs, hm, Option.some.injEq] at hst
  subst hst
  have : s.recn m - 1 ≠ 0 := by omega
  simp only [leaveMon, upd_same, ne_eq, this, not_false_eq_true, if_true]
  exact ⟨ho, trivial, trivial, trivial⟩

/-- The last exit hands the monitor over: to the thread signalled last if there is one; otherwise to the thread that has waited longest
    for entry; otherwise the monitor is free. In the first two cases the count is 1 for the new owner. -/
theorem C53_leave {s s' : State} (h : Reach nextP start s) {t i m : Nat} {g : Guard} {gs : List Guard} (hp : s.pc t = .leave (i + 1))
    (hs : s.stk t = g :: gs) (hm : g.mons[i]? = some m) (hn : s.recn m ≤ 1) (hst : next s (.step t) = some s') :
    s'.owner m ≠ some t ∧
    (∀ x xs, s.sig m = x :: xs → s'.owner m = some x ∧ s'.recn m = 1 ∧ s'.sig m = xs ∧ s'.entry m = s.entry m) ∧
    (s.sig m = [] → ∀ x, x ∈ s.entry m → (∀ y ∈ s.entry m, s.arr x ≤ s.arr y) →
      s'.owner m = some x ∧ s'.recn m = 1 ∧ Woken s' x ∧ s'.entry m = (s.entry m).erase x) ∧
    (s.sig m = [] → s.entry m = [] → s'.owner m = none ∧ s'.recn m = 0) := by
  have iv := Inv.reach h
  have hd : 0 < dep (s.pc t) (s.stk t) m := by rw [hp, hs, dep_leave, count_take_succ hm, if_pos rfl]; omega
  have ho := iv.own t m hd (by rw [hp]; simp [relP])
  have hr : s.recn m = 1 := by
    have := iv.rcn t m ho (by rw [hp]; simp [waitP])
    have h2 : (0 : Int) ≤ if atP (s.pc t) (s.stk t) = some m then 1 else 0 := by split <;> omega
    omega
  have htsig : t ∉ s.sig m := by
    intro hx
    have := (iv.sg t m hx).2.1
    rw [hp] at this; exact this.elim
  have hten : t ∉ s.entry m := fun hx => (iv.en t m hx).2.1 ho
  simp only [next, stepThread, hp, hs, hm, Option.some.injEq] at hst
  subst hst
  have : ¬(s.recn m - 1 ≠ 0) := by omega
  simp only [leaveMon, upd_same]
  rw [if_neg this]
  cases hg : s.sig m with
  | cons x xs =>
    simp only [nextThread, hg, checkCondition_eq, setOwner, upd_same, Option.isSome_some, if_true]
    refine ⟨?_, ?_, ?_, ?_⟩
    · intro e; cases e; exact htsig (by rw [hg]; simp)
    · intro y ys e; cases e; simp
    · intro e; cases e
    · intro e; cases e
  | nil =>
    cases he : s.entry m with
    | cons x xs =>
      simp only [nextThread, hg, he, setOwner, upd_same, Option.isSome_some, if_true]
      refine ⟨?_, ?_, ?_, ?_⟩
      · intro e; cases e; exact hten (by rw [he]; simp)
      · intro y ys e; cases e
      · intro _ y hy hmin
        have hyx : y = x := by
          have hps := iv.arrS m
          rw [he] at hps
          rcases List.mem_cons.1 hy with rfl | hy'
          · rfl
          · have h1 := List.rel_of_pairwise_cons hps hy'
            have h2 := hmin x (by simp)
            omega
        subst hyx
        have hw : (upd s.pc t (.lwake i (some y))) t = .lwake i (some y) := by simp
        exact ⟨by simp, by simp, Or.inr ⟨t, Or.inl ⟨i, hw⟩⟩, by simp⟩
      · intro _ e; cases e
    | nil =>
      simp only [nextThread, hg, he, setOwner, upd_same]
      refine ⟨by simp, ?_, ?_, ?_⟩
      · intro y ys e; cases e
      · intro _ y hy; cases hy
      · intro _ _; simp

/-- `signal` takes the thread that waits longest on the condition and puts it first in line at each of its monitors, before all threads
    that wait for entry (by `C53_leave`); the signaller goes on. -/
theorem C53_signal {s s' : State} (h : Reach nextP start s) {t c x : Nat} {xs l : List Nat} (hb : s.blocked c = x :: xs)
    (hl : s.brand c = some l) (hst : nextP s (.signal t c) = some s') :
    s'.blocked c = xs ∧ (∀ m ∈ l, s'.sig m = x :: s.sig m) ∧ (∀ m, m ∉ l → s'.sig m = s.sig m) ∧ s'.owner = s.owner ∧ s'.pc = s.pc := by
  have iv := Inv.reach h
  have hw := (iv.blk x c (by rw [hb]; simp)).2.1
  rw [hl] at hw
  simp only [Option.some.injEq] at hw
  subst hw
  unfold nextP at hst
  split at hst
  · simp only [next] at hst
    split at hst
    · cases hst
      simp only [signal, hb, pushAll, upd_same]
      refine ⟨trivial, fun m hm => by rw [if_pos hm], fun m hm => by rw [if_neg hm], trivial, trivial⟩
    · cases hst
  · cases hst

/-- `wait` adds the thread at the end of the line of the condition. -/
theorem C53_wait_order {s s' : State} {t c : Nat} (hst : nextP s (.wait t c) = some s') : s'.blocked c = s.blocked c ++ [t] := by
  unfold nextP at hst
  split at hst
  · simp only [next] at hst
    split at hst
    · cases hst
      simp only [initNode, upd_same]
      unfold brandCond; split <;> rfl
    · cases hst
  · cases hst

/-! ### Nobody is forgotten -/

/-- Nobody waits at a free monitor. -/
theorem C53_free {s : State} (h : Reach nextP start s) {m : Nat} (hf : s.owner m = none) : s.entry m = [] ∧ s.sig m = [] :=
  (Inv.reach h).busy m hf

/-- A thread asleep at the entry of a monitor is in its queue, or is the owner and is being woken. -/
theorem C53_entry_wakeup {s : State} (h : Reach nextP start s) {t i : Nat} (hp : s.pc t = .epark i) :
    ∃ m g gs, s.stk t = g :: gs ∧ g.mons[i]? = some m ∧ (t ∈ s.entry m ∨ (Woken s t ∧ s.owner m = some t)) := by
  have iv := Inv.reach h
  obtain ⟨m, hm⟩ := iv.eat t i hp
  rw [hp] at hm
  cases hs : s.stk t with
  | nil => rw [hs] at hm; simp [atP] at hm
  | cons g gs =>
    rw [hs] at hm
    refine ⟨m, g, gs, rfl, hm, ?_⟩
    rcases iv.eprog t m (by rw [hp, hs]; exact hm) with h1 | h1
    · exact Or.inl h1
    · refine Or.inr ⟨(woken_iff s t).2 h1, ?_⟩
      rcases iv.pnd t h1 with ⟨m', h2, h3⟩ | ⟨h2, _, _⟩
      · rw [hp, hs] at h2
        have : some m' = some m := h2.symm.trans hm
        cases this; exact h3
      · rw [hp] at h2; exact h2.elim

/-- A thread asleep in `wait`, `signal_block` or `waitfor` is in the queue of a condition; or it owns all the monitors it needs and is
    being woken; or for each of these monitors it is the owner already or in line at the monitor, in line at one at least. -/
theorem C53_waiting_wakeup {s : State} (h : Reach nextP start s) {t : Nat} (hp : s.pc t = .park) :
    (∃ c, t ∈ s.blocked c) ∨ (Woken s t ∧ ∀ m ∈ s.wm t, s.owner m = some t) ∨
    ((∀ m ∈ s.wm t, s.owner m = some t ∨ t ∈ s.sig m) ∧ ∃ m ∈ s.wm t, t ∈ s.sig m) := by
  have iv := Inv.reach h
  rcases iv.prog t (by rw [hp]; trivial) with h1 | h1 | ⟨h1, h2⟩
  · exact Or.inl h1
  · right; left
    refine ⟨(woken_iff s t).2 h1, ?_⟩
    rcases iv.pnd t h1 with ⟨m', h2, _⟩ | ⟨_, h2, _⟩
    · rw [hp] at h2; cases h2
    · exact fun m hm => (h2 m hm).1
  · right; right
    refine ⟨fun m hm => ?_, h2⟩
    rcases h1 m hm with h3 | h3
    · exact Or.inl (iv.rdy t m (by rw [hp]; trivial) hm h3)
    · exact Or.inr h3

/-- No thread is woken before it owns the monitors it waits for. -/
theorem C53_no_spurious_wakeup {s : State} (h : Reach nextP start s) {t : Nat} (hw : Woken s t) :
    (∃ m i g gs, s.pc t = .epark i ∧ s.stk t = g :: gs ∧ g.mons[i]? = some m ∧ s.owner m = some t) ∨
    ((s.pc t = .park ∨ ∃ ts, s.pc t = .rel [] ts) ∧ ∀ m ∈ s.wm t, s.owner m = some t) := by
  have iv := Inv.reach h
  rcases iv.pnd t ((woken_iff s t).1 hw) with ⟨m, h1, h2⟩ | ⟨h1, h2, _⟩
  · left
    cases hp : s.pc t with
    | epark i =>
      rw [hp] at h1
      cases hs : s.stk t with
      | nil => rw [hs] at h1; cases h1
      | cons g gs => rw [hs] at h1; exact ⟨m, i, g, gs, rfl, rfl, h1, h2⟩
    | _ => rw [hp] at h1; simp [atP] at h1
  · right
    refine ⟨?_, fun m hm => (h2 m hm).1⟩
    cases hp : s.pc t with
    | park => exact Or.inl rfl
    | rel ms ts =>
      rw [hp] at h1
      cases ms with
      | nil => exact Or.inr ⟨ts, rfl⟩
      | cons a as => exact h1.elim
    | _ => rw [hp] at h1; exact h1.elim

/-! ### Concrete executions -/

/-- Thread 0 in routine 7 with the monitors 5 and 3, entered twice, waits on condition 0; thread 1 enters, thread 2 queues; thread 1
    signals. -/
def demo : List Act :=
  [.call 0 [5, 3] 7, .step 0, .step 0, .step 0, .call 0 [3, 5] 8, .step 0, .step 0, .step 0, .wait 0 0, .step 0, .step 0, .step 0, .step 0,
   .call 1 [5, 3] 8, .step 1, .step 1, .step 1, .call 2 [3] 9, .step 2, .signal 1 0, .ret 1]

def demoState (n : Nat) : State := (exec nextP start (demo.take n)).getD start

theorem demo_reach (n : Nat) (h : (exec nextP start (demo.take n)).isSome = true) : Reach nextP start (demoState n) := Reach.of_isSome _ h

/-- Two nested entries, and a third thread. -/
example : Reach nextP start (demoState 8) ∧ Inside (demoState 8) 0 3 ∧ Inside (demoState 8) 0 5 ∧ (demoState 8).recn 5 = 2 :=
  ⟨demo_reach 8 (by decide +kernel), by decide +kernel, by decide +kernel, by decide +kernel⟩

/-- The waiting thread has given up both monitors, another one is inside, a third one is queued, the waiting one is signalled. -/
example : Reach nextP start (demoState 21) ∧ (demoState 17).blocked 0 = [0] ∧ (demoState 21).pc 0 = .park ∧ Inside (demoState 17) 1 3 ∧
    (demoState 21).entry 3 = [2] ∧ (demoState 21).sig 3 = [0] ∧ (demoState 21).sig 5 = [0] ∧ (demoState 21).pc 1 = .leave 2 ∧
    (demoState 21).recn 5 ≤ 1 :=
  ⟨demo_reach 21 (by decide +kernel), by decide +kernel, by decide +kernel, by decide +kernel, by decide +kernel, by decide +kernel,
    by decide +kernel, by decide +kernel, by decide +kernel⟩

/-! ### `waitfor` -/

theorem pc_other {s s' : State} {a : Act} {u : Nat} (h : nextP s a = some s')
    (hu : match a with | .call t _ _ | .stmt t _ | .ret t | .wait t _ | .signal t _ | .signalBlock t _ | .waitfor t _ _ | .step t => u ≠ t) :
    s'.pc u = s.pc u := by
  unfold nextP at h
  split at h
  swap
  · cases h
  have hnt : ∀ s m, (nextThread s m).1.pc = s.pc := by
    intro s m; unfold nextThread
    split
    · simp [checkCondition, setOwner]
    · split <;> simp [setOwner]
  cases a with
  | step t =>
    simp only at hu
    simp only [next, stepThread] at h
    split at h <;> (try split at h) <;> (try split at h) <;> (try cases h) <;> (try simp [upd, hu, hnt])
    · unfold enterMon
      split
      · simp [upd, hu, setOwner]
      · split
        · simp [upd, hu]
        · split
          · simp [upd, hu, enqueue]
          · split
            · next h =>
              unfold isAccepted at h
              split at h
              · cases h
              · split at h
                · split at h <;> cases h
                  simp [upd, hu, setOwner]
                · cases h; simp [upd, hu, setOwner]
            · simp [upd, hu, enqueue]
    · unfold leaveMon
      simp only
      split
      · simp [upd, hu]
      · simp [upd, hu, hnt]
  | signal t c =>
    simp only [next] at h
    split at h <;> cases h
    unfold signal; split <;> rfl
  | signalBlock t c =>
    simp only at hu
    simp only [next] at h
    split at h <;> cases h
    unfold signalBlock; split
    · rfl
    · simp [upd, hu, setOwners, save, pushAll, initNode]
  | waitfor t cl blk =>
    simp only at hu
    simp only [next] at h
    split at h <;> cases h
    unfold waitfor
    simp only
    split
    · rfl
    · split
      · simp [upd, hu, setOwners, save, pushAll, initNode]
      · split
        · simp [upd, hu, setMask, save, pushAll, initNode]
        · rfl
  | wait t c =>
    simp only at hu
    simp only [next] at h
    split at h <;> cases h
    simp only [initNode, upd, if_neg hu]
    unfold brandCond; split <;> rfl
  | ret t =>
    simp only at hu
    simp only [next] at h
    split at h
    · split at h <;> cases h
      simp [upd, hu]
    · cases h
  | call t ms f =>
    simp only at hu
    simp only [next] at h
    split at h <;> cases h
    simp [upd, hu]
  | stmt t ms =>
    simp only at hu
    simp only [next] at h
    split at h <;> cases h
    simp [upd, hu]

/-- The thread of an action. -/
def Act.thread : Act → Nat
  | .call t _ _ | .stmt t _ | .ret t | .wait t _ | .signal t _ | .signalBlock t _ | .waitfor t _ _ | .step t => t

theorem exec_other : ∀ {as : List Act} {s s' : State} {u : Nat}, exec nextP s as = some s' → (∀ a ∈ as, u ≠ a.thread) → s'.pc u = s.pc u
  | [], s, s', u, h, _ => by simp only [exec, Option.some.injEq] at h; rw [h]
  | a :: as, s, s', u, h, hu => by
    simp only [exec] at h
    cases e : nextP s a with
    | none => rw [e] at h; cases h
    | some v =>
      rw [e] at h
      have h1 := exec_other h (fun a ha => hu a (List.mem_cons_of_mem _ ha))
      have h2 := pc_other (u := u) e (by have := hu a (by simp); cases a <;> exact this)
      rw [h1, h2]

/-- A call of a routine with one monitor arrives while a thread `a` is blocked in a `waitfor` on this monitor. It enters if and only if
    the `waitfor` names the call, and then the index of the first clause that names it is the result of the `waitfor`; otherwise it waits
    its turn and the `waitfor` goes on. What is missing: routines with several monitors, for which this is false. -/
theorem C78_arriving_partial {s s' : State} (h : Reach nextP start s) {t a m f : Nat} {cl : List Group} {g : Guard} {gs : List Guard}
    (hp : s.pc t = .enter 0) (hs : s.stk t = g :: gs) (hg : g.mons = [m]) (hf : g.fn = some f) (hns : g.stmt = false)
    (hk : s.mask m = some (a, cl)) (hst : next s (.step t) = some s') :
    s.owner m = some a ∧ t ≠ a ∧
    ((∃ i, cl[i]? = some ⟨[m], some f⟩ ∧ (∀ j, j < i → cl[j]? ≠ some ⟨[m], some f⟩) ∧ s'.owner m = some t ∧ s'.mask m = none ∧
        s'.accepted a = some i ∧ s'.entry m = s.entry m) ∨
      (⟨[m], some f⟩ ∉ cl ∧ s'.owner m = some a ∧ s'.mask m = some (a, cl) ∧ s'.accepted a = s.accepted a ∧
        s'.entry m = s.entry m ++ [t])) := by
  have iv := Inv.reach h
  have ho : s.owner m = some a := iv.mown m _ hk
  have hta : t ≠ a := by
    rintro rfl
    obtain ⟨b, h1, h2⟩ := iv.msk m (by rw [hk]; simp)
    rw [ho] at h1; cases h1
    have := (iv.sg _ m h2).2.1
    rw [hp] at this; exact this.elim
  refine ⟨ho, hta, ?_⟩
  have hm0 : g.mons[0]? = some m := by rw [hg]; rfl
  simp only [next, stepThread, hp, hs, hm0, Option.some.injEq] at hst
  subst hst
  simp only [enterMon, ho, if_neg (Ne.symm hta), hns, Bool.false_eq_true, if_false, isAccepted, hk, hg, hf, List.head?_cons, if_true]
  cases hfi : cl.findIdx? (fun c => decide (c = (⟨[m], some f⟩ : Group))) with
  | some i =>
    left
    rw [List.findIdx?_eq_some_iff_getElem] at hfi
    obtain ⟨hi, h1, h2⟩ := hfi
    refine ⟨i, ?_, ?_, by simp [setOwner], by simp [setOwner], by simp [setOwner], by simp [setOwner]⟩
    · rw [List.getElem?_eq_getElem hi]; simpa using h1
    · intro j hj
      rw [List.getElem?_eq_getElem (by omega)]
      have := h2 j hj
      simpa using this
  | none =>
    right
    rw [List.findIdx?_eq_none_iff] at hfi
    refine ⟨fun hc => ?_, by simp [enqueue, ho], by simp [enqueue, hk], by simp [enqueue], by simp [enqueue]⟩
    have := hfi _ hc
    simp at this

/-- A mutex statement that arrives while a thread is blocked in a `waitfor` on the monitor waits its turn. -/
theorem C78_stmt {s s' : State} (h : Reach nextP start s) {t a m i : Nat} {cl : List Group} {g : Guard} {gs : List Guard}
    (hp : s.pc t = .enter i) (hs : s.stk t = g :: gs) (hm : g.mons[i]? = some m) (hns : g.stmt = true)
    (hk : s.mask m = some (a, cl)) (hst : next s (.step t) = some s') :
    s'.owner m = some a ∧ s'.mask m = some (a, cl) ∧ s'.accepted = s.accepted ∧ s'.entry m = s.entry m ++ [t] := by
  have iv := Inv.reach h
  have ho : s.owner m = some a := iv.mown m _ hk
  have hta : a ≠ t := by
    rintro rfl
    obtain ⟨b, h1, h2⟩ := iv.msk m (by rw [hk]; simp)
    rw [ho] at h1; cases h1
    have := (iv.sg _ m h2).2.1
    rw [hp] at this; exact this.elim
  simp only [next, stepThread, hp, hs, hm, Option.some.injEq] at hst
  subst hst
  simp only [enterMon, ho, if_neg hta, hns, if_true, enqueue]
  simp [ho, hk]

theorem search_spec {s : State} {q : List Nat} : ∀ {cl : List Group} {n u k : Nat}, search s q cl n = some (u, k) →
    ∃ i g, k = n + i ∧ cl[i]? = some g ∧ g = s.grp u ∧ u ∈ q ∧ (∀ j g', j < i → cl[j]? = some g' → ∀ v ∈ q, s.grp v ≠ g') ∧
      ∃ q1 q2, q = q1 ++ u :: q2 ∧ ∀ v ∈ q1, s.grp v ≠ g
  | [], n, u, k, h => by simp [search] at h
  | g :: gs, n, u, k, h => by
    rw [search] at h
    split at h
    · next v hv =>
      cases h
      rw [List.find?_eq_some_iff_append] at hv
      obtain ⟨h1, q1, q2, h2, h3⟩ := hv
      refine ⟨0, g, rfl, rfl, by simpa using h1, by rw [h2]; simp, by omega, q1, q2, h2, ?_⟩
      intro w hw e
      have := h3 w hw
      simp [e] at this
    · next hn =>
      obtain ⟨i, g', h1, h2, h3, h4, h5, h6⟩ := search_spec h
      refine ⟨i + 1, g', by omega, by simpa using h2, h3, h4, ?_, h6⟩
      intro j g'' hj hg' v hv e
      cases j with
      | zero =>
        simp only [List.getElem?_cons_zero, Option.some.injEq] at hg'
        rw [List.find?_eq_none] at hn
        have := hn v hv
        simp [e, hg'] at this
      | succ j => exact h5 j g'' (by omega) (by simpa using hg') v hv e

theorem search_none {s : State} {q : List Nat} : ∀ {cl : List Group} {n : Nat}, search s q cl n = none → ∀ g ∈ cl, ∀ v ∈ q, s.grp v ≠ g
  | [], n, h, g, hg => by cases hg
  | a :: as, n, h, g, hg => by
    rw [search] at h
    split at h
    · cases h
    · next hn =>
      rcases List.mem_cons.1 hg with rfl | hg
      · intro v hv e
        rw [List.find?_eq_none] at hn
        have := hn v hv
        simp [e] at this
      · exact search_none h g hg

/-- A `waitfor` all of whose clauses name calls of routines with the one monitor `m` accepts a thread that already waits for entry, if
    a clause names its call: the first such clause, and for it the thread that has waited longest. That thread owns the monitor, and the
    `waitfor` is first in line for it. Otherwise a blocking `waitfor` leaves the monitor to calls that it names, and a non-blocking one
    changes nothing. What is missing: clauses with several monitors, for which this is false. -/
theorem C78_queued_partial {s s' : State} (h : Reach nextP start s) {t m : Nat} {fs : List Nat} {blk : Bool} (hne : fs ≠ [])
    (hst : nextP s (.waitfor t (fs.map fun f => ⟨[m], some f⟩) blk) = some s') :
    (∃ i f u, fs[i]? = some f ∧ u ∈ s.entry m ∧ s.grp u = ⟨[m], some f⟩ ∧
      (∀ j f', j < i → fs[j]? = some f' → ∀ v ∈ s.entry m, s.grp v ≠ ⟨[m], some f'⟩) ∧
      (∀ v ∈ s.entry m, s.grp v = ⟨[m], some f⟩ → s.arr u ≤ s.arr v) ∧
      s'.owner m = some u ∧ s'.accepted t = some i ∧ s'.sig m = t :: s.sig m ∧ s'.entry m = (s.entry m).erase u ∧ Woken s' u) ∨
    ((∀ f ∈ fs, ∀ v ∈ s.entry m, s.grp v ≠ ⟨[m], some f⟩) ∧ s'.entry m = s.entry m ∧ s'.accepted t = none ∧
      if blk then s'.mask m = some (t, fs.map fun f => ⟨[m], some f⟩) ∧ s'.sig m = t :: s.sig m
      else s'.mask m = s.mask m ∧ s'.sig m = s.sig m ∧ s'.owner m = s.owner m ∧ s'.pc t = .run) := by
  have iv := Inv.reach h
  unfold nextP at hst
  split at hst
  swap
  · cases hst
  simp only [next] at hst
  split at hst
  swap
  · cases hst
  next hP hpc =>
  simp only [Option.some.injEq] at hst
  subst hst
  have hsort : sortMons [m] = [m] := by simp [sortMons, Sort.smallSort]
  have hcl : ((fs.map fun f => (⟨[m], some f⟩ : Group)).map fun g => ({ g with mons := sortMons g.mons } : Group)) =
      fs.map fun f => (⟨[m], some f⟩ : Group) := by
    rw [List.map_map]; apply List.map_congr_left; intro f _; simp [hsort]
  have hfold : ∀ (gs : List Nat), (((gs.map fun f => (⟨[m], some f⟩ : Group)).flatMap (·.mons)).foldl
      (fun l m => insertUnique l (some m)) [m]) = [m] := by
    intro gs
    induction gs with
    | nil => rfl
    | cons g gs ih =>
      simp only [List.map_cons, List.flatMap_cons, List.cons_append, List.nil_append, List.foldl_cons]
      have : insertUnique [m] (some m) = [m] := by simp [insertUnique]
      rw [this]; exact ih
  have hag : aggregate (fs.map fun f => (⟨[m], some f⟩ : Group)) = [m] := by
    unfold aggregate
    cases fs with
    | nil => exact (hne rfl).elim
    | cons f fs =>
      simp only [List.map_cons, List.flatMap_cons, List.cons_append, List.nil_append, List.foldl_cons]
      have : insertUnique [] (some m) = [m] := by simp [insertUnique]
      rw [this, hfold, hsort]
  unfold waitfor
  simp only [hcl, hag]
  cases hse : search { s with accepted := upd s.accepted t none } (s.entry m) (fs.map fun f => (⟨[m], some f⟩ : Group)) 0 with
  | some p =>
    obtain ⟨u, k⟩ := p
    left
    obtain ⟨i, g, h1, h2, h3, h4, h5, q1, q2, h6, h7⟩ := search_spec hse
    rw [List.getElem?_map, Option.map_eq_some_iff] at h2
    obtain ⟨f, hf, hgf⟩ := h2
    refine ⟨i, f, u, hf, h4, by rw [hgf]; exact h3.symm, ?_, ?_, ?_⟩
    · intro j f' hj hf' v hv
      exact h5 j _ hj (by rw [List.getElem?_map, hf']; rfl) v hv
    · intro v hv e
      have hps := iv.arrS m
      rw [h6] at hv hps
      rcases List.mem_append.1 hv with hv | hv
      · exact (h7 v hv (by rw [← hgf]; exact e)).elim
      · rcases List.mem_cons.1 hv with rfl | hv
        · exact Nat.le_refl _
        · rw [List.pairwise_append] at hps
          exact Nat.le_of_lt (List.rel_of_pairwise_cons hps.2.1 hv)
    · simp only [setOwners, save, pushAll, initNode, upd_same]
      have : k = i := by omega
      refine ⟨by simp, by rw [this], by simp, trivial, Or.inr ⟨t, Or.inr ⟨[], [u], ?_, by simp⟩⟩⟩
      simp
  | none =>
    right
    have hno := search_none hse
    refine ⟨fun f hf v hv => hno _ (List.mem_map_of_mem hf) v hv, ?_⟩
    cases blk with
    | true =>
      simp only [if_true, setMask, save, pushAll, initNode, upd_same]
      exact ⟨trivial, trivial, by simp, by simp⟩
    | false =>
      simp only [Bool.false_eq_true, if_false, upd_same]
      exact ⟨trivial, trivial, trivial, trivial, trivial, hpc⟩

theorem step_run {s : State} {t : Nat} (h : s.pc t = .run) : next s (.step t) = none := by
  simp only [next, stepThread, h]

/-- If threads 0 and 1 alone have acted and neither can take a step, then no thread can. -/
theorem stuck_of {as : List Act} (hs : (exec nextP start as).isSome) (ht : ∀ a ∈ as, a.thread < 2)
    (h0 : next ((exec nextP start as).get hs) (.step 0) = none) (h1 : next ((exec nextP start as).get hs) (.step 1) = none) :
    ∀ t, next ((exec nextP start as).get hs) (.step t) = none := by
  intro t
  by_cases e0 : t = 0
  · rw [e0]; exact h0
  by_cases e1 : t = 1
  · rw [e1]; exact h1
  apply step_run
  rw [exec_other (Option.some_get hs).symm (u := t) (fun a ha e => by have := ht a ha; omega)]
  rfl

/-- A thread waits in a `waitfor` that names only routine 5 with monitor 2; a call of another routine, 6, with monitors 1 and 2 enters
    monitor 2 all the same. -/
theorem C78_other_routine_violated : ∃ s s', Reach nextP start s ∧ Inside s 0 2 ∧
    exec nextP s [.waitfor 0 [⟨[2], some 5⟩] true, .step 0, .call 1 [1, 2] 6, .step 1, .step 1, .step 1] = some s' ∧
    s'.pc 0 = .park ∧ Inside s' 1 2 ∧ (s'.stk 1).map (·.fn) = [some 6] ∧ s'.accepted 0 = none := by
  refine ⟨(exec nextP start [.call 0 [2] 9, .step 0, .step 0]).getD start, _, Reach.of_isSome _ (by decide +kernel),
    by decide +kernel, Option.some_get (by decide +kernel) |>.symm, by decide +kernel, by decide +kernel, by decide +kernel,
    by decide +kernel⟩

/-- A call of routine 9 with monitors 1 and 2 by thread 0 has entered; a `waitfor` names routine 5 with monitor 1 and routine 6 with
    monitors 1 and 2; thread 1 calls routine 5 and returns from it. -/
def subsetTrace : List Act := [.call 0 [1, 2] 9, .step 0, .step 0, .step 0,
  .waitfor 0 [⟨[1], some 5⟩, ⟨[1, 2], some 6⟩] true, .step 0, .call 1 [1] 5, .step 1, .step 1, .ret 1, .step 1, .step 1, .step 1]

/-- A thread inside of the monitors 1 and 2 waits for a call of routine 5 with monitor 1 or of routine 6 with monitors 1 and 2. Routine 5
    is called, accepted and returns. The waiting thread, although its `waitfor` has accepted a call that is finished, sleeps for ever: no
    thread that is inside of an operation can go on. -/
theorem C78_subset_violated : ∃ s, exec nextP start subsetTrace = some s ∧
    s.accepted 0 = some 0 ∧ s.pc 1 = .run ∧ (s.stk 1).length = 0 ∧ s.pc 0 = .park ∧ ∀ t, next s (.step t) = none := by
  refine ⟨(exec nextP start subsetTrace).get (by decide +kernel), (Option.some_get _).symm, by decide +kernel, by decide +kernel,
    by decide +kernel, by decide +kernel, stuck_of (by decide +kernel) (by decide +kernel) ?_ ?_⟩
  · exact Option.isNone_iff_eq_none.1 (by decide +kernel)
  · exact Option.isNone_iff_eq_none.1 (by decide +kernel)

/-- Thread 0 is inside of monitors 1 and 2; thread 1 calls routine 6 with monitor 2 and waits; thread 0 then waits for a call of routine 5
    with monitor 1 or of routine 6 with monitor 2. -/
def firstOnlyTrace : List Act := [.call 0 [1, 2] 9, .step 0, .step 0, .step 0, .call 1 [2] 6, .step 1,
  .waitfor 0 [⟨[1], some 5⟩, ⟨[2], some 6⟩] true, .step 0]

/-- A call that the `waitfor` names is waiting for entry when the `waitfor` starts, and it is not accepted: both threads sleep for ever. -/
theorem C78_first_monitor_violated : ∃ s, exec nextP start firstOnlyTrace = some s ∧
    s.grp 1 = ⟨[2], some 6⟩ ∧ s.pc 1 = .epark 0 ∧ s.pc 0 = .park ∧ s.accepted 0 = none ∧ ∀ t, next s (.step t) = none := by
  refine ⟨(exec nextP start firstOnlyTrace).get (by decide +kernel), (Option.some_get _).symm, by decide +kernel, by decide +kernel,
    by decide +kernel, by decide +kernel, stuck_of (by decide +kernel) (by decide +kernel) ?_ ?_⟩
  · exact Option.isNone_iff_eq_none.1 (by decide +kernel)
  · exact Option.isNone_iff_eq_none.1 (by decide +kernel)

/-- Thread 0 calls a routine with the monitor 1 passed for both of its parameters, and waits on a condition in it. -/
def twiceTrace : List Act := [.call 0 [1, 1] 9, .step 0, .step 0, .step 0, .wait 0 7]

/-- A thread inside of a routine to which one monitor was passed twice can not `wait`: it never gets to release the monitor, so that no
    other thread enters. -/
theorem C78_same_monitor_twice_violated : ∃ s, exec nextP start twiceTrace = some s ∧ s.owner 1 = some 0 ∧
    s.pc 0 = .w1 7 ∧ ∀ t, nextP s (.step t) = none := by
  refine ⟨(exec nextP start twiceTrace).get (by decide +kernel), (Option.some_get _).symm, by decide +kernel, by decide +kernel, ?_⟩
  intro t
  have hst := stuck_of (as := twiceTrace) (by decide +kernel) (by decide +kernel) (Option.isNone_iff_eq_none.1 (by decide +kernel))
    (Option.isNone_iff_eq_none.1 (by decide +kernel)) t
  unfold nextP
  split
  · exact hst
  · rfl

/-! The hypotheses of the theorems above are met: a thread blocked in a `waitfor` with clauses for routines 5 and 6 of monitor 1; a call
    of routine 6 arrives, or was already queued. -/

example : ∃ s, Reach nextP start s ∧ s.pc 1 = .enter 0 ∧ (s.stk 1).map (·.mons) = [[1]] ∧ (s.stk 1).map (·.fn) = [some 6] ∧
    (s.stk 1).map (·.stmt) = [false] ∧ s.mask 1 = some (0, [⟨[1], some 5⟩, ⟨[1], some 6⟩]) ∧ (next s (.step 1)).isSome = true :=
  ⟨(exec nextP start [.call 0 [1] 9, .step 0, .step 0, .waitfor 0 [⟨[1], some 5⟩, ⟨[1], some 6⟩] true, .step 0, .call 1 [1] 6]).getD
    start, Reach.of_isSome _ (by decide +kernel), by decide +kernel, by decide +kernel, by decide +kernel,
    by decide +kernel, by decide +kernel, by decide +kernel⟩

example : ∃ s, Reach nextP start s ∧ s.entry 1 = [2, 1] ∧ s.grp 1 = ⟨[1], some 6⟩ ∧
    (nextP s (.waitfor 0 ([5, 6].map fun f => ⟨[1], some f⟩) true)).isSome = true :=
  ⟨(exec nextP start [.call 0 [1] 9, .step 0, .step 0, .call 1 [1] 6, .call 2 [1] 7, .step 2, .step 1]).getD
    start, Reach.of_isSome _ (by decide +kernel), by decide +kernel, by decide +kernel, by decide +kernel⟩

example : ∃ s, Reach nextP start s ∧ s.pc 1 = .enter 0 ∧ (s.stk 1).map (·.mons) = [[1]] ∧
    (s.stk 1).map (·.stmt) = [true] ∧ s.mask 1 = some (0, [⟨[1], some 5⟩]) ∧ (next s (.step 1)).isSome = true :=
  ⟨(exec nextP start [.call 0 [1] 9, .step 0, .step 0, .waitfor 0 [⟨[1], some 5⟩] true, .step 0, .stmt 1 [1]]).getD
    start, Reach.of_isSome _ (by decide +kernel), by decide +kernel, by decide +kernel, by decide +kernel,
    by decide +kernel, by decide +kernel⟩

end Verif.Monitor
