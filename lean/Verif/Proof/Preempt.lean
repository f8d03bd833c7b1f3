import Verif.Spec.Preempt

namespace Verif.Preempt

/-! ## One processor -/

/-- The places to return to when preemption is enabled and no section is open. -/
inductive Quiet : List Pc → Prop
  | user : Quiet [.user]
  | call : Quiet [.e3, .user]
  | yield0 {r : List Pc} (h : Quiet r) : Quiet (.f0 :: r)
  | yield5 {r : List Pc} (h : Quiet r) : Quiet (.f5 :: r)

/-- What holds at each place. -/
def At (p : Proc) : Pc → List Pc → Prop
  | .user, r => r = [] ∧ p.count = p.nest ∧ p.enabled = decide (p.nest = 0)
  | .d0, r => r = [.user] ∧ p.count = p.nest ∧ p.enabled = decide (p.nest = 0)
  | .d1, r => r = [.user] ∧ p.count = p.nest ∧ p.enabled = false
  | .e0 _, r => r = [.user] ∧ p.count = p.nest + 1 ∧ p.enabled = false ∧ p.nest < 65535
  | .e1 _, r => r = [.user] ∧ p.count = 0 ∧ p.nest = 0 ∧ p.enabled = false
  | .e2 _, r => r = [.user] ∧ p.count = 0 ∧ p.nest = 0 ∧ p.enabled = true
  | .e3, r => r = [.user] ∧ p.count = p.nest ∧ p.enabled = decide (p.nest = 0)
  | .p0, r => r = [.user] ∧ p.count = p.nest ∧ p.enabled = decide (p.nest = 0)
  | .p1, r => r = [.user] ∧ p.count = 0 ∧ p.nest = 0 ∧ p.enabled = true
  | .f0, r => Quiet r ∧ p.count = 0 ∧ p.nest = 0 ∧ p.enabled = true
  | .f1, r => Quiet r ∧ p.count = 0 ∧ p.nest = 0 ∧ p.enabled = false
  | .f2, r => Quiet r ∧ p.count = 1 ∧ p.nest = 0 ∧ p.enabled = false
  | .f3, r => Quiet r ∧ p.count = 1 ∧ p.nest = 0 ∧ p.enabled = false
  | .f4, r => Quiet r ∧ p.count = 0 ∧ p.nest = 0 ∧ p.enabled = false
  | .f5, r => Quiet r ∧ p.count = 0 ∧ p.nest = 0 ∧ p.enabled = true

/-- The invariant. -/
def Inv (p : Proc) : Prop := ∃ pc r, p.stack = pc :: r ∧ At p pc r ∧ p.nest ≤ 65535

theorem at_congr {p q : Proc} (h1 : p.enabled = q.enabled) (h2 : p.count = q.count)
    (h3 : p.nest = q.nest) (pc : Pc) (r : List Pc) (h : At p pc r) : At q pc r := by
  cases pc <;> simp only [At, h1, h2, h3] at h ⊢ <;> exact h

/-- The return to a quiet place. -/
theorem quiet_inv {q : Proc} (hq : Quiet q.stack) (h1 : q.count = 0) (h2 : q.nest = 0)
    (h3 : q.enabled = true) : Inv q := by
  generalize hs : q.stack = s at hq
  cases hq with
  | user => exact ⟨_, _, hs, by simp [At, h1, h2, h3], by omega⟩
  | call => exact ⟨_, _, hs, by simp [At, h1, h2, h3], by omega⟩
  | yield0 h => exact ⟨_, _, hs, ⟨h, h1, h2, h3⟩, by omega⟩
  | yield5 h => exact ⟨_, _, hs, ⟨h, h1, h2, h3⟩, by omega⟩

theorem inv_signal {p : Proc} {pc : Pc} {r : List Pc} (hs : p.stack = pc :: r) (ha : At p pc r)
    (hb : p.nest ≤ 65535) : Inv (onSignal p pc) := by
  unfold onSignal
  by_cases h : (!pc.inRegion && p.enabled) = true
  · simp only [h, if_true]
    rw [Bool.and_eq_true] at h
    obtain ⟨h1, h2⟩ := h
    have hq : Quiet p.stack ∧ p.count = 0 ∧ p.nest = 0 := by
      rw [hs]
      cases pc <;> simp [Pc.inRegion] at h1 <;> simp only [At] at ha
      · obtain ⟨rfl, hc, he⟩ := ha
        rw [h2] at he
        have h0 : p.nest = 0 := by simpa using he.symm
        exact ⟨.user, by omega, h0⟩
      · exact ⟨.yield0 ha.1, ha.2.1, ha.2.2.1⟩
      · rw [ha.2.2.2] at h2; cases h2
      · exact ⟨.yield5 ha.1, ha.2.1, ha.2.2.1⟩
    exact ⟨_, _, rfl, ⟨hq.1, hq.2.1, hq.2.2, h2⟩, hb⟩
  · simp only [h, Bool.false_eq_true, if_false]
    exact ⟨pc, r, hs, at_congr rfl rfl rfl pc r ha, hb⟩

theorem inv_micro {p : Proc} {pc : Pc} {r : List Pc} (ha : At p pc r) (hpc : pc ≠ .user)
    (hb : p.nest ≤ 65535) (hb' : (micro p pc r).nest ≤ 65535) : Inv (micro p pc r) := by
  cases pc with
  | user => exact absurd rfl hpc
  | d0 =>
    obtain ⟨rfl, h1, h2⟩ := ha
    exact ⟨_, _, rfl, ⟨rfl, h1, rfl⟩, hb⟩
  | d1 =>
    obtain ⟨rfl, h1, h2⟩ := ha
    simp only [micro] at hb'
    refine ⟨_, _, rfl, ⟨rfl, ?_, ?_⟩, hb'⟩
    · simp only [micro]; rw [h1]; omega
    · simp [micro, h2]
  | e0 poll =>
    obtain ⟨rfl, h1, h2, h3⟩ := ha
    by_cases hc : p.nest = 0
    · have : p.count = 1 := by omega
      have hm : micro p (.e0 poll) [.user] = { p with count := 0, stack := [.e1 poll, .user] } := by
        simp [micro, this]
      rw [hm]
      exact ⟨_, _, rfl, ⟨rfl, rfl, hc, h2⟩, hb⟩
    · have : p.count ≠ 1 := by omega
      refine ⟨.e3, [.user], by simp only [micro, if_neg this], ⟨rfl, ?_, ?_⟩, hb'⟩
      · simp only [micro]; omega
      · simp [micro, h2, hc]
  | e1 poll =>
    obtain ⟨rfl, h1, h2, h3⟩ := ha
    exact ⟨_, _, rfl, ⟨rfl, h1, h2, rfl⟩, hb⟩
  | e2 poll =>
    obtain ⟨rfl, h1, h2, h3⟩ := ha
    unfold micro
    simp only
    split
    · exact ⟨_, _, rfl, ⟨.call, h1, h2, h3⟩, hb⟩
    · exact ⟨_, _, rfl, ⟨rfl, by simp only; omega, by simp only; rw [h3, h2]; rfl⟩, hb⟩
  | e3 =>
    obtain ⟨rfl, h1, h2⟩ := ha
    exact ⟨_, _, rfl, ⟨rfl, h1, h2⟩, hb⟩
  | p0 =>
    obtain ⟨rfl, h1, h2⟩ := ha
    by_cases hc : p.nest = 0
    · have he : p.enabled = true := by rw [h2]; simpa using hc
      exact ⟨.p1, [.user], by simp [micro, he], ⟨rfl, by simp only [micro]; omega, hc, he⟩, hb⟩
    · have he : p.enabled = false := by rw [h2]; simpa using hc
      exact ⟨.e3, [.user], by simp [micro, he], ⟨rfl, h1, h2⟩, hb⟩
  | p1 =>
    obtain ⟨rfl, h1, h2, h3⟩ := ha
    unfold micro
    simp only
    split
    · exact ⟨_, _, rfl, ⟨.call, h1, h2, h3⟩, hb⟩
    · exact ⟨_, _, rfl, ⟨rfl, by simp only; omega, by simp only; rw [h3, h2]; rfl⟩, hb⟩
  | f0 =>
    obtain ⟨h0, h1, h2, h3⟩ := ha
    exact ⟨_, _, rfl, ⟨h0, h1, h2, rfl⟩, hb⟩
  | f1 =>
    obtain ⟨h0, h1, h2, h3⟩ := ha
    exact ⟨_, _, rfl, ⟨h0, by simp [micro, h1], h2, h3⟩, hb⟩
  | f2 =>
    obtain ⟨h0, h1, h2, h3⟩ := ha
    exact ⟨_, _, rfl, ⟨h0, h1, h2, h3⟩, hb⟩
  | f3 =>
    obtain ⟨h0, h1, h2, h3⟩ := ha
    have hm : micro p .f3 r = { p with count := 0, stack := .f4 :: r } := by simp [micro, h1]
    rw [hm]
    exact ⟨_, _, rfl, ⟨h0, rfl, h2, h3⟩, hb⟩
  | f4 =>
    obtain ⟨h0, h1, h2, h3⟩ := ha
    exact ⟨_, _, rfl, ⟨h0, h1, h2, rfl⟩, hb⟩
  | f5 =>
    obtain ⟨h0, h1, h2, h3⟩ := ha
    exact quiet_inv h0 h1 h2 h3

theorem inv_act {p q : Proc} {a : Act} (hi : Inv p) (h : act p a = some q) (hb' : q.nest ≤ 65535) :
    Inv q := by
  obtain ⟨pc, r, hs, ha, hb⟩ := hi
  unfold act at h
  rw [hs] at h
  simp only at h
  cases a with
  | signal => injection h with h; subst h; exact inv_signal hs ha hb
  | step =>
    simp only at h
    split at h
    · cases h
    · injection h with h; subst h; exact inv_micro ha (by assumption) hb hb'
  | callDisable =>
    simp only at h
    split at h
    · rename_i hu
      subst hu
      injection h with h; subst h
      obtain ⟨rfl, h1, h2⟩ := ha
      exact ⟨_, _, rfl, ⟨rfl, h1, h2⟩, hb⟩
    · cases h
  | callEnable poll =>
    simp only at h
    split at h
    · rename_i hu
      obtain ⟨hu, hn⟩ := hu
      subst hu
      injection h with h; subst h
      obtain ⟨rfl, h1, h2⟩ := ha
      refine ⟨_, _, rfl, ⟨rfl, ?_, ?_, ?_⟩, by simp only; omega⟩
      · simp only; omega
      · simp only; rw [h2]; simp; omega
      · simp only; omega
    · cases h
  | callPoll =>
    simp only at h
    split at h
    · rename_i hu
      subst hu
      injection h with h; subst h
      obtain ⟨rfl, h1, h2⟩ := ha
      exact ⟨_, _, rfl, ⟨rfl, h1, h2⟩, hb⟩
    · cases h

/-- A call of `disable_interrupts` is under way. -/
def inCall (p : Proc) : Nat :=
  match p.stack with
  | .d0 :: _ | .d1 :: _ => 1
  | _ => 0

theorem quiet_inCall {q : Proc} (hq : Quiet q.stack) : inCall q = 0 := by
  unfold inCall
  generalize q.stack = s at hq
  cases hq <;> rfl

theorem disables_cons (a : Act) (as : List Act) : disables (a :: as) = disables [a] + disables as := by
  unfold disables
  rw [show a :: as = [a] ++ as from rfl, List.countP_append]

theorem enables_cons (a : Act) (as : List Act) : enables (a :: as) = enables [a] + enables as := by
  unfold enables
  rw [show a :: as = [a] ++ as from rfl, List.countP_append]

/-- The calls and the open sections. -/
theorem calls_act {p q : Proc} {a : Act} (hi : Inv p) (h : act p a = some q) :
    disables [a] + p.nest + inCall p = enables [a] + q.nest + inCall q := by
  obtain ⟨pc, r, hs, ha, hb⟩ := hi
  unfold act at h
  rw [hs] at h
  simp only at h
  cases a with
  | signal =>
    injection h with h; subst h
    have hd : disables [.signal] = 0 := rfl
    have he : enables [.signal] = 0 := rfl
    rw [hd, he]
    unfold onSignal
    by_cases hr : (!pc.inRegion && p.enabled) = true
    · simp only [hr, if_true]
      have : inCall p = 0 := by
        unfold inCall
        rw [hs]
        cases pc <;> first | rfl | (simp [Pc.inRegion] at hr)
      rw [this]; rfl
    · simp only [hr, Bool.false_eq_true, if_false]; rfl
  | step =>
    simp only at h
    split at h
    · cases h
    · injection h with h; subst h
      have hd : disables [.step] = 0 := rfl
      have he : enables [.step] = 0 := rfl
      rw [hd, he]
      unfold inCall
      rw [hs]
      cases pc with
      | user => contradiction
      | d0 => simp only [micro]
      | d1 => obtain ⟨rfl, _⟩ := ha; simp only [micro]; omega
      | e0 poll => obtain ⟨rfl, _⟩ := ha; simp only [micro]; by_cases hc : p.count = 1 <;> simp [hc]
      | e1 poll => simp only [micro]
      | e2 poll => simp only [micro]; split <;> simp
      | e3 => obtain ⟨rfl, _⟩ := ha; simp only [micro]
      | p0 => simp only [micro]; cases p.enabled <;> simp
      | p1 => simp only [micro]; split <;> simp
      | f0 => simp only [micro]
      | f1 => simp only [micro]
      | f2 => simp only [micro]
      | f3 => simp only [micro]; by_cases hc : p.count = 1 <;> simp [hc]
      | f4 => simp only [micro]
      | f5 =>
        have := quiet_inCall (q := { p with stack := r }) ha.1
        unfold inCall at this
        simp only [micro] at this ⊢
        omega
  | callDisable =>
    simp only at h
    split at h
    · rename_i hu; subst hu; injection h with h; subst h
      have hd : disables [.callDisable] = 1 := rfl
      have he : enables [.callDisable] = 0 := rfl
      rw [hd, he]
      unfold inCall
      rw [hs]
      simp only; omega
    · cases h
  | callEnable poll =>
    simp only at h
    split at h
    · rename_i hu
      obtain ⟨hu, hn⟩ := hu
      subst hu; injection h with h; subst h
      have hd : disables [.callEnable poll] = 0 := rfl
      have he : enables [.callEnable poll] = 1 := by cases poll <;> rfl
      rw [hd, he]
      unfold inCall
      rw [hs]
      simp only; omega
    · cases h
  | callPoll =>
    simp only at h
    split at h
    · rename_i hu; subst hu; injection h with h; subst h
      have hd : disables [.callPoll] = 0 := rfl
      have he : enables [.callPoll] = 0 := rfl
      rw [hd, he]
      unfold inCall
      rw [hs]
    · cases h

/-- What holds after any execution, started where `D` calls of `disable_interrupts` and `E` calls of
`enable_interrupts` have been made. -/
theorem exec_inv {p q : Proc} {as : List Act} (he : Exec p as q) : ∀ {D E : Nat}, Inv p →
    D = E + p.nest + inCall p →
    (∀ n, D + disables (as.take n) ≤ E + enables (as.take n) + 65535) →
    Inv q ∧ D + disables as = E + enables as + q.nest + inCall q := by
  induction he with
  | nil => intro D E hi hd _; exact ⟨hi, hd⟩
  | cons h hr ih =>
    rename_i p q r a as
    intro D E hi hd hw
    have hc := calls_act hi h
    have h1 := hw 1
    simp only [List.take_succ_cons, List.take_zero] at h1
    have hiq := inv_act hi h (by omega)
    have := ih (D := D + disables [a]) (E := E + enables [a]) hiq (by omega) (by
      intro n
      have := hw (n + 1)
      rw [List.take_succ_cons, disables_cons, enables_cons] at this
      omega)
    rw [disables_cons, enables_cons]
    exact ⟨this.1, by omega⟩

theorem start_inv {as : List Act} {p : Proc} (he : Exec .start as p) (hw : Within as) :
    Inv p ∧ disables as = enables as + p.nest + inCall p := by
  have := exec_inv he (D := 0) (E := 0) ⟨.user, [], rfl, ⟨rfl, rfl, rfl⟩, by decide⟩ rfl
    (by intro n; have := hw n; omega)
  exact ⟨this.1, by omega⟩

theorem exec_append {p q r : Proc} {as bs : List Act} (h : Exec p as q) (h' : Exec q bs r) :
    Exec p (as ++ bs) r := by
  induction h with
  | nil => exact h'
  | cons ha _ ih => exact .cons ha (ih h')

theorem within_left {as bs : List Act} (h : Within (as ++ bs)) : Within as := by
  intro n
  have := h (min n as.length)
  rw [List.take_append_of_le_length (Nat.min_le_right _ _)] at this
  rw [← List.take_eq_take_min] at this
  exact this

/-! ### A signal that is put off -/

/-- A switch is still to come. -/
def Owes (p : Proc) : Prop :=
  match p.stack with
  | .f0 :: _ | .f1 :: _ | .f2 :: _ => True
  | .user :: _ | .d0 :: _ | .d1 :: _ | .e3 :: _ => p.pending = true ∧ 0 < p.nest
  | .e0 true :: _ | .e1 true :: _ | .e2 true :: _ | .p0 :: _ | .p1 :: _ => p.pending = true
  | _ => False

theorem owes_act {p q : Proc} {a : Act} (hi : Inv p) (ho : Owes p) (h : act p a = some q)
    (hn : switches p a = false) (hpoll : a ≠ .callEnable false) : Owes q := by
  obtain ⟨pc, r, hs, ha, hb⟩ := hi
  unfold act at h
  unfold Owes at ho
  rw [hs] at h ho
  simp only at h
  cases a with
  | signal =>
    injection h with h; subst h
    unfold onSignal
    by_cases hr : (!pc.inRegion && p.enabled) = true
    · simp only [hr, if_true]; trivial
    · simp only [hr, Bool.false_eq_true, if_false]
      unfold Owes
      simp only [hs]
      cases pc <;> simp only at ho ⊢ <;>
        first
          | trivial
          | exact ⟨trivial, ho.2⟩
          | (rename_i b; cases b <;> simp only at ho ⊢)
  | step =>
    simp only at h
    split at h
    · cases h
    · injection h with h; subst h
      unfold switches at hn
      rw [hs] at hn
      cases pc with
      | user => contradiction
      | d0 => exact ho
      | d1 =>
        obtain ⟨rfl, _⟩ := ha
        exact ⟨ho.1, Nat.succ_pos _⟩
      | e0 poll =>
        cases poll with
        | false => exact ho.elim
        | true =>
          obtain ⟨rfl, h1, _⟩ := ha
          simp only [micro, Owes]
          by_cases hc : p.count = 1
          · simp only [hc, if_true]; exact ho
          · simp only [if_neg hc]; exact ⟨ho, by omega⟩
      | e1 poll =>
        cases poll with
        | false => exact ho.elim
        | true => exact ho
      | e2 poll =>
        cases poll with
        | false => exact ho.elim
        | true =>
          simp only at ho
          simp only [micro, ho, Bool.and_self, if_true, Owes]
      | e3 =>
        obtain ⟨rfl, _⟩ := ha
        exact ho
      | p0 =>
        obtain ⟨rfl, h1, h2⟩ := ha
        simp only [micro, Owes]
        cases he : p.enabled with
        | true => simp only [if_true]; exact ho
        | false =>
          simp only [Bool.false_eq_true, if_false]
          rw [he] at h2
          have : p.nest ≠ 0 := by simpa using h2.symm
          exact ⟨ho, by omega⟩
      | p1 => simp only at ho; simp only [micro, ho, if_true, Owes]
      | f0 => trivial
      | f1 => trivial
      | f2 => simp at hn
      | f3 => exact ho.elim
      | f4 => exact ho.elim
      | f5 => exact ho.elim
  | callDisable =>
    simp only at h
    split at h
    · rename_i hu; subst hu; injection h with h; subst h; exact ho
    · cases h
  | callEnable poll =>
    simp only at h
    split at h
    · rename_i hu
      obtain ⟨hu, _⟩ := hu
      subst hu; injection h with h; subst h
      cases poll with
      | false => exact absurd rfl hpoll
      | true => exact ho.1
    · cases h
  | callPoll =>
    simp only at h
    split at h
    · rename_i hu; subst hu; injection h with h; subst h; exact ho.1
    · cases h

theorem owes_exec {p q : Proc} {as : List Act} (he : Exec p as q) : ∀ {D E : Nat}, Inv p → Owes p →
    D = E + p.nest + inCall p →
    (∀ n, D + disables (as.take n) ≤ E + enables (as.take n) + 65535) →
    (∀ a ∈ as, a ≠ .callEnable false) → ¬ Owes q → Switched p as := by
  induction he with
  | nil => intro _ _ _ ho _ _ _ hq; exact absurd ho hq
  | cons h hr ih =>
    rename_i p q r a as
    intro D E hi ho hd hw hpoll hq
    cases hsw : switches p a with
    | true => exact .here hsw
    | false =>
      have hc := calls_act hi h
      have h1 := hw 1
      simp only [List.take_succ_cons, List.take_zero] at h1
      refine .later h (ih (D := D + disables [a]) (E := E + enables [a]) (inv_act hi h (by omega))
        (owes_act hi ho h hsw (hpoll a (by simp))) (by omega) ?_
        (fun b hb => hpoll b (by simp [hb])) hq)
      intro n
      have := hw (n + 1)
      rw [List.take_succ_cons, disables_cons, enables_cons] at this
      omega

/-- From a place where a switch is owed to user code that is in no section. -/
theorem owes_start {p q : Proc} {as bs : List Act} (hp : Exec .start as p) (hbs : Exec p bs q)
    (hw : Within (as ++ bs)) (ho : Owes p) (hpoll : ∀ b ∈ bs, b ≠ .callEnable false)
    (hu : q.stack = [.user]) (hbal : disables (as ++ bs) = enables (as ++ bs)) : Switched p bs := by
  obtain ⟨hi, hc⟩ := start_inv hp (within_left hw)
  obtain ⟨_, hcq⟩ := start_inv (exec_append hp hbs) hw
  refine owes_exec hbs (D := disables as) (E := enables as) hi ho hc ?_ hpoll ?_
  · intro n
    have := hw (as.length + n)
    rw [List.take_length_add_append] at this
    unfold disables enables at *
    rw [List.countP_append, List.countP_append] at this
    exact this
  · unfold Owes
    rw [hu]
    simp only [not_and, Nat.not_lt]
    intro _; omega

/-! ### The routines return -/

/-- The steps that are left. -/
def rank : Pc → Nat
  | .user => 0
  | .d0 => 2 | .d1 => 1
  | .e0 _ => 10 | .e1 _ => 9 | .e2 _ => 8 | .e3 => 1
  | .p0 => 9 | .p1 => 8
  | .f0 => 6 | .f1 => 5 | .f2 => 4 | .f3 => 3 | .f4 => 2 | .f5 => 1

theorem micro_rank (p : Proc) (pc : Pc) (r : List Pc) (h : pc ≠ .user) :
    ((micro p pc r).stack.map rank).sum < ((pc :: r).map rank).sum := by
  cases pc <;> simp only [micro] <;> (try split) <;>
    simp only [List.map_cons, List.sum_cons, rank] <;> first | omega | (exact absurd rfl h) | skip
  all_goals (split <;> simp only [rank] <;> omega)

theorem returns : ∀ (n : Nat) (p : Proc), Inv p → (p.stack.map rank).sum ≤ n →
    ∃ k q, Exec p (List.replicate k .step) q ∧ q.stack = [.user] := by
  intro n
  induction n with
  | zero =>
    intro p hi hn
    obtain ⟨pc, r, hs, ha, hb⟩ := hi
    rw [hs] at hn
    cases pc <;> simp [rank] at hn
    obtain ⟨rfl, _⟩ := ha
    exact ⟨0, p, .nil, hs⟩
  | succ n ih =>
    intro p hi hn
    have hi' := hi
    obtain ⟨pc, r, hs, ha, hb⟩ := hi
    by_cases hpc : pc = .user
    · subst hpc
      obtain ⟨rfl, _⟩ := ha
      exact ⟨0, p, .nil, hs⟩
    · have hact : act p .step = some (micro p pc r) := by
        unfold act; rw [hs]; simp only [if_neg hpc]
      have hr := micro_rank p pc r hpc
      rw [hs] at hn
      have hbd : (micro p pc r).nest ≤ 65535 ∨ pc = .d1 := by
        by_cases hd : pc = .d1
        · exact Or.inr hd
        · left
          cases pc <;> simp only [micro] <;> first | exact hb | skip
          · exact absurd rfl hd
          all_goals (split <;> exact hb)
      rcases hbd with hbd | rfl
      · obtain ⟨k, q, hk, hq⟩ := ih _ (inv_act hi' hact hbd) (by omega)
        exact ⟨k + 1, q, .cons hact hk, hq⟩
      · obtain ⟨rfl, _⟩ := ha
        exact ⟨1, _, .cons hact .nil, rfl⟩

/-! ## The timer -/

/-- Sorted by deadline. -/
def Sorted (as : List (Nat × Nat)) : Prop := as.Pairwise fun a b => a.1 ≤ b.1

theorem mem_insert {n a : Nat × Nat} {as : List (Nat × Nat)} : a ∈ insert n as ↔ a = n ∨ a ∈ as := by
  induction as with
  | nil => simp [insert]
  | cons b as ih =>
    unfold insert
    split
    · simp only [List.mem_cons, ih]
      exact or_left_comm
    · simp only [List.mem_cons]

theorem sorted_insert {n : Nat × Nat} {as : List (Nat × Nat)} (h : Sorted as) : Sorted (insert n as) := by
  unfold Sorted at *
  induction as with
  | nil => simp [insert]
  | cons b as ih =>
    unfold insert
    rw [List.pairwise_cons] at h
    split
    · rw [List.pairwise_cons]
      refine ⟨?_, ih h.2⟩
      intro a ha
      rcases mem_insert.1 ha with rfl | ha
      · assumption
      · exact h.1 a ha
    · rename_i hb
      rw [List.pairwise_cons, List.pairwise_cons]
      refine ⟨?_, h⟩
      intro a ha
      rcases List.mem_cons.1 ha with rfl | ha
      · omega
      · have := h.1 a ha; omega

/-- The expired alarms of a list, by deadline. -/
theorem expire_spec {now : Nat} : ∀ (f : Nat) (as : List (Nat × Nat)), Sorted as →
    (as.filter fun a => decide (a.1 < now)).length ≤ f →
    Sorted (expire now f as).1 ∧ (∀ a ∈ (expire now f as).1, now ≤ a.1) ∧
    (expire now f as).2 = as.filter (fun a => decide (a.1 < now)) ∧
    (∀ a, a ∈ (expire now f as).1 ↔ (a ∈ as ∧ now ≤ a.1) ∨
      ∃ b ∈ as, b.1 < now ∧ 0 < b.2 ∧ a = (now + b.2, b.2)) := by
  intro f
  induction f with
  | zero =>
    intro as hs hf
    have hnil : as.filter (fun a => decide (a.1 < now)) = [] := List.length_eq_zero_iff.1 (by omega)
    have hall : ∀ a ∈ as, now ≤ a.1 := by
      intro a ha
      have := List.filter_eq_nil_iff.1 hnil a ha
      simpa using this
    refine ⟨hs, hall, hnil.symm, ?_⟩
    intro a
    constructor
    · intro h; exact Or.inl ⟨h, hall a h⟩
    · rintro (h | ⟨b, hb, h, _⟩)
      · exact h.1
      · have := hall b hb; omega
  | succ f ih =>
    intro as hs hf
    cases as with
    | nil =>
      refine ⟨hs, (fun a h => by cases h), rfl, ?_⟩
      intro a
      constructor
      · intro h; cases h
      · rintro (h | ⟨b, hb, _⟩)
        · exact h.1
        · cases hb
    | cons a as =>
      unfold expire
      have hs' := hs
      unfold Sorted at hs'
      rw [List.pairwise_cons] at hs'
      by_cases hn : now ≤ a.1
      · rw [if_pos hn]
        have hall : ∀ b ∈ a :: as, now ≤ b.1 := by
          intro b hb
          rcases List.mem_cons.1 hb with rfl | hb
          · exact hn
          · have := hs'.1 b hb; omega
        refine ⟨hs, hall, ?_, ?_⟩
        · symm
          apply List.filter_eq_nil_iff.2
          intro b hb
          have := hall b hb
          simpa using this
        · intro b
          constructor
          · intro h; exact Or.inl ⟨h, hall b h⟩
          · rintro (h | ⟨c, hc, h, _⟩)
            · exact h.1
            · have := hall c hc; omega
      · rw [if_neg hn]
        have hlt : a.1 < now := by omega
        have hfil : (a :: as).filter (fun a => decide (a.1 < now)) =
            a :: as.filter (fun a => decide (a.1 < now)) := by
          rw [List.filter_cons]; simp [hlt]
        rw [hfil] at hf ⊢
        simp only [List.length_cons] at hf
        by_cases hp : 0 < a.2
        · simp only [if_pos hp]
          have hins : (insert (now + a.2, a.2) as).filter (fun a => decide (a.1 < now)) =
              as.filter (fun a => decide (a.1 < now)) := by
            have : ∀ as : List (Nat × Nat), (insert (now + a.2, a.2) as).filter
                (fun a => decide (a.1 < now)) = as.filter (fun a => decide (a.1 < now)) := by
              intro as
              induction as with
              | nil => simp [insert]
              | cons b as ih =>
                unfold insert
                split
                · rw [List.filter_cons, List.filter_cons, ih]
                · rw [List.filter_cons]
                  simp
            exact this as
          obtain ⟨h1, h2, h3, h4⟩ := ih (insert (now + a.2, a.2) as) (sorted_insert hs'.2)
            (by rw [hins]; omega)
          refine ⟨h1, h2, by rw [h3, hins], ?_⟩
          intro b
          rw [h4 b]
          constructor
          · rintro (⟨h, hb⟩ | ⟨c, hc, h, h', rfl⟩)
            · rcases mem_insert.1 h with rfl | h
              · exact Or.inr ⟨a, by simp, hlt, hp, rfl⟩
              · exact Or.inl ⟨by simp [h], hb⟩
            · rcases mem_insert.1 hc with rfl | hc
              · simp only at h; omega
              · exact Or.inr ⟨c, by simp [hc], h, h', rfl⟩
          · rintro (⟨h, hb⟩ | ⟨c, hc, h, h', rfl⟩)
            · rcases List.mem_cons.1 h with rfl | h
              · omega
              · exact Or.inl ⟨mem_insert.2 (Or.inr h), hb⟩
            · rcases List.mem_cons.1 hc with rfl | hc
              · exact Or.inl ⟨mem_insert.2 (Or.inl rfl), by simp only; omega⟩
              · exact Or.inr ⟨c, mem_insert.2 (Or.inr hc), h, h', rfl⟩
        · simp only [if_neg hp]
          obtain ⟨h1, h2, h3, h4⟩ := ih as hs'.2 (by omega)
          refine ⟨h1, h2, by rw [h3], ?_⟩
          intro b
          rw [h4 b]
          constructor
          · rintro (⟨h, hb⟩ | ⟨c, hc, h, h', rfl⟩)
            · exact Or.inl ⟨by simp [h], hb⟩
            · exact Or.inr ⟨c, by simp [hc], h, h', rfl⟩
          · rintro (⟨h, hb⟩ | ⟨c, hc, h, h', rfl⟩)
            · rcases List.mem_cons.1 h with rfl | h
              · omega
              · exact Or.inl ⟨h, hb⟩
            · rcases List.mem_cons.1 hc with rfl | hc
              · exact absurd h' hp
              · exact Or.inr ⟨c, hc, h, h', rfl⟩

/-- In time for a deadline. -/
def InTime (t : Timer) (d : Nat) : Prop := ∃ r, t.rings = some r ∧ r ≤ max d (t.now + 1000) + 1000

/-- The invariant of the timer. -/
structure TInv (t : Timer) : Prop where
  sorted : Sorted t.alarms
  later : ∀ r, t.rings = some r → t.now < r
  armed : t.sigalrm = true ∨ ∀ a ∈ t.alarms, InTime t a.1

theorem setTimer_same {t : Timer} {d : Nat} : (setTimer t d).now = t.now ∧
    (setTimer t d).alarms = t.alarms ∧ (setTimer t d).sigalrm = t.sigalrm := by
  unfold setTimer
  simp only
  split <;> exact ⟨rfl, rfl, rfl⟩

theorem setTimer_ok {t : Timer} {d : Nat} (hl : ∀ r, t.rings = some r → t.now < r) :
    (∀ r, (setTimer t (d - t.now)).rings = some r → t.now < r) ∧
    InTime (setTimer t (d - t.now)) d ∧
    (∀ e, InTime t e → InTime (setTimer t (d - t.now)) e) := by
  unfold setTimer InTime getitimer
  simp only
  cases hr : t.rings with
  | none =>
    simp only [true_or, if_true, Option.some.injEq]
    refine ⟨?_, ⟨_, rfl, ?_⟩, ?_⟩
    · rintro r rfl; omega
    · omega
    · rintro e ⟨r, h, _⟩; cases h
  | some r =>
    have hlr := hl r hr
    simp only
    split
    · simp only [Option.some.injEq]
      refine ⟨?_, ⟨_, rfl, ?_⟩, ?_⟩
      · rintro r rfl; omega
      · omega
      · rintro e ⟨r', rfl, h⟩
        exact ⟨_, rfl, by omega⟩
    · rename_i hc
      simp only [hr, Option.some.injEq]
      refine ⟨?_, ⟨_, rfl, ?_⟩, ?_⟩
      · rintro r' rfl; exact hlr
      · omega
      · rintro e ⟨r', rfl, h⟩
        exact ⟨_, rfl, h⟩

theorem tinv_tick {t : Timer} (h : TInv t) : TInv (tick { t with sigalrm := false }).1 := by
  unfold tick
  simp only
  obtain ⟨h1, h2, h3, h4⟩ := expire_spec (now := t.now) t.alarms.length t.alarms h.sorted
    (List.length_filter_le _ _)
  generalize hr : expire t.now t.alarms.length t.alarms = res at *
  obtain ⟨left, gone⟩ := res
  simp only at h1 h2 ⊢
  cases left with
  | nil => exact ⟨h1, h.later, Or.inr fun a ha => by cases ha⟩
  | cons a left =>
    simp only
    have hs := setTimer_ok (t := { t with sigalrm := false, alarms := a :: left }) (d := a.1) h.later
    obtain ⟨e1, e2, e3⟩ := setTimer_same (t := { t with sigalrm := false, alarms := a :: left })
      (d := a.1 - t.now)
    simp only at hs e1 e2 e3
    refine ⟨by rw [e2]; exact h1, by rw [e1]; exact hs.1, Or.inr ?_⟩
    rw [e2]
    intro b hb
    obtain ⟨r, hr, hle⟩ := hs.2.1
    refine ⟨r, hr, ?_⟩
    have hab : a.1 ≤ b.1 := by
      rcases List.mem_cons.1 hb with rfl | hb
      · exact Nat.le_refl _
      · unfold Sorted at h1; rw [List.pairwise_cons] at h1; exact h1.1 b hb
    omega

theorem tinv_act {t : Timer} (h : TInv t) (a : TAct) : TInv (tact t a) := by
  cases a with
  | wait d =>
    unfold tact
    cases hr : t.rings with
    | none =>
      simp only
      refine ⟨h.sorted, (fun r hr' => by cases hr'), ?_⟩
      rcases h.armed with hs | ha
      · exact Or.inl hs
      · right
        intro a ha'
        obtain ⟨r, hr', _⟩ := ha a ha'
        rw [hr] at hr'; cases hr'
    | some r =>
      simp only
      split
      · exact ⟨h.sorted, (fun r hr' => by cases hr'), Or.inl rfl⟩
      · rename_i hlt
        refine ⟨h.sorted, ?_, ?_⟩
        · intro r' hr'
          simp only at hr' ⊢
          injection hr' with hr'; omega
        · rcases h.armed with hs | ha
          · exact Or.inl hs
          · right
            intro a ha'
            obtain ⟨r', hr', hle⟩ := ha a ha'
            exact ⟨r', hr ▸ hr', by simp only; omega⟩
  | register n =>
    unfold tact
    simp only
    have hs := setTimer_ok (t := { t with alarms := insert n t.alarms }) (d := n.1) h.later
    obtain ⟨e1, e2, e3⟩ := setTimer_same (t := { t with alarms := insert n t.alarms })
      (d := n.1 - t.now)
    simp only at hs e1 e2 e3
    refine ⟨by rw [e2]; exact sorted_insert h.sorted, by rw [e1]; exact hs.1, ?_⟩
    rw [e3, e2]
    rcases h.armed with hsig | ha
    · exact Or.inl hsig
    · right
      intro a ha'
      rcases mem_insert.1 ha' with rfl | ha'
      · exact hs.2.1
      · exact hs.2.2 a.1 (ha a ha')
  | unregister i =>
    refine ⟨?_, h.later, ?_⟩
    · exact h.sorted.sublist (List.eraseIdx_sublist _ _)
    · rcases h.armed with hs | ha
      · exact Or.inl hs
      · right
        intro a ha'
        exact ha a ((List.eraseIdx_sublist _ _).subset ha')
  | alarm =>
    unfold tact
    simp only
    split
    · exact tinv_tick h
    · exact h

end Verif.Preempt
