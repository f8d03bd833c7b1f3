import Verif.Proof.SelectMatch
/-! Lemmas for C80. -/
namespace Verif.Select
open Verif

/-- The `waituntil` statements only read from (`side c = false`) or only write to (`side c = true`) a channel with a buffer. -/
def fits (size : Nat → Nat) (side : Nat → Bool) : Clause → Bool
  | .chan c v => size c == 0 || v.isSome == side c
  | .timeout => true

def Sided (size : Nat → Nat) (side : Nat → Bool) (cs : List Clause) : Prop :=
  ∀ c v, Clause.chan c v ∈ cs → size c ≠ 0 → v.isSome = side c

theorem sided_of_all {size : Nat → Nat} {side : Nat → Bool} {cs : List Clause} (h : cs.all (fits size side) = true) : Sided size side cs := by
  intro c v hm hz
  have := List.all_eq_true.1 h _ hm
  simpa [fits, hz] using this

/-- `next`, of programs in which `waituntil` statements do not both read from and write to a channel with a buffer. -/
def nextSided (side : Nat → Bool) (s : State) (a : Act) : Option State :=
  match a with
  | .wait t cs => if cs.all (fits s.size side) then next s (.wait t cs) else none
  | a => next s a

theorem next_of_sided {side : Nat → Bool} {s s' : State} {a : Act} (h : nextSided side s a = some s') : next s a = some s' := by
  cases a <;> simp only [nextSided] at h <;> first | exact h | skip
  split at h
  · exact h
  · cases h

theorem reach_of_sided {side : Nat → Bool} {s0 s : State} (h : Reach (nextSided side) s0 s) : Reach next s0 s :=
  Reach.inv (fun s => Reach next s0 s) Reach.init (fun _ _ _ hi hn => hi.step (next_of_sided hn)) h

structure Inv4 (side : Nat → Bool) (s : State) : Prop where
  sided : ∀ t, Sided s.size side (s.prog t)
  zero : ∀ t c, s.pc t = .remOr c ∨ s.pc t = .remHand c → s.size c = 0
  fifo : ∀ c, s.put c = s.took c ++ s.buf c

def Fifo (s : State) : Prop := ∀ c, s.put c = s.took c ++ s.buf c

theorem perform_read' {s : State} {u j c e : Nat} (h : (s.prog u)[j]? = some (.chan c none)) :
    perform s u j (some e) = record { s with did := upd s.did u (s.did u ++ [(j, some e)]) } c [] [e] := by
  simp [perform, h]

theorem perform_write' {s : State} {u j c v : Nat} (h : (s.prog u)[j]? = some (.chan c (some v))) :
    perform s u j none = record { s with did := upd s.did u (s.did u ++ [(j, none)]) } c [v] [] := by
  simp [perform, h]

theorem fifo_same {s s' : State} (h : Fifo s) (hp : s'.put = s.put) (ht : s'.took = s.took) (hb : s'.buf = s.buf) : Fifo s' := by
  intro c; rw [hp, ht, hb]; exact h c

theorem fifo_upd {s s' : State} (h : Fifo s) (c : Nat) (P T B : List Nat) (hp : s'.put = upd s.put c P) (ht : s'.took = upd s.took c T)
    (hb : s'.buf = upd s.buf c B) (e : P = T ++ B) : Fifo s' := by
  intro x
  rw [hp, ht, hb]
  by_cases hx : x = c
  · subst hx; simpa using e
  · simpa [upd_apply, hx] using h x

theorem upd_self' {α : Type} (f : Nat → α) (c : Nat) : upd f c (f c) = f := by
  funext x; by_cases h : x = c <;> simp [upd_apply, h]

theorem fifo_handleOr {s s' d : State} {t c : Nat} {b : Bool} {won : Pc} (h : Fifo s) (hd : Fifo d) (hn : handleOr s t c b won d = some s') :
    Fifo s' := by
  unfold handleOr at hn
  split at hn
  · cases hn; exact hd
  · split at hn <;> cases hn <;> exact fifo_same h rfl rfl rfl

theorem head_prog {s : State} (iv : Inv s) {c : Nat} {b : Bool} {u j : Nat} {l : List (Nat × Nat)} (hw : s.wait c b = (u, j) :: l) :
    ∃ v, (s.prog u)[j]? = some (.chan c v) ∧ v.isSome = b := (iv.node c b u j (by rw [hw]; simp)).1

/-- Waking a waiting producer. -/
theorem wake_true {s : State} (iv : Inv s) {c u j : Nat} {l : List (Nat × Nat)} (hw : s.wait c true = (u, j) :: l) :
    ∃ e, elem s ((s.wait c true).headD (0, 0)) = e ∧ (s.prog u)[j]? = some (.chan c (some e)) ∧
      (wake s c true none).put = upd s.put c (s.put c ++ [e]) ∧ (wake s c true none).took = s.took ∧ (wake s c true none).buf = s.buf ∧
      (wake s c true none).prog = s.prog := by
  obtain ⟨v, h1, h2⟩ := head_prog iv hw
  obtain ⟨e, rfl⟩ := Option.isSome_iff_exists.1 h2
  refine ⟨e, ?_, h1, ?_⟩
  · simp [hw, elem, h1]
  · simp only [wake, hw]
    rw [perform_write' (c := c) (v := e) (by simpa [setWait] using h1)]
    simp [record, setWait, upd_self']

/-- Waking a waiting consumer. -/
theorem wake_false {s : State} (iv : Inv s) {c u j e : Nat} {l : List (Nat × Nat)} (hw : s.wait c false = (u, j) :: l) :
    (wake s c false (some e)).took = upd s.took c (s.took c ++ [e]) ∧ (wake s c false (some e)).put = s.put ∧
      (wake s c false (some e)).buf = s.buf ∧ (wake s c false (some e)).prog = s.prog := by
  obtain ⟨v, h1, h2⟩ := head_prog iv hw
  have : v = none := by cases v <;> simp_all
  subst this
  simp only [wake, hw]
  rw [perform_read' (c := c) (by simpa [setWait] using h1)]
  simp [record, setWait, upd_self']

theorem fifo_step {side : Nat → Bool} {s s' : State} (iv : Inv s) (i2 : Inv2 s) (i3 : Inv3 s) (i4 : Inv4 side s) {t : Nat}
    (hn : step s t = some s') : Fifo s' := by
  have hf : Fifo s := i4.fifo
  have hclause : ∀ i, (∀ c v, (s.prog t)[i]? = some (Clause.chan c v) → stepChan s t i c v (s.pc t) = some s' → Fifo s') →
      stepClause s t i (s.pc t) = some s' → Fifo s' := by
    intro i hc h
    unfold stepClause at h
    split at h
    · next c v hcl => exact hc c v hcl h
    · cases hp : s.pc t <;> rw [hp] at h <;> simp only [stepTimeout] at h <;> try (simp at h; done)
      cases h
      exact fifo_same hf rfl rfl rfl
    · cases hp : s.pc t <;> rw [hp] at h <;> simp only at h <;> try (simp at h; done)
      cases h
      exact fifo_same hf rfl rfl rfl
  cases hp : s.pc t with
  | idle => simp [step, hp] at hn
  | reg i =>
    refine hclause i (fun c v hcl h => ?_) (by simpa [step, hp] using hn)
    rw [hp] at h; simp only [stepChan] at h
    split at h
    · cases h; exact fifo_same hf rfl rfl rfl
    · simp at h
  | mark i =>
    refine hclause i (fun c v hcl h => ?_) (by simpa [step, hp] using hn)
    rw [hp] at h; simp only [stepChan] at h
    split at h <;> cases h <;> exact fifo_same hf rfl rfl rfl
  | pend i =>
    refine hclause i (fun c v hcl h => ?_) (by simpa [step, hp] using hn)
    rw [hp] at h; simp only [stepChan] at h
    split at h
    · cases h; exact fifo_same hf rfl rfl rfl
    · split at h <;> cases h <;> exact fifo_same hf rfl rfl rfl
  | toggle i =>
    refine hclause i (fun c v hcl h => ?_) (by simpa [step, hp] using hn)
    rw [hp] at h; simp only [stepChan] at h
    cases h; exact fifo_same hf rfl rfl rfl
  | retoggle i =>
    refine hclause i (fun c v hcl h => ?_) (by simpa [step, hp] using hn)
    rw [hp] at h; simp only [stepChan] at h
    split at h <;> cases h <;> exact fifo_same hf rfl rfl rfl
  | hand i =>
    refine hclause i (fun c v hcl h => ?_) (by simpa [step, hp] using hn)
    rw [hp] at h
    obtain ⟨u, j, l, hw, _⟩ := iv.hand t c (!v.isSome) (by rw [hp]; exact ⟨v, hcl, rfl⟩)
    cases v with
    | none =>
      simp only [stepChan] at h
      cases h
      simp only [Option.isSome_none, Bool.not_false] at hw
      obtain ⟨e, he, hu, h1, h2, h3, h4⟩ := wake_true iv hw
      have hb : s.buf c = [] := by
        by_cases hz : s.size c = 0
        · have := i2.cap c
          rw [hz] at this
          exact List.length_eq_zero_iff.1 (by omega)
        · have a1 := i4.sided t c none (List.mem_of_getElem? hcl) hz
          have a2 := i4.sided u c (some e) (List.mem_of_getElem? hu) hz
          rw [← a2] at a1
          cases a1
      rw [he, perform_read' (c := c) (by rw [h4]; exact hcl)]
      refine fifo_upd hf c (s.put c ++ [e]) (s.took c ++ [e]) (s.buf c) ?_ ?_ ?_ ?_
      · simp only [goto, record, h1, upd_same, List.append_nil]
        funext x; by_cases hx : x = c <;> simp [upd_apply, hx]
      · simp only [goto, record, h2]
      · simp only [goto, record, h3, upd_self']
      · rw [hf c, hb]; simp
    | some e =>
      simp only [stepChan] at h
      cases h
      simp only [Option.isSome_some, Bool.not_true] at hw
      obtain ⟨h1, h2, h3, h4⟩ := wake_false (e := e) iv hw
      have hb : s.buf c = [] := i3.rd c (by rw [hw]; simp)
      rw [perform_write' (c := c) (v := e) (by rw [h4]; exact hcl)]
      refine fifo_upd hf c (s.put c ++ [e]) (s.took c ++ [e]) (s.buf c) ?_ ?_ ?_ ?_
      · simp only [goto, record, h2]
      · simp only [goto, record, h1, upd_same, List.append_nil]
        funext x; by_cases hx : x = c <;> simp [upd_apply, hx]
      · simp only [goto, record, h3, upd_self']
      · rw [hf c, hb]; simp
  | setSat i =>
    refine hclause i (fun c v hcl h => ?_) (by simpa [step, hp] using hn)
    rw [hp] at h; simp only [stepChan] at h
    cases h; exact fifo_same hf rfl rfl rfl
  | unset i =>
    refine hclause i (fun c v hcl h => ?_) (by simpa [step, hp] using hn)
    rw [hp] at h; simp only [stepChan] at h
    cases h; exact fifo_same hf rfl rfl rfl
  | check i =>
    refine hclause i (fun c v hcl h => ?_) (by simpa [step, hp] using hn)
    rw [hp] at h; simp only [stepChan] at h
    by_cases hc : (s.buf c).length ≠ (if v.isSome then s.size c else 0) ∨ s.wait c (!v.isSome) ≠ []
    · rw [if_pos hc] at h; cases h; exact fifo_same hf rfl rfl rfl
    · rw [if_neg hc] at h; cases h; exact fifo_same hf rfl rfl rfl
  | avail i =>
    refine hclause i (fun c v hcl h => ?_) (by simpa [step, hp] using hn)
    rw [hp] at h; simp only [stepChan] at h
    split at h <;> cases h <;> exact fifo_same hf rfl rfl rfl
  | buffer i =>
    refine hclause i (fun c v hcl h => ?_) (by simpa [step, hp] using hn)
    rw [hp] at h; simp only [stepChan] at h
    split at h
    · simp at h
    · cases v with
      | none =>
        cases hb : s.buf c with
        | nil => simp [hb] at h
        | cons e l =>
          simp only [hb] at h
          cases h
          rw [perform_read' (c := c) (by exact hcl)]
          refine fifo_upd hf c (s.put c) (s.took c ++ [e]) l ?_ ?_ ?_ ?_
          · simp [goto, unlock, record]
          · simp [goto, unlock, record]
          · simp [goto, unlock, record]
          · rw [hf c, hb]; simp
      | some e =>
        simp only at h
        cases h
        rw [perform_write' (c := c) (v := e) (by exact hcl)]
        refine fifo_upd hf c (s.put c ++ [e]) (s.took c) (s.buf c ++ [e]) ?_ ?_ ?_ ?_
        · simp [goto, unlock, record]
        · simp [goto, unlock, record]
        · simp [goto, unlock, record]
        · rw [hf c]; simp
  | park =>
    simp only [step, hp] at hn
    split at hn
    · split at hn <;> cases hn <;> exact fifo_same hf rfl rfl rfl
    · simp at hn
  | body i => simp only [step, hp] at hn; cases hn; exact fifo_same hf rfl rfl rfl
  | unreg j =>
    simp only [step, hp] at hn
    split at hn
    · next cl _ =>
      cases cl with
      | timeout => simp only [unregister] at hn; cases hn; exact fifo_same hf rfl rfl rfl
      | chan c v =>
        simp only [unregister] at hn
        split at hn
        · split at hn
          · cases hn; exact fifo_same hf rfl rfl rfl
          · simp at hn
        · cases hn; exact fifo_same hf rfl rfl rfl
    · cases hn; exact fifo_same hf rfl rfl rfl
  | ins c v =>
    simp only [step, hp] at hn
    split at hn
    · cases hn; exact fifo_same hf rfl rfl rfl
    · simp at hn
  | insOr c v =>
    simp only [step, hp] at hn
    refine fifo_handleOr hf ?_ hn
    split
    · exact fifo_same hf rfl rfl rfl
    · refine fifo_upd hf c (s.put c ++ [v]) (s.took c) (s.buf c ++ [v]) ?_ ?_ ?_ ?_
      · simp [goto, unlock, record]
      · simp [goto, unlock, record]
      · simp [goto, unlock, record]
      · rw [hf c]; simp
  | insHand c v =>
    simp only [step, hp] at hn
    cases hn
    obtain ⟨u, j, l, hw, _⟩ := iv.hand t c false (by rw [hp]; exact ⟨rfl, rfl⟩)
    obtain ⟨h1, h2, h3, h4⟩ := wake_false (e := v) iv hw
    have hb : s.buf c = [] := i3.rd c (by rw [hw]; simp)
    refine fifo_upd hf c (s.put c ++ [v]) (s.took c ++ [v]) (s.buf c) ?_ ?_ ?_ ?_
    · simp only [goto, unlock, record, h2]
    · simp only [goto, unlock, record, h1, upd_same, List.append_nil]
      funext x; by_cases hx : x = c <;> simp [upd_apply, hx]
    · simp only [goto, unlock, record, h3, upd_self']
    · rw [hf c, hb]; simp
  | rem c =>
    simp only [step, hp] at hn
    split at hn
    · split at hn
      · cases hn; exact fifo_same hf rfl rfl rfl
      · split at hn
        · cases hn; exact fifo_same hf rfl rfl rfl
        · next e l hb =>
          have key : ∀ s' : State, s'.put = upd s.put c (s.put c) → s'.took = upd s.took c (s.took c ++ [e]) → s'.buf = upd s.buf c l → Fifo s' :=
            fun s' h1 h2 h3 => fifo_upd hf c (s.put c) (s.took c ++ [e]) l h1 h2 h3 (by rw [hf c, hb]; simp)
          split at hn <;> cases hn <;> apply key <;> simp [goto, record]
    · simp at hn
  | remOr c => simp only [step, hp] at hn; exact fifo_handleOr (d := goto (unlock s c) t .idle) hf (fifo_same hf rfl rfl rfl) hn
  | remHand c =>
    simp only [step, hp] at hn
    cases hn
    obtain ⟨u, j, l, hw, _⟩ := iv.hand t c true (by rw [hp]; exact ⟨rfl, rfl⟩)
    obtain ⟨e, he, hu, h1, h2, h3, h4⟩ := wake_true iv hw
    have hb : s.buf c = [] := by
      have := i2.cap c
      rw [i4.zero t c (Or.inr hp)] at this
      exact List.length_eq_zero_iff.1 (by omega)
    rw [he]
    refine fifo_upd hf c (s.put c ++ [e]) (s.took c ++ [e]) (s.buf c) ?_ ?_ ?_ ?_
    · simp only [goto, unlock, record, h1, upd_same, List.append_nil]
      funext x; by_cases hx : x = c <;> simp [upd_apply, hx]
    · simp only [goto, unlock, record, h2]
    · simp only [goto, unlock, record, h3, upd_self']
    · rw [hf c, hb]; simp
  | refillOr c => simp only [step, hp] at hn; exact fifo_handleOr (d := goto (unlock s c) t .idle) hf (fifo_same hf rfl rfl rfl) hn
  | refill c =>
    simp only [step, hp] at hn
    cases hn
    obtain ⟨u, j, l, hw, _⟩ := iv.hand t c true (by rw [hp]; exact ⟨rfl, rfl⟩)
    obtain ⟨e, he, hu, h1, h2, h3, h4⟩ := wake_true iv hw
    rw [he]
    refine fifo_upd hf c (s.put c ++ [e]) (s.took c) (s.buf c ++ [e]) ?_ ?_ ?_ ?_
    · simp only [goto, unlock, h1]
    · simp only [goto, unlock, h2, upd_self']
    · simp only [goto, unlock, h3]
    · rw [hf c]; simp

theorem zero_step {side : Nat → Bool} {s s' : State} (iv : Inv s) (i4 : Inv4 side s) {t : Nat} (hn : step s t = some s') :
    ∀ u c, s'.pc u = .remOr c ∨ s'.pc u = .remHand c → s'.size c = 0 := by
  have hf := frame_step iv hn
  intro u c h
  rw [hf.size]
  by_cases hu : u = t
  · subst hu
    have hor : ∀ {c' b won d}, handleOr s u c' b won d = some s' → s'.pc u = won ∨ s'.pc u = s.pc u ∨ s' = d := by
      intro c' b won d h
      unfold handleOr at h
      split at h
      · cases h; exact Or.inr (Or.inr rfl)
      · split at h <;> cases h
        · left; simp [goto]
        · right; left; rfl
        · right; left; rfl
    have hclause : ∀ i, stepClause s u i (s.pc u) = some s' → (s.pc u ≠ .remOr c ∧ s.pc u ≠ .remHand c) → s.size c = 0 := by
      intro i hs hne
      exfalso
      unfold stepClause at hs
      split at hs
      · cases hp : s.pc u <;> rw [hp] at hs hne <;> simp only [stepChan] at hs <;> (repeat' split at hs) <;>
          first | (cases hs; done) | (simp at hs; done) | (cases hs; simp [goto, setWait, hp] at h; done) | (cases hs; simp [goto, setWait, hp] at h; split at h <;> simp at h; done)
      · cases hp : s.pc u <;> rw [hp] at hs <;> simp only [stepTimeout] at hs <;> first | (cases hs; done) | (cases hs; simp [goto] at h; done)
      · cases hp : s.pc u <;> rw [hp] at hs <;> simp only at hs <;> first | (cases hs; done) | (cases hs; simp [goto] at h; done)
    cases hp : s.pc u with
    | idle => simp [step, hp] at hn
    | reg i => exact hclause i (by simpa [step, hp] using hn) (by simp [hp])
    | mark i => exact hclause i (by simpa [step, hp] using hn) (by simp [hp])
    | pend i => exact hclause i (by simpa [step, hp] using hn) (by simp [hp])
    | toggle i => exact hclause i (by simpa [step, hp] using hn) (by simp [hp])
    | retoggle i => exact hclause i (by simpa [step, hp] using hn) (by simp [hp])
    | hand i => exact hclause i (by simpa [step, hp] using hn) (by simp [hp])
    | setSat i => exact hclause i (by simpa [step, hp] using hn) (by simp [hp])
    | unset i => exact hclause i (by simpa [step, hp] using hn) (by simp [hp])
    | check i => exact hclause i (by simpa [step, hp] using hn) (by simp [hp])
    | avail i => exact hclause i (by simpa [step, hp] using hn) (by simp [hp])
    | buffer i => exact hclause i (by simpa [step, hp] using hn) (by simp [hp])
    | remOr c' =>
      simp only [step, hp] at hn
      have : c' = c := by
        rcases hor hn with h1 | h1 | h1
        · rw [h1] at h; simpa using h
        · rw [h1, hp] at h; simpa using h
        · subst h1; simp [goto] at h
      subst this
      exact i4.zero u c' (Or.inl hp)
    | insOr c' v =>
      simp only [step, hp] at hn
      exfalso
      rcases hor hn with h1 | h1 | h1
      · rw [h1] at h; simp at h
      · rw [h1, hp] at h; simp at h
      · subst h1; simp [goto] at h
    | refillOr c' =>
      simp only [step, hp] at hn
      exfalso
      rcases hor hn with h1 | h1 | h1
      · rw [h1] at h; simp at h
      · rw [h1, hp] at h; simp at h
      · subst h1; simp [goto] at h
    | rem c' =>
      simp only [step, hp] at hn
      split at hn
      · split at hn
        · next hz => cases hn; simp [goto] at h; subst h; exact hz
        · split at hn
          · cases hn; simp [goto] at h
          · split at hn <;> cases hn <;> simp [goto] at h
      · simp at hn
    | _ =>
      exfalso
      simp only [step, hp, unregister] at hn
      repeat' split at hn
      all_goals first | (cases hn; done) | (simp at hn; done) | (cases hn; simp [goto] at h; done)
  · rw [hf.pc u hu] at h
    exact i4.zero u c h

theorem Inv4.next {side : Nat → Bool} {s s' : State} (iv : Inv s) (i2 : Inv2 s) (i3 : Inv3 s) (i4 : Inv4 side s) {a : Act}
    (hn : nextSided side s a = some s') : Inv4 side s' := by
  have hidle : ∀ {t p}, (∀ c, p ≠ .remOr c ∧ p ≠ .remHand c) → ∀ u c, upd s.pc t p u = .remOr c ∨ upd s.pc t p u = .remHand c → s.size c = 0 := by
    intro t p hp u c h
    by_cases hu : u = t
    · subst hu; simp [hp c] at h
    · simp only [upd_apply, hu, if_false] at h; exact i4.zero u c h
  cases a with
  | wait t cs =>
    simp only [nextSided] at hn
    split at hn
    · next hc =>
      replace hc := sided_of_all hc
      simp only [Select.next] at hn
      split at hn <;> cases hn
      refine ⟨fun u => ?_, hidle (by simp), i4.fifo⟩
      by_cases hu : u = t
      · subst hu; simpa [goto, setStatus] using hc
      · simpa [goto, setStatus, upd_apply, hu] using i4.sided u
    · simp at hn
  | tryInsert t c v =>
    simp only [nextSided, Select.next] at hn
    split at hn <;> cases hn
    exact ⟨i4.sided, hidle (by simp), i4.fifo⟩
  | tryRemove t c =>
    simp only [nextSided, Select.next] at hn
    split at hn <;> cases hn
    exact ⟨i4.sided, hidle (by simp), i4.fifo⟩
  | step t =>
    simp only [nextSided, Select.next] at hn
    have hf := frame_step iv hn
    exact ⟨fun u => by rw [hf.prog, hf.size]; exact i4.sided u, zero_step iv i4 hn, fifo_step iv i2 i3 i4 hn⟩
  | fire t i =>
    simp only [nextSided, Select.next] at hn
    split at hn <;> cases hn
    exact ⟨i4.sided, i4.zero, i4.fifo⟩

theorem inv4_reach {size : Nat → Nat} {side : Nat → Bool} {s : State} (h : Reach (nextSided side) (start size) s) : Inv4 side s := by
  refine Reach.inv' (Inv4 side) ⟨by simp [start, Sided], by simp [start], by simp [start]⟩ (fun s a s' hr hi hn => ?_) h
  obtain ⟨h1, h2, h3⟩ := inv3_reach (reach_of_sided hr)
  exact Inv4.next h1 h2 h3 hi hn

end Verif.Select
