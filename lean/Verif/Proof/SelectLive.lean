import Verif.Proof.Select
/-! Lemmas for C46: what a step leaves alone, and that a lock can always be given up. -/
namespace Verif.Select
open Verif

section
variable (s : State) (u j c : Nat) (b : Bool) (r : Option Nat)

theorem perform_pc : (perform s u j r).pc = s.pc := by unfold perform; dsimp only; split <;> rfl
theorem perform_lock : (perform s u j r).lock = s.lock := by unfold perform; dsimp only; split <;> rfl
theorem perform_status : (perform s u j r).status = s.status := by unfold perform; dsimp only; split <;> rfl
theorem perform_prog : (perform s u j r).prog = s.prog := by unfold perform; dsimp only; split <;> rfl
theorem perform_armed : (perform s u j r).armed = s.armed := by unfold perform; dsimp only; split <;> rfl
theorem perform_buf : (perform s u j r).buf = s.buf := by unfold perform; dsimp only; split <;> rfl
theorem perform_size : (perform s u j r).size = s.size := by unfold perform; dsimp only; split <;> rfl
theorem perform_wait : (perform s u j r).wait = s.wait := by unfold perform; dsimp only; split <;> rfl
theorem perform_ran : (perform s u j r).ran = s.ran := by unfold perform; dsimp only; split <;> rfl
theorem wake_pc : (wake s c b r).pc = s.pc := by unfold wake; split; rfl; rw [perform_pc]; rfl
theorem wake_ran : (wake s c b r).ran = s.ran := by unfold wake; split; rfl; rw [perform_ran]; rfl
theorem wake_lock : (wake s c b r).lock = s.lock := by unfold wake; split; rfl; rw [perform_lock]; rfl
theorem wake_status : (wake s c b r).status = s.status := by unfold wake; split; rfl; rw [perform_status]; rfl
theorem wake_prog : (wake s c b r).prog = s.prog := by unfold wake; split; rfl; rw [perform_prog]; rfl
theorem wake_armed : (wake s c b r).armed = s.armed := by unfold wake; split; rfl; rw [perform_armed]; rfl
theorem wake_buf : (wake s c b r).buf = s.buf := by unfold wake; split; rfl; rw [perform_buf]; rfl
theorem wake_size : (wake s c b r).size = s.size := by unfold wake; split; rfl; rw [perform_size]; rfl
theorem wake_wait {c' : Nat} (h : c' ≠ c) : (wake s c b r).wait c' = s.wait c' := by
  unfold wake; split; rfl; rw [perform_wait]; simp [setWait, upd_apply, h]
theorem setWait_wait {c' : Nat} {l : List (Nat × Nat)} (h : c' ≠ c) : (setWait s c b l).wait c' = s.wait c' := by
  simp [setWait, upd_apply, h]
end

/-- What a step of thread `t` leaves alone. -/
structure Frame (s s' : State) (t : Nat) : Prop where
  pc : ∀ u, u ≠ t → s'.pc u = s.pc u
  prog : s'.prog = s.prog
  armed : ∀ u, u ≠ t → s'.armed u = s.armed u
  ran : ∀ u, u ≠ t → s'.ran u = s.ran u
  size : s'.size = s.size
  chan : ∀ c, (s'.lock c = s.lock c ∧ s'.wait c = s.wait c ∧ s'.buf c = s.buf c) ∨ s.lock c = none ∨ s.lock c = some t
  status : ∀ u, u ≠ t → s'.status u = s.status u ∨
    (s.status u = .unsat ∧ ∃ c b j l, s.wait c b = (u, j) :: l ∧ s.lock c = some t ∧ s'.status u = .node j)

macro "frame_simp" : tactic => `(tactic|
  simp only [goto, unlock, setStatus, record, perform_pc, perform_lock, perform_status, perform_prog, perform_armed, perform_buf, perform_size,
    perform_wait, perform_ran, wake_ran, wake_pc, wake_lock, wake_status, wake_prog, wake_armed, wake_buf, wake_size])

/-- A step on channel `c0`. -/
theorem Frame.mk1 {s s' : State} {t c0 : Nat} (h0 : s.lock c0 = none ∨ s.lock c0 = some t)
    (hpc : ∀ u, u ≠ t → s'.pc u = s.pc u) (hprog : s'.prog = s.prog) (harmed : ∀ u, u ≠ t → s'.armed u = s.armed u)
    (hran : ∀ u, u ≠ t → s'.ran u = s.ran u) (hsize : s'.size = s.size)
    (hchan : ∀ c, c ≠ c0 → s'.lock c = s.lock c ∧ s'.wait c = s.wait c ∧ s'.buf c = s.buf c)
    (hstatus : ∀ u, u ≠ t → s'.status u = s.status u ∨
      (s.status u = .unsat ∧ ∃ c b j l, s.wait c b = (u, j) :: l ∧ s.lock c = some t ∧ s'.status u = .node j)) : Frame s s' t :=
  ⟨hpc, hprog, harmed, hran, hsize, fun c => by
    by_cases h : c = c0
    · subst h; exact Or.inr h0
    · exact Or.inl (hchan c h), hstatus⟩

macro "frame_one " c:term ", " h:term : tactic => `(tactic|
  (refine Frame.mk1 (c0 := $c) $h ?_ ?_ ?_ ?_ ?_ ?_ ?_ <;> (try frame_simp) <;>
    first
    | rfl
    | (intro u hu; simp [upd_apply, hu, setWait]; done)
    | (intro u hu; exact Or.inl rfl)
    | (intro u hu; simp [upd_apply, hu, setWait]; done)
    | (intro u hu; simp [upd_apply, hu, setWait, wake_wait _ _ _ _ hu]; done)
    | skip))

theorem frame_chan {s s' : State} {t i c : Nat} {v : Option Nat} {q : Pc} (hq : (∃ i, q = .reg i) ∨ s.lock c = some t)
    (hn : stepChan s t i c v q = some s') : Frame s s' t := by
  have hwin : ∀ {u j : Nat} {l : List (Nat × Nat)}, s.wait c (!v.isSome) = (u, j) :: l → s.status u = .unsat → s.lock c = some t →
      ∀ p, Frame s (goto (setStatus s u (.node j)) t p) t := by
    intro u j l hw hu hl p
    refine ⟨fun x hx => by simp [goto, upd_apply, hx, setStatus], rfl, fun _ _ => rfl, fun _ _ => rfl, rfl, fun c' => Or.inl ⟨rfl, rfl, rfl⟩, ?_⟩
    intro x hx
    simp only [goto, setStatus, upd_apply]
    split
    · next e => subst e; exact Or.inr ⟨hu, c, _, j, l, hw, hl, rfl⟩
    · exact Or.inl rfl
  cases q <;> simp only [stepChan] at hn <;> try (simp at hn; done)
  · split at hn
    · next h => cases hn; frame_one c, (Or.inl h)
    · simp at hn
  all_goals have hl : s.lock c = some t := by rcases hq with ⟨_, h⟩ | h; (cases h); exact h
  all_goals have h0 : s.lock c = none ∨ s.lock c = some t := Or.inr hl
  · split at hn <;> cases hn <;> frame_one c, h0
  · split at hn
    · cases hn; frame_one c, h0
    · next u j l hw =>
      split at hn <;> cases hn
      · next hu => exact hwin hw hu hl _
      · frame_one c, h0
      · frame_one c, h0
  · cases hn; frame_one c, h0
  · split at hn <;> cases hn <;> frame_one c, h0
  · split at hn <;> cases hn <;> frame_one c, h0
  · cases hn; frame_one c, h0
  · cases hn; frame_one c, h0
  · by_cases hc : (s.buf c).length ≠ (if v.isSome then s.size c else 0) ∨ s.wait c (!v.isSome) ≠ []
    · rw [if_pos hc] at hn; cases hn; frame_one c, h0
    · rw [if_neg hc] at hn; cases hn; frame_one c, h0
  · split at hn <;> cases hn <;> frame_one c, h0
  · split at hn
    · simp at hn
    split at hn <;> try (simp at hn; done)
    · cases hn; frame_one c, h0
    · cases hn; frame_one c, h0

theorem frame_or {s s' d : State} {t c : Nat} {b : Bool} {won : Pc} (hl : s.lock c = some t) (hd : Frame s d t)
    (hn : handleOr s t c b won d = some s') : Frame s s' t := by
  unfold handleOr at hn
  split at hn
  · cases hn; exact hd
  · next u j l hw =>
    split at hn <;> cases hn
    · next hu =>
      refine ⟨fun x hx => by simp [goto, upd_apply, hx, setStatus], rfl, fun _ _ => rfl, fun _ _ => rfl, rfl, fun c' => Or.inl ⟨rfl, rfl, rfl⟩, ?_⟩
      intro x hx
      simp only [goto, setStatus, upd_apply]
      split
      · next e => subst e; exact Or.inr ⟨hu, c, _, j, l, hw, hl, rfl⟩
      · exact Or.inl rfl
    · frame_one c, (Or.inr hl)
    · frame_one c, (Or.inr hl)

theorem Frame.goto (s : State) (t : Nat) (p : Pc) : Frame s (goto s t p) t :=
  ⟨fun x hx => by simp [Select.goto, upd_apply, hx], rfl, fun _ _ => rfl, fun _ _ => rfl, rfl, fun c' => Or.inl ⟨rfl, rfl, rfl⟩, fun _ _ => Or.inl rfl⟩

theorem frame_step {s s' : State} (iv : Inv s) {t : Nat} (hn : step s t = some s') : Frame s s' t := by
  have hlk := fun c => (iv.lock c t).2
  have hclause : ∀ i, stepClause s t i (s.pc t) = some s' → ((∃ i, s.pc t = .reg i) ∨ ∀ c, (s.prog t)[i]? = some (Clause.chan c none) ∨ (∃ v, (s.prog t)[i]? = some (Clause.chan c v)) → s.lock c = some t) →
      Frame s s' t := by
    intro i h hq
    unfold stepClause at h
    split at h
    · next c v hcl => exact frame_chan (by rcases hq with hq | hq; exact Or.inl hq; exact Or.inr (hq c (Or.inr ⟨v, hcl⟩))) h
    · next hcl =>
      cases hp : s.pc t <;> rw [hp] at h <;> simp only [stepTimeout] at h <;> try (simp at h; done)
      cases h
      exact ⟨fun x hx => by simp [Select.goto, upd_apply, hx], rfl, fun x hx => by simp [Select.goto, upd_apply, hx], fun _ _ => rfl, rfl,
        fun c' => Or.inl ⟨rfl, rfl, rfl⟩, fun _ _ => Or.inl rfl⟩
    · cases hp : s.pc t <;> rw [hp] at h <;> simp only at h <;> try (simp at h; done)
      cases h
      exact Frame.goto _ _ _
  have hheld : ∀ i : Nat, (∀ c v, (s.prog t)[i]? = some (Clause.chan c v) → held (s.prog t) (s.pc t) = some c) →
      ∀ c, (s.prog t)[i]? = some (Clause.chan c none) ∨ (∃ v, (s.prog t)[i]? = some (Clause.chan c v)) → s.lock c = some t := by
    rintro i h c (h1 | ⟨v, h1⟩)
    · exact hlk c (h c _ h1)
    · exact hlk c (h c _ h1)
  cases hp : s.pc t with
  | idle => simp [step, hp] at hn
  | reg i => exact hclause i (by simpa [step, hp] using hn) (Or.inl ⟨i, hp⟩)
  | mark i => exact hclause i (by simpa [step, hp] using hn) (Or.inr (hheld i (fun c v h => by rw [hp]; simp only [held, h])))
  | pend i => exact hclause i (by simpa [step, hp] using hn) (Or.inr (hheld i (fun c v h => by rw [hp]; simp only [held, h])))
  | toggle i => exact hclause i (by simpa [step, hp] using hn) (Or.inr (hheld i (fun c v h => by rw [hp]; simp only [held, h])))
  | retoggle i => exact hclause i (by simpa [step, hp] using hn) (Or.inr (hheld i (fun c v h => by rw [hp]; simp only [held, h])))
  | hand i => exact hclause i (by simpa [step, hp] using hn) (Or.inr (hheld i (fun c v h => by rw [hp]; simp only [held, h])))
  | setSat i => exact hclause i (by simpa [step, hp] using hn) (Or.inr (hheld i (fun c v h => by rw [hp]; simp only [held, h])))
  | unset i => exact hclause i (by simpa [step, hp] using hn) (Or.inr (hheld i (fun c v h => by rw [hp]; simp only [held, h])))
  | check i => exact hclause i (by simpa [step, hp] using hn) (Or.inr (hheld i (fun c v h => by rw [hp]; simp only [held, h])))
  | avail i => exact hclause i (by simpa [step, hp] using hn) (Or.inr (hheld i (fun c v h => by rw [hp]; simp only [held, h])))
  | buffer i => exact hclause i (by simpa [step, hp] using hn) (Or.inr (hheld i (fun c v h => by rw [hp]; simp only [held, h])))
  | park =>
    simp only [step, hp] at hn
    split at hn
    · split at hn <;> cases hn <;>
        exact ⟨fun x hx => by simp [Select.goto, upd_apply, hx], rfl, fun x hx => rfl, fun x hx => by simp [Select.goto, upd_apply, hx], rfl,
          fun c' => Or.inl ⟨rfl, rfl, rfl⟩, fun _ _ => Or.inl rfl⟩
    · simp at hn
  | body i =>
    simp only [step, hp] at hn
    cases hn
    exact ⟨fun x hx => by simp [Select.goto, upd_apply, hx], rfl, fun x hx => rfl, fun x hx => by simp [Select.goto, upd_apply, hx], rfl,
          fun c' => Or.inl ⟨rfl, rfl, rfl⟩, fun _ _ => Or.inl rfl⟩
  | unreg j =>
    simp only [step, hp] at hn
    split at hn
    · next cl _ =>
      cases cl with
      | timeout =>
        simp only [unregister] at hn
        cases hn
        exact ⟨fun x hx => by simp [Select.goto, upd_apply, hx], rfl, fun x hx => by simp [Select.goto, upd_apply, hx], fun _ _ => rfl, rfl,
          fun c' => Or.inl ⟨rfl, rfl, rfl⟩, fun _ _ => Or.inl rfl⟩
      | chan c v =>
        simp only [unregister] at hn
        split at hn
        · split at hn
          · next hl => cases hn; frame_one c, (Or.inl hl)
          · simp at hn
        · cases hn; exact Frame.goto _ _ _
    · cases hn; exact Frame.goto _ _ _
  | ins c v =>
    simp only [step, hp] at hn
    split at hn
    · next hl => cases hn; frame_one c, (Or.inl hl)
    · simp at hn
  | insOr c v =>
    simp only [step, hp] at hn
    have hl := hlk c (by rw [hp]; rfl)
    refine frame_or hl ?_ hn
    split <;> frame_one c, (Or.inr hl)
  | insHand c v =>
    simp only [step, hp] at hn
    have hl := hlk c (by rw [hp]; rfl)
    cases hn; frame_one c, (Or.inr hl)
  | rem c =>
    simp only [step, hp] at hn
    split at hn
    swap
    · simp at hn
    next hl =>
    split at hn
    · cases hn; frame_one c, (Or.inl hl)
    · split at hn
      · cases hn; exact Frame.goto _ _ _
      · split at hn <;> cases hn <;> frame_one c, (Or.inl hl)
  | remOr c =>
    simp only [step, hp] at hn
    have hl := hlk c (by rw [hp]; rfl)
    refine frame_or hl ?_ hn
    frame_one c, (Or.inr hl)
  | remHand c =>
    simp only [step, hp] at hn
    have hl := hlk c (by rw [hp]; rfl)
    cases hn; frame_one c, (Or.inr hl)
  | refillOr c =>
    simp only [step, hp] at hn
    have hl := hlk c (by rw [hp]; rfl)
    refine frame_or hl ?_ hn
    frame_one c, (Or.inr hl)
  | refill c =>
    simp only [step, hp] at hn
    have hl := hlk c (by rw [hp]; rfl)
    cases hn; frame_one c, (Or.inr hl)

/-- What a thread at `unset`, `check`, `avail`, `buffer`, `refillOr` or `refill` knows of the channel. -/
def Own (s : State) (t : Nat) : Pc → Prop
  | .unset i => ∀ c v, (s.prog t)[i]? = some (.chan c v) → s.wait c (!v.isSome) = []
  | .check i => ∀ c v, (s.prog t)[i]? = some (.chan c v) → s.wait c (!v.isSome) = [] ∨ s.status t ≠ .unsat
  | .avail i => ∀ c v, (s.prog t)[i]? = some (.chan c v) →
    (s.wait c (!v.isSome) = [] ∧ (s.buf c).length ≠ (if v.isSome then s.size c else 0)) ∨ s.status t ≠ .unsat
  | .buffer i => ∀ c v, (s.prog t)[i]? = some (.chan c v) →
    s.wait c (!v.isSome) = [] ∧ (s.buf c).length ≠ (if v.isSome then s.size c else 0)
  | .refillOr c | .refill c => (s.buf c).length < s.size c
  | _ => True

structure Inv2 (s : State) : Prop where
  own : ∀ t, Own s t (s.pc t)
  cap : ∀ c, (s.buf c).length ≤ s.size c

theorem Frame.keep {s s' : State} {t u c : Nat} (h : Frame s s' t) (hu : u ≠ t) (hl : s.lock c = some u) :
    s'.lock c = some u ∧ s'.wait c = s.wait c ∧ s'.buf c = s.buf c := by
  rcases h.chan c with h | h | h
  · exact ⟨h.1.trans hl, h.2⟩
  · rw [h] at hl; cases hl
  · rw [h] at hl; cases hl; exact absurd rfl hu

theorem Frame.sat {s s' : State} {t u : Nat} (h : Frame s s' t) (hu : u ≠ t) (hs : s.status u ≠ .unsat) : s'.status u ≠ .unsat := by
  rcases h.status u hu with h | ⟨h, _⟩
  · rw [h]; exact hs
  · exact absurd h hs

theorem Frame.own {s s' : State} {t u : Nat} (iv : Inv s) (h : Frame s s' t) (hu : u ≠ t) (ho : Own s u (s.pc u)) : Own s' u (s'.pc u) := by
  rw [h.pc u hu]
  have hk := fun c (hc : held (s.prog u) (s.pc u) = some c) => h.keep hu ((iv.lock c u).2 hc)
  have hs := h.sat hu
  cases hp : s.pc u <;> rw [hp] at ho hk <;> simp only [Own] at ho ⊢
  · intro c v hcl
    rw [h.prog] at hcl
    obtain ⟨_, h2, h3⟩ := hk c (by simp only [held, hcl])
    rw [h2]
    exact ho c v hcl
  · intro c v hcl
    rw [h.prog] at hcl
    obtain ⟨_, h2, h3⟩ := hk c (by simp only [held, hcl])
    rw [h2]
    exact (ho c v hcl).imp id hs
  · intro c v hcl
    rw [h.prog] at hcl
    obtain ⟨_, h2, h3⟩ := hk c (by simp only [held, hcl])
    rw [h2, h3, h.size]
    exact (ho c v hcl).imp id hs
  · intro c v hcl
    rw [h.prog] at hcl
    obtain ⟨_, h2, h3⟩ := hk c (by simp only [held, hcl])
    rw [h2, h3, h.size]
    exact ho c v hcl
  · next c => obtain ⟨_, h2, h3⟩ := hk c rfl; rw [h3, h.size]; exact ho
  · next c => obtain ⟨_, h2, h3⟩ := hk c rfl; rw [h3, h.size]; exact ho

theorem own_chan {s s' : State} (iv : Inv s) (i2 : Inv2 s) {t i c : Nat} {v : Option Nat} {q : Pc} (hp : s.pc t = q)
    (hcl : (s.prog t)[i]? = some (.chan c v))
    (hq : q = .reg i ∨ q = .mark i ∨ q = .pend i ∨ q = .toggle i ∨ q = .retoggle i ∨ q = .hand i ∨ q = .setSat i ∨ q = .unset i ∨ q = .check i
      ∨ q = .avail i ∨ q = .buffer i)
    (hn : stepChan s t i c v q = some s') : Own s' t (s'.pc t) ∧ ∀ c, (s'.buf c).length ≤ s.size c := by
  have hcap := i2.cap
  have ho := i2.own t
  rw [hp] at ho
  have hok := iv.ok t
  rw [hp] at hok
  have hone : ∀ {c' : Nat} {v' : Option Nat}, (s.prog t)[i]? = some (.chan c' v') → c' = c ∧ v' = v := by
    intro c' v' h; rw [hcl] at h; cases h; exact ⟨rfl, rfl⟩
  rcases hq with rfl | rfl | rfl | rfl | rfl | rfl | rfl | rfl | rfl | rfl | rfl
  · -- reg
    simp only [stepChan] at hn
    split at hn
    · cases hn
      split
      · next h =>
        refine ⟨?_, hcap⟩
        simp only [goto, upd_same, Own]
        intro c' v' h'
        obtain ⟨rfl, rfl⟩ := hone h'
        exact Or.inl h
      · refine ⟨?_, hcap⟩
        simp only [goto, upd_same, Own]
    · simp at hn
  · simp only [stepChan] at hn
    split at hn <;> cases hn <;> refine ⟨?_, hcap⟩ <;> first | (simp [goto, Own]; done) | (rw [hp]; exact ho)
  · simp only [stepChan] at hn
    split at hn
    · next hw =>
      cases hn
      refine ⟨?_, hcap⟩
      simp only [goto, upd_same, Own]
      intro c' v' h'
      obtain ⟨rfl, rfl⟩ := hone h'
      exact hw
    · split at hn <;> cases hn <;> refine ⟨?_, hcap⟩ <;> first | (simp [goto, Own]; done) | (simp only [setWait]; rw [hp]; exact ho)
  · simp only [stepChan] at hn; cases hn; exact ⟨by simp [goto, Own], hcap⟩
  · simp only [stepChan] at hn
    split at hn
    · cases hn; exact ⟨by simp [goto, Own], hcap⟩
    · next h =>
      cases hn
      refine ⟨?_, hcap⟩
      simp only [goto, upd_same, Own]
      intro c' v' h'
      exact Or.inr h
  · simp only [stepChan] at hn
    split at hn <;> cases hn <;> refine ⟨by simp [goto, Own], ?_⟩ <;> intro c' <;>
      (simp only [goto, perform_buf, wake_buf]; exact hcap c')
  · simp only [stepChan] at hn; cases hn; exact ⟨by simp [goto, Own], hcap⟩
  · simp only [stepChan] at hn
    cases hn
    refine ⟨?_, hcap⟩
    simp only [goto, upd_same, Own]
    intro c' v' h'
    exact Or.inl (ho c' v' h')
  · unfold stepChan at hn
    by_cases hc : (s.buf c).length ≠ (if v.isSome then s.size c else 0) ∨ s.wait c (!v.isSome) ≠ []
    · rw [if_pos hc] at hn
      cases hn
      refine ⟨?_, hcap⟩
      simp only [goto, upd_same, Own]
      intro c' v' h'
      obtain ⟨rfl, rfl⟩ := hone h'
      rcases ho c' v' h' with h | h
      · exact Or.inl ⟨h, hc.resolve_right (fun h' => h' h)⟩
      · exact Or.inr h
    · rw [if_neg hc] at hn
      cases hn
      exact ⟨by simp [goto, Own], hcap⟩
  · simp only [stepChan] at hn
    split at hn
    · next hs =>
      cases hn
      refine ⟨?_, hcap⟩
      simp only [goto, upd_same, Own, setStatus]
      intro c' v' h'
      exact (ho c' v' h').resolve_right (fun h => h hs)
    · cases hn; refine ⟨?_, hcap⟩; rw [hp]; exact ho
    · cases hn; exact ⟨by simp [goto, Own], hcap⟩
  · simp only [stepChan] at hn
    have hb := ho c v hcl
    split at hn
    · simp at hn
    split at hn
    · next e l hbuf _ =>
      cases hn
      refine ⟨by simp [goto, Own], ?_⟩
      intro c'
      have := hcap c'
      simp only [goto, unlock, perform_buf, upd_apply]
      split
      · next e => subst e; rw [hbuf] at this; simp only [List.length_cons] at this; omega
      · exact this
    · simp at hn
    · next e l =>
      cases hn
      refine ⟨by simp [goto, Own], ?_⟩
      intro c'
      have := hcap c'
      simp only [goto, unlock, perform_buf, upd_apply]
      split
      · next e =>
        subst e
        have hb := hb.2
        simp only [Option.isSome_some, if_true] at hb
        simp only [List.length_append, List.length_singleton]
        omega
      · exact this

theorem own_or {s s' d : State} {t c : Nat} {b : Bool} {won : Pc} (hn : handleOr s t c b won d = some s') (i2 : Inv2 s)
    (hwon : ∀ u j, Own (goto (setStatus s u (.node j)) t won) t won)
    (hlist : ∀ l, Own (setWait s c b l) t (s.pc t))
    (hd : Own d t (d.pc t) ∧ ∀ c, (d.buf c).length ≤ s.size c) : Own s' t (s'.pc t) ∧ ∀ c, (s'.buf c).length ≤ s.size c := by
  unfold handleOr at hn
  split at hn
  · cases hn; exact hd
  · next u j l hw =>
    split at hn <;> cases hn
    · refine ⟨?_, i2.cap⟩
      have := hwon u j
      simpa [goto] using this
    · exact ⟨i2.own t, i2.cap⟩
    · exact ⟨hlist l, i2.cap⟩

theorem own_step {s s' : State} (iv : Inv s) (i2 : Inv2 s) {t : Nat} (hn : step s t = some s') :
    Own s' t (s'.pc t) ∧ ∀ c, (s'.buf c).length ≤ s.size c := by
  have hclause : ∀ i, (s.pc t = .reg i ∨ s.pc t = .mark i ∨ s.pc t = .pend i ∨ s.pc t = .toggle i ∨ s.pc t = .retoggle i ∨ s.pc t = .hand i
      ∨ s.pc t = .setSat i ∨ s.pc t = .unset i ∨ s.pc t = .check i ∨ s.pc t = .avail i ∨ s.pc t = .buffer i) →
      stepClause s t i (s.pc t) = some s' → Own s' t (s'.pc t) ∧ ∀ c, (s'.buf c).length ≤ s.size c := by
    intro i hq h
    unfold stepClause at h
    split at h
    · next c v hcl => exact own_chan iv i2 rfl hcl hq h
    · cases hp : s.pc t <;> rw [hp] at h <;> simp only [stepTimeout] at h <;> try (simp at h; done)
      cases h
      exact ⟨by simp [goto, Own], i2.cap⟩
    · cases hp : s.pc t <;> rw [hp] at h <;> simp only at h <;> try (simp at h; done)
      cases h
      exact ⟨by simp [goto, Own], i2.cap⟩
  have ho := i2.own t
  cases hp : s.pc t <;> rw [hp] at ho hclause <;> simp only [step, hp] at hn <;>
    try (first | (simp at hn; done) | exact hclause _ (by simp) hn)
  case park =>
    split at hn
    · split at hn <;> cases hn <;> exact ⟨by simp [goto, Own], i2.cap⟩
    · simp at hn
  case body => cases hn; exact ⟨by simp [goto, Own], i2.cap⟩
  case unreg =>
    split at hn
    · next cl _ =>
      cases cl with
      | timeout => simp only [unregister] at hn; cases hn; exact ⟨by simp [goto, Own], i2.cap⟩
      | chan c v =>
        simp only [unregister] at hn
        split at hn
        · split at hn
          · cases hn; exact ⟨by simp [goto, Own], i2.cap⟩
          · simp at hn
        · cases hn; exact ⟨by simp [goto, Own], i2.cap⟩
    · cases hn; exact ⟨by simp [goto, Own], i2.cap⟩
  case ins =>
    split at hn
    · cases hn; exact ⟨by simp [goto, Own], i2.cap⟩
    · simp at hn
  case insOr c v =>
    refine own_or hn i2 (fun _ _ => trivial) (fun _ => by rw [hp]; trivial) ?_
    refine ⟨by simp [goto, Own], ?_⟩
    intro c'
    have := i2.cap c'
    simp only [goto, unlock]
    split
    · exact this
    · next h =>
      simp only [record, upd_apply]
      split
      · next e => subst e; simp only [List.length_append, List.length_singleton]; omega
      · exact this
  case insHand c v =>
    cases hn
    refine ⟨by simp [goto, Own], ?_⟩
    intro c'
    simp only [goto, unlock, record, wake_buf]
    exact i2.cap c'
  case rem c =>
    split at hn
    swap
    · simp at hn
    split at hn
    · cases hn; exact ⟨by simp [goto, Own], i2.cap⟩
    · next hsz =>
      split at hn
      · cases hn; exact ⟨by simp [goto, Own], i2.cap⟩
      · next e l hb =>
        have hc : ∀ c', (upd s.buf c l c').length ≤ s.size c' := by
          intro c'
          have := i2.cap c'
          rw [upd_apply]
          split
          · next e => subst e; rw [hb] at this; simp only [List.length_cons] at this; omega
          · exact this
        split at hn
        · next h =>
          cases hn
          refine ⟨?_, hc⟩
          simp only [goto, upd_same, Own, record]
          omega
        · cases hn; exact ⟨by simp [goto, Own], hc⟩
  case remOr c => exact own_or hn i2 (fun _ _ => trivial) (fun _ => by rw [hp]; trivial) ⟨by simp [goto, Own], i2.cap⟩
  case remHand c =>
    cases hn
    refine ⟨by simp [goto, Own], ?_⟩
    intro c'
    simp only [goto, unlock, record, wake_buf]
    exact i2.cap c'
  case refillOr c =>
    exact own_or hn i2 (fun _ _ => ho) (fun _ => by rw [hp]; exact ho) ⟨by simp [goto, Own], i2.cap⟩
  case refill c =>
    cases hn
    refine ⟨by simp [goto, Own], ?_⟩
    intro c'
    have := i2.cap c'
    simp only [goto, unlock, wake_buf, upd_apply]
    split
    · next e =>
      subst e
      simp only [Own] at ho
      simp only [List.length_append, List.length_singleton]
      omega
    · exact this

theorem Inv2.step' {s s' : State} (iv : Inv s) (i2 : Inv2 s) {t : Nat} (hn : step s t = some s') : Inv2 s' := by
  have hf := frame_step iv hn
  have ho := own_step iv i2 hn
  refine ⟨fun u => ?_, fun c => by rw [hf.size]; exact ho.2 c⟩
  by_cases hu : u = t
  · subst hu; exact ho.1
  · exact hf.own iv hu (i2.own u)

theorem Inv2.next {s s' : State} (iv : Inv s) (i2 : Inv2 s) {a : Act} (hn : Select.next s a = some s') : Inv2 s' := by
  have hcase : ∀ t p, s'.pc = upd s.pc t p → (∀ u, u ≠ t → s'.prog u = s.prog u) → s'.wait = s.wait → s'.buf = s.buf → s'.size = s.size →
      (∀ u, u ≠ t → s'.status u = s.status u) → Own s' t p → Inv2 s' := by
    intro t p h1 h2 h3 h4 h5 h6 h7
    refine ⟨fun u => ?_, fun c => by rw [h4, h5]; exact i2.cap c⟩
    rw [h1, upd_apply]
    split
    · next e => subst e; exact h7
    · next e =>
      have := i2.own u
      cases hp : s.pc u <;> rw [hp] at this <;> simp only [Own] at this ⊢ <;> first
        | (rw [h2 u e, h3, h6 u e]; exact this)
        | (rw [h2 u e, h3, h4, h5, h6 u e]; exact this)
        | (rw [h2 u e, h3, h4, h5]; exact this)
        | (rw [h2 u e, h3]; exact this)
        | (rw [h4, h5]; exact this)
  cases a with
  | wait t cs =>
    simp only [Select.next] at hn
    split at hn
    · cases hn
      exact hcase t _ rfl (fun u hu => by simp [goto, setStatus, upd_apply, hu]) rfl rfl rfl (fun u hu => by simp [goto, setStatus, upd_apply, hu]) trivial
    · simp at hn
  | tryInsert t c v =>
    simp only [Select.next] at hn
    split at hn
    · cases hn; exact hcase t _ rfl (fun u hu => rfl) rfl rfl rfl (fun u hu => rfl) trivial
    · simp at hn
  | tryRemove t c =>
    simp only [Select.next] at hn
    split at hn
    · cases hn; exact hcase t _ rfl (fun u hu => rfl) rfl rfl rfl (fun u hu => rfl) trivial
    · simp at hn
  | step t => exact i2.step' iv hn
  | fire t i =>
    simp only [Select.next] at hn
    split at hn
    · next h =>
      cases hn
      refine hcase t (s.pc t) (upd_self _ _).symm (fun u hu => rfl) rfl rfl rfl (fun u hu => by simp [setStatus, upd_apply, hu]) ?_
      have := i2.own t
      cases hp : s.pc t <;> rw [hp] at this <;> simp only [Own] at this ⊢ <;> first
        | exact this
        | (intro c v _; right; simp [setStatus])
    · simp at hn

theorem inv2_start (size : Nat → Nat) : Inv2 (start size) := ⟨fun _ => trivial, fun _ => by simp [start]⟩

theorem inv2_reach {size : Nat → Nat} {s : State} (h : Reach next (start size) s) : Inv s ∧ Inv2 s :=
  Reach.inv (fun s => Inv s ∧ Inv2 s) ⟨inv_start size, inv2_start size⟩ (fun _ _ _ hi hn => ⟨hi.1.next hn, hi.2.next hi.1 hn⟩) h

theorem goto_pc (s : State) (t : Nat) (p : Pc) : (goto s t p).pc t = p := by simp [goto]

/-! A pending status word does not stay pending. -/

structure Keep (s s' : State) (u : Nat) : Prop where
  pc : ∀ t, t ≠ u → s'.pc t = s.pc t
  prog : s'.prog = s.prog
  chan : ∀ c t, t ≠ u → s.lock c = some t → s'.lock c = some t ∧ s'.wait c = s.wait c

theorem Keep.refl (s : State) (u : Nat) : Keep s s u := ⟨fun _ _ => rfl, rfl, fun _ _ _ h => ⟨h, rfl⟩⟩

theorem Keep.trans {s1 s2 s3 : State} {u : Nat} (h1 : Keep s1 s2 u) (h2 : Keep s2 s3 u) : Keep s1 s3 u :=
  ⟨fun t ht => (h2.pc t ht).trans (h1.pc t ht), h2.prog.trans h1.prog, fun c t ht hl =>
    ⟨(h2.chan c t ht (h1.chan c t ht hl).1).1, (h2.chan c t ht (h1.chan c t ht hl).1).2.trans (h1.chan c t ht hl).2⟩⟩

theorem Frame.keeps {s s' : State} {u : Nat} (h : Frame s s' u) : Keep s s' u :=
  ⟨h.pc, h.prog, fun c t ht hl => ⟨(h.keep ht hl).1, (h.keep ht hl).2.1⟩⟩

def Good (s : State) : Prop := Inv s ∧ Inv2 s

theorem Good.step {s s' : State} (g : Good s) {t : Nat} (h : step s t = some s') : Good s' := ⟨g.1.step' h, g.2.step' g.1 h⟩

def Settles (s : State) (u : Nat) : Prop := ∃ s', Reach step s s' ∧ Good s' ∧ Keep s s' u ∧ s'.status u ≠ .pending

theorem Settles.step {s s' : State} {u : Nat} (g : Good s) (h : step s u = some s') (hs : Settles s' u) : Settles s u := by
  obtain ⟨s2, h1, h2, h3, h4⟩ := hs
  exact ⟨s2, (Reach.init.step h).trans h1, h2, (frame_step g.1 h).keeps.trans h3, h4⟩

theorem Settles.now {s : State} {u : Nat} (g : Good s) (h : s.status u ≠ .pending) : Settles s u := ⟨s, .init, g, Keep.refl _ _, h⟩

theorem settle_setSat {s : State} (g : Good s) {u i c : Nat} {v : Option Nat} (hp : s.pc u = .setSat i) (hcl : (s.prog u)[i]? = some (.chan c v)) :
    Settles s u := by
  have h : step s u = some (goto (unlock (setStatus s u .sat) c) u (.body i)) := by simp [step, hp, stepClause, hcl, stepChan]
  exact Settles.step g h (Settles.now (g.step h) (by simp [goto, unlock, setStatus]))

theorem settle_hand {s : State} (g : Good s) {u i c : Nat} {v : Option Nat} (hp : s.pc u = .hand i) (hcl : (s.prog u)[i]? = some (.chan c v)) :
    Settles s u := by
  obtain ⟨s', h, hp', hpr⟩ : ∃ s', step s u = some s' ∧ s'.pc u = .setSat i ∧ s'.prog = s.prog := by
    cases v with
    | none => exact ⟨_, by simp only [step, hp, stepClause, hcl, stepChan]; rfl, goto_pc _ _ _, by simp [goto, perform_prog, wake_prog]⟩
    | some e => exact ⟨_, by simp only [step, hp, stepClause, hcl, stepChan]; rfl, goto_pc _ _ _, by simp [goto, perform_prog, wake_prog]⟩
  exact Settles.step g h (settle_setSat (g.step h) hp' (by rw [hpr]; exact hcl))

theorem settle_unset {s : State} (g : Good s) {u i c : Nat} {v : Option Nat} (hp : s.pc u = .unset i) (hcl : (s.prog u)[i]? = some (.chan c v)) :
    Settles s u := by
  have h : step s u = some (goto (setStatus s u .unsat) u (.check i)) := by simp [step, hp, stepClause, hcl, stepChan]
  exact Settles.step g h (Settles.now (g.step h) (by simp [goto, setStatus]))

theorem settle_toggle {s : State} (g : Good s) {u i c : Nat} {v : Option Nat} (hp : s.pc u = .toggle i) (hcl : (s.prog u)[i]? = some (.chan c v)) :
    Settles s u := by
  have h : step s u = some (goto (setStatus s u .unsat) u (.retoggle i)) := by simp [step, hp, stepClause, hcl, stepChan]
  exact Settles.step g h (Settles.now (g.step h) (by simp [goto, setStatus]))

theorem settle_pend (n : Nat) : ∀ {s : State} (_ : Good s) {u i c : Nat} {v : Option Nat} (_ : s.pc u = .pend i)
    (_ : (s.prog u)[i]? = some (.chan c v)) (_ : (s.wait c (!v.isSome)).length = n), Settles s u := by
  induction n with
  | zero =>
    intro s g u i c v hp hcl hlen
    have hw := List.eq_nil_of_length_eq_zero hlen
    have h : step s u = some (goto s u (.unset i)) := by simp only [step, hp, stepClause, hcl, stepChan, hw]
    exact Settles.step g h (settle_unset (g.step h) (goto_pc _ _ _) (by simpa [goto] using hcl))
  | succ n ih =>
    intro s g u i c v hp hcl hlen
    cases hw : s.wait c (!v.isSome) with
    | nil => rw [hw] at hlen; simp at hlen
    | cons x l =>
      obtain ⟨y, j⟩ := x
      rw [hw] at hlen
      have hlen : l.length = n := by simpa using hlen
      have hdrop : ∀ h : step s u = some (setWait s c (!v.isSome) l), Settles s u := fun h =>
        Settles.step g h (ih (g.step h) (by simpa [setWait] using hp) (by simpa [setWait] using hcl) (by simpa [setWait] using hlen))
      cases hy : s.status y with
      | unsat =>
        have h : step s u = some (goto (setStatus s y (.node j)) u (.hand i)) := by simp only [step, hp, stepClause, hcl, stepChan, hw, hy]
        exact Settles.step g h (settle_hand (g.step h) (goto_pc _ _ _) (by simpa [goto, setStatus] using hcl))
      | pending =>
        have h : step s u = some (goto s u (.toggle i)) := by simp only [step, hp, stepClause, hcl, stepChan, hw, hy]
        exact Settles.step g h (settle_toggle (g.step h) (goto_pc _ _ _) (by simpa [goto] using hcl))
      | sat => exact hdrop (by simp only [step, hp, stepClause, hcl, stepChan, hw, hy])
      | node k => exact hdrop (by simp only [step, hp, stepClause, hcl, stepChan, hw, hy])

theorem settle {s : State} (g : Good s) {u : Nat} : Settles s u := by
  by_cases hs : s.status u = .pending
  swap
  · exact Settles.now g hs
  have hok := g.1.ok u
  rw [hs] at hok
  cases hp : s.pc u <;> rw [hp] at hok <;> simp only [TOk, Calm, Busy] at hok <;> try (simp at hok; done)
  · obtain ⟨_, c, v, hcl⟩ := hok; exact settle_pend _ g hp hcl rfl
  · obtain ⟨_, c, v, hcl⟩ := hok; exact settle_toggle g hp hcl
  · obtain ⟨_, c, v, hcl⟩ := hok; exact settle_hand g hp hcl
  · obtain ⟨_, _, _, _, c, v, hcl⟩ := hok; exact settle_setSat g hp hcl
  · obtain ⟨_, c, v, hcl⟩ := hok; exact settle_unset g hp hcl

/-! The lock of a channel can be given up. -/

def Frees (s : State) (c : Nat) : Prop := ∃ s', Reach step s s' ∧ s'.lock c = none

theorem Frees.step {s s' : State} {t c : Nat} (h : step s t = some s') (hf : Frees s' c) : Frees s c := by
  obtain ⟨s2, h1, h2⟩ := hf
  exact ⟨s2, (Reach.init.step h).trans h1, h2⟩

theorem Frees.now {s : State} {c : Nat} (h : s.lock c = none) : Frees s c := ⟨s, .init, h⟩

theorem free_setSat {s : State} {u i c : Nat} {v : Option Nat} (hp : s.pc u = .setSat i) (hcl : (s.prog u)[i]? = some (.chan c v)) :
    Frees s c := by
  have h : step s u = some (goto (unlock (setStatus s u .sat) c) u (.body i)) := by simp [step, hp, stepClause, hcl, stepChan]
  exact Frees.step h (Frees.now (by simp [goto, unlock]))

theorem free_hand {s : State} {u i c : Nat} {v : Option Nat} (hp : s.pc u = .hand i) (hcl : (s.prog u)[i]? = some (.chan c v)) :
    Frees s c := by
  obtain ⟨s', h, hp', hpr⟩ : ∃ s', step s u = some s' ∧ s'.pc u = .setSat i ∧ s'.prog = s.prog := by
    cases v with
    | none => exact ⟨_, by simp only [step, hp, stepClause, hcl, stepChan]; rfl, goto_pc _ _ _, by simp [goto, perform_prog, wake_prog]⟩
    | some e => exact ⟨_, by simp only [step, hp, stepClause, hcl, stepChan]; rfl, goto_pc _ _ _, by simp [goto, perform_prog, wake_prog]⟩
  exact Frees.step h (free_setSat hp' (by rw [hpr]; exact hcl))

theorem free_buffer {s : State} (g : Good s) {u i c : Nat} {v : Option Nat} (hp : s.pc u = .buffer i) (hcl : (s.prog u)[i]? = some (.chan c v)) :
    Frees s c := by
  have ho := g.2.own u
  rw [hp] at ho
  obtain ⟨h1, h2⟩ := ho c v hcl
  obtain ⟨s', h, hl⟩ : ∃ s', step s u = some s' ∧ s'.lock c = none := by
    cases v with
    | none =>
      cases hb : s.buf c with
      | nil => rw [hb] at h2; simp at h2
      | cons e l =>
        refine ⟨_, by simp only [step, hp, stepClause, hcl, stepChan, if_neg (fun h : s.wait c (!(none : Option Nat).isSome) ≠ [] => h h1), hb]; rfl, by simp [goto, unlock]⟩
    | some e =>
      refine ⟨_, by simp only [step, hp, stepClause, hcl, stepChan, if_neg (fun h : s.wait c (!(some e).isSome) ≠ [] => h h1)]; rfl, by simp [goto, unlock]⟩
  exact Frees.step h (Frees.now hl)

theorem free_avail {s : State} (g : Good s) {u i c : Nat} {v : Option Nat} (hp : s.pc u = .avail i) (hcl : (s.prog u)[i]? = some (.chan c v)) :
    Frees s c := by
  have hok := g.1.ok u
  rw [hp] at hok
  cases hs : s.status u with
  | unsat =>
    have h : step s u = some (goto (setStatus s u (.node i)) u (.buffer i)) := by simp only [step, hp, stepClause, hcl, stepChan, hs]
    exact Frees.step h (free_buffer (g.step h) (goto_pc _ _ _) (by simpa [goto, setStatus] using hcl))
  | pending => rw [hs] at hok; simp [TOk, Calm] at hok
  | sat => rw [hs] at hok; simp [TOk, Calm] at hok
  | node k =>
    have h : step s u = some (goto (unlock s c) u (.reg (i + 1))) := by simp only [step, hp, stepClause, hcl, stepChan, hs]
    exact Frees.step h (Frees.now (by simp [goto, unlock]))

theorem free_check {s : State} (g : Good s) {u i c : Nat} {v : Option Nat} (hp : s.pc u = .check i) (hcl : (s.prog u)[i]? = some (.chan c v)) :
    Frees s c := by
  by_cases hc : (s.buf c).length ≠ (if v.isSome then s.size c else 0) ∨ s.wait c (!v.isSome) ≠ []
  · have h : step s u = some (goto s u (.avail i)) := by simp only [step, hp, stepClause, hcl, stepChan, if_pos hc]
    exact Frees.step h (free_avail (g.step h) (goto_pc _ _ _) (by simpa [goto] using hcl))
  · have h : step s u = some (goto (unlock (setWait s c v.isSome (s.wait c v.isSome ++ [(u, i)])) c) u (.reg (i + 1))) := by
      simp only [step, hp, stepClause, hcl, stepChan, if_neg hc]
    exact Frees.step h (Frees.now (by simp [goto, unlock]))

theorem free_unset {s : State} (g : Good s) {u i c : Nat} {v : Option Nat} (hp : s.pc u = .unset i) (hcl : (s.prog u)[i]? = some (.chan c v)) :
    Frees s c := by
  have h : step s u = some (goto (setStatus s u .unsat) u (.check i)) := by simp [step, hp, stepClause, hcl, stepChan]
  exact Frees.step h (free_check (g.step h) (goto_pc _ _ _) (by simpa [goto, setStatus] using hcl))

/-- No two clauses of the statement read from and write to the same channel. -/
def OneWay (p : List Clause) : Prop := ∀ (i j c : Nat) (v w : Option Nat), p[i]? = some (.chan c v) → p[j]? = some (.chan c w) → v.isSome = w.isSome

theorem free_pend (n : Nat) : ∀ {s : State} (_ : Good s) {u i c : Nat} {v : Option Nat} (_ : s.pc u = .pend i)
    (_ : (s.prog u)[i]? = some (.chan c v)) (_ : OneWay (s.prog u)) (_ : (s.wait c (!v.isSome)).length = n), Frees s c := by
  induction n with
  | zero =>
    intro s g u i c v hp hcl hone hlen
    have hw := List.eq_nil_of_length_eq_zero hlen
    have h : step s u = some (goto s u (.unset i)) := by simp only [step, hp, stepClause, hcl, stepChan, hw]
    exact Frees.step h (free_unset (g.step h) (goto_pc _ _ _) (by simpa [goto] using hcl))
  | succ n ih =>
    intro s g u i c v hp hcl hone hlen
    cases hw : s.wait c (!v.isSome) with
    | nil => rw [hw] at hlen; simp at hlen
    | cons x l =>
      obtain ⟨y, j⟩ := x
      rw [hw] at hlen
      have hlen : l.length = n := by simpa using hlen
      have hy : y ≠ u := by
        rintro rfl
        obtain ⟨⟨w, h1, h2⟩, _⟩ := g.1.node c _ y j (by rw [hw]; simp)
        have := hone _ _ _ _ _ hcl h1
        rw [h2] at this
        cases hv : v.isSome <;> rw [hv] at this <;> simp at this
      obtain ⟨s', hr, g', hk, hs⟩ := settle g (u := y)
      have hl := (g.1.lock c u).2 (by rw [hp]; simp only [held, hcl])
      obtain ⟨hl', hw'⟩ := hk.chan c u (Ne.symm hy) hl
      have hp' := hk.pc u (Ne.symm hy)
      rw [hp] at hp'
      have hcl' : (s'.prog u)[i]? = some (.chan c v) := by rw [hk.prog]; exact hcl
      have hw'' : s'.wait c (!v.isSome) = (y, j) :: l := by rw [hw', hw]
      have hdrop : ∀ h : step s' u = some (setWait s' c (!v.isSome) l), Frees s' c := fun h =>
        Frees.step h (ih (g'.step h) (by simpa [setWait] using hp') (by simpa [setWait] using hcl')
          (by have := hk.prog; simp only [setWait]; rw [this]; exact hone) (by simpa [setWait] using hlen))
      have : Frees s' c := by
        cases hy : s'.status y with
        | unsat =>
          have h : step s' u = some (goto (setStatus s' y (.node j)) u (.hand i)) := by simp only [step, hp', stepClause, hcl', stepChan, hw'', hy]
          exact Frees.step h (free_hand (goto_pc _ _ _) (by simpa [goto, setStatus] using hcl'))
        | pending => exact absurd hy hs
        | sat => exact hdrop (by simp only [step, hp', stepClause, hcl', stepChan, hw'', hy])
        | node k => exact hdrop (by simp only [step, hp', stepClause, hcl', stepChan, hw'', hy])
      obtain ⟨s2, h1, h2⟩ := this
      exact ⟨s2, hr.trans h1, h2⟩

/-- The same for a thread outside of `waituntil` statements. -/
theorem free_or {p won : Pc} {c : Nat} {b : Bool} {d : State → Nat → State} (hstep : ∀ s u, s.pc u = p → step s u = handleOr s u c b won (d s u))
    (hheld : ∀ pr, held pr p = some c) (hreg : ∀ j, ¬ Reg p j) (hd : ∀ s u, (d s u).lock c = none)
    (hwon : ∀ s u, s.pc u = won → Frees s c) (n : Nat) : ∀ {s : State} (_ : Good s) {u : Nat} (_ : s.pc u = p)
    (_ : (s.wait c b).length = n), Frees s c := by
  induction n with
  | zero =>
    intro s g u hp hlen
    have hw := List.eq_nil_of_length_eq_zero hlen
    have h : step s u = some (d s u) := by rw [hstep s u hp]; simp only [handleOr, hw]
    exact Frees.step h (Frees.now (hd s u))
  | succ n ih =>
    intro s g u hp hlen
    cases hw : s.wait c b with
    | nil => rw [hw] at hlen; simp at hlen
    | cons x l =>
      obtain ⟨y, j⟩ := x
      rw [hw] at hlen
      have hlen : l.length = n := by simpa using hlen
      have hy : y ≠ u := by
        rintro rfl
        have := (g.1.node c _ y j (by rw [hw]; simp)).2
        rw [hp] at this
        exact hreg j this
      obtain ⟨s', hr, g', hk, hs⟩ := settle g (u := y)
      have hl := (g.1.lock c u).2 (by rw [hp]; exact hheld _)
      obtain ⟨hl', hw'⟩ := hk.chan c u (Ne.symm hy) hl
      have hp' := hk.pc u (Ne.symm hy)
      rw [hp] at hp'
      have hw'' : s'.wait c b = (y, j) :: l := by rw [hw', hw]
      have hst := hstep s' u hp'
      have hdrop : ∀ h : step s' u = some (setWait s' c b l), Frees s' c := fun h =>
        Frees.step h (ih (g'.step h) (by simpa [setWait] using hp') (by simpa [setWait] using hlen))
      have : Frees s' c := by
        cases hy : s'.status y with
        | unsat =>
          have h : step s' u = some (goto (setStatus s' y (.node j)) u won) := by rw [hst]; simp only [handleOr, hw'', hy]
          exact Frees.step h (hwon _ u (goto_pc _ _ _))
        | pending => exact absurd hy hs
        | sat => exact hdrop (by rw [hst]; simp only [handleOr, hw'', hy])
        | node k => exact hdrop (by rw [hst]; simp only [handleOr, hw'', hy])
      obtain ⟨s2, h1, h2⟩ := this
      exact ⟨s2, hr.trans h1, h2⟩

theorem frees {s : State} (g : Good s) {t c : Nat} (hl : s.lock c = some t) (hone : OneWay (s.prog t)) : Frees s c := by
  have hheld := (g.1.lock c t).1 hl
  have hins : ∀ (s : State) (u v : Nat), s.pc u = .insHand c v → Frees s c := fun s u v h => by
    have h' : step s u = some (goto (unlock (record (wake s c false (some v)) c [v] []) c) u .idle) := by simp only [step, h]
    exact Frees.step h' (Frees.now (by simp [goto, unlock]))
  have hrem : ∀ (s : State) (u : Nat), s.pc u = .remHand c → Frees s c := fun s u h => by
    have h' : step s u = some (goto (unlock (record (wake s c true none) c [] [elem s ((s.wait c true).headD (0, 0))]) c) u .idle) := by
      simp only [step, h]
    exact Frees.step h' (Frees.now (by simp [goto, unlock]))
  have hfill : ∀ (s : State) (u : Nat), s.pc u = .refill c → Frees s c := fun s u h => by
    obtain ⟨s1, h'⟩ : ∃ s1, step s u = some (goto (unlock s1 c) u .idle) := ⟨_, by simp only [step, h]; rfl⟩
    exact Frees.step h' (Frees.now (by simp [goto, unlock]))
  have hchan : ∀ i : Nat, (match (s.prog t)[i]? with | some (Clause.chan c _) => some c | _ => none) = some c →
      ∃ v, (s.prog t)[i]? = some (Clause.chan c v) := by
    intro i h
    split at h
    · next c' v h' => cases h; exact ⟨v, h'⟩
    · cases h
  have hpend : ∀ {s : State} (_ : Good s) {i : Nat} {v : Option Nat}, s.pc t = .pend i → (s.prog t)[i]? = some (.chan c v) → OneWay (s.prog t) →
      Frees s c := fun g _ _ hp hcl ho => free_pend _ g hp hcl ho rfl
  have hretoggle : ∀ {s : State} (_ : Good s) {i : Nat} {v : Option Nat}, s.pc t = .retoggle i → (s.prog t)[i]? = some (.chan c v) → OneWay (s.prog t) →
      Frees s c := by
    intro s g i v hp hcl ho
    by_cases hs : s.status t = .unsat
    · have h : step s t = some (goto (setStatus s t .pending) t (.pend i)) := by simp only [step, hp, stepClause, hcl, stepChan, hs]
      exact Frees.step h (hpend (g.step h) (goto_pc _ _ _) (by simpa [goto, setStatus] using hcl) (by simpa [goto, setStatus] using ho))
    · have h : step s t = some (goto s t (.check i)) := by
        simp only [step, hp, stepClause, hcl, stepChan]
        all_goals (split <;> simp_all)
      exact Frees.step h (free_check (g.step h) (goto_pc _ _ _) (by simpa [goto] using hcl))
  cases hp : s.pc t <;> rw [hp] at hheld <;> simp only [held] at hheld <;> try (simp at hheld; done)
  case mark i =>
    obtain ⟨v, hcl⟩ := hchan i hheld
    have hok := g.1.ok t
    rw [hp] at hok
    cases hs : s.status t with
    | unsat =>
      have h : step s t = some (goto (setStatus s t .pending) t (.pend i)) := by simp only [step, hp, stepClause, hcl, stepChan, hs]
      exact Frees.step h (hpend (g.step h) (goto_pc _ _ _) (by simpa [goto, setStatus] using hcl) (by simpa [goto, setStatus] using hone))
    | pending => rw [hs] at hok; simp [TOk, Calm] at hok
    | sat => rw [hs] at hok; simp [TOk, Calm] at hok
    | node k =>
      have h : step s t = some (goto (unlock s c) t (.reg (i + 1))) := by simp only [step, hp, stepClause, hcl, stepChan, hs]
      exact Frees.step h (Frees.now (by simp [goto, unlock]))
  case pend i => obtain ⟨v, hcl⟩ := hchan i hheld; exact hpend g hp hcl hone
  case toggle i =>
    obtain ⟨v, hcl⟩ := hchan i hheld
    have h : step s t = some (goto (setStatus s t .unsat) t (.retoggle i)) := by simp [step, hp, stepClause, hcl, stepChan]
    exact Frees.step h (hretoggle (g.step h) (goto_pc _ _ _) (by simpa [goto, setStatus] using hcl) (by simpa [goto, setStatus] using hone))
  case retoggle i => obtain ⟨v, hcl⟩ := hchan i hheld; exact hretoggle g hp hcl hone
  case hand i => obtain ⟨v, hcl⟩ := hchan i hheld; exact free_hand hp hcl
  case setSat i => obtain ⟨v, hcl⟩ := hchan i hheld; exact free_setSat hp hcl
  case unset i => obtain ⟨v, hcl⟩ := hchan i hheld; exact free_unset g hp hcl
  case check i => obtain ⟨v, hcl⟩ := hchan i hheld; exact free_check g hp hcl
  case avail i => obtain ⟨v, hcl⟩ := hchan i hheld; exact free_avail g hp hcl
  case buffer i => obtain ⟨v, hcl⟩ := hchan i hheld; exact free_buffer g hp hcl
  case insOr c' v =>
    cases hheld
    exact free_or (p := .insOr c v) (b := false) (won := .insHand c v)
      (d := fun s u => goto (unlock (if (s.buf c).length = s.size c then s else record { s with buf := upd s.buf c (s.buf c ++ [v]) } c [v] []) c) u .idle)
      (fun s u h => by simp only [step, h]) (fun _ => rfl) (fun _ h => h) (fun s u => by simp [goto, unlock]) (fun s u h => hins s u v h) _ g hp rfl
  case insHand c' v => cases hheld; exact hins s t v hp
  case remOr c' =>
    cases hheld
    exact free_or (p := .remOr c) (b := true) (won := .remHand c) (d := fun s u => goto (unlock s c) u .idle)
      (fun s u h => by simp only [step, h]) (fun _ => rfl) (fun _ h => h) (fun s u => by simp [goto, unlock]) (fun s u h => hrem s u h) _ g hp rfl
  case remHand c' => cases hheld; exact hrem s t hp
  case refillOr c' =>
    cases hheld
    exact free_or (p := .refillOr c) (b := true) (won := .refill c) (d := fun s u => goto (unlock s c) u .idle)
      (fun s u h => by simp only [step, h]) (fun _ => rfl) (fun _ h => h) (fun s u => by simp [goto, unlock]) (fun s u h => hfill s u h) _ g hp rfl
  case refill c' => cases hheld; exact hfill s t hp

end Verif.Select
