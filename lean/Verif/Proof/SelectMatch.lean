import Verif.Proof.SelectLive
/-! Lemmas for C46: a statement does not wait for something that is there. -/
namespace Verif.Select
open Verif

/-- A thread in `try_remove` that has taken an element and is about to let a waiting producer insert. -/
def R (p : Pc) (c : Nat) : Prop := p = .refillOr c ∨ p = .refill c

def Open (st : Status) : Prop := st = .unsat ∨ st = .pending

structure Inv3 (s : State) : Prop where
  one : ∀ c, s.wait c false = [] ∨ s.wait c true = []
  rd : ∀ c, s.wait c false ≠ [] → s.buf c = []
  wr : ∀ c, s.wait c true ≠ [] → (s.buf c).length = s.size c ∨ ∃ u, R (s.pc u) c
  fill : ∀ u c, R (s.pc u) c → s.wait c false = [] ∧ (s.buf c).length + 1 = s.size c
  listed : ∀ t j c v, Open (s.status t) → Reg (s.pc t) j → (s.prog t)[j]? = some (.chan c v) → (t, j) ∈ s.wait c v.isSome

theorem inv3_start (size : Nat → Nat) : Inv3 (start size) := by
  constructor <;> simp [start, R, Reg]

theorem R.held {p : Pc} {c : Nat} (h : R p c) (pr : List Clause) : held pr p = some c := by
  rcases h with rfl | rfl <;> rfl

/-- A step of thread `t` on channel `c0`. -/
theorem Inv3.mk1 {s s' : State} (iv : Inv s) (i3 : Inv3 s) (t c0 : Nat) (p : Pc) (hpc : s'.pc = upd s.pc t p)
    (hprog : ∀ u, u ≠ t → s'.prog u = s.prog u) (hsize : s'.size = s.size)
    (hch : ∀ c, c ≠ c0 → s'.wait c = s.wait c ∧ s'.buf c = s.buf c)
    (hl : s.lock c0 = none ∨ s.lock c0 = some t)
    (hq : ∀ c, R (s.pc t) c → c = c0) (hp : ∀ c, R p c → c = c0)
    (hone : s'.wait c0 false = [] ∨ s'.wait c0 true = [])
    (hrd : s'.wait c0 false ≠ [] → s'.buf c0 = [])
    (hwr : s'.wait c0 true ≠ [] → (s'.buf c0).length = s.size c0 ∨ R p c0)
    (hfill : R p c0 → s'.wait c0 false = [] ∧ (s'.buf c0).length + 1 = s.size c0)
    (hlo : ∀ u, u ≠ t → Open (s'.status u) → Open (s.status u) ∧ ∀ b j, (u, j) ∈ s.wait c0 b → (u, j) ∈ s'.wait c0 b)
    (hlt : ∀ j c v, Open (s'.status t) → Reg p j → (s'.prog t)[j]? = some (.chan c v) → (t, j) ∈ s'.wait c v.isSome) : Inv3 s' := by
  have hR : ∀ u, u ≠ t → ¬ R (s.pc u) c0 := by
    intro u hu h
    have := (iv.lock c0 u).2 (h.held _)
    rcases hl with hl | hl <;> rw [hl] at this <;> cases this
    exact hu rfl
  constructor
  · intro c
    by_cases e : c = c0
    · subst e; exact hone
    · rw [(hch c e).1]; exact i3.one c
  · intro c
    by_cases e : c = c0
    · subst e; exact hrd
    · rw [(hch c e).1, (hch c e).2]; exact i3.rd c
  · intro c
    by_cases e : c = c0
    · subst e
      intro h
      rw [hsize]
      rcases hwr h with h | h
      · exact Or.inl h
      · exact Or.inr ⟨t, by rw [hpc, upd_same]; exact h⟩
    · rw [(hch c e).1, (hch c e).2, hsize]
      intro h
      rcases i3.wr c h with h | ⟨u, h⟩
      · exact Or.inl h
      · refine Or.inr ⟨u, ?_⟩
        rw [hpc, upd_apply, if_neg]
        · exact h
        · rintro rfl; exact e (hq c h)
  · intro u c h
    rw [hpc, upd_apply] at h
    rw [hsize]
    split at h
    · next hu =>
      have := hp c h
      subst this
      exact hfill h
    · next hu =>
      have e : c ≠ c0 := by rintro rfl; exact hR u hu h
      rw [(hch c e).1, (hch c e).2]
      exact i3.fill u c h
  · intro u j c v h1 h2 h3
    rw [hpc, upd_apply] at h2
    split at h2
    · next hu => subst hu; exact hlt j c v h1 h2 h3
    · next hu =>
      rw [hprog u hu] at h3
      have := i3.listed u j c v (hlo u hu h1).1 h2 h3
      by_cases e : c = c0
      · subst e; exact (hlo u hu h1).2 _ _ this
      · rw [(hch c e).1]; exact this

/-- A step that changes neither lists nor buffers. -/
theorem Inv3.same {s s' : State} (iv : Inv s) (i3 : Inv3 s) (t : Nat) (p : Pc) (hpc : s'.pc = upd s.pc t p)
    (hprog : ∀ u, u ≠ t → s'.prog u = s.prog u) (hsize : s'.size = s.size) (hw : s'.wait = s.wait) (hb : s'.buf = s.buf)
    (hR : ∀ c, R p c → R (s.pc t) c) (hR' : ∀ c, R (s.pc t) c → R p c ∨ s.wait c true = [])
    (hlo : ∀ u, u ≠ t → Open (s'.status u) → Open (s.status u))
    (hlt : ∀ j c v, Open (s'.status t) → Reg p j → (s'.prog t)[j]? = some (.chan c v) → (t, j) ∈ s.wait c v.isSome) : Inv3 s' := by
  constructor
  · rw [hw]; exact i3.one
  · rw [hw, hb]; exact i3.rd
  · intro c
    rw [hw, hb, hsize, hpc]
    intro h
    rcases i3.wr c h with h' | ⟨u, h'⟩
    · exact Or.inl h'
    · refine Or.inr ⟨u, ?_⟩
      rw [upd_apply]
      split
      · next hu => subst hu; exact (hR' c h').resolve_right h
      · exact h'
  · intro u c h
    rw [hw, hb, hsize]
    rw [hpc, upd_apply] at h
    split at h
    · exact i3.fill t c (hR c h)
    · exact i3.fill u c h
  · intro u j c v h1 h2 h3
    rw [hw]
    rw [hpc, upd_apply] at h2
    split at h2
    · next hu => subst hu; exact hlt j c v h1 h2 h3
    · next hu => rw [hprog u hu] at h3; exact i3.listed u j c v (hlo u hu h1) h2 h3

theorem setWait_same (s : State) (c : Nat) (b : Bool) (l : List (Nat × Nat)) : (setWait s c b l).wait c b = l := by simp [setWait]

theorem setWait_other (s : State) (c : Nat) (b b' : Bool) (l : List (Nat × Nat)) (h : b' ≠ b) : (setWait s c b l).wait c b' = s.wait c b' := by
  simp [setWait, h]

/-- Discard nodes of statements that are no longer open. -/
theorem Inv3.drop {s : State} (iv : Inv s) (i3 : Inv3 s) {t c : Nat} {b : Bool} {l : List (Nat × Nat)}
    (hl : s.lock c = none ∨ s.lock c = some t) (hsub : ∀ x, x ∈ l → x ∈ s.wait c b)
    (hsup : ∀ u j, (u, j) ∈ s.wait c b → Open (s.status u) → (u, j) ∈ l) : Inv3 (setWait s c b l) := by
  have hm : ∀ b' x, x ∈ (setWait s c b l).wait c b' → x ∈ s.wait c b' := by
    intro b' x hx
    by_cases e : b' = b
    · subst e; rw [setWait_same] at hx; exact hsub x hx
    · rwa [setWait_other _ _ _ _ _ e] at hx
  have hnil : ∀ b', (setWait s c b l).wait c b' ≠ [] → s.wait c b' ≠ [] := by
    intro b' h h'
    obtain ⟨x, hx⟩ := List.exists_mem_of_ne_nil _ h
    have := hm b' x hx
    rw [h'] at this
    exact absurd this (by simp)
  have hm' : ∀ u b' j, Open (s.status u) → (u, j) ∈ s.wait c b' → (u, j) ∈ (setWait s c b l).wait c b' := by
    intro u b' j ho h
    by_cases e : b' = b
    · subst e; rw [setWait_same]; exact hsup u j h ho
    · rwa [setWait_other _ _ _ _ _ e]
  constructor
  · intro c'
    by_cases e : c' = c
    · subst e
      by_cases h1 : (setWait s c' b l).wait c' false = []
      · exact Or.inl h1
      · right
        by_contra h2
        rcases i3.one c' with h | h
        · exact hnil _ h1 h
        · exact hnil _ h2 h
    · rw [setWait_wait _ _ _ e]; exact i3.one c'
  · intro c'
    by_cases e : c' = c
    · subst e; exact fun h => i3.rd c' (hnil _ h)
    · rw [setWait_wait _ _ _ e]; exact i3.rd c'
  · intro c'
    by_cases e : c' = c
    · subst e; exact fun h => i3.wr c' (hnil _ h)
    · rw [setWait_wait _ _ _ e]; exact i3.wr c'
  · intro u c' h
    have := i3.fill u c' h
    refine ⟨?_, this.2⟩
    by_cases e : c' = c
    · subst e
      by_contra h'
      exact hnil _ h' this.1
    · rw [setWait_wait _ _ _ e]; exact this.1
  · intro u j c' v h1 h2 h3
    have := i3.listed u j c' v h1 h2 h3
    by_cases e : c' = c
    · subst e; exact hm' u _ j h1 this
    · rw [setWait_wait _ _ _ e]; exact this

/-- The thread of the first node, whose statement is committed, is woken. -/
theorem wake_eq {s : State} {c : Nat} {b : Bool} {r : Option Nat} {u j : Nat} {l : List (Nat × Nat)} (hw : s.wait c b = (u, j) :: l) :
    (wake s c b r).wait = (setWait s c b l).wait := by
  have : wake s c b r = perform { setWait s c b l with token := upd s.token u true } u j r := by simp only [wake, hw]
  rw [this, perform_wait]

theorem not_open_node {i : Nat} : ¬ Open (.node i) := by rintro (h | h) <;> cases h
theorem not_open_sat : ¬ Open .sat := by rintro (h | h) <;> cases h

theorem Inv3.woken {s : State} (iv : Inv s) (i3 : Inv3 s) {t c : Nat} {b : Bool} (hh : Hands (s.prog t) (s.pc t) c b) :
    ∃ u j l, s.wait c b = (u, j) :: l ∧ s.status u = .node j ∧ Inv3 (setWait s c b l) := by
  obtain ⟨u, j, l, hw, hu, _, _⟩ := iv.hand t c b hh
  refine ⟨u, j, l, hw, hu, i3.drop iv (t := t) (Or.inr ((iv.lock c t).2 hh.held)) ?_ ?_⟩
  · intro x hx; rw [hw]; exact List.mem_cons_of_mem _ hx
  · intro u' j' h ho
    rw [hw] at h
    rcases List.mem_cons.1 h with h | h
    · cases h; rw [hu] at ho; exact absurd ho not_open_node
    · exact h

theorem Inv3.dropHead {s : State} (iv : Inv s) (i3 : Inv3 s) {t c : Nat} {b : Bool} {u j : Nat} {l : List (Nat × Nat)}
    (hl : s.lock c = some t) (hw : s.wait c b = (u, j) :: l) (hu : ¬ Open (s.status u)) : Inv3 (setWait s c b l) := by
  refine i3.drop iv (t := t) (Or.inr hl) ?_ ?_
  · intro x hx; rw [hw]; exact List.mem_cons_of_mem _ hx
  · intro u' j' h ho
    rw [hw] at h
    rcases List.mem_cons.1 h with h | h
    · cases h; exact absurd ho hu
    · exact h

/-- What `Inv3` says depends on these parts of the state. -/
theorem Inv3.congr {s s' : State} (i3 : Inv3 s) (h1 : s'.pc = s.pc) (h2 : s'.prog = s.prog) (h3 : s'.size = s.size) (h4 : s'.wait = s.wait)
    (h5 : s'.buf = s.buf) (h6 : s'.status = s.status) : Inv3 s' := by
  constructor
  · rw [h4]; exact i3.one
  · rw [h4, h5]; exact i3.rd
  · rw [h4, h5, h3, h1]; exact i3.wr
  · rw [h4, h5, h3, h1]; exact i3.fill
  · rw [h4, h6, h2, h1]; exact i3.listed

/-- The point of a thread moves, and its statement is not open. -/
theorem Inv3.move {s s' : State} (i3 : Inv3 s) (t : Nat) (p : Pc) (h1 : s'.pc = upd s.pc t p) (h2 : s'.prog = s.prog) (h3 : s'.size = s.size)
    (h4 : s'.wait = s.wait) (h5 : s'.buf = s.buf) (h6 : s'.status = s.status) (hR : ∀ c, R p c ↔ R (s.pc t) c)
    (hlt : Open (s.status t) → ∀ j c v, Reg p j → (s.prog t)[j]? = some (.chan c v) → (t, j) ∈ s.wait c v.isSome) : Inv3 s' := by
  have hR' : ∀ u c, R (s'.pc u) c ↔ R (s.pc u) c := by
    intro u c
    rw [h1, upd_apply]
    split
    · next h => subst h; exact hR c
    · rfl
  constructor
  · rw [h4]; exact i3.one
  · rw [h4, h5]; exact i3.rd
  · intro c h
    rw [h4] at h
    rw [h5, h3]
    exact (i3.wr c h).imp id (fun ⟨u, h⟩ => ⟨u, (hR' u c).2 h⟩)
  · intro u c h
    rw [h4, h5, h3]
    exact i3.fill u c ((hR' u c).1 h)
  · intro u j c v g1 g2 g3
    rw [h4]
    rw [h6] at g1
    rw [h2] at g3
    rw [h1, upd_apply] at g2
    split at g2
    · next h => subst h; exact hlt g1 j c v g2 g3
    · exact i3.listed u j c v g1 g2 g3

theorem notR {p : Pc} (h : ∀ c, p ≠ .refillOr c) (h' : ∀ c, p ≠ .refill c) (c : Nat) : ¬ R p c := by
  rintro (e | e)
  · exact h c e
  · exact h' c e

/-- A thread that registers a clause. -/
def InReg (p : Pc) (i : Nat) : Prop :=
  p = .reg i ∨ p = .mark i ∨ p = .pend i ∨ p = .toggle i ∨ p = .retoggle i ∨ p = .hand i ∨ p = .setSat i ∨ p = .unset i ∨ p = .check i
    ∨ p = .avail i ∨ p = .buffer i

theorem InReg.notR {p : Pc} {i : Nat} (h : InReg p i) (c : Nat) : ¬ R p c := by
  rcases h with rfl | rfl | rfl | rfl | rfl | rfl | rfl | rfl | rfl | rfl | rfl <;> simp [R]

theorem InReg.reg {p : Pc} {i : Nat} (h : InReg p i) (j : Nat) : Reg p j ↔ j < i := by
  rcases h with rfl | rfl | rfl | rfl | rfl | rfl | rfl | rfl | rfl | rfl | rfl <;> rfl

/-- From one point of `register_select$` to another. -/
theorem Inv3.within {s s' : State} (iv : Inv s) (i3 : Inv3 s) {t i : Nat} {q p : Pc} (hp : s.pc t = q) (hq : InReg q i) (hp' : InReg p i)
    (h1 : s'.pc = upd s.pc t p) (h2 : s'.prog = s.prog) (h3 : s'.size = s.size)
    (h4 : s'.wait = s.wait) (h5 : s'.buf = s.buf) (h6 : ∀ u, Open (s'.status u) → Open (s.status u)) : Inv3 s' := by
  refine i3.same iv t p h1 (fun u _ => by rw [h2]) h3 h4 h5 (fun c h => absurd h (hp'.notR c)) (fun c h => by rw [hp] at h; exact absurd h (hq.notR c))
    (fun u _ => h6 u) (fun j c v g1 g2 g3 => ?_)
  rw [h2] at g3
  refine i3.listed t j c v (h6 t g1) ?_ g3
  rw [hp, hq.reg]
  exact (hp'.reg j).1 g2

/-- A thread whose statement is not open moves on. -/
theorem Inv3.leave {s s' : State} (iv : Inv s) (i3 : Inv3 s) {t : Nat} {q p : Pc} (hp : s.pc t = q) (hq : ∀ c, ¬ R q c) (hp' : ∀ c, ¬ R p c)
    (h1 : s'.pc = upd s.pc t p) (h2 : s'.prog = s.prog) (h3 : s'.size = s.size)
    (h4 : s'.wait = s.wait) (h5 : s'.buf = s.buf) (h6 : ∀ u, u ≠ t → s'.status u = s.status u)
    (h7 : Open (s'.status t) → ∀ j, ¬ Reg p j) : Inv3 s' := by
  refine i3.same iv t p h1 (fun u _ => by rw [h2]) h3 h4 h5 (fun c h => absurd h (hp' c)) (fun c h => by rw [hp] at h; exact absurd h (hq c))
    (fun u hu => by rw [h6 u hu]; exact id) (fun j c v g1 g2 g3 => absurd g2 (h7 g1 j))

theorem open_upd {s : State} {t : Nat} {st : Status} (h : Open st → Open (s.status t)) (u : Nat) (ho : Open (upd s.status t st u)) :
    Open (s.status u) := by
  rw [upd_apply] at ho
  split at ho
  · next e => subst e; exact h ho
  · exact ho

theorem chan3 {s s' : State} (iv : Inv s) (i2 : Inv2 s) (i3 : Inv3 s) {t i c : Nat} {v : Option Nat} {q : Pc} (hp : s.pc t = q)
    (hcl : (s.prog t)[i]? = some (.chan c v)) (hq : InReg q i) (hn : stepChan s t i c v q = some s') : Inv3 s' := by
  have ho := i2.own t
  rw [hp] at ho
  have hok := iv.ok t
  rw [hp] at hok
  have hR : ∀ p j, InReg p j → ∀ c, ¬ R p c := fun p j h => h.notR
  rcases id hq with rfl | rfl | rfl | rfl | rfl | rfl | rfl | rfl | rfl | rfl | rfl
  · -- reg
    simp only [stepChan] at hn
    split at hn
    · cases hn
      exact i3.within iv (p := if s.wait c (!v.isSome) = [] then .check i else .mark i) hp hq (by split <;> simp [InReg]) rfl rfl rfl rfl rfl (fun _ h => h)
    · simp at hn
  all_goals have hl : s.lock c = some t := (iv.lock c t).2 (by rw [hp]; simp only [held, hcl])
  · -- mark
    simp only [stepChan] at hn
    split at hn
    · next hs =>
      cases hn
      exact i3.within iv hp hq (p := .pend i) (by simp [InReg]) rfl rfl rfl rfl rfl (open_upd (fun _ => Or.inl hs))
    · cases hn; exact i3
    · next h1 h2 =>
      cases hn
      exact i3.leave iv hp (hR _ i hq) (p := .reg (i + 1)) (hR _ (i + 1) (by simp [InReg])) rfl rfl rfl rfl rfl (fun _ _ => rfl)
        (fun h => absurd h (by rintro (h | h); exact h1 h; exact h2 h))
  · -- pend
    simp only [stepChan] at hn
    split at hn
    · cases hn
      exact i3.within iv hp hq (p := .unset i) (by simp [InReg]) rfl rfl rfl rfl rfl (fun _ h => h)
    · next u j l hw =>
      split at hn
      · next hu =>
        cases hn
        exact i3.within iv hp hq (p := .hand i) (by simp [InReg]) rfl rfl rfl rfl rfl (open_upd (fun _ => Or.inl hu))
      · cases hn
        exact i3.within iv hp hq (p := .toggle i) (by simp [InReg]) rfl rfl rfl rfl rfl (fun _ h => h)
      · next h1 h2 =>
        cases hn
        exact i3.dropHead iv hl hw (by rintro (h | h); exact h1 h; exact h2 h)
  · -- toggle
    simp only [stepChan] at hn
    cases hn
    exact i3.within iv hp hq (p := .retoggle i) (by simp [InReg]) rfl rfl rfl rfl rfl (open_upd (fun _ => Or.inr hok.1.2.1))
  · -- retoggle
    simp only [stepChan] at hn
    split at hn
    · next hs =>
      cases hn
      exact i3.within iv hp hq (p := .pend i) (by simp [InReg]) rfl rfl rfl rfl rfl (open_upd (fun _ => Or.inl hs))
    · cases hn
      exact i3.within iv hp hq (p := .check i) (by simp [InReg]) rfl rfl rfl rfl rfl (fun _ h => h)
  · -- hand
    have hh : Hands (s.prog t) (s.pc t) c (!v.isSome) := by rw [hp]; exact ⟨v, hcl, rfl⟩
    obtain ⟨u, j, l, hw, hu, i3'⟩ := i3.woken iv hh
    have hlt : Open (s.status t) → ∀ j' c' v', Reg (.setSat i) j' → (s.prog t)[j']? = some (.chan c' v') →
        (t, j') ∈ (setWait s c (!v.isSome) l).wait c' v'.isSome := by
      intro h1 j' c' v' h2 h3
      exact i3'.listed t j' c' v' h1 (by simp only [setWait]; rw [hp]; exact h2) h3
    cases v with
    | none =>
      simp only [stepChan] at hn
      cases hn
      refine i3'.move t (.setSat i) ?_ ?_ ?_ ?_ ?_ ?_ (fun c => ?_) hlt
      · simp [goto, perform_pc, wake_pc, setWait]
      · simp [goto, perform_prog, wake_prog, setWait]
      · simp [goto, perform_size, wake_size, setWait]
      · simp only [goto, perform_wait]; exact wake_eq hw
      · simp [goto, perform_buf, wake_buf, setWait]
      · simp [goto, perform_status, wake_status, setWait]
      · simp only [setWait]; rw [hp]; simp [R]
    | some e =>
      simp only [stepChan] at hn
      cases hn
      refine i3'.move t (.setSat i) ?_ ?_ ?_ ?_ ?_ ?_ (fun c => ?_) hlt
      · simp [goto, perform_pc, wake_pc, setWait]
      · simp [goto, perform_prog, wake_prog, setWait]
      · simp [goto, perform_size, wake_size, setWait]
      · simp only [goto, perform_wait]; exact wake_eq hw
      · simp [goto, perform_buf, wake_buf, setWait]
      · simp [goto, perform_status, wake_status, setWait]
      · simp only [setWait]; rw [hp]; simp [R]
  · -- setSat
    simp only [stepChan] at hn
    cases hn
    refine i3.leave iv hp (hR _ i hq) (p := .body i) (fun c => by simp [R]) rfl rfl rfl rfl rfl (fun u hu => by simp [goto, unlock, setStatus, upd_apply, hu]) ?_
    intro h
    simp [goto, unlock, setStatus, Open] at h
  · -- unset
    simp only [stepChan] at hn
    cases hn
    exact i3.within iv hp hq (p := .check i) (by simp [InReg]) rfl rfl rfl rfl rfl (open_upd (fun _ => Or.inr hok.1.2.1))
  · -- check
    unfold stepChan at hn
    by_cases hc : (s.buf c).length ≠ (if v.isSome then s.size c else 0) ∨ s.wait c (!v.isSome) ≠ []
    · rw [if_pos hc] at hn
      cases hn
      exact i3.within iv hp hq (p := .avail i) (by simp [InReg]) rfl rfl rfl rfl rfl (fun _ h => h)
    · rw [if_neg hc] at hn
      cases hn
      rw [not_or, not_not, not_not] at hc
      have hsame := setWait_same s c v.isSome (s.wait c v.isSome ++ [(t, i)])
      have hother := fun b' => setWait_other s c v.isSome b' (s.wait c v.isSome ++ [(t, i)])
      have hmem : ∀ u b j, (u, j) ∈ s.wait c b → (u, j) ∈ (setWait s c v.isSome (s.wait c v.isSome ++ [(t, i)])).wait c b := by
        intro u b j h
        by_cases e : b = v.isSome
        · subst e; rw [hsame]; exact List.mem_append_left _ h
        · rw [hother b e]; exact h
      refine i3.mk1 iv t c (.reg (i + 1)) rfl (fun _ _ => rfl) rfl (fun c' hc' => ⟨setWait_wait _ _ _ hc', rfl⟩) (Or.inr hl)
        (fun c h => by rw [hp] at h; exact absurd h (hR _ i hq c)) (fun c h => absurd h (hR _ (i + 1) (by simp [InReg]) c)) ?_ ?_ ?_
        (fun h => absurd h (hR _ (i + 1) (by simp [InReg]) c)) (fun u _ h => ⟨h, fun b j => hmem u b j⟩) ?_
      · cases v with
        | none => exact Or.inr ((hother true (by simp)).trans hc.2)
        | some e => exact Or.inl ((hother false (by simp)).trans hc.2)
      · cases v with
        | none => intro _; exact List.eq_nil_of_length_eq_zero hc.1
        | some e => intro h; exact absurd ((hother false (by simp)).trans hc.2) h
      · cases v with
        | none => intro h; exact absurd ((hother true (by simp)).trans hc.2) h
        | some e => intro h; exact Or.inl hc.1
      · intro j c' v' h1 h2 h3
        have h2 : j < i + 1 := h2
        by_cases e : j = i
        · subst e
          have h3 : (s.prog t)[j]? = some (.chan c' v') := h3
          rw [hcl] at h3
          cases h3
          show (t, j) ∈ (setWait s c v.isSome _).wait c v.isSome
          rw [hsame]
          simp
        · have := i3.listed t j c' v' h1 (by rw [hp]; show j < i; omega) h3
          by_cases e' : c' = c
          · subst e'; exact hmem _ _ _ this
          · show _ ∈ (setWait s c v.isSome _).wait c' v'.isSome
            rw [setWait_wait _ _ _ e']
            exact this
  · -- avail
    simp only [stepChan] at hn
    split at hn
    · next hs =>
      cases hn
      exact i3.within iv hp hq (p := .buffer i) (by simp [InReg]) rfl rfl rfl rfl rfl (open_upd (fun _ => Or.inl hs))
    · cases hn; exact i3
    · next h1 h2 =>
      cases hn
      exact i3.leave iv hp (hR _ i hq) (p := .reg (i + 1)) (hR _ (i + 1) (by simp [InReg])) rfl rfl rfl rfl rfl (fun _ _ => rfl)
        (fun h => absurd h (by rintro (h | h); exact h1 h; exact h2 h))
  · -- buffer
    simp only [stepChan] at hn
    have hb := ho c v hcl
    have hst : s.status t = .node i := hok.2.1
    have hnoR : ¬ ∃ u, R (s.pc u) c := by
      rintro ⟨u, h⟩
      have := (iv.lock c u).2 (h.held _)
      rw [hl] at this
      cases this
      rw [hp] at h
      exact hR _ i hq c h
    split at hn
    · simp at hn
    split at hn
    · next e l hbuf _ =>
      cases hn
      have hw : s.wait c true = [] := hb.1
      refine i3.mk1 iv t c (.body i) (by simp [goto, unlock, perform_pc]) (fun _ _ => by simp [goto, unlock, perform_prog])
        (by simp [goto, unlock, perform_size])
        (fun c' hc' => ⟨by simp [goto, unlock, perform_wait], by simp [goto, unlock, perform_buf, upd_apply, hc']⟩) (Or.inr hl)
        (fun c h => by rw [hp] at h; exact absurd h (hR _ i hq c)) (fun c h => by simp [R] at h) ?_ ?_ ?_
        (fun h => by simp [R] at h) (fun u _ h => ⟨by simpa [goto, unlock, perform_status] using h, fun b j h => by simpa [goto, unlock, perform_wait] using h⟩) ?_
      · right; simpa [goto, unlock, perform_wait] using hw
      · intro h
        have := i3.rd c (by simpa [goto, unlock, perform_wait] using h)
        rw [hbuf] at this
        cases this
      · intro h
        exact absurd hw (by simpa [goto, unlock, perform_wait] using h)
      · intro j c' v' h1
        simp [goto, unlock, perform_status, hst, Open] at h1
    · simp at hn
    · next e l =>
      cases hn
      have hw : s.wait c false = [] := hb.1
      refine i3.mk1 iv t c (.body i) (by simp [goto, unlock, perform_pc]) (fun _ _ => by simp [goto, unlock, perform_prog])
        (by simp [goto, unlock, perform_size])
        (fun c' hc' => ⟨by simp [goto, unlock, perform_wait], by simp [goto, unlock, perform_buf, upd_apply, hc']⟩) (Or.inr hl)
        (fun c h => by rw [hp] at h; exact absurd h (hR _ i hq c)) (fun c h => by simp [R] at h) ?_ ?_ ?_
        (fun h => by simp [R] at h) (fun u _ h => ⟨by simpa [goto, unlock, perform_status] using h, fun b j h => by simpa [goto, unlock, perform_wait] using h⟩) ?_
      · left; simpa [goto, unlock, perform_wait] using hw
      · intro h
        exact absurd hw (by simpa [goto, unlock, perform_wait] using h)
      · intro h
        have := i3.wr c (by simpa [goto, unlock, perform_wait] using h)
        exact absurd (this.resolve_right hnoR) hb.2
      · intro j c' v' h1
        simp [goto, unlock, perform_status, hst, Open] at h1

/-- A thread that is not in a statement. -/
def Out (p : Pc) : Prop := ∀ j, ¬ Reg p j

theorem or3 {s s' d : State} (iv : Inv s) (i3 : Inv3 s) {t c : Nat} {b : Bool} {q won : Pc} (hp : s.pc t = q) (hl : s.lock c = some t)
    (hn : handleOr s t c b won d = some s') (hout : Out won) (hR : ∀ c, R won c ↔ R q c)
    (hd : s.wait c b = [] → Inv3 d) : Inv3 s' := by
  unfold handleOr at hn
  split at hn
  · next h => cases hn; exact hd h
  · next u j l hw =>
    split at hn
    · next hu =>
      cases hn
      exact i3.same iv t won rfl (fun _ _ => rfl) rfl rfl rfl (fun c h => by rw [hp]; exact (hR c).1 h)
        (fun c h => by rw [hp] at h; exact Or.inl ((hR c).2 h)) (fun x _ => open_upd (fun _ => Or.inl hu) x)
        (fun j c v _ h => absurd h (hout j))
    · cases hn; exact i3
    · next h1 h2 =>
      cases hn
      exact i3.dropHead iv hl hw (by rintro (h | h); exact h1 h; exact h2 h)

theorem step3 {s s' : State} (iv : Inv s) (i2 : Inv2 s) (i3 : Inv3 s) {t : Nat} (hn : step s t = some s') : Inv3 s' := by
  have hok := iv.ok t
  have hclause : ∀ i, InReg (s.pc t) i → stepClause s t i (s.pc t) = some s' → Inv3 s' := by
    intro i hq h
    unfold stepClause at h
    split at h
    · next c v hcl => exact chan3 iv i2 i3 rfl hcl hq h
    · next hcl =>
      cases hp : s.pc t <;> rw [hp] at h hq <;> simp only [stepTimeout] at h <;> try (simp at h; done)
      next k =>
      cases h
      have : k = i := by simpa [InReg] using hq
      subst this
      refine i3.same iv t (.reg (k + 1)) rfl (fun _ _ => rfl) rfl rfl rfl (fun c h => by simp [R] at h) (fun c h => by rw [hp] at h; simp [R] at h)
        (fun _ _ => id) (fun j c v h1 h2 h3 => ?_)
      have h2 : j < k + 1 := h2
      have : j ≠ k := by
        rintro rfl
        have h3 : (s.prog t)[j]? = some (.chan c v) := h3
        rw [hcl] at h3
        cases h3
      exact i3.listed t j c v h1 (by rw [hp]; show j < k; omega) h3
    · next hcl =>
      cases hp : s.pc t <;> rw [hp] at h hq <;> simp only at h <;> try (simp at h; done)
      next k =>
      cases h
      have : k = i := by simpa [InReg] using hq
      subst this
      refine i3.same iv t .park rfl (fun _ _ => rfl) rfl rfl rfl (fun c h => by simp [R] at h) (fun c h => by rw [hp] at h; simp [R] at h)
        (fun _ _ => id) (fun j c v h1 h2 h3 => ?_)
      have hj : j < (s.prog t).length := by
        by_contra h
        have h3 : (s.prog t)[j]? = some (.chan c v) := h3
        rw [List.getElem?_eq_none_iff.2 (by omega)] at h3
        cases h3
      have hk : (s.prog t).length ≤ k := List.getElem?_eq_none_iff.1 hcl
      exact i3.listed t j c v h1 (by rw [hp]; show j < k; omega) h3
  cases hp : s.pc t <;> rw [hp] at hok hclause <;> simp only [step, hp] at hn <;>
    try (first | (simp at hn; done) | exact hclause _ (by simp [InReg]) hn)
  case park =>
    split at hn
    swap
    · simp at hn
    next ht =>
    obtain ⟨i, hs, _⟩ := hok.2.2.2.2 ht
    rw [hs] at hn
    cases hn
    exact i3.leave iv hp (fun c => by simp [R]) (p := .body i) (fun c => by simp [R]) rfl rfl rfl rfl rfl (fun _ _ => rfl)
      (fun h => by simp [goto, hs, Open] at h)
  case body i =>
    cases hn
    exact i3.leave iv hp (fun c => by simp [R]) (p := .unreg 0) (fun c => by simp [R]) rfl rfl rfl rfl rfl (fun _ _ => rfl)
      (fun h => absurd h (by rintro (h | h); exact hok.2.2.1 h; exact hok.2.2.2.1 h))
  case unreg j =>
    have hno : ¬ Open (s.status t) := by rintro (h | h); exact hok.2.1 h; exact hok.2.2.1 h
    split at hn
    · next cl _ =>
      cases cl with
      | timeout =>
        simp only [unregister] at hn; cases hn
        exact i3.leave iv hp (fun c => by simp [R]) (p := .unreg (j + 1)) (fun c => by simp [R]) rfl rfl rfl rfl rfl (fun _ _ => rfl)
          (fun h => absurd h hno)
      | chan c v =>
        simp only [unregister] at hn
        split at hn
        · split at hn
          · next hl =>
            cases hn
            have i3' : Inv3 (setWait s c v.isSome ((s.wait c v.isSome).erase (t, j))) := by
              refine i3.drop iv (t := t) (Or.inl hl) (fun x hx => List.mem_of_mem_erase hx) ?_
              intro u k h ho
              refine (List.mem_erase_of_ne ?_).2 h
              intro e
              cases e
              exact hno ho
            exact i3'.move t (.unreg (j + 1)) rfl rfl rfl rfl rfl rfl (fun c => by simp only [setWait]; rw [hp]; simp [R])
              (fun h => absurd h hno)
          · simp at hn
        · cases hn
          exact i3.leave iv hp (fun c => by simp [R]) (p := .unreg (j + 1)) (fun c => by simp [R]) rfl rfl rfl rfl rfl (fun _ _ => rfl)
            (fun h => absurd h hno)
    · cases hn
      exact i3.leave iv hp (fun c => by simp [R]) (p := .idle) (fun c => by simp [R]) rfl rfl rfl rfl rfl (fun _ _ => rfl)
        (fun _ _ h => h)
  case ins c v =>
    split at hn
    · cases hn
      exact i3.leave iv hp (fun c => by simp [R]) (p := .insOr c v) (fun c => by simp [R]) rfl rfl rfl rfl rfl (fun _ _ => rfl)
        (fun _ _ h => h)
    · simp at hn
  case insOr c v =>
    have hl : s.lock c = some t := (iv.lock c t).2 (by rw [hp]; rfl)
    refine or3 iv i3 hp hl hn (fun _ h => h) (fun c => by simp [R]) ?_
    intro hw
    split
    · exact i3.leave iv hp (fun c => by simp [R]) (p := .idle) (fun c => by simp [R]) rfl rfl rfl rfl rfl (fun _ _ => rfl)
        (fun _ _ h => h)
    · next hne =>
      refine i3.mk1 iv t c .idle rfl (fun _ _ => rfl) rfl (fun c' hc' => ⟨rfl, by simp [goto, unlock, record, upd_apply, hc']⟩) (Or.inr hl)
        (fun c h => by rw [hp] at h; simp [R] at h) (fun c h => by simp [R] at h) (Or.inl hw) (fun h => absurd hw h) ?_
        (fun h => by simp [R] at h) (fun u _ h => ⟨h, fun b j h => h⟩) (fun j c v _ h => h.elim)
      intro h
      rcases i3.wr c h with h' | ⟨u, h'⟩
      · exact absurd h' hne
      · have := (iv.lock c u).2 (h'.held _)
        rw [hl] at this
        cases this
        rw [hp] at h'
        simp [R] at h'
  case insHand c v =>
    have hh : Hands (s.prog t) (s.pc t) c false := by rw [hp]; exact ⟨rfl, rfl⟩
    obtain ⟨u, j, l, hw, hu, i3'⟩ := i3.woken iv hh
    cases hn
    refine i3'.move t .idle ?_ ?_ ?_ ?_ ?_ ?_ (fun c => by simp only [setWait]; rw [hp]; simp [R]) (fun _ _ _ _ h => h.elim)
    · simp [goto, unlock, record, wake_pc, setWait]
    · simp [goto, unlock, record, wake_prog, setWait]
    · simp [goto, unlock, record, wake_size, setWait]
    · simp only [goto, unlock, record]; exact wake_eq hw
    · simp [goto, unlock, record, wake_buf, setWait]
    · simp [goto, unlock, record, wake_status, setWait]
  case rem c =>
    split at hn
    swap
    · simp at hn
    next hl =>
    split at hn
    · cases hn
      exact i3.leave iv hp (fun c => by simp [R]) (p := .remOr c) (fun c => by simp [R]) rfl rfl rfl rfl rfl (fun _ _ => rfl)
        (fun _ _ h => h)
    · next hsz =>
      split at hn
      · cases hn
        exact i3.leave iv hp (fun c => by simp [R]) (p := .idle) (fun c => by simp [R]) rfl rfl rfl rfl rfl (fun _ _ => rfl)
          (fun _ _ h => h)
      · next e l hb =>
        have hcons : s.wait c false = [] := by
          by_contra h
          have := i3.rd c h
          rw [hb] at this
          cases this
        split at hn
        · next hlen =>
          cases hn
          refine i3.mk1 iv t c (.refillOr c) rfl (fun _ _ => rfl) rfl (fun c' hc' => ⟨rfl, by simp [goto, record, upd_apply, hc']⟩) (Or.inl hl)
            (fun c h => by rw [hp] at h; simp [R] at h) (fun c' h => by rcases h with h | h <;> cases h; rfl) (Or.inl hcons)
            (fun h => absurd hcons h) (fun _ => Or.inr (Or.inl rfl)) (fun _ => ⟨hcons, ?_⟩) (fun u _ h => ⟨h, fun b j h => h⟩) (fun j c v _ h => h.elim)
          simp only [goto, record, upd_same]
          omega
        · next hlen =>
          cases hn
          refine i3.mk1 iv t c .idle rfl (fun _ _ => rfl) rfl (fun c' hc' => ⟨rfl, by simp [goto, record, upd_apply, hc']⟩) (Or.inl hl)
            (fun c h => by rw [hp] at h; simp [R] at h) (fun c' h => by simp [R] at h) (Or.inl hcons)
            (fun h => absurd hcons h) (fun h => ?_) (fun h => by simp [R] at h) (fun u _ h => ⟨h, fun b j h => h⟩) (fun j c v _ h => h.elim)
          have h : s.wait c true ≠ [] := h
          rcases i3.wr c h with h' | ⟨u, h'⟩
          · rw [hb] at h'
            simp only [List.length_cons] at h'
            exact absurd ⟨by omega, h⟩ hlen
          · have := (iv.lock c u).2 (h'.held _)
            rw [hl] at this
            cases this
  case remOr c =>
    have hl : s.lock c = some t := (iv.lock c t).2 (by rw [hp]; rfl)
    refine or3 iv i3 hp hl hn (fun _ h => h) (fun c => by simp [R]) ?_
    intro hw
    exact i3.leave iv hp (fun c => by simp [R]) (p := .idle) (fun c => by simp [R]) rfl rfl rfl rfl rfl (fun _ _ => rfl)
        (fun _ _ h => h)
  case remHand c =>
    have hh : Hands (s.prog t) (s.pc t) c true := by rw [hp]; exact ⟨rfl, rfl⟩
    obtain ⟨u, j, l, hw, hu, i3'⟩ := i3.woken iv hh
    cases hn
    refine i3'.move t .idle ?_ ?_ ?_ ?_ ?_ ?_ (fun c => by simp only [setWait]; rw [hp]; simp [R]) (fun _ _ _ _ h => h.elim)
    · simp [goto, unlock, record, wake_pc, setWait]
    · simp [goto, unlock, record, wake_prog, setWait]
    · simp [goto, unlock, record, wake_size, setWait]
    · simp only [goto, unlock, record]; exact wake_eq hw
    · simp [goto, unlock, record, wake_buf, setWait]
    · simp [goto, unlock, record, wake_status, setWait]
  case refillOr c =>
    have hl : s.lock c = some t := (iv.lock c t).2 (by rw [hp]; rfl)
    refine or3 iv i3 hp hl hn (fun _ h => h) (fun c => by simp [R]) ?_
    intro hw
    refine i3.same iv t .idle rfl (fun _ _ => rfl) rfl rfl rfl (fun c h => by simp [R] at h) ?_ (fun _ _ => id) (fun _ _ _ _ h => h.elim)
    intro c' h
    rw [hp] at h
    rcases h with h | h <;> cases h
    exact Or.inr hw
  case refill c =>
    have hl : s.lock c = some t := (iv.lock c t).2 (by rw [hp]; rfl)
    have hh : Hands (s.prog t) (s.pc t) c true := by rw [hp]; exact ⟨rfl, rfl⟩
    obtain ⟨u, j, l, hw, hu, i3'⟩ := i3.woken iv hh
    obtain ⟨hf1, hf2⟩ := i3.fill t c (by rw [hp]; exact Or.inr rfl)
    cases hn
    have hwait : ∀ e, (goto (unlock { wake s c true none with buf := upd (wake s c true none).buf c e } c) t .idle).wait
        = (setWait s c true l).wait := fun e => wake_eq hw
    have hne : ∀ u' b j', Open (s.status u') → (u', j') ∈ s.wait c b → (u', j') ∈ (setWait s c true l).wait c b := by
      intro u' b j' ho h
      cases b with
      | false => rw [setWait_other _ _ _ _ _ (by simp)]; exact h
      | true =>
        rw [setWait_same]
        rw [hw] at h
        rcases List.mem_cons.1 h with h | h
        · cases h; rw [hu] at ho; exact absurd ho not_open_node
        · exact h
    refine i3.mk1 iv t c .idle (by simp [goto, unlock, wake_pc]) (fun _ _ => by simp [goto, unlock, wake_prog]) (by simp [goto, unlock, wake_size])
      (fun c' hc' => ⟨by rw [hwait]; exact setWait_wait _ _ _ hc', by simp [goto, unlock, wake_buf, upd_apply, hc']⟩) (Or.inr hl)
      (fun c' h => by rw [hp] at h; rcases h with h | h <;> cases h; rfl) (fun c h => by simp [R] at h) ?_ ?_ ?_
      (fun h => by simp [R] at h) ?_ (fun j c v _ h => h.elim)
    · left; rw [hwait, setWait_other _ _ _ _ _ (by simp)]; exact hf1
    · intro h; exact absurd hf1 (by rw [hwait, setWait_other _ _ _ _ _ (by simp)] at h; exact h)
    · intro _
      left
      simp only [goto, unlock, wake_buf, upd_same, List.length_append, List.length_singleton]
      exact hf2
    · intro u' _ h
      have h : Open (s.status u') := by simpa [goto, unlock, wake_status] using h
      refine ⟨h, fun b j' hm => ?_⟩
      rw [hwait]
      exact hne u' b j' h hm

theorem next3 {s s' : State} (iv : Inv s) (i2 : Inv2 s) (i3 : Inv3 s) {a : Act} (hn : Select.next s a = some s') : Inv3 s' := by
  cases a with
  | wait t cs =>
    simp only [Select.next] at hn
    split at hn
    · next h =>
      cases hn
      exact i3.same iv t (.reg 0) rfl (fun u hu => by simp [goto, setStatus, upd_apply, hu]) rfl rfl rfl (fun c h => by simp [R] at h)
        (fun c h' => by rw [h.1] at h'; simp [R] at h') (fun u hu => by simp [goto, setStatus, upd_apply, hu])
        (fun j _ _ _ h => absurd h (Nat.not_lt_zero j))
    · simp at hn
  | tryInsert t c v =>
    simp only [Select.next] at hn
    split at hn
    · next hp =>
      cases hn
      exact i3.leave iv hp (fun c => by simp [R]) (p := .ins c v) (fun c => by simp [R]) rfl rfl rfl rfl rfl (fun _ _ => rfl) (fun _ _ h => h)
    · simp at hn
  | tryRemove t c =>
    simp only [Select.next] at hn
    split at hn
    · next hp =>
      cases hn
      exact i3.leave iv hp (fun c => by simp [R]) (p := .rem c) (fun c => by simp [R]) rfl rfl rfl rfl rfl (fun _ _ => rfl) (fun _ _ h => h)
    · simp at hn
  | step t => exact step3 iv i2 i3 hn
  | fire t i =>
    simp only [Select.next] at hn
    split at hn
    · cases hn
      refine i3.same iv t (s.pc t) (upd_self _ _).symm (fun u hu => rfl) rfl rfl rfl (fun c h => h)
        (fun c h => Or.inl h) (fun u hu => by simp [setStatus, upd_apply, hu]) (fun j c v h => ?_)
      simp [setStatus, Open] at h
    · simp at hn

theorem inv3_reach {size : Nat → Nat} {s : State} (h : Reach next (start size) s) : Inv s ∧ Inv2 s ∧ Inv3 s :=
  Reach.inv (fun s => Inv s ∧ Inv2 s ∧ Inv3 s) ⟨inv_start size, inv2_start size, inv3_start size⟩
    (fun _ _ _ hi hn => ⟨hi.1.next hn, hi.2.1.next hi.1 hn, next3 hi.1 hi.2.1 hi.2.2 hn⟩) h

theorem size_next {s s' : State} (iv : Inv s) {a : Act} (hn : Select.next s a = some s') : s'.size = s.size := by
  cases a with
  | wait t cs => simp only [Select.next] at hn; split at hn <;> cases hn; rfl
  | tryInsert t c v => simp only [Select.next] at hn; split at hn <;> cases hn; rfl
  | tryRemove t c => simp only [Select.next] at hn; split at hn <;> cases hn; rfl
  | step t => exact (frame_step iv hn).size
  | fire t i => simp only [Select.next] at hn; split at hn <;> cases hn; rfl

theorem size_reach {size : Nat → Nat} {s : State} (h : Reach next (start size) s) : s.size = size :=
  (Reach.inv (fun s => Inv s ∧ s.size = size) ⟨inv_start size, rfl⟩
    (fun _ _ _ hi hn => ⟨hi.1.next hn, (size_next hi.1 hn).trans hi.2⟩) h).2

/-! A statement that reads from and writes to the same channel. -/

def Stuck (e : Nat) (s : State) : Prop :=
  s.prog 0 = [.chan 0 none, .chan 0 (some e)] ∧ s.wait 0 false = [(0, 0)] ∧ s.lock 0 = some 0 ∧ s.ran 0 = [] ∧
  ((s.pc 0 = .pend 1 ∧ s.status 0 = .pending) ∨ (s.pc 0 = .toggle 1 ∧ s.status 0 = .pending) ∨ (s.pc 0 = .retoggle 1 ∧ s.status 0 = .unsat))

theorem stuck_next {e : Nat} {s s' : State} (iv : Inv s) (h : Stuck e s) {a : Act} (hn : next s a = some s') : Stuck e s' := by
  obtain ⟨h1, h2, h3, h4, h5⟩ := h
  have hidle : s.pc 0 ≠ .idle := by rcases h5 with h | h | h <;> rw [h.1] <;> simp
  cases a with
  | wait t cs =>
    simp only [next] at hn
    split at hn
    · next h =>
      have ht : (0 : Nat) ≠ t := by rintro rfl; exact hidle h.1
      cases hn
      simpa [Stuck, goto, setStatus, upd_apply, ht] using ⟨h1, h2, h3, h4, h5⟩
    · simp at hn
  | tryInsert t c v =>
    simp only [next] at hn
    split at hn
    · next h =>
      have ht : (0 : Nat) ≠ t := by rintro rfl; exact hidle h
      cases hn
      simpa [Stuck, goto, setStatus, upd_apply, ht] using ⟨h1, h2, h3, h4, h5⟩
    · simp at hn
  | tryRemove t c =>
    simp only [next] at hn
    split at hn
    · next h =>
      have ht : (0 : Nat) ≠ t := by rintro rfl; exact hidle h
      cases hn
      simpa [Stuck, goto, setStatus, upd_apply, ht] using ⟨h1, h2, h3, h4, h5⟩
    · simp at hn
  | fire t i =>
    simp only [next] at hn
    split at hn
    · next h =>
      have ht : (0 : Nat) ≠ t := by
        rintro rfl
        have := (iv.armed 0 i h.1).1
        rw [h1] at this
        match i with
        | 0 => simp at this
        | 1 => simp at this
        | i + 2 => simp at this
      cases hn
      simpa [Stuck, goto, setStatus, upd_apply, ht] using ⟨h1, h2, h3, h4, h5⟩
    · simp at hn
  | step t =>
    simp only [next] at hn
    by_cases ht : t = 0
    · subst ht
      rcases h5 with ⟨hp, hs⟩ | ⟨hp, hs⟩ | ⟨hp, hs⟩
      · have : step s 0 = some (goto s 0 (.toggle 1)) := by
          simp [step, hp, stepClause, h1, stepChan, h2, hs]
        rw [this] at hn; cases hn
        simpa [Stuck, goto] using ⟨h1, h2, h3, h4, hs⟩
      · have : step s 0 = some (goto (setStatus s 0 .unsat) 0 (.retoggle 1)) := by
          simp [step, hp, stepClause, h1, stepChan]
        rw [this] at hn; cases hn
        simpa [Stuck, goto, setStatus] using ⟨h1, h2, h3, h4⟩
      · have : step s 0 = some (goto (setStatus s 0 .pending) 0 (.pend 1)) := by
          simp [step, hp, stepClause, h1, stepChan, hs]
        rw [this] at hn; cases hn
        simpa [Stuck, goto, setStatus] using ⟨h1, h2, h3, h4⟩
    · have hf := frame_step iv hn
      have ht' : (0 : Nat) ≠ t := Ne.symm ht
      obtain ⟨hl, hw, _⟩ := hf.keep ht' h3
      have hst : s'.status 0 = s.status 0 := by
        rcases hf.status 0 ht' with h | ⟨_, c, b, j, l, g1, g2, _⟩
        · exact h
        · obtain ⟨⟨v, g3, _⟩, _⟩ := iv.node c b 0 j (by rw [g1]; simp)
          have : c = 0 := by
            rw [h1] at g3
            match j with
            | 0 => simp at g3; exact g3.1.symm
            | 1 => simp at g3; exact g3.1.symm
            | j + 2 => simp at g3
          subst this
          rw [h3] at g2
          cases g2
          exact absurd rfl ht
      have hran : s'.ran 0 = s.ran 0 := hf.ran 0 ht'
      refine ⟨by rw [hf.prog]; exact h1, by rw [hw]; exact h2, hl, by rw [hran]; exact h4, ?_⟩
      rw [hf.pc 0 ht', hst]
      exact h5

end Verif.Select
