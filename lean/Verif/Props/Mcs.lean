import Verif.Model.Mcs
import Verif.Proof.Heap
import Mathlib.Tactic.SplitIfs
/-!
C38: the MCS locks, for every schedule of any number of threads.
-/
namespace Verif.Mcs
open Verif

/-- The thread has exchanged the tail and not yet released the lock. -/
def active : Pc → Bool
  | .idle | .swap => false
  | _ => true

/-- The thread has the lock, or is releasing it. -/
def owns : Pc → Bool
  | .has | .cas | .waitNext | .reset _ | .post _ => true
  | _ => false

/-- The thread is about to post. -/
def isPost : Pc → Bool
  | .post _ => true
  | _ => false

theorem owns_active {p : Pc} (h : owns p = true) : active p = true := by cases p <;> simp_all [owns, active]

structure Inv (k : Kind) (s : State) : Prop where
  le : s.releases ≤ s.arrivals
  act : ∀ t, active (s.pc t) = true → s.releases ≤ s.ticket t ∧ s.ticket t < s.arrivals ∧ t ≠ 0
  inj : ∀ t u, active (s.pc t) = true → active (s.pc u) = true → s.ticket t = s.ticket u → t = u
  tail0 : s.tail = 0 → s.releases = s.arrivals
  tail : s.tail ≠ 0 → active (s.pc s.tail) = true ∧ s.ticket s.tail + 1 = s.arrivals
  link : ∀ t p, s.pc t = .link p → active (s.pc p) = true ∧ s.ticket t = s.ticket p + 1 ∧ s.next p = 0
  nx : ∀ t, active (s.pc t) = true → s.next t ≠ 0 → s.pc (s.next t) = .wait ∧ s.ticket (s.next t) = s.ticket t + 1
  succ : ∀ t u, active (s.pc t) = true → active (s.pc u) = true → s.ticket u = s.ticket t + 1 → isPost (s.pc t) = false →
    s.pc u = .link t ∨ (s.pc u = .wait ∧ s.next t = u)
  wait : ∀ t, s.pc t = .wait → (s.go t = true ↔ s.ticket t = s.releases)
  own : ∀ t, owns (s.pc t) = true → s.ticket t = s.releases
  waitNext : ∀ t, s.pc t = .waitNext → s.ticket t + 1 < s.arrivals
  reset : ∀ t n, s.pc t = .reset n → k = .block ∧ s.next t = n ∧ n ≠ 0
  post : ∀ t n, s.pc t = .post n → k = .block ∧ s.ticket n = s.ticket t + 1 ∧ s.pc n = .wait ∧ s.next t = 0
  goF : ∀ t p, s.pc t = .swap ∨ s.pc t = .link p ∨ (k = .block ∧ (s.pc t = .idle ∨ owns (s.pc t) = true)) → s.go t = false
  nextF : ∀ t, s.pc t = .swap ∨ (k = .block ∧ s.pc t = .idle) → s.next t = 0
  null : s.pc 0 = .idle

/-- Setting the state of one thread. -/
macro "mcs" : tactic => `(tactic| (constructor <;> intros <;> simp only [upd] at * <;> (try split_ifs at *) <;> grind [active, owns, isPost, → owns_active]))

set_option maxHeartbeats 4000000 in
theorem inv_lock_block {s : State} (iv : Inv .block s) {t : Nat} (h : s.pc t = .idle) (h0 : t ≠ 0) :
    Inv .block { s with pc := upd s.pc t .swap } := by
  obtain ⟨le, act, inj, tail0, tail, link, nx, succ, wait, own, waitNext, reset, post, goF, nextF, null⟩ := iv
  mcs

set_option maxHeartbeats 4000000 in
theorem inv_lock_fresh {s : State} (iv : Inv .spinFresh s) {t : Nat} (h : s.pc t = .idle) (h0 : t ≠ 0) :
    Inv .spinFresh { s with go := upd s.go t false, next := upd s.next t 0, pc := upd s.pc t .swap } := by
  obtain ⟨le, act, inj, tail0, tail, link, nx, succ, wait, own, waitNext, reset, post, goF, nextF, null⟩ := iv
  replace reset : ∀ t n, s.pc t ≠ .reset n := fun t n e => by cases (reset t n e).1
  replace post : ∀ t n, s.pc t ≠ .post n := fun t n e => by cases (post t n e).1
  replace goF : ∀ t p, s.pc t = .swap ∨ s.pc t = .link p → s.go t = false := fun t p e => goF t p (e.imp_right Or.inl)
  replace nextF : ∀ t, s.pc t = .swap → s.next t = 0 := fun t e => nextF t (Or.inl e)
  mcs

set_option maxHeartbeats 4000000 in
theorem inv_swap {k : Kind} {s : State} (iv : Inv k s) {t : Nat} (h : s.pc t = .swap) (h0 : t ≠ 0) :
    Inv k { s with
      tail := t, ticket := upd s.ticket t s.arrivals, who := upd s.who s.arrivals t, arrivals := s.arrivals + 1,
      pc := upd s.pc t (if s.tail = 0 then .has else .link s.tail) } := by
  obtain ⟨le, act, inj, tail0, tail, link, nx, succ, wait, own, waitNext, reset, post, goF, nextF, null⟩ := iv
  mcs

set_option maxHeartbeats 4000000 in
theorem inv_link {k : Kind} {s : State} (iv : Inv k s) {t p : Nat} (h : s.pc t = .link p) :
    Inv k { s with next := upd s.next p t, pc := upd s.pc t .wait } := by
  obtain ⟨le, act, inj, tail0, tail, link, nx, succ, wait, own, waitNext, reset, post, goF, nextF, null⟩ := iv
  mcs

set_option maxHeartbeats 4000000 in
theorem inv_wait_block {s : State} (iv : Inv .block s) {t : Nat} (h : s.pc t = .wait) (hg : s.go t = true) :
    Inv .block { s with go := upd s.go t false, pc := upd s.pc t .has } := by
  obtain ⟨le, act, inj, tail0, tail, link, nx, succ, wait, own, waitNext, reset, post, goF, nextF, null⟩ := iv
  mcs

set_option maxHeartbeats 4000000 in
theorem inv_wait_spin {s : State} (iv : Inv .spinFresh s) {t : Nat} (h : s.pc t = .wait) (hg : s.go t = true) :
    Inv .spinFresh { s with pc := upd s.pc t .has } := by
  obtain ⟨le, act, inj, tail0, tail, link, nx, succ, wait, own, waitNext, reset, post, goF, nextF, null⟩ := iv
  replace reset : ∀ t n, s.pc t ≠ .reset n := fun t n e => by cases (reset t n e).1
  replace post : ∀ t n, s.pc t ≠ .post n := fun t n e => by cases (post t n e).1
  replace goF : ∀ t p, s.pc t = .swap ∨ s.pc t = .link p → s.go t = false := fun t p e => goF t p (e.imp_right Or.inl)
  replace nextF : ∀ t, s.pc t = .swap → s.next t = 0 := fun t e => nextF t (Or.inl e)
  mcs

set_option maxHeartbeats 4000000 in
theorem inv_cas_last {k : Kind} {s : State} (iv : Inv k s) {t : Nat} (h : s.pc t = .cas) (hg : s.tail = t) :
    Inv k { s with tail := 0, releases := s.releases + 1, pc := upd s.pc t .idle } := by
  obtain ⟨le, act, inj, tail0, tail, link, nx, succ, wait, own, waitNext, reset, post, goF, nextF, null⟩ := iv
  mcs

set_option maxHeartbeats 4000000 in
theorem inv_cas_fail {k : Kind} {s : State} (iv : Inv k s) {t : Nat} (h : s.pc t = .cas) (hg : s.tail ≠ t) :
    Inv k { s with pc := upd s.pc t .waitNext } := by
  obtain ⟨le, act, inj, tail0, tail, link, nx, succ, wait, own, waitNext, reset, post, goF, nextF, null⟩ := iv
  mcs

set_option maxHeartbeats 4000000 in
theorem inv_next_block {s : State} (iv : Inv .block s) {t : Nat} (h : s.pc t = .waitNext) (hg : s.next t ≠ 0) :
    Inv .block { s with pc := upd s.pc t (.reset (s.next t)) } := by
  obtain ⟨le, act, inj, tail0, tail, link, nx, succ, wait, own, waitNext, reset, post, goF, nextF, null⟩ := iv
  mcs

set_option maxHeartbeats 4000000 in
theorem inv_next_spin {s : State} (iv : Inv .spinFresh s) {t : Nat} (h : s.pc t = .waitNext) (hg : s.next t ≠ 0) :
    Inv .spinFresh { s with go := upd s.go (s.next t) true, releases := s.releases + 1, pc := upd s.pc t .idle } := by
  obtain ⟨le, act, inj, tail0, tail, link, nx, succ, wait, own, waitNext, reset, post, goF, nextF, null⟩ := iv
  replace reset : ∀ t n, s.pc t ≠ .reset n := fun t n e => by cases (reset t n e).1
  replace post : ∀ t n, s.pc t ≠ .post n := fun t n e => by cases (post t n e).1
  replace goF : ∀ t p, s.pc t = .swap ∨ s.pc t = .link p → s.go t = false := fun t p e => goF t p (e.imp_right Or.inl)
  replace nextF : ∀ t, s.pc t = .swap → s.next t = 0 := fun t e => nextF t (Or.inl e)
  mcs

set_option maxHeartbeats 4000000 in
theorem inv_reset {k : Kind} {s : State} (iv : Inv k s) {t n : Nat} (h : s.pc t = .reset n) :
    Inv k { s with next := upd s.next t 0, pc := upd s.pc t (.post n) } := by
  obtain ⟨le, act, inj, tail0, tail, link, nx, succ, wait, own, waitNext, reset, post, goF, nextF, null⟩ := iv
  mcs

set_option maxHeartbeats 4000000 in
theorem inv_post {k : Kind} {s : State} (iv : Inv k s) {t n : Nat} (h : s.pc t = .post n) :
    Inv k { s with go := upd s.go n true, releases := s.releases + 1, pc := upd s.pc t .idle } := by
  obtain ⟨le, act, inj, tail0, tail, link, nx, succ, wait, own, waitNext, reset, post, goF, nextF, null⟩ := iv
  have hp := post t n h
  have h1 : ∀ u, u ≠ t → owns (s.pc u) = false := by
    intro u hu
    cases e : owns (s.pc u) with
    | false => rfl
    | true => exact absurd (inj u t (owns_active e) (by rw [h]; rfl) (by rw [own u e, own t (by rw [h]; rfl)])) hu
  have h2 : ∀ u, s.pc u ≠ .link t := by
    intro u e
    have := link u t e
    have := inj u n (by rw [e]; rfl) (by rw [hp.2.2.1]; rfl) (by omega)
    subst this
    rw [e] at hp; cases hp.2.2.1
  mcs

set_option maxHeartbeats 4000000 in
theorem inv_unlock {k : Kind} {s : State} (iv : Inv k s) {t : Nat} (h : s.pc t = .has) :
    Inv k { s with pc := upd s.pc t .cas } := by
  obtain ⟨le, act, inj, tail0, tail, link, nx, succ, wait, own, waitNext, reset, post, goF, nextF, null⟩ := iv
  mcs

theorem step_inv {k : Kind} (hk : k ≠ .spinReuse) {s s' : State} {a : Act} (iv : Inv k s) (h : next k s a = some s') : Inv k s' := by
  cases a with
  | lock t =>
    simp only [next] at h
    split at h
    · rename_i hc
      cases k with
      | block => cases h; exact inv_lock_block iv hc.1 hc.2
      | spinFresh => cases h; exact inv_lock_fresh iv hc.1 hc.2
      | spinReuse => exact absurd rfl hk
    · cases h
  | go t =>
    simp only [next] at h
    split at h
    · rename_i e
      cases h
      exact inv_swap iv e (fun e0 => by rw [e0, iv.null] at e; cases e)
    · rename_i e; cases h; exact inv_link iv e
    · rename_i e
      split at h
      · rename_i hg
        cases k with
        | block => cases h; exact inv_wait_block iv e hg
        | spinFresh => cases h; exact inv_wait_spin iv e hg
        | spinReuse => exact absurd rfl hk
      · cases h
    · rename_i e
      split at h
      · rename_i hg; cases h; exact inv_cas_last iv e hg
      · rename_i hg; cases h; exact inv_cas_fail iv e hg
    · rename_i e
      split at h
      · rename_i hg
        cases k with
        | block => cases h; exact inv_next_block iv e hg
        | spinFresh => cases h; exact inv_next_spin iv e hg
        | spinReuse => exact absurd rfl hk
      · cases h
    · rename_i e; cases h; exact inv_reset iv e
    · rename_i e; cases h; exact inv_post iv e
    · cases h
  | unlock t =>
    simp only [next] at h
    split at h
    · rename_i e; cases h; exact inv_unlock iv e
    · cases h

theorem reach_inv {k : Kind} (hk : k ≠ .spinReuse) {s : State} (h : Reach (next k) start s) : Inv k s :=
  h.inv (Inv k) (by constructor <;> simp [start, active, owns]) fun _ _ _ p e => step_inv hk p e

/-- Every exchange that has not been released belongs to a thread. -/
def Ex (s : State) : Prop := ∀ i, s.releases ≤ i → i < s.arrivals → active (s.pc (s.who i)) = true ∧ s.ticket (s.who i) = i

theorem Ex.frame {s : State} (h : Ex s) {t : Nat} {p : Pc} (hp : active p = true) (nx : Nat → Nat) (g : Nat → Bool) :
    Ex { s with pc := upd s.pc t p, next := nx, go := g } := by
  intro i h1 h2
  have := h i h1 h2
  dsimp only
  refine ⟨?_, this.2⟩
  by_cases e : s.who i = t
  · rw [e, upd_same]; exact hp
  · rw [upd_ne _ _ e]; exact this.1

theorem Ex.idle {s : State} (h : Ex s) {t : Nat} (ht : active (s.pc t) = false) {p : Pc} (nx : Nat → Nat) (g : Nat → Bool) :
    Ex { s with pc := upd s.pc t p, next := nx, go := g } := by
  intro i h1 h2
  have := h i h1 h2
  dsimp only
  refine ⟨?_, this.2⟩
  by_cases e : s.who i = t
  · rw [e, ht] at this; cases this.1
  · rw [upd_ne _ _ e]; exact this.1

theorem Ex.done {s : State} (h : Ex s) {t : Nat} (ht : s.ticket t = s.releases) {p : Pc} (nx : Nat → Nat) (g : Nat → Bool) (tl : Nat) :
    Ex { s with tail := tl, releases := s.releases + 1, pc := upd s.pc t p, next := nx, go := g } := by
  intro i h1 h2
  dsimp only at h1 h2 ⊢
  have := h i (by omega) h2
  refine ⟨?_, this.2⟩
  by_cases e : s.who i = t
  · have := this.2; rw [e] at this; omega
  · rw [upd_ne _ _ e]; exact this.1

theorem step_ex {k : Kind} {s s' : State} {a : Act} (iv : Inv k s) (hx : Ex s) (h : next k s a = some s') : Ex s' := by
  cases a with
  | lock t =>
    simp only [next] at h
    split at h
    · rename_i hc
      have ht : active (s.pc t) = false := by rw [hc.1]; rfl
      cases k <;> cases h <;> exact hx.idle ht _ _
    · cases h
  | go t =>
    simp only [next] at h
    split at h
    · rename_i e
      cases h
      intro i h1 h2
      dsimp only at h1 h2 ⊢
      by_cases ei : i = s.arrivals
      · subst ei
        rw [upd_same, upd_same, upd_same]
        refine ⟨?_, rfl⟩
        split <;> rfl
      · rw [upd_ne _ _ ei]
        have := hx i h1 (by omega)
        by_cases ew : s.who i = t
        · rw [ew, e] at this; cases this.1
        · rw [upd_ne _ _ ew, upd_ne _ _ ew]; exact this
    · cases h; exact hx.frame rfl _ _
    · split at h
      · cases k <;> cases h <;> exact hx.frame rfl _ _
      · cases h
    · rename_i e
      split at h
      · cases h; exact hx.done (iv.own t (by rw [e]; rfl)) _ _ _
      · cases h; exact hx.frame rfl _ _
    · rename_i e
      split at h
      · cases k
        · cases h; exact hx.frame rfl _ _
        · cases h; exact hx.done (iv.own t (by rw [e]; rfl)) _ _ _
        · cases h; exact hx.done (iv.own t (by rw [e]; rfl)) _ _ _
      · cases h
    · cases h; exact hx.frame rfl _ _
    · rename_i e; cases h; exact hx.done (iv.own t (by rw [e]; rfl)) _ _ _
    · cases h
  | unlock t =>
    simp only [next] at h
    split at h
    · cases h; exact hx.frame rfl _ _
    · cases h

theorem reach_ex {k : Kind} (hk : k ≠ .spinReuse) {s : State} (h : Reach (next k) start s) : Ex s :=
  h.inv' Ex (fun i h1 h2 => by simp [start] at h2) fun _ _ _ r p e => step_ex (reach_inv hk r) p e

/-! ## Theorems -/

/-- C38: at most one thread has an MCS lock (`mcs_lock` with nodes used again and again, `mcs_spin_lock` with a new node each time). -/
theorem C38_exclusion_partial (k : Kind) (hk : k ≠ .spinReuse) (s : State) (h : Reach (next k) start s) (t u : Nat) (ht : s.pc t = .has)
    (hu : s.pc u = .has) : t = u := by
  have iv := reach_inv hk h
  exact iv.inj t u (by rw [ht]; rfl) (by rw [hu]; rfl) (by rw [iv.own t (by rw [ht]; rfl), iv.own u (by rw [hu]; rfl)])

/-- C38: the lock is granted in the order of the exchanges of the tail: the thread that has the lock is the one whose exchange has as many
    exchanges before it as there have been releases. -/
theorem C38_fifo_partial (k : Kind) (hk : k ≠ .spinReuse) (s : State) (h : Reach (next k) start s) (t : Nat) (ht : s.pc t = .has) :
    s.ticket t = s.releases := (reach_inv hk h).own t (by rw [ht]; rfl)

/-- C38, the numbering in `C38_fifo_partial`: an exchange gets the number of exchanges before it, and nothing else changes the number. -/
theorem C38_tickets (k : Kind) (s s' : State) (a : Act) (h : next k s a = some s') (t : Nat) :
    if a = .go t ∧ s.pc t = .swap then s'.ticket t = s.arrivals ∧ s'.arrivals = s.arrivals + 1 else s'.ticket t = s.ticket t := by
  cases a with
  | lock u => rw [if_neg (by rintro ⟨e, _⟩; cases e)]; simp only [next] at h; split at h; (cases k <;> cases h <;> rfl); cases h
  | unlock u => rw [if_neg (by rintro ⟨e, _⟩; cases e)]; simp only [next] at h; split at h <;> cases h; rfl
  | go u =>
    by_cases hu : u = t
    · subst hu
      by_cases hp : s.pc u = .swap
      · rw [if_pos ⟨rfl, hp⟩]; simp only [next, hp] at h; cases h; exact ⟨upd_same _ _ _, rfl⟩
      · rw [if_neg (fun e => hp e.2)]
        simp only [next] at h
        split at h
        · rename_i e; exact absurd e hp
        · cases h; rfl
        · split at h; (cases k <;> cases h <;> rfl); cases h
        · split at h <;> cases h <;> rfl
        · split at h; (cases k <;> cases h <;> rfl); cases h
        · cases h; rfl
        · cases h; rfl
        · cases h
    · rw [if_neg (by rintro ⟨e, _⟩; exact hu (by cases e; rfl))]
      have hut : t ≠ u := fun e => hu e.symm
      simp only [next] at h
      split at h
      · cases h; exact upd_ne _ _ hut
      · cases h; rfl
      · split at h; (cases k <;> cases h <;> rfl); cases h
      · split at h <;> cases h <;> rfl
      · split at h; (cases k <;> cases h <;> rfl); cases h
      · cases h; rfl
      · cases h; rfl
      · cases h

/-- C38: while threads want the lock, some thread has it, or a thread in `lock` or `unlock` can go on: none waits forever for a step that no
    thread is going to make. -/
theorem C38_progress_partial (k : Kind) (hk : k ≠ .spinReuse) (s : State) (h : Reach (next k) start s) (hn : s.releases < s.arrivals) :
    (∃ t, s.pc t = .has) ∨ ∃ t, s.pc t ≠ .idle ∧ (next k s (.go t)).isSome = true := by
  have iv := reach_inv hk h
  obtain ⟨ha, ht⟩ := reach_ex hk h s.releases (Nat.le_refl _) hn
  generalize s.who s.releases = t at ha ht
  cases e : s.pc t with
  | idle => rw [e] at ha; cases ha
  | swap => rw [e] at ha; cases ha
  | link p => exact Or.inr ⟨t, by rw [e]; simp, by simp [next, e]⟩
  | wait =>
    have hg := (iv.wait t e).2 ht
    refine Or.inr ⟨t, ?_⟩
    cases k
    · exact ⟨by rw [e]; simp, by simp [next, e, hg]⟩
    · exact ⟨by rw [e]; simp, by simp [next, e, hg]⟩
    · exact absurd rfl hk
  | has => exact Or.inl ⟨t, e⟩
  | cas =>
    by_cases hl : s.tail = t
    · exact Or.inr ⟨t, by rw [e]; simp, by simp [next, e, hl]⟩
    · exact Or.inr ⟨t, by rw [e]; simp, by simp [next, e, hl]⟩
  | waitNext =>
    have hw := iv.waitNext t e
    obtain ⟨hb, hbt⟩ := reach_ex hk h (s.ticket t + 1) (by omega) hw
    rcases iv.succ t _ ha hb hbt (by rw [e]; rfl) with h1 | h1
    · exact Or.inr ⟨_, by rw [h1]; simp, by simp [next, h1]⟩
    · have h2 : s.next t ≠ 0 := by
        rw [h1.2]; exact (iv.act _ hb).2.2
      refine Or.inr ⟨t, ?_⟩
      cases k
      · exact ⟨by rw [e]; simp, by simp [next, e, h2]⟩
      · exact ⟨by rw [e]; simp, by simp [next, e, h2]⟩
      · exact absurd rfl hk
  | reset n => exact Or.inr ⟨t, by rw [e]; simp, by simp [next, e]⟩
  | post n => exact Or.inr ⟨t, by rw [e]; simp, by simp [next, e]⟩

/-- Three threads, the first one twice with the same node. -/
def demo : List Act :=
  [.lock 1, .go 1, .lock 2, .go 2, .lock 3, .go 3, .go 3, .unlock 1, .go 1, .go 2, .go 1, .go 1, .go 1, .go 2, .lock 1, .go 1, .unlock 2, .go 2, .go 2,
    .go 2, .go 2, .go 3]

example : ∃ s, Reach (next .block) start s ∧ s.pc 3 = .has ∧ s.pc 1 = .link 3 ∧ s.ticket 1 = 3 ∧ s.releases = 2 :=
  ⟨_, Reach.of_exec (s' := ((exec (next .block) start demo).getD start)) demo rfl, by decide +kernel, by decide +kernel, by decide +kernel,
    by decide +kernel⟩

/-- The thread of an action. -/
def Act.thread : Act → Nat
  | .lock t | .go t | .unlock t => t

/-- An action changes the place in the code of its own thread only. -/
theorem step_pc {k : Kind} {s s' : State} {a : Act} (h : next k s a = some s') {t : Nat} (ht : a.thread ≠ t) : s'.pc t = s.pc t := by
  have h2 : t ≠ a.thread := fun e => ht e.symm
  cases a with
  | lock u =>
    simp only [Act.thread] at h2
    simp only [next] at h; split at h
    · cases k <;> cases h <;> exact upd_ne _ _ h2
    · cases h
  | unlock u => simp only [Act.thread] at h2; simp only [next] at h; split at h <;> cases h; exact upd_ne _ _ h2
  | go u =>
    simp only [Act.thread] at h2
    simp only [next] at h
    split at h
    · cases h; exact upd_ne _ _ h2
    · cases h; exact upd_ne _ _ h2
    · split at h; (cases k <;> cases h <;> exact upd_ne _ _ h2); cases h
    · split at h <;> cases h <;> exact upd_ne _ _ h2
    · split at h; (cases k <;> cases h <;> exact upd_ne _ _ h2); cases h
    · cases h; exact upd_ne _ _ h2
    · cases h; exact upd_ne _ _ h2
    · cases h

theorem exec_pc {k : Kind} (t : Nat) : ∀ (as : List Act), (∀ a ∈ as, a.thread ≠ t) → ∀ {s s' : State}, exec (next k) s as = some s' → s'.pc t = s.pc t
  | [], _, s, s', h => by simp only [exec, Option.some.injEq] at h; rw [h]
  | a :: as, ha, s, s', h => by
    simp only [exec] at h
    cases e : next k s a with
    | none => rw [e] at h; cases h
    | some s1 =>
      rw [e] at h
      rw [exec_pc t as (fun b hb => ha b (List.mem_cons_of_mem _ hb)) h, step_pc e (ha a (by simp))]

/-- A schedule for `mcs_spin_lock` in which thread 1 uses its node a second time; its `next` field still refers to thread 2's node. -/
def stale : List Act :=
  [.lock 1, .go 1, .lock 2, .go 2, .go 2, .unlock 1, .go 1, .go 1, .go 2, .unlock 2, .go 2, .lock 1, .go 1, .lock 3, .go 3, .unlock 1, .go 1, .go 1,
    .go 3]

/-- C38 fails for `mcs_spin_lock` when a node is used again, which `lock` provides for (it sets `locked` anew) except for the `next` field: the
    release goes to the previous successor, and the thread that waits is never released: no thread has the lock or is in an
    operation on it except for that thread, which cannot go on. -/
theorem C38_spin_node_reuse_violated :
    ∃ s, Reach (next .spinReuse) start s ∧ s.pc 3 = .wait ∧ next .spinReuse s (.go 3) = none ∧ ∀ t, t ≠ 3 → s.pc t = .idle := by
  refine ⟨_, Reach.of_exec (s' := ((exec (next .spinReuse) start stale).getD start)) stale rfl, by decide +kernel, by decide +kernel, ?_⟩
  intro t ht
  by_cases h1 : t = 1
  · subst h1; decide +kernel
  · by_cases h2 : t = 2
    · subst h2; decide +kernel
    · refine exec_pc (k := .spinReuse) t stale ?_ (s := start) rfl
      intro a ha
      simp only [stale, List.mem_cons, List.not_mem_nil, or_false] at ha
      rcases ha with e | e | e | e | e | e | e | e | e | e | e | e | e | e | e | e | e | e | e <;> subst e <;> simp only [Act.thread] <;> omega

/-- With a new node each time the same schedule releases thread 3. -/
example : ∃ s, Reach (next .spinFresh) start s ∧ s.pc 3 = .has :=
  ⟨_, Reach.of_exec (s' := ((exec (next .spinFresh) start (stale.take 17 ++ [.go 3, .go 1, .go 3])).getD start))
    (stale.take 17 ++ [.go 3, .go 1, .go 3]) rfl, by decide +kernel⟩

end Verif.Mcs
