import Verif.Model.Semaphore
import Verif.Proof.Heap
/-!
C34: counting semaphores, for every schedule of any number of threads and semaphores.
-/
namespace Verif.Semaphore
open Verif

/-! ## Invariants -/

/-- Numbers and queues of one semaphore. -/
structure NumK (init c : Int) (q : List Nat) (a g : Nat) (w r : List Nat) : Prop where
  count : c = init + a - g - q.length
  len : (q.length : Int) = max 0 (-c)
  fifo : w = r ++ q

def Num (init : Nat → Int) (s : State) : Prop :=
  ∀ k, NumK (init k) (s.count k) (s.queue k) (s.added k) (s.granted k) (s.waited k) (s.released k)

/-- Threads: a blocked thread is in the queue, or one other thread is about to unpark it. -/
structure Thr (pc : Nat → Pc) (queue : Nat → List Nat) : Prop where
  nd : ∀ k, (queue k).Nodup
  q : ∀ k u, u ∈ queue k → pc u = .blocked k
  w : ∀ t u, pc t = .waking u → ∃ k, pc u = .blocked k ∧ u ∉ queue k
  uw : ∀ t t' u, pc t = .waking u → pc t' = .waking u → t = t'
  b : ∀ u k, pc u = .blocked k → u ∈ queue k ∨ ∃ t, pc t = .waking u

theorem Thr.wait {pc : Nat → Pc} {queue : Nat → List Nat} (h : Thr pc queue) {t k : Nat} (ht : pc t = .run) :
    Thr (upd pc t (.blocked k)) (upd queue k (queue k ++ [t])) := by
  have hq : ∀ j, t ∉ queue j := fun j hj => by have := h.q j t hj; rw [ht] at this; cases this
  have hw : ∀ x, pc x ≠ .waking t := fun x hx => by obtain ⟨k, e, _⟩ := h.w x t hx; rw [ht] at e; cases e
  refine ⟨?_, ?_, ?_, ?_, ?_⟩
  · intro j; simp only [upd]; split
    · exact List.nodup_append.2 ⟨h.nd k, by simp, fun a ha b hb e => hq k (by simp only [List.mem_singleton] at hb; rw [← hb, ← e]; exact ha)⟩
    · exact h.nd j
  · intro j u hu
    by_cases e : u = t
    · subst e; rw [upd_same]
      simp only [upd] at hu; split at hu
      · rename_i e; rw [e]
      · exact absurd hu (hq j)
    · rw [upd_ne _ _ e]
      simp only [upd] at hu; split at hu
      · rename_i e'; subst e'
        rcases List.mem_append.1 hu with hu | hu
        · exact h.q _ u hu
        · simp only [List.mem_singleton] at hu; exact absurd hu e
      · exact h.q j u hu
  · intro x u hx
    have hxt : x ≠ t := fun e => by subst e; rw [upd_same] at hx; cases hx
    rw [upd_ne _ _ hxt] at hx
    have hut : u ≠ t := fun e => hw x (e ▸ hx)
    obtain ⟨j, e1, e2⟩ := h.w x u hx
    refine ⟨j, by rw [upd_ne _ _ hut]; exact e1, ?_⟩
    simp only [upd]; split
    · rename_i e'; subst e'; simp [e2, hut]
    · exact e2
  · intro x y u hx hy
    have hxt : x ≠ t := fun e => by subst e; rw [upd_same] at hx; cases hx
    have hyt : y ≠ t := fun e => by subst e; rw [upd_same] at hy; cases hy
    rw [upd_ne _ _ hxt] at hx; rw [upd_ne _ _ hyt] at hy
    exact h.uw x y u hx hy
  · intro u j hu
    by_cases e : u = t
    · subst e; rw [upd_same] at hu; cases hu
      left; rw [upd_same]; simp
    · rw [upd_ne _ _ e] at hu
      rcases h.b u j hu with h1 | ⟨x, hx⟩
      · left; simp only [upd]; split
        · rename_i e'; subst e'; simp [h1]
        · exact h1
      · right
        refine ⟨x, ?_⟩
        have hxt : x ≠ t := fun e => by subst e; rw [ht] at hx; cases hx
        rw [upd_ne _ _ hxt]; exact hx

theorem Thr.release {pc : Nat → Pc} {queue : Nat → List Nat} (h : Thr pc queue) {k u : Nat} {q : List Nat} (hq : queue k = u :: q) :
    Thr (upd pc u .run) (upd queue k q) := by
  have hu : pc u = .blocked k := h.q k u (by rw [hq]; simp)
  have hnd := h.nd k
  rw [hq, List.nodup_cons] at hnd
  have other : ∀ j x, x ∈ upd queue k q j → x ∈ queue j ∧ x ≠ u := by
    intro j x hx
    simp only [upd] at hx; split at hx
    · rename_i e; subst e; exact ⟨by rw [hq]; simp [hx], fun e => hnd.1 (e ▸ hx)⟩
    · rename_i e
      refine ⟨hx, fun e' => ?_⟩
      subst e'
      have := h.q j x hx; rw [hu] at this; cases this; exact e rfl
  have hw : ∀ x, pc x ≠ .waking u := fun x hx => by
    obtain ⟨j, e1, e2⟩ := h.w x u hx
    rw [hu] at e1; cases e1; exact e2 (by rw [hq]; simp)
  refine ⟨?_, ?_, ?_, ?_, ?_⟩
  · intro j; simp only [upd]; split
    · exact hnd.2
    · exact h.nd j
  · intro j x hx
    obtain ⟨h1, h2⟩ := other j x hx
    rw [upd_ne _ _ h2]; exact h.q j x h1
  · intro x y hx
    have hxu : x ≠ u := fun e => by subst e; rw [upd_same] at hx; cases hx
    rw [upd_ne _ _ hxu] at hx
    obtain ⟨j, e1, e2⟩ := h.w x y hx
    have hyu : y ≠ u := fun e => hw x (e ▸ hx)
    exact ⟨j, by rw [upd_ne _ _ hyu]; exact e1, fun e => e2 (other j y e).1⟩
  · intro x y z hx hy
    have hxu : x ≠ u := fun e => by subst e; rw [upd_same] at hx; cases hx
    have hyu : y ≠ u := fun e => by subst e; rw [upd_same] at hy; cases hy
    rw [upd_ne _ _ hxu] at hx; rw [upd_ne _ _ hyu] at hy
    exact h.uw x y z hx hy
  · intro x j hx
    have hxu : x ≠ u := fun e => by subst e; rw [upd_same] at hx; cases hx
    rw [upd_ne _ _ hxu] at hx
    rcases h.b x j hx with h1 | ⟨y, hy⟩
    · left; simp only [upd]; split
      · rename_i e; subst e; rw [hq] at h1; simpa [hxu] using h1
      · exact h1
    · right
      refine ⟨y, ?_⟩
      have hyu : y ≠ u := fun e => by subst e; rw [hu] at hy; cases hy
      rw [upd_ne _ _ hyu]; exact hy

theorem Thr.wake {pc : Nat → Pc} {queue : Nat → List Nat} (h : Thr pc queue) {t k u : Nat} {q : List Nat} (hq : queue k = u :: q)
    (ht : pc t = .run) : Thr (upd pc t (.waking u)) (upd queue k q) := by
  have hu : pc u = .blocked k := h.q k u (by rw [hq]; simp)
  have hut : u ≠ t := fun e => by rw [e, ht] at hu; cases hu
  have hnd := h.nd k
  rw [hq, List.nodup_cons] at hnd
  have other : ∀ j x, x ∈ upd queue k q j → x ∈ queue j ∧ x ≠ u := by
    intro j x hx
    simp only [upd] at hx; split at hx
    · rename_i e; subst e; exact ⟨by rw [hq]; simp [hx], fun e => hnd.1 (e ▸ hx)⟩
    · rename_i e
      refine ⟨hx, fun e' => ?_⟩
      subst e'
      have := h.q j x hx; rw [hu] at this; cases this; exact e rfl
  have hw : ∀ x, pc x ≠ .waking u := fun x hx => by
    obtain ⟨j, e1, e2⟩ := h.w x u hx
    rw [hu] at e1; cases e1; exact e2 (by rw [hq]; simp)
  have hwt : ∀ x, pc x ≠ .waking t := fun x hx => by
    obtain ⟨j, e1, e2⟩ := h.w x t hx
    rw [ht] at e1; cases e1
  refine ⟨?_, ?_, ?_, ?_, ?_⟩
  · intro j; simp only [upd]; split
    · exact hnd.2
    · exact h.nd j
  · intro j x hx
    obtain ⟨h1, h2⟩ := other j x hx
    have := h.q j x h1
    have hxt : x ≠ t := fun e => by rw [e, ht] at this; cases this
    rw [upd_ne _ _ hxt]; exact this
  · intro x y hx
    by_cases hxt : x = t
    · subst hxt; rw [upd_same] at hx; cases hx
      exact ⟨k, by rw [upd_ne _ _ hut]; exact hu, fun e => (other k u e).2 rfl⟩
    · rw [upd_ne _ _ hxt] at hx
      obtain ⟨j, e1, e2⟩ := h.w x y hx
      have hyt : y ≠ t := fun e => hwt x (e ▸ hx)
      exact ⟨j, by rw [upd_ne _ _ hyt]; exact e1, fun e => e2 (other j y e).1⟩
  · intro x y z hx hy
    by_cases hxt : x = t <;> by_cases hyt : y = t
    · rw [hxt, hyt]
    · subst hxt; rw [upd_same] at hx; cases hx; rw [upd_ne _ _ hyt] at hy; exact absurd hy (hw y)
    · subst hyt; rw [upd_same] at hy; cases hy; rw [upd_ne _ _ hxt] at hx; exact absurd hx (hw x)
    · rw [upd_ne _ _ hxt] at hx; rw [upd_ne _ _ hyt] at hy
      exact h.uw x y z hx hy
  · intro x j hx
    have hxt : x ≠ t := fun e => by subst e; rw [upd_same] at hx; cases hx
    rw [upd_ne _ _ hxt] at hx
    by_cases hxu : x = u
    · subst hxu; exact Or.inr ⟨t, by rw [upd_same]⟩
    · rcases h.b x j hx with h1 | ⟨y, hy⟩
      · left; simp only [upd]; split
        · rename_i e; subst e; rw [hq] at h1; simpa [hxu] using h1
        · exact h1
      · right
        refine ⟨y, ?_⟩
        have hyt : y ≠ t := fun e => by subst e; rw [ht] at hy; cases hy
        rw [upd_ne _ _ hyt]; exact hy

theorem Thr.finish {pc : Nat → Pc} {queue : Nat → List Nat} (h : Thr pc queue) {t u : Nat} (ht : pc t = .waking u) :
    Thr (upd (upd pc u .run) t .run) queue := by
  obtain ⟨k, hu, hnq⟩ := h.w t u ht
  have hut : u ≠ t := fun e => by rw [e, ht] at hu; cases hu
  have hnu : ∀ j, u ∉ queue j := fun j hj => by have := h.q j u hj; rw [hu] at this; cases this; exact hnq hj
  have hwt : ∀ x, pc x ≠ .waking t := fun x hx => by
    obtain ⟨j, e1, e2⟩ := h.w x t hx
    rw [ht] at e1; cases e1
  refine ⟨h.nd, ?_, ?_, ?_, ?_⟩
  · intro j x hx
    have e := h.q j x hx
    have hxt : x ≠ t := fun e' => by rw [e', ht] at e; cases e
    have hxu : x ≠ u := fun e' => hnu j (e' ▸ hx)
    rw [upd_ne _ _ hxt, upd_ne _ _ hxu]; exact e
  · intro x y hx
    have hxt : x ≠ t := fun e => by subst e; rw [upd_same] at hx; cases hx
    rw [upd_ne _ _ hxt] at hx
    have hxu : x ≠ u := fun e => by subst e; rw [upd_same] at hx; cases hx
    rw [upd_ne _ _ hxu] at hx
    obtain ⟨j, e1, e2⟩ := h.w x y hx
    have hyt : y ≠ t := fun e => hwt x (e ▸ hx)
    have hyu : y ≠ u := fun e => hxt (h.uw x t u (e ▸ hx) ht)
    exact ⟨j, by rw [upd_ne _ _ hyt, upd_ne _ _ hyu]; exact e1, e2⟩
  · intro x y z hx hy
    have k1 : ∀ {x z}, upd (upd pc u .run) t .run x = .waking z → pc x = .waking z := by
      intro x z hx
      have hxt : x ≠ t := fun e => by subst e; rw [upd_same] at hx; cases hx
      rw [upd_ne _ _ hxt] at hx
      have hxu : x ≠ u := fun e => by subst e; rw [upd_same] at hx; cases hx
      rwa [upd_ne _ _ hxu] at hx
    exact h.uw x y z (k1 hx) (k1 hy)
  · intro x j hx
    have hxt : x ≠ t := fun e => by subst e; rw [upd_same] at hx; cases hx
    rw [upd_ne _ _ hxt] at hx
    have hxu : x ≠ u := fun e => by subst e; rw [upd_same] at hx; cases hx
    rw [upd_ne _ _ hxu] at hx
    rcases h.b x j hx with h1 | ⟨y, hy⟩
    · exact Or.inl h1
    · right
      refine ⟨y, ?_⟩
      have hyt : y ≠ t := fun e => by subst e; rw [ht] at hy; cases hy; exact hxu rfl
      have hyu : y ≠ u := fun e => by subst e; rw [hu] at hy; cases hy
      rw [upd_ne _ _ hyt, upd_ne _ _ hyu]; exact hy

theorem popLoop_spec (k n : Nat) : ∀ s : State, let s' := popLoop s k n
    s'.count = s.count ∧ s'.added = s.added ∧ s'.waited = s.waited ∧ s'.queue = upd s.queue k ((s.queue k).drop n) ∧
    s'.granted = upd s.granted k (s.granted k + min n (s.queue k).length) ∧
    s'.released = upd s.released k (s.released k ++ (s.queue k).take n) ∧
    (∀ u, s'.pc u = if u ∈ (s.queue k).take n then .run else s.pc u) ∧ (Thr s.pc s.queue → Thr s'.pc s'.queue) := by
  induction n with
  | zero =>
    intro s
    have hu : ∀ {α : Type} (f : Nat → α), upd f k (f k) = f := fun f => by funext x; simp only [upd]; split; rw [‹x = k›]; rfl
    simp [popLoop, hu]
  | succ n ih =>
    intro s
    have hu : ∀ {α : Type} (f : Nat → α) (a b : α), upd (upd f k a) k b = upd f k b := fun f a b => by funext x; simp only [upd]; split <;> rfl
    have hi : ∀ {α : Type} (f : Nat → α), upd f k (f k) = f := fun f => by funext x; simp only [upd]; split; rw [‹x = k›]; rfl
    cases hq : s.queue k with
    | nil =>
      have := ih s
      simp only [popLoop, pop, unpark, hq] at this ⊢
      simpa using this
    | cons u q =>
      have hp : popLoop s k (n + 1) = popLoop { s with
          queue := upd s.queue k q, granted := upd s.granted k (s.granted k + 1), released := upd s.released k (s.released k ++ [u]),
          pc := upd s.pc u .run } k n := by
        simp only [popLoop, pop, unpark, hq]
      intro s'
      have e : s' = _ := hp
      obtain ⟨h1, h2, h3, h4, h5, h6, h7, h8⟩ := ih { s with
          queue := upd s.queue k q, granted := upd s.granted k (s.granted k + 1), released := upd s.released k (s.released k ++ [u]),
          pc := upd s.pc u .run }
      rw [← e] at h1 h2 h3 h4 h5 h6 h7 h8
      dsimp only at h1 h2 h3 h4 h5 h6 h7 h8
      simp only [upd_same, hu] at h4 h5 h6 h7
      refine ⟨h1, h2, h3, h4, ?_, ?_, ?_, ?_⟩
      · rw [h5]; congr 1; simp only [List.length_cons]; omega
      · rw [h6]; simp
      · intro x
        rw [h7 x]
        simp only [List.take_succ_cons, List.mem_cons, upd]
        by_cases e : x = u <;> simp [e]
      · exact fun ht => h8 (ht.release hq)

/-- Uses of `V( sem, n )` that the code handles: no permit is available and there are at most `n` waiting threads. -/
def Proper (s : State) : Act → Prop
  | .Vn _ k n => s.count k ≤ 0 ∧ -s.count k ≤ n ∧ (n : Int) < 2 ^ 64
  | _ => True

instance (s : State) (a : Act) : Decidable (Proper s a) := by cases a <;> simp only [Proper] <;> infer_instance

/-- The executions in which `V( sem, n )` is only used like that. -/
def nextProper (s : State) (a : Act) : Option State := if Proper s a then next s a else none

structure Inv (init : Nat → Int) (s : State) : Prop where
  num : Num init s
  thr : Thr s.pc s.queue

theorem release_eq {c : Int} {n : Nat} (h1 : c ≤ 0) (h2 : -c ≤ n) (h3 : (n : Int) < 2 ^ 64) : release c n = n := by
  unfold release
  rw [Int.emod_eq_of_lt (by omega) (by omega)]
  omega

theorem block_inv {init : Nat → Int} {s : State} (iv : Inv init s) (t k : Nat) (ht : s.pc t = .run) :
    Inv init (block { s with count := upd s.count k (s.count k - 1) } t k) := by
  have nk := iv.num k
  have h1 := nk.count
  have h2 := nk.len
  have h3 := nk.fifo
  unfold block
  simp only [upd_same]
  split
  · rename_i hc
    refine ⟨?_, iv.thr.wait ht⟩
    intro j
    by_cases e : j = k
    · subst e
      simp only [wait, upd_same]
      refine ⟨?_, ?_, ?_⟩
      · rw [List.length_append, List.length_singleton]; omega
      · rw [List.length_append, List.length_singleton]; omega
      · rw [h3, List.append_assoc]
    · simp only [wait, upd_ne _ _ e]; exact iv.num j
  · rename_i hc
    refine ⟨?_, iv.thr⟩
    intro j
    by_cases e : j = k
    · subst e
      simp only [upd_same]
      exact ⟨by omega, by omega, h3⟩
    · simp only [upd_ne _ _ e]; exact iv.num j

theorem vBody_num {init : Nat → Int} {s : State} (iv : Num init s) (k : Nat) : Num init (vBody s k).1 := by
  have nk := iv k
  have h1 := nk.count
  have h2 := nk.len
  have h3 := nk.fifo
  unfold vBody
  simp only [upd_same]
  split
  · unfold pop
    cases hq : s.queue k with
    | nil => rw [hq] at h2; simp at h2; omega
    | cons u q =>
      intro j
      by_cases e : j = k
      · subst e
        simp only [upd_same]
        rw [hq] at h1 h2 h3
        simp only [List.length_cons] at h1 h2
        exact ⟨by omega, by omega, by rw [h3]; simp⟩
      · simp only [upd_ne _ _ e]; exact iv j
  · intro j
    by_cases e : j = k
    · subst e
      simp only [upd_same]
      exact ⟨by omega, by omega, h3⟩
    · simp only [upd_ne _ _ e]; exact iv j

theorem vBody_case (s : State) (k : Nat) :
    ((vBody s k).2 = none ∧ (vBody s k).1.pc = s.pc ∧ (vBody s k).1.queue = s.queue) ∨
    ∃ u q, s.queue k = u :: q ∧ (vBody s k).2 = some u ∧ (vBody s k).1.pc = s.pc ∧ (vBody s k).1.queue = upd s.queue k q := by
  unfold vBody
  simp only [upd_same]
  split
  · unfold pop
    cases hq : s.queue k with
    | nil => exact Or.inl ⟨rfl, rfl, rfl⟩
    | cons u q => exact Or.inr ⟨u, q, rfl, rfl, rfl, rfl⟩
  · exact Or.inl ⟨rfl, rfl, rfl⟩

theorem step_inv {init : Nat → Int} {s s' : State} {a : Act} (iv : Inv init s) (h : nextProper s a = some s') : Inv init s' := by
  unfold nextProper at h
  split at h
  case isFalse => cases h
  rename_i hp
  cases a with
  | P t k =>
    simp only [next] at h
    split at h
    · cases h; exact block_inv iv t k ‹_›
    · cases h
  | tryP t k =>
    simp only [next] at h
    split at h
    · split at h
      · cases h; exact iv
      · cases h
        have nk := iv.num k
        have h1 := nk.count
        have h2 := nk.len
        refine ⟨?_, iv.thr⟩
        intro j
        by_cases e : j = k
        · subst e
          simp only [upd_same]
          exact ⟨by omega, by omega, nk.fifo⟩
        · simp only [upd_ne _ _ e]; exact iv.num j
    · cases h
  | V t k =>
    simp only [next] at h
    split at h
    case isFalse => cases h
    rename_i ht
    have hn := vBody_num iv.num k
    rcases vBody_case s k with ⟨e1, e2, e3⟩ | ⟨u, q, e0, e1, e2, e3⟩ <;> generalize vBody s k = r at * <;> obtain ⟨s1, o⟩ := r <;>
      dsimp only at e1 e2 e3 hn <;> subst e1 <;> cases h
    · exact ⟨hn, by rw [e2, e3]; exact iv.thr⟩
    · refine ⟨hn, ?_⟩
      dsimp only
      rw [e2, e3]
      exact iv.thr.wake e0 ht
  | Vn t k n =>
    obtain ⟨p1, p2, p3⟩ := hp
    simp only [next] at h
    split at h
    case isFalse => cases h
    rename_i ht
    cases h
    rw [release_eq p1 p2 p3]
    obtain ⟨h1, h2, h3, h4, h5, h6, h7, h8⟩ := popLoop_spec k n
      { s with count := upd s.count k (s.count k + n), added := upd s.added k (s.added k + n) }
    refine ⟨?_, h8 iv.thr⟩
    have nk := iv.num k
    have g1 := nk.count
    have g2 := nk.len
    intro j
    rw [h1, h2, h3, h4, h5, h6]
    by_cases e : j = k
    · subst e
      simp only [upd_same]
      have hl : (s.queue j).length ≤ n := by omega
      rw [List.drop_eq_nil_of_le hl, List.take_of_length_le hl]
      refine ⟨?_, ?_, ?_⟩
      · simp only [List.length_nil]; omega
      · simp only [List.length_nil]; omega
      · rw [nk.fifo]; simp
    · simp only [upd_ne _ _ e]; exact iv.num j
  | PV t k l =>
    simp only [next] at h
    split at h
    case isFalse => cases h
    rename_i ht
    split at h
    · rename_i hkl
      subst hkl
      cases h
      have nk := iv.num k
      have g1 := nk.count
      have g2 := nk.len
      have g3 := nk.fifo
      by_cases hc : s.count k < 0
      · rw [if_pos hc]
        unfold pop
        cases hq : s.queue k with
        | nil => rw [hq] at g2; simp at g2; omega
        | cons u q =>
          rw [hq] at g1 g2 g3
          simp only [List.length_cons] at g1 g2
          have ht' : s.pc u = .blocked k := iv.thr.q k u (by rw [hq]; simp)
          have hut : t ≠ u := fun e => by rw [← e, ht] at ht'; cases ht'
          have th := (iv.thr.release hq).wait (t := t) (k := k) (by rw [upd_ne _ _ hut]; exact ht)
          simp only [unpark, block, hc, if_true, wait]
          refine ⟨?_, th⟩
          intro j
          by_cases e : j = k
          · subst e
            simp only [upd_same]
            refine ⟨?_, ?_, ?_⟩
            · rw [List.length_append, List.length_singleton]; omega
            · rw [List.length_append, List.length_singleton]; omega
            · rw [g3]; simp
          · simp only [upd_ne _ _ e]; exact iv.num j
      · rw [if_neg hc]
        simp only [block]
        rw [if_neg hc]
        refine ⟨?_, iv.thr⟩
        intro j
        by_cases e : j = k
        · subst e
          simp only [upd_same]
          exact ⟨by omega, by omega, g3⟩
        · simp only [upd_ne _ _ e]; exact iv.num j
    · rename_i hkl
      cases h
      have hn := vBody_num iv.num l
      rcases vBody_case s l with ⟨e1, e2, e3⟩ | ⟨u, q, e0, e1, e2, e3⟩ <;> generalize vBody s l = r at * <;> obtain ⟨s1, o⟩ := r <;>
        dsimp only at e1 e2 e3 hn <;> subst e1
      · exact block_inv ⟨hn, by rw [e2, e3]; exact iv.thr⟩ t k (by rw [e2]; exact ht)
      · have ht' : s.pc u = .blocked l := iv.thr.q l u (by rw [e0]; simp)
        have hut : t ≠ u := fun e => by rw [← e, ht] at ht'; cases ht'
        exact block_inv (s := { s1 with pc := upd s1.pc u .run })
          ⟨hn, by dsimp only; rw [e2, e3]; exact iv.thr.release e0⟩ t k (by dsimp only; rw [upd_ne _ _ hut, e2]; exact ht)
  | unpark t =>
    simp only [next] at h
    split at h
    · rename_i u hu
      cases h
      exact ⟨iv.num, iv.thr.finish hu⟩
    · cases h

theorem start_inv {init : Nat → Int} (h : ∀ k, 0 ≤ init k) : Inv init (start init) where
  num := fun k => ⟨by simp [start], by have := h k; simp only [start, List.length_nil]; omega, rfl⟩
  thr := ⟨by simp [start], by simp [start], by simp [start], by simp [start], by simp [start]⟩

/-- C34: in every state any schedule reaches, a semaphore has granted at most as many permits as its initial count plus the permits
    `V` added; a thread is in the waiting queue only if all of those were granted; threads were released in the order in which they
    had to wait; and a blocked thread that has left the queue is about to be unparked by exactly one thread.
    Missing: negative initial counts, and uses of `V( sem, n )` when permits are available or more than `n` threads wait. -/
theorem C34_permits_partial (init : Nat → Int) (hi : ∀ k, 0 ≤ init k) (s : State) (h : Reach nextProper (start init) s) (k : Nat) :
    (s.granted k : Int) ≤ init k + s.added k ∧ (s.queue k ≠ [] → (s.granted k : Int) = init k + s.added k) ∧
    s.waited k = s.released k ++ s.queue k ∧
    (∀ u, s.pc u = .blocked k → u ∈ s.queue k ∨ ∃ t, s.pc t = .waking u ∧ ∀ t', s.pc t' = .waking u → t' = t) := by
  have iv : Inv init s := h.inv (Inv init) (start_inv hi) fun s a s' p e => step_inv p e
  have nk := iv.num k
  have h1 := nk.count
  have h2 := nk.len
  refine ⟨by omega, ?_, nk.fifo, ?_⟩
  · intro hq
    have : 0 < (s.queue k).length := List.length_pos_iff.2 hq
    omega
  · intro u hu
    rcases iv.thr.b u k hu with h | ⟨t, ht⟩
    · exact Or.inl h
    · exact Or.inr ⟨t, ht, fun t' ht' => iv.thr.uw t' t u ht' ht⟩

/-- C34: `P` returns at once exactly when a permit is left, and `try_P` succeeds exactly then. -/
theorem C34_P_blocks_only_without_permit_partial (init : Nat → Int) (hi : ∀ k, 0 ≤ init k) (s : State) (h : Reach nextProper (start init) s)
    (t k : Nat) (ht : s.pc t = .run) :
    (∃ s', next s (.P t k) = some s' ∧ (s'.pc t = .run ↔ (s.granted k : Int) < init k + s.added k) ∧
      (s'.pc t = .run → s'.granted k = s.granted k + 1)) ∧
    (∃ s', next s (.tryP t k) = some s' ∧ (s'.granted k = s.granted k + 1 ↔ (s.granted k : Int) < init k + s.added k) ∧ s'.pc t = .run) := by
  have iv : Inv init s := h.inv (Inv init) (start_inv hi) fun s a s' p e => step_inv p e
  have nk := iv.num k
  have h1 := nk.count
  have h2 := nk.len
  constructor
  · simp only [next, if_pos ht, block, upd_same]
    split
    · refine ⟨_, rfl, ?_, ?_⟩
      · simp only [wait, upd_same]; constructor
        · intro h; cases h
        · intro h; omega
      · simp only [wait, upd_same]; intro h; cases h
    · refine ⟨_, rfl, ?_, ?_⟩
      · dsimp only; rw [ht]; simp; omega
      · simp only [upd_same]; intro; trivial
  · simp only [next, if_pos ht]
    split
    · refine ⟨_, rfl, ?_, ht⟩
      constructor <;> intro <;> omega
    · refine ⟨_, rfl, ?_, ht⟩
      simp only [upd_same, true_iff]; omega

/-- C34: `V` takes the first waiting thread, if there is one, out of the queue to unpark it; otherwise it leaves a permit. -/
theorem C34_V_releases_first_partial (init : Nat → Int) (hi : ∀ k, 0 ≤ init k) (s : State) (h : Reach nextProper (start init) s)
    (t k : Nat) (ht : s.pc t = .run) :
    ∃ s', next s (.V t k) = some s' ∧ s'.queue k = (s.queue k).tail ∧ s'.pc t = (match s.queue k with | [] => .run | u :: _ => .waking u) ∧
      (s.queue k = [] → (s'.granted k : Int) < init k + s'.added k) := by
  have iv : Inv init s := h.inv (Inv init) (start_inv hi) fun s a s' p e => step_inv p e
  have nk := iv.num k
  have h1 := nk.count
  have h2 := nk.len
  simp only [next, if_pos ht, vBody, upd_same]
  split
  · rename_i s' hs
    split at hs
    · rename_i hc
      simp only [pop] at hs
      cases hq : s.queue k with
      | nil => rw [hq] at h2; simp at h2; omega
      | cons u q => rw [hq] at hs; simp at hs
    · rename_i hc
      cases hs
      have : s.queue k = [] := List.eq_nil_of_length_eq_zero (by omega)
      refine ⟨_, rfl, by dsimp only; rw [this]; rfl, by dsimp only; rw [this]; exact ht, ?_⟩
      intro _
      simp only [upd_same]; rw [this] at h1; simp only [List.length_nil] at h1; omega
  · rename_i s' u hs
    split at hs
    · rename_i hc
      simp only [pop] at hs
      cases hq : s.queue k with
      | nil => rw [hq] at hs; simp at hs
      | cons v q =>
        rw [hq] at hs; simp only [Prod.mk.injEq, Option.some.injEq] at hs
        obtain ⟨rfl, rfl⟩ := hs
        exact ⟨_, rfl, by simp only [upd_same, List.tail_cons], by simp only [upd_same], by simp⟩
    · simp at hs

/-- C34: `V( sem, n )`, used when at most `n` threads wait and no permit is available, releases all of them and keeps the other permits. -/
theorem C34_Vn_releases_all_partial (init : Nat → Int) (hi : ∀ k, 0 ≤ init k) (s : State) (h : Reach nextProper (start init) s)
    (t k n : Nat) (ht : s.pc t = .run) (hp : Proper s (.Vn t k n)) :
    ∃ s', next s (.Vn t k n) = some s' ∧ s'.queue k = [] ∧ (∀ u ∈ s.queue k, s'.pc u = .run) ∧
      s'.granted k = s.granted k + min n (s.queue k).length := by
  have iv : Inv init s := h.inv (Inv init) (start_inv hi) fun s a s' p e => step_inv p e
  have h2 := (iv.num k).len
  obtain ⟨p1, p2, p3⟩ := hp
  simp only [next, if_pos ht]
  rw [release_eq p1 p2 p3]
  obtain ⟨g1, g2, g3, g4, g5, g6, g7, g8⟩ := popLoop_spec k n
    { s with count := upd s.count k (s.count k + n), added := upd s.added k (s.added k + n) }
  dsimp only at g4 g5 g7
  have hl : (s.queue k).length ≤ n := by omega
  refine ⟨_, rfl, ?_, ?_, ?_⟩
  · rw [g4, upd_same, List.drop_eq_nil_of_le hl]
  · intro u hu
    rw [g7, if_pos (by rw [List.take_of_length_le hl]; exact hu)]
  · rw [g5, upd_same]

/-- Three threads use a semaphore with one permit; two have to wait and are released in order, one by `V`, one by `V( sem, 2 )`. -/
example : ∃ s, Reach nextProper (start fun _ => 1) s ∧ s.granted 0 = 3 ∧ s.released 0 = [2, 3] ∧ s.queue 0 = [] :=
  ⟨_, Reach.of_exec (s' := ((exec nextProper (start fun _ => 1) [.P 1 0, .P 2 0, .P 3 0, .V 1 0, .unpark 1, .Vn 2 0 2]).getD (start fun _ => 1)))
    [.P 1 0, .P 2 0, .P 3 0, .V 1 0, .unpark 1, .Vn 2 0 2] rfl, by decide +kernel, by decide +kernel, by decide +kernel⟩

/-! ## Violations -/

/-- C34 fails for `V( sem, n )` when more than `n` threads wait: in every such reachable state it releases all of them, so that more
    permits are granted than there are. -/
theorem C34_Vn_too_many_violated (init : Nat → Int) (hi : ∀ k, 0 ≤ init k) (s : State) (h : Reach nextProper (start init) s)
    (t k n : Nat) (ht : s.pc t = .run) (hn : n < (s.queue k).length) (hs : (s.queue k).length < 2 ^ 64) :
    ∃ s', next s (.Vn t k n) = some s' ∧ (∀ u ∈ s.queue k, s'.pc u = .run) ∧ init k + s'.added k < s'.granted k := by
  have iv : Inv init s := h.inv (Inv init) (start_inv hi) fun s a s' p e => step_inv p e
  have h1 := (iv.num k).count
  have h2 := (iv.num k).len
  simp only [next, if_pos ht]
  have hr : release (s.count k) n = (s.queue k).length := by
    unfold release
    rw [Int.emod_eq_of_lt (by omega) (by omega)]
    omega
  rw [hr]
  obtain ⟨g1, g2, g3, g4, g5, g6, g7, g8⟩ := popLoop_spec k (s.queue k).length
    { s with count := upd s.count k (s.count k + n), added := upd s.added k (s.added k + n) }
  dsimp only at g5 g7 g2
  refine ⟨_, rfl, ?_, ?_⟩
  · intro u hu
    rw [g7, if_pos (by rw [List.take_length]; exact hu)]
  · rw [g5, g2, upd_same, upd_same]; omega

/-- Two threads wait for one permit, `V( sem, 1 )` releases both. -/
example : ∃ s, Reach nextProper (start fun _ => 0) s ∧ s.pc 3 = .run ∧ 1 < (s.queue 0).length :=
  ⟨_, Reach.of_exec (s' := ((exec nextProper (start fun _ => 0) [.P 1 0, .P 2 0]).getD (start fun _ => 0))) [.P 1 0, .P 2 0] rfl,
    by decide +kernel, by decide +kernel⟩

/-- C34 fails for `V( sem, n )` when permits are available: with a count `c > 0` the loop runs `2^64 - c` times on an empty queue. -/
theorem C34_Vn_positive_count_violated (c n : Nat) (hc : 0 < c) (h : c < 2 ^ 64) (hn : n ≤ 2 ^ 64 - c) : release c n = 2 ^ 64 - c := by
  unfold release
  have : (-(c : Int)) % 2 ^ 64 = 2 ^ 64 - c := by
    rw [Int.emod_eq_iff (by omega)]
    refine ⟨by omega, by omega, ?_⟩
    exact ⟨1, by omega⟩
  rw [this]; omega

/-- C34 fails for a negative initial count, which the constructor accepts: `P` by a thread and one `V` let it through although the
    count plus the number of `V` operations is 0. -/
theorem C34_negative_initial_count_violated :
    ∃ s, Reach nextProper (start fun _ => -1) s ∧ s.granted 0 = 1 ∧ (-1 : Int) + s.added 0 = 0 ∧ s.pc 1 = .run :=
  ⟨_, Reach.of_exec (s' := ((exec nextProper (start fun _ => -1) [.P 1 0, .V 2 0, .unpark 2]).getD (start fun _ => 0)))
    [.P 1 0, .V 2 0, .unpark 2] rfl, by decide +kernel, by decide +kernel, by decide +kernel⟩

/-- C34 fails for `P( a, b )` by one thread and `P( b, a )` by another: each can hold the spin lock of its first semaphore while it
    spins for the other's, and then neither can ever go on. -/
theorem C34_opposite_orders_deadlock_violated :
    ∃ s, Reach spinNext spinStart s ∧ s.pc false ≠ 4 ∧ s.pc true ≠ 4 ∧ ∀ x, spinNext s x = none :=
  ⟨_, Reach.of_exec (s' := ((exec spinNext spinStart [false, true]).getD spinStart)) [false, true] rfl, by decide +kernel, by decide +kernel,
    by decide +kernel⟩

/-- C34 fails for the queue inspection functions: in a debug build `front` aborts exactly when a thread is waiting, and reads a field of
    the list terminator when there is none; and `empty` is false for a semaphore with permits and no waiting thread. -/
theorem C34_front_empty_violated (shadow : Nat → Nat) (u : Nat) (q : List Nat) (c : Int) (hc : 0 < c) :
    front true shadow (u :: q) = .abort ∧ front true shadow [] = .undef ∧
    isEmpty (start fun _ => c) 0 = false ∧ (start fun _ => c).queue 0 = [] := by
  refine ⟨rfl, rfl, ?_, rfl⟩
  exact decide_eq_false (show ¬ c = 0 by omega)

end Verif.Semaphore
