import Mathlib.Logic.Relation
import Mathlib.Data.List.Perm.Subperm
import Verif.Proof.MonitorOrder
/-!
C54: entering several monitors cannot deadlock. The threads, in any number and with any schedule, use mutex routines and mutex statements
on any sets of monitors, and inside of them further ones that name only monitors already entered or above those (`Ordered`).
-/
namespace Verif.Monitor
open Verif

/-- Thread `t` is queued for entry of monitor `m` and somebody else, `o`, owns it. -/
def WaitsFor (s : State) (t m o : Nat) : Prop :=
  ∃ i g gs, s.pc t = .epark i ∧ s.stk t = g :: gs ∧ g.mons[i]? = some m ∧ s.owner m = some o ∧ o ≠ t

/-- Monitors are acquired in the order of their addresses: a thread that is in the way waits, if at all, for a monitor further up. -/
theorem C54_order {s : State} (h : Reach nextE start s) {t o o' m m' : Nat} (h1 : WaitsFor s t m o) (h2 : WaitsFor s o m' o') : m < m' := by
  have e := InvE.reach h
  obtain ⟨i, g, gs, hp, hs, hm, ho, hne⟩ := h1
  obtain ⟨i', g', gs', hp', hs', hm', ho', hne'⟩ := h2
  have hno : s.owner m' ≠ some o := by rw [ho']; intro h; exact hne' (Option.some.inj h)
  rcases e.wait hp hs hm ho hne with h | ⟨h3, h4⟩
  · exact e.lt hp' hs' hm' hno h
  · have h5 : atP (s.pc o) (s.stk o) = some m' := by rw [hp', hs']; exact hm'
    rw [h3] at h5; cases h5
    exact (hno ho).elim

/-- There is no cyclic wait. -/
theorem C54_no_cycle {s : State} (h : Reach nextE start s) (t : Nat) :
    ¬ Relation.TransGen (fun t o => ∃ m, WaitsFor s t m o) t t := by
  have key : ∀ a b, Relation.TransGen (fun t o => ∃ m, WaitsFor s t m o) a b → ∃ m o, WaitsFor s a m o ∧
      ∀ m' o', WaitsFor s b m' o' → m < m' := by
    intro a b hab
    induction hab with
    | single h1 => obtain ⟨m, h1⟩ := h1; exact ⟨m, _, h1, fun m' o' h2 => C54_order h h1 h2⟩
    | tail _ h1 ih =>
      obtain ⟨m, o, h2, h3⟩ := ih
      obtain ⟨m1, h1⟩ := h1
      exact ⟨m, o, h2, fun m' o' h4 => Nat.lt_trans (h3 _ _ h1) (C54_order h h1 h4)⟩
  intro hc
  obtain ⟨m, o, h1, h2⟩ := key _ _ hc
  exact Nat.lt_irrefl _ (h2 m o h1)

/-- A thread that is queued, has not been woken and is not about to be, is queued at a monitor that somebody else owns. -/
theorem waits_of {s : State} (e : InvE s) {t i : Nat} (hp : s.pc t = .epark i) (hn : ¬pendP s.tok s.pc t) : ∃ m o, WaitsFor s t m o := by
  obtain ⟨m, hm⟩ := e.iv.eat t i hp
  have hmm := hm
  rw [hp] at hmm
  cases hs : s.stk t with
  | nil => rw [hs] at hmm; cases hmm
  | cons g gs =>
    rw [hs] at hmm
    rcases e.iv.eprog t m hm with h | h
    · cases ho : s.owner m with
      | none => have := (e.iv.busy m ho).1; rw [this] at h; cases h
      | some o =>
        refine ⟨m, o, i, g, gs, hp, hs, hmm, ho, ?_⟩
        rintro rfl
        exact (e.iv.en _ _ h).2.1 ho
    · exact (hn h).elim

/-- No deadlock: as long as some thread is in a mutex routine or statement, enters or leaves one, then some thread runs user code inside of
    one, or the operations of some thread make a step. -/
theorem C54_progress {s : State} (h : Reach nextE start s) :
    (∀ t, s.pc t = .run ∧ s.stk t = []) ∨ (∃ t, s.pc t = .run ∧ s.stk t ≠ []) ∨ ∃ t, (next s (.step t)).isSome = true := by
  have e := InvE.reach h
  by_cases h1 : ∃ t, s.pc t = .run ∧ s.stk t ≠ []
  · exact Or.inr (Or.inl h1)
  by_cases h2 : ∃ t, (next s (.step t)).isSome = true
  · exact Or.inr (Or.inr h2)
  left
  have hpark : ∀ t, s.pc t ≠ .run → (∃ i, s.pc t = .epark i) ∧ s.tok t = false := by
    intro t ht
    have hsh := e.shp t
    have hn : ¬ (next s (.step t)).isSome = true := fun h => h2 ⟨t, h⟩
    simp only [next, stepThread] at hn
    revert hn
    cases hp : s.pc t with
    | run => exact (ht hp).elim
    | enter i =>
      cases hs : s.stk t with
      | nil => rw [hp, hs] at hsh; exact hsh.elim
      | cons g gs => simp only; split <;> simp
    | epark i => simp only; split <;> simp_all
    | leave i =>
      cases hs : s.stk t with
      | nil => rw [hp, hs] at hsh; exact hsh.elim
      | cons g gs =>
        cases i with
        | zero => simp
        | succ i =>
          rw [hp, hs] at hsh
          simp only [List.getElem?_eq_getElem (show i < g.mons.length from hsh)]
          simp
    | lwake i u => simp
    | _ => cases hs : s.stk t <;> (rw [hp, hs] at hsh; exact hsh.elim)
  have hnp : ∀ t, s.pc t ≠ .run → ¬ pendP s.tok s.pc t := by
    rintro t ht (h | ⟨v, hv⟩)
    · rw [(hpark t ht).2] at h; cases h
    · by_cases hv' : s.pc v = .run
      · rw [hv'] at hv; cases hv
      · obtain ⟨i, hi⟩ := (hpark v hv').1
        rw [hi] at hv; cases hv
  have hall : ∀ t, s.pc t = .run := by
    by_contra hcon
    push Not at hcon
    obtain ⟨N, hN⟩ := e.fin
    -- a waiting thread whose monitor is as far up as possible
    have hw : ∀ t, s.pc t ≠ .run → ∃ m o, WaitsFor s t m o := by
      intro t ht
      obtain ⟨i, hi⟩ := (hpark t ht).1
      exact waits_of e hi (hnp t ht)
    have hnext : ∀ t m o, WaitsFor s t m o → s.pc o ≠ .run := by
      rintro t m o ⟨i, g, gs, hp, hs, hm, ho, hne⟩ hr
      rcases e.wait hp hs hm ho hne with h | ⟨h3, h4⟩
      · rw [hr, dep_run] at h
        apply h1
        refine ⟨o, hr, ?_⟩
        intro h5; rw [h5] at h; simp [below] at h
      · rw [hr] at h3; cases h3
    -- every chain of waiting threads goes on, with larger and larger monitors; there are fewer than `N` threads
    have hlong : ∀ n, ∃ ts : List Nat, ts.length = n + 1 ∧ (∀ t ∈ ts, s.pc t ≠ .run) ∧
        ts.Pairwise (fun o t => Relation.TransGen (fun t o => ∃ m, WaitsFor s t m o) t o) := by
      intro n
      induction n with
      | zero =>
        obtain ⟨t, ht⟩ := hcon
        exact ⟨[t], rfl, by simpa using ht, by simp⟩
      | succ n ih =>
        obtain ⟨ts, h3, h4, h5⟩ := ih
        cases ts with
        | nil => cases h3
        | cons t ts =>
          obtain ⟨m, o, hwt⟩ := hw t (h4 t (by simp))
          refine ⟨o :: t :: ts, by simp at h3 ⊢; exact h3, ?_, ?_⟩
          · intro u hu
            rcases List.mem_cons.1 hu with rfl | hu
            · exact hnext _ _ _ hwt
            · exact h4 u hu
          · rw [List.pairwise_cons]
            refine ⟨?_, h5⟩
            intro u hu
            rcases List.mem_cons.1 hu with rfl | hu
            · exact Relation.TransGen.single ⟨m, hwt⟩
            · exact Relation.TransGen.tail ((List.pairwise_cons.1 h5).1 u hu) ⟨m, hwt⟩
    obtain ⟨ts, h3, h4, h5⟩ := hlong N
    have hnd : ts.Nodup := h5.imp (fun {a b} hab => by rintro rfl; exact C54_no_cycle h _ hab)
    have hsub : ∀ t ∈ ts, t ∈ List.range N := by
      intro t ht
      rw [List.mem_range]
      by_contra hge
      exact h4 t ht (hN t (by omega)).1
    have := (List.Nodup.subperm hnd hsub).length_le
    rw [List.length_range] at this
    omega
  intro t
  refine ⟨hall t, ?_⟩
  by_contra hne
  exact h1 ⟨t, hall t, hne⟩

/-! A witness: two threads name the same monitors in different orders, one of them nested; thread 2 waits behind thread 1. -/

example : ∃ s, Reach nextE start s ∧ s.pc 0 = .run ∧ s.entry 2 = [1] ∧ s.owner 1 = some 0 ∧ s.owner 2 = some 0 ∧ s.owner 3 = some 0 ∧
    s.pc 1 = .epark 0 ∧ s.pc 2 = .epark 0 :=
  ⟨(exec nextE start [.call 0 [2, 1] 9, .step 0, .call 1 [3, 2] 9, .step 0, .step 0, .step 1, .call 2 [3, 1] 9, .stmt 0 [1, 3], .step 0,
      .step 0, .step 0, .step 2]).getD start,
    Reach.of_isSome _ (by decide +kernel), by decide +kernel, by decide +kernel, by decide +kernel, by decide +kernel, by decide +kernel,
    by decide +kernel, by decide +kernel⟩

/-- Two threads wait one behind the other: the hypotheses of `C54_order`. -/
example : ∃ s, Reach nextE start s ∧ WaitsFor s 2 2 1 ∧ WaitsFor s 1 3 0 :=
  ⟨(exec nextE start [.call 0 [3] 9, .step 0, .step 0, .call 1 [3, 2] 9, .step 1, .step 1, .stmt 2 [2], .step 2]).getD start,
    Reach.of_isSome _ (by decide +kernel),
    ⟨0, ⟨[2], none, ⟨[], none⟩, true⟩, [], by decide +kernel, rfl, rfl, by decide +kernel, by decide⟩,
    ⟨1, ⟨[2, 3], some 9, ⟨[], none⟩, false⟩, [], by decide +kernel, rfl, rfl, by decide +kernel, by decide⟩⟩

/-- The rule of use is needed: two threads that nest two statements in opposite orders sleep for ever. -/
example : ∃ s, exec nextP start [.stmt 0 [1], .step 0, .step 0, .stmt 1 [2], .step 1, .step 1, .stmt 0 [2], .step 0, .stmt 1 [1], .step 1]
      = some s ∧ WaitsFor s 0 2 1 ∧ WaitsFor s 1 1 0 :=
  ⟨_, (Option.some_get (by decide +kernel)).symm,
    ⟨0, ⟨[2], none, ⟨[], none⟩, true⟩, [⟨[1], none, ⟨[], none⟩, true⟩], by decide +kernel, rfl, rfl, by decide +kernel, by decide⟩,
    ⟨0, ⟨[1], none, ⟨[], none⟩, true⟩, [⟨[2], none, ⟨[], none⟩, true⟩], by decide +kernel, rfl, rfl, by decide +kernel, by decide⟩⟩

end Verif.Monitor
