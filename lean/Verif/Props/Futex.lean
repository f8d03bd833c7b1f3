import Verif.Model.Futex
import Verif.Proof.Heap
/-!
C36 and C37: mutual exclusion and no lost wake-up of the futex locks, for every schedule of any number of threads.
-/
namespace Verif.Futex
open Verif

/-- A thread that will set the lock word to 2 before it sleeps or takes the lock, or that is about to wake a sleeping thread. -/
def FHelper (s : State FPc) (t : Nat) : Prop := s.pc t = .exch ∨ s.pc t = .wake

structure FInv (s : State FPc) : Prop where
  free : s.val = 0 → ∀ t, s.pc t ≠ .has
  held : s.val ≠ 0 → ∃ t, s.pc t = .has
  one : ∀ t u, s.pc t = .has → s.pc u = .has → t = u
  val : s.val ≤ 2
  nd : s.sleepers.Nodup
  mem : ∀ t, t ∈ s.sleepers ↔ s.pc t = .asleep
  live : s.sleepers ≠ [] → s.val = 2 ∨ ∃ t, FHelper s t

theorem fstep {s s' : State FPc} {a : FAct} (iv : FInv s) (h : fnext s a = some s') : FInv s' := by
  obtain ⟨free, held, one, val, nd, mem, live⟩ := iv
  cases a with
  | lock t =>
    simp only [fnext] at h
    split at h <;> cases h
    constructor <;> simp only [upd, FHelper] at * <;> grind
  | go t =>
    simp only [fnext] at h
    split at h
    · split at h
      · cases h; constructor <;> simp only [upd, FHelper] at * <;> grind
      · split at h
        · cases h; constructor <;> simp only [upd, FHelper] at * <;> grind
        · split at h <;> cases h <;> constructor <;> simp only [upd, FHelper] at * <;> grind
    · cases h; constructor <;> simp only [upd, FHelper] at * <;> grind
    · split at h <;> cases h <;> constructor <;> simp only [upd, FHelper] at * <;> grind
    · cases h
  | unlock t =>
    simp only [fnext] at h
    split at h <;> cases h
    constructor <;> simp only [upd, FHelper] at * <;> grind
  | wake t i =>
    simp only [fnext] at h
    split at h
    · split at h
      · cases h; constructor <;> simp only [upd, FHelper] at * <;> grind
      · split at h
        · cases h
          have := List.mem_of_getElem? (by assumption)
          constructor <;> simp only [upd, FHelper] at * <;> grind [List.Nodup.mem_erase_iff]
        · cases h
    · cases h
  | spurious t =>
    simp only [fnext] at h
    split at h <;> cases h
    constructor <;> simp only [upd, FHelper] at * <;> grind [List.Nodup.mem_erase_iff]

theorem freach {s : State FPc} (h : Reach fnext fstart s) : FInv s :=
  h.inv FInv (by constructor <;> simp [fstart]) fun _ _ _ p e => fstep p e

/-- C36: at most one thread is past `lock` and not yet past the release in `unlock`. -/
theorem C36_exclusion (s : State FPc) (h : Reach fnext fstart s) (t u : Nat) (ht : s.pc t = .has) (hu : s.pc u = .has) : t = u :=
  (freach h).one t u ht hu

/-- C36: whenever a thread sleeps on the lock, then some thread has the lock and its `unlock` is going to wake a thread, or a thread is about
    to wake one, or an awake thread is about to try for the lock and to mark it as contended. -/
theorem C36_no_lost_wakeup (s : State FPc) (h : Reach fnext fstart s) (t : Nat) (ht : s.pc t = .asleep) :
    (∃ u, s.pc u = .has ∧ ∀ s', fnext s (.unlock u) = some s' → s'.pc u = .wake) ∨ (∃ u, s.pc u = .wake) ∨ ∃ u, s.pc u = .exch := by
  have iv := freach h
  have hm := (iv.mem t).2 ht
  rcases iv.live (fun e => by rw [e] at hm; simp at hm) with hv | ⟨u, hu | hu⟩
  · obtain ⟨u, hu⟩ := iv.held (by omega)
    refine Or.inl ⟨u, hu, fun s' e => ?_⟩
    simp only [fnext, if_pos hu, hv, Option.some.injEq] at e
    rw [← e]; simp [upd]
  · exact Or.inr (Or.inr ⟨u, hu⟩)
  · exact Or.inr (Or.inl ⟨u, hu⟩)

/-- C36: a state in which no thread can go on by itself with the lock free has no sleeping thread: if no thread is in the lock and
    every thread in `lock` or `unlock` is asleep, then no thread is. -/
theorem C36_no_deadlock (s : State FPc) (h : Reach fnext fstart s) (hs : ∀ t, s.pc t = .idle ∨ s.pc t = .asleep) (t : Nat) : s.pc t = .idle := by
  rcases hs t with e | e
  · exact e
  · rcases C36_no_lost_wakeup s h t e with ⟨u, hu, -⟩ | ⟨u, hu⟩ | ⟨u, hu⟩ <;> rcases hs u with h | h <;> rw [h] at hu <;> cases hu

/-- C36: FUTEX_WAKE wakes a sleeping thread if there is one, and a woken thread takes a free lock. -/
theorem C36_wake (s : State FPc) (h : Reach fnext fstart s) (t : Nat) (ht : s.pc t = .wake) (hn : s.sleepers ≠ []) :
    ∃ u s', s.pc u = .asleep ∧ fnext s (.wake t 0) = some s' ∧ s'.pc u = .exch ∧
      (s.val = 0 → ∃ s'', fnext s' (.go u) = some s'' ∧ s''.pc u = .has) := by
  have iv := freach h
  obtain ⟨u, l, hl⟩ : ∃ u l, s.sleepers = u :: l := by cases e : s.sleepers with
    | nil => exact absurd e hn
    | cons u l => exact ⟨u, l, rfl⟩
  have hu := (iv.mem u).1 (by rw [hl]; simp)
  refine ⟨u, { s with sleepers := s.sleepers.erase u, pc := upd (upd s.pc t .idle) u .exch }, hu, ?_, upd_same _ _ _, fun hv => ?_⟩
  · simp only [fnext, if_pos ht, if_neg hn]; rw [hl]; rfl
  · simp only [fnext, upd_same, hv]
    exact ⟨_, rfl, by simp [upd]⟩

/-- Threads 2 and 3 sleep, thread 1 unlocks and wakes thread 2, which takes the lock; thread 3 still sleeps, on a contended lock. -/
example : ∃ s, Reach fnext fstart s ∧ s.pc 2 = .has ∧ s.pc 3 = .asleep ∧ s.val = 2 :=
  let as := [.lock 1, .go 1, .lock 2] ++ List.replicate 10 (.go 2) ++ [.lock 3, .go 3, .go 3, .unlock 1, .wake 1 0, .go 2]
  ⟨_, Reach.of_exec (s' := ((exec fnext fstart as).getD fstart)) as rfl, by decide +kernel, by decide +kernel, by decide +kernel⟩

/-! ## go_mutex -/

/-- A thread that will set the lock word to 2 if it takes the lock, and before it sleeps, or that is about to wake a sleeping thread. -/
def GHelper (s : State GPc) (t : Nat) : Prop :=
  (∃ k, s.pc t = .test true k) ∨ (∃ k, s.pc t = .cas true k) ∨ s.pc t = .exch true ∨ s.pc t = .wake

structure GInv (s : State GPc) : Prop where
  free : s.val = 0 → ∀ t, s.pc t ≠ .has
  held : s.val ≠ 0 → ∃ t, s.pc t = .has
  one : ∀ t u, s.pc t = .has → s.pc u = .has → t = u
  val : s.val ≤ 2
  nd : s.sleepers.Nodup
  mem : ∀ t, t ∈ s.sleepers ↔ s.pc t = .asleep
  live : s.sleepers ≠ [] → s.val = 2 ∨ ∃ t, GHelper s t

theorem gstep {s s' : State GPc} {a : GAct} (iv : GInv s) (h : gnext s a = some s') : GInv s' := by
  obtain ⟨free, held, one, val, nd, mem, live⟩ := iv
  cases a with
  | lock t =>
    simp only [gnext] at h
    split at h <;> cases h
    constructor <;> simp only [upd, GHelper] at * <;> grind
  | go t =>
    simp only [gnext] at h
    split at h
    · cases h; constructor <;> simp only [upd, GHelper] at * <;> grind
    · split at h
      · cases h; constructor <;> simp only [upd, GHelper] at * <;> grind
      · split at h <;> cases h <;> constructor <;> simp only [upd, GHelper] at * <;> grind
    · split at h <;> cases h <;> constructor <;> simp only [upd, GHelper, lockVal] at * <;> grind
    · cases h; constructor <;> simp only [upd, GHelper] at * <;> grind
    · split at h <;> cases h <;> constructor <;> simp only [upd, GHelper] at * <;> grind
    · cases h
  | unlock t =>
    simp only [gnext] at h
    split at h <;> cases h
    constructor <;> simp only [upd, GHelper] at * <;> grind
  | wake t i =>
    simp only [gnext] at h
    split at h
    · split at h
      · cases h; constructor <;> simp only [upd, GHelper] at * <;> grind
      · split at h
        · cases h
          have := List.mem_of_getElem? (by assumption)
          rename_i u _
          refine ⟨?_, ?_, ?_, ?_, ?_, ?_, fun _ => Or.inr ⟨u, Or.inl ⟨4, upd_same _ _ _⟩⟩⟩ <;> simp only [upd] at * <;>
            grind [List.Nodup.mem_erase_iff]
        · cases h
    · cases h
  | spurious t =>
    simp only [gnext] at h
    split at h <;> cases h
    refine ⟨?_, ?_, ?_, ?_, ?_, ?_, fun _ => Or.inr ⟨t, Or.inl ⟨4, upd_same _ _ _⟩⟩⟩ <;> simp only [upd] at * <;>
      grind [List.Nodup.mem_erase_iff]

theorem greach {s : State GPc} (h : Reach gnext gstart s) : GInv s :=
  h.inv GInv (by constructor <;> simp [gstart]) fun _ _ _ p e => gstep p e

/-- C37: at most one thread is past `lock` and not yet past the release in `unlock`. -/
theorem C37_exclusion (s : State GPc) (h : Reach gnext gstart s) (t u : Nat) (ht : s.pc t = .has) (hu : s.pc u = .has) : t = u :=
  (greach h).one t u ht hu

/-- C37: whenever a thread sleeps on the lock, then some thread has the lock and its `unlock` is going to wake a thread, or a thread is about
    to wake one, or an awake thread in `lock` remembers that there are sleeping threads (it does not take the lock without marking it). -/
theorem C37_no_lost_wakeup (s : State GPc) (h : Reach gnext gstart s) (t : Nat) (ht : s.pc t = .asleep) :
    (∃ u, s.pc u = .has ∧ ∀ s', gnext s (.unlock u) = some s' → s'.pc u = .wake) ∨ (∃ u, s.pc u = .wake) ∨
    ∃ u, (∃ k, s.pc u = .test true k) ∨ (∃ k, s.pc u = .cas true k) ∨ s.pc u = .exch true := by
  have iv := greach h
  have hm := (iv.mem t).2 ht
  rcases iv.live (fun e => by rw [e] at hm; simp at hm) with hv | ⟨u, hu | hu | hu | hu⟩
  · obtain ⟨u, hu⟩ := iv.held (by omega)
    refine Or.inl ⟨u, hu, fun s' e => ?_⟩
    simp only [gnext, if_pos hu, hv, Option.some.injEq] at e
    rw [← e]; simp [upd]
  · exact Or.inr (Or.inr ⟨u, Or.inl hu⟩)
  · exact Or.inr (Or.inr ⟨u, Or.inr (Or.inl hu)⟩)
  · exact Or.inr (Or.inr ⟨u, Or.inr (Or.inr hu)⟩)
  · exact Or.inr (Or.inl ⟨u, hu⟩)

/-- C37: an awake thread that remembers sleeping threads marks the lock as contended when it takes it. -/
theorem C37_taker_marks (s s' : State GPc) (t : Nat)
    (ht : (∃ k, s.pc t = .test true k) ∨ (∃ k, s.pc t = .cas true k) ∨ s.pc t = .exch true) (hs : gnext s (.go t) = some s')
    (hh : s'.pc t = .has ∨ s'.pc t = .wait) : s'.val = 2 := by
  rcases ht with ⟨k, ht⟩ | ⟨k, ht⟩ | ht <;> simp only [gnext, ht] at hs
  · split at hs
    · cases hs; simp [upd] at hh
    · split at hs <;> cases hs <;> simp [upd] at hh
  · split at hs <;> cases hs
    · rfl
    · simp [upd] at hh
  · cases hs; rfl

/-- C37: if no thread is in the lock and every thread in `lock` or `unlock` is asleep, then no thread is asleep. -/
theorem C37_no_deadlock (s : State GPc) (h : Reach gnext gstart s) (hs : ∀ t, s.pc t = .idle ∨ s.pc t = .asleep) (t : Nat) : s.pc t = .idle := by
  rcases hs t with e | e
  · exact e
  · rcases C37_no_lost_wakeup s h t e with ⟨u, hu, -⟩ | ⟨u, hu⟩ | ⟨u, ⟨k, hu⟩ | ⟨k, hu⟩ | hu⟩ <;> rcases hs u with h | h <;> rw [h] at hu <;> cases hu

/-- Thread 2 sleeps; the speculative exchange of thread 3 erases the mark of the lock; thread 1 unlocks without waking; thread 3 takes the
    lock and restores the mark. -/
example : ∃ s, Reach gnext gstart s ∧ s.pc 2 = .asleep ∧ s.pc 3 = .has ∧ s.val = 2 :=
  let as := [.lock 1, .go 1, .lock 2] ++ List.replicate 8 (.go 2) ++ [.lock 3, .go 3, .unlock 1, .go 3, .go 3]
  ⟨_, Reach.of_exec (s' := ((exec gnext gstart as).getD gstart)) as rfl, by decide +kernel, by decide +kernel, by decide +kernel⟩

end Verif.Futex
