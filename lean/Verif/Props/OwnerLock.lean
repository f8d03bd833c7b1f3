import Verif.Model.OwnerLock
import Verif.Proof.Heap
/-!
C35, C40 (owner locks) and C41 (condition variables), for every schedule of any number of threads.
-/
namespace Verif.OwnerLock
open Verif

/-- Correct use: only a thread that has the lock unlocks it, waits with it or notifies; a thread that has a single-acquisition lock does
    not lock it again. -/
def Proper (multi : Bool) (s : State) : Act → Prop
  | .lock t => multi = true ∨ s.depth t = 0
  | .unlock t => 0 < s.depth t
  | .wait t => 0 < s.depth t
  | .notifyOne t => 0 < s.depth t
  | .notifyAll t => 0 < s.depth t
  | _ => True

instance (multi : Bool) (s : State) (a : Act) : Decidable (Proper multi s a) := by cases a <;> simp only [Proper] <;> infer_instance

/-- The steps of executions with correct use. -/
def nextProper (multi : Bool) (s : State) (a : Act) : Option State := if Proper multi s a then next multi s a else none

/-- What holds for one thread. -/
def Loc (s : State) (u : Nat) : Prop :=
  match s.pc u with
  | .run => u ∉ s.queue ∧ u ∉ s.cond ∧ ((s.owner = u ∧ u ≠ 0 ∧ s.count = s.depth u ∧ 0 < s.depth u) ∨ ((s.owner ≠ u ∨ u = 0) ∧ s.depth u = 0))
  | .locking => u ∈ s.queue ∧ u ∉ s.cond ∧ s.depth u = 0 ∧ u ≠ 0 ∧ s.owner ≠ u
  | .preWait => u ∉ s.queue ∧ u ∈ s.cond ∧ s.owner = u ∧ u ≠ 0 ∧ s.count = s.depth u ∧ 0 < s.depth u
  | .waiting r => (u ∈ s.queue ↔ u ∉ s.cond) ∧ s.node u = true ∧ r = s.depth u ∧ 0 < r ∧ u ≠ 0 ∧ s.owner ≠ u
  | .waking r => u ∉ s.queue ∧ u ∉ s.cond ∧ s.owner = u ∧ u ≠ 0 ∧ r = s.depth u ∧ 0 < r

/-- A thread is in a wait. -/
def inWait : Pc → Bool
  | .preWait | .waiting _ | .waking _ => true
  | _ => false

/-- The bookkeeping of the waits of one thread. -/
structure Cnt (s : State) (u : Nat) : Prop where
  sig : s.waits u = s.signals u + (if u ∈ s.cond then 1 else 0)
  ret : s.signals u = s.returns u + (if inWait (s.pc u) = true ∧ u ∉ s.cond then 1 else 0)

structure Inv (s : State) : Prop where
  free : s.owner = 0 → s.queue = []
  nq : s.queue.Nodup
  nc : s.cond.Nodup
  loc : ∀ u, Loc s u
  wc : s.waitCount = s.queue.length
  fifo : s.arrived = s.served ++ s.queue
  ok : s.broken = false
  cnt : ∀ u, Cnt s u

theorem Loc.frame {s s' : State} {u : Nat} (h : Loc s u) (hp : s'.pc u = s.pc u) (hd : s'.depth u = s.depth u) (hn : s'.node u = s.node u)
    (hq : u ∈ s'.queue ↔ u ∈ s.queue) (hc : u ∈ s'.cond ↔ u ∈ s.cond) (ho : s'.owner = u ↔ s.owner = u)
    (hk : s.owner = u → u ≠ 0 → s'.count = s.count) : Loc s' u := by
  unfold Loc at h ⊢
  rw [hp]
  cases e : s.pc u with
  | run =>
    rw [e] at h
    simp only [hq, hc, hd, ne_eq, ho] at h ⊢
    obtain ⟨h1, h2, h3⟩ := h
    refine ⟨h1, h2, ?_⟩
    rcases h3 with ⟨a, b, c⟩ | h3
    · exact Or.inl ⟨a, b, by rw [hk a b]; exact c⟩
    · exact Or.inr h3
  | locking => rw [e] at h; simp only [hq, hc, hd, ne_eq, ho] at h ⊢; exact h
  | preWait =>
    rw [e] at h; simp only [hq, hc, hd, ho] at h ⊢
    obtain ⟨h1, h2, h3, h4, h5⟩ := h
    exact ⟨h1, h2, h3, h4, by rw [hk h3 h4]; exact h5⟩
  | waiting r => rw [e] at h; simp only [hq, hc, hd, hn, ne_eq, ho] at h ⊢; exact h
  | waking r => rw [e] at h; simp only [hq, hc, hd, ho] at h ⊢; exact h

theorem Loc.queue {s : State} {u : Nat} (h : Loc s u) (hu : u ∈ s.queue) :
    u ≠ 0 ∧ s.owner ≠ u ∧ u ∉ s.cond ∧ ((s.pc u = .locking ∧ s.depth u = 0) ∨ ∃ r, s.pc u = .waiting r ∧ r = s.depth u ∧ 0 < r) := by
  unfold Loc at h
  cases e : s.pc u with
  | run => rw [e] at h; exact absurd hu h.1
  | locking => rw [e] at h; exact ⟨h.2.2.2.1, h.2.2.2.2, h.2.1, Or.inl ⟨rfl, h.2.2.1⟩⟩
  | preWait => rw [e] at h; exact absurd hu h.1
  | waiting r => rw [e] at h; exact ⟨h.2.2.2.2.1, h.2.2.2.2.2, h.1.1 hu, Or.inr ⟨r, rfl, h.2.2.1, h.2.2.2.1⟩⟩
  | waking r => rw [e] at h; exact absurd hu h.1

/-- The state after the owner has given up the lock and before it is handed over: no thread has it. -/
structure Limbo (s : State) : Prop where
  nq : s.queue.Nodup
  nc : s.cond.Nodup
  loc : ∀ u, Loc { s with owner := 0 } u
  wc : s.waitCount = s.queue.length
  fifo : s.arrived = s.served ++ s.queue
  ok : s.broken = false
  cnt : ∀ u, Cnt s u

theorem popNode_nil {s : State} (hq : s.queue = []) : popNode s = { s with owner := 0, count := 0 } := by
  unfold popNode; rw [hq]

theorem popNode_locking {s : State} {u : Nat} {q : List Nat} (hq : s.queue = u :: q) (hp : s.pc u = .locking) :
    popNode s = { s with
      queue := q, waitCount := s.waitCount - 1, owner := u, count := 1, served := s.served ++ [u], pc := upd s.pc u .run,
      depth := upd s.depth u 1 } := by
  unfold popNode; rw [hq]; simp only [wake, hp]

theorem popNode_waiting {s : State} {u r : Nat} {q : List Nat} (hq : s.queue = u :: q) (hp : s.pc u = .waiting r) :
    popNode s = { s with
      queue := q, waitCount := s.waitCount - 1, owner := u, count := 1, served := s.served ++ [u], pc := upd s.pc u (.waking r) } := by
  unfold popNode; rw [hq]; simp only [wake, hp]

theorem popNode_inv {s : State} (h : Limbo s) : Inv (popNode s) := by
  cases hq : s.queue with
  | nil =>
    rw [popNode_nil hq]
    refine ⟨fun _ => hq, h.nq, h.nc, fun u => ?_, h.wc, h.fifo, h.ok, fun u => ⟨(h.cnt u).sig, (h.cnt u).ret⟩⟩
    exact (h.loc u).frame rfl rfl rfl Iff.rfl Iff.rfl Iff.rfl (fun e h0 => absurd e.symm h0)
  | cons u q =>
    have hlu := h.loc u
    obtain ⟨hu0, -, huc, hpc⟩ := hlu.queue (show u ∈ s.queue by rw [hq]; simp)
    dsimp only at huc hpc
    have nq := h.nq
    rw [hq, List.nodup_cons] at nq
    have wc := h.wc
    rw [hq, List.length_cons] at wc
    have ff := h.fifo
    rw [hq] at ff
    have mq : ∀ x, x ≠ u → (x ∈ q ↔ x ∈ s.queue) := fun x hx => by rw [hq]; simp [hx]
    -- thread 0 does nothing
    have h00 : s.pc 0 = .run := by
      have := h.loc 0
      unfold Loc at this
      dsimp only at this
      cases e0 : s.pc 0 <;> rw [e0] at this <;> simp_all
    have ho : ∀ x, x ≠ u → x ≠ 0 → (u = x ↔ 0 = x) := fun x hx h0 => ⟨fun e => absurd e.symm hx, fun e => absurd e.symm h0⟩
    have l0 : ∀ {s' : State}, s'.pc 0 = .run → s'.queue = q → s'.cond = s.cond → s'.depth 0 = s.depth 0 → Loc s' 0 := by
      intro s' e1 e2 e3 e4
      have := h.loc 0
      unfold Loc at this ⊢
      rw [h00] at this; rw [e1]
      dsimp only at this ⊢
      rw [e2, e3, e4, mq 0 (fun e => hu0 e.symm)]
      exact ⟨this.1, this.2.1, Or.inr ⟨Or.inr rfl, by rcases this.2.2 with h | h; exact absurd rfl h.2.1; exact h.2⟩⟩
    rcases hpc with ⟨hp, hd⟩ | ⟨r, hp, hr, h0⟩
    · rw [popNode_locking hq hp]
      refine ⟨fun e => absurd e hu0, nq.2, h.nc, fun x => ?_, by dsimp only; omega, by dsimp only; rw [ff]; simp, h.ok, fun x => ?_⟩
      · by_cases hx : x = u
        · subst hx
          unfold Loc; simp only [upd_same]
          exact ⟨nq.1, huc, Or.inl ⟨trivial, hu0, trivial, by decide⟩⟩
        · by_cases hx0 : x = 0
          · subst hx0
            exact l0 (by dsimp only; rw [upd_ne _ _ hx]; exact h00) rfl rfl (upd_ne _ _ hx)
          · exact (h.loc x).frame (upd_ne _ _ hx) (upd_ne _ _ hx) rfl (mq x hx) Iff.rfl (ho x hx hx0) (fun e h0 => absurd e.symm h0)
      · refine ⟨(h.cnt x).sig, ?_⟩
        have := (h.cnt x).ret
        by_cases hx : x = u
        · subst hx; rw [hp] at this; simp only [upd_same]; simpa [inWait] using this
        · simp only [upd_ne _ _ hx]; exact this
    · rw [popNode_waiting hq hp]
      refine ⟨fun e => absurd e hu0, nq.2, h.nc, fun x => ?_, by dsimp only; omega, by dsimp only; rw [ff]; simp, h.ok, fun x => ?_⟩
      · by_cases hx : x = u
        · subst hx
          unfold Loc; simp only [upd_same]
          exact ⟨nq.1, huc, trivial, hu0, hr, h0⟩
        · by_cases hx0 : x = 0
          · subst hx0
            exact l0 (by dsimp only; rw [upd_ne _ _ hx]; exact h00) rfl rfl rfl
          · exact (h.loc x).frame (upd_ne _ _ hx) rfl rfl (mq x hx) Iff.rfl (ho x hx hx0) (fun e h0 => absurd e.symm h0)
      · refine ⟨(h.cnt x).sig, ?_⟩
        have := (h.cnt x).ret
        by_cases hx : x = u
        · subst hx; rw [hp] at this; simp only [upd_same]; simpa [inWait] using this
        · simp only [upd_ne _ _ hx]; exact this

theorem Loc.zero {s : State} (h : Loc s 0) : s.pc 0 = .run ∧ s.depth 0 = 0 ∧ 0 ∉ s.queue ∧ 0 ∉ s.cond := by
  unfold Loc at h
  cases e : s.pc 0 <;> rw [e] at h <;> simp_all

/-- Like `Loc.frame`, for a change of the owner that does not concern the thread. -/
theorem Loc.frame' {s s' : State} {u : Nat} (h : Loc s u) (hp : s'.pc u = s.pc u) (hd : s'.depth u = s.depth u) (hn : s'.node u = s.node u)
    (hq : u ∈ s'.queue ↔ u ∈ s.queue) (hc : u ∈ s'.cond ↔ u ∈ s.cond) (ho : u ≠ 0 → (s'.owner = u ↔ s.owner = u))
    (hk : s.owner = u → u ≠ 0 → s'.count = s.count) : Loc s' u := by
  by_cases h0 : u = 0
  · subst h0
    obtain ⟨z1, z2, z3, z4⟩ := h.zero
    unfold Loc
    rw [hp, z1, hq, hc, hd]
    exact ⟨z3, z4, Or.inr ⟨Or.inr rfl, z2⟩⟩
  · exact h.frame hp hd hn hq hc (ho h0) hk

theorem onNotify_held {s : State} {u : Nat} (ho : s.owner ≠ 0) (hn : s.node u = true) :
    onNotify s u = { s with queue := s.queue ++ [u], waitCount := s.waitCount + 1, arrived := s.arrived ++ [u] } := by
  unfold onNotify; rw [if_pos ho, if_pos hn]

theorem onNotify_free {s : State} {u r : Nat} (ho : s.owner = 0) (hp : s.pc u = .waiting r) :
    onNotify s u = { s with owner := u, count := 1, pc := upd s.pc u (.waking r) } := by
  unfold onNotify; rw [if_neg (by simpa using ho)]; simp only [wake, hp]

/-- The effect of notifying a thread that is parked in a wait: it gets a free lock, or else its place at the end of the queue. -/
theorem notify_inv {s : State} (iv : Inv s) {u r : Nat} (hu : u ∈ s.cond) (hp : s.pc u = .waiting r) (b : Bool) :
    Inv (onNotify { s with cond := s.cond.erase u, signalled := upd s.signalled u b, signals := upd s.signals u (s.signals u + 1) } u) := by
  have hl := iv.loc u
  unfold Loc at hl
  rw [hp] at hl
  obtain ⟨h1, h2, h3, h4, h5, h6⟩ := hl
  have huq : u ∉ s.queue := fun e => h1.1 e hu
  have hue : u ∉ s.cond.erase u := by rw [iv.nc.mem_erase_iff]; simp
  have hce : ∀ x, x ≠ u → (x ∈ s.cond.erase u ↔ x ∈ s.cond) := fun x hx => by rw [iv.nc.mem_erase_iff]; simp [hx]
  have cu := iv.cnt u
  have c1 := cu.sig
  have c2 := cu.ret
  rw [if_pos hu] at c1
  rw [if_neg (by simp [hu])] at c2
  by_cases ho : s.owner = 0
  · have hq0 := iv.free ho
    rw [onNotify_free (r := r) (by exact ho) (by exact hp)]
    refine ⟨fun e => absurd e h5, iv.nq, iv.nc.erase _, fun x => ?_, iv.wc, iv.fifo, iv.ok, fun x => ?_⟩
    · by_cases hx : x = u
      · subst hx
        unfold Loc; simp only [upd_same]
        exact ⟨huq, hue, trivial, h5, h3, h4⟩
      · exact (iv.loc x).frame' (upd_ne _ _ hx) rfl rfl Iff.rfl (hce x hx)
          (fun h0 => ⟨fun e => absurd e.symm hx, fun e => absurd (e.symm.trans ho) h0⟩) (fun e h0 => absurd (e.symm.trans ho) h0)
    · by_cases hx : x = u
      · subst hx
        refine ⟨?_, ?_⟩
        · simp only [upd_same, if_neg hue]; omega
        · simp only [upd_same, inWait]
          rw [if_pos ⟨trivial, hue⟩]; omega
      · refine ⟨?_, ?_⟩
        · simp only [upd_ne _ _ hx, hce x hx]; exact (iv.cnt x).sig
        · simp only [upd_ne _ _ hx, hce x hx]; exact (iv.cnt x).ret
  · rw [onNotify_held (by exact ho) (by exact h2)]
    refine ⟨fun e => absurd e ho, ?_, iv.nc.erase _, fun x => ?_, ?_, ?_, iv.ok, fun x => ?_⟩
    · exact List.nodup_append.2 ⟨iv.nq, by simp, fun a ha b hb e => huq (by simp only [List.mem_singleton] at hb; rw [← hb, ← e]; exact ha)⟩
    · by_cases hx : x = u
      · subst hx
        unfold Loc; simp only [hp]
        exact ⟨by simp [hue], h2, h3, h4, h5, h6⟩
      · exact (iv.loc x).frame rfl rfl rfl (by simp [hx]) (hce x hx) Iff.rfl (fun _ _ => rfl)
    · simp only [List.length_append, List.length_singleton]; rw [iv.wc]
    · simp only; rw [iv.fifo]; simp
    · by_cases hx : x = u
      · subst hx
        refine ⟨?_, ?_⟩
        · simp only [upd_same, if_neg hue]; omega
        · simp only [upd_same, hp, inWait]
          rw [if_pos ⟨trivial, hue⟩]; omega
      · refine ⟨?_, ?_⟩
        · simp only [upd_ne _ _ hx, hce x hx]; exact (iv.cnt x).sig
        · simp only [hce x hx]; rw [upd_ne _ _ hx]; exact (iv.cnt x).ret

/-- A thread on the list of the condition variable is parked, unless it is the owner. -/
theorem Loc.cond {s : State} {u : Nat} (h : Loc s u) (hu : u ∈ s.cond) (ho : s.owner ≠ u ∨ s.pc u = .run) : ∃ r, s.pc u = .waiting r := by
  unfold Loc at h
  cases e : s.pc u with
  | run => rw [e] at h; exact absurd hu h.2.1
  | locking => rw [e] at h; exact absurd hu h.2.1
  | preWait => rw [e] at h; rcases ho with ho | ho; exact absurd h.2.2.1 ho; rw [ho] at e; cases e
  | waiting r => exact ⟨r, rfl⟩
  | waking r => rw [e] at h; exact absurd hu h.2.1

theorem Loc.has {s : State} {t : Nat} (h : Loc s t) (hr : s.pc t = .run) (hd : 0 < s.depth t) : s.owner = t ∧ t ≠ 0 ∧ s.count = s.depth t := by
  unfold Loc at h
  rw [hr] at h
  rcases h.2.2 with h | h
  · exact ⟨h.1, h.2.1, h.2.2.1⟩
  · omega

theorem popCond_inv {s : State} (iv : Inv s) {t : Nat} (hr : s.pc t = .run) (ho : s.owner = t) (h0 : t ≠ 0) :
    Inv (popCond s) ∧ (popCond s).pc = s.pc ∧ (popCond s).owner = s.owner ∧ (popCond s).cond = s.cond.tail ∧
    (popCond s).queue = s.queue ++ s.cond.head?.toList ∧ (popCond s).depth = s.depth ∧
    (popCond s).signalled = (match s.cond with | [] => s.signalled | u :: _ => upd s.signalled u true) := by
  cases hc : s.cond with
  | nil => simp [popCond, hc, iv]
  | cons u c =>
    have hu : u ∈ s.cond := by rw [hc]; simp
    have hut : s.owner ≠ u ∨ s.pc u = .run := by
      by_cases e : t = u
      · right; rw [← e]; exact hr
      · left; rw [ho]; exact e
    obtain ⟨r, hp⟩ := (iv.loc u).cond hu hut
    have hn : s.node u = true := by have := iv.loc u; unfold Loc at this; rw [hp] at this; exact this.2.1
    have e : popCond s = onNotify { s with
        cond := s.cond.erase u, signalled := upd s.signalled u true, signals := upd s.signals u (s.signals u + 1) } u := by
      unfold popCond; rw [hc]; simp only [List.erase_cons_head]
    refine ⟨by rw [e]; exact notify_inv iv hu hp true, ?_⟩
    rw [e, onNotify_held (by dsimp only; rw [ho]; exact h0) (by exact hn)]
    simp [hc]

theorem popAll_inv {t : Nat} (h0 : t ≠ 0) (n : Nat) : ∀ {s : State}, Inv s → s.pc t = .run → s.owner = t → n = s.cond.length →
    Inv (popAll s n) ∧ (popAll s n).pc = s.pc ∧ (popAll s n).owner = s.owner ∧ (popAll s n).cond = [] ∧
    (popAll s n).queue = s.queue ++ s.cond ∧ (popAll s n).depth = s.depth ∧
    (∀ u, (popAll s n).signalled u = if u ∈ s.cond then true else s.signalled u) := by
  induction n with
  | zero =>
    intro s iv hr ho hn
    have : s.cond = [] := List.eq_nil_of_length_eq_zero hn.symm
    simp [popAll, this, iv]
  | succ n ih =>
    intro s iv hr ho hn
    obtain ⟨p1, p2, p3, p4, p5, p6, p7⟩ := popCond_inv iv hr ho h0
    obtain ⟨q1, q2, q3, q4, q5, q6, q7⟩ := ih p1 (by rw [p2]; exact hr) (by rw [p3]; exact ho) (by rw [p4]; simp; omega)
    simp only [popAll]
    refine ⟨q1, by rw [q2, p2], by rw [q3, p3], q4, ?_, by rw [q6, p6], ?_⟩
    · rw [q5, p4, p5]
      cases s.cond <;> simp
    · intro u
      rw [q7, p4, p7]
      cases hc : s.cond with
      | nil => simp
      | cons v c =>
        simp only [List.tail_cons, List.mem_cons, upd]
        by_cases e : u = v <;> simp [e]

theorem step_inv {multi : Bool} {s s' : State} {a : Act} (iv : Inv s) (h : nextProper multi s a = some s') : Inv s' := by
  unfold nextProper at h
  split at h
  case isFalse => cases h
  rename_i hp
  cases a with
  | lock t =>
    simp only [next] at h
    split at h
    case isFalse => cases h
    rename_i ht
    obtain ⟨hr, h0⟩ := ht
    have hl := iv.loc t
    unfold Loc at hl
    rw [hr] at hl
    obtain ⟨hq, hc, hd⟩ := hl
    split at h
    · rename_i ho
      cases h
      have hd0 : s.depth t = 0 := by rcases hd with h | h; exact absurd h.1 ho.2; exact h.2
      refine ⟨fun e => absurd e ho.1, ?_, iv.nc, fun x => ?_, ?_, ?_, iv.ok, fun x => ?_⟩
      · exact List.nodup_append.2 ⟨iv.nq, by simp, fun a ha b hb e => hq (by simp only [List.mem_singleton] at hb; rw [← hb, ← e]; exact ha)⟩
      · by_cases hx : x = t
        · subst hx
          unfold Loc; simp only [upd_same]
          exact ⟨by simp, hc, hd0, h0, ho.2⟩
        · exact (iv.loc x).frame (upd_ne _ _ hx) rfl rfl (by simp [hx]) Iff.rfl Iff.rfl (fun _ _ => rfl)
      · simp only [List.length_append, List.length_singleton]; rw [iv.wc]
      · simp only; rw [iv.fifo]; simp
      · refine ⟨(iv.cnt x).sig, ?_⟩
        have := (iv.cnt x).ret
        by_cases hx : x = t
        · subst hx; rw [hr] at this; simp only [upd_same]; simpa [inWait] using this
        · simp only [upd_ne _ _ hx]; exact this
    · rename_i ho
      split at h
      · rename_i hm
        cases h
        have hd1 := hd.resolve_right (fun e => by rcases e.1 with e | e; exact e hm.1; exact h0 e)
        refine ⟨iv.free, iv.nq, iv.nc, fun x => ?_, iv.wc, iv.fifo, iv.ok, fun x => ⟨(iv.cnt x).sig, (iv.cnt x).ret⟩⟩
        by_cases hx : x = t
        · subst hx
          unfold Loc; simp only [upd_same, hr]
          exact ⟨hq, hc, Or.inl ⟨hm.1, h0, by omega, by omega⟩⟩
        · exact (iv.loc x).frame rfl (upd_ne _ _ hx) rfl Iff.rfl Iff.rfl Iff.rfl
            (fun e _ => absurd (e.symm.trans hm.1) hx)
      · rename_i hm
        cases h
        have ho0 : s.owner = 0 := by
          refine Decidable.byContradiction fun e => ho ⟨e, fun e' => ?_⟩
          rcases hp with hp | hp
          · exact hm ⟨e', hp⟩
          · rcases hd with h | h
            · omega
            · rcases h.1 with h | h; exact h e'; exact h0 h
        have hd0 : s.depth t = 0 := by rcases hd with h | h; exact absurd (h.1.symm.trans ho0) h0; exact h.2
        have hq0 := iv.free ho0
        refine ⟨fun e => absurd e h0, iv.nq, iv.nc, fun x => ?_, iv.wc, iv.fifo, iv.ok, fun x => ⟨(iv.cnt x).sig, (iv.cnt x).ret⟩⟩
        by_cases hx : x = t
        · subst hx
          unfold Loc; simp only [upd_same, hr]
          exact ⟨hq, hc, Or.inl ⟨trivial, h0, by omega, by omega⟩⟩
        · exact (iv.loc x).frame' rfl (upd_ne _ _ hx) rfl Iff.rfl Iff.rfl
            (fun hx0 => ⟨fun e => absurd e.symm hx, fun e => absurd (e.symm.trans ho0) hx0⟩) (fun e hx0 => absurd (e.symm.trans ho0) hx0)
  | tryLock t =>
    simp only [next] at h
    split at h
    case isFalse => cases h
    rename_i ht
    obtain ⟨hr, h0⟩ := ht
    have hl := iv.loc t
    unfold Loc at hl
    rw [hr] at hl
    obtain ⟨hq, hc, hd⟩ := hl
    split at h
    · rename_i ho0
      cases h
      have hd0 : s.depth t = 0 := by rcases hd with h | h; exact absurd (h.1.symm.trans ho0) h0; exact h.2
      refine ⟨fun e => absurd e h0, iv.nq, iv.nc, fun x => ?_, iv.wc, iv.fifo, iv.ok, fun x => ⟨(iv.cnt x).sig, (iv.cnt x).ret⟩⟩
      by_cases hx : x = t
      · subst hx
        unfold Loc; simp only [upd_same, hr]
        exact ⟨hq, hc, Or.inl ⟨trivial, h0, by omega, by omega⟩⟩
      · exact (iv.loc x).frame' rfl (upd_ne _ _ hx) rfl Iff.rfl Iff.rfl
          (fun hx0 => ⟨fun e => absurd e.symm hx, fun e => absurd (e.symm.trans ho0) hx0⟩) (fun e hx0 => absurd (e.symm.trans ho0) hx0)
    · split at h
      · rename_i hm
        cases h
        have hd1 := hd.resolve_right (fun e => by rcases e.1 with e | e; exact e hm.1; exact h0 e)
        refine ⟨iv.free, iv.nq, iv.nc, fun x => ?_, iv.wc, iv.fifo, iv.ok, fun x => ⟨(iv.cnt x).sig, (iv.cnt x).ret⟩⟩
        by_cases hx : x = t
        · subst hx
          unfold Loc; simp only [upd_same, hr]
          exact ⟨hq, hc, Or.inl ⟨hm.1, h0, by omega, by omega⟩⟩
        · exact (iv.loc x).frame rfl (upd_ne _ _ hx) rfl Iff.rfl Iff.rfl Iff.rfl
            (fun e _ => absurd (e.symm.trans hm.1) hx)
      · cases h; exact iv
  | unlock t =>
    simp only [next] at h
    split at h
    case isFalse => cases h
    rename_i ht
    obtain ⟨hr, h0⟩ := ht
    obtain ⟨ho, -, hk⟩ := (iv.loc t).has hr hp
    have hd : 0 < s.depth t := hp
    have hl := iv.loc t
    unfold Loc at hl
    rw [hr] at hl
    obtain ⟨hq, hc, -⟩ := hl
    cases h
    by_cases hz : s.count - 1 = 0
    · rw [if_pos hz]
      apply popNode_inv
      refine ⟨iv.nq, iv.nc, fun x => ?_, iv.wc, iv.fifo, iv.ok, fun x => ⟨(iv.cnt x).sig, (iv.cnt x).ret⟩⟩
      by_cases hx : x = t
      · subst hx
        unfold Loc; simp only [upd_same, hr]
        exact ⟨hq, hc, Or.inr ⟨Or.inl (fun e => h0 e.symm), by omega⟩⟩
      · refine (iv.loc x).frame' rfl (upd_ne _ _ hx) rfl Iff.rfl Iff.rfl ?_ ?_
        · exact fun hx0 => ⟨fun e => absurd e.symm hx0, fun e => absurd (e.symm.trans ho) hx⟩
        · exact fun e _ => absurd (e.symm.trans ho) hx
    · rw [if_neg hz]
      refine ⟨iv.free, iv.nq, iv.nc, fun x => ?_, iv.wc, iv.fifo, iv.ok, fun x => ⟨(iv.cnt x).sig, (iv.cnt x).ret⟩⟩
      by_cases hx : x = t
      · subst hx
        unfold Loc; simp only [upd_same, hr]
        exact ⟨hq, hc, Or.inl ⟨ho, h0, by omega, by omega⟩⟩
      · exact (iv.loc x).frame rfl (upd_ne _ _ hx) rfl Iff.rfl Iff.rfl Iff.rfl (fun e _ => absurd (e.symm.trans ho) hx)
  | wait t =>
    simp only [next] at h
    split at h
    case isFalse => cases h
    rename_i ht
    obtain ⟨hr, h0⟩ := ht
    obtain ⟨ho, -, hk⟩ := (iv.loc t).has hr hp
    have hd : 0 < s.depth t := hp
    have hl := iv.loc t
    unfold Loc at hl
    rw [hr] at hl
    obtain ⟨hq, hc, -⟩ := hl
    cases h
    have cu := iv.cnt t
    have c1 := cu.sig
    have c2 := cu.ret
    rw [if_neg hc] at c1
    rw [hr, if_neg (by simp [inWait])] at c2
    refine ⟨iv.free, iv.nq, ?_, fun x => ?_, iv.wc, iv.fifo, iv.ok, fun x => ?_⟩
    · exact List.nodup_append.2 ⟨iv.nc, by simp, fun a ha b hb e => hc (by simp only [List.mem_singleton] at hb; rw [← hb, ← e]; exact ha)⟩
    · by_cases hx : x = t
      · subst hx
        unfold Loc; simp only [upd_same]
        exact ⟨hq, by simp, ho, h0, hk, hd⟩
      · exact (iv.loc x).frame (upd_ne _ _ hx) rfl (upd_ne _ _ hx) Iff.rfl (by simp [hx]) Iff.rfl (fun _ _ => rfl)
    · by_cases hx : x = t
      · subst hx
        refine ⟨?_, ?_⟩
        · simp only [upd_same]; rw [if_pos (by simp)]; omega
        · simp only [upd_same]; rw [if_neg (by simp)]; omega
      · refine ⟨?_, ?_⟩
        · simp only [upd_ne _ _ hx, List.mem_append, List.mem_singleton, hx, or_false]; exact (iv.cnt x).sig
        · simp only [upd_ne _ _ hx, List.mem_append, List.mem_singleton, hx, or_false]; exact (iv.cnt x).ret
  | onWait t =>
    simp only [next] at h
    split at h
    case isFalse => cases h
    rename_i hr
    cases h
    have hl := iv.loc t
    unfold Loc at hl
    rw [hr] at hl
    obtain ⟨hq, hc, ho, h0, hk, hd⟩ := hl
    have e : ({ popNode s with node := upd (popNode s).node t true, pc := upd (popNode s).pc t (.waiting s.count) } : State) =
        popNode { s with node := upd s.node t true, pc := upd s.pc t (.waiting s.count) } := by
      obtain hqq | ⟨u, q, hqq⟩ : s.queue = [] ∨ ∃ u q, s.queue = u :: q := by cases s.queue <;> simp
      · rw [popNode_nil hqq, popNode_nil (by exact hqq)]
      · have hut : u ≠ t := fun e => hq (by rw [hqq, e]; simp)
        have hc : ∀ (f : Nat → Pc) a b, upd (upd f u a) t b = upd (upd f t b) u a := by
          intro f a b; funext x; simp only [upd]
          by_cases h1 : x = t
          · subst h1; rw [if_pos rfl, if_neg (fun e => hut e.symm), if_pos rfl]
          · rw [if_neg h1, if_neg h1]
        obtain ⟨-, -, -, hpc⟩ := (iv.loc u).queue (show u ∈ s.queue by rw [hqq]; simp)
        rcases hpc with ⟨hp, -⟩ | ⟨r, hp, -⟩
        · rw [popNode_locking hqq hp, popNode_locking (u := u) (q := q) (by exact hqq) (by dsimp only; rw [upd_ne _ _ hut]; exact hp)]
          simp only [hc]
        · rw [popNode_waiting hqq hp, popNode_waiting (u := u) (q := q) (r := r) (by exact hqq) (by dsimp only; rw [upd_ne _ _ hut]; exact hp)]
          simp only [hc]
    rw [e]
    apply popNode_inv
    refine ⟨iv.nq, iv.nc, fun x => ?_, iv.wc, iv.fifo, iv.ok, fun x => ⟨(iv.cnt x).sig, ?_⟩⟩
    · by_cases hx : x = t
      · subst hx
        unfold Loc; simp only [upd_same]
        exact ⟨by simp [hq, hc], trivial, hk, by omega, h0, fun e => h0 e.symm⟩
      · refine (iv.loc x).frame' (upd_ne _ _ hx) rfl (upd_ne _ _ hx) Iff.rfl Iff.rfl ?_ ?_
        · exact fun hx0 => ⟨fun e => absurd e.symm hx0, fun e => absurd (e.symm.trans ho) hx⟩
        · exact fun e _ => absurd (e.symm.trans ho) hx
    · have := (iv.cnt x).ret
      by_cases hx : x = t
      · subst hx; rw [hr] at this; simp only [upd_same]; simpa [inWait] using this
      · simp only [upd_ne _ _ hx]; exact this
  | wakeup t =>
    simp only [next] at h
    split at h
    case h_2 => cases h
    rename_i r hr
    cases h
    have hl := iv.loc t
    unfold Loc at hl
    rw [hr] at hl
    obtain ⟨hq, hc, ho, h0, hk, hd⟩ := hl
    have c2 := (iv.cnt t).ret
    rw [hr, if_pos ⟨by rfl, hc⟩] at c2
    refine ⟨iv.free, iv.nq, iv.nc, fun x => ?_, iv.wc, iv.fifo, iv.ok, fun x => ?_⟩
    · by_cases hx : x = t
      · subst hx
        unfold Loc; simp only [upd_same]
        exact ⟨hq, hc, Or.inl ⟨ho, h0, hk, by omega⟩⟩
      · exact (iv.loc x).frame (upd_ne _ _ hx) rfl rfl Iff.rfl Iff.rfl Iff.rfl (fun e _ => absurd (e.symm.trans ho) hx)
    · refine ⟨(iv.cnt x).sig, ?_⟩
      by_cases hx : x = t
      · subst hx; simp only [upd_same]; rw [if_neg (by simp [inWait])]; omega
      · simp only [upd_ne _ _ hx]; exact (iv.cnt x).ret
  | notifyOne t =>
    simp only [next] at h
    split at h
    case isFalse => cases h
    rename_i ht
    obtain ⟨hr, h0⟩ := ht
    obtain ⟨ho, -, hk⟩ := (iv.loc t).has hr hp
    cases h
    exact (popCond_inv iv hr ho h0).1
  | notifyAll t =>
    simp only [next] at h
    split at h
    case isFalse => cases h
    rename_i ht
    obtain ⟨hr, h0⟩ := ht
    obtain ⟨ho, -, hk⟩ := (iv.loc t).has hr hp
    cases h
    exact (popAll_inv h0 _ iv hr ho rfl).1
  | timeout t =>
    simp only [next] at h
    split at h
    case h_2 => cases h
    rename_i r hr
    split at h
    · rename_i hc
      cases h
      exact notify_inv iv hc hr false
    · cases h; exact iv

theorem start_inv : Inv start where
  free := fun _ => rfl
  nq := by simp [start]
  nc := by simp [start]
  loc := fun u => by
    unfold Loc; simp only [start]
    refine ⟨by simp, by simp, Or.inr ⟨?_, trivial⟩⟩
    by_cases h : u = 0
    · exact Or.inr h
    · exact Or.inl fun e => h e.symm
  wc := rfl
  fifo := rfl
  ok := rfl
  cnt := fun u => ⟨by simp [start], by simp [start, inWait]⟩

theorem reach_inv {multi : Bool} {s : State} (h : Reach (nextProper multi) start s) : Inv s :=
  h.inv Inv start_inv fun _ _ _ p e => step_inv p e

/-! ## Theorems -/

/-- A thread has the lock: it has locked it more often than it has unlocked it, and it is not inside of an operation. -/
def Has (s : State) (t : Nat) : Prop := s.pc t = .run ∧ 0 < s.depth t

instance (s : State) (t : Nat) : Decidable (Has s t) := by unfold Has; infer_instance

theorem Has.owner {s : State} (iv : Inv s) {t : Nat} (h : Has s t) : s.owner = t ∧ t ≠ 0 ∧ s.count = s.depth t := by
  have hl := iv.loc t
  unfold Loc at hl
  rw [h.1] at hl
  rcases hl.2.2 with ⟨a, b, c, _⟩ | ⟨_, b⟩
  · exact ⟨a, b, c⟩
  · have := h.2; omega

/-- C35, C40: in every execution at most one thread has the lock. -/
theorem C35_exclusion (multi : Bool) (s : State) (h : Reach (nextProper multi) start s) (t u : Nat) (ht : Has s t) (hu : Has s u) : t = u := by
  have iv := reach_inv h
  rw [← (ht.owner iv).1, ← (hu.owner iv).1]

/-- C35, C40: the lock is taken in the order of arrival: the threads that had to queue up are served in that order, the remaining ones
    are exactly the queue, and each thread is in it at most once. -/
theorem C35_fifo (multi : Bool) (s : State) (h : Reach (nextProper multi) start s) :
    s.arrived = s.served ++ s.queue ∧ s.queue.Nodup ∧ s.waitCount = s.queue.length :=
  ⟨(reach_inv h).fifo, (reach_inv h).nq, (reach_inv h).wc⟩

/-- C35, C40: no thread is forgotten: while a thread is parked in `lock`, it is in the queue, and the lock belongs to some thread that has
    it, or is just about to give it up in a wait, or has just been handed it in a wait and is not parked. -/
theorem C35_no_waiter_forgotten (multi : Bool) (s : State) (h : Reach (nextProper multi) start s) (t : Nat) (ht : s.pc t = .locking) :
    t ∈ s.queue ∧ ∃ o, o ≠ t ∧ s.owner = o ∧ (Has s o ∨ s.pc o = .preWait ∨ ∃ r, s.pc o = .waking r) := by
  have iv := reach_inv h
  have hl := iv.loc t
  unfold Loc at hl
  rw [ht] at hl
  refine ⟨hl.1, s.owner, hl.2.2.2.2, rfl, ?_⟩
  have ho : s.owner ≠ 0 := fun e => by have := iv.free e; rw [this] at hl; exact absurd hl.1 (by simp)
  have lo := iv.loc s.owner
  unfold Loc at lo
  cases e : s.pc s.owner with
  | run => rw [e] at lo; rcases lo.2.2 with h | h; exact Or.inl ⟨e, h.2.2.2⟩; exact absurd rfl (h.1.resolve_right ho)
  | locking => rw [e] at lo; exact absurd rfl lo.2.2.2.2
  | preWait => exact Or.inr (Or.inl rfl)
  | waiting r => rw [e] at lo; exact absurd rfl lo.2.2.2.2.2
  | waking r => exact Or.inr (Or.inr ⟨r, rfl⟩)

/-- C35, C40: an unlock that does not undo the first lock leaves the lock with its holder. -/
theorem C35_unlock_recursive (multi : Bool) (s : State) (h : Reach (nextProper multi) start s) (t : Nat) (ht : Has s t) (hd : 1 < s.depth t) :
    ∃ s', next multi s (.unlock t) = some s' ∧ Has s' t ∧ s'.depth t = s.depth t - 1 ∧ s'.queue = s.queue := by
  have iv := reach_inv h
  obtain ⟨a, b, c⟩ := ht.owner iv
  simp only [next, if_pos (And.intro ht.1 b)]
  refine ⟨_, rfl, ?_⟩
  rw [if_neg (by omega)]
  dsimp only
  simp only [upd_same]
  exact ⟨⟨ht.1, by simp only [upd_same]; omega⟩, trivial, trivial⟩

/-- C35, C40: the unlock that undoes the first lock hands the lock to the thread that has waited longest: it goes on, with the lock; if no
    thread waits, the lock is free. -/
theorem C35_unlock_hands_over (multi : Bool) (s : State) (h : Reach (nextProper multi) start s) (t : Nat) (ht : Has s t) (hd : s.depth t = 1) :
    ∃ s', next multi s (.unlock t) = some s' ∧ s'.depth t = 0 ∧
      match s.queue with
      | [] => s'.owner = 0 ∧ s'.queue = []
      | u :: q => s'.owner = u ∧ s'.queue = q ∧ ((s.pc u = .locking ∧ Has s' u) ∨ ∃ r, s.pc u = .waiting r ∧ s'.pc u = .waking r) := by
  have iv := reach_inv h
  obtain ⟨a, b, c⟩ := ht.owner iv
  simp only [next, if_pos (And.intro ht.1 b)]
  refine ⟨_, rfl, ?_⟩
  rw [if_pos (by omega)]
  obtain hqq | ⟨u, q, hqq⟩ : s.queue = [] ∨ ∃ u q, s.queue = u :: q := by cases s.queue <;> simp
  · rw [popNode_nil (by exact hqq), hqq]
    dsimp only
    simp only [upd_same]
    exact ⟨by omega, trivial, trivial⟩
  · obtain ⟨h0, hne, -, hpc⟩ := (iv.loc u).queue (show u ∈ s.queue by rw [hqq]; simp)
    have hut : t ≠ u := by rw [← a]; exact hne
    rcases hpc with ⟨hp, -⟩ | ⟨r, hp, -⟩
    · rw [popNode_locking (u := u) (q := q) (by exact hqq) (by exact hp), hqq]
      dsimp only
      simp only [upd_same, upd_ne _ _ hut]
      exact ⟨by omega, trivial, trivial, Or.inl ⟨hp, upd_same _ _ _, by simp only [upd_same]; omega⟩⟩
    · rw [popNode_waiting (u := u) (q := q) (r := r) (by exact hqq) (by exact hp), hqq]
      dsimp only
      simp only [upd_same]
      exact ⟨by omega, trivial, trivial, Or.inr ⟨r, hp, rfl⟩⟩

/-- C35, C40: `lock` returns at once exactly when the lock is free or (for an owner lock) already belongs to the caller; otherwise the
    caller is parked at the end of the queue. -/
theorem C35_lock (multi : Bool) (s : State) (h : Reach (nextProper multi) start s) (t : Nat) (h0 : t ≠ 0) (hr : s.pc t = .run)
    (hp : multi = true ∨ s.depth t = 0) :
    ∃ s', next multi s (.lock t) = some s' ∧
      ((s.owner = 0 ∨ Has s t) → Has s' t ∧ s'.depth t = s.depth t + 1 ∧ s'.queue = s.queue) ∧
      (¬ (s.owner = 0 ∨ Has s t) → s'.pc t = .locking ∧ s'.queue = s.queue ++ [t] ∧ s'.owner = s.owner) := by
  have iv := reach_inv h
  have hl := iv.loc t
  unfold Loc at hl
  rw [hr] at hl
  simp only [next, if_pos (And.intro hr h0)]
  by_cases hw : s.owner ≠ 0 ∧ s.owner ≠ t
  · rw [if_pos hw]
    refine ⟨_, rfl, ?_, ?_⟩
    · rintro (e | e)
      · exact absurd e hw.1
      · exact absurd (e.owner iv).1 hw.2
    · intro _
      exact ⟨upd_same _ _ _, rfl, rfl⟩
  · rw [if_neg hw]
    by_cases ho : s.owner = t ∧ multi = true
    · rw [if_pos ho]
      refine ⟨_, rfl, fun _ => ⟨⟨hr, ?_⟩, upd_same _ _ _, rfl⟩, fun e => ?_⟩
      · simp only [upd_same]; omega
      · rcases hl.2.2 with hh | hh
        · exact absurd (Or.inr ⟨hr, hh.2.2.2⟩) e
        · exact absurd ho.1 (hh.1.resolve_right h0)
    · rw [if_neg ho]
      refine ⟨_, rfl, fun _ => ⟨⟨hr, ?_⟩, upd_same _ _ _, rfl⟩, fun e => ?_⟩
      · simp only [upd_same]; omega
      · refine absurd (Or.inl ?_) e
        by_cases h1 : s.owner = 0
        · exact h1
        · exfalso
          have h2 : s.owner = t := by
            by_cases h2 : s.owner = t
            · exact h2
            · exact absurd ⟨h1, h2⟩ hw
          rcases hl.2.2 with hh | hh
          · rcases hp with hp | hp
            · exact ho ⟨h2, hp⟩
            · omega
          · exact absurd h2 (hh.1.resolve_right h0)

/-- C35: `try_lock` never blocks, and takes the lock exactly when it is free or (owner lock) the caller has it. -/
theorem C35_try_lock (multi : Bool) (s : State) (h : Reach (nextProper multi) start s) (t : Nat) (h0 : t ≠ 0) (hr : s.pc t = .run) :
    ∃ s', next multi s (.tryLock t) = some s' ∧ s'.pc t = .run ∧
      s'.depth t = s.depth t + (if s.owner = 0 ∨ (Has s t ∧ multi = true) then 1 else 0) := by
  have iv := reach_inv h
  have hl := iv.loc t
  unfold Loc at hl
  rw [hr] at hl
  have hh : s.owner = t ↔ Has s t := by
    constructor
    · intro e
      rcases hl.2.2 with hh | hh
      · exact ⟨hr, hh.2.2.2⟩
      · exact absurd e (hh.1.resolve_right h0)
    · exact fun e => (e.owner iv).1
  simp only [next, if_pos (And.intro hr h0)]
  by_cases ho : s.owner = 0
  · rw [if_pos ho, if_pos (Or.inl ho)]
    exact ⟨_, rfl, hr, upd_same _ _ _⟩
  · rw [if_neg ho]
    by_cases hm : s.owner = t ∧ multi = true
    · rw [if_pos hm, if_pos (Or.inr ⟨hh.1 hm.1, hm.2⟩)]
      exact ⟨_, rfl, hr, upd_same _ _ _⟩
    · rw [if_neg hm, if_neg (by rintro (e | e); exact ho e; exact hm ⟨hh.2 e.1, e.2⟩)]
      exact ⟨_, rfl, hr, rfl⟩

/-- C40: the recursion count that the lock keeps for its holder is the number of its outstanding locks, also after a wait and a hand-off. -/
theorem C40_recursion_count (s : State) (h : Reach (nextProper true) start s) (t : Nat) (ht : Has s t) : s.owner = t ∧ s.count = s.depth t :=
  ⟨(ht.owner (reach_inv h)).1, (ht.owner (reach_inv h)).2.2⟩

/-- C41: a wait returns only after a signal (notification or time-out) that came after its beginning: when a thread is about to return
    from a wait, it has been signalled as often as it has waited, and has returned from all its previous waits; and it has the lock. -/
theorem C41_returns_after_signal (multi : Bool) (s : State) (h : Reach (nextProper multi) start s) (t : Nat) (s' : State)
    (hs : next multi s (.wakeup t) = some s') :
    s.signals t = s.waits t ∧ s.signals t = s.returns t + 1 ∧ s'.returns t = s'.waits t ∧ Has s' t ∧ s'.owner = t ∧ s'.count = s'.depth t ∧
      s'.depth t = s.depth t := by
  have iv := reach_inv h
  simp only [next] at hs
  split at hs
  case h_2 => cases hs
  rename_i r hr
  cases hs
  have hl := iv.loc t
  unfold Loc at hl
  rw [hr] at hl
  obtain ⟨hq, hc, ho, h0, hk, hd⟩ := hl
  have c1 := (iv.cnt t).sig
  have c2 := (iv.cnt t).ret
  rw [if_neg hc] at c1
  rw [hr, if_pos ⟨by rfl, hc⟩] at c2
  dsimp only
  simp only [upd_same]
  exact ⟨by omega, by omega, by omega, ⟨upd_same _ _ _, by dsimp only; omega⟩, ho, hk, trivial⟩

/-- C41: a thread that waits and has not been signalled since is on the list of the condition variable, and every thread on it is in a wait. -/
theorem C41_unsignalled_iff_listed (multi : Bool) (s : State) (h : Reach (nextProper multi) start s) (t : Nat) :
    (t ∈ s.cond ↔ s.signals t < s.waits t) ∧ (t ∈ s.cond → inWait (s.pc t) = true) ∧ s.cond.Nodup := by
  have iv := reach_inv h
  have c1 := (iv.cnt t).sig
  have hl := iv.loc t
  refine ⟨⟨fun e => by rw [if_pos e] at c1; omega, fun e => ?_⟩, fun e => ?_, iv.nc⟩
  · by_cases hc : t ∈ s.cond
    · exact hc
    · rw [if_neg hc] at c1; omega
  · unfold Loc at hl
    cases hp : s.pc t with
    | run => rw [hp] at hl; exact absurd e hl.2.1
    | locking => rw [hp] at hl; exact absurd e hl.2.1
    | preWait => rfl
    | waiting r => rfl
    | waking r => rfl

/-- C41: a thread signalled by a notification or by its time-out while the lock is taken is in the queue of the lock, so that it gets
    the lock in its turn. -/
theorem C41_signalled_gets_lock (multi : Bool) (s : State) (h : Reach (nextProper multi) start s) (t r : Nat) (ht : s.pc t = .waiting r)
    (hs : s.signals t = s.waits t) : t ∈ s.queue := by
  have iv := reach_inv h
  have hl := iv.loc t
  unfold Loc at hl
  rw [ht] at hl
  refine hl.1.2 fun e => ?_
  have := ((C41_unsignalled_iff_listed multi s h t).1).1 e
  omega

/-- The lock belongs to a thread with a list of parked threads: what notifying them does to the lists. -/
theorem cond_node {s : State} (iv : Inv s) {t u : Nat} (ht : Has s t) (hu : u ∈ s.cond) : s.node u = true := by
  have ho := ht.owner iv
  have hl := iv.loc u
  unfold Loc at hl
  cases hp : s.pc u with
  | run => rw [hp] at hl; exact absurd hu hl.2.1
  | locking => rw [hp] at hl; exact absurd hu hl.2.1
  | preWait =>
    rw [hp] at hl
    have : t = u := by rw [← ho.1, hl.2.2.1]
    subst this
    have := ht.1
    rw [hp] at this; cases this
  | waiting r => rw [hp] at hl; exact hl.2.1
  | waking r => rw [hp] at hl; exact absurd hu hl.2.1

theorem popCond_cons {s : State} {u : Nat} {c : List Nat} (hc : s.cond = u :: c) (ho : s.owner ≠ 0) (hn : s.node u = true) :
    popCond s = { s with
      cond := c, signalled := upd s.signalled u true, signals := upd s.signals u (s.signals u + 1), queue := s.queue ++ [u],
      waitCount := s.waitCount + 1, arrived := s.arrived ++ [u] } := by
  unfold popCond; rw [hc]; dsimp only
  rw [onNotify_held (by exact ho) (by exact hn)]

/-- C41: `notify_one` signals the thread that has waited longest, and no other; it goes to the end of the queue of the lock. -/
theorem C41_notify_one (multi : Bool) (s : State) (h : Reach (nextProper multi) start s) (t : Nat) (ht : Has s t) :
    ∃ s', next multi s (.notifyOne t) = some s' ∧
      match s.cond with
      | [] => s' = s
      | u :: c => s'.cond = c ∧ s'.queue = s.queue ++ [u] ∧ s'.signals u = s.signals u + 1 ∧ (∀ v, v ≠ u → s'.signals v = s.signals v) := by
  have iv := reach_inv h
  have ho := ht.owner iv
  simp only [next, if_pos (And.intro ht.1 ho.2.1)]
  refine ⟨_, rfl, ?_⟩
  obtain hc | ⟨u, c, hc⟩ : s.cond = [] ∨ ∃ u c, s.cond = u :: c := by cases s.cond <;> simp
  · rw [hc]; dsimp only; unfold popCond; rw [hc]
  · rw [popCond_cons hc (by rw [ho.1]; exact ho.2.1) (cond_node iv ht (by rw [hc]; simp)), hc]
    exact ⟨rfl, rfl, upd_same _ _ _, fun v hv => upd_ne _ _ hv⟩

theorem popAll_lists : ∀ (n : Nat) (s : State), s.cond.length = n → s.owner ≠ 0 → s.cond.Nodup → (∀ u ∈ s.cond, s.node u = true) →
    (popAll s n).cond = [] ∧ (popAll s n).queue = s.queue ++ s.cond ∧
    ∀ u, (popAll s n).signals u = s.signals u + (if u ∈ s.cond then 1 else 0)
  | 0, s, hn, _, _, _ => by
    have := List.length_eq_zero_iff.1 hn
    simp [popAll, this]
  | n + 1, s, hn, ho, hnd, hno => by
    obtain hc | ⟨u, c, hc⟩ : s.cond = [] ∨ ∃ u c, s.cond = u :: c := by cases s.cond <;> simp
    · rw [hc] at hn; cases hn
    · have hlen : c.length = n := by rw [hc] at hn; simpa using hn
      rw [hc] at hnd
      have nd := List.nodup_cons.1 hnd
      have e := popCond_cons hc ho (hno u (by rw [hc]; simp))
      obtain ⟨a, b, d⟩ := popAll_lists n (popCond s) (by rw [e]; exact hlen) (by rw [e]; exact ho) (by rw [e]; exact nd.2)
        (by rw [e]; exact fun v hv => hno v (by rw [hc]; exact List.mem_cons_of_mem _ hv))
      refine ⟨a, ?_, fun v => ?_⟩
      · show (popAll (popCond s) n).queue = _
        rw [b, e, hc]; simp
      · show (popAll (popCond s) n).signals v = _
        rw [d v, e, hc]; dsimp only
        by_cases hv : v = u
        · subst hv; rw [if_neg nd.1, upd_same]; simp
        · rw [upd_ne _ _ hv]; simp [hv]

/-- C41: `notify_all` signals each waiting thread once, and moves them in their order to the end of the queue of the lock. -/
theorem C41_notify_all (multi : Bool) (s : State) (h : Reach (nextProper multi) start s) (t : Nat) (ht : Has s t) :
    ∃ s', next multi s (.notifyAll t) = some s' ∧ s'.cond = [] ∧ s'.queue = s.queue ++ s.cond ∧
      ∀ u, s'.signals u = s.signals u + (if u ∈ s.cond then 1 else 0) := by
  have iv := reach_inv h
  have ho := ht.owner iv
  simp only [next, if_pos (And.intro ht.1 ho.2.1)]
  refine ⟨_, rfl, ?_⟩
  exact popAll_lists _ s rfl (by rw [ho.1]; exact ho.2.1) iv.nc fun u hu => cond_node iv ht hu

/-- C41: a wait gives up the lock whatever its recursion depth and parks the thread: the thread that has waited longest for the lock gets
    it, and the lock is free if there is none. -/
theorem C41_wait_releases (multi : Bool) (s : State) (h : Reach (nextProper multi) start s) (t : Nat) (ht : s.pc t = .preWait) :
    ∃ s', next multi s (.onWait t) = some s' ∧ s'.pc t = .waiting (s.depth t) ∧ s'.owner = s.queue.headD 0 ∧ s'.queue = s.queue.tail := by
  have iv := reach_inv h
  have hl := iv.loc t
  unfold Loc at hl
  rw [ht] at hl
  obtain ⟨hq, hc, ho, h0, hk, hd⟩ := hl
  simp only [next, if_pos ht]
  refine ⟨_, rfl, by dsimp only; rw [upd_same, hk], ?_⟩
  obtain hqq | ⟨u, q, hqq⟩ : s.queue = [] ∨ ∃ u q, s.queue = u :: q := by cases s.queue <;> simp
  · rw [popNode_nil hqq, hqq]; exact ⟨rfl, rfl⟩
  · obtain ⟨-, -, -, hpc⟩ := (iv.loc u).queue (show u ∈ s.queue by rw [hqq]; simp)
    rcases hpc with ⟨hp, -⟩ | ⟨r, hp, -⟩
    · rw [popNode_locking hqq hp, hqq]; exact ⟨rfl, rfl⟩
    · rw [popNode_waiting hqq hp, hqq]; exact ⟨rfl, rfl⟩

/-- C35, C40, C41: no uninitialised list node is ever used. -/
theorem C41_nodes_initialised (multi : Bool) (s : State) (h : Reach (nextProper multi) start s) : s.broken = false := (reach_inv h).ok

/-- Thread 1 locks twice and waits; threads 2 and 3 queue up; thread 2 notifies and unlocks; thread 3 unlocks; thread 1 has the lock again. -/
def demo : List Act := [.lock 1, .lock 1, .lock 2, .lock 3, .wait 1, .onWait 1, .notifyOne 2, .unlock 2, .unlock 3, .wakeup 1]

example : ∃ s, Reach (nextProper true) start s ∧ s.pc 1 = .run ∧ s.depth 1 = 2 ∧ s.count = 2 ∧ s.served = [2, 3, 1] ∧ s.returns 1 = 1 :=
  ⟨_, Reach.of_exec (s' := ((exec (nextProper true) start demo).getD start)) demo rfl, by decide +kernel, by decide +kernel, by decide +kernel,
    by decide +kernel, by decide +kernel⟩

/-- Two threads wait at the condition variable of a single-acquisition lock that a third thread has. -/
example : ∃ s, Reach (nextProper false) start s ∧ s.cond = [1, 2] ∧ s.pc 3 = .run ∧ s.depth 3 = 1 :=
  ⟨_, Reach.of_exec (s' := ((exec (nextProper false) start [.lock 1, .wait 1, .onWait 1, .lock 2, .wait 2, .onWait 2, .lock 3]).getD start))
    [.lock 1, .wait 1, .onWait 1, .lock 2, .wait 2, .onWait 2, .lock 3] rfl, by decide +kernel, by decide +kernel, by decide +kernel⟩

/-! ## Violations -/

/-- C41 fails when a thread notifies without having the lock, which the interface allows: between a thread's joining the list and its
    `on_wait`, a notification puts its uninitialised list node into the queue of the lock. -/
theorem C41_notify_without_lock_violated (multi : Bool) : ∃ s, Reach (next multi) start s ∧ s.broken = true := by
  cases multi
  · exact ⟨_, Reach.of_exec (s' := ((exec (next false) start [.lock 1, .wait 1, .notifyOne 2]).getD start)) [.lock 1, .wait 1, .notifyOne 2] rfl,
      by decide +kernel⟩
  · exact ⟨_, Reach.of_exec (s' := ((exec (next true) start [.lock 1, .wait 1, .notifyOne 2]).getD start)) [.lock 1, .wait 1, .notifyOne 2] rfl,
      by decide +kernel⟩

/-- C35 fails for a single-acquisition lock that its holder locks again, in a build without debugging checks: the second `lock` returns at
    once, and after one of the two unlocks another thread gets the lock while the first one still has it. -/
theorem C35_relock_violated (s : State) (h : Reach (nextProper false) start s) (t : Nat) (ht : Has s t) :
    ∃ s', next false s (.lock t) = some s' ∧ Has s' t ∧ s'.depth t = s.depth t + 1 ∧ s'.count = 1 := by
  have iv := reach_inv h
  have ho := ht.owner iv
  simp only [next, if_pos (And.intro ht.1 ho.2.1)]
  rw [if_neg (by rintro ⟨_, e⟩; exact e ho.1), if_neg (by simp)]
  refine ⟨_, rfl, ⟨ht.1, ?_⟩, upd_same _ _ _, rfl⟩
  simp only [upd_same]; omega

theorem C35_relock_no_exclusion_violated : ∃ s, Reach (next false) start s ∧ Has s 1 ∧ Has s 2 :=
  ⟨_, Reach.of_exec (s' := ((exec (next false) start [.lock 1, .lock 1, .unlock 1, .lock 2]).getD start)) [.lock 1, .lock 1, .unlock 1, .lock 2] rfl,
    ⟨by decide +kernel, by decide +kernel⟩, ⟨by decide +kernel, by decide +kernel⟩⟩

end Verif.OwnerLock
