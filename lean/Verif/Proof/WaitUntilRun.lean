import Verif.Proof.WaitUntil
/-! Lemmas for C81 and C82: the execution of a statement. -/
namespace Verif.WaitUntil
open Verif

/-- A clause that has been made available, has been counted, and has not been executed. -/
def due (st : Nat → St) (inc : Nat → Bool) (j : Nat) : Bool := st j == .sat && !inc j

def cnt (f : Nat → Bool) : Nat → Int
  | 0 => 0
  | k + 1 => cnt f k + if f k then 1 else 0

theorem cnt_nonneg (f : Nat → Bool) (k : Nat) : 0 ≤ cnt f k := by
  induction k with
  | zero => simp [cnt]
  | succ k ih => simp only [cnt]; split <;> omega

theorem cnt_le {f f' : Nat → Bool} (h : ∀ j, f' j = true → f j = true) (k : Nat) : cnt f' k ≤ cnt f k := by
  induction k with
  | zero => simp [cnt]
  | succ k ih =>
    have := h k
    simp only [cnt]
    split <;> split <;> first | omega | simp_all

theorem cnt_one {f f' : Nat → Bool} {i : Nat} (h : ∀ j, j ≠ i → f' j = true → f j = true) (k : Nat) : cnt f' k ≤ cnt f k + 1 := by
  have lt : ∀ k, k ≤ i → cnt f' k ≤ cnt f k := by
    intro k
    induction k with
    | zero => intro _; simp [cnt]
    | succ k ih =>
      intro hk
      have := ih (by omega)
      have h' := h k (by omega)
      simp only [cnt]
      split <;> split <;> first | omega | simp_all
  induction k with
  | zero => simp [cnt]
  | succ k ih =>
    by_cases hk : k = i
    · subst hk
      have := lt k (Nat.le_refl _)
      simp only [cnt]
      cases f' k <;> cases f k <;> simp <;> omega
    · have h' := h k hk
      simp only [cnt]
      split <;> split <;> first | omega | simp_all

theorem cnt_zero {f : Nat → Bool} {k : Nat} (h : cnt f k ≤ 0) {i : Nat} (hi : i < k) : f i = false := by
  induction k with
  | zero => omega
  | succ k ih =>
    simp only [cnt] at h
    have := cnt_nonneg f k
    cases hf : f k with
    | true => simp [hf] at h; omega
    | false =>
      by_cases hk : i = k
      · rw [hk]; exact hf
      · exact ih (by simpa [hf] using h) (by omega)

theorem cnt_mono (f : Nat → Bool) (k : Nat) : cnt f k ≤ cnt f (k + 1) := by simp only [cnt]; split <;> omega

/-- The counter, at each point of the program. -/
def Count (t : Tree) (s : State) : Prop :=
  match s.pc with
  | .reg _ => s.token = false ∧ cnt (due s.st s.inc) t.leaves ≤ s.counter
  | .test => s.token = false ∧ 0 ≤ s.counter ∧ (runSat s.st t 0 = true ∨ cnt (due s.st s.inc) t.leaves ≤ s.counter)
  | .park => (s.token = false ∧ s.counter = -1 ∧ cnt (due s.st s.inc) t.leaves = 0) ∨ (s.token = true ∧ 0 ≤ s.counter)
  | .scan i => s.token = false ∧ cnt (due s.st s.inc) (min i t.leaves) ≤ s.counter
  | .unreg i => s.token = false ∧ cnt (due s.st s.inc) (min (i + 1) t.leaves) ≤ s.counter
  | .fin _ | .done => s.token = false ∧ 0 ≤ s.counter

/-- Where clause `i` may have been executed late. -/
def Passed : Pc → Nat → Prop
  | .fin k, i => i < k
  | .done, _ => True
  | _, _ => False

/-- Where the predicate holds. -/
def Over : Pc → Prop
  | .fin _ | .done => True
  | _ => False

structure Inv (t : Tree) (g : Nat → Bool) (res : Nat → Res) (s : State) : Prop where
  count : Count t s
  run : ∀ i, s.st i = .run ↔ i ∈ s.ran ∨ initial t g i = .run
  reg : ∀ i, s.reg i = true → t.enabled g 0 i = true
  sat : ∀ i, s.st i = .sat → t.enabled g 0 i = true
  ran : ∀ i ∈ s.ran, t.enabled g 0 i = true
  nodup : s.ran.Nodup
  /-- each clause was executed before the condition was met -/
  need : ∀ a i b, s.ran = a ++ i :: b → runSat (over (fun j => decide (j ∈ a)) (initial t g)) t 0 = false
  late : s.late.Nodup ∧ ∀ i ∈ s.late, s.st i = .sat ∧ Passed s.pc i ∧ (res i).keeps = true
  kept : ∀ i, i < t.leaves → Passed s.pc i → (res i).keeps = true → s.st i = .sat → i ∈ s.late
  fin : Over s.pc → runSat s.st t 0 = true
  /-- for resources that wait in `unregister_select$` -/
  sync : (∀ i, (res i).sync = true) → ∀ i, s.inc i = true → s.reg i = true
  busy : ∀ i, s.reg i = true → s.st i = .run → s.pc = .unreg i
  left : ∀ i, i < t.leaves → Passed s.pc i → s.reg i = false
  inc : ∀ i, s.inc i = true → s.st i ≠ .unsat
  early : ∀ k, s.pc = .reg k → s.ran = []
  idle : s.pc = .park → runSat s.st t 0 = false
  known : ∀ i, s.inc i = true → t.enabled g 0 i = true

theorem inv_start (t : Tree) (g : Nat → Bool) (res : Nat → Res) : Inv t g res (start t g) := by
  refine ⟨⟨rfl, ?_⟩, ?_, ?_, ?_, ?_, ?_, ?_, ?_, ?_, ?_, ?_, ?_, ?_, ?_, ?_, ?_, ?_⟩
  · have hz : ∀ k, cnt (due (start t g).st (start t g).inc) k = 0 := by
      intro k
      induction k with
      | zero => rfl
      | succ k ih =>
        have : due (start t g).st (start t g).inc k = false := by
          simp only [due, start, Bool.and_eq_false_iff, beq_eq_false_iff_ne]
          exact Or.inl (initial_ne_sat t g k)
        simp [cnt, ih, this]
    rw [hz]; exact Int.le_refl _
  all_goals simp [start, Passed, Over, initial_ne_sat]

theorem runSat_iff {s s' : Nat → St} (t : Tree) : ∀ {k : Nat}, (∀ i, s i = .run ↔ s' i = .run) → runSat s t k = runSat s' t k := by
  induction t with
  | leaf b =>
    intro k h
    have := h k
    simp only [runSat]
    rw [Bool.eq_iff_iff]; simpa using this
  | and l r ihl ihr => intro k h; simp only [runSat]; rw [ihl h, ihr h]
  | or l r ihl ihr => intro k h; simp only [runSat]; rw [ihl h, ihr h]

theorem Inv.runSat_ran {t : Tree} {g : Nat → Bool} {res : Nat → Res} {s : State} (h : Inv t g res s) :
    runSat s.st t 0 = runSat (over (fun j => decide (j ∈ s.ran)) (initial t g)) t 0 := by
  refine runSat_iff t fun i => ?_
  rw [h.run]
  simp only [over, decide_eq_true_eq]
  split <;> simp_all

theorem cnt_ext {f f' : Nat → Bool} (h : ∀ j, f j = f' j) (k : Nat) : cnt f k = cnt f' k := by
  rw [show f = f' from funext h]

theorem inv_avail {t : Tree} {g : Nat → Bool} {res : Nat → Res} {s : State} {i : Nat} (h : Inv t g res s) (hr : s.reg i = true) (hu : s.st i = .unsat) :
    Inv t g res { s with st := upd s.st i .sat, inc := upd s.inc i true } := by
  have hrun : ∀ j, upd s.st i .sat j = .run ↔ s.st j = .run := by
    intro j; simp only [upd_apply]; split
    · next e => subst e; simp [hu]
    · rfl
  have hdue : ∀ j, due (upd s.st i .sat) (upd s.inc i true) j = due s.st s.inc j := by
    intro j; simp only [due, upd_apply]
    by_cases e : j = i
    · subst e; simp [hu]
    · simp [e]
  have hsat : runSat (upd s.st i .sat) t 0 = runSat s.st t 0 := runSat_iff t hrun
  refine ⟨?_, fun j => by rw [hrun, h.run], h.reg, ?_, h.ran, h.nodup, h.need, ⟨h.late.1, ?_⟩, ?_, ?_, ?_, ?_, h.left, ?_, h.early, fun hp => by rw [hsat]; exact h.idle hp, ?_⟩
  · have hc := h.count
    revert hc
    simp only [Count, hsat, cnt_ext hdue]
    exact fun h => h
  · intro j; simp only [upd_apply]; split
    · next e => subst e; intro _; exact h.reg _ hr
    · exact h.sat j
  · intro j hj
    have := h.late.2 j hj
    refine ⟨?_, this.2⟩
    simp only [upd_apply]; split
    · rfl
    · exact this.1
  · intro j h1 h2 h3 h4
    by_cases e : j = i
    · subst e; rw [h.left j h1 h2] at hr; cases hr
    · exact h.kept j h1 h2 h3 (by simpa [upd_apply, e] using h4)
  · intro ho; rw [hsat]; exact h.fin ho
  · intro hs j; simp only [upd_apply]; split
    · next e => subst e; intro _; exact hr
    · exact h.sync hs j
  · intro j hj hj'; exact h.busy j hj ((hrun j).1 hj')
  · intro j; simp only [upd_apply]; split
    · intro _; simp
    · exact h.inc j
  · intro j; simp only [upd_apply]; split
    · next e => subst e; intro _; exact h.reg _ hr
    · exact h.known j

theorem inv_count {t : Tree} {g : Nat → Bool} {res : Nat → Res} {s : State} {i : Nat} (h : Inv t g res s) (hi : s.inc i = true) :
    Inv t g res { s with inc := upd s.inc i false, counter := s.counter + 1, token := s.token || s.counter + 1 == 0 } := by
  have hdue : ∀ k, cnt (due s.st (upd s.inc i false)) k ≤ cnt (due s.st s.inc) k + 1 := by
    refine cnt_one (i := i) fun j hj => ?_
    simp [due, upd_apply, hj]
  refine ⟨?_, h.run, h.reg, h.sat, h.ran, h.nodup, h.need, h.late, h.kept, h.fin, ?_, h.busy, h.left, ?_, h.early, h.idle, ?_⟩
  · have hc := h.count
    have nn : ∀ k, 0 ≤ cnt (due s.st s.inc) k := cnt_nonneg _
    revert hc
    simp only [Count]
    cases s.pc with
    | reg j =>
      rintro ⟨h1, h2⟩
      have := hdue t.leaves
      have := nn t.leaves
      exact ⟨by simp [h1]; omega, by omega⟩
    | test =>
      rintro ⟨h1, h2, h3⟩
      have := hdue t.leaves
      exact ⟨by simp [h1]; omega, by omega, h3.imp id (fun h => by omega)⟩
    | park =>
      rintro (⟨h1, h2, h3⟩ | ⟨h1, h2⟩)
      · exact Or.inr ⟨by simp [h2], by omega⟩
      · exact Or.inr ⟨by simp [h1], by omega⟩
    | scan j =>
      rintro ⟨h1, h2⟩
      have := hdue (min j t.leaves)
      have := nn (min j t.leaves)
      exact ⟨by simp [h1]; omega, by omega⟩
    | unreg j =>
      rintro ⟨h1, h2⟩
      have := hdue (min (j + 1) t.leaves)
      have := nn (min (j + 1) t.leaves)
      exact ⟨by simp [h1]; omega, by omega⟩
    | fin j => rintro ⟨h1, h2⟩; exact ⟨by simp [h1]; omega, by omega⟩
    | done => rintro ⟨h1, h2⟩; exact ⟨by simp [h1]; omega, by omega⟩
  · intro hs j; simp only [upd_apply]; split
    · intro h; cases h
    · exact h.sync hs j
  · intro j; simp only [upd_apply]; split
    · intro h; cases h
    · exact h.inc j
  · intro j; simp only [upd_apply]; split
    · intro h; cases h
    · exact h.known j

theorem Inv.goto {t : Tree} {g : Nat → Bool} {res : Nat → Res} {s s' : State} (h : Inv t g res s) (e : s' = { s with pc := s'.pc, counter := s'.counter, token := s'.token })
    (hc : Count t s') (ho : Over s'.pc → runSat s.st t 0 = true) (hp : ∀ i, i < t.leaves → Passed s'.pc i → s.reg i = false)
    (hb : ∀ i, s.pc ≠ .unreg i) (hl : ∀ i, t.enabled g 0 i = true → Passed s.pc i → Passed s'.pc i)
    (he : ∀ k, s'.pc = .reg k → s.ran = [] := by intro k hk; cases hk)
    (hq : s'.pc = .park → runSat s.st t 0 = false := by intro hk; cases hk)
    (hv : ∀ i, i < t.leaves → Passed s'.pc i → (res i).keeps = true → s.st i = .sat → i ∈ s.late := by intro _ _ h; cases h) : Inv t g res s' := by
  obtain ⟨st, counter, token, pc, reg, inc, ran, late⟩ := s'
  simp only [State.mk.injEq] at e
  obtain ⟨rfl, -, -, -, rfl, rfl, rfl, rfl⟩ := e
  exact ⟨hc, h.run, h.reg, h.sat, h.ran, h.nodup, h.need, ⟨h.late.1, fun i hi => ⟨(h.late.2 i hi).1, hl i (h.sat _ (h.late.2 i hi).1) (h.late.2 i hi).2.1, (h.late.2 i hi).2.2⟩⟩, hv, ho, h.sync, fun i hi hr => absurd (h.busy i hi hr) (hb i), hp, h.inc, he, hq, h.known⟩

theorem inv_step {t : Tree} {g : Nat → Bool} {res : Nat → Res} {s s' : State} (h : Inv t g res s) (hn : step t g res s = some s') : Inv t g res s' := by
  have hc := h.count
  have nn : ∀ k, 0 ≤ cnt (due s.st s.inc) k := cnt_nonneg _
  have hrange : ∀ i, t.enabled g 0 i = true → i < t.leaves := fun i hi => by have := (enabled_range t hi).2; omega
  simp only [step] at hn
  cases hpc : s.pc with
  | reg i =>
    simp only [hpc] at hn
    simp only [Count, hpc] at hc
    by_cases hi : i < t.leaves
    · rw [if_pos hi] at hn
      by_cases he : t.enabled g 0 i = true
      · rw [if_pos he] at hn
        cases hn
        refine ⟨hc, h.run, ?_, h.sat, h.ran, h.nodup, h.need, ⟨h.late.1, fun j hj => ?_⟩, (fun _ _ h => h.elim), fun h => h.elim, ?_, ?_, fun _ _ h => h.elim, h.inc, fun _ _ => h.early _ hpc, (fun h => by cases h), h.known⟩
        · intro j; simp only [upd_apply]; split
          · next e => subst e; intro _; exact he
          · exact h.reg j
        · have := (h.late.2 j hj).2.1
          rw [hpc] at this; exact this.elim
        · intro hs j hj; simp only [upd_apply]; split
          · rfl
          · exact h.sync hs j hj
        · intro j; simp only [upd_apply]; split
          · next e =>
            subst e
            intro _ hr
            rcases (h.run j).1 hr with hr | hr
            · rw [h.early _ hpc] at hr; cases hr
            · rw [initial_enabled he] at hr; cases hr
          · intro hj hr; have := h.busy j hj hr; rw [hpc] at this; cases this
      · rw [if_neg he] at hn
        cases hn
        exact h.goto rfl hc (fun h => h.elim) (fun _ _ h => h.elim) (fun j => by simp [hpc]) (fun j _ hj => by rw [hpc] at hj; exact hj.elim)
          (fun _ _ => h.early _ hpc)
    · rw [if_neg hi] at hn
      cases hn
      exact h.goto rfl ⟨hc.1, by have := nn t.leaves; simp only; omega, Or.inr hc.2⟩ (fun h => h.elim) (fun _ _ h => h.elim) (fun j => by simp [hpc])
        (fun j _ hj => by rw [hpc] at hj; exact hj.elim)
  | test =>
    simp only [hpc] at hn
    simp only [Count, hpc] at hc
    have hg : ∀ {s' : State}, s' = { s with pc := s'.pc, counter := s'.counter, token := s'.token } → Count t s' → (Over s'.pc → runSat s.st t 0 = true) → 
        (∀ i, ¬ Passed s'.pc i) → (∀ k, s'.pc ≠ .reg k) → (s'.pc = .park → runSat s.st t 0 = false) → Inv t g res s' := fun e hc ho hp hq hk =>
      h.goto e hc ho (fun i _ hi => absurd hi (hp i)) (fun j => by simp [hpc]) (fun j _ hj => by rw [hpc] at hj; exact hj.elim) (fun k hk => absurd hk (hq k)) hk (fun j _ hj => absurd hj (hp j))
    by_cases hr : runSat s.st t 0 = true
    · rw [if_pos hr] at hn
      cases hn
      exact hg rfl ⟨hc.1, hc.2.1⟩ (fun _ => hr) (fun i => by simp [Passed]) (by simp) (fun h => by cases h)
    · rw [if_neg hr] at hn
      have hle := hc.2.2.resolve_left hr
      have := nn t.leaves
      by_cases hz : s.counter - 1 < 0
      · rw [if_pos hz] at hn
        cases hn
        refine hg rfl (Or.inl ⟨hc.1, ?_, ?_⟩) (fun h => h.elim) (fun i => by simp [Passed]) (by simp) (fun _ => by simpa using hr)
        · simp only; omega
        · show cnt (due s.st s.inc) t.leaves = 0; omega
      · rw [if_neg hz] at hn
        cases hn
        refine hg rfl ⟨hc.1, ?_⟩ (fun h => h.elim) (fun i => by simp [Passed]) (by simp) (fun _ => by simpa using hr)
        simp only [Nat.zero_min, cnt]; omega
  | park =>
    simp only [hpc] at hn
    simp only [Count, hpc] at hc
    by_cases ht : s.token = true
    · rw [if_pos ht] at hn
      cases hn
      refine h.goto rfl ⟨rfl, ?_⟩ (fun h => h.elim) (fun _ _ h => h.elim) (fun j => by simp [hpc]) (fun j _ hj => by rw [hpc] at hj; exact hj.elim)
      rcases hc with hc | hc
      · simp [hc.1] at ht
      · simp only [Nat.zero_min, cnt]; omega
    · rw [if_neg ht] at hn; cases hn
  | scan i =>
    simp only [hpc] at hn
    simp only [Count, hpc] at hc
    have hg : ∀ {s' : State}, s' = { s with pc := s'.pc, counter := s'.counter, token := s'.token } → Count t s' → (¬ Over s'.pc) → 
        (∀ i, ¬ Passed s'.pc i) → (∀ k, s'.pc ≠ .reg k) → (s'.pc = .park → runSat s.st t 0 = false) → Inv t g res s' := fun e hc ho hp hq hk =>
      h.goto e hc (fun h => absurd h ho) (fun i _ hi => absurd hi (hp i)) (fun j => by simp [hpc]) (fun j _ hj => by rw [hpc] at hj; exact hj.elim) (fun k hk => absurd hk (hq k)) hk (fun j _ hj => absurd hj (hp j))
    have := nn (min i t.leaves)
    by_cases hi : i < t.leaves
    · rw [if_pos hi] at hn
      by_cases hr : runSat s.st t 0 = true
      · rw [if_pos hr] at hn
        cases hn
        exact hg rfl ⟨hc.1, by simp only; omega, Or.inl hr⟩ (by simp [Over]) (by simp [Passed]) (by simp) (by simp)
      · rw [if_neg hr] at hn
        by_cases hs : s.st i = .sat
        · rw [if_pos hs] at hn
          cases hn
          have hnr : i ∉ s.ran := fun hm => by
            have := (h.run i).2 (Or.inl hm)
            rw [hs] at this; cases this
          refine ⟨⟨hc.1, ?_⟩, ?_, h.reg, ?_, ?_, ?_, ?_, ⟨h.late.1, fun j hj => ?_⟩, (fun _ _ h => h.elim), fun h => h.elim, h.sync, ?_, fun _ _ h => h.elim, ?_, (fun _ h => by cases h), (fun h => by cases h), h.known⟩
          · have e1 : min (i + 1) t.leaves = i + 1 := by omega
            have e2 : min i t.leaves = i := by omega
            rw [e1]
            rw [e2] at hc
            refine Int.le_trans ?_ hc.2
            have hd : due (upd s.st i .run) s.inc i = false := by simp [due]
            simp only [cnt, hd]
            simp only [Bool.false_eq_true, if_false, Int.add_zero]
            refine cnt_le (fun j => ?_) i
            simp only [due, upd_apply]
            by_cases e : j = i
            · rw [if_pos e]; intro h; simp at h
            · rw [if_neg e]; exact id
          · intro j; simp only [upd_apply]
            by_cases e : j = i
            · subst e; simp
            · simp [e, h.run]
          · intro j; simp only [upd_apply]; split
            · intro h; cases h
            · exact h.sat j
          · intro j hj
            rcases List.mem_append.1 hj with hj | hj
            · exact h.ran j hj
            · rw [List.mem_singleton.1 hj]; exact h.sat i hs
          · rw [List.nodup_append]
            refine ⟨h.nodup, by simp, ?_⟩
            intro a ha b hb e
            rw [List.mem_singleton] at hb
            subst e; subst hb
            exact hnr ha
          · intro a j b hab
            rcases List.eq_nil_or_concat b with rfl | ⟨b', y, rfl⟩
            · have : a = s.ran ∧ j = i := by
                have := List.append_inj' hab (by simp)
                exact ⟨this.1.symm, by simpa using this.2.symm⟩
              rw [this.1, ← h.runSat_ran]
              simpa using hr
            · have : s.ran = a ++ j :: b' := by
                have hab' : s.ran ++ [i] = (a ++ j :: b') ++ [y] := by simpa using hab
                exact (List.append_inj' hab' (by simp)).1
              exact h.need a j b' this
          · have := (h.late.2 j hj).2.1
            rw [hpc] at this; exact this.elim
          · intro j hj; simp only [upd_apply]; split
            · next e => subst e; intro _; rfl
            · intro hr; have := h.busy j hj hr; rw [hpc] at this; cases this
          · intro j; simp only [upd_apply]; split
            · intro _; simp
            · exact h.inc j
        · rw [if_neg hs] at hn
          cases hn
          refine hg rfl ⟨hc.1, ?_⟩ (by simp [Over]) (by simp [Passed]) (by simp) (by simp)
          have e1 : min (i + 1) t.leaves = i + 1 := by omega
          have e2 : min i t.leaves = i := by omega
          rw [e2] at hc
          have hd : due s.st s.inc i = false := by simp [due, hs]
          show cnt (due s.st s.inc) (min (i + 1) t.leaves) ≤ s.counter
          rw [e1]; simp only [cnt, hd]; simpa using hc.2
    · rw [if_neg hi] at hn
      cases hn
      have e2 : min i t.leaves = t.leaves := by omega
      rw [e2] at hc this
      exact hg rfl ⟨hc.1, by simp only; omega, Or.inr hc.2⟩ (by simp [Over]) (by simp [Passed]) (by simp) (by simp)
  | unreg i =>
    simp only [hpc] at hn
    simp only [Count, hpc] at hc
    split at hn
    · cases hn
    · next hw =>
      cases hn
      refine ⟨hc, h.run, ?_, h.sat, h.ran, h.nodup, h.need, ⟨h.late.1, fun j hj => ?_⟩, (fun _ _ h => h.elim), fun h => h.elim, ?_, ?_, fun _ _ h => h.elim, h.inc, (fun _ h => by cases h), (fun h => by cases h), h.known⟩
      · intro j; simp only [upd_apply]; split
        · intro h; cases h
        · exact h.reg j
      · have := (h.late.2 j hj).2.1
        rw [hpc] at this; exact this.elim
      · intro hs j hj; simp only [upd_apply]; split
        · next e => subst e; simp [hs, show s.inc j = true from hj] at hw
        · exact h.sync hs j hj
      · intro j; simp only [upd_apply]; split
        · intro h; cases h
        · next e =>
          intro hj hr
          have := h.busy j hj hr
          rw [hpc] at this
          cases this
          exact absurd rfl e
  | fin i =>
    simp only [hpc] at hn
    simp only [Count, hpc] at hc
    have hov : runSat s.st t 0 = true := h.fin (by rw [hpc]; trivial)
    have hleft : ∀ j, j < t.leaves → j < i → s.reg j = false := fun j h1 h2 => h.left j h1 (by rw [hpc]; exact h2)
    have hlt : ∀ j ∈ s.late, j < i := fun j hj => by
      have := (h.late.2 j hj).2.1
      rw [hpc] at this; exact this
    have hbusy : ∀ j, s.reg j = true → s.st j = .run → False := fun j h1 h2 => by
      have := h.busy j h1 h2
      rw [hpc] at this; cases this
    have hkept : ∀ j, j < t.leaves → j < i → (res j).keeps = true → s.st j = .sat → j ∈ s.late := fun j h1 h2 => h.kept j h1 (by rw [hpc]; exact h2)
    have hun : ∀ l : List Nat, (l.Nodup ∧ ∀ j ∈ l, s.st j = .sat ∧ j < i + 1 ∧ (res j).keeps = true) →
        (∀ j, j < t.leaves → j < i + 1 → (res j).keeps = true → s.st j = .sat → j ∈ l) → ((res i).sync && s.inc i) ≠ true → 
        Inv t g res { s with reg := upd s.reg i false, late := l, pc := .fin (i + 1) } := by
      intro l hl hl' hw
      refine ⟨hc, h.run, ?_, h.sat, h.ran, h.nodup, h.need, hl, hl', fun _ => hov, ?_, ?_, ?_, h.inc, (fun _ h => by cases h), (fun h => by cases h), h.known⟩
      · intro j; simp only [upd_apply]; split
        · intro h; cases h
        · exact h.reg j
      · intro hs j hj; simp only [upd_apply]; split
        · next e => subst e; simp [hs, show s.inc j = true from hj] at hw
        · exact h.sync hs j hj
      · intro j; simp only [upd_apply]; split
        · intro h; cases h
        · intro h1 h2; exact (hbusy j h1 h2).elim
      · intro j h1 h2; simp only [upd_apply]; split
        · rfl
        · next e =>
          have h2 : j < i + 1 := h2
          exact hleft j h1 (by omega)
    by_cases hi : i < t.leaves
    · rw [if_pos hi] at hn
      by_cases he : (t.enabled g 0 i && s.st i != .run) = true
      · rw [if_pos he] at hn
        by_cases hw : ((res i).sync && s.inc i) = true
        · rw [if_pos hw] at hn; cases hn
        · rw [if_neg hw] at hn
          by_cases hk : ((res i).keeps && s.st i == .sat) = true
          · rw [if_pos hk] at hn
            cases hn
            refine hun _ ⟨?_, ?_⟩ ?_ hw
            · rw [List.nodup_append]
              refine ⟨h.late.1, by simp, ?_⟩
              intro a ha b hb e
              rw [List.mem_singleton] at hb
              have := hlt a ha
              omega
            · intro j hj
              rcases List.mem_append.1 hj with hj | hj
              · have := hlt j hj
                exact ⟨(h.late.2 j hj).1, by omega, (h.late.2 j hj).2.2⟩
              · rw [List.mem_singleton.1 hj]
                simp at hk
                exact ⟨hk.2, by omega, hk.1⟩
            · intro j h1 h2 h3 h4
              by_cases e : j = i
              · simp [e]
              · exact List.mem_append_left _ (hkept j h1 (by omega) h3 h4)
          · rw [if_neg hk] at hn
            cases hn
            refine hun s.late ⟨h.late.1, fun j hj => ⟨(h.late.2 j hj).1, by have := hlt j hj; omega, (h.late.2 j hj).2.2⟩⟩ (fun j h1 h2 h3 h4 => ?_) hw
            by_cases e : j = i
            · subst e; simp [h3, h4] at hk
            · exact hkept j h1 (by omega) h3 h4
      · rw [if_neg he] at hn
        cases hn
        refine h.goto rfl hc (fun _ => hov) (fun j h1 h2 => ?_) (fun j => by simp [hpc]) (fun j _ hj => ?_) (hv := ?_)
        · have h2 : j < i + 1 := h2
          by_cases e : j = i
          · subst e
            cases hr : s.reg j with
            | false => rfl
            | true =>
              have h3 := h.reg j hr
              rw [h3] at he
              simp at he
              exact (hbusy j hr he).elim
          · exact hleft j h1 (by omega)
        · rw [hpc] at hj
          have hj : j < i := hj
          show j < i + 1
          omega
        · intro j h1 h2 h3 h4
          have h2 : j < i + 1 := h2
          by_cases e : j = i
          · subst e; simp [h4, h.sat j h4] at he
          · exact hkept j h1 (by omega) h3 h4
    · rw [if_neg hi] at hn
      cases hn
      exact h.goto rfl hc (fun _ => hov) (fun j h1 _ => hleft j h1 (by omega)) (fun j => by simp [hpc]) (fun j _ _ => trivial)
        (hv := fun j h1 _ h3 h4 => hkept j h1 (by omega) h3 h4)
  | done => simp [hpc] at hn

theorem inv_reach {t : Tree} {g : Nat → Bool} {res : Nat → Res} {s : State} (h : Reach (next t g res) (start t g) s) : Inv t g res s := by
  refine Reach.inv (Inv t g res) (inv_start t g res) ?_ h
  intro s a s' hi hn
  cases a with
  | step => exact inv_step hi hn
  | avail i =>
    simp only [next] at hn
    split at hn
    · next hc => cases hn; exact inv_avail hi hc.1 hc.2
    · cases hn
  | count i =>
    simp only [next] at hn
    split at hn
    · next hc => cases hn; exact inv_count hi hc
    · cases hn

/-! Termination. -/

theorem cnt_upd (f : Nat → Bool) (i : Nat) (v : Bool) (k : Nat) (h : i < k) :
    cnt (upd f i v) k + (if f i then 1 else 0) = cnt f k + (if v then 1 else 0) := by
  have lt : ∀ k, k ≤ i → cnt (upd f i v) k = cnt f k := by
    intro k
    induction k with
    | zero => intro _; rfl
    | succ k ih =>
      intro hk
      have hne : upd f i v k = f k := by rw [upd_apply, if_neg (by omega)]
      simp only [cnt, ih (by omega), hne]
  induction k with
  | zero => omega
  | succ k ih =>
    by_cases hk : i = k
    · subst hk
      simp only [cnt, lt i (Nat.le_refl _), upd_same]
      omega
    · have := ih (by omega)
      have hne : upd f i v k = f k := by rw [upd_apply, if_neg (by omega)]
      simp only [cnt, hne]
      omega

theorem cnt_bound (f : Nat → Bool) (k : Nat) : cnt f k ≤ k := by
  induction k with
  | zero => simp [cnt]
  | succ k ih => simp only [cnt]; split <;> omega

/-- How far the thread is from the next test, or the end. -/
def rank (n : Nat) : Pc → Int
  | .done => 0
  | .fin k => 1 + (n + 1 - k : Nat)
  | .test => n + 3
  | .scan k => n + 4 + 2 * (n + 1 - k : Nat)
  | .unreg k => n + 5 + 2 * (n - k : Nat)
  | .park => 3 * n + 7
  | .reg k => n + 4 + (n + 1 - k : Nat)

def unset (st : Nat → St) (j : Nat) : Bool := st j == .unsat

/-- A bound on the number of steps that remain. -/
def measure (n : Nat) (s : State) : Int :=
  (s.counter + 1 + cnt s.inc n + cnt (unset s.st) n) * (2 * n + 5) + rank n s.pc + 2 * cnt (unset s.st) n + cnt s.inc n

theorem Inv.counter {t : Tree} {g : Nat → Bool} {res : Nat → Res} {s : State} (h : Inv t g res s) : 0 ≤ s.counter + 1 := by
  have hc := h.count
  have nn : ∀ k, 0 ≤ cnt (due s.st s.inc) k := cnt_nonneg _
  revert hc
  simp only [Count]
  cases s.pc with
  | reg j => rintro ⟨_, h⟩; have := nn t.leaves; omega
  | test => rintro ⟨_, h, _⟩; omega
  | park => rintro (⟨_, h, _⟩ | ⟨_, h⟩) <;> omega
  | scan j => rintro ⟨_, h⟩; have := nn (min j t.leaves); omega
  | unreg j => rintro ⟨_, h⟩; have := nn (min (j + 1) t.leaves); omega
  | fin j => rintro ⟨_, h⟩; omega
  | done => rintro ⟨_, h⟩; omega

theorem rank_nonneg (n : Nat) (p : Pc) : 0 ≤ rank n p := by cases p <;> simp only [rank] <;> omega

theorem Inv.measure_nonneg {t : Tree} {g : Nat → Bool} {res : Nat → Res} {s : State} (h : Inv t g res s) : 0 ≤ measure t.leaves s := by
  have h1 := h.counter
  have h2 := cnt_nonneg s.inc t.leaves
  have h3 := cnt_nonneg (unset s.st) t.leaves
  have h4 := rank_nonneg t.leaves s.pc
  have : 0 ≤ (s.counter + 1 + cnt s.inc t.leaves + cnt (unset s.st) t.leaves) * (2 * (t.leaves : Int) + 5) := Int.mul_nonneg (by omega) (by omega)
  simp only [measure]
  omega

theorem measure_step {t : Tree} {g : Nat → Bool} {res : Nat → Res} {s s' : State} (h : Inv t g res s) (hn : step t g res s = some s') :
    measure t.leaves s' < measure t.leaves s := by
  have same : ∀ {s' : State}, s'.counter = s.counter → s'.inc = s.inc → s'.st = s.st → rank t.leaves s'.pc < rank t.leaves s.pc → measure t.leaves s' < measure t.leaves s := by
    intro s' h1 h2 h3 h4
    simp only [measure, h1, h2, h3]
    omega
  simp only [step] at hn
  cases hpc : s.pc with
  | reg i =>
    simp only [hpc] at hn
    split at hn
    · split at hn
      all_goals cases hn; refine same rfl rfl rfl ?_; rw [hpc]; simp only [rank]; omega
    · cases hn; refine same rfl rfl rfl ?_; rw [hpc]; simp only [rank]; omega
  | test =>
    simp only [hpc] at hn
    have down : ∀ p, rank t.leaves p < rank t.leaves .test + (2 * (t.leaves : Int) + 5) → measure t.leaves { s with counter := s.counter - 1, pc := p } < measure t.leaves s := by
      intro p hp
      simp only [measure, hpc]
      have : s.counter - 1 + 1 + cnt s.inc t.leaves + cnt (unset s.st) t.leaves = (s.counter + 1 + cnt s.inc t.leaves + cnt (unset s.st) t.leaves) - 1 := by omega
      rw [this, Int.sub_mul]
      omega
    split at hn
    · cases hn; refine same rfl rfl rfl ?_; rw [hpc]; simp only [rank]; omega
    · split at hn
      all_goals cases hn; refine down _ ?_; simp only [rank]; omega
  | park =>
    simp only [hpc] at hn
    split at hn
    · cases hn; refine same rfl rfl rfl ?_; rw [hpc]; simp only [rank]; omega
    · cases hn
  | scan i =>
    simp only [hpc] at hn
    split at hn
    · split at hn
      · cases hn; refine same rfl rfl rfl ?_; rw [hpc]; simp only [rank]; omega
      · split at hn
        · next hs =>
          cases hn
          have e : ∀ j, unset (upd s.st i .run) j = unset s.st j := by
            intro j; simp only [unset, upd_apply]
            by_cases e : j = i
            · subst e; simp [hs]
            · simp [e]
          simp only [measure, cnt_ext e, hpc, rank]
          omega
        · cases hn; refine same rfl rfl rfl ?_; rw [hpc]; simp only [rank]; omega
    · cases hn; refine same rfl rfl rfl ?_; rw [hpc]; simp only [rank]; omega
  | unreg i =>
    simp only [hpc] at hn
    split at hn
    · cases hn
    · cases hn; refine same rfl rfl rfl ?_; rw [hpc]; simp only [rank]; omega
  | fin i =>
    simp only [hpc] at hn
    split at hn
    · split at hn
      · split at hn
        · cases hn
        · split at hn
          all_goals cases hn; refine same rfl rfl rfl ?_; rw [hpc]; simp only [rank]; omega
      · cases hn; refine same rfl rfl rfl ?_; rw [hpc]; simp only [rank]; omega
    · cases hn; refine same rfl rfl rfl ?_; rw [hpc]; simp only [rank]; omega
  | done => simp [hpc] at hn

theorem measure_next {t : Tree} {g : Nat → Bool} {res : Nat → Res} {s s' : State} {a : Act} (h : Inv t g res s) (hn : next t g res s a = some s') :
    measure t.leaves s' < measure t.leaves s := by
  have hrange : ∀ i, t.enabled g 0 i = true → i < t.leaves := fun i hi => by have := (enabled_range t hi).2; omega
  cases a with
  | step => exact measure_step h hn
  | avail i =>
    simp only [next] at hn
    split at hn
    · next hc =>
      cases hn
      have hi := hrange i (h.reg i hc.1)
      have hinc : s.inc i = false := by
        cases e : s.inc i with
        | false => rfl
        | true => exact absurd hc.2 (h.inc i e)
      have h1 := cnt_upd s.inc i true t.leaves hi
      have h2 := cnt_upd (unset s.st) i false t.leaves hi
      have e : ∀ j, unset (upd s.st i .sat) j = upd (unset s.st) i false j := by
        intro j; simp only [unset, upd_apply]
        by_cases e : j = i
        · subst e; simp
        · simp [e]
      have hu : unset s.st i = true := by simp [unset, hc.2]
      simp only [hinc, hu] at h1 h2
      simp only [measure, cnt_ext e]
      simp only [Bool.false_eq_true, if_false, if_true] at h1 h2
      have e1 : cnt (upd s.inc i true) t.leaves = cnt s.inc t.leaves + 1 := by omega
      have e2 : cnt (upd (unset s.st) i false) t.leaves = cnt (unset s.st) t.leaves - 1 := by omega
      rw [e1, e2]
      have : s.counter + 1 + (cnt s.inc t.leaves + 1) + (cnt (unset s.st) t.leaves - 1) = s.counter + 1 + cnt s.inc t.leaves + cnt (unset s.st) t.leaves := by omega
      rw [this]
      omega
    · cases hn
  | count i =>
    simp only [next] at hn
    split at hn
    · next hc =>
      cases hn
      have hi := hrange i (h.known i hc)
      have h1 := cnt_upd s.inc i false t.leaves hi
      simp only [hc, Bool.false_eq_true, if_false, if_true] at h1
      simp only [measure]
      have e1 : cnt (upd s.inc i false) t.leaves = cnt s.inc t.leaves - 1 := by omega
      rw [e1]
      have : s.counter + 1 + 1 + (cnt s.inc t.leaves - 1) + cnt (unset s.st) t.leaves = s.counter + 1 + cnt s.inc t.leaves + cnt (unset s.st) t.leaves := by omega
      rw [this]
      omega
    · cases hn

theorem exec_bound {t : Tree} {g : Nat → Bool} {res : Nat → Res} (as : List Act) : ∀ {s s' : State}, Inv t g res s → exec (next t g res) s as = some s' →
    (as.length : Int) ≤ measure t.leaves s := by
  induction as with
  | nil => intro s s' h _; exact h.measure_nonneg
  | cons a as ih =>
    intro s s' h he
    simp only [exec] at he
    cases hn : next t g res s a with
    | none => rw [hn] at he; cases he
    | some s1 =>
      rw [hn] at he
      have hi : Inv t g res s1 := by
        cases a with
        | step => exact inv_step h hn
        | avail i =>
          simp only [next] at hn
          split at hn
          · next hc => cases hn; exact inv_avail h hc.1 hc.2
          · cases hn
        | count i =>
          simp only [next] at hn
          split at hn
          · next hc => cases hn; exact inv_count h hc
          · cases hn
      have h1 := ih hi he
      have h2 := measure_next h hn
      simp only [List.length_cons]
      omega

theorem measure_start (t : Tree) (g : Nat → Bool) : measure t.leaves (start t g) ≤ (t.leaves + 1) * (2 * t.leaves + 5) + 4 * t.leaves + 5 := by
  have h0 : cnt (start t g).inc t.leaves = 0 := by
    have h1 := cnt_nonneg (start t g).inc t.leaves
    have : ∀ k, cnt (fun _ => false) k = 0 := by
      intro k
      induction k with
      | zero => rfl
      | succ k ih => simp [cnt, ih]
    exact this _
  have h1 := cnt_bound (unset (start t g).st) t.leaves
  simp only [measure, h0]
  have h2 : (0 + 1 + 0 + cnt (unset (start t g).st) t.leaves) * (2 * (t.leaves : Int) + 5) ≤ (t.leaves + 1) * (2 * t.leaves + 5) :=
    Int.mul_le_mul_of_nonneg_right (by omega) (by omega)
  have h3 : rank t.leaves (start t g).pc = t.leaves + 4 + (t.leaves + 1 - 0 : Nat) := rfl
  have h4 : (start t g).counter = 0 := rfl
  rw [h3, h4]
  omega

end Verif.WaitUntil
