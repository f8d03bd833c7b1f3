import Verif.Spec.Cofor
import Mathlib.Data.List.Induction
import Mathlib.Tactic.Ring
import Mathlib.Tactic.Linarith

/-!
# Parallel loops: proofs
-/

namespace Verif.Cofor

/-! ## `COFOR` -/

theorem taskLoop_eq : ∀ (k : Nat) (i h : Int), h - i = k →
    taskLoop k i h = (List.range k).map fun j : Nat => i + (j : Int) := by
  intro k
  induction k with
  | zero => intros; rfl
  | succ k ih =>
    intro i h e
    unfold taskLoop
    rw [if_pos (by omega), ih (i + 1) h (by omega), List.range_succ_eq_map]
    simp only [List.map_cons, List.map_map, Nat.cast_zero, add_zero]
    congr 1
    apply List.map_congr_left
    intro j _
    simp only [Function.comp, Nat.succ_eq_add_one, Nat.cast_add, Nat.cast_one]
    omega

theorem taskMain_eq (a b : Int) (h : a ≤ b) : taskMain (a, b) = ints a b := by
  unfold taskMain ints
  exact taskLoop_eq _ a b (by simp only; omega)

theorem ints_append (a b c : Int) (h1 : a ≤ b) (h2 : b ≤ c) : ints a b ++ ints b c = ints a c := by
  unfold ints
  rw [show (c - a).toNat = (b - a).toNat + (c - b).toNat from by omega, List.range_add, List.map_append]
  congr 1
  rw [List.map_map]
  apply List.map_congr_left
  intro j _
  simp only [Function.comp]
  push_cast
  omega

theorem tasks_run (st : Int) (hs : 0 ≤ st) : ∀ (k : Nat) (it : Int),
    (tasks k it st).flatMap taskMain = ints it (it + k * st) := by
  intro k
  induction k with
  | zero => intro it; simp [tasks, ints]
  | succ k ih =>
    intro it
    have hk : 0 ≤ (k : Int) * st := Int.mul_nonneg (by omega) hs
    rw [tasks, List.flatMap_cons, ih, taskMain_eq _ _ (by omega), ints_append _ _ _ (by omega) (by omega)]
    congr 1
    push_cast
    ring

theorem tasks_length (st : Int) : ∀ (k : Nat) (it : Int), (tasks k it st).length = k := by
  intro k
  induction k with
  | zero => intro it; rfl
  | succ k ih => intro it; simp [tasks, ih]

theorem tasks_size (st : Int) : ∀ (k : Nat) (it : Int), ∀ t ∈ tasks k it st, t.2 - t.1 = st := by
  intro k
  induction k with
  | zero => intro it t ht; cases ht
  | succ k ih =>
    intro it t ht
    rcases List.mem_cons.1 ht with rfl | ht
    · simp only; omega
    · exact ih _ t ht

/-! ## `cofor` -/

theorem deal_snoc {α : Type} (n r : Nat) (l : List α) (v : α) :
    deal n r (l ++ [v]) = deal n r l ++ if l.length % n = r then [v] else [] := by
  unfold deal
  rw [List.zipIdx_append]
  simp only [List.filter_append, List.map_append, List.zipIdx_singleton, Nat.zero_add]
  congr 1
  by_cases h : l.length % n = r
  · simp [h]
  · simp [h]

theorem deal_prefix {α : Type} (n r : Nat) (l m : List α) : deal n r l <+: deal n r (l ++ m) := by
  unfold deal
  rw [List.zipIdx_append, List.filter_append, List.map_append]
  exact List.prefix_append _ _

/-- What a runner is about to run. -/
def Pc.now {α : Type} : Pc α → List α
  | .run v => [v]
  | _ => []

structure Inv {α : Type} (n : Nat) (vals : List α) (s : St α) : Prop where
  sent : ∃ sent, vals = sent ++ s.rest ∧ s.curr = sent.length % n ∧
    ∀ r, r < n → s.log r ++ (s.pc r).now ++ s.items r = deal n r sent
  ended : s.ended ≤ n
  stop : 0 < s.ended → s.rest = []
  empty : ∀ r, r < n → s.pc r = .empty → r < s.ended
  exit : ∀ r, r < n → s.pc r = .exit → r < s.ended ∧ s.items r = []

theorem init_inv {α : Type} (n : Nat) (vals : List α) : Inv n vals (St.init vals) := by
  refine ⟨⟨[], rfl, by simp [St.init], fun r _ => rfl⟩, Nat.zero_le _, (fun h => by cases h),
    (fun r _ h => by cases h), (fun r _ h => by cases h)⟩

@[simp] theorem upd_same {β : Type} (f : Nat → β) (r : Nat) (x : β) : upd f r x r = x := if_pos rfl

theorem upd_other {β : Type} (f : Nat → β) {r i : Nat} (x : β) (h : i ≠ r) : upd f r x i = f i := if_neg h

theorem send_inv {α : Type} {n : Nat} (hn : 0 < n) {vals : List α} {s : St α} (h : Inv n vals s) :
    Inv n vals (sendStep n s) := by
  obtain ⟨sent, h1, h2, h3⟩ := h.sent
  unfold sendStep
  cases hr : s.rest with
  | cons v vs =>
    simp only
    have he : ¬ 0 < s.ended := fun hh => by have := h.stop hh; rw [hr] at this; cases this
    refine ⟨⟨sent ++ [v], by rw [h1, hr]; simp, ?_, ?_⟩, h.ended, fun hh => absurd hh he, h.empty,
      fun r hrn hp => ⟨(h.exit r hrn hp).1, absurd (Nat.lt_of_le_of_lt (Nat.zero_le _) (h.exit r hrn hp).1) he⟩⟩
    · simp only [List.length_append, List.length_singleton, h2]
      rw [Nat.mod_add_mod]
    · intro r hrn
      rw [deal_snoc, ← h3 r hrn, ← h2]
      simp only
      by_cases hc : s.curr = r
      · subst hc
        rw [upd_same, if_pos rfl]
        simp
      · rw [upd_other _ _ (fun e => hc e.symm), if_neg hc]
        simp
  | nil =>
    simp only
    split
    · rename_i hlt
      refine ⟨⟨sent, by rw [h1, hr], h2, h3⟩, hlt, fun _ => rfl, ?_, ?_⟩
      · intro r hrn hp; have := h.empty r hrn hp; simp only; omega
      · intro r hrn hp; have := h.exit r hrn hp; simp only; exact ⟨by omega, this.2⟩
    · exact h

theorem run_inv {α : Type} {n : Nat} {vals : List α} {s : St α} (h : Inv n vals s) {r : Nat} :
    Inv n vals (runStep s r) := by
  obtain ⟨sent, h1, h2, h3⟩ := h.sent
  -- A step that changes only the place, and not to or from a call.
  have move : ∀ p : Pc α, p.now = [] → (s.pc r).now = [] → (p = .empty → r < n → r < s.ended) →
      (p = .exit → r < n → r < s.ended ∧ s.items r = []) → Inv n vals { s with pc := upd s.pc r p } := by
    intro p hp hs he hx
    refine ⟨⟨sent, h1, h2, ?_⟩, h.ended, h.stop, ?_, ?_⟩
    · intro i hi
      rw [← h3 i hi]
      by_cases hir : i = r
      · subst hir; simp [hp, hs]
      · simp [upd_other _ _ hir]
    · intro i hi hh
      by_cases hir : i = r
      · subst hir; simp only [upd_same] at hh; exact he hh hi
      · simp only [upd_other _ _ hir] at hh; exact h.empty i hi hh
    · intro i hi hh
      by_cases hir : i = r
      · subst hir; simp only [upd_same] at hh; exact hx hh hi
      · simp only [upd_other _ _ hir] at hh; exact h.exit i hi hh
  unfold runStep
  cases hp : s.pc r with
  | done =>
    simp only
    apply move
    · split <;> rfl
    · rw [hp]; rfl
    · intro he _; split at he
      · assumption
      · cases he
    · intro he _; split at he <;> cases he
  | empty =>
    simp only
    apply move
    · split <;> rfl
    · rw [hp]; rfl
    · intro he _; split at he <;> cases he
    · intro he hrn
      split at he
      · rename_i hi; exact ⟨h.empty r hrn hp, by simpa using hi⟩
      · cases he
  | remove =>
    cases hi : s.items r with
    | nil =>
      simp only
      exact move .done rfl (by rw [hp]; rfl) (fun e => by cases e) (fun e => by cases e)
    | cons v vs =>
      simp only
      refine ⟨⟨sent, h1, h2, ?_⟩, h.ended, h.stop, ?_, ?_⟩
      · intro i hin
        rw [← h3 i hin]
        by_cases hir : i = r
        · subst hir; simp [hp, hi, Pc.now]
        · simp [upd_other _ _ hir]
      · intro i hin hh
        by_cases hir : i = r
        · subst hir; simp only [upd_same] at hh; cases hh
        · simp only [upd_other _ _ hir] at hh; exact h.empty i hin hh
      · intro i hin hh
        by_cases hir : i = r
        · subst hir; simp only [upd_same] at hh; cases hh
        · simp only [upd_other _ _ hir] at hh ⊢; exact h.exit i hin hh
  | run v =>
    simp only
    refine ⟨⟨sent, h1, h2, ?_⟩, h.ended, h.stop, ?_, ?_⟩
    · intro i hin
      rw [← h3 i hin]
      by_cases hir : i = r
      · subst hir; simp [hp, Pc.now]
      · simp [upd_other _ _ hir]
    · intro i hin hh
      by_cases hir : i = r
      · subst hir; simp only [upd_same] at hh; cases hh
      · simp only [upd_other _ _ hir] at hh; exact h.empty i hin hh
    · intro i hin hh
      by_cases hir : i = r
      · subst hir; simp only [upd_same] at hh; cases hh
      · simp only [upd_other _ _ hir] at hh; exact h.exit i hin hh
  | exit => exact h

theorem step_inv {α : Type} {n : Nat} (hn : 0 < n) {vals : List α} {s : St α} (h : Inv n vals s)
    (a : Act) : Inv n vals (step n s a) := by
  cases a with
  | sender => exact send_inv hn h
  | runner r =>
    unfold step
    simp only
    split
    · exact run_inv h
    · exact h

theorem steps_inv {α : Type} {n : Nat} (hn : 0 < n) (vals : List α) (as : List Act) :
    ∀ s : St α, Inv n vals s → Inv n vals (as.foldl (step n) s) := by
  induction as with
  | nil => intro s h; exact h
  | cons a as ih => intro s h; exact ih _ (step_inv hn h a)

theorem run_inv_init {α : Type} {n : Nat} (hn : 0 < n) (vals : List α) (as : List Act) :
    Inv n vals (as.foldl (step n) (.init vals)) := steps_inv hn vals as _ (init_inv n vals)

theorem flatMap_add {α : Type} (f : Nat → List α) (k : Nat) (v : α) : ∀ n,
    ((List.range n).flatMap fun r => f r ++ if k = r then [v] else []).Perm
      ((List.range n).flatMap f ++ if k < n then [v] else []) := by
  intro n
  induction n with
  | zero => simp
  | succ n ih =>
    rw [List.range_succ, List.flatMap_append, List.flatMap_append]
    simp only [List.flatMap_singleton]
    by_cases hk : k = n
    · subst hk
      rw [if_neg (Nat.lt_irrefl k), List.append_nil] at ih
      rw [if_pos rfl, if_pos (Nat.lt_succ_self k), List.append_assoc]
      exact ih.append_right _
    · rw [if_neg hk, List.append_nil]
      by_cases hlt : k < n
      · rw [if_pos hlt] at ih
        rw [if_pos (by omega)]
        refine (ih.append_right _).trans ?_
        rw [List.append_assoc, List.append_assoc]
        exact List.perm_append_comm.append_left _
      · rw [if_neg hlt, List.append_nil] at ih
        rw [if_neg (by omega), List.append_nil]
        exact ih.append_right _

theorem deal_perm {α : Type} (n : Nat) (hn : 0 < n) (l : List α) :
    ((List.range n).flatMap fun r => deal n r l).Perm l := by
  induction l using List.reverseRecOn with
  | nil => simp [deal]
  | append_singleton l v ih =>
    simp only [deal_snoc]
    refine (flatMap_add (fun r => deal n r l) (l.length % n) v n).trans ?_
    rw [if_pos (Nat.mod_lt _ hn)]
    exact ih.append_right _

/-- How many steps a runner still needs when its flag is set. -/
def need {α : Type} (s : St α) (r : Nat) : Nat :=
  match s.pc r with
  | .exit => 0
  | .empty => 4 * (s.items r).length + 1
  | .done => 4 * (s.items r).length + 2
  | .remove => max 3 (4 * (s.items r).length)
  | .run _ => 4 * (s.items r).length + 3

theorem need_other {α : Type} {n : Nat} {s : St α} {r : Nat} (hrest : s.rest = [])
    {a : Act} (ha : a ≠ .runner r) : need (step n s a) r = need s r ∧ (step n s a).rest = [] ∧
      s.ended ≤ (step n s a).ended := by
  cases a with
  | sender =>
    unfold step sendStep
    simp only [hrest]
    split
    · exact ⟨rfl, rfl, Nat.le_succ _⟩
    · exact ⟨rfl, hrest, Nat.le_refl _⟩
  | runner i =>
    have hir : r ≠ i := fun e => ha (by rw [e])
    unfold step
    simp only
    split
    · unfold runStep
      split
      · exact ⟨by unfold need; simp [upd_other _ _ hir], hrest, Nat.le_refl _⟩
      · exact ⟨by unfold need; simp [upd_other _ _ hir], hrest, Nat.le_refl _⟩
      · split
        · exact ⟨by unfold need; simp [upd_other _ _ hir], hrest, Nat.le_refl _⟩
        · exact ⟨by unfold need; simp [upd_other _ _ hir], hrest, Nat.le_refl _⟩
      · exact ⟨by unfold need; simp [upd_other _ _ hir], hrest, Nat.le_refl _⟩
      · exact ⟨rfl, hrest, Nat.le_refl _⟩
    · exact ⟨rfl, hrest, Nat.le_refl _⟩

theorem need_own {α : Type} {n : Nat} {s : St α} {r : Nat} (hr : r < n) (hrest : s.rest = [])
    (he : r < s.ended) : (need s r = 0 ∨ need (step n s (.runner r)) r < need s r) ∧
      (step n s (.runner r)).rest = [] ∧ s.ended ≤ (step n s (.runner r)).ended := by
  unfold step
  simp only [hr, if_true]
  unfold runStep
  cases hp : s.pc r with
  | done => exact ⟨Or.inr (by unfold need; simp [hp, he]), hrest, Nat.le_refl _⟩
  | empty =>
    refine ⟨Or.inr ?_, hrest, Nat.le_refl _⟩
    unfold need
    simp only [hp, upd_same]
    cases hi : s.items r with
    | nil => simp
    | cons v vs => simp; omega
  | remove =>
    cases hi : s.items r with
    | nil => exact ⟨Or.inr (by unfold need; simp [hp, hi]), hrest, Nat.le_refl _⟩
    | cons v vs => exact ⟨Or.inr (by unfold need; simp [hp, hi]; omega), hrest, Nat.le_refl _⟩
  | run v => exact ⟨Or.inr (by unfold need; simp [hp]), hrest, Nat.le_refl _⟩
  | exit => exact ⟨Or.inl (by unfold need; simp [hp]), hrest, Nat.le_refl _⟩

theorem need_le {α : Type} {n : Nat} {vals : List α} {s : St α} (h : Inv n vals s) {r : Nat}
    (hr : r < n) : need s r ≤ 4 * vals.length + 3 := by
  obtain ⟨sent, h1, _, h3⟩ := h.sent
  have hd : (deal n r sent).length ≤ sent.length := by
    unfold deal
    rw [List.length_map]
    exact Nat.le_trans (List.length_filter_le _ _) (by simp)
  have : (s.items r).length ≤ vals.length := by
    have e := congrArg List.length (h3 r hr)
    have e' := congrArg List.length h1
    simp only [List.length_append] at e e'
    omega
  unfold need
  split <;> omega

/-- After the flags are set, a runner that makes enough steps returns, whatever the others do. -/
theorem runner_ends {α : Type} {n : Nat} {r : Nat} (hr : r < n) (as : List Act) : ∀ s : St α,
    s.rest = [] → r < s.ended → need s r ≤ as.count (.runner r) →
    (as.foldl (step n) s).pc r = .exit := by
  induction as with
  | nil =>
    intro s _ _ h
    simp only [List.count_nil, Nat.le_zero_eq] at h
    rw [List.foldl_nil]
    unfold need at h
    split at h
    · assumption
    all_goals omega
  | cons a as ih =>
    intro s hrest he h
    rw [List.foldl_cons]
    by_cases ha : a = .runner r
    · subst ha
      obtain ⟨h1, h2, h3⟩ := need_own hr hrest he
      rw [List.count_cons_self] at h
      refine ih _ h2 (by omega) ?_
      rcases h1 with h1 | h1
      · have : s.pc r = .exit := by
          unfold need at h1
          split at h1
          · assumption
          all_goals omega
        have : step n s (.runner r) = s := by
          unfold step runStep
          simp only [this]
          split <;> rfl
        rw [this]
        omega
      · omega
    · obtain ⟨h1, h2, h3⟩ := need_other (n := n) (r := r) hrest ha
      rw [List.count_cons_of_ne ha] at h
      exact ih _ h2 (by omega) (by omega)

/-- How many steps the sender still needs. -/
theorem sender_ends {α : Type} {n : Nat} (as : List Act) : ∀ s : St α, s.ended ≤ n →
    s.rest.length + (n - s.ended) ≤ as.count .sender →
    (as.foldl (step n) s).rest = [] ∧ (as.foldl (step n) s).ended = n := by
  have run : ∀ (s : St α) r, (runStep s r).rest = s.rest ∧ (runStep s r).ended = s.ended := by
    intro s r
    unfold runStep
    split
    · exact ⟨rfl, rfl⟩
    · exact ⟨rfl, rfl⟩
    · split <;> exact ⟨rfl, rfl⟩
    · exact ⟨rfl, rfl⟩
    · exact ⟨rfl, rfl⟩
  induction as with
  | nil =>
    intro s h1 h2
    simp only [List.count_nil] at h2
    rw [List.foldl_nil]
    exact ⟨List.length_eq_zero_iff.1 (by omega), by omega⟩
  | cons a as ih =>
    intro s h1 h2
    rw [List.foldl_cons]
    cases a with
    | sender =>
      rw [List.count_cons_self] at h2
      apply ih
      · unfold step sendStep
        simp only
        split
        · exact h1
        · split
          · simp only; omega
          · exact h1
      · unfold step sendStep
        simp only
        split
        · rename_i hr; simp only [hr, List.length_cons] at h2; simp only; omega
        · rename_i hr
          simp only [hr, List.length_nil] at h2
          split
          · simp only [hr, List.length_nil]; omega
          · rw [hr, List.length_nil]; omega
    | runner r =>
      rw [List.count_cons_of_ne (by intro h; cases h)] at h2
      apply ih
      · unfold step
        simp only
        split
        · rw [(run s r).2]; exact h1
        · exact h1
      · unfold step
        simp only
        split
        · rw [(run s r).1, (run s r).2]; exact h2
        · exact h2

theorem ended_stays {α : Type} {n : Nat} (as : List Act) (s : St α) (h1 : s.rest = [])
    (h2 : s.ended = n) : (as.foldl (step n) s).rest = [] ∧ (as.foldl (step n) s).ended = n :=
  sender_ends as s (by omega) (by rw [h1, h2]; simp)

end Verif.Cofor
