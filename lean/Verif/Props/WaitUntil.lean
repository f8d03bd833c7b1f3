import Verif.Proof.WaitUntilRun
/-!
C81: a `waituntil` statement with `and`, `or` and `when` executes clauses until the executed clauses satisfy its condition, no more than are
needed, each at most once; and it does not sleep when the available clauses are enough. Two classes of statements are compiled wrongly.

C82: when a `waituntil` statement has finished, no thread uses its variables. This is not so for futures.
-/
namespace Verif.WaitUntil
open Verif

/-! C81: the condition that the generated code tests. -/

/-- The generated code stops waiting exactly when the executed clauses satisfy the condition, for a statement in which no right operand of `or`
    is itself an `or` (in parentheses), and which has an enabled clause, or whose outermost operator is `and`, or which has no `and`. -/
theorem C81_condition_partial (t : Tree) (g x : Nat → Bool) (hp : t.noRightOr = true) (hx : ∀ i, x i = true → t.enabled g 0 i = true)
    (hon : (∃ l r, t = .and l r) ∨ (∃ i, t.enabled g 0 i = true) ∨ t.hasAnd = false) : finished t g x = t.satisfied (t.enabled g 0) x := by
  simp only [finished, allOr_eq hp]
  cases ha : t.hasAnd with
  | true =>
    simp only [Bool.not_true, Bool.false_eq_true, if_false]
    refine runSat_initial t g x hx ?_
    rcases hon with h | h | h
    · exact Or.inl h
    · exact Or.inr h
    · rw [ha] at h; cases h
  | false =>
    simp only [Bool.not_false, if_true]
    have hc := cond_or (on := t.enabled g 0) (x := x) t ha 0
    have hs : skipped t g = true ↔ t.cond (t.enabled g 0) x 0 = none := by
      rw [hc.1]
      simp only [skipped, List.all_eq_true, List.mem_range]
      constructor
      · intro h i h1 h2
        have := h i (by omega)
        rw [guarded_enabled g t h1 h2] at this
        simpa using this
      · intro h i hi
        rw [guarded_enabled g t (Nat.zero_le _) (by omega), h i (Nat.zero_le _) (by omega)]
        rfl
    rw [Tree.satisfied]
    cases hv : t.cond (t.enabled g 0) x 0 with
    | none => rw [hs.2 hv]; rfl
    | some v =>
      have h1 : skipped t g = false := by
        cases h : skipped t g with
        | false => rfl
        | true => rw [hs.1 h] at hv; cases hv
      have h2 := hc.2 v hv
      rw [h1, Bool.false_or, Option.getD_some, Bool.eq_iff_iff, h2, List.any_eq_true]
      constructor
      · rintro ⟨i, hi, hxi⟩
        exact ⟨i, Nat.zero_le _, by have := List.mem_range.1 hi; omega, hx i hxi, hxi⟩
      · rintro ⟨i, _, hi, _, hxi⟩
        exact ⟨i, List.mem_range.2 (by omega), hxi⟩

/-- `when( g ) a and b or c and when( h ) d`, for all four values of the conditions. -/
example : (Tree.or (.and (.leaf true) (.leaf false)) (.and (.leaf false) (.leaf true))).noRightOr = true ∧
    (∀ g : Nat → Bool, Tree.enabled g (.or (.and (.leaf true) (.leaf false)) (.and (.leaf false) (.leaf true))) 0 1 = true) := by
  refine ⟨by decide, fun g => by simp [Tree.enabled, Tree.leaves]⟩

example : finished (.or (.and (.leaf true) (.leaf false)) (.and (.leaf false) (.leaf true))) (fun i => i != 3) (fun i => i == 2) = true ∧
    finished (.or (.and (.leaf true) (.leaf false)) (.and (.leaf false) (.leaf true))) (fun _ => true) (fun i => i == 2) = false := by decide

/-- `( a and b ) or ( c or d )` is compiled as `a or b or c or d`: it continues after `a` alone. -/
theorem C81_allor_violated : ∃ (t : Tree) (g x : Nat → Bool), (∀ i, x i = true → t.enabled g 0 i = true) ∧ (∀ i, i < t.leaves → t.enabled g 0 i = true) ∧
    finished t g x = true ∧ t.satisfied (t.enabled g 0) x = false :=
  ⟨.or (.and (.leaf false) (.leaf false)) (.or (.leaf false) (.leaf false)), fun _ => true, fun i => i == 0,
    fun i => by simp [Tree.enabled]; exact fun h => Or.inl (Or.inl h), by decide, by decide, by decide⟩

/-- `when( g0 ) a or when( g1 ) b or when( g2 ) c and when( g3 ) d`, with all conditions false: nothing is enabled, and the statement never ends. -/
theorem C81_guards_violated : ∃ (t : Tree) (g : Nat → Bool) (res : Nat → Res), t.noRightOr = true ∧ (∀ i, t.enabled g 0 i = false) ∧
    t.satisfied (t.enabled g 0) (fun _ => false) = true ∧ finished t g (fun _ => false) = false ∧
    ∃ s, Reach (next t g res) (start t g) s ∧ s.pc = .park ∧ ∀ a, next t g res s a = none := by
  let t : Tree := .or (.or (.leaf true) (.leaf true)) (.and (.leaf true) (.leaf true))
  let res : Nat → Res := fun _ => ⟨true, true⟩
  let s := (exec (next t (fun _ => false) res) (start t (fun _ => false)) (List.replicate 6 .step)).getD (start t (fun _ => false))
  have hreach : Reach (next t (fun _ => false) res) (start t (fun _ => false)) s := Reach.of_isSome _ (by decide +kernel)
  have hon : ∀ i, t.enabled (fun _ => false) 0 i = false := fun i => by simp [t, Tree.enabled]
  have hi := inv_reach hreach
  refine ⟨t, fun _ => false, res, by decide, hon, by decide, by decide, s, hreach, by decide +kernel, fun a => ?_⟩
  cases a with
  | step => 
    have h1 : s.pc = .park := by decide +kernel
    have h2 : s.token = false := by decide +kernel
    simp only [next, step, h1, h2]; rfl
  | avail i =>
    simp only [next]
    rw [if_neg]
    rintro ⟨h, _⟩
    have := hi.reg i h
    rw [hon] at this; cases this
  | count i =>
    simp only [next]
    rw [if_neg]
    intro h
    have := hi.known i h
    rw [hon] at this; cases this

/-! C81: the execution of the general form of the generated code, for every schedule of the threads that make clauses available. -/

theorem satisfied_off {t : Tree} {on : Nat → Bool} (x : Nat → Bool) (h : ∀ i, on i = false) : t.satisfied on x = true := by
  have : ∀ k, t.cond on x k = none := by
    induction t with
    | leaf b => intro k; simp [Tree.cond, h]
    | and l r ihl ihr => intro k; simp [Tree.cond, ihl, ihr]
    | or l r ihl ihr => intro k; simp [Tree.cond, ihl, ihr]
  simp [Tree.satisfied, this]

/-- When the statement has finished, the clauses it has executed satisfy the condition. -/
theorem C81_done {t : Tree} {g : Nat → Bool} {res : Nat → Res} {s : State} (h : Reach (next t g res) (start t g) s) (hd : s.pc = .done) :
    t.satisfied (t.enabled g 0) (fun i => decide (i ∈ s.ran)) = true := by
  have hi := inv_reach h
  by_cases hon : ∃ i, t.enabled g 0 i = true
  · rw [← runSat_initial t g _ (fun i hx => hi.ran i (by simpa using hx)) (Or.inr hon), ← hi.runSat_ran]
    exact hi.fin (by rw [hd]; trivial)
  · exact satisfied_off _ (fun i => by
      cases e : t.enabled g 0 i with
      | false => rfl
      | true => exact absurd ⟨i, e⟩ hon)

/-- It executes no clause when those it has already executed satisfy the condition. -/
theorem C81_needed {t : Tree} {g : Nat → Bool} {res : Nat → Res} {s : State} (h : Reach (next t g res) (start t g) s) {before after : List Nat} {i : Nat}
    (hr : s.ran = before ++ i :: after) : t.satisfied (t.enabled g 0) (fun j => decide (j ∈ before)) = false := by
  have hi := inv_reach h
  rw [← runSat_initial t g _ (fun j hx => hi.ran j (by rw [hr]; simp at hx; simp [hx])) (Or.inr ⟨i, hi.ran i (by rw [hr]; simp)⟩)]
  exact hi.need _ _ _ hr

/-- A clause is executed at most once, only if it is enabled, and only after it was made available. A clause that is executed after the condition
    was satisfied is one whose operation has already been performed. -/
theorem C81_once {t : Tree} {g : Nat → Bool} {res : Nat → Res} {s : State} (h : Reach (next t g res) (start t g) s) :
    (s.ran ++ s.late).Nodup ∧ (∀ i ∈ s.ran ++ s.late, t.enabled g 0 i = true ∧ s.st i ≠ .unsat) ∧ ∀ i ∈ s.late, (res i).keeps = true := by
  have hi := inv_reach h
  refine ⟨?_, fun i hm => ?_, fun i hm => (hi.late.2 i hm).2.2⟩
  · rw [List.nodup_append]
    refine ⟨hi.nodup, hi.late.1, ?_⟩
    rintro a ha b hb rfl
    have h1 := (hi.run a).2 (Or.inl ha)
    rw [(hi.late.2 a hb).1] at h1; cases h1
  · rcases List.mem_append.1 hm with hm | hm
    · refine ⟨hi.ran i hm, ?_⟩
      rw [(hi.run i).2 (Or.inl hm)]; simp
    · have := (hi.late.2 i hm).1
      exact ⟨hi.sat i this, by rw [this]; simp⟩

/-- No performed operation is lost: when the statement has finished, each clause that was made available has been executed, if its resource
    performs the operation when it makes the clause available. -/
theorem C81_kept {t : Tree} {g : Nat → Bool} {res : Nat → Res} {s : State} (h : Reach (next t g res) (start t g) s) (hd : s.pc = .done) {i : Nat}
    (he : t.enabled g 0 i = true) (hk : (res i).keeps = true) (ha : s.st i ≠ .unsat) : i ∈ s.ran ++ s.late := by
  have hi := inv_reach h
  cases hs : s.st i with
  | unsat => exact absurd hs ha
  | run =>
    rcases (hi.run i).1 hs with h | h
    · exact List.mem_append_left _ h
    · rw [initial_enabled he] at h; cases h
  | sat =>
    refine List.mem_append_right _ (hi.kept i ?_ (by rw [hd]; trivial) hk hs)
    have := (enabled_range t he).2
    omega

/-- The statement does not loop: the number of steps of all threads is bounded. -/
theorem C81_terminates {t : Tree} {g : Nat → Bool} {res : Nat → Res} {as : List Act} {s : State} (h : exec (next t g res) (start t g) as = some s) :
    as.length ≤ (t.leaves + 1) * (2 * t.leaves + 5) + 4 * t.leaves + 5 := by
  have h1 := exec_bound as (inv_start t g res) h
  have h2 := measure_start t g
  have : (as.length : Int) ≤ ((t.leaves + 1) * (2 * t.leaves + 5) + 4 * t.leaves + 5 : Nat) := Int.le_trans h1 (Int.le_trans h2 (by simp))
  exact Int.ofNat_le.1 this

/-- When no thread can take a step until a further clause becomes available, the statement has finished, or the clauses that were made available
    do not satisfy the condition. For statements whose outermost operator is `and` or which have an enabled clause. -/
theorem C81_no_missed_wakeup_partial {t : Tree} {g : Nat → Bool} {res : Nat → Res} {s : State} (h : Reach (next t g res) (start t g) s)
    (hon : (∃ l r, t = .and l r) ∨ ∃ i, t.enabled g 0 i = true) (hq : ∀ a, (∀ i, a ≠ .avail i) → next t g res s a = none) :
    s.pc = .done ∨ t.satisfied (t.enabled g 0) (fun i => t.enabled g 0 i && s.st i != .unsat) = false := by
  have hi := inv_reach h
  have hinc : ∀ i, s.inc i = false := by
    intro i
    have := hq (.count i) (by simp)
    simp only [next] at this
    split at this
    · cases this
    · next h => simpa using h
  have hstep : step t g res s = none := hq .step (by simp)
  have hpark : s.pc = .done ∨ s.pc = .park ∧ s.token = false := by
    simp only [step, hinc] at hstep
    cases hpc : s.pc with
    | done => exact Or.inl rfl
    | park =>
      refine Or.inr ⟨rfl, ?_⟩
      simp only [hpc] at hstep
      split at hstep
      · cases hstep
      · next h => simpa using h
    | _ => simp only [hpc, Bool.and_false, Bool.false_eq_true, if_false] at hstep; exfalso; revert hstep; repeat' split
           all_goals simp
  refine hpark.imp id fun ⟨hp, htok⟩ => ?_
  have hx : ∀ i, (t.enabled g 0 i && s.st i != .unsat) = decide (i ∈ s.ran) := by
    intro i
    have hc := hi.count
    simp only [Count, hp] at hc
    have hz := hc.resolve_right (by simp [htok])
    rw [Bool.eq_iff_iff]
    constructor
    · intro hm
      simp at hm
      have hlt := (enabled_range t hm.1).2
      have hd := cnt_zero (Int.le_of_eq hz.2.2) (i := i) (by omega)
      simp [due, hinc] at hd
      cases hs : s.st i with
      | unsat => exact absurd hs hm.2
      | sat => exact absurd hs hd
      | run =>
        rcases (hi.run i).1 hs with h | h
        · simpa using h
        · rw [initial_enabled hm.1] at h; cases h
    · intro hm
      have hm : i ∈ s.ran := by simpa using hm
      simp [hi.ran i hm, (hi.run i).2 (Or.inl hm)]
  rw [show (fun i => t.enabled g 0 i && s.st i != .unsat) = fun i => decide (i ∈ s.ran) from funext hx,
    ← runSat_initial t g _ (fun i hm => hi.ran i (by simpa using hm)) hon, ← hi.runSat_ran]
  exact hi.idle hp

/-- `a and b` on channels: sleeps after `a` alone, then `b` becomes available, and it finishes. -/
example : ∃ s, Reach (next (.and (.leaf false) (.leaf false)) (fun _ => true) (fun _ => ⟨true, true⟩)) (start (.and (.leaf false) (.leaf false)) (fun _ => true)) s ∧
    s.pc = .park ∧ s.token = false ∧ s.inc 0 = false ∧ s.inc 1 = false ∧ s.ran = [0] :=
  ⟨(exec (next (.and (.leaf false) (.leaf false)) (fun _ => true) (fun _ => ⟨true, true⟩)) (start (.and (.leaf false) (.leaf false)) (fun _ => true))
    [.step, .step, .step, .step, .avail 0, .count 0, .step, .step, .step, .step, .step, .step]).getD (start (.and (.leaf false) (.leaf false)) (fun _ => true)),
    Reach.of_isSome _ (by decide +kernel), by decide +kernel, by decide +kernel, by decide +kernel, by decide +kernel, by decide +kernel⟩

/-- `a or b and c`: `b` and `a` become available at the same time; `a` is executed and is enough, and `b`, whose operation has been performed, is
    executed in the `finally` clause. -/
example : ∃ s, Reach (next (.or (.leaf false) (.and (.leaf false) (.leaf false))) (fun _ => true) (fun _ => ⟨true, true⟩))
      (start (.or (.leaf false) (.and (.leaf false) (.leaf false))) (fun _ => true)) s ∧ s.pc = .done ∧ s.ran = [0] ∧ s.late = [1] :=
  ⟨(exec (next (.or (.leaf false) (.and (.leaf false) (.leaf false))) (fun _ => true) (fun _ => ⟨true, true⟩))
      (start (.or (.leaf false) (.and (.leaf false) (.leaf false))) (fun _ => true))
    [.step, .step, .step, .step, .step, .avail 1, .avail 0, .count 0, .count 1, .step, .step, .step, .step, .step, .step, .step, .step, .step]).getD
      (start (.or (.leaf false) (.and (.leaf false) (.leaf false))) (fun _ => true)),
    Reach.of_isSome _ (by decide +kernel), by decide +kernel, by decide +kernel, by decide +kernel⟩

/-! C82 -/

/-- When the statement has finished, no resource refers to it and no thread is still to increment its counter, if each resource waits in
    `unregister_select$` for a thread that is making the clause available. -/
theorem C82_finished_partial {t : Tree} {g : Nat → Bool} {res : Nat → Res} {s : State} (h : Reach (next t g res) (start t g) s)
    (hs : ∀ i, (res i).sync = true) (hd : s.pc = .done) : ∀ i, s.reg i = false ∧ s.inc i = false := by
  have hi := inv_reach h
  have hreg : ∀ i, s.reg i = false := by
    intro i
    cases hr : s.reg i with
    | false => rfl
    | true =>
      have := (enabled_range t (hi.reg i hr)).2
      rw [hi.left i (by omega) (by rw [hd]; trivial)] at hr
      cases hr
  refine fun i => ⟨hreg i, ?_⟩
  cases hr : s.inc i with
  | false => rfl
  | true => have := hi.sync hs i hr; rw [hreg] at this; cases this

example : ∃ s, Reach (next (.and (.leaf false) (.leaf false)) (fun _ => true) (fun _ => ⟨true, true⟩)) (start (.and (.leaf false) (.leaf false)) (fun _ => true)) s ∧
    s.pc = .done ∧ s.ran = [0, 1] :=
  ⟨(exec (next (.and (.leaf false) (.leaf false)) (fun _ => true) (fun _ => ⟨true, true⟩)) (start (.and (.leaf false) (.leaf false)) (fun _ => true))
    [.step, .step, .step, .step, .avail 0, .count 0, .step, .step, .step, .avail 1, .step, .count 1, .step, .step, .step, .step, .step, .step]).getD
      (start (.and (.leaf false) (.leaf false)) (fun _ => true)),
    Reach.of_isSome _ (by decide +kernel), by decide +kernel, by decide +kernel⟩

/-- For two futures, `f and g`: the statement has executed both clauses and has finished, and the thread that fulfils `g` is still to increment
    the counter of the statement, and to wake the thread if the counter is then zero. -/
theorem C82_futures_violated : ∃ s, Reach (next (.and (.leaf false) (.leaf false)) (fun _ => true) (fun _ => ⟨false, false⟩)) (start (.and (.leaf false) (.leaf false)) (fun _ => true)) s ∧
    s.pc = .done ∧ s.ran = [0, 1] ∧ s.inc 1 = true :=
  ⟨(exec (next (.and (.leaf false) (.leaf false)) (fun _ => true) (fun _ => ⟨false, false⟩)) (start (.and (.leaf false) (.leaf false)) (fun _ => true))
    [.step, .step, .step, .step, .avail 0, .count 0, .step, .step, .step, .avail 1, .step, .step, .step, .step, .step, .step, .step]).getD
      (start (.and (.leaf false) (.leaf false)) (fun _ => true)),
    Reach.of_isSome _ (by decide +kernel), by decide +kernel, by decide +kernel, by decide +kernel⟩

end Verif.WaitUntil
