import Verif.Proof.Cofor

/-!
# C113: parallel loops
-/

namespace Verif.Cofor

/-! ## `COFOR` -/

theorem cofor_shape (low high p : Int) (h0 : low < high) (h : high - low < 9223372036854775808)
    (hp : 1 ≤ p) : ∃ (q t : Int) (e u : Nat), 1 ≤ q ∧ t = (if high - low < p then high - low else p) ∧
      (e : Int) + u = t ∧ e * (q + 1) + u * q = high - low ∧
      cofor low high p = tasks e low (q + 1) ++ tasks u (low + e * (q + 1)) q := by
  have hr : (high - low).bmod 18446744073709551616 = high - low :=
    Int.bmod_eq_of_le (by omega) (by omega)
  unfold cofor
  simp only [hr]
  rw [if_neg (show ¬ high - low ≤ 0 by omega), if_neg (show ¬ p = 0 by omega)]
  generalize hR : high - low = R at *
  generalize hT : (if R < p then R else p) = T
  have hT1 : 1 ≤ T ∧ T ≤ R := by
    rw [← hT]; split <;> omega
  rw [Int.tdiv_eq_ediv_of_nonneg (by omega), Int.tmod_eq_emod_of_nonneg (by omega)]
  have hm := Int.emod_nonneg R (show T ≠ 0 by omega)
  have hm2 := Int.emod_lt_of_pos R (show 0 < T by omega)
  have hq : 1 ≤ R / T := by
    rw [Int.le_ediv_iff_mul_le (by omega)]; omega
  have hd := Int.mul_ediv_add_emod R T
  refine ⟨R / T, T, (R % T).toNat, (T - R % T).toNat, hq, rfl, by omega, ?_, ?_⟩
  · rw [Int.toNat_of_nonneg hm, Int.toNat_of_nonneg (by omega)]
    nlinarith
  · rw [Int.toNat_of_nonneg hm]
    rw [show R / T + 1 - 1 = R / T from by omega]

/-- C113, `COFOR`: on at least one processor, the tasks together call the body for exactly the numbers
from `low` up to `high`, each once, for all bounds whose difference is a `ssize_t`. -/
theorem C113_COFOR_partial (low high p : Int) (h : high - low < 9223372036854775808)
    (h' : -9223372036854775808 ≤ high - low) (hp : 1 ≤ p) :
    (cofor low high p).flatMap taskMain = ints low high := by
  by_cases h0 : low < high
  · obtain ⟨q, t, e, u, h1, _, _, h4, h5⟩ := cofor_shape low high p h0 h hp
    have he : 0 ≤ (e : Int) * (q + 1) := Int.mul_nonneg (by omega) (by omega)
    have hu : 0 ≤ (u : Int) * q := Int.mul_nonneg (by omega) (by omega)
    rw [h5, List.flatMap_append, tasks_run _ (by omega), tasks_run _ (by omega),
      ints_append _ _ _ (by omega) (by omega)]
    congr 1
    omega
  · have hr : (high - low).bmod 18446744073709551616 = high - low :=
      Int.bmod_eq_of_le (by omega) (by omega)
    unfold cofor
    simp only [hr]
    rw [if_pos (by omega)]
    unfold ints
    rw [show (high - low).toNat = 0 from by omega]
    rfl

/-- Ten numbers on four processors. -/
example : cofor (-3) 7 4 = [(-3, 0), (0, 3), (3, 5), (5, 7)] ∧
    (cofor (-3) 7 4).flatMap taskMain = [-3, -2, -1, 0, 1, 2, 3, 4, 5, 6] := by decide +kernel

/-- C113, `COFOR`, balance: there are as many tasks as processors, or as numbers if these are fewer;
each has something to do, and the numbers of any two differ by at most one. -/
theorem C113_balance (low high p : Int) (h0 : low < high) (h : high - low < 9223372036854775808)
    (hp : 1 ≤ p) :
    ((cofor low high p).length : Int) = min (high - low) p ∧
    (∀ t ∈ cofor low high p, t.1 < t.2) ∧
    ∀ t ∈ cofor low high p, ∀ t' ∈ cofor low high p, t.2 - t.1 ≤ t'.2 - t'.1 + 1 := by
  obtain ⟨q, t, e, u, h1, h2, h3, _, h5⟩ := cofor_shape low high p h0 h hp
  have size : ∀ x ∈ cofor low high p, x.2 - x.1 = q + 1 ∨ x.2 - x.1 = q := by
    intro x hx
    rw [h5] at hx
    rcases List.mem_append.1 hx with hx | hx
    · exact Or.inl (tasks_size _ _ _ x hx)
    · exact Or.inr (tasks_size _ _ _ x hx)
  refine ⟨?_, ?_, ?_⟩
  · rw [h5, List.length_append, tasks_length, tasks_length]
    push_cast
    split at h2 <;> omega
  · intro x hx; rcases size x hx with hh | hh <;> omega
  · intro x hx y hy
    rcases size x hx with hh | hh <;> rcases size y hy with hh' | hh' <;> omega

/-- C113 fails: bounds whose difference is not a `ssize_t`, and the body is never called. -/
theorem C113_overflow_violated (p : Int) : cofor (-9223372036854775808) 9223372036854775807 p = [] ∧
    cofor (-1) 9223372036854775807 p = [] := by
  constructor <;>
  · unfold cofor
    rw [if_pos (by decide)]

/-! ## `cofor` -/

/-- C113, `cofor`: in every execution, when the statement is finished the body has been run once for
each iteration, on the runners in turn, and by each runner in the order of the loop. -/
theorem C113_cofor {α : Type} (n : Nat) (hn : 0 < n) (vals : List α) (as : List Act)
    (hf : Finished n (as.foldl (step n) (.init vals))) :
    (∀ r, r < n → (as.foldl (step n) (.init vals)).log r = deal n r vals) ∧
    ((List.range n).flatMap (as.foldl (step n) (.init vals)).log).Perm vals := by
  have h := run_inv_init hn vals as
  generalize as.foldl (step n) (.init vals) = s at *
  obtain ⟨sent, h1, _, h3⟩ := h.sent
  rw [hf.1, List.append_nil] at h1
  subst h1
  have key : ∀ r, r < n → s.log r = deal n r vals := by
    intro r hr
    have hp := hf.2.2 r hr
    have := h3 r hr
    rw [hp, (h.exit r hr hp).2] at this
    simpa [Pc.now] using this
  refine ⟨key, ?_⟩
  have : (List.range n).flatMap s.log = (List.range n).flatMap fun r => deal n r vals := by
    rw [List.flatMap_def, List.flatMap_def]
    congr 1
    exact List.map_congr_left fun r hr => key r (List.mem_range.1 hr)
  rw [this]
  exact deal_perm n hn vals

/-- C113, `cofor`, at most once: at every moment of every execution, what a runner has run is the start
of the iterations that are its own. -/
theorem C113_once {α : Type} (n : Nat) (hn : 0 < n) (vals : List α) (as : List Act) (r : Nat)
    (hr : r < n) : (as.foldl (step n) (.init vals)).log r <+: deal n r vals := by
  have h := run_inv_init hn vals as
  generalize as.foldl (step n) (.init vals) = s at *
  obtain ⟨sent, h1, _, h3⟩ := h.sent
  rw [h1]
  refine List.IsPrefix.trans ?_ (deal_prefix n r sent s.rest)
  rw [← h3 r hr, List.append_assoc]
  exact List.prefix_append _ _

/-- C113, `cofor`, end: the statement ends.  Whatever the schedule, once the loop has made a step for
each iteration and each runner, and then each runner four steps for each iteration and three more, it
is finished. -/
theorem C113_ends {α : Type} (n : Nat) (hn : 0 < n) (vals : List α) (as bs : List Act)
    (ha : vals.length + n ≤ as.count .sender)
    (hb : ∀ r, r < n → 4 * vals.length + 3 ≤ bs.count (.runner r)) :
    Finished n ((as ++ bs).foldl (step n) (.init vals)) := by
  rw [List.foldl_append]
  have h := run_inv_init hn vals as
  obtain ⟨h1, h2⟩ := sender_ends (n := n) as (.init vals) (Nat.zero_le _) (by simpa [St.init] using ha)
  generalize as.foldl (step n) (.init vals) = s at *
  obtain ⟨h3, h4⟩ := ended_stays bs s h1 h2
  refine ⟨h3, h4, ?_⟩
  intro r hr
  exact runner_ends hr bs s h1 (by omega) (Nat.le_trans (need_le h hr) (hb r hr))

/-- Three iterations on two runners, which turn with the sender. -/
example : ((List.replicate 20 [Act.sender, .runner 0, .runner 1]).flatten.foldl (step 2)
      (.init [10, 11, 12])).log 0 = [10, 12] ∧
    ((List.replicate 20 [Act.sender, .runner 0, .runner 1]).flatten.foldl (step 2)
      (.init [10, 11, 12])).log 1 = [11] ∧
    ((List.replicate 20 [Act.sender, .runner 0, .runner 1]).flatten.foldl (step 2)
      (.init [10, 11, 12])).pc 1 = .exit ∧ deal 2 0 [10, 11, 12] = [10, 12] := by decide +kernel

end Verif.Cofor
