import Verif.Model.RangeLoop
/-
  C77.  for (i; lo ~ hi ~ step) executes its body for lo, lo+step, ... below hi (up to and including hi for ~=), and the
  descending forms -~, -~= for hi, hi-step, ... above lo (down to lo), and then ends.
  Holds when the first value after the range is a value of the index type (`C77_up_partial`, `C77_down_partial`);
  otherwise the loop does not end or is undefined (`C77_up_violated`, `C77_down_violated`, `C77_index_type_violated`).
-/
namespace Verif.RangeLoop

def IntTy.Has (t : IntTy) (x : Int) : Prop := t.min ≤ x ∧ x ≤ t.max

theorem pow_succ_int (w : Nat) : (2 : Int) ^ (w + 1) = 2 * 2 ^ w := by rw [Int.pow_succ]; omega

theorem pow_pos_int (w : Nat) : (0 : Int) < 2 ^ w := Int.pow_pos (by decide)

theorem wrap_has (t : IntTy) {x : Int} (h : t.Has x) : t.wrap x = x := by
  unfold IntTy.wrap
  have h1 := pow_succ_int t.w
  have h2 := pow_pos_int t.w
  obtain ⟨a, b⟩ := h
  unfold IntTy.max at b
  unfold IntTy.min at *
  split at a <;> simp_all only [if_true, if_false] <;> rw [Int.emod_eq_of_lt] <;> simp <;> omega

/-- The values `lo, lo + step, ...`: the first `n` of them. -/
def ascending (lo step : Int) (n : Nat) : List Int := (List.range n).map (fun k : Nat => lo + (k : Int) * step)

def descending (hi step : Int) (n : Nat) : List Int := (List.range n).map (fun k : Nat => hi - (k : Int) * step)

theorem ascending_succ (lo step : Int) (n : Nat) :
    ascending lo step (n + 1) = lo :: ascending (lo + step) step n := by
  simp only [ascending, List.range_succ_eq_map, List.map_cons, List.map_map]
  congr 1
  · simp
  · apply List.map_congr_left
    intro k _
    simp only [Function.comp, Nat.succ_eq_add_one, Int.natCast_add, Int.add_mul]
    omega

theorem descending_succ (hi step : Int) (n : Nat) :
    descending hi step (n + 1) = hi :: descending (hi - step) step n := by
  simp only [descending, List.range_succ_eq_map, List.map_cons, List.map_map]
  congr 1
  · simp
  · apply List.map_congr_left
    intro k _
    simp only [Function.comp, Nat.succ_eq_add_one, Int.natCast_add, Int.add_mul]
    omega

theorem turns_up {p : Loop} (hup : p.op.up = true) (hstep : 0 < p.inc) :
    ∀ (n : Nat) (i : Int), (∀ k : Nat, k < n → p.op.test (i + k * p.inc) p.bound = true) →
      p.op.test (i + n * p.inc) p.bound = false → p.ty.min ≤ i → i + n * p.inc ≤ p.ty.max →
      ∀ m, n < m → turns p m i = .done (ascending i p.inc n) := by
  intro n
  induction n with
  | zero =>
    intro i _ h2 _ _ m hm
    obtain ⟨m, rfl⟩ : ∃ k, m = k + 1 := ⟨m - 1, by omega⟩
    have : p.op.test i p.bound = false := by simpa using h2
    simp [turns, this, ascending]
  | succ n ih =>
    intro i h1 h2 h3 h4 m hm
    obtain ⟨m, rfl⟩ : ∃ k, m = k + 1 := ⟨m - 1, by omega⟩
    have ht : p.op.test i p.bound = true := by simpa using h1 0 (by omega)
    have hmul : ∀ k : Nat, ((k + 1 : Nat) : Int) * p.inc = k * p.inc + p.inc := by
      intro k; rw [Int.natCast_add, Int.add_mul]; simp
    have hnn : (0 : Int) ≤ n * p.inc := Int.mul_nonneg (by omega) (by omega)
    rw [hmul] at h2 h4
    rw [turns, if_pos ht]
    simp only [hup, if_true]
    rw [if_pos ⟨by omega, by omega⟩,
      ih (i + p.inc) (fun k hk => by
        have := h1 (k + 1) (by omega)
        rw [hmul] at this
        rw [show i + p.inc + k * p.inc = i + (k * p.inc + p.inc) by omega]; exact this)
        (by rw [show i + p.inc + n * p.inc = i + (n * p.inc + p.inc) by omega]; exact h2) (by omega) (by omega) m (by omega),
      ascending_succ]
    rfl

theorem turns_down {p : Loop} (hup : p.op.up = false) (hstep : 0 < p.inc) :
    ∀ (n : Nat) (i : Int), (∀ k : Nat, k < n → p.op.test (i - k * p.inc) p.bound = true) →
      p.op.test (i - n * p.inc) p.bound = false → i ≤ p.ty.max → p.ty.min ≤ i - n * p.inc →
      ∀ m, n < m → turns p m i = .done (descending i p.inc n) := by
  intro n
  induction n with
  | zero =>
    intro i _ h2 _ _ m hm
    obtain ⟨m, rfl⟩ : ∃ k, m = k + 1 := ⟨m - 1, by omega⟩
    have : p.op.test i p.bound = false := by simpa using h2
    simp [turns, this, descending]
  | succ n ih =>
    intro i h1 h2 h3 h4 m hm
    obtain ⟨m, rfl⟩ : ∃ k, m = k + 1 := ⟨m - 1, by omega⟩
    have ht : p.op.test i p.bound = true := by simpa using h1 0 (by omega)
    have hmul : ∀ k : Nat, ((k + 1 : Nat) : Int) * p.inc = k * p.inc + p.inc := by
      intro k; rw [Int.natCast_add, Int.add_mul]; simp
    have hnn : (0 : Int) ≤ n * p.inc := Int.mul_nonneg (by omega) (by omega)
    rw [hmul] at h2 h4
    rw [turns, if_pos ht]
    simp only [hup, Bool.false_eq_true, if_false]
    rw [if_pos ⟨by omega, by omega⟩,
      ih (i - p.inc) (fun k hk => by
        have := h1 (k + 1) (by omega)
        rw [hmul] at this
        rw [show i - p.inc - k * p.inc = i - (k * p.inc + p.inc) by omega]; exact this)
        (by rw [show i - p.inc - n * p.inc = i - (n * p.inc + p.inc) by omega]; exact h2) (by omega) (by omega) m (by omega),
      descending_succ]
    rfl

/-- How many values of `0, step, 2*step, ...` are below `d`. -/
theorem count_exists (d step : Int) (hs : 0 < step) :
    ∃ n : Nat, (∀ k : Nat, k < n → (k : Int) * step < d) ∧ d ≤ n * step ∧ (n = 0 ∨ (n : Int) * step < d + step) := by
  have hex : ∃ n : Nat, d ≤ n * step := by
    refine ⟨d.toNat, ?_⟩
    have : (d.toNat : Int) * 1 ≤ d.toNat * step := Int.mul_le_mul_of_nonneg_left (by omega) (by omega)
    omega
  obtain ⟨N, hN⟩ := hex
  induction N with
  | zero => exact ⟨0, by omega, hN, Or.inl rfl⟩
  | succ N ih =>
    by_cases h : d ≤ N * step
    · exact ih h
    · refine ⟨N + 1, ?_, hN, Or.inr ?_⟩
      · intro k hk
        have : (k : Int) * step ≤ N * step := Int.mul_le_mul_of_nonneg_right (by omega) (by omega)
        omega
      · rw [Int.natCast_add, Int.add_mul]
        omega

/-- The values of the range: those before the end `e` of it. -/
structure UpTo (lo step e : Int) (n : Nat) : Prop where
  inside : ∀ k : Nat, k < n → lo + k * step < e
  past : e ≤ lo + n * step

structure DownTo (hi step e : Int) (n : Nat) : Prop where
  inside : ∀ k : Nat, k < n → e < hi - k * step
  past : hi - n * step ≤ e

/-- The ascending loops, `~` (the end is `hi`) and `~=` (the end is `hi + 1`), when stepping over the end stays inside
the index type.  `n` turns are executed, however many more are allowed. -/
theorem C77_up_partial (t : IntTy) (lo hi step : Int) (hlo : t.Has lo) (hs : 0 < step) :
    (hi + step - 1 ≤ t.max → ∃ n, UpTo lo step hi n ∧
      ∀ m, n < m → run (desugar t .lt lo hi step) m = .done (ascending lo step n)) ∧
    (hi + step ≤ t.max → ∃ n, UpTo lo step (hi + 1) n ∧
      ∀ m, n < m → run (desugar t .le lo hi step) m = .done (ascending lo step n)) := by
  constructor
  · intro hmax
    obtain ⟨n, h1, h2, h3⟩ := count_exists (hi - lo) step hs
    refine ⟨n, ⟨fun k hk => by have := h1 k hk; omega, by omega⟩, ?_⟩
    intro m hm
    simp only [run, desugar, Op.up, if_true, wrap_has t hlo]
    apply turns_up rfl hs n lo
    · intro k hk; have := h1 k hk; simp [Op.test]; omega
    · simp [Op.test]; omega
    · exact hlo.1
    · rcases h3 with rfl | h3
      · simpa using hlo.2
      · simp only; omega
    · exact hm
  · intro hmax
    obtain ⟨n, h1, h2, h3⟩ := count_exists (hi + 1 - lo) step hs
    refine ⟨n, ⟨fun k hk => by have := h1 k hk; omega, by omega⟩, ?_⟩
    intro m hm
    simp only [run, desugar, Op.up, if_true, wrap_has t hlo]
    apply turns_up rfl hs n lo
    · intro k hk; have := h1 k hk; simp [Op.test]; omega
    · simp [Op.test]; omega
    · exact hlo.1
    · rcases h3 with rfl | h3
      · simpa using hlo.2
      · simp only; omega
    · exact hm

/-- The descending loops, `-~` (the end is `lo`) and `-~=` (the end is `lo - 1`). -/
theorem C77_down_partial (t : IntTy) (lo hi step : Int) (hhi : t.Has hi) (hs : 0 < step) :
    (t.min ≤ lo - step + 1 → ∃ n, DownTo hi step lo n ∧
      ∀ m, n < m → run (desugar t .gt lo hi step) m = .done (descending hi step n)) ∧
    (t.min ≤ lo - step → ∃ n, DownTo hi step (lo - 1) n ∧
      ∀ m, n < m → run (desugar t .ge lo hi step) m = .done (descending hi step n)) := by
  constructor
  · intro hmin
    obtain ⟨n, h1, h2, h3⟩ := count_exists (hi - lo) step hs
    refine ⟨n, ⟨fun k hk => by have := h1 k hk; omega, by omega⟩, ?_⟩
    intro m hm
    simp only [run, desugar, Op.up, Bool.false_eq_true, if_false, wrap_has t hhi]
    apply turns_down rfl hs n hi
    · intro k hk; have := h1 k hk; simp [Op.test]; omega
    · simp [Op.test]; omega
    · exact hhi.2
    · rcases h3 with rfl | h3
      · simpa using hhi.1
      · simp only; omega
    · exact hm
  · intro hmin
    obtain ⟨n, h1, h2, h3⟩ := count_exists (hi + 1 - lo) step hs
    refine ⟨n, ⟨fun k hk => by have := h1 k hk; omega, by omega⟩, ?_⟩
    intro m hm
    simp only [run, desugar, Op.up, Bool.false_eq_true, if_false, wrap_has t hhi]
    apply turns_down rfl hs n hi
    · intro k hk; have := h1 k hk; simp [Op.test]; omega
    · simp [Op.test]; omega
    · exact hhi.2
    · rcases h3 with rfl | h3
      · simpa using hhi.1
      · simp only; omega
    · exact hm

/-! ### Where the index type is too small -/

theorem wrap_range (t : IntTy) (x : Int) : t.Has (t.wrap x) := by
  unfold IntTy.Has IntTy.wrap IntTy.max IntTy.min
  have h1 := pow_succ_int t.w
  have h2 := pow_pos_int t.w
  have h3 := Int.emod_nonneg (x - (if t.signed then -2 ^ t.w else 0)) (b := 2 ^ (t.w + 1)) (by omega)
  have h4 := Int.emod_lt_of_pos (x - (if t.signed then -2 ^ t.w else 0)) (b := 2 ^ (t.w + 1)) (by omega)
  split <;> simp_all only [if_true, if_false] <;> simp at * <;> omega

/-- If the condition holds of every value of an unsigned index type, the loop never ends. -/
theorem never_ends {p : Loop} (hu : p.ty.signed = false) (hall : ∀ i, p.ty.Has i → p.op.test i p.bound = true) :
    ∀ (n : Nat) (i : Int), p.ty.Has i → ∃ l, turns p n i = .more l ∧ l.length = n := by
  intro n
  induction n with
  | zero => intro i _; exact ⟨[], rfl, rfl⟩
  | succ n ih =>
    intro i hi
    rw [turns, if_pos (hall i hi)]
    generalize (if p.op.up = true then i + p.inc else i - p.inc) = j
    simp only
    split
    · rename_i h
      obtain ⟨l, h1, h2⟩ := ih _ h
      exact ⟨i :: l, by rw [h1]; rfl, by simp [h2]⟩
    · simp only [hu, Bool.false_eq_true, if_false]
      obtain ⟨l, h1, h2⟩ := ih _ (wrap_range p.ty _)
      exact ⟨i :: l, by rw [h1]; rfl, by simp [h2]⟩

/-- `for ( i; lo ~= hi )` where `hi` is the largest value of an unsigned index type never ends. -/
theorem C77_up_violated (w : Nat) (lo step : Int) (n : Nat) :
    ∃ l, run (desugar ⟨false, w⟩ .le lo (IntTy.max ⟨false, w⟩) step) n = .more l ∧ l.length = n := by
  apply never_ends rfl
  · intro i hi; simp only [desugar, Op.up, if_true, Op.test, decide_eq_true_eq]; exact hi.2
  · exact wrap_range _ _

/-- `for ( i; 0 -~= hi )` with an unsigned index type never ends. -/
theorem C77_down_violated (w : Nat) (hi step : Int) (n : Nat) :
    ∃ l, run (desugar ⟨false, w⟩ .ge 0 hi step) n = .more l ∧ l.length = n := by
  apply never_ends rfl
  · intro i hi; simp only [desugar, Op.up, Bool.false_eq_true, if_false, Op.test, decide_eq_true_eq]; exact hi.1
  · exact wrap_range _ _

theorem undef_up {p : Loop} (hs : p.ty.signed = true) (hop : p.op = .lt) (hinc : p.inc = 1) (hb : p.ty.max < p.bound) :
    ∀ (n : Nat) (i : Int), p.ty.min ≤ i → i + n = p.ty.max → ∀ m, n < m → ∃ l, turns p m i = .undef l := by
  intro n
  induction n with
  | zero =>
    intro i h1 h2 m hm
    obtain ⟨m, rfl⟩ : ∃ k, m = k + 1 := ⟨m - 1, by omega⟩
    refine ⟨[i], ?_⟩
    rw [turns, if_pos (by simp [hop, Op.test]; omega)]
    simp only [hop, Op.up, if_true, hinc]
    rw [if_neg (by omega)]
    simp [hs]
  | succ n ih =>
    intro i h1 h2 m hm
    obtain ⟨m, rfl⟩ : ∃ k, m = k + 1 := ⟨m - 1, by omega⟩
    obtain ⟨l, hl⟩ := ih (i + 1) (by omega) (by omega) m (by omega)
    refine ⟨i :: l, ?_⟩
    rw [turns, if_pos (by simp [hop, Op.test]; omega)]
    simp only [hop, Op.up, if_true, hinc]
    rw [if_pos (by omega), hl]
    rfl

/-- The index of `for ( i; 0 ~ n )` is an `int` whatever the type of `n`: for `n` of 2^31 or more the loop runs into
signed overflow. -/
theorem C77_index_type_violated (hi : Int) (h : 2 ^ 31 ≤ hi) :
    ∃ m l, run (desugar ⟨true, 31⟩ .lt 0 hi 1) m = .undef l := by
  have hw : IntTy.wrap ⟨true, 31⟩ 0 = 0 := by decide
  obtain ⟨l, hl⟩ := undef_up (p := desugar ⟨true, 31⟩ .lt 0 hi 1) rfl rfl rfl
    (by simp only [desugar, Op.up, if_true, IntTy.max]; omega) (2 ^ 31 - 1) 0 (by simp [desugar, IntTy.min])
    (by simp [desugar, IntTy.max]) (2 ^ 31) (by decide)
  refine ⟨2 ^ 31, l, ?_⟩
  have : run (desugar ⟨true, 31⟩ .lt 0 hi 1) (2 ^ 31) = turns (desugar ⟨true, 31⟩ .lt 0 hi 1) (2 ^ 31) 0 := by
    rw [run]
    simp only [desugar, Op.up, if_true, hw]
  rw [this]
  exact hl

/-! ### Concrete cases -/

/-- `for ( int i; 1 ~ 10 ~ 3 )`, `1 ~= 10 ~ 3`, `1 -~ 10 ~ 3`, `1 -~= 10 ~ 3`. -/
example : run (desugar ⟨true, 31⟩ .lt 1 10 3) 9 = .done [1, 4, 7] ∧ run (desugar ⟨true, 31⟩ .le 1 10 3) 9 = .done [1, 4, 7, 10] ∧
    run (desugar ⟨true, 31⟩ .gt 1 10 3) 9 = .done [10, 7, 4] ∧ run (desugar ⟨true, 31⟩ .ge 1 10 3) 9 = .done [10, 7, 4, 1] := by
  decide +kernel

example : (⟨true, 31⟩ : IntTy).Has 1 ∧ (10 : Int) + 3 ≤ IntTy.max ⟨true, 31⟩ :=
  ⟨⟨by decide, by decide⟩, by decide⟩

example : ascending 1 3 4 = [1, 4, 7, 10] := by decide

end Verif.RangeLoop
