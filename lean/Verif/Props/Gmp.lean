import Verif.Proof.Gmp
/-! C101: multi-precision integers are the integers; where they are not. -/
namespace Verif.Gmp

/-- C101: sums and products are exact, for two `Int`s and for an `Int` and a C integer on either side; so are differences, but for those of a `long int` and an `Int` (see `C101_sub_exact`). -/
theorem C101_arith_partial (a b : Arg) (ha : a.ok) (hb : b.ok) (hm : Mixed a b) :
    add a b = some (a.val + b.val) ∧ mul a b = some (a.val * b.val) ∧ ((∀ v, a ≠ .S v) → sub a b = some (a.val - b.val)) := by
  cases a with
  | Z x =>
    cases b with
    | Z y => simp [add, mul, sub, Arg.val]
    | U y => simp [add, mul, sub, Arg.val]
    | S y =>
      simp only [add, mul, sub, Arg.val, Arg.ok] at *
      by_cases hy : y ≥ 0
      · simp only [if_pos hy, toU_nonneg hb hy]; simp
      · simp only [if_neg hy, toU_neg hb hy]; simp [Int.sub_eq_add_neg]
  | S x =>
    cases b with
    | S y => exact (hm.elim id id).elim
    | U y => exact (hm.elim id id).elim
    | Z y =>
      simp only [add, mul, Arg.val, Arg.ok] at *
      refine ⟨?_, by rw [Int.mul_comm], fun h => absurd rfl (h x)⟩
      by_cases hx : x ≥ 0
      · simp only [if_pos hx, toU_nonneg ha hx]; congr 1; omega
      · simp only [if_neg hx, toU_neg ha hx]; congr 1; omega
  | U x =>
    cases b with
    | S y => exact (hm.elim id id).elim
    | U y => exact (hm.elim id id).elim
    | Z y =>
      simp only [add, mul, sub, Arg.val]
      exact ⟨by rw [Int.add_comm], by rw [Int.mul_comm], fun _ => trivial⟩

example : (Arg.S (-2 ^ 63)).ok ∧ (Arg.Z (2 ^ 100)).ok ∧ Mixed (.S (-2 ^ 63)) (.Z (2 ^ 100)) ∧ add (.S (-2 ^ 63)) (.Z (2 ^ 100)) = some (2 ^ 100 - 2 ^ 63) := by
  refine ⟨by unfold Arg.ok; omega, trivial, .inr trivial, by decide⟩

/-- C101: the difference of a `long int` and an `Int` is right exactly when both are not negative, or the first is not positive and the second is negative. -/
theorem C101_sub_exact (m s : Int) (hm : (Arg.S m).ok) : sub (.S m) (.Z s) = some (m - s) ↔ (0 ≤ m ∧ 0 ≤ s) ∨ (m ≤ 0 ∧ s < 0) := by
  simp only [Arg.ok] at hm
  simp only [sub, Option.some.injEq, ge, lt]
  have hc := cmp_lt s 0
  by_cases hs : s < 0
  · have : mpz_cmp s 0 < 0 := hc.2 hs
    simp only [this, decide_true, Bool.not_true, Bool.false_eq_true, if_false]
    unfold toU
    omega
  · have : ¬ mpz_cmp s 0 < 0 := fun h => hs (hc.1 h)
    simp only [this, decide_false, Bool.not_false, if_true]
    unfold toU
    omega

example : sub (.S 7) (.Z 5) = some 2 := by decide

/-- C101 fails: `-5 - x`, for `x` an `Int` with value 3, is 18446744073709551608. -/
theorem C101_sub_violated : (Arg.S (-5)).ok ∧ sub (.S (-5)) (.Z 3) = some 18446744073709551608 := by
  refine ⟨by unfold Arg.ok; omega, by decide⟩

/-- C101: bitwise conjunction and disjunction work on each bit of the two's complement representation, which goes on for ever to the left; so does exclusive disjunction for two `Int`s. Missing:
exclusive disjunction with a C integer, see `C101_xor_violated`. -/
theorem C101_bits_partial (a b : Arg) (hm : Mixed a b) :
    (∃ r, and a b = some r ∧ ∀ k, r.testBit k = (a.val.testBit k && b.val.testBit k)) ∧ (∃ r, or a b = some r ∧ ∀ k, r.testBit k = (a.val.testBit k || b.val.testBit k)) ∧
    (a.isZ → b.isZ → ∃ r, xor a b = some r ∧ ∀ k, r.testBit k = (a.val.testBit k ^^ b.val.testBit k)) := by
  cases a <;> cases b <;> simp only [Mixed, Arg.isZ, or_self, or_true, true_or] at hm
  all_goals
    refine ⟨⟨_, rfl, fun k => ?_⟩, ⟨_, rfl, fun k => ?_⟩, fun h1 h2 => ?_⟩
    · exact Int.testBit_land _ _ _
    · exact Int.testBit_lor _ _ _
    · first
      | exact h1.elim
      | exact h2.elim
      | exact ⟨_, rfl, fun k => Int.testBit_lxor _ _ _⟩

example : and (.Z (-2)) (.U 7) = some 6 ∧ xor (.Z 6) (.Z 3) = some 5 := by decide +kernel

/-- C101 fails: `x ^ 1`, for `x` an `Int` with value 1, is 1. -/
theorem C101_xor_violated : xor (.Z 1) (.S 1) = some 1 ∧ ((1 : Int).testBit 0 ^^ (1 : Int).testBit 0) ≠ (1 : Int).testBit 0 := by decide +kernel

/-- C101: quotients truncate and remainders have the sign of the dividend: `a = b * q + r`, `r` is smaller than `b`, and not of the other sign than `a`; this holds for all operands, of any size, but for
the smallest `long int` divided by an `Int` with value -1 (see `C101_division_violated`). Division by zero stops the program. -/
theorem C101_division_partial (a b : Arg) (ha : a.ok) (hb : b.ok) (hm : Mixed a b) :
    (b.val ≠ 0 → ¬ (a = .S (-2 ^ 63) ∧ b.val = -1) →
      ∃ q r, div a b = some q ∧ mod a b = some r ∧ a.val = b.val * q + r ∧ r.natAbs < b.val.natAbs ∧ (0 ≤ a.val → 0 ≤ r) ∧ (a.val ≤ 0 → r ≤ 0)) ∧
    (b.val = 0 → div a b = none ∧ mod a b = none) := by
  constructor
  · intro h0 hx
    obtain ⟨h1, h2⟩ := div_eq ha hb hm h0 hx
    refine ⟨_, _, h1, h2, (Int.mul_tdiv_add_tmod _ _).symm, ?_, Int.tmod_nonneg _, ?_⟩
    · rw [Int.natAbs_tmod]; exact Nat.mod_lt _ (by omega)
    · intro h
      have := Int.tmod_nonneg b.val (show 0 ≤ -a.val by omega)
      rw [Int.neg_tmod] at this
      omega
  · intro h0
    cases a <;> cases b <;> simp only [Mixed, Arg.isZ, or_self, or_true, true_or] at hm <;> simp only [Arg.val] at h0 <;> subst h0 <;>
      simp [div, mod, mpz_tdiv_q, mpz_tdiv_r, toU, mpz_fits_ulong, mpz_fits_slong, mpz_get_ui, mpz_get_si, udiv, umod, sdiv, smod]

example : div (.S (-7)) (.Z 2) = some (-3) ∧ mod (.S (-7)) (.Z 2) = some (-1) ∧ div (.U 7) (.Z (-2 ^ 70)) = some 0 := by decide

/-- C101 fails: the smallest `long int` divided by an `Int` with value -1 stops the program, though the quotient is an integer. -/
theorem C101_division_violated : (Arg.S (-2 ^ 63)).ok ∧ div (.S (-2 ^ 63)) (.Z (-1)) = none ∧ mod (.S (-2 ^ 63)) (.Z (-1)) = none := by
  refine ⟨by unfold Arg.ok; omega, by decide, by decide⟩

/-- C101: `div` gives a quotient and a remainder that belong together, and the remainder is smaller than the divisor and has its sign. -/
theorem C101_divmod (a : Int) (b : Arg) (hb : b.ok) (hs : ∀ v, b ≠ .S v) (h0 : b.val ≠ 0) :
    ∃ q r, divmod (.Z a) b = some (q, r) ∧ a = b.val * q + r ∧ r.natAbs < b.val.natAbs ∧ (0 < b.val → 0 ≤ r) ∧ (b.val < 0 → r ≤ 0) := by
  have key : ∀ y : Int, y ≠ 0 → ∃ q r, mpz_fdiv_qr a y = some (q, r) ∧ a = y * q + r ∧ r.natAbs < y.natAbs ∧ (0 < y → 0 ≤ r) ∧ (y < 0 → r ≤ 0) := by
    intro y hy
    refine ⟨_, _, by rw [mpz_fdiv_qr, if_neg hy], (Int.mul_fdiv_add_fmod a y).symm, ?_, ?_, ?_⟩
    · rcases Int.lt_or_gt_of_ne hy with h | h
      · obtain ⟨h1, h2⟩ := fmod_of_neg a h
        omega
      · have h1 := Int.fmod_nonneg_of_pos a h
        have h2 := Int.fmod_lt_of_pos a h
        omega
    · exact fun h => Int.fmod_nonneg_of_pos a h
    · exact fun h => (fmod_of_neg a h).1
  cases b with
  | Z y => exact key y h0
  | S y => exact absurd rfl (hs y)
  | U y => exact key y h0

example : divmod (.Z (-7)) (.U 2) = some (-4, 1) := by decide

/-- C101 fails: `div( x, y )` does not give what `x / y` and `x % y` give: for -7 and 2, -4 and 1 instead of -3 and -1. -/
theorem C101_divmod_violated : divmod (.Z (-7)) (.Z 2) = some (-4, 1) ∧ div (.Z (-7)) (.Z 2) = some (-3) ∧ mod (.Z (-7)) (.Z 2) = some (-1) := by decide

/-- C101: `==` and `!=` compare the values; so do `<`, `<=`, `>` and `>=` when the first operand is an `Int`. -/
theorem C101_compare_partial (a b : Arg) (hm : Mixed a b) :
    (eq a b = true ↔ a.val = b.val) ∧ (ne a b = true ↔ a.val ≠ b.val) ∧
    (a.isZ → (lt a b = true ↔ a.val < b.val) ∧ (le a b = true ↔ a.val ≤ b.val) ∧ (gt a b = true ↔ a.val > b.val) ∧ (ge a b = true ↔ a.val ≥ b.val)) := by
  have he := fun a b => cmp_eq a b
  have hl := fun a b => cmp_lt a b
  have hle := fun a b => cmp_le a b
  cases a <;> cases b <;> simp only [Mixed, Arg.isZ, or_self, or_true, true_or] at hm <;>
    refine ⟨?_, ?_, fun h => ?_⟩
  all_goals first
    | exact h.elim
    | refine ⟨?_, ?_, ?_, ?_⟩
    | skip
  all_goals
    simp only [eq, ne, lt, le, gt, ge, Arg.val, beq_iff_eq, decide_eq_true_eq, Bool.not_eq_true', decide_eq_false_iff_not, he, hl, hle, beq_eq_false_iff_ne, ne_eq, not_le, not_lt, GT.gt, GE.ge]
  all_goals first | done | omega

example : lt (.Z 3) (.S 5) = true ∧ ge (.Z (2 ^ 70)) (.U 7) = true := by decide

/-- C101: with a C integer as first operand, `<`, `<=`, `>` and `>=` give the answer for the operands in the other order; it is right exactly when they are equal. -/
theorem C101_compare_reversed (a : Arg) (z : Int) (ha : ¬ a.isZ) :
    (lt a (.Z z) = true ↔ z < a.val) ∧ (le a (.Z z) = true ↔ z ≤ a.val) ∧ (gt a (.Z z) = true ↔ z > a.val) ∧ (ge a (.Z z) = true ↔ z ≥ a.val) := by
  have hl := fun a b => cmp_lt a b
  have hle := fun a b => cmp_le a b
  cases a with
  | Z v => exact absurd trivial ha
  | S v =>
    refine ⟨?_, ?_, ?_, ?_⟩ <;>
      simp only [lt, le, gt, ge, Arg.val, decide_eq_true_eq, Bool.not_eq_true', decide_eq_false_iff_not, hl, hle, not_le, not_lt, GT.gt, GE.ge]
  | U v =>
    refine ⟨?_, ?_, ?_, ?_⟩ <;>
      simp only [lt, le, gt, ge, Arg.val, decide_eq_true_eq, Bool.not_eq_true', decide_eq_false_iff_not, hl, hle, not_le, not_lt, GT.gt, GE.ge]

/-- C101 fails: `5 < x` is true and `5 > x` is false, for `x` an `Int` with value 3. -/
theorem C101_compare_violated : lt (.S 5) (.Z 3) = true ∧ gt (.S 5) (.Z 3) = false ∧ le (.U 5) (.Z 3) = true ∧ ge (.U 5) (.Z 3) = false := by decide

/-- C101: an `Int` assigned to a C integer keeps its value when the type has it. -/
theorem C101_convert (n : Nat) (hn : 0 < n ∧ n ≤ 64) (v : Int) :
    (-2 ^ (n - 1) ≤ v → v < 2 ^ (n - 1) → toSigned n v = v) ∧ (0 ≤ v → v < 2 ^ n → toUnsigned n v = v) := by
  have h1 : (2 : Int) ^ n ≤ 2 ^ 64 := by gcongr <;> omega
  have h2 : (2 : Int) ^ (n - 1) ≤ 2 ^ 63 := by gcongr <;> omega
  have h3 : (2 : Int) ^ n = 2 * 2 ^ (n - 1) := by
    rw [← pow_succ']; congr 1; omega
  constructor
  · intro a b
    unfold toSigned toSn
    rw [get_si_of ⟨by omega, by omega⟩, Int.emod_eq_of_lt (by omega) (by omega)]
    omega
  · intro a b
    unfold toUnsigned toUn
    rw [get_ui_of ⟨a, by omega⟩, Int.emod_eq_of_lt a b]

example : toSigned 16 (-32768) = -32768 ∧ toUnsigned 64 (2 ^ 64 - 1) = 2 ^ 64 - 1 := by decide

/-- C101 fails: an `Int` assigned to an unsigned variable is not converted as C converts integers, to the value that is equal to it modulo a power of 2: -1 becomes 1. -/
theorem C101_convert_violated : toUnsigned 32 (-1) = 1 ∧ ¬ (2 : Int) ^ 32 ∣ toUnsigned 32 (-1) - (-1) := by decide

/-- C101: compound assignments, increments and decrements change the variable by the operator, and have the new value; postfix ones have the old value. -/
theorem C101_assign (v : Int) (b : Arg) (hb : b.ok) :
    opAssign add v b = some (v + b.val, v + b.val) ∧ opAssign sub v b = some (v - b.val, v - b.val) ∧ opAssign mul v b = some (v * b.val, v * b.val) ∧
    preInc v = some (v + 1, v + 1) ∧ postInc v = some (v + 1, v) ∧ preDec v = some (v - 1, v - 1) ∧ postDec v = some (v - 1, v) := by
  have h := C101_arith_partial (.Z v) b trivial hb (.inl trivial)
  have h1 := C101_arith_partial (.Z v) (.S 1) trivial (by unfold Arg.ok; omega) (.inl trivial)
  have ne : ∀ w, Arg.Z v ≠ .S w := by simp
  refine ⟨?_, ?_, ?_, ?_, ?_, ?_, ?_⟩
  · rw [opAssign, h.1]; rfl
  · rw [opAssign, h.2.2 ne]; rfl
  · rw [opAssign, h.2.1]; rfl
  · rw [preInc, opAssign, h1.1]; rfl
  · rw [postInc, opAssign, h1.1]; rfl
  · rw [preDec, opAssign, h1.2.2 ne]; rfl
  · rw [postDec, opAssign, h1.2.2 ne]; rfl

example : opAssign sub 5 (.S (-2)) = some (7, 7) ∧ postInc (-1) = some (0, -1) := by decide

/-- C101: shifting to the left and back gives the number again, and shifting to the right rounds down. -/
theorem C101_shift (a : Int) (n : Nat) : shr (shl a n) n = a ∧ 2 ^ n * shr a n ≤ a ∧ a < 2 ^ n * (shr a n + 1) := by
  have hp : (0 : Int) < 2 ^ n := by positivity
  unfold shr shl
  have h1 := Int.mul_fdiv_add_fmod a (2 ^ n)
  have h2 := Int.fmod_nonneg_of_pos a hp
  have h3 := Int.fmod_lt_of_pos a hp
  refine ⟨Int.mul_fdiv_cancel _ (by omega), by linarith, by rw [Int.mul_add]; linarith⟩

/-- C101 fails: an `Int` printed to a stream other than the standard output is written to the standard output; only the separator goes to the stream. -/
theorem C101_print_violated : ∃ os : Nat, os ≠ stdout ∧ print os (some " ") 7 = [(os, " "), (stdout, "7")] := ⟨2, by decide, by decide⟩

end Verif.Gmp
