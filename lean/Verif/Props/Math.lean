import Verif.Proof.Math
/-!
Integer functions of the math library: C69 (power), C70 (alignment to any multiple), C71 (fixed-point logarithm).
-/
namespace Verif.Math
open Verif

/-! ## C69: integer power -/

/-- `x` is a value of the signed `b`-bit type. -/
def Representable (b : Nat) (x : Int) : Prop := -(2 ^ (b - 1)) ≤ x ∧ x < 2 ^ (b - 1)

/-- Signed power is exact whenever the mathematical power is representable, except for base -1 with an
    exponent not below the width. The width is even (32, 64, ... bits). -/
theorem C69_signed_exact_partial (b : Nat) (hb : b % 2 = 0) (hb0 : 4 ≤ b) (x : Int) (y : Nat)
    (hrep : Representable b (x ^ y)) (hx : x ≠ -1 ∨ y < b) : powS b x y = .ret (x ^ y) := by
  unfold powS
  by_cases hy0 : y = 0
  · subst hy0; simp
  simp only [hy0, if_false]
  by_cases h1 : x = 1
  · subst h1; simp
  simp only [h1, if_false]
  by_cases h2 : x = 2
  · subst h2
    simp only [if_true]
    have e : (2 : Int) * 2 ^ (y - 1) = 2 ^ y := by
      conv_rhs => rw [show y = (y - 1) + 1 by omega, pow_succ]
      ring
    have hyb : y < b - 1 := (pow_lt_pow_iff_right₀ (by norm_num : (1 : Int) < 2)).1 hrep.2
    rw [if_pos (by omega), e]
    exact sChk_ok hrep
  simp only [h2, if_false]
  by_cases hyb : y ≥ b
  · simp only [hyb, if_true]
    have hx1 : x ≠ -1 := by
      rcases hx with h | h
      · exact h
      · omega
    by_cases hx0 : x = 0
    · subst hx0; simp [hy0]
    · exfalso
      have habs : 2 ≤ |x| := by
        rcases abs_cases x with ⟨h, _⟩ | ⟨h, _⟩ <;> omega
      have hle : |x ^ y| ≤ 2 ^ (b - 1) := by rw [abs_le]; exact ⟨hrep.1, le_of_lt hrep.2⟩
      rw [abs_pow] at hle
      have k1 : (2 : Int) ^ y ≤ |x| ^ y := pow_le_pow_left₀ (by norm_num) habs y
      have k2 : (2 : Int) ^ (b - 1) < 2 ^ y := pow_lt_pow_right₀ (by norm_num) (by omega)
      omega
  · simp only [hyb, if_false]
    by_cases hx0 : x = 0
    · subst hx0
      rw [powLoopS_zero _ _ _ (by omega)]; simp [hy0]
    · obtain ⟨m, rfl⟩ : ∃ m, b = 2 * m + 2 := ⟨(b - 2) / 2, by omega⟩
      have hm : 2 * m + 2 - 1 = 2 * m + 1 := by omega
      rw [powLoopS_eq m 1 x y (by omega) hx0 (by norm_num)]
      · simp
      · intro hxx
        have hxy : |x ^ y * 1| = 1 := by
          have : |x| = 1 := by
            rcases mul_self_eq_one_iff.1 hxx with h | h <;> subst h <;> rfl
          rw [mul_one, abs_pow, this, one_pow]
        have : (1 : Int) < 2 ^ (2 * m + 1) := one_lt_pow₀ (by norm_num) (by omega)
        have h3 := abs_lt.1 (lt_of_eq_of_lt hxy this)
        exact ⟨h3.2, h3.1⟩
      · simpa [Representable] using hrep

example : Representable 32 ((-2) ^ 31) ∧ powS 32 (-2) 31 = .ret (-2147483648) ∧ powS 32 3 19 = .ret 1162261467 := by
  unfold Representable
  exact ⟨by norm_num, by decide +kernel, by decide +kernel⟩

/-- Missing part: -1 to an exponent of at least the width comes out as 0, though the power is 1 or -1. -/
theorem C69_signed_violated (b : Nat) (hb : 2 ≤ b) (y : Nat) (hy : b ≤ y) :
    powS b (-1) y = .ret 0 ∧ ((-1 : Int) ^ y = 1 ∨ (-1 : Int) ^ y = -1) := by
  constructor
  · unfold powS
    rw [if_neg (by omega), if_neg (by decide), if_neg (by decide), if_pos hy]
  · exact neg_one_pow_eq_or ℤ y

/-- Unsigned power is exact whenever the mathematical power is representable. -/
theorem C69_unsigned_exact {b : Nat} (hb : 2 ≤ b) (x : BitVec b) (y : Nat) (h : x.toNat ^ y < 2 ^ b) :
    ∃ r, powU x y = .ret r ∧ r.toNat = x.toNat ^ y := by
  have h1b : (1 : Nat) < 2 ^ b := one_lt_pow₀ (by norm_num) (by omega)
  have h2b : (2 : Nat) < 2 ^ b := lt_of_lt_of_le (by norm_num) (Nat.pow_le_pow_right (by norm_num) hb)
  unfold powU
  by_cases hy0 : y = 0
  · subst hy0; exact ⟨1#b, by simp, by simp [Nat.mod_eq_of_lt h1b]⟩
  simp only [hy0, if_false]
  by_cases h1 : x = 1#b
  · subst h1; exact ⟨1#b, by simp, by simp [Nat.mod_eq_of_lt h1b]⟩
  simp only [h1, if_false]
  by_cases h2 : x = 2#b
  · subst h2
    have e2 : (2#b).toNat = 2 := by simp [Nat.mod_eq_of_lt h2b]
    rw [e2] at h ⊢
    have hyb : y < b := (Nat.pow_lt_pow_iff_right (by norm_num)).1 h
    rw [if_pos rfl, if_pos (by omega)]
    refine ⟨_, rfl, ?_⟩
    have e : (2 : Nat) * 2 ^ (y - 1) = 2 ^ y := by
      conv_rhs => rw [show y = (y - 1) + 1 by omega, pow_succ]
      ring
    rw [BitVec.toNat_shiftLeft, e2, Nat.shiftLeft_eq, e, Nat.mod_eq_of_lt h]
  simp only [h2, if_false]
  by_cases hyb : y ≥ b
  · simp only [hyb, if_true]
    refine ⟨_, rfl, ?_⟩
    by_cases hx0 : x.toNat = 0
    · simp [hx0, hy0]
    · exfalso
      have hx1 : x.toNat ≠ 1 := fun h' => h1 (BitVec.eq_of_toNat_eq (by simp [h', Nat.mod_eq_of_lt h1b]))
      have k1 : 2 ^ y ≤ x.toNat ^ y := Nat.pow_le_pow_left (by omega) y
      have k2 : 2 ^ b ≤ 2 ^ y := Nat.pow_le_pow_right (by norm_num) hyb
      omega
  · simp only [hyb, if_false]
    refine ⟨_, rfl, ?_⟩
    rw [powLoopU_toNat _ _ _ (by omega)]
    simp [Nat.mod_eq_of_lt h1b, Nat.mod_eq_of_lt h]

/-- Unsigned power with an exponent below the width is the power modulo `2^b`. -/
theorem C69_unsigned_mod {b : Nat} (hb : 2 ≤ b) (x : BitVec b) (y : Nat) (h : y < b) :
    ∃ r, powU x y = .ret r ∧ r.toNat = x.toNat ^ y % 2 ^ b := by
  have h1b : (1 : Nat) < 2 ^ b := one_lt_pow₀ (by norm_num) (by omega)
  have h2b : (2 : Nat) < 2 ^ b := lt_of_lt_of_le (by norm_num) (Nat.pow_le_pow_right (by norm_num) hb)
  unfold powU
  by_cases hy0 : y = 0
  · subst hy0; exact ⟨1#b, by simp, by simp⟩
  simp only [hy0, if_false]
  by_cases h1 : x = 1#b
  · subst h1; exact ⟨1#b, by simp, by simp [Nat.mod_eq_of_lt h1b]⟩
  simp only [h1, if_false]
  by_cases h2 : x = 2#b
  · subst h2
    rw [if_pos rfl, if_pos (by omega)]
    have e2 : (2#b).toNat = 2 := by simp [Nat.mod_eq_of_lt h2b]
    refine ⟨_, rfl, ?_⟩
    have e : (2 : Nat) * 2 ^ (y - 1) = 2 ^ y := by
      conv_rhs => rw [show y = (y - 1) + 1 by omega, pow_succ]
      ring
    rw [BitVec.toNat_shiftLeft, e2, Nat.shiftLeft_eq, e]
  simp only [h2, if_false, show ¬ y ≥ b by omega]
  refine ⟨_, rfl, ?_⟩
  rw [powLoopU_toNat _ _ _ (by omega)]
  simp [Nat.mod_eq_of_lt h1b]

/-- Missing part: an odd base above 1 to an exponent of at least the width comes out as 0, which is not the power
    modulo `2^b`. -/
theorem C69_unsigned_violated {b : Nat} (hb : 2 ≤ b) (x : BitVec b) (hx : x.toNat % 2 = 1) (hx1 : x ≠ 1#b) (y : Nat)
    (hy : b ≤ y) : powU x y = .ret 0#b ∧ x.toNat ^ y % 2 ^ b ≠ 0 := by
  have h2b : (2 : Nat) < 2 ^ b := lt_of_lt_of_le (by norm_num) (Nat.pow_le_pow_right (by norm_num) hb)
  constructor
  · unfold powU
    have h2 : x ≠ 2#b := by
      intro h; subst h; simp [Nat.mod_eq_of_lt h2b] at hx
    rw [if_neg (by omega), if_neg hx1, if_neg h2, if_pos hy]
  · intro h
    have hd : 2 ∣ 2 ^ b := dvd_pow_self 2 (by omega)
    have h1 : x.toNat ^ y % 2 = 1 := by rw [Nat.pow_mod, hx, one_pow]; rfl
    have h3 := Nat.mod_mod_of_dvd (x.toNat ^ y) hd
    omega

example : (3#32).toNat % 2 = 1 ∧ (3#32) ≠ 1#32 := by decide

example : ∃ r, powU (3#8) 7 = .ret r ∧ r.toNat = 139 := ⟨139#8, by decide +kernel, rfl⟩
example : (3#32).toNat ^ 20 < 2 ^ 32 := by decide

/-- Power on a user type is the `y`-fold product, for every type whose multiplication is associative with the
    given unit. -/
theorem C69_generic {M : Type u} [Monoid M] (x : M) (y : Nat) : powG 1 (· * ·) x y = x ^ y := by
  unfold powG
  by_cases hy : y = 0
  · simp [hy]
  · simp only [hy, if_false]
    have := powLoopG_eq x 1 0 1 (by simp) y (by omega)
    simpa using this

example : powG 1 (· * ·) (7 : Int) 5 = 16807 := by decide +kernel

/-! ## C70: alignment to any multiple -/

/-- `r` is the largest multiple of `a` not above `n`. -/
def IsFloorMultiple (n a r : Int) : Prop := a ∣ r ∧ r ≤ n ∧ n < r + a
/-- `r` is the smallest multiple of `a` not below `n`. -/
def IsCeilMultiple (n a r : Int) : Prop := a ∣ r ∧ n ≤ r ∧ r < n + a
/-- `q` is the quotient `n / a` rounded up. -/
def IsCeilQuotient (n a q : Int) : Prop := n ≤ q * a ∧ q * a < n + a

/-- Rounding down is right for non-negative numbers. Missing: negative numbers. -/
theorem C70_floor_partial (n a : Int) (hn : 0 ≤ n) (ha : 0 < a) :
    ∃ r, floorTo n a = .ret r ∧ IsFloorMultiple n a r := by
  refine ⟨n.tdiv a * a, by simp [floorTo, cdiv, show a ≠ 0 by omega], ⟨n.tdiv a, by ring⟩, ?_⟩
  rw [Int.tdiv_eq_ediv_of_nonneg hn]
  have := Int.ediv_mul_add_emod n a
  have h1 := Int.emod_nonneg n (show a ≠ 0 by omega)
  have h2 := Int.emod_lt_of_pos n ha
  constructor <;> omega

/-- For a negative number that is no multiple, the "floor" is above it. -/
theorem C70_floor_violated (n a : Int) (hn : n < 0) (ha : 0 < a) (hd : ¬ a ∣ n) :
    ∃ r, floorTo n a = .ret r ∧ n < r := by
  refine ⟨n.tdiv a * a, by simp [floorTo, cdiv, show a ≠ 0 by omega], ?_⟩
  have h := Int.tdiv_mul_add_tmod n a
  have h1 : n.tmod a ≤ 0 := by
    have := Int.tmod_nonneg a (show 0 ≤ -n by omega)
    rw [Int.neg_tmod] at this; omega
  have h2 : n.tmod a ≠ 0 := fun h' => hd (Int.dvd_of_tmod_eq_zero h')
  omega

example : floorTo (-1) 4 = .ret 0 ∧ ¬ (4 : Int) ∣ -1 := by decide
example : floorTo 11 4 = .ret 8 ∧ IsFloorMultiple 11 4 8 := ⟨by decide, by decide, by decide, by decide⟩

/-- Signed rounding up is right for every number. -/
theorem C70_ceiling_signed (n a : Int) (ha : 0 < a) : ∃ r, ceilingS n a = .ret r ∧ IsCeilMultiple n a r := by
  have hf : floorTo n a = .ret (n.tdiv a * a) := by simp [floorTo, cdiv, show a ≠ 0 by omega]
  refine ⟨if n < 0 ∨ n = n.tdiv a * a then n.tdiv a * a else n.tdiv a * a + a,
    by simp only [ceilingS, hf, Outcome.bind_ret, Outcome.pure_eq], ?_⟩
  have h := Int.tdiv_mul_add_tmod n a
  have hlt := Int.tmod_lt_of_pos n ha
  by_cases hn : n < 0
  · simp only [hn, true_or, if_true]
    have h1 : n.tmod a ≤ 0 := by
      have := Int.tmod_nonneg a (show 0 ≤ -n by omega)
      rw [Int.neg_tmod] at this; omega
    have h2 : -a < n.tmod a := by
      have := Int.tmod_lt_of_pos (-n) ha
      rw [Int.neg_tmod] at this; omega
    exact ⟨⟨n.tdiv a, by ring⟩, by omega, by omega⟩
  · have h1 : 0 ≤ n.tmod a := Int.tmod_nonneg a (by omega)
    simp only [hn, false_or]
    split
    · next he => exact ⟨⟨n.tdiv a, by ring⟩, by omega, by omega⟩
    · next he => exact ⟨⟨n.tdiv a + 1, by ring⟩, by omega, by omega⟩

/-- Unsigned rounding up is right for every number. -/
theorem C70_ceiling_unsigned (n a : Int) (hn : 0 ≤ n) (ha : 0 < a) :
    ∃ r, ceilingU n a = .ret r ∧ IsCeilMultiple n a r := by
  obtain ⟨r, h1, h2⟩ := C70_ceiling_signed n a ha
  refine ⟨r, ?_, h2⟩
  rw [← h1]; unfold ceilingU ceilingS
  have : ¬ n < 0 := by omega
  simp [this]

example : ceilingS (-5) 4 = .ret (-4) ∧ ceilingS 5 4 = .ret 8 := by decide
example : ceilingU 5 4 = .ret 8 ∧ ceilingU 8 4 = .ret 8 := by decide

/-- Rounded-up division is right for non-negative numbers. Missing: negative numbers. -/
theorem C70_ceiling_div_partial (n a : Int) (hn : 0 ≤ n) (ha : 0 < a) :
    ∃ q, ceilingDiv n a = .ret q ∧ IsCeilQuotient n a q := by
  refine ⟨(n + (a - 1)).tdiv a, by simp only [ceilingDiv, cdiv, if_neg (show a ≠ 0 by omega)], ?_⟩
  rw [Int.tdiv_eq_ediv_of_nonneg (by omega)]
  have := Int.ediv_mul_add_emod (n + (a - 1)) a
  have h1 := Int.emod_nonneg (n + (a - 1)) (show a ≠ 0 by omega)
  have h2 := Int.emod_lt_of_pos (n + (a - 1)) ha
  constructor <;> omega

example : ceilingDiv 9 4 = .ret 3 ∧ IsCeilQuotient 9 4 3 := ⟨by decide, by decide, by decide⟩

/-- On negative numbers rounded-up division can be one too large. -/
theorem C70_ceiling_div_violated : ceilingDiv (-5) 4 = .ret 0 ∧ IsCeilQuotient (-5) 4 (-1) ∧ ¬ IsCeilQuotient (-5) 4 0 := by
  refine ⟨by decide, ⟨by decide, by decide⟩, fun h => ?_⟩
  have := h.2; omega

/-! ## C71: fixed-point base-2 logarithm -/

/-- For every argument above 1 the integer part (upper 32 bits) is the position of the leading one bit, with no
    undefined operation; the fractional part lies between the two table entries that surround the argument. -/
theorem C71_log2_partial (v : BitVec 64) (hv : 2 ≤ v.toNat) :
    ∃ r : Int, log2_u32_32 v = .ret r ∧
      ∃ i : Nat, 2 ^ i ≤ v.toNat ∧ v.toNat < 2 ^ (i + 1) ∧ (i : Int) * 2 ^ 32 ≤ r ∧ r < ((i : Int) + 1) * 2 ^ 32 := by
  have hv0 : v.toNat ≠ 0 := by omega
  have hl : v.toNat.log2 < 64 := Bitmanip.log2_lt hv0
  have hl1 : 1 ≤ v.toNat.log2 := (Nat.le_log2 hv0).2 (by omega)
  have hlo := Nat.log2_self_le hv0
  have hhi := (Nat.log2_lt hv0).1 (Nat.lt_succ_self v.toNat.log2)
  unfold log2_u32_32 Bitmanip.builtinClz
  rw [if_neg hv0]
  simp only [Outcome.bind_ret]
  rw [if_neg (by omega)]
  set frac := (v.toNat * 2 ^ (64 - 1 - v.toNat.log2 + 1)) % 2 ^ 64 / 2 ^ 32 with hfrac
  have hfl : frac < 2 ^ 32 := by omega
  obtain ⟨y0, y1, y2, e0, e1, e2, hrow⟩ := row_facts (frac / 2 ^ (32 - 6)) (by norm_num; omega)
  simp only [e0, e1, e2, Outcome.pure_eq]
  have hb := interpolate_bounds y0 y1 y2 ((frac - frac / 2 ^ (32 - 6) * 2 ^ (32 - 6) : Nat) : Int) hrow
    (Int.natCast_nonneg _) (by norm_num; omega)
  have h0 : 0 ≤ y0 ∧ y1 ≤ 2 ^ 32 := by
    unfold rowOk at hrow
    simp only [Bool.and_eq_true, decide_eq_true_eq] at hrow
    exact ⟨hrow.1.1.1.1, hrow.2⟩
  refine ⟨_, rfl, v.toNat.log2, hlo, hhi, ?_, ?_⟩
  · have : ((64 - 1 - (64 - 1 - v.toNat.log2) : Nat) : Int) = (v.toNat.log2 : Int) := by omega
    rw [this]; omega
  · have : ((64 - 1 - (64 - 1 - v.toNat.log2) : Nat) : Int) = (v.toNat.log2 : Int) := by omega
    rw [this]; omega

/-- On a power of two above 1 the result is exact. -/
theorem C71_log2_power (v : BitVec 64) (k : Nat) (hk : 1 ≤ k) (hv : v.toNat = 2 ^ k) :
    log2_u32_32 v = .ret ((k : Int) * 2 ^ 32) := by
  have hk64 : k < 64 := (Nat.pow_lt_pow_iff_right (by norm_num)).1 (hv ▸ v.isLt)
  have hl : v.toNat.log2 = k := by rw [hv]; exact Nat.log2_two_pow
  have hv0 : v.toNat ≠ 0 := by rw [hv]; positivity
  unfold log2_u32_32 Bitmanip.builtinClz
  rw [if_neg hv0]
  simp only [Outcome.bind_ret]
  rw [hl, if_neg (by omega)]
  have e : v.toNat * 2 ^ (64 - 1 - k + 1) = 2 ^ 64 := by
    rw [hv, ← pow_add]; congr 1; omega
  rw [e]
  have : (64 - 1 - (64 - 1 - k) : Nat) = k := by omega
  rw [this]
  have hz : ∀ c : Int, (c + interpolate 0 0x05b9e5a1 0x0b5d69ba 0) = c := by
    intro c; rw [show interpolate 0 0x05b9e5a1 0x0b5d69ba 0 = 0 by decide]; omega
  exact congrArg Outcome.ret (hz _)

example : log2_u32_32 1024#64 = .ret (10 * 2 ^ 32) := C71_log2_power _ 10 (by decide) (by decide)
example : 2 ≤ (12345#64).toNat := by decide

/-- For 1, whose logarithm is 0, the code shifts a 64-bit word by 64, which is undefined. -/
theorem C71_log2_one_violated : log2_u32_32 1#64 = .undef := by decide +kernel

end Verif.Math
