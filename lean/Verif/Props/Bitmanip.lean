import Verif.Proof.Bitmanip
/-!
C06, C07: bit manipulation (`libcfa/src/bitmanip.hfa`, `libcfa/src/bits/align.hfa`).

Specification: a word is the number `toNat` (unsigned reading) or `toInt` (signed reading) and the
sequence of its bits `getLsbD 0 .. getLsbD (w-1)`.
-/
namespace Verif.Bitmanip
open Verif

/-- `r` is the greatest multiple of `a` that is not above `n`. -/
def IsFloor (n a r : Int) : Prop := a ∣ r ∧ r ≤ n ∧ ∀ m, a ∣ m → m ≤ n → m ≤ r

/-- `r` is the least multiple of `a` that is not below `n`. -/
def IsCeil (n a r : Int) : Prop := a ∣ r ∧ n ≤ r ∧ ∀ m, a ∣ m → n ≤ m → r ≤ m

private theorem isFloor_of {n a r : Int} (h1 : a ∣ r) (h2 : r ≤ n) (h3 : n < r + a) : IsFloor n a r := by
  refine ⟨h1, h2, ?_⟩
  rintro m ⟨c, rfl⟩ hm
  obtain ⟨d, rfl⟩ := h1
  have ha : 0 < a := by omega
  refine Int.not_lt.1 fun hc => ?_
  have : d < c := Int.lt_of_mul_lt_mul_left hc (by omega)
  have : a * (d + 1) ≤ a * c := Int.mul_le_mul_of_nonneg_left (by omega) (by omega)
  rw [Int.mul_add] at this; omega

private theorem isCeil_of {n a r : Int} (h1 : a ∣ r) (h2 : n ≤ r) (h3 : r < n + a) : IsCeil n a r := by
  refine ⟨h1, h2, ?_⟩
  rintro m ⟨c, rfl⟩ hm
  obtain ⟨d, rfl⟩ := h1
  have ha : 0 < a := by omega
  refine Int.not_lt.1 fun hc => ?_
  have : c < d := Int.lt_of_mul_lt_mul_left hc (by omega)
  have : a * (c + 1) ≤ a * d := Int.mul_le_mul_of_nonneg_left (by omega) (by omega)
  rw [Int.mul_add] at this; omega

/-- C06: `is_pow2` accepts exactly the (non-zero) powers of two. -/
theorem C06_is_pow2 {w : Nat} (n : BitVec w) : isPow2 n = true ↔ ∃ k, n.toNat = 2 ^ k := by
  rw [isPow2_iff]
  constructor
  · rintro ⟨k, _, h⟩; exact ⟨k, h⟩
  · rintro ⟨k, h⟩
    refine ⟨k, ?_, h⟩
    have := n.isLt
    rw [h] at this
    exact (Nat.pow_lt_pow_iff_right (by decide)).1 this

/-- C06: unsigned `floor2` is the greatest multiple of the alignment not above `n`. -/
theorem C06_floor2_unsigned {w : Nat} (n a : BitVec w) (ha : isPow2 a = true) :
    IsFloor n.toNat a.toNat (floor2 n a).toNat := by
  obtain ⟨k, hk, hk2⟩ := (isPow2_iff a).1 ha
  rw [floor2_toNat n a k hk hk2, hk2]
  have hp := Nat.two_pow_pos k
  have h1 := Nat.div_add_mod n.toNat (2 ^ k)
  have h2 := Nat.mod_lt n.toNat hp
  rw [Nat.mul_comm (2 ^ k)] at h1
  apply isFloor_of
  · exact ⟨(n.toNat / 2 ^ k : Nat), by push_cast; rw [Int.mul_comm]⟩
  · omega
  · omega

/-- C06: unsigned `ceiling2`, as a `w`-bit word, is the least multiple of the alignment not below `n`
    whenever that multiple is representable, and 0 (that multiple modulo `2^w`) otherwise. -/
theorem C06_ceiling2_unsigned {w : Nat} (n a : BitVec w) (ha : isPow2 a = true) :
    ∃ c : Nat, IsCeil n.toNat a.toNat c ∧
      (c < 2 ^ w → (ceiling2 n a).toNat = c) ∧ (2 ^ w ≤ c → (ceiling2 n a).toNat = 0) := by
  obtain ⟨k, hk, hk2⟩ := (isPow2_iff a).1 ha
  have hp := Nat.two_pow_pos k
  refine ⟨(n.toNat + (2 ^ k - 1)) / 2 ^ k * 2 ^ k, ?_, ?_, ?_⟩
  · rw [hk2]
    have h1 := Nat.div_add_mod (n.toNat + (2 ^ k - 1)) (2 ^ k)
    have h2 := Nat.mod_lt (n.toNat + (2 ^ k - 1)) hp
    rw [Nat.mul_comm (2 ^ k)] at h1
    apply isCeil_of
    · exact ⟨((n.toNat + (2 ^ k - 1)) / 2 ^ k : Nat), by push_cast; rw [Int.mul_comm]⟩
    · omega
    · omega
  · intro h
    rw [ceiling2_toNat n a k hk hk2, Nat.mod_eq_of_lt h]
  · intro h
    rw [ceiling2_toNat n a k hk hk2]
    have hn := n.isLt
    obtain ⟨m, hm⟩ : ∃ m, 2 ^ w = m * 2 ^ k := ⟨2 ^ (w - k), by rw [← Nat.pow_add]; congr 1; omega⟩
    have h3 : (n.toNat + (2 ^ k - 1)) / 2 ^ k ≤ m := by
      have : n.toNat + (2 ^ k - 1) < (m + 1) * 2 ^ k := by rw [Nat.add_mul]; omega
      exact Nat.lt_succ_iff.1 ((Nat.div_lt_iff_lt_mul hp).2 this)
    have h4 : (n.toNat + (2 ^ k - 1)) / 2 ^ k * 2 ^ k ≤ m * 2 ^ k := Nat.mul_le_mul_right _ h3
    have : (n.toNat + (2 ^ k - 1)) / 2 ^ k * 2 ^ k = 2 ^ w := by omega
    rw [this]; exact Nat.mod_self _

/-- C06: signed `floor2` with a positive alignment is the greatest multiple not above `n`. -/
theorem C06_floor2_signed {w : Nat} (n a : BitVec w) (ha : isPow2 a = true) (hpos : 0 < a.toInt) :
    IsFloor n.toInt a.toInt (floor2 n a).toInt := by
  obtain ⟨k, hk, hk2⟩ := (isPow2_iff a).1 ha
  have hp := Nat.two_pow_pos k
  have hai : a.toInt = (2 ^ k : Nat) := by
    rw [BitVec.toInt_eq_toNat_cond] at hpos ⊢
    split
    · rw [hk2]
    · next h => simp only [h, if_false] at hpos; have := a.isLt; omega
  have hk3 : k + 1 < w := by
    rw [BitVec.toInt_eq_toNat_cond] at hpos
    split at hpos
    · next h =>
      rw [hk2, ← Nat.pow_succ'] at h
      exact (Nat.pow_lt_pow_iff_right (by decide)).1 h
    · have := a.isLt; omega
  obtain ⟨m, hm⟩ : ∃ m, 2 ^ w = 2 * (m * 2 ^ k) := ⟨2 ^ (w - k - 1), by
    rw [← Nat.pow_add, ← Nat.pow_succ']; congr 1; omega⟩
  have h1 := Nat.div_add_mod n.toNat (2 ^ k)
  have h2 := Nat.mod_lt n.toNat hp
  rw [Nat.mul_comm (2 ^ k)] at h1
  have hf := floor2_toNat n a k hk hk2
  have hn := n.isLt
  -- floor of n stays on the same side of the sign boundary, which is a multiple of the alignment
  have hside : 2 * n.toNat < 2 ^ w ↔ 2 * (floor2 n a).toNat < 2 ^ w := by
    rw [hf, hm]
    constructor
    · intro h; omega
    · intro h
      have : n.toNat / 2 ^ k < m := Nat.lt_of_mul_lt_mul_right (by omega : n.toNat / 2 ^ k * 2 ^ k < m * 2 ^ k)
      have : (n.toNat / 2 ^ k + 1) * 2 ^ k ≤ m * 2 ^ k := Nat.mul_le_mul_right _ this
      rw [Nat.add_mul] at this; omega
  rw [hai]
  apply isFloor_of
  · rw [BitVec.toInt_eq_toNat_cond, hf]
    split
    · exact ⟨(n.toNat / 2 ^ k : Nat), by push_cast; rw [Int.mul_comm]⟩
    · refine ⟨(n.toNat / 2 ^ k : Nat) - 2 * m, ?_⟩
      rw [hm]; push_cast; rw [Int.mul_sub]
      rw [Int.mul_comm ((2 : Int) ^ k) ((n.toNat : Int) / 2 ^ k)]
      congr 1
      rw [Int.mul_left_comm, Int.mul_comm (m : Int), Int.mul_left_comm, Int.mul_assoc]
  · rw [BitVec.toInt_eq_toNat_cond, BitVec.toInt_eq_toNat_cond]
    by_cases h : 2 * n.toNat < 2 ^ w
    · simp only [h, hside.1 h, if_true]; omega
    · simp only [h, (not_congr hside).1 h, if_false]; omega
  · rw [BitVec.toInt_eq_toNat_cond, BitVec.toInt_eq_toNat_cond]
    by_cases h : 2 * n.toNat < 2 ^ w
    · simp only [h, hside.1 h, if_true]; omega
    · simp only [h, (not_congr hside).1 h, if_false]; omega

/-- C06: signed `ceiling2` with a positive alignment is the least multiple not below `n`, whenever that
    multiple is representable as a signed `w`-bit number. -/
theorem C06_ceiling2_signed {w : Nat} (n a : BitVec w) (ha : isPow2 a = true) (hpos : 0 < a.toInt)
    (c : Int) (hc : IsCeil n.toInt a.toInt c) (hrep : 2 * c < 2 ^ w) :
    (ceiling2 n a).toInt = c := by
  -- ceiling2 n a = -(floor2 (-n) a)
  have hf := C06_floor2_signed (-n) a ha hpos
  obtain ⟨k, hk, hk2⟩ := (isPow2_iff a).1 ha
  have hw : 0 < w := by omega
  have hlow := @BitVec.le_two_mul_toInt w n
  have hhigh := @BitVec.two_mul_toInt_lt w n
  -- modulo 2^w both are equal
  have hai : a.toInt = (2 ^ k : Nat) := by
    rw [BitVec.toInt_eq_toNat_cond] at hpos ⊢
    split
    · rw [hk2]
    · next h => simp only [h, if_false] at hpos; have := a.isLt; omega
  have hdvd : a.toInt ∣ (2 ^ w : Int) := by
    rw [hai]; exact ⟨(2 ^ (w - k) : Nat), by push_cast; rw [← Int.pow_add]; congr 1; omega⟩
  have key : ∃ z : Int, (-n).toInt = -n.toInt + 2 ^ w * z := by
    rw [BitVec.toInt_neg, Int.bmod_def]
    have := Int.emod_add_mul_ediv (-n.toInt) ((2 ^ w : Nat) : Int)
    push_cast at this ⊢
    split
    · exact ⟨-((-n.toInt) / 2 ^ w), by rw [Int.mul_neg]; omega⟩
    · exact ⟨-((-n.toInt) / 2 ^ w) - 1, by rw [Int.mul_sub, Int.mul_neg]; omega⟩
  obtain ⟨z, hz⟩ := key
  have hfe : (floor2 (-n) a).toInt = -c + 2 ^ w * z := by
    obtain ⟨f1, f2, f3⟩ := hf
    obtain ⟨c1, c2, c3⟩ := hc
    have hdz : a.toInt ∣ 2 ^ w * z := Int.dvd_trans hdvd (Int.dvd_mul_right _ _)
    apply Int.le_antisymm
    · have := c3 (-(floor2 (-n) a).toInt + 2 ^ w * z)
        (Int.dvd_add ((Int.dvd_neg).2 f1) hdz) (by omega)
      omega
    · exact f3 (-c + 2 ^ w * z) (Int.dvd_add ((Int.dvd_neg).2 c1) hdz) (by omega)
  have hcn : n.toInt ≤ c := hc.2.1
  unfold ceiling2
  rw [BitVec.toInt_neg, hfe]
  have : -(-c + 2 ^ w * z) = c + ((2 ^ w : Nat) : Int) * (-z) := by push_cast; rw [Int.mul_neg]; omega
  rw [this, Int.add_mul_bmod_self_left]
  apply Int.bmod_eq_of_le
  · have : (2 ^ w : Nat) = 2 * 2 ^ (w - 1) := by rw [← Nat.pow_succ']; congr 1; omega
    have e : ((2 ^ w : Nat) : Int) = (2 ^ w : Int) := by push_cast; rfl
    omega
  · have : (2 ^ w : Nat) = 2 * 2 ^ (w - 1) := by rw [← Nat.pow_succ']; congr 1; omega
    have e : ((2 ^ w : Nat) : Int) = (2 ^ w : Int) := by push_cast; rfl
    omega

/-- C06: `libFloor`/`libCeiling` agree with `floor2`/`ceiling2` on power-of-two alignments; other
    non-zero alignments are rejected. -/
theorem C06_lib_agrees (v a : BitVec 64) (h0 : a ≠ 0) :
    (isPow2 a = true → libFloor v a = .ret (floor2 v a) ∧ libCeiling v a = .ret (ceiling2 v a)) ∧
    (isPow2 a = false → libFloor v a = .abort ∧ libCeiling v a = .abort) := by
  have e : libPow2 a = isPow2 a := by
    unfold libPow2 isPow2; rw [if_neg (by simpa using h0)]
  simp only [libFloor, libCeiling, e]
  constructor
  · intro h; simp [h, floor2, ceiling2]
  · intro h; simp [h]

example : isPow2 (16#8) = true ∧ 0 < (16#8).toInt ∧ floor2 (-37#8) 16#8 = -48#8 ∧
    (ceiling2 (37#8) 16#8) = 48#8 := by decide

/-- C07: `leading0s` is the length of the run of zeros at the top, `w` for zero;
    for any builtin width `W ≥ w`, so for `char`, `short` and the full-width types. -/
theorem C07_leading0s {w W : Nat} (hW : w ≤ W) (n : BitVec w) :
    ∃ r, leading0s W n = .ret r ∧ r ≤ w ∧ (∀ i, i < w → w - r ≤ i → n.getLsbD i = false) ∧
      (r < w → n.getLsbD (w - r - 1) = true) := by
  unfold leading0s
  by_cases h : n = 0#w
  · subst h; exact ⟨w, by simp, Nat.le_refl _, by simp, by omega⟩
  · have h1 := toNat_ne_zero h
    have h2 := log2_lt h1
    obtain ⟨s1, s2⟩ := log2_spec _ h1
    refine ⟨w - 1 - n.toNat.log2, ?_, by omega, ?_, ?_⟩
    · simp only [ne_eq, h, not_false_iff, if_true, builtinClz, toNat_setWidth_of_le hW, h1, if_false,
        Outcome.bind_ret, Outcome.pure_eq]
      congr 1; omega
    · intro i hi hi2
      rw [← BitVec.testBit_toNat]; exact s2 i (by omega)
    · intro hr
      rw [← BitVec.testBit_toNat]
      have : w - (w - 1 - n.toNat.log2) - 1 = n.toNat.log2 := by omega
      rw [this]; exact s1

/-- C07: `trailing0s` is the length of the run of zeros at the bottom, `w` for zero. -/
theorem C07_trailing0s {w W : Nat} (hW : w ≤ W) (n : BitVec w) :
    ∃ r, trailing0s W n = .ret r ∧ r ≤ w ∧ (∀ i, i < r → n.getLsbD i = false) ∧
      (r < w → n.getLsbD r = true) := by
  unfold trailing0s
  by_cases h : n = 0#w
  · subst h; exact ⟨w, by simp, Nat.le_refl _, by simp, by omega⟩
  · have h1 := toNat_ne_zero h
    have h2 := ctz_lt h1
    obtain ⟨s1, s2⟩ := ctz_spec _ h1
    refine ⟨ctzNat n.toNat, ?_, by omega, ?_, ?_⟩
    · simp only [ne_eq, h, not_false_iff, if_true, builtinCtz, toNat_setWidth_of_le hW, h1, if_false]
    · intro i hi; rw [← BitVec.testBit_toNat]; exact s2 i hi
    · intro _; rw [← BitVec.testBit_toNat]; exact s1

/-- C07: `all1s` counts the set bits and `all0s` the clear bits; together they make `w`. -/
theorem C07_counts {w W : Nat} (hW : w ≤ W) (n : BitVec w) :
    all1s W n = ((List.range w).filter (fun i => n.getLsbD i)).length ∧
    all0s W n = ((List.range w).filter (fun i => !n.getLsbD i)).length ∧
    all1s W n + all0s W n = w := by
  have e1 : all1s W n = ((List.range w).filter (fun i => n.getLsbD i)).length := by
    unfold all1s builtinPopcount
    rw [toNat_setWidth_of_le hW, popNat_spec _ w n.isLt]
    simp only [BitVec.testBit_toNat]
  have e2 : all0s W n = ((List.range w).filter (fun i => !n.getLsbD i)).length := by
    unfold all0s builtinPopcount
    rw [toNat_setWidth_of_le hW, popNat_spec _ w (~~~n).isLt]
    congr 1
    apply List.filter_congr
    intro i hi
    rw [BitVec.testBit_toNat, BitVec.getLsbD_not]
    simp [List.mem_range.1 hi]
  refine ⟨e1, e2, ?_⟩
  rw [e1, e2, ← List.countP_eq_length_filter, ← List.countP_eq_length_filter]
  have := List.length_eq_countP_add_countP (fun i => n.getLsbD i) (l := List.range w)
  simp only [List.length_range] at this
  have hf : (fun a => decide ¬n.getLsbD a = true) = (fun i => !n.getLsbD i) := by
    funext i; cases n.getLsbD i <;> rfl
  rw [hf] at this
  exact this.symm

/-- "`r` is one plus the position of the lowest bit equal to `b`, 0 when there is none." -/
def IsLow {w : Nat} (n : BitVec w) (b : Bool) (r : Nat) : Prop :=
  (r = 0 ∧ ∀ i, i < w → n.getLsbD i ≠ b) ∨
  (∃ p, r = p + 1 ∧ p < w ∧ n.getLsbD p = b ∧ ∀ i, i < p → n.getLsbD i ≠ b)

/-- "`r` is one plus the position of the highest bit equal to `b`, 0 when there is none." -/
def IsHigh {w : Nat} (n : BitVec w) (b : Bool) (r : Nat) : Prop :=
  (r = 0 ∧ ∀ i, i < w → n.getLsbD i ≠ b) ∨
  (∃ p, r = p + 1 ∧ p < w ∧ n.getLsbD p = b ∧ ∀ i, p < i → i < w → n.getLsbD i ≠ b)

private theorem ffs_isLow {w W : Nat} (hW : w ≤ W) (n : BitVec w) : IsLow n true (builtinFfs (n.setWidth W)) := by
  unfold builtinFfs
  rw [toNat_setWidth_of_le hW]
  by_cases h : n.toNat = 0
  · left
    simp only [h, if_true, true_and]
    intro i _
    rw [← BitVec.testBit_toNat, h]; simp
  · right
    obtain ⟨s1, s2⟩ := ctz_spec _ h
    refine ⟨ctzNat n.toNat, by simp [h], ctz_lt h, by rw [← BitVec.testBit_toNat]; exact s1, ?_⟩
    intro i hi
    rw [← BitVec.testBit_toNat, s2 i hi]; simp

private theorem isLow_not {w : Nat} (n : BitVec w) (r : Nat) (h : IsLow (~~~n) true r) : IsLow n false r := by
  rcases h with ⟨h1, h2⟩ | ⟨p, h1, h2, h3, h4⟩
  · left; refine ⟨h1, ?_⟩
    intro i hi; have := h2 i hi; simp only [BitVec.getLsbD_not, hi, decide_true, Bool.true_and] at this; simpa using this
  · right; refine ⟨p, h1, h2, ?_, ?_⟩
    · simp [BitVec.getLsbD_not, h2] at h3; exact h3
    · intro i hi; have := h4 i hi; simp only [BitVec.getLsbD_not, show i < w by omega, decide_true, Bool.true_and] at this; simpa using this

/-- C07: `low1` and `low0`. -/
theorem C07_low {w W : Nat} (hW : w ≤ W) (n : BitVec w) :
    IsLow n true (low1 W n) ∧ IsLow n false (low0 W n) :=
  ⟨ffs_isLow hW n, isLow_not _ _ (ffs_isLow hW (~~~n))⟩

private theorem high1_isHigh {w W : Nat} (hW : w ≤ W) (n : BitVec w) :
    ∃ r, high1 W n = .ret r ∧ IsHigh n true r := by
  unfold high1
  by_cases h : n = 0#w
  · subst h; exact ⟨0, by simp, Or.inl ⟨rfl, by simp⟩⟩
  · have h1 := toNat_ne_zero h
    have h2 := log2_lt h1
    obtain ⟨s1, s2⟩ := log2_spec _ h1
    refine ⟨n.toNat.log2 + 1, ?_, Or.inr ⟨_, rfl, h2, ?_, ?_⟩⟩
    · simp only [h, if_false, builtinClz, toNat_setWidth_of_le hW, h1, Outcome.bind_ret, Outcome.pure_eq]
      congr 1; omega
    · rw [← BitVec.testBit_toNat]; exact s1
    · intro i hi _; rw [← BitVec.testBit_toNat, s2 i hi]; simp

/-- C07: `high1` and `high0`. -/
theorem C07_high {w W : Nat} (hW : w ≤ W) (n : BitVec w) :
    (∃ r, high1 W n = .ret r ∧ IsHigh n true r) ∧ (∃ r, high0 W n = .ret r ∧ IsHigh n false r) := by
  refine ⟨high1_isHigh hW n, ?_⟩
  obtain ⟨r, h1, h2⟩ := high1_isHigh hW (~~~n)
  refine ⟨r, ?_, ?_⟩
  · rw [← h1]; unfold high0 high1
    have : (n = BitVec.allOnes w) ↔ (~~~n = 0#w) := by
      constructor
      · intro h; subst h; simp
      · intro h
        have : ~~~(~~~n) = ~~~(0#w) := by rw [h]
        simpa using this
    simp only [this]
  · rcases h2 with ⟨h1, h2⟩ | ⟨p, h1, h2, h3, h4⟩
    · left; refine ⟨h1, ?_⟩
      intro i hi; have := h2 i hi; simp only [BitVec.getLsbD_not, hi, decide_true, Bool.true_and] at this; simpa using this
    · right; refine ⟨p, h1, h2, ?_, ?_⟩
      · simp [BitVec.getLsbD_not, h2] at h3; exact h3
      · intro i hi hi2; have := h4 i hi hi2; simp only [BitVec.getLsbD_not, hi2, decide_true, Bool.true_and] at this; simpa using this

/-- C07: `high1` brackets the argument between powers of two. -/
theorem C07_high1_bracket {w W : Nat} (hW : w ≤ W) (n : BitVec w) (h : n ≠ 0) :
    ∃ r, high1 W n = .ret (r + 1) ∧ 2 ^ r ≤ n.toNat ∧ n.toNat < 2 ^ (r + 1) := by
  have h1 : n.toNat ≠ 0 := toNat_ne_zero (by simpa using h)
  have h2 := log2_lt h1
  refine ⟨n.toNat.log2, ?_, Nat.log2_self_le h1, Nat.lt_log2_self⟩
  unfold high1
  simp only [show n ≠ 0#w by simpa using h, if_false, builtinClz, toNat_setWidth_of_le hW, h1,
    Outcome.bind_ret, Outcome.pure_eq]
  congr 1; omega

example : leading0s 32 (0x14#8) = .ret 3 ∧ trailing0s 32 (0x14#8) = .ret 2 ∧ all1s 32 (0x14#8) = 2 ∧
    all0s 32 (0x14#8) = 6 ∧ low1 32 (0x14#8) = 3 ∧ low0 32 (0x13#8) = 3 ∧ high0 32 (0xF7#8) = .ret 4 ∧
    high1 32 (0x14#8) = .ret 5 := by decide +kernel

end Verif.Bitmanip
