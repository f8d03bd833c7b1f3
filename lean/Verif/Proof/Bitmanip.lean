import Verif.Model.Bitmanip
import Init.Data.Nat.Power2.Lemmas
/-! Helper lemmas for C06, C07. -/
namespace Verif.Bitmanip
open Verif

theorem isPow2_iff {w : Nat} (n : BitVec w) : isPow2 n = true ↔ ∃ k, k < w ∧ n.toNat = 2 ^ k := by
  unfold isPow2
  by_cases h : n = 0#w
  · subst h
    simp only [if_true, Bool.false_eq_true, false_iff]
    rintro ⟨k, _, hk⟩
    have := Nat.two_pow_pos k
    simp at hk; omega
  · have hn : n.toNat ≠ 0 := by
      intro h0; apply h; apply BitVec.eq_of_toNat_eq; simpa using h0
    simp only [h, if_false, beq_iff_eq]
    have hlt := n.isLt
    have hs : (n - 1#w).toNat = n.toNat - 1 := by
      have hw : 1 < 2 ^ w := by
        rcases Nat.eq_zero_or_pos w with h0 | h0
        · subst h0; simp at hlt; omega
        · exact Nat.one_lt_two_pow (by omega)
      rw [BitVec.toNat_sub_of_le]
      · simp [Nat.mod_eq_of_lt hw]
      · rw [BitVec.le_def]; simp [Nat.mod_eq_of_lt hw]; omega
    have e : (n &&& (n - 1#w)) = 0#w ↔ n.toNat &&& (n.toNat - 1) = 0 := by
      rw [← BitVec.toNat_inj, BitVec.toNat_and, hs]; simp
    rw [e, Nat.and_sub_one_eq_zero_iff_isPowerOfTwo hn]
    constructor
    · rintro ⟨k, hk⟩
      exact ⟨k, by rw [hk] at hlt; exact (Nat.pow_lt_pow_iff_right (by decide)).1 hlt, hk⟩
    · rintro ⟨k, _, hk⟩; exact ⟨k, hk⟩

theorem floor2_toNat {w : Nat} (n a : BitVec w) (k : Nat) (hk : k < w) (ha : a.toNat = 2 ^ k) :
    (floor2 n a).toNat = n.toNat / 2 ^ k * 2 ^ k := by
  have hneg : floor2 n a = (n >>> k) <<< k := by
    unfold floor2
    have hw : 1 < 2 ^ w := Nat.one_lt_two_pow (by omega)
    have hle : 1#w ≤ a := by
      rw [BitVec.le_def, ha]; simp [Nat.mod_eq_of_lt hw, Nat.one_le_two_pow]
    have hna : -a = ~~~ (a - 1#w) := by
      rw [BitVec.neg_eq_not_add]
      rw [BitVec.not_sub_eq_not_add]
    have hs : (a - 1#w).toNat = 2 ^ k - 1 := by
      rw [BitVec.toNat_sub_of_le hle, ha]; simp [Nat.mod_eq_of_lt hw]
    rw [hna]
    apply BitVec.eq_of_getLsbD_eq
    intro i hi
    have : (a - 1#w).getLsbD i = decide (i < k) := by
      rw [← BitVec.testBit_toNat, hs, Nat.testBit_two_pow_sub_one]
    simp only [BitVec.getLsbD_and, BitVec.getLsbD_not, this, BitVec.getLsbD_shiftLeft,
      BitVec.getLsbD_ushiftRight, hi, decide_true, Bool.true_and]
    by_cases hik : i < k
    · simp [hik]
    · simp [hik]; congr 1; omega
  rw [hneg, BitVec.toNat_shiftLeft, BitVec.toNat_ushiftRight, Nat.shiftRight_eq_div_pow, Nat.shiftLeft_eq]
  apply Nat.mod_eq_of_lt
  exact Nat.lt_of_le_of_lt (Nat.div_mul_le_self _ _) n.isLt

theorem ceiling2_toNat {w : Nat} (n a : BitVec w) (k : Nat) (hk : k < w) (ha : a.toNat = 2 ^ k) :
    (ceiling2 n a).toNat = ((n.toNat + (2 ^ k - 1)) / 2 ^ k * 2 ^ k) % 2 ^ w := by
  unfold ceiling2
  have hlt := n.isLt
  rw [BitVec.toNat_neg, floor2_toNat _ _ k hk ha, BitVec.toNat_neg]
  obtain ⟨m, hm⟩ : ∃ m, 2 ^ w = 2 ^ k * m := ⟨2 ^ (w - k), by rw [← Nat.pow_add]; congr 1; omega⟩
  have hp := Nat.two_pow_pos k
  generalize hA : 2 ^ k = A at *
  generalize n.toNat = x at *
  rcases Nat.eq_zero_or_pos x with h0 | h0
  · subst h0
    have : (0 + (A - 1)) / A = 0 := Nat.div_eq_of_lt (by omega)
    rw [this]; simp
  · rw [Nat.mod_eq_of_lt (by omega : 2 ^ w - x < 2 ^ w), hm]
    -- write x = A * q + r
    have hq := Nat.div_add_mod x A
    have hr := Nat.mod_lt x hp
    generalize hQ : x / A = q at *
    generalize x % A = r at *
    by_cases hr0 : r = 0
    · subst hr0
      have e1 : (A * m - x) / A = m - q := by
        rw [← hq, Nat.add_zero, ← Nat.mul_sub]; exact Nat.mul_div_cancel_left _ hp
      have e2 : (x + (A - 1)) / A = q := by
        rw [← hq, Nat.add_zero, Nat.mul_add_div hp, Nat.div_eq_of_lt (by omega)]; omega
      rw [e1, e2]
      have hqm : q ≤ m := by
        have : A * q ≤ A * m := by omega
        exact Nat.le_of_mul_le_mul_left this hp
      rw [Nat.mul_comm (m - q), Nat.mul_sub, Nat.mul_comm q]
      have : A * q ≤ A * m := Nat.mul_le_mul_left _ hqm
      congr 1; omega
    · have hqm : q + 1 ≤ m := by
        have : A * q < A * m := by omega
        exact Nat.lt_of_mul_lt_mul_left this
      have e1 : (A * m - x) / A = m - q - 1 := by
        have : A * m - x = A * (m - q - 1) + (A - r) := by
          rw [show m = (m - q - 1) + q + 1 by omega, Nat.mul_add, Nat.mul_add]
          have h2 : m - q - 1 + q + 1 - q - 1 = m - q - 1 := by omega
          rw [h2]; omega
        rw [this, Nat.mul_add_div hp, Nat.div_eq_of_lt (by omega)]; omega
      have e2 : (x + (A - 1)) / A = q + 1 := by
        have : x + (A - 1) = A * (q + 1) + (r - 1) := by rw [Nat.mul_add]; omega
        rw [this, Nat.mul_add_div hp, Nat.div_eq_of_lt (by omega)]
      rw [e1, e2]
      have : (m - q - 1) * A + (q + 1) * A = A * m := by
        rw [← Nat.add_mul, Nat.mul_comm]; congr 1; omega
      congr 1; omega

theorem ctz_spec (n : Nat) (h : n ≠ 0) :
    n.testBit (ctzNat n) = true ∧ ∀ j, j < ctzNat n → n.testBit j = false := by
  induction n using Nat.strongRecOn with
  | ind n ih =>
    unfold ctzNat
    simp only [h, dite_false]
    by_cases hm : n % 2 = 1
    · simp [hm, Nat.testBit_zero]
    · simp only [hm, if_false]
      have h2 : n / 2 ≠ 0 := by omega
      obtain ⟨a, b⟩ := ih (n / 2) (by omega) h2
      refine ⟨by rw [Nat.testBit_succ]; exact a, ?_⟩
      intro j hj
      cases j with
      | zero => simp [Nat.testBit_zero, hm]
      | succ j => rw [Nat.testBit_succ]; exact b j (by omega)

theorem log2_spec (n : Nat) (h : n ≠ 0) :
    n.testBit n.log2 = true ∧ ∀ j, n.log2 < j → n.testBit j = false := by
  have h1 := Nat.log2_self_le h
  have h2 := @Nat.lt_log2_self n
  constructor
  · rw [Nat.testBit_eq_decide_div_mod_eq]
    have : n / 2 ^ n.log2 = 1 := by
      apply Nat.div_eq_of_lt_le <;> omega
    simp [this]
  · intro j hj
    apply Nat.testBit_lt_two_pow
    exact Nat.lt_of_lt_of_le h2 (Nat.pow_le_pow_right (by decide) (by omega))

theorem popNat_spec (n w : Nat) (h : n < 2 ^ w) :
    popNat n = ((List.range w).filter (fun i => n.testBit i)).length := by
  induction w generalizing n with
  | zero =>
    have : n = 0 := by simp at h; exact h
    subst this; simp [popNat]
  | succ w ih =>
    rw [List.range_succ_eq_map, List.filter_cons, List.filter_map]
    have hc : ((fun i => n.testBit i) ∘ Nat.succ) = fun i => (n / 2).testBit i := by
      funext i; simp [Nat.testBit_succ]
    rw [hc]
    have hh : n / 2 < 2 ^ w := by rw [Nat.pow_succ] at h; omega
    unfold popNat
    by_cases h0 : n = 0
    · subst h0; simp; symm; rw [List.length_eq_zero_iff, List.filter_eq_nil_iff]; simp
    · simp only [h0, dite_false]
      rw [ih _ hh]
      rw [Nat.testBit_zero]
      by_cases hm : n % 2 = 1
      · simp [hm]; omega
      · have : n % 2 = 0 := by omega
        simp [this]

theorem toNat_setWidth_of_le {w W : Nat} (h : w ≤ W) (n : BitVec w) : (n.setWidth W).toNat = n.toNat := by
  rw [BitVec.toNat_setWidth]
  exact Nat.mod_eq_of_lt (Nat.lt_of_lt_of_le n.isLt (Nat.pow_le_pow_right (by decide) h))

theorem toNat_ne_zero {w : Nat} {n : BitVec w} (h : n ≠ 0#w) : n.toNat ≠ 0 := by
  intro h0; apply h; apply BitVec.eq_of_toNat_eq; simpa using h0

theorem log2_lt {w : Nat} {n : BitVec w} (h : n.toNat ≠ 0) : n.toNat.log2 < w := by
  have := (Nat.log2_lt h).2 n.isLt; exact this

theorem ctz_lt {w : Nat} {n : BitVec w} (h : n.toNat ≠ 0) : ctzNat n.toNat < w := by
  have := (ctz_spec _ h).1
  rw [BitVec.testBit_toNat] at this
  exact BitVec.lt_of_getLsbD this

end Verif.Bitmanip
