import Verif.Model.Math
import Verif.Proof.Bitmanip
import Mathlib.Algebra.Group.Basic
import Mathlib.Algebra.Order.Ring.Int
import Mathlib.Algebra.Order.Ring.Abs
import Mathlib.Tactic.Ring
import Mathlib.Tactic.Linarith
/-! Helper lemmas for C69-C71. -/
namespace Verif.Math
open Verif

theorem powLoopG_eq {M : Type u} [Monoid M] (x : M) (op : M) (i j : Nat) (hop : op = x ^ i) (y : Nat) (hy : 1 ≤ y) :
    powLoopG (· * ·) op (x ^ j) y = x ^ (j * y + i) := by
  induction y using Nat.strongRecOn generalizing op i j with
  | ind y ih =>
    unfold powLoopG
    by_cases h : y ≤ 1
    · have : y = 1 := by omega
      subst this; subst hop; simp [← pow_add]
    · simp only [h, dite_false]
      have e2 : (x ^ j * x ^ j) = x ^ (j + j) := (pow_add x j j).symm
      rw [e2]
      by_cases h1 : y % 2 = 1
      · simp only [h1, if_true]
        rw [ih (y / 2) (by omega) (op * x ^ j) (i + j) (j + j) (by rw [hop, pow_add]) (by omega)]
        congr 1
        have : y = 2 * (y / 2) + 1 := by omega
        conv_rhs => rw [this]
        ring
      · simp only [h1, if_false]
        rw [ih (y / 2) (by omega) op i (j + j) hop (by omega)]
        congr 1
        have : y = 2 * (y / 2) := by omega
        conv_rhs => rw [this]
        ring

theorem powLoopU_toNat {b : Nat} (op w : BitVec b) (y : Nat) (hy : 1 ≤ y) :
    (powLoopU op w y).toNat = (w.toNat ^ y * op.toNat) % 2 ^ b := by
  induction y using Nat.strongRecOn generalizing op w with
  | ind y ih =>
    unfold powLoopU
    by_cases h : y ≤ 1
    · have : y = 1 := by omega
      subst this; simp [BitVec.toNat_mul]
    · simp only [h, dite_false]
      rw [ih (y / 2) (by omega) _ _ (by omega), BitVec.toNat_mul]
      by_cases h1 : y % 2 = 1
      · simp only [h1, if_true, BitVec.toNat_mul]
        rw [Nat.mul_mod, Nat.pow_mod, Nat.mod_mod, ← Nat.pow_mod, Nat.mod_mod, ← Nat.mul_mod]
        congr 1
        have : y = 2 * (y / 2) + 1 := by omega
        conv_rhs => rw [this]
        ring
      · simp only [h1, if_false]
        rw [Nat.mul_mod, Nat.pow_mod, Nat.mod_mod, ← Nat.pow_mod, ← Nat.mul_mod]
        congr 1
        have : y = 2 * (y / 2) := by omega
        conv_rhs => rw [this]
        ring

theorem sq_ne_two_pow_odd (m : Nat) (w : Int) : w * w ≠ 2 ^ (2 * m + 1) := by
  induction m generalizing w with
  | zero =>
    intro h
    simp at h
    have h1 : w ≤ 1 := by nlinarith
    have h2 : -1 ≤ w := by nlinarith
    have : w = -1 ∨ w = 0 ∨ w = 1 := by omega
    rcases this with h3 | h3 | h3 <;> subst h3 <;> simp at h
  | succ m ih =>
    intro h
    have heven : w % 2 = 0 := by
      have h2 : (w * w) % 2 = 0 := by rw [h, pow_succ]; simp
      rcases Int.emod_two_eq w with h3 | h3
      · exact h3
      · rw [Int.mul_emod, h3] at h2; simp at h2
    obtain ⟨u, hu⟩ : ∃ u, w = 2 * u := ⟨w / 2, by omega⟩
    subst hu
    apply ih u
    have : (2 : Int) ^ (2 * (m + 1) + 1) = 4 * 2 ^ (2 * m + 1) := by ring
    rw [this] at h
    nlinarith

theorem sChk_ok {b : Nat} {x : Int} (h : -(2 ^ (b - 1)) ≤ x ∧ x < 2 ^ (b - 1)) : sChk b x = .ret x := by
  simp [sChk, h]

/-- The signed squaring loop computes the exact power when the result is representable, for an even width. -/
theorem powLoopS_eq (m : Nat) (op w : Int) (y : Nat) (hy : 1 ≤ y)
    (hw : w ≠ 0) (hop : op ≠ 0)
    (hone : w * w = 1 → (w ^ y * op) < 2 ^ (2 * m + 1) ∧ -(2 ^ (2 * m + 1)) < w ^ y * op)
    (hrep : -(2 ^ (2 * m + 1)) ≤ w ^ y * op ∧ w ^ y * op < 2 ^ (2 * m + 1)) :
    powLoopS (2 * m + 2) op w y = .ret (w ^ y * op) := by
  induction y using Nat.strongRecOn generalizing op w with
  | ind y ih =>
    have hb : 2 * m + 2 - 1 = 2 * m + 1 := by omega
    unfold powLoopS
    by_cases h : y ≤ 1
    · have : y = 1 := by omega
      subst this
      simp only [Nat.le_refl, dite_true, pow_one] at *
      exact sChk_ok (by rw [hb]; exact hrep)
    · simp only [h, dite_false]
      set op' : Int := if y % 2 = 1 then op * w else op with hop'
      have hmain : (w * w) ^ (y / 2) * op' = w ^ y * op := by
        rw [hop']
        by_cases h1 : y % 2 = 1
        · simp only [h1, if_true]
          have : y = 2 * (y / 2) + 1 := by omega
          conv_rhs => rw [this]
          ring
        · simp only [h1, if_false]
          have : y = 2 * (y / 2) := by omega
          conv_rhs => rw [this]
          ring
      have hop'0 : op' ≠ 0 := by
        rw [hop']; split
        · exact mul_ne_zero hop hw
        · exact hop
      have hww : w * w ≠ 0 := mul_ne_zero hw hw
      have hww1 : 1 ≤ w * w := by
        have := mul_self_nonneg w; omega
      -- bound the new square and the new product by the result
      have habs : |(w * w) ^ (y / 2) * op'| ≤ 2 ^ (2 * m + 1) := by
        rw [hmain, abs_le]; exact ⟨hrep.1, le_of_lt hrep.2⟩
      have hopabs : 1 ≤ |op'| := Int.one_le_abs hop'0
      have hpow : w * w ≤ (w * w) ^ (y / 2) := le_self_pow₀ hww1 (by omega)
      have hpow1 : 1 ≤ (w * w) ^ (y / 2) := one_le_pow₀ hww1
      rw [abs_mul, abs_of_nonneg (by omega : (0 : Int) ≤ (w * w) ^ (y / 2))] at habs
      have hwle : w * w ≤ 2 ^ (2 * m + 1) := by nlinarith
      have hople : |op'| ≤ 2 ^ (2 * m + 1) := by nlinarith
      have hwlt : w * w < 2 ^ (2 * m + 1) := lt_of_le_of_ne hwle (sq_ne_two_pow_odd m w)
      have hoplt : |op'| < 2 ^ (2 * m + 1) ∨ op' = -(2 ^ (2 * m + 1)) := by
        rcases lt_or_eq_of_le hople with h1 | h1
        · exact Or.inl h1
        · right
          have hone' : w * w = 1 := by nlinarith
          have := hone hone'
          rw [← hmain, hone', one_pow, one_mul] at this
          rcases abs_choice op' with h2 | h2 <;> omega
      have hchk2 : sChk (2 * m + 2) (w * w) = .ret (w * w) := sChk_ok (by rw [hb]; omega)
      have hchk1 : (if y % 2 = 1 then sChk (2 * m + 2) (op * w) else .ret op) = .ret op' := by
        rw [hop'] at *
        split
        · next h1 =>
          simp only [h1, if_true] at hoplt
          apply sChk_ok
          rw [hb]
          rcases hoplt with h2 | h2
          · rw [abs_lt] at h2; omega
          · rw [h2]; constructor
            · omega
            · have : (0 : Int) < 2 ^ (2 * m + 1) := by positivity
              omega
        · rfl
      have hbind : ((do
          let op' ← if y % 2 = 1 then sChk (2 * m + 2) (op * w) else .ret op
          let w' ← sChk (2 * m + 2) (w * w)
          powLoopS (2 * m + 2) op' w' (y / 2)) : Outcome Int) = powLoopS (2 * m + 2) op' (w * w) (y / 2) := by
        have e1 : powLoopS (2 * m + 2) op' (w * w) (y / 2) = ((Outcome.ret op') >>= fun o =>
            sChk (2 * m + 2) (w * w) >>= fun w' => powLoopS (2 * m + 2) o w' (y / 2)) := by
          rw [Outcome.bind_ret, hchk2, Outcome.bind_ret]
        rw [e1, ← hchk1]
        split <;> rfl
      rw [hbind, ih (y / 2) (by omega) op' (w * w) (by omega) hww hop'0]
      · rw [hmain]
      · intro h1
        rw [hmain]
        have : w * w = 1 := by nlinarith
        exact hone this
      · rw [hmain]; exact hrep

theorem powLoopS_zero (b : Nat) (op : Int) (y : Nat) (hy : 1 ≤ y) : powLoopS b op 0 y = .ret 0 := by
  have h0 : sChk b 0 = .ret 0 := by
    apply sChk_ok
    have : (0 : Int) < 2 ^ (b - 1) := by positivity
    omega
  induction y using Nat.strongRecOn generalizing op with
  | ind y ih =>
    unfold powLoopS
    by_cases h : y ≤ 1
    · simp only [h, dite_true, Int.zero_mul, h0]
    · simp only [h, dite_false, Int.mul_zero, h0]
      split
      · simp only [Outcome.bind_ret]; exact ih _ (by omega) _ (by omega)
      · simp only [Outcome.bind_ret]; exact ih _ (by omega) _ (by omega)

/-! ### logarithm -/

/-- Per-row facts about consecutive table entries. -/
def rowOk (y0 y1 y2 : Int) : Bool :=
  let f1 := y1 - y0
  let f2 := y2 - y0
  let a := f2 - f1 * 2
  let b := f1 * 2 - a
  decide (0 ≤ y0) && decide (a ≤ 0) && decide (0 < 2 * a + b) && decide (0 < a + b - 1) && decide (y1 ≤ 2 ^ 32)

theorem interpolate_bounds (y0 y1 y2 u : Int) (h : rowOk y0 y1 y2 = true) (hu0 : 0 ≤ u) (hu : u < 2 ^ 26) :
    y0 ≤ interpolate y0 y1 y2 u ∧ interpolate y0 y1 y2 u < y1 := by
  unfold rowOk at h
  simp only [Bool.and_eq_true, decide_eq_true_eq] at h
  obtain ⟨⟨⟨⟨h0, ha⟩, hab⟩, hab1⟩, h1⟩ := h
  unfold interpolate
  simp only
  generalize hA : y2 - y0 - (y1 - y0) * 2 = a at *
  generalize hB : (y1 - y0) * 2 - a = b at *
  have hf : (y1 - y0) * 2 = a + b := by omega
  have hlow : a ≤ (a * u) / 2 ^ 26 := by
    rw [Int.le_ediv_iff_mul_le (by norm_num)]; nlinarith
  have hup : (a * u) / 2 ^ 26 * 2 ^ 26 ≤ a * u := Int.ediv_mul_le _ (by norm_num)
  generalize (a * u) / 2 ^ 26 = t at *
  constructor
  · have : 0 ≤ (t + b) * u / 2 ^ 27 := by
      apply Int.ediv_nonneg _ (by norm_num)
      apply mul_nonneg _ hu0; omega
    omega
  · have : (t + b) * u / 2 ^ 27 < y1 - y0 := by
      rw [Int.ediv_lt_iff_lt_mul (by norm_num)]
      -- ((t+b)u) * 2^26 ≤ a u^2 + b u 2^26 < 2^52 (a+b)
      have k1 : t * 2 ^ 26 * u ≤ a * u * u := mul_le_mul_of_nonneg_right hup hu0
      have k2 : 0 < (2 ^ 26 - u) * (a * (u + 2 ^ 26) + b * 2 ^ 26) := by
        apply mul_pos (by omega)
        nlinarith
      nlinarith
    omega

theorem table_rows : ∀ i : Fin 64, rowOk (logTable.getD i 0) (logTable.getD (i + 1) 0) (logTable.getD (i + 2) 0) = true := by
  decide +kernel

theorem table_length : logTable.length = 66 := rfl

theorem row_facts (i : Nat) (hi : i < 64) : ∃ y0 y1 y2, logTable[i]? = some y0 ∧ logTable[i + 1]? = some y1 ∧
    logTable[i + 2]? = some y2 ∧ rowOk y0 y1 y2 = true := by
  have h := table_rows ⟨i, hi⟩
  have hl := table_length
  refine ⟨logTable[i]'(by omega), logTable[i + 1]'(by omega), logTable[i + 2]'(by omega),
    List.getElem?_eq_getElem _, List.getElem?_eq_getElem _, List.getElem?_eq_getElem _, ?_⟩
  simp only [List.getD_eq_getElem?_getD] at h
  rw [List.getElem?_eq_getElem (by omega), List.getElem?_eq_getElem (by omega), List.getElem?_eq_getElem (by omega)] at h
  exact h

end Verif.Math
