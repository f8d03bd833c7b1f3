import Verif.Model.Rational
import Mathlib.Data.Rat.Defs
import Mathlib.Data.Int.Basic
import Mathlib.Algebra.Order.Ring.Rat
import Mathlib.Algebra.Field.Rat
import Mathlib.Tactic.FieldSimp
import Mathlib.Tactic.Ring
import Mathlib.Tactic.Linarith
/-! Helper lemmas for the rational properties. -/
namespace Verif.Rational
open Verif

theorem gcd_spec (a b : Int) (ha : 0 ≤ a) (hb : 0 < b) : gcd a b = .ret (Int.gcd a b : Int) := by
  induction hk : b.natAbs using Nat.strongRecOn generalizing a b with
  | ind k ih =>
    unfold gcd
    have hb0 : b ≠ 0 := by omega
    simp only [hb0, dite_false]
    have hm : a.tmod b = a % b := Int.tmod_eq_emod_of_nonneg ha
    have hg : Int.gcd a b = Int.gcd b (a % b) := by
      rw [Int.gcd_comm b, Int.gcd_emod]
    rw [hm]
    split
    · next h =>
      rw [hg, h, Int.gcd_zero_right]
      congr 1; omega
    · next h =>
      have h0 : 0 ≤ a % b := Int.emod_nonneg _ hb0
      have h1 : a % b < b := Int.emod_lt_of_pos _ hb
      rw [ih (a % b).natAbs (by omega) b (a % b) (by omega) (by omega) rfl, hg]

/-- The canonical result of building `n/d`. -/
theorem mk2_spec (n d : Int) (hd : d ≠ 0) :
    ∃ r : Rational, mk2 n d = .ret r ∧ 0 < r.den ∧ Int.gcd r.num r.den = 1 ∧
      ((r.num : ℚ) / (r.den : ℚ) = (n : ℚ) / (d : ℚ)) := by
  -- normalise the sign
  have key : ∀ n d : Int, 0 < d → ∃ r : Rational,
      (do let t ← gcd (n.natAbs : Int) d
          let a ← cdiv n t
          let b ← cdiv d t
          pure (⟨a, b⟩ : Rational) : Outcome Rational) = .ret r ∧ 0 < r.den ∧
      Int.gcd r.num r.den = 1 ∧ ((r.num : ℚ) / (r.den : ℚ) = (n : ℚ) / (d : ℚ)) := by
    intro n d hd
    have hg := gcd_spec (n.natAbs : Int) d (by omega) hd
    have hgg : Int.gcd (n.natAbs : Int) d = Int.gcd n d := by
      simp only [Int.gcd, Int.natAbs_natCast]
    rw [hgg] at hg
    have hpos : 0 < Int.gcd n d := Int.gcd_pos_of_ne_zero_right n (by omega)
    have hne : ((Int.gcd n d : Nat) : Int) ≠ 0 := by omega
    obtain ⟨n', hn'⟩ : ((Int.gcd n d : Nat) : Int) ∣ n := Int.gcd_dvd_left n d
    obtain ⟨d', hd'⟩ : ((Int.gcd n d : Nat) : Int) ∣ d := Int.gcd_dvd_right n d
    have hnd : n.tdiv (Int.gcd n d : Nat) = n' := by
      conv_lhs => lhs; rw [hn']
      exact Int.mul_tdiv_cancel_left _ hne
    have hdd : d.tdiv (Int.gcd n d : Nat) = d' := by
      conv_lhs => lhs; rw [hd']
      exact Int.mul_tdiv_cancel_left _ hne
    refine ⟨⟨n', d'⟩, ?_, ?_, ?_, ?_⟩
    · rw [hg]; simp only [Outcome.bind_ret, cdiv, hne, if_false, hnd, hdd, Outcome.pure_eq]
    · show 0 < d'
      by_contra hneg
      have : d ≤ 0 := by rw [hd']; exact Int.mul_nonpos_of_nonneg_of_nonpos (by omega) (by omega)
      omega
    · show Int.gcd n' d' = 1
      have h1 : Int.gcd ((Int.gcd n d : Nat) * n') ((Int.gcd n d : Nat) * d') = Int.gcd n d * Int.gcd n' d' := by
        rw [Int.gcd_mul_left]; simp
      rw [← hn', ← hd'] at h1
      have := Nat.eq_of_mul_eq_mul_left hpos (by omega : Int.gcd n d * Int.gcd n' d' = Int.gcd n d * 1)
      exact this
    · show ((n' : ℚ) / (d' : ℚ)) = _
      have hq : ((Int.gcd n d : Nat) : ℚ) ≠ 0 := by exact_mod_cast (by omega : Int.gcd n d ≠ 0)
      have e1 : (n : ℚ) = ((Int.gcd n d : Nat) : ℚ) * n' := by exact_mod_cast hn'
      have e2 : (d : ℚ) = ((Int.gcd n d : Nat) : ℚ) * d' := by exact_mod_cast hd'
      rw [e1, e2, mul_div_mul_left _ _ hq]
  unfold mk2 simplify
  simp only [hd, if_false]
  by_cases hneg : d < 0
  · obtain ⟨r, h1, h2, h3, h4⟩ := key (-n) (-d) (by omega)
    refine ⟨r, ?_, h2, h3, ?_⟩
    · simp only [hneg, if_true]
      rw [← h1]
      cases gcd ((-n).natAbs : Int) (-d) <;> simp
    · rw [h4]; push_cast; rw [neg_div_neg_eq]
  · obtain ⟨r, h1, h2, h3, h4⟩ := key n d (by omega)
    refine ⟨r, ?_, h2, h3, h4⟩
    simp only [hneg, if_false]
    rw [← h1]
    cases gcd (n.natAbs : Int) d <;> simp

theorem powLoop_eq (op w : Int) (y : Nat) (hy : 1 ≤ y) : powLoop op w y = w ^ y * op := by
  induction hk : y using Nat.strongRecOn generalizing op w y with
  | ind k ih =>
    subst hk
    unfold powLoop
    by_cases h : y ≤ 1
    · have : y = 1 := by omega
      subst this; simp
    · simp only [h, dite_false]
      have hmod : y % 2 = 0 ∨ y % 2 = 1 := by omega
      have hy2 : y = 2 * (y / 2) + y % 2 := by omega
      rw [ih (y / 2) (by omega) _ _ (y / 2) (by omega) rfl]
      conv_rhs => rw [hy2]
      rcases hmod with h0 | h1
      · simp [h0, pow_mul, pow_two]
      · simp only [h1, if_true]; rw [pow_succ, pow_mul, pow_two]; ring

theorem ipow_eq (x : Int) (y : Nat) : ipow x y = x ^ y := by
  unfold ipow
  split
  · next h => simp [h]
  · next h => rw [powLoop_eq _ _ _ (by omega)]; simp

end Verif.Rational
