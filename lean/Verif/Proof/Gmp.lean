import Verif.Spec.Gmp
import Mathlib.Tactic.Linarith
import Mathlib.Tactic.Ring
/-! Proofs for C101. -/
namespace Verif.Gmp

theorem toU_of {v : Int} (h : 0 ≤ v ∧ v < 2 ^ 64) : toU v = v := Int.emod_eq_of_lt h.1 h.2

theorem toU_neg {v : Int} (h : -2 ^ 63 ≤ v ∧ v < 2 ^ 63) (hn : ¬ v ≥ 0) : toU (-v) = -v := toU_of (by constructor <;> omega)

theorem toU_nonneg {v : Int} (h : -2 ^ 63 ≤ v ∧ v < 2 ^ 63) (hn : v ≥ 0) : toU v = v := toU_of (by constructor <;> omega)

theorem cmp_eq (a b : Int) : mpz_cmp a b = 0 ↔ a = b := by
  unfold mpz_cmp; rw [Int.sign_eq_zero_iff_zero]; omega

theorem cmp_lt (a b : Int) : mpz_cmp a b < 0 ↔ a < b := by
  unfold mpz_cmp; rw [Int.sign_neg_iff]; omega

theorem cmp_le (a b : Int) : mpz_cmp a b ≤ 0 ↔ a ≤ b := by
  have h1 := cmp_eq a b
  have h2 := cmp_lt a b
  omega

theorem get_ui_of {v : Int} (h : 0 ≤ v ∧ v < 2 ^ 64) : mpz_get_ui v = v := by
  unfold mpz_get_ui; omega

theorem get_si_of {v : Int} (h : -2 ^ 63 ≤ v ∧ v < 2 ^ 63) : mpz_get_si v = v := by
  unfold mpz_get_si
  split
  · exact Int.emod_eq_of_lt (by omega) (by omega)
  · split
    · rw [Int.emod_eq_of_lt (by omega) (by omega)]; omega
    · omega

theorem tdiv_small {a b : Int} (h : a.natAbs < b.natAbs) : a.tdiv b = 0 ∧ a.tmod b = a := by
  have h0 : a.tdiv b = 0 := by
    have : (a.tdiv b).natAbs = a.natAbs / b.natAbs := Int.natAbs_tdiv a b
    rw [Nat.div_eq_of_lt h] at this
    omega
  refine ⟨h0, ?_⟩
  have := Int.mul_tdiv_add_tmod a b
  rw [h0] at this
  omega

theorem fmod_of_neg (a : Int) {y : Int} (h : y < 0) : a.fmod y ≤ 0 ∧ y < a.fmod y := by
  have h1 := Int.fmod_nonneg_of_pos (-a) (show 0 < -y by omega)
  have h2 := Int.fmod_lt_of_pos (-a) (show 0 < -y by omega)
  rw [Int.neg_fmod_neg] at h1 h2
  omega

theorem div_eq {a b : Arg} (ha : a.ok) (hb : b.ok) (hm : Mixed a b) (h0 : b.val ≠ 0) (hx : ¬ (a = .S (-2 ^ 63) ∧ b.val = -1)) :
    div a b = some (a.val.tdiv b.val) ∧ mod a b = some (a.val.tmod b.val) := by
  cases a with
  | Z x =>
    cases b with
    | Z y => simp only [Arg.val] at *; simp [div, mod, mpz_tdiv_q, mpz_tdiv_r, h0]
    | U y => simp only [Arg.val] at *; simp [div, mod, mpz_tdiv_q, mpz_tdiv_r, h0]
    | S y =>
      simp only [Arg.val, Arg.ok] at *
      by_cases hy : y ≥ 0
      · simp only [div, mod, if_pos hy, toU_nonneg hb hy, mpz_tdiv_q, mpz_tdiv_r, if_neg h0, and_self]
      · simp only [div, mod, if_neg hy, toU_neg hb hy, mpz_tdiv_q, mpz_tdiv_r, if_neg (show ¬ -y = 0 by omega), Option.map_some, Int.tdiv_neg, Int.tmod_neg, neg_neg, and_self]
  | S x =>
    cases b with
    | S y => exact (hm.elim id id).elim
    | U y => exact (hm.elim id id).elim
    | Z y =>
      simp only [Arg.val, Arg.ok, Arg.S.injEq] at *
      by_cases hf : -2 ^ 63 ≤ y ∧ y < 2 ^ 63
      · have : mpz_fits_slong y = true := by simpa [mpz_fits_slong] using hf
        simp only [div, mod, this, if_true, get_si_of hf, sdiv, smod]
        rw [if_neg (by omega), if_neg (by omega)]
        exact ⟨rfl, rfl⟩
      · have : mpz_fits_slong y = false := by simpa [mpz_fits_slong] using hf
        simp only [div, mod, this, Bool.false_eq_true, if_false]
        have hab : toU (if x ≥ 0 then x else -x) = x.natAbs := by
          split
          · rename_i h; rw [toU_nonneg ha h]; omega
          · rename_i h; rw [toU_neg ha h]; omega
        rw [hab]
        have hc : mpz_cmpabs_ui y (x.natAbs : Int) = 0 ↔ y.natAbs = x.natAbs := by
          unfold mpz_cmpabs_ui; rw [Int.sign_eq_zero_iff_zero]; omega
        by_cases he : y.natAbs = x.natAbs
        · rw [if_pos (hc.2 he), if_pos (hc.2 he)]
          have h1 : x = -2 ^ 63 := by omega
          have h2 : y = 2 ^ 63 := by omega
          subst h1 h2
          decide
        · rw [if_neg (fun h => he (hc.1 h)), if_neg (fun h => he (hc.1 h))]
          obtain ⟨a1, a2⟩ := tdiv_small (a := x) (b := y) (by omega)
          rw [a1, a2]; exact ⟨rfl, rfl⟩
  | U x =>
    cases b with
    | S y => exact (hm.elim id id).elim
    | U y => exact (hm.elim id id).elim
    | Z y =>
      simp only [Arg.val, Arg.ok] at *
      by_cases hs : y.sign ≥ 0
      · have hy : 0 ≤ y := by
          by_contra hc
          have := Int.sign_neg_iff.2 (show y < 0 by omega)
          omega
        simp only [div, mod, if_pos hs]
        by_cases hf : y < 2 ^ 64
        · have : mpz_fits_ulong y = true := by simp [mpz_fits_ulong, hy]; omega
          simp only [this, if_true, get_ui_of ⟨hy, hf⟩, udiv, umod, if_neg h0, and_self]
        · have : mpz_fits_ulong y = false := by simp [mpz_fits_ulong]; omega
          simp only [this, Bool.false_eq_true, if_false]
          obtain ⟨a1, a2⟩ := tdiv_small (a := x) (b := y) (by omega)
          rw [a1, a2]; exact ⟨rfl, rfl⟩
      · have hy : y < 0 := by
          by_contra hc
          have := Int.sign_nonneg_iff.2 (show 0 ≤ y by omega)
          omega
        simp only [div, mod, if_neg hs]
        by_cases hf : -y < 2 ^ 64
        · have : mpz_fits_ulong (-y) = true := by simp [mpz_fits_ulong]; omega
          simp only [this, if_true, get_ui_of ⟨show 0 ≤ -y by omega, hf⟩, udiv, umod, if_neg (show ¬ -y = 0 by omega), Option.map_some, Int.tdiv_neg, Int.tmod_neg, neg_neg, and_self]
        · have : mpz_fits_ulong (-y) = false := by simp [mpz_fits_ulong]; omega
          simp only [this, Bool.false_eq_true, if_false]
          obtain ⟨a1, a2⟩ := tdiv_small (a := x) (b := y) (by omega)
          rw [a1, a2]; exact ⟨rfl, rfl⟩

end Verif.Gmp
