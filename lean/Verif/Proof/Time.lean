import Verif.Model.Time
import Mathlib.Algebra.Field.Rat
import Mathlib.Algebra.Order.Ring.Rat
import Mathlib.Tactic.FieldSimp
import Mathlib.Tactic.Ring
import Mathlib.Tactic.Linarith
/-! Helper lemmas for C08-C11. -/
namespace Verif.Time
open Verif

theorem i64_ok {x : Int} (h : InI64 x) : i64 x = .ret x := by simp [i64, h]
theorem i64_bad {x : Int} (h : ¬ InI64 x) : i64 x = .undef := by simp [i64, h]

/-- Value of a digit character. -/
def digitVal (c : Char) : Nat := c.toNat - 48

theorem digitVal_digit {n : Nat} (h : n < 10) : digitVal (digit n) = n := by
  match n, h with
  | 0, _ | 1, _ | 2, _ | 3, _ | 4, _ | 5, _ | 6, _ | 7, _ | 8, _ | 9, _ => rfl

theorem digit_isDigit {n : Nat} (h : n < 10) : (digit n).isDigit = true := by
  match n, h with
  | 0, _ | 1, _ | 2, _ | 3, _ | 4, _ | 5, _ | 6, _ | 7, _ | 8, _ | 9, _ => rfl

/-- Value of a digit string. -/
def digitsVal (l : List Char) : Nat := l.foldl (fun a c => 10 * a + digitVal c) 0

theorem digitsVal_append_one (l : List Char) (c : Char) :
    digitsVal (l ++ [c]) = 10 * digitsVal l + digitVal c := by
  simp [digitsVal, List.foldl_append]

theorem natDigits_spec (n : Nat) :
    digitsVal (natDigits n) = n ∧ (∀ c ∈ natDigits n, c.isDigit = true) ∧ natDigits n ≠ [] := by
  induction n using Nat.strongRecOn with
  | ind n ih =>
    unfold natDigits
    split
    · next h => 
      refine ⟨?_, ?_, by simp⟩
      · have := digitVal_digit h
        simp [digitsVal, this]
      · intro c hc; simp at hc; subst hc; exact digit_isDigit h
    · next h =>
      obtain ⟨a, b, c⟩ := ih (n / 10) (by omega)
      refine ⟨?_, ?_, by simp⟩
      · rw [digitsVal_append_one, a, digitVal_digit (by omega)]; omega
      · intro d hd
        rcases List.mem_append.1 hd with h | h
        · exact b d h
        · simp at h; subst h; exact digit_isDigit (by omega)

theorem natDigits_length (n k : Nat) (hk : 1 ≤ k) (h : n < 10 ^ k) : (natDigits n).length ≤ k := by
  induction k generalizing n with
  | zero => omega
  | succ k ih =>
    unfold natDigits
    split
    · simp
    · next hn =>
      have : 1 ≤ k := by
        rcases Nat.eq_zero_or_pos k with h0 | h0
        · subst h0; simp at h; omega
        · exact h0
      have := ih (n / 10) this (by rw [Nat.pow_succ] at h; omega)
      simp; omega

theorem digitsVal_zeros (k : Nat) (l : List Char) : digitsVal (List.replicate k '0' ++ l) = digitsVal l := by
  have h0 : (List.replicate k '0').foldl (fun a c => 10 * a + digitVal c) 0 = 0 := by
    induction k with
    | zero => rfl
    | succ k ih =>
      rw [List.replicate_succ, List.foldl_cons]
      exact ih
  unfold digitsVal
  rw [List.foldl_append, h0]

theorem digitsVal_append_zeros (l : List Char) (k : Nat) :
    digitsVal (l ++ List.replicate k '0') = digitsVal l * 10 ^ k := by
  induction k with
  | zero => simp
  | succ k ih =>
    rw [List.replicate_succ', ← List.append_assoc, digitsVal_append_one, ih]
    have : digitVal '0' = 0 := rfl
    rw [this, Nat.pow_succ]; rw [Nat.add_zero, Nat.mul_comm 10, Nat.mul_assoc]

/-- The trimming loop: the result is the buffer without its trailing zeros. -/
theorem lastNonZero_spec (buf : List Char) (i : Nat) (hi : i < buf.length) (h0 : buf[0]? ≠ some '0')
    (hz : ∀ j, i < j → j < buf.length → buf[j]? = some '0') :
    ∃ k, lastNonZero buf i = .ret k ∧ k ≤ i ∧ buf[k]? ≠ some '0' ∧
      (∀ j, k < j → j < buf.length → buf[j]? = some '0') := by
  induction i with
  | zero =>
    refine ⟨0, ?_, Nat.le_refl _, h0, hz⟩
    unfold lastNonZero
    have : buf[0]? = some buf[0] := List.getElem?_eq_getElem hi
    rw [this] at h0 ⊢
    simp at h0; simp [h0]
  | succ i ih =>
    unfold lastNonZero
    have e : buf[i + 1]? = some buf[i + 1] := List.getElem?_eq_getElem hi
    rw [e]
    by_cases hc : buf[i + 1] = '0'
    · simp only [hc, if_true]
      obtain ⟨k, k1, k2, k3, k4⟩ := ih (by omega) (by
        intro j hj hj2
        by_cases hj3 : j = i + 1
        · subst hj3; rw [e, hc]
        · exact hz j (by omega) hj2)
      exact ⟨k, k1, by omega, k3, k4⟩
    · exact ⟨i + 1, by simp [hc], Nat.le_refl _, by rw [e]; simp [hc], hz⟩

/-- What `nanomsd` writes: '.' and the fraction digits without trailing zeros. -/
theorem nanomsd_spec (ns : Nat) (h0 : ns ≠ 0) (h : ns < 1000000000) :
    ∃ fp : List Char, nanomsd ns = .ret ('.' :: fp) ∧ fp ≠ [] ∧ fp.length ≤ 9 ∧
      (∀ c ∈ fp, c.isDigit = true) ∧ digitsVal fp * 10 ^ (9 - fp.length) = ns ∧
      fp.getLast? ≠ some '0' := by
  have hlen := natDigits_length ns 9 (by decide) h
  obtain ⟨hv, hd, _⟩ := natDigits_spec ns
  let D := List.replicate (9 - (natDigits ns).length) '0' ++ natDigits ns
  have hDl : D.length = 9 := by simp [D]; omega
  have hDv : digitsVal D = ns := by simp only [D]; rw [digitsVal_zeros, hv]
  have hDd : ∀ c ∈ D, c.isDigit = true := by
    intro c hc
    rcases List.mem_append.1 hc with h1 | h1
    · rw [List.mem_replicate] at h1; rw [h1.2]; rfl
    · exact hd c h1
  obtain ⟨k, k1, k2, k3, k4⟩ := lastNonZero_spec ('.' :: D) 9 (by simp [hDl]) (by simp) (by
    intro j hj hj2; simp [hDl] at hj2; omega)
  have hrest : D.drop k = List.replicate (9 - k) '0' := by
    apply List.ext_getElem?
    intro i
    rw [List.getElem?_drop, List.getElem?_replicate]
    split
    · next hi =>
      have := k4 (k + i + 1) (by omega) (by simp [hDl]; omega)
      simpa using this
    · next hi => simp [hDl]; omega
  have hsplit : D = D.take k ++ List.replicate (9 - k) '0' := by
    rw [← hrest]; exact (List.take_append_drop k D).symm
  have hval : digitsVal (D.take k) * 10 ^ (9 - k) = ns := by
    rw [← digitsVal_append_zeros, ← hsplit, hDv]
  have hkpos : k ≠ 0 := by
    intro hk; subst hk; simp [digitsVal] at hval; omega
  have htl : (D.take k).length = k := by simp [hDl]; omega
  refine ⟨D.take k, ?_, ?_, ?_, ?_, ?_, ?_⟩
  · show (lastNonZero ('.' :: D) 9 >>= fun i => pure (('.' :: D).take (i + 1))) = _
    rw [k1]; simp
  · intro h; rw [h] at htl; simp at htl; omega
  · omega
  · intro c hc; exact hDd c (List.mem_of_mem_take hc)
  · rw [htl]; exact hval
  · intro hlast
    apply k3
    obtain ⟨m, rfl⟩ : ∃ m, k = m + 1 := ⟨k - 1, by omega⟩
    rw [List.getLast?_eq_getElem?, htl] at hlast
    simp at hlast
    simpa using hlast

end Verif.Time
