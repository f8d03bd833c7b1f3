import Verif.Spec.OstreamInt

/-! # Facts about numerals -/

namespace Verif.OstreamInt

open Spec

theorem digits_acc (u : Bool) (b : Nat) :
    ∀ fuel n acc, digits u b fuel n acc = digits u b fuel n [] ++ acc := by
  intro fuel
  induction fuel with
  | zero => intro n acc; simp [digits]
  | succ k ih =>
    intro n acc
    simp only [digits]
    split
    · simp
    · rw [ih, ih (n / b) [digit u (n % b)]]; simp

theorem digits_fuel (u : Bool) (b : Nat) (hb : 2 ≤ b) :
    ∀ n f g, n < f → n < g → digits u b f n [] = digits u b g n [] := by
  intro n
  induction n using Nat.strongRecOn with
  | ind n ih =>
    intro f g hf hg
    obtain ⟨f, rfl⟩ : ∃ k, f = k + 1 := ⟨f - 1, by omega⟩
    obtain ⟨g, rfl⟩ : ∃ k, g = k + 1 := ⟨g - 1, by omega⟩
    simp only [digits]
    split
    · rfl
    · have h0 : n / b < n := Nat.div_lt_self (by omega) hb
      rw [digits_acc, digits_acc u b g]
      rw [ih (n / b) h0 f g (by omega) (by omega)]

theorem numeral_lt (u : Bool) {b n : Nat} (h : n < b) : numeral u b n = [digit u n] := by
  simp [numeral, digits, h]

theorem numeral_ge (u : Bool) {b n : Nat} (hb : 2 ≤ b) (h : b ≤ n) :
    numeral u b n = numeral u b (n / b) ++ [digit u (n % b)] := by
  have h0 : n / b < n := Nat.div_lt_self (by omega) hb
  have h1 : ¬ n < b := by omega
  have h2 : numeral u b n = digits u b n (n / b) [digit u (n % b)] := by
    simp [numeral, digits, h1]
  rw [h2, digits_acc, digits_fuel u b hb (n / b) n (n / b + 1) h0 (by omega)]
  rfl

/-- The last `k` digits of `n`. -/
def fixed (u : Bool) (b : Nat) : Nat → Nat → List Char
  | 0, _ => []
  | k + 1, n => fixed u b k (n / b) ++ [digit u (n % b)]

theorem fixed_length (u : Bool) (b : Nat) : ∀ k n, (fixed u b k n).length = k := by
  intro k
  induction k with
  | zero => intro n; rfl
  | succ k ih => intro n; simp [fixed, ih]

theorem fixed_add (u : Bool) (b : Nat) (j : Nat) :
    ∀ k n, fixed u b (j + k) n = fixed u b j (n / b ^ k) ++ fixed u b k n := by
  intro k
  induction k with
  | zero => intro n; simp [fixed]
  | succ k ih =>
    intro n
    have h : b ^ (k + 1) = b * b ^ k := by rw [Nat.pow_succ, Nat.mul_comm]
    rw [show j + (k + 1) = (j + k) + 1 from rfl, fixed, ih, fixed, h,
      Nat.div_div_eq_div_mul, List.append_assoc]

theorem fixed_mod (u : Bool) {b : Nat} :
    ∀ k n, fixed u b k (n % b ^ k) = fixed u b k n := by
  intro k
  induction k with
  | zero => intro n; rfl
  | succ k ih =>
    intro n
    have h : b ^ (k + 1) = b * b ^ k := by rw [Nat.pow_succ, Nat.mul_comm]
    have h1 : n % b ^ (k + 1) / b = n / b % b ^ k := by rw [h, Nat.mod_mul_right_div_self]
    have h2 : n % b ^ (k + 1) % b = n % b := by
      rw [h]; exact Nat.mod_mul_right_mod n b (b ^ k)
    rw [fixed, fixed, h1, h2, ih]

theorem numeral_split (u : Bool) {b : Nat} (hb : 2 ≤ b) :
    ∀ k n, b ^ k ≤ n → numeral u b n = numeral u b (n / b ^ k) ++ fixed u b k n := by
  intro k
  induction k with
  | zero => intro n _; simp [fixed]
  | succ k ih =>
    intro n h
    have hp : b ^ (k + 1) = b ^ k * b := Nat.pow_succ ..
    have hk : 0 < b ^ k := Nat.pow_pos (by omega)
    have h1 : b ≤ n := Nat.le_trans (by rw [hp]; exact Nat.le_mul_of_pos_left b hk) h
    have h2 : b ^ k ≤ n / b := by
      rw [Nat.le_div_iff_mul_le (by omega)]; rw [hp] at h; exact h
    rw [numeral_ge u hb h1, ih _ h2, fixed, Nat.div_div_eq_div_mul, List.append_assoc]
    congr 3
    rw [hp, Nat.mul_comm]

theorem numeral_ne_nil (u : Bool) {b : Nat} (hb : 2 ≤ b) (n : Nat) : numeral u b n ≠ [] := by
  by_cases h : n < b
  · simp [numeral_lt u h]
  · simp [numeral_ge u hb (Nat.le_of_not_lt h)]

theorem numeral_length_pos (u : Bool) {b : Nat} (hb : 2 ≤ b) (n : Nat) :
    1 ≤ (numeral u b n).length := by
  have := numeral_ne_nil u hb n
  cases h : numeral u b n with
  | nil => exact absurd h this
  | cons _ _ => simp

theorem numeral_length (u : Bool) {b : Nat} (hb : 2 ≤ b) :
    ∀ n, n < b ^ (numeral u b n).length ∧ (0 < n → b ^ ((numeral u b n).length - 1) ≤ n) := by
  intro n
  induction n using Nat.strongRecOn with
  | ind n ih =>
    by_cases h : n < b
    · simp [numeral_lt u h, h]
      intro h0; exact h0
    · have h' : b ≤ n := Nat.le_of_not_lt h
      have h0 : n / b < n := Nat.div_lt_self (by omega) hb
      obtain ⟨h1, h2⟩ := ih _ h0
      have h3 : 0 < n / b := Nat.div_pos h' (by omega)
      have h4 := h2 h3
      have h5 := numeral_length_pos u hb (n / b)
      rw [numeral_ge u hb h', List.length_append, List.length_singleton]
      generalize (numeral u b (n / b)).length = l at *
      constructor
      · rw [Nat.pow_succ]
        exact (Nat.div_lt_iff_lt_mul (by omega)).1 h1
      · intro _
        obtain ⟨m, rfl⟩ : ∃ m, l = m + 1 := ⟨l - 1, by omega⟩
        simp only [Nat.add_sub_cancel] at *
        rw [Nat.pow_succ]
        exact (Nat.le_div_iff_mul_le (by omega)).1 h4

/-- The length of a numeral is determined by the powers of the base around the number. -/
theorem numeral_length_eq (u : Bool) {b n l : Nat} (hb : 2 ≤ b) (h1 : b ^ l ≤ n)
    (h2 : n < b ^ (l + 1)) : (numeral u b n).length = l + 1 := by
  have h0 : 0 < n := Nat.lt_of_lt_of_le (Nat.pow_pos (by omega)) h1
  obtain ⟨h3, h4⟩ := numeral_length u hb n
  have h5 := numeral_length_pos u hb n
  have h6 : l < (numeral u b n).length :=
    (Nat.pow_lt_pow_iff_right (by omega)).1 (Nat.lt_of_le_of_lt h1 h3)
  have h7 : (numeral u b n).length - 1 < l + 1 :=
    (Nat.pow_lt_pow_iff_right (by omega)).1 (Nat.lt_of_le_of_lt (h4 h0) h2)
  omega

/-- A short number written with exactly `k` digits is its numeral with zeros in front. -/
theorem fixed_eq (u : Bool) {b : Nat} (hb : 2 ≤ b) :
    ∀ k n, 1 ≤ k → n < b ^ k →
      fixed u b k n = List.replicate (k - (numeral u b n).length) '0' ++ numeral u b n := by
  intro k
  induction k with
  | zero => intro n h; omega
  | succ k ih =>
    intro n _ h
    by_cases h1 : n < b
    · rw [numeral_lt u h1, fixed, Nat.div_eq_of_lt h1, Nat.mod_eq_of_lt h1]
      have : ∀ j, fixed u b j 0 = List.replicate j '0' := by
        intro j
        induction j with
        | zero => rfl
        | succ j ihj =>
          rw [fixed, Nat.zero_div, Nat.zero_mod, ihj, List.replicate_succ']
          cases u <;> rfl
      rw [this]
      simp
    · have h' : b ≤ n := Nat.le_of_not_lt h1
      have hk : 1 ≤ k := by
        rcases Nat.eq_zero_or_pos k with h0 | h0
        · subst h0; simp at h; omega
        · exact h0
      have h2 : n / b < b ^ k := by
        rw [Nat.div_lt_iff_lt_mul (by omega)]; rw [Nat.pow_succ] at h; exact h
      rw [fixed, ih _ hk h2, numeral_ge u hb h', List.append_assoc, List.length_append,
        List.length_singleton, Nat.add_sub_add_right]

theorem digit_zero (u : Bool) : digit u 0 = '0' := by cases u <;> rfl

theorem digit_ne_zero (u : Bool) {d : Nat} (h : 0 < d) (h1 : d < 16) : digit u d ≠ '0' := by
  have : d = 1 ∨ d = 2 ∨ d = 3 ∨ d = 4 ∨ d = 5 ∨ d = 6 ∨ d = 7 ∨ d = 8 ∨ d = 9 ∨ d = 10 ∨
      d = 11 ∨ d = 12 ∨ d = 13 ∨ d = 14 ∨ d = 15 := by omega
  rcases this with h | h | h | h | h | h | h | h | h | h | h | h | h | h | h <;> subst h <;>
    cases u <;> decide

/-- Numerals of positive numbers do not start with a zero. -/
theorem numeral_head (u : Bool) {b : Nat} (hb : 2 ≤ b) (hb' : b ≤ 16) :
    ∀ n, 0 < n → (numeral u b n).head? ≠ some '0' := by
  intro n
  induction n using Nat.strongRecOn with
  | ind n ih =>
    intro h
    by_cases h1 : n < b
    · rw [numeral_lt u h1]
      simpa using digit_ne_zero u h (by omega)
    · have h' : b ≤ n := Nat.le_of_not_lt h1
      have h0 : n / b < n := Nat.div_lt_self (by omega) hb
      have := ih _ h0 (Nat.div_pos h' (by omega))
      rw [numeral_ge u hb h']
      cases h2 : numeral u b (n / b) with
      | nil => exact absurd h2 (numeral_ne_nil u hb _)
      | cons c cs => rw [h2] at this; simpa using this

theorem digitVal_digit (u : Bool) {d : Nat} (h1 : d < 16) : digitVal (digit u d) = d := by
  have : d = 0 ∨ d = 1 ∨ d = 2 ∨ d = 3 ∨ d = 4 ∨ d = 5 ∨ d = 6 ∨ d = 7 ∨ d = 8 ∨ d = 9 ∨ d = 10 ∨
      d = 11 ∨ d = 12 ∨ d = 13 ∨ d = 14 ∨ d = 15 := by omega
  rcases this with h | h | h | h | h | h | h | h | h | h | h | h | h | h | h | h <;> subst h <;>
    cases u <;> decide

theorem valueOf_append (b : Nat) (cs : List Char) (c : Char) :
    valueOf b (cs ++ [c]) = valueOf b cs * b + digitVal c := by
  simp [valueOf]

/-- A numeral denotes its number. -/
theorem valueOf_numeral (u : Bool) {b : Nat} (hb : 2 ≤ b) (hb' : b ≤ 16) :
    ∀ n, valueOf b (numeral u b n) = n := by
  intro n
  induction n using Nat.strongRecOn with
  | ind n ih =>
    by_cases h1 : n < b
    · rw [numeral_lt u h1]
      simpa [valueOf] using digitVal_digit u (d := n) (by omega)
    · have h' : b ≤ n := Nat.le_of_not_lt h1
      have h0 : n / b < n := Nat.div_lt_self (by omega) hb
      have h2 : n % b < b := Nat.mod_lt _ (by omega)
      rw [numeral_ge u hb h', valueOf_append, ih _ h0, digitVal_digit u (by omega)]
      rw [Nat.mul_comm]; exact Nat.div_add_mod n b

theorem valueOf_zeros (b k : Nat) (cs : List Char) :
    valueOf b (List.replicate k '0' ++ cs) = valueOf b cs := by
  induction k with
  | zero => rfl
  | succ k ih =>
    rw [List.replicate_succ, List.cons_append, ← ih]
    simp [valueOf, show digitVal '0' = 0 by decide]

end Verif.OstreamInt
