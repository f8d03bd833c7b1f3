import Verif.Proof.Rational
/-!
C01-C05: rational numbers (`libcfa/src/rational.cfa`).

Specification: Mathlib's field of rational numbers `ℚ`.
-/
namespace Verif.Rational
open Verif

/-- The number a numerator/denominator pair denotes. -/
def value (r : Rational) : ℚ := (r.num : ℚ) / (r.den : ℚ)

/-- Lowest terms with a positive denominator. -/
def Canonical (r : Rational) : Prop := 0 < r.den ∧ Int.gcd r.num r.den = 1

instance (r : Rational) : Decidable (Canonical r) := by unfold Canonical; infer_instance

/-- "The call returns the canonical rational denoting `q`." -/
def Returns (o : Outcome Rational) (q : ℚ) : Prop :=
  ∃ r, o = .ret r ∧ Canonical r ∧ value r = q

private theorem mk2_returns (n d : Int) (hd : d ≠ 0) : Returns (mk2 n d) ((n : ℚ) / d) := by
  obtain ⟨r, h1, h2, h3, h4⟩ := mk2_spec n d hd
  exact ⟨r, h1, ⟨h2, h3⟩, h4⟩

/-- C01: the constructors return the canonical form of `n/d`, and abort exactly on a zero denominator. -/
theorem C01_constructors (n d : Int) :
    (d ≠ 0 → Returns (mk2 n d) ((n : ℚ) / d)) ∧ mk2 n 0 = .abort ∧
    Returns (mk1 n) n ∧ Returns mk0 0 ∧ Returns mkOne 1 := by
  refine ⟨mk2_returns n d, by simp [mk2, simplify], ?_, ?_, ?_⟩
  · simpa [mk1] using mk2_returns n 1 (by decide)
  · simpa [mk0] using mk2_returns 0 1 (by decide)
  · simpa [mkOne] using mk2_returns 1 1 (by decide)

/-- C01: a canonical form is unique: two canonical rationals denoting the same number are the same pair. -/
theorem C01_canonical_unique (r s : Rational) (hr : Canonical r) (hs : Canonical s)
    (h : value r = value s) : r = s := by
  obtain ⟨hr0, hr1⟩ := hr
  obtain ⟨hs0, hs1⟩ := hs
  have hx : r.num * s.den = s.num * r.den := by
    unfold value at h
    have e1 : (r.den : ℚ) ≠ 0 := by exact_mod_cast (by omega : r.den ≠ 0)
    have e2 : (s.den : ℚ) ≠ 0 := by exact_mod_cast (by omega : s.den ≠ 0)
    rw [div_eq_div_iff e1 e2] at h
    exact_mod_cast h
  have d1 : r.den ∣ s.den := by
    have : r.den ∣ r.num * s.den := ⟨s.num, by rw [hx]; ring⟩
    exact Int.dvd_of_dvd_mul_right_of_gcd_one this (by rw [Int.gcd_comm]; exact hr1)
  have d2 : s.den ∣ r.den := by
    have : s.den ∣ s.num * r.den := ⟨r.num, by rw [← hx]; ring⟩
    exact Int.dvd_of_dvd_mul_right_of_gcd_one this (by rw [Int.gcd_comm]; exact hs1)
  have hd : r.den = s.den := Int.dvd_antisymm (by omega) (by omega) d1 d2
  have hn : r.num = s.num := by
    rw [hd] at hx
    exact Int.eq_of_mul_eq_mul_right (by omega) hx
  cases r; cases s; simp_all

example : mk2 6 (-4) = .ret ⟨-3, 2⟩ := by
  simp [mk2, simplify, gcd, cdiv, Outcome.bind_ret]
example : Canonical ⟨-3, 2⟩ := by decide

private theorem den_ne {r : Rational} (h : Canonical r) : (r.den : ℚ) ≠ 0 := by
  have := h.1; exact_mod_cast (by omega : r.den ≠ 0)

/-- C02: `+`, `-`, `*`, unary `-`, unary `+` return the canonical form of the exact result. -/
theorem C02_arithmetic (l r : Rational) (hl : Canonical l) (hr : Canonical r) :
    Returns (add l r) (value l + value r) ∧ Returns (sub l r) (value l - value r) ∧
    Returns (mul l r) (value l * value r) ∧ Returns (neg l) (- value l) ∧ Returns (pos l) (value l) := by
  have h1 := den_ne hl
  have h2 := den_ne hr
  have l0 : l.den ≠ 0 := by have := hl.1; omega
  have r0 : r.den ≠ 0 := by have := hr.1; omega
  refine ⟨?_, ?_, ?_, ?_, ?_⟩
  · unfold add
    split
    · next h =>
      have := mk2_returns (l.num + r.num) l.den l0
      convert this using 1
      unfold value; rw [← h]; push_cast; field_simp
    · have := mk2_returns (l.num * r.den + l.den * r.num) (l.den * r.den) (Int.mul_ne_zero l0 r0)
      convert this using 1
      unfold value; push_cast; field_simp
  · unfold sub
    split
    · next h =>
      have := mk2_returns (l.num - r.num) l.den l0
      convert this using 1
      unfold value; rw [← h]; push_cast; field_simp
    · have := mk2_returns (l.num * r.den - l.den * r.num) (l.den * r.den) (Int.mul_ne_zero l0 r0)
      convert this using 1
      unfold value; push_cast; field_simp
  · have := mk2_returns (l.num * r.num) (l.den * r.den) (Int.mul_ne_zero l0 r0)
    show Returns (mk2 _ _) _
    convert this using 1
    unfold value; push_cast; field_simp
  · have := mk2_returns (-l.num) l.den l0
    show Returns (mk2 _ _) _
    convert this using 1
    unfold value; push_cast; ring
  · exact mk2_returns l.num l.den l0

/-- C02: `/` by a non-zero rational is exact; by zero it aborts. -/
theorem C02_division (l r : Rational) (hl : Canonical l) (hr : Canonical r) :
    (value r ≠ 0 → Returns (div l r) (value l / value r)) ∧ (value r = 0 → div l r = .abort) := by
  have h1 := den_ne hl
  have h2 := den_ne hr
  have l0 : l.den ≠ 0 := by have := hl.1; omega
  have r0 : r.den ≠ 0 := by have := hr.1; omega
  have hz : value r = 0 ↔ r.num = 0 := by
    unfold value; rw [div_eq_zero_iff]; simp [r0]
  constructor
  · intro hv
    have hn : r.num ≠ 0 := fun h => hv (hz.2 h)
    have hnq : (r.num : ℚ) ≠ 0 := by exact_mod_cast hn
    unfold div
    by_cases hneg : r.num < 0
    · simp only [hneg, if_true]
      have := mk2_returns (l.num * -r.den) (l.den * -r.num) (Int.mul_ne_zero l0 (by omega))
      convert this using 1
      unfold value; push_cast; field_simp
    · simp only [hneg, if_false]
      have := mk2_returns (l.num * r.den) (l.den * r.num) (Int.mul_ne_zero l0 hn)
      convert this using 1
      unfold value; push_cast; field_simp
  · intro hv
    have hn := hz.1 hv
    simp [div, hn, mk2, simplify]

/-- C02: the assigning operators store in the left operand exactly what the binary operator returns,
    and return it too; `++`/`--` add/subtract one. -/
theorem C02_assigning (op : Rational → Rational → Outcome Rational) (l r v : Rational) (h : op l r = .ret v) :
    opAssign op l r = .ret (v, v) := by simp [opAssign, h]

theorem C02_increment (l : Rational) (hl : Canonical l) :
    (∃ v, opAssignOne add l = .ret (v, v) ∧ Canonical v ∧ value v = value l + 1) ∧
    (∃ v, opAssignOne sub l = .ret (v, v) ∧ Canonical v ∧ value v = value l - 1) := by
  obtain ⟨one, ho, hc, hv⟩ := (C01_constructors 1 1).2.2.1
  simp only [Int.cast_one] at hv
  obtain ⟨⟨v, hv1, hv2, hv3⟩, ⟨w, hw1, hw2, hw3⟩, _⟩ := C02_arithmetic l one hl hc
  refine ⟨⟨v, ?_, hv2, by rw [hv3, hv]⟩, ⟨w, ?_, hw2, by rw [hw3, hv]⟩⟩
  · simp [opAssignOne, ho, hv1]
  · simp [opAssignOne, ho, hw1]

example : Canonical ⟨-3, 2⟩ ∧ Canonical ⟨5, 6⟩ ∧ value ⟨5, 6⟩ ≠ 0 := by
  refine ⟨by decide, by decide, ?_⟩; norm_num [value]

private theorem cmp_key (l r : Rational) (hl : Canonical l) (hr : Canonical r) :
    (value l < value r ↔ l.num * r.den < l.den * r.num) ∧
    (value l = value r ↔ l.num * r.den = l.den * r.num) := by
  have p1 : (0 : ℚ) < l.den := by exact_mod_cast hl.1
  have p2 : (0 : ℚ) < r.den := by exact_mod_cast hr.1
  unfold value
  constructor
  · rw [div_lt_div_iff₀ p1 p2, mul_comm (r.num : ℚ)]; exact_mod_cast Iff.rfl
  · rw [div_eq_div_iff p1.ne' p2.ne', mul_comm (r.num : ℚ)]; exact_mod_cast Iff.rfl

/-- C03: the six comparisons decide the order of `ℚ` (whose order is total and transitive). -/
theorem C03_comparisons (l r : Rational) (hl : Canonical l) (hr : Canonical r) :
    (eq l r = true ↔ value l = value r) ∧ (ne l r = true ↔ value l ≠ value r) ∧
    (lt l r = true ↔ value l < value r) ∧ (le l r = true ↔ value l ≤ value r) ∧
    (gt l r = true ↔ value l > value r) ∧ (ge l r = true ↔ value l ≥ value r) := by
  obtain ⟨h1, h2⟩ := cmp_key l r hl hr
  obtain ⟨h3, h4⟩ := cmp_key r l hr hl
  have hle : value l ≤ value r ↔ l.num * r.den ≤ l.den * r.num := by
    rw [← not_lt, h3, not_lt, mul_comm r.num, mul_comm r.den]
  refine ⟨?_, ?_, ?_, ?_, ?_, ?_⟩
  · simp [eq, h2]
  · simp [ne, eq, h2]
  · simp [lt, h1]
  · simp [le, hle]
  · rw [gt_iff_lt, ← not_le, hle]; simp [gt, le]
  · rw [ge_iff_le, ← not_lt, h1]; simp [ge, lt]

/-- C03: comparison for equality is also identity of the stored pair. -/
theorem C03_equality_is_identity (l r : Rational) (hl : Canonical l) (hr : Canonical r) :
    eq l r = true ↔ l = r := by
  rw [(C03_comparisons l r hl hr).1]
  exact ⟨C01_canonical_unique l r hl hr, fun h => by rw [h]⟩

/-- C03: `<` is a strict total order. -/
theorem C03_strict_total_order (a b c : Rational) (ha : Canonical a) (hb : Canonical b) (hc : Canonical c) :
    lt a a = false ∧ (lt a b = true → lt b c = true → lt a c = true) ∧
    (lt a b = true ∨ eq a b = true ∨ lt b a = true) := by
  have hab := C03_comparisons a b ha hb
  have hba := C03_comparisons b a hb ha
  have hbc := C03_comparisons b c hb hc
  have hac := C03_comparisons a c ha hc
  have haa := C03_comparisons a a ha ha
  refine ⟨?_, ?_, ?_⟩
  · rw [← Bool.not_eq_true, haa.2.2.1]; exact lt_irrefl _
  · rw [hab.2.2.1, hbc.2.2.1, hac.2.2.1]; exact lt_trans
  · rw [hab.2.2.1, hab.1, hba.2.2.1]; exact lt_trichotomy _ _

example : lt ⟨-3, 2⟩ ⟨5, 6⟩ = true ∧ gt ⟨5, 6⟩ ⟨-3, 2⟩ = true := by decide

/-- C04: `x \ y` is the `y`-th power in `ℚ` for every integer `y`; zero to a negative power aborts. -/
theorem C04_power (x : Rational) (y : Int) (hx : Canonical x) :
    (value x ≠ 0 ∨ 0 ≤ y → Returns (pow x y) (value x ^ y)) ∧
    (value x = 0 → y < 0 → pow x y = .abort) := by
  have h1 := den_ne hx
  have x0 : x.den ≠ 0 := by have := hx.1; omega
  have hz : value x = 0 ↔ x.num = 0 := by
    unfold value; rw [div_eq_zero_iff]; simp [x0]
  constructor
  · intro hcase
    unfold pow
    by_cases hy : y < 0
    · have hv : value x ≠ 0 := by rcases hcase with h | h; exact h; omega
      have hn : x.num ≠ 0 := fun h => hv (hz.2 h)
      simp only [hy, if_true, ipow_eq]
      have := mk2_returns (x.den ^ (-y).toNat) (x.num ^ (-y).toNat) (pow_ne_zero _ hn)
      convert this using 1
      have hyy : y = -((-y).toNat : Int) := by omega
      conv_lhs => rw [hyy]
      rw [zpow_neg, zpow_natCast, value, div_pow, inv_div]
      push_cast; rfl
    · simp only [hy, if_false, ipow_eq]
      have := mk2_returns (x.num ^ y.toNat) (x.den ^ y.toNat) (pow_ne_zero _ x0)
      convert this using 1
      have hyy : y = (y.toNat : Int) := by omega
      conv_lhs => rw [hyy]
      rw [zpow_natCast, value, div_pow]
      push_cast; rfl
  · intro hv hy
    have hn := hz.1 hv
    have : (-y).toNat ≠ 0 := by omega
    simp [pow, hy, ipow_eq, hn, mk2, simplify, this]

example : Canonical ⟨-3, 2⟩ ∧ value ⟨-3, 2⟩ ≠ 0 := by
  refine ⟨by decide, ?_⟩; norm_num [value]

/-- What C05 asks of a setter call: from the caller's `r`, the object afterwards is the canonical form of
    the new fraction and the call returns the old part. -/
def SetterSpec (o : Outcome (Int × Rational)) (old : Int) (q : ℚ) : Prop :=
  ∃ after, o = .ret (old, after) ∧ Canonical after ∧ value after = q

/-- C05 is violated: setting the numerator of 1/2 to 3 leaves the caller's object at 1/2,
    and likewise for the denominator. -/
theorem C05_setters_violated :
    ¬ (∀ (r : Rational) (n : Int), Canonical r →
        SetterSpec (setNumerator r n) r.num ((n : ℚ) / r.den)) ∧
    ¬ (∀ (r : Rational) (d : Int), Canonical r → d ≠ 0 →
        SetterSpec (setDenominator r d) r.den ((r.num : ℚ) / d)) := by
  constructor
  · intro h
    obtain ⟨a, h1, _, h3⟩ := h ⟨1, 2⟩ 3 (by decide)
    have : setNumerator ⟨1, 2⟩ 3 = .ret (1, ⟨1, 2⟩) := by
      simp [setNumerator, gcd_spec, cdiv]
    rw [this] at h1
    injection h1 with h1; injection h1 with _ h1; subst h1
    norm_num [value] at h3
  · intro h
    obtain ⟨a, h1, _, h3⟩ := h ⟨1, 2⟩ 3 (by decide) (by decide)
    have : setDenominator ⟨1, 2⟩ 3 = .ret (2, ⟨1, 2⟩) := by
      simp [setDenominator, simplify, gcd_spec, cdiv]
    rw [this] at h1
    injection h1 with h1; injection h1 with _ h1; subst h1
    norm_num [value] at h3

/-- C05, the part that holds: the setters return the old part, never change the caller's object,
    and `denominator(r, 0)` aborts. Missing: the update of the caller's object. -/
theorem C05_setters_partial (r : Rational) (hr : Canonical r) (n d : Int) :
    setNumerator r n = .ret (r.num, r) ∧ (d ≠ 0 → setDenominator r d = .ret (r.den, r)) ∧
    setDenominator r 0 = .abort := by
  have hgp : ∀ a b : Int, 0 < b → ((Int.gcd a b : Nat) : Int) ≠ 0 := by
    intro a b hb; have := Int.gcd_pos_of_ne_zero_right a (by omega : b ≠ 0); omega
  refine ⟨?_, ?_, by simp [setDenominator, simplify]⟩
  · rw [setNumerator, gcd_spec _ _ (by omega) hr.1]
    simp only [Outcome.bind_ret, cdiv, hgp _ _ hr.1, if_false, Outcome.pure_eq]
  · intro hd
    unfold setDenominator simplify
    simp only [hd, if_false]
    by_cases hneg : d < 0
    · simp only [hneg, if_true]
      rw [gcd_spec _ _ (by omega) (by omega)]
      simp only [Outcome.bind_ret, cdiv, hgp _ (-d) (by omega), if_false, Outcome.pure_eq]
    · simp only [hneg, if_false]
      rw [gcd_spec _ _ (by omega) (by omega)]
      simp only [Outcome.bind_ret, cdiv, hgp _ d (by omega), if_false, Outcome.pure_eq]

end Verif.Rational
