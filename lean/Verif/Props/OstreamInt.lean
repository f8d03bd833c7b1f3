import Verif.Proof.OstreamInt128

/-!
# C95: integers are printed as the numerals asked for
-/

namespace Verif.OstreamInt

open Verif.Ostream Spec

/-- Printing a 128-bit integer without a manipulator prints its decimal numeral, with a minus sign
    if it is negative, as one value: for every value and every state of the stream. -/
theorem C95_plain128 {val : Nat} (h : val < 2 ^ 128) (os : Os) :
    printU128 os val = wrote os (numeral false 10 val) ∧
    printS128 os val = wrote os ((if 2 ^ 127 ≤ val then ['-'] else []) ++
      numeral false 10 (if 2 ^ 127 ≤ val then 2 ^ 128 - val else val)) := by
  refine ⟨printU128_eq h os, ?_⟩
  rw [printS128_eq h os]
  simp only [magOf, negOf, beq_self_eq_true, Bool.true_and, decide_eq_true_eq, Nat.reduceSub]

/-- Three chunks, the last two with leading zeros; and the least `int128`. -/
example : (printU128 Os.open (2 * 10 ^ 38 + 7)).out =
      "200000000000000000000000000000000000007".toList ∧
    (printS128 Os.open (2 ^ 127)).out = "-170141183460469231731687303715884105728".toList ∧
    (printU128 { Os.open with sepOnOff := true } (10 ^ 19)).out =
      " 10000000000000000000".toList := by decide +kernel

/-- The numeral of a number denotes it, in each of the four bases and in either case, and has no
    unnecessary leading zero. -/
theorem C95_numeral (u : Bool) (b : Base) (n : Nat) :
    valueOf b.radix (numeral u b.radix n) = n ∧
    (n ≠ 0 → (numeral u b.radix n).head? ≠ some '0') ∧ numeral u b.radix 0 = ['0'] := by
  refine ⟨valueOf_numeral u (Base.radix_ge b) (Base.radix_le b) n,
    fun h => numeral_head u (Base.radix_ge b) (Base.radix_le b) n (by omega), ?_⟩
  cases b <;> cases u <;> rfl

example : numeral true 16 48879 = "BEEF".toList ∧ valueOf 16 "BEEF".toList = 48879 := by
  decide +kernel

/-- What is asked for is a field of at least the width, exactly as long as needed: the sign and the
    base prefix, then digits denoting the number, at least as many as the precision, padded with
    zeros between the two or with blanks on the side asked for. -/
theorem C95_layout (r : Req) : ∃ a z c,
    r.layout = List.replicate a ' ' ++ r.front ++ List.replicate z '0' ++ r.body ++
      List.replicate c ' ' ∧
    r.layout.length = max r.wd (r.front.length + r.body.length) ∧
    valueOf r.base.radix (List.replicate z '0' ++ r.body) = r.mag ∧
    r.pc.getD 1 ≤ r.body.length ∧
    (r.left = true → a = 0) ∧ (r.left = false → c = 0) ∧ (r.pad0 = false → z = 0) := by
  have hv := body_value r
  have hp : r.pc.getD 1 ≤ r.body.length := body_precision r
  unfold Req.layout
  simp only
  generalize hn : r.wd - (r.front.length + r.body.length) = n
  cases hl : r.left
  · cases hz : decide (r.pad0 = true ∧ r.pc = none)
    · refine ⟨n, 0, 0, ?_, ?_, ?_, hp, by simp, by simp, by simp⟩
      · simp only [Bool.false_eq_true, if_false, if_neg (of_decide_eq_false hz)]; simp
      · simp only [Bool.false_eq_true, if_false, if_neg (of_decide_eq_false hz)]; simp; omega
      · simpa using hv
    · have hz' := of_decide_eq_true hz
      refine ⟨0, n, 0, ?_, ?_, ?_, hp, by simp, by simp, by simp [hz'.1]⟩
      · simp only [Bool.false_eq_true, if_false, if_pos hz']; simp
      · simp only [Bool.false_eq_true, if_false, if_pos hz']; simp; omega
      · rw [valueOf_zeros]; exact hv
  · refine ⟨0, 0, n, ?_, ?_, ?_, hp, by simp, by simp, by simp⟩
    · simp
    · simp; omega
    · simpa using hv

example : (Req.layout { base := .hex, mag := 255, wd := 10, pc := some 4 }) = "    0x00ff".toList ∧
    (Req.layout { base := .dec, mag := 5, neg := true, wd := 6, pad0 := true }) =
      "-00005".toList := by decide +kernel

/-- Printing a 64-bit integer through a manipulator prints what is asked for, as one value, for every
    conversion, flag, width and precision and every state of the stream.  Missing: zero with a
    precision of 0, binary numbers with more digits than the precision, and a hexadecimal zero padded
    on the left (see `C95_binPrecision_violated`, `C95_hexZero_violated`). -/
theorem C95_printed64_partial {f : Manip} (ok : Ok64 f) (os : Os) :
    print64 os f = wrote os (reqOf f (negOf 64 f.base f.val) (magOf 64 f.base f.val)).layout :=
  print64_eq ok os

/-- A negative number, a padded hexadecimal number and a binary number, on a line where a separator
    is due. -/
example : ∃ f1 f2 f3 : Manip, Ok64 f1 ∧ Ok64 f2 ∧ Ok64 f3 ∧
    (print64 (print64 (print64 Os.open f1) f2) f3).out = "-42   0x00ff 0b1010    ".toList := by
  refine ⟨{ val := 2 ^ 64 - 42, base := 'd' }, { val := 255, base := 'x', wd := 8, pcF := true, pc := 4 },
    { val := 10, base := 'b', wd := 10, left := true }, ?_, ?_, ?_, by decide +kernel⟩ <;>
  exact ⟨by decide, by decide +kernel, by decide, by decide, by simp, by simp [baseOf], by simp [baseOf]⟩

/-- Printing a 128-bit integer through a manipulator prints what is asked for, as one value, for every
    conversion, flag, width and precision and every state of the stream.  Missing: the cases excluded
    by `Ok128`, in each of which the property fails or the C rule for precision 0 differs (see the
    theorems with the suffix `_violated`). -/
theorem C95_printed128_partial {signed : Bool} {val : Nat} {f : Manip} {V : Nat}
    (ok : Ok128 signed val f V) (os : Os) :
    print128 os signed val f = wrote os (reqOf f (negOf 128 f.base val) V).layout :=
  print128_eq ok os

/-- A signed number of three chunks with leading zeros in two of them, zero-padded to 45 columns; a
    hexadecimal number justified to the left. -/
example : ∃ V W, Ok128 true (2 ^ 128 - (15 * 10 ^ 37 + 5))
      { val := 0, base := 'd', wd := 45, pad0 := true } V ∧
    Ok128 false (2 ^ 100) { val := 0, base := 'X', wd := 30, left := true } W ∧
    (print128 (print128 Os.open true (2 ^ 128 - (15 * 10 ^ 37 + 5))
      { val := 0, base := 'd', wd := 45, pad0 := true }) false (2 ^ 100)
      { val := 0, base := 'X', wd := 30, left := true }).out =
    "-00000150000000000000000000000000000000000005 0X10000000000000000000000000  ".toList := by
  refine ⟨15 * 10 ^ 37 + 5, 2 ^ 100, ?_, ?_, by decide +kernel⟩
  · exact ⟨by decide, by decide +kernel, by decide +kernel, fun _ => rfl, rfl, by decide, by decide,
      by simp, by simp, by simp, by simp [baseOf], by simp [baseOf], fun _ => by decide +kernel,
      by simp⟩
  · exact ⟨by decide, by decide +kernel, by decide +kernel, by simp, rfl, by decide, by decide,
      by simp, by simp, by simp, by simp, fun _ => by decide +kernel, by simp, by simp [baseOf]⟩

/-- C95 fails: the 128-bit number 2^64 is printed as zero in hexadecimal and in binary.  The number is
    split at values greater than 2^64, so 2^64 is one chunk, of which the lower 64 bits are
    printed. -/
theorem C95_power_violated :
    (print128 Os.open false (2 ^ 64) { val := 0, base := 'x' }).out = "0x0".toList ∧
    (print128 Os.open true (2 ^ 64) { val := 0, base := 'b' }).out = "0b0".toList ∧
    (reqOf { val := 0, base := 'x' } false (2 ^ 64)).layout = "0x10000000000000000".toList := by
  decide +kernel

/-- C95 fails: a group of 19 digits of an `int128` that is at least 2^63 is printed as a negative
    number, in the middle of the digits. -/
theorem C95_signedChunk_violated :
    (print128 Os.open true (2 * 10 ^ 19 - 1) { val := 0, base := 'd' }).out =
      "1-8446744073709551617".toList ∧
    (printS128 Os.open (2 * 10 ^ 19 - 1)).out = "19999999999999999999".toList := by
  decide +kernel

/-- C95 fails: a decimal 128-bit number justified to the left takes one column more than asked for if
    its first group of digits is a power of ten, as the number of its digits is computed as the
    ceiling of its logarithm. -/
theorem C95_leftWidth_violated :
    (print128 Os.open false (10 ^ 19 + 1) { val := 0, base := 'u', wd := 25, left := true }).out =
      "10000000000000000001      ".toList ∧
    (reqOf { val := 0, base := 'u', wd := 25, left := true } false (10 ^ 19 + 1)).layout =
      "10000000000000000001     ".toList := by
  decide +kernel

/-- C95 fails: a binary number with more digits than the precision is padded as if it had only as many
    as the precision: 16 columns are printed where 10 were asked for and suffice. -/
theorem C95_binPrecision_violated :
    (print64 Os.open { val := 255, base := 'b', wd := 10, pcF := true, pc := 2 }).out =
      "      0b11111111".toList ∧
    (reqOf { val := 255, base := 'b', wd := 10, pcF := true, pc := 2 } false 255).layout =
      "0b11111111".toList := by
  decide +kernel

/-- C95 fails: a hexadecimal zero is padded with blanks between the prefix and the digit. -/
theorem C95_hexZero_violated :
    (print64 Os.open { val := 0, base := 'x', wd := 10 }).out = "0x       0".toList ∧
    (reqOf { val := 0, base := 'x', wd := 10 } false 0).layout = "       0x0".toList := by
  decide +kernel

/-- C95 fails: with a precision, padding with zeros is ignored for 64-bit integers, but not for
    128-bit integers of more than one chunk whose precision does not reach their first chunk. -/
theorem C95_padPrecision_violated :
    (print128 Os.open false (10 ^ 20)
      { val := 0, base := 'u', wd := 25, pcF := true, pc := 10, pad0 := true }).out = "0000100000000000000000000".toList ∧
    (print128 Os.open false 7
      { val := 0, base := 'u', wd := 12, pcF := true, pc := 10, pad0 := true }).out = "  0000000007".toList := by
  decide +kernel

end Verif.OstreamInt
