import Verif.Proof.IntLit
/-!
C98: integer constants have the value and the type they denote; where they have not.
-/
namespace Verif.IntLit
open Verif.Arith (Kind)

/-- C98: a constant in any base, with or without underscores and with any of the suffixes, is given the type of C (or, with a suffix of Cforall, the type it names) and the number its digits denote.
Missing: the suffix `lu` (`C98_lu_violated`), decimals with `u` (`C98_u_violated`), `l` and `ll` past `LONG_MAX` (`C98_l_violated`), binary constants past `INT_MAX` (`C98_binary_violated`);
128 bits are the subject of `C98_int128_partial`. -/
theorem C98_typed_partial (raw : Str) (c : Lit) (hr : raw.filter (· != '_') = c.text) (hv : c.Valid) (hp : c.Plain) (T : Ty) (hT : c.type = some T) :
    ∃ r, token raw = some r ∧ r.type = T ∧ r.value = c.value := by
  rw [token, rmUnderscore, hr]
  exact typed hv hp hT

/-- `0x_8000_0000` is an `unsigned int`. -/
example : ∃ r, token "0x_8000_0000".toList = some r ∧ r.type = .basic .unsignedInt ∧ r.value = 2147483648 := by
  refine C98_typed_partial _ ⟨.hex, false, "80000000".toList, .none⟩ (by decide +kernel) (valid_of (by decide +kernel)) ⟨?_, ?_, ?_, ?_, ?_⟩ _ (by decide +kernel)
  all_goals simp [Suffix.Open]

/-- `200uhh` is an `unsigned char`; `5_000_000_000z` is a `size_t`. -/
example : (∃ r, token "200uhh".toList = some r ∧ r.type = .basic .unsignedChar ∧ r.value = 200) ∧
    ∃ r, token "5_000_000_000z".toList = some r ∧ r.type = .basic .longUnsignedInt ∧ r.value = 5000000000 := by
  constructor
  · refine C98_typed_partial _ ⟨.dec, false, "200".toList, .uLen false false .hh⟩ (by decide +kernel) (valid_of (by decide +kernel)) ⟨?_, ?_, ?_, ?_, ?_⟩ _ (by decide +kernel)
    all_goals simp [Suffix.Open]
  · refine C98_typed_partial _ ⟨.dec, false, "5000000000".toList, .z false⟩ (by decide +kernel) (valid_of (by decide +kernel)) ⟨?_, ?_, ?_, ?_, ?_⟩ _ (by decide +kernel)
    all_goals simp [Suffix.Open]

/-- C98: the constant the compiler computes with, in array dimensions and enumerators, is the number the digits denote. Missing: most binary constants (`C98_known_violated`). -/
theorem C98_known_partial (raw : Str) (c : Lit) (hr : raw.filter (· != '_') = c.text) (hv : c.Valid) (h128 : c.suffix.Is128 = false) (hq : ∀ a, c.suffix ≠ .p a) (hlt : c.value < 2 ^ 64)
    (hb : c.base = .bin → (c.suffix = .none ∧ c.digits.length ≤ 2) ∨ ∃ a b, c.suffix = .uLen a b .l ∨ c.suffix = .uLen a b .ll ∨ c.suffix = .lenU a b .ll ∨ c.suffix = .len a .ll) :
    ∃ r, token raw = some r ∧ r.known = some c.value := by
  rw [token, rmUnderscore, hr]
  obtain ⟨r, e, k⟩ := known hv h128 hq hlt
  refine ⟨r, e, ?_⟩
  rw [k]
  split
  · rename_i hbin
    have hlen : bits c.digits.length (tab c.suffix).str.length = c.digits.length := by
      rcases hb hbin with ⟨h1, h2⟩ | ⟨a, b, h | h | h | h⟩
      · rw [h1]; simp [tab, bits]; omega
      all_goals rw [h]; simp [tab, bits]
    rw [hlen, List.take_length, Lit.value, hbin]; rfl
  · rfl

/-- The value of `0x_Ful`, and of `0b1010_1010ul`. -/
example : (∃ r, token "0x_Ful".toList = some r ∧ r.known = some 15) ∧ ∃ r, token "0b1010_1010ul".toList = some r ∧ r.known = some 170 := by
  constructor
  · exact C98_known_partial _ ⟨.hex, false, "F".toList, .uLen false false .l⟩ (by decide +kernel) (valid_of (by decide +kernel)) rfl (by simp) (by decide +kernel) (by simp)
  · exact C98_known_partial _ ⟨.bin, false, "10101010".toList, .uLen false false .l⟩ (by decide +kernel) (valid_of (by decide +kernel)) rfl (by simp) (by decide +kernel) (by simp)

/-- C98: a constant with the suffix `l128`, in any base, is an `unsigned int128` with the number its digits denote. Missing: constants whose lower half is zero (`C98_half_violated`), octal constants
of 2 to the 127 and more (`C98_octal128_violated`), binary constants whose lower half is below four (`C98_binary128_violated`), decimals of more than 39 digits (`C98_decimal128_violated`). -/
theorem C98_int128_partial (raw : Str) (c : Lit) (hr : raw.filter (· != '_') = c.text) (hv : c.Valid) (h128 : c.suffix.Is128 = true) (hf : c.Fits128) :
    ∃ r, token raw = some r ∧ r.type = .basic .unsignedInt128 ∧ r.value = c.value := by
  rw [token, rmUnderscore, hr]
  exact int128 hv h128 hf

/-- The greatest `unsigned int128`, in decimal and in hexadecimal. -/
example : (∃ r, token "340282366920938463463374607431768211455uL128".toList = some r ∧ r.type = .basic .unsignedInt128 ∧ r.value = 2 ^ 128 - 1) ∧
    ∃ r, token "0xFFFF_FFFF_FFFF_FFFF_FFFF_FFFF_FFFF_FFFFL128".toList = some r ∧ r.type = .basic .unsignedInt128 ∧ r.value = 2 ^ 128 - 1 := by
  have v1 : (Lit.value ⟨.dec, false, "340282366920938463463374607431768211455".toList, .uLen false true (.sized .s128)⟩) = 2 ^ 128 - 1 := by decide +kernel
  have v2 : (Lit.value ⟨.hex, false, "FFFFFFFFFFFFFFFFFFFFFFFFFFFFFFFF".toList, .len true (.sized .s128)⟩) = 2 ^ 128 - 1 := by decide +kernel
  constructor
  · obtain ⟨r, h1, h2, h3⟩ := C98_int128_partial "340282366920938463463374607431768211455uL128".toList ⟨.dec, false, "340282366920938463463374607431768211455".toList, .uLen false true (.sized .s128)⟩
      (by decide +kernel) (valid_of (by decide +kernel)) rfl ⟨by decide +kernel, fun _ => by rw [v1]; decide, fun h => by simp at h, by rw [v1]; decide, fun h => by simp at h⟩
    exact ⟨r, h1, h2, by rw [h3, v1]; decide⟩
  · obtain ⟨r, h1, h2, h3⟩ := C98_int128_partial "0xFFFF_FFFF_FFFF_FFFF_FFFF_FFFF_FFFF_FFFFL128".toList ⟨.hex, false, "FFFFFFFFFFFFFFFFFFFFFFFFFFFFFFFF".toList, .len true (.sized .s128)⟩
      (by decide +kernel) (valid_of (by decide +kernel)) rfl ⟨by decide +kernel, fun h => by simp at h, fun h => by simp at h, by rw [v2]; decide, fun h => by simp at h⟩
    exact ⟨r, h1, h2, by rw [h3, v2]; decide⟩

/-- C98: constants of 128 bits with more digits than the base needs, and decimals of 39 digits past the greatest value, are rejected. Missing: longer decimals (`C98_decimal128_violated`). -/
theorem C98_rejected_partial (raw : Str) (c : Lit) (hr : raw.filter (· != '_') = c.text) (hv : c.Valid) (h128 : c.suffix.Is128 = true)
    (h : (c.base ≠ .dec ∧ c.base.most < c.digits.length) ∨ (c.base = .dec ∧ c.digits.length = 39 ∧ (if c.suffix.HasU then 2 ^ 128 else 2 ^ 127) ≤ c.value)) : token raw = none := by
  rw [token, rmUnderscore, hr]
  exact rejected hv h128 h

/-- 2 to the 128. -/
example : token "340282366920938463463374607431768211456uL128".toList = none :=
  C98_rejected_partial _ ⟨.dec, false, "340282366920938463463374607431768211456".toList, .uLen false true (.sized .s128)⟩ (by decide +kernel) (valid_of (by decide +kernel)) rfl
    (Or.inr ⟨rfl, by decide +kernel, by decide +kernel⟩)

/-- C98 fails: `10lu` is an `unsigned int`, though `10ul` is an `unsigned long`, as both are in C: a length followed by `u` is dropped. -/
theorem C98_lu_violated : ∃ c : Lit, c.Valid ∧ c.text = "10lu".toList ∧ c.type = some (.basic .longUnsignedInt) ∧ (token c.text).map Res.type = some (.basic .unsignedInt) :=
  ⟨⟨.dec, false, "10".toList, .lenU false false .l⟩, valid_of (by decide +kernel), by decide +kernel, by decide +kernel, by decide +kernel⟩

/-- C98 fails: `3000000000u` is an `unsigned long`; in C it is an `unsigned int`. -/
theorem C98_u_violated : ∃ c : Lit, c.Valid ∧ c.text = "3000000000u".toList ∧ c.type = some (.basic .unsignedInt) ∧ (token c.text).map Res.type = some (.basic .longUnsignedInt) :=
  ⟨⟨.dec, false, "3000000000".toList, .u false⟩, valid_of (by decide +kernel), by decide +kernel, by decide +kernel, by decide +kernel⟩

/-- C98 fails: `0xFFFFFFFFFFFFFFFFl` is a `long`, with value -1; in C it is an `unsigned long`. -/
theorem C98_l_violated : ∃ c : Lit, c.Valid ∧ c.text = "0xFFFFFFFFFFFFFFFFl".toList ∧ c.type = some (.basic .longUnsignedInt) ∧ c.value = 2 ^ 64 - 1 ∧
    (token c.text).map Res.type = some (.basic .longSignedInt) ∧ (token c.text).map Res.value = some (-1) :=
  ⟨⟨.hex, false, "FFFFFFFFFFFFFFFF".toList, .len false .l⟩, valid_of (by decide +kernel), by decide +kernel, by decide +kernel, by decide +kernel, by decide +kernel, by decide +kernel⟩

/-- C98 fails: the binary constant for 2 to the 31 is an `int`, with a negative value: the last two digits are not read. In C it is an `unsigned int`. -/
theorem C98_binary_violated : ∃ c : Lit, c.Valid ∧ c.text = "0b10000000000000000000000000000000".toList ∧ c.type = some (.basic .unsignedInt) ∧ c.value = 2 ^ 31 ∧
    (token c.text).map Res.type = some (.basic .signedInt) ∧ (token c.text).map Res.value = some (-2 ^ 31) :=
  ⟨⟨.bin, false, "10000000000000000000000000000000".toList, .none⟩, valid_of (by decide +kernel), by decide +kernel, by decide +kernel, by decide +kernel, by decide +kernel, by decide +kernel⟩

/-- C98 fails: for constant expressions, the compiler takes `0b101` for 1, and `0b11u` for 1: the last digits are not read. -/
theorem C98_known_violated : ∃ c c' : Lit, c.Valid ∧ c'.Valid ∧ c.text = "0b101".toList ∧ c'.text = "0b11u".toList ∧ c.value = 5 ∧ c'.value = 3 ∧
    (token c.text).bind Res.known = some 1 ∧ (token c'.text).bind Res.known = some 1 :=
  ⟨⟨.bin, false, "101".toList, .none⟩, ⟨.bin, false, "11".toList, .u false⟩, valid_of (by decide +kernel), valid_of (by decide +kernel), by decide +kernel, by decide +kernel, by decide +kernel,
    by decide +kernel, by decide +kernel, by decide +kernel⟩

/-- C98 fails: `0x1_0000_0000_0000_0000l128` has the value 1: when the lower half is zero the halves are taken in the wrong order. It denotes 2 to the 64. -/
theorem C98_half_violated : ∃ c : Lit, c.Valid ∧ c.text = "0x10000000000000000l128".toList ∧ c.value = 2 ^ 64 ∧ (token c.text).map Res.value = some 1 :=
  ⟨⟨.hex, false, "10000000000000000".toList, .len false (.sized .s128)⟩, valid_of (by decide +kernel), by decide +kernel, by decide +kernel, by decide +kernel⟩

/-- C98 fails: an octal constant of 2 to the 127 and more is read with more than 64 bits at a time: this one, 2 to the 127 and 1, has another value. -/
theorem C98_octal128_violated : ∃ c : Lit, c.Valid ∧ c.text = "02000000000000000000000000000000000000000001l128".toList ∧ c.value = 2 ^ 127 + 1 ∧
    ∃ r, token c.text = some r ∧ r.value ≠ c.value :=
  ⟨⟨.oct, false, "2000000000000000000000000000000000000000001".toList, .len false (.sized .s128)⟩, valid_of (by decide +kernel), by decide +kernel, by decide +kernel, _, rfl, by decide +kernel⟩

/-- C98 fails: a binary constant of more than 64 digits whose lower half is 1, 2 or 3 has its halves exchanged: this one denotes 2 to the 64 and 2. -/
theorem C98_binary128_violated : ∃ c : Lit, c.Valid ∧ c.text = "0b10000000000000000000000000000000000000000000000000000000000000010l128".toList ∧ c.value = 2 ^ 64 + 2 ∧
    (token c.text).map Res.value = some (2 * 2 ^ 64 + 1) :=
  ⟨⟨.bin, false, "10000000000000000000000000000000000000000000000000000000000000010".toList, .len false (.sized .s128)⟩, valid_of (by decide +kernel), by decide +kernel, by decide +kernel,
    by decide +kernel⟩

/-- C98 fails: a decimal constant of forty digits, which no type can represent, is accepted. -/
theorem C98_decimal128_violated : ∃ c : Lit, c.Valid ∧ c.text = "1000000000000000000000000000000000000001l128".toList ∧ c.type = none ∧ ∃ r, token c.text = some r ∧ r.value ≠ c.value :=
  ⟨⟨.dec, false, "1000000000000000000000000000000000000001".toList, .len false (.sized .s128)⟩, valid_of (by decide +kernel), by decide +kernel, by decide +kernel, _, rfl, by decide +kernel⟩

end Verif.IntLit
