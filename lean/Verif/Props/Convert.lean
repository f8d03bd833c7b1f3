import Verif.Model.Convert
/-
  C60.  convert of a character string to an integral type returns the value of the numeral, raises out_of_range when
  it does not fit the target type and invalid_argument when the text is not a numeral.
  Holds for `long`, except that text which is not a numeral but begins with one that is too large is reported as
  out of range (`C60_invalid_violated`).  False for `int` (`C60_int_violated`), and for the unsigned types, which
  accept negative numerals (`C60_unsigned_violated`).
-/
namespace Verif.Convert

/-- The text is white space, an optional sign, digits and blanks; and `v` is the number it denotes. -/
def Numeral (s : List Char) (v : Int) : Prop :=
  ∃ sp sg ds bl : List Char, s = sp ++ (sg ++ (ds ++ bl)) ∧
    (∀ c ∈ sp, isspace c) ∧ (sg = [] ∨ sg = ['+'] ∨ sg = ['-']) ∧
    ds ≠ [] ∧ (∀ c ∈ ds, c.isDigit) ∧ (∀ c ∈ bl, isblank c) ∧
    v = if sg = ['-'] then -(digits ds : Int) else digits ds

/-- The values of a type. -/
def Target.Fits : Target → Int → Prop
  | .int, v => -2 ^ 31 ≤ v ∧ v < 2 ^ 31
  | .uint, v => 0 ≤ v ∧ v < 2 ^ 32
  | .long, v => -2 ^ 63 ≤ v ∧ v < 2 ^ 63
  | .ulong, v => 0 ≤ v ∧ v < 2 ^ 64

/-! ### Reading -/

theorem digit_not_space {c : Char} (h : c.isDigit) : isspace c = false ∧ c ≠ '-' ∧ c ≠ '+' := by
  refine ⟨?_, ?_, ?_⟩
  · rw [← Bool.not_eq_true]
    intro h'
    simp only [isspace, Bool.or_eq_true, beq_iff_eq] at h'
    rcases h' with ((((rfl | rfl) | rfl) | rfl) | rfl) | rfl <;> revert h <;> decide
  · rintro rfl; revert h; decide
  · rintro rfl; revert h; decide

theorem blank_not_digit {c : Char} (h : isblank c) : c.isDigit = false := by
  simp only [isblank, Bool.or_eq_true, beq_iff_eq] at h
  rcases h with rfl | rfl <;> decide

theorem dropWhile_append {p : Char → Bool} : ∀ {a b : List Char}, (∀ c ∈ a, p c) → (∀ c, b.head? = some c → p c = false) →
    (a ++ b).dropWhile p = b := by
  intro a
  induction a with
  | nil =>
    intro b _ hb
    cases b with
    | nil => rfl
    | cons c b => simp [List.dropWhile, hb c rfl]
  | cons x a ih =>
    intro b ha hb
    simp only [List.cons_append, List.dropWhile, ha x (by simp)]
    exact ih (fun c hc => ha c (by simp [hc])) hb

theorem takeWhile_append {p : Char → Bool} : ∀ {a b : List Char}, (∀ c ∈ a, p c) → (∀ c, b.head? = some c → p c = false) →
    (a ++ b).takeWhile p = a := by
  intro a
  induction a with
  | nil =>
    intro b _ hb
    cases b with
    | nil => rfl
    | cons c b => simp [List.takeWhile, hb c rfl]
  | cons x a ih =>
    intro b ha hb
    simp only [List.cons_append, List.takeWhile, ha x (by simp)]
    rw [ih (fun c hc => ha c (by simp [hc])) hb]

theorem checkif_iff (k : Char → Bool) : ∀ s, checkif k s = true ↔ ∀ c ∈ s, k c
  | [] => by simp [checkif]
  | c :: s => by
    simp only [checkif, List.mem_cons, forall_eq_or_imp, ← checkif_iff k s]
    cases k c <;> simp

/-- The parts of a text as C's conversions see them. -/
theorem scan_numeral {sp sg ds bl : List Char} (hsp : ∀ c ∈ sp, isspace c)
    (hsg : sg = [] ∨ sg = ['+'] ∨ sg = ['-']) (hne : ds ≠ []) (hds : ∀ c ∈ ds, c.isDigit) (hbl : ∀ c ∈ bl, isblank c) :
    sign ((sp ++ (sg ++ (ds ++ bl))).dropWhile isspace) = (decide (sg = ['-']), ds ++ bl) ∧
    (ds ++ bl).takeWhile Char.isDigit = ds ∧ (ds ++ bl).dropWhile Char.isDigit = bl := by
  have hb : ∀ c, bl.head? = some c → c.isDigit = false := fun c hc => blank_not_digit (hbl c (List.mem_of_mem_head? hc))
  obtain ⟨d, ds', rfl⟩ := List.exists_cons_of_ne_nil hne
  have hd := digit_not_space (hds d (by simp))
  refine ⟨?_, takeWhile_append hds hb, dropWhile_append hds hb⟩
  rw [dropWhile_append hsp]
  · rcases hsg with rfl | rfl | rfl
    · simp [sign, hd.2.1, hd.2.2]
    · simp [sign]
    · simp [sign]
  · intro c hc
    rcases hsg with rfl | rfl | rfl
    · simp at hc; subst hc; exact hd.1
    · simp at hc; subst hc; decide
    · simp at hc; subst hc; decide

theorem takeWhile_all {p : Char → Bool} : ∀ (l : List Char), ∀ c ∈ l.takeWhile p, p c := by
  intro l
  induction l with
  | nil => simp
  | cons x l ih =>
    intro c hc
    simp only [List.takeWhile] at hc
    split at hc
    · rename_i h
      rcases List.mem_cons.1 hc with rfl | hc
      · exact h
      · exact ih c hc
    · simp at hc

/-- A text with digits where C's conversions look for them, and blanks after them, is a numeral. -/
theorem numeral_of_scan {s : List Char}
    (hne : (sign (s.dropWhile isspace)).2.takeWhile Char.isDigit ≠ [])
    (hbl : ∀ c ∈ (sign (s.dropWhile isspace)).2.dropWhile Char.isDigit, isblank c) : ∃ v, Numeral s v := by
  have h1 : s = s.takeWhile isspace ++ s.dropWhile isspace := (List.takeWhile_append_dropWhile).symm
  have h2 : ∃ sg, (sg = [] ∨ sg = ['+'] ∨ sg = ['-']) ∧ s.dropWhile isspace = sg ++ (sign (s.dropWhile isspace)).2 := by
    generalize s.dropWhile isspace = l
    cases l with
    | nil => exact ⟨[], Or.inl rfl, rfl⟩
    | cons c l =>
      simp only [sign]
      split
      · rename_i h; subst h; exact ⟨['-'], Or.inr (Or.inr rfl), rfl⟩
      · split
        · rename_i h; subst h; exact ⟨['+'], Or.inr (Or.inl rfl), rfl⟩
        · exact ⟨[], Or.inl rfl, rfl⟩
  obtain ⟨sg, hsg, h2⟩ := h2
  have h3 := (List.takeWhile_append_dropWhile (p := Char.isDigit) (l := (sign (s.dropWhile isspace)).2)).symm
  refine ⟨_, s.takeWhile isspace, sg, _, _, ?_, takeWhile_all s, hsg, hne, takeWhile_all _, hbl, rfl⟩
  rw [← h3, ← h2]
  exact h1

theorem convert_numeral {s : List Char} {v : Int} (h : Numeral s v) :
    convert .long s = (if 2 ^ 63 ≤ v ∨ v < -2 ^ 63 then .outOfRange else .value v) ∧
    convert .int s = (if 2 ^ 63 ≤ v ∨ v < -2 ^ 63 then .outOfRange else .value (toInt v)) ∧
    convert .ulong s = (if 2 ^ 64 ≤ v ∨ v ≤ -2 ^ 64 then .outOfRange else .value (v % 2 ^ 64)) ∧
    convert .uint s = (if 2 ^ 64 ≤ v ∨ v ≤ -2 ^ 64 then .outOfRange else .value (v % 2 ^ 64 % 2 ^ 32)) := by
  obtain ⟨sp, sg, ds, bl, rfl, hsp, hsg, hne, hds, hbl, hv⟩ := h
  obtain ⟨h1, h2, h3⟩ := scan_numeral hsp hsg hne hds hbl
  have hck : checkif isblank bl = true := (checkif_iff _ _).2 hbl
  have hl : strtol (sp ++ (sg ++ (ds ++ bl))) =
      (if 2 ^ 63 ≤ v then ⟨2 ^ 63 - 1, bl, true, true⟩ else if v < -2 ^ 63 then ⟨-2 ^ 63, bl, true, true⟩
        else ⟨v, bl, true, false⟩) := by
    simp only [strtol, h1, h2, h3, if_neg hne, decide_eq_true_eq]
    rw [← hv]
  have hdv : (2 ^ 64 ≤ digits ds) ↔ (2 ^ 64 ≤ v ∨ v ≤ -2 ^ 64) := by
    rw [hv]
    split <;> omega
  have hu : strtoul (sp ++ (sg ++ (ds ++ bl))) =
      (if 2 ^ 64 ≤ v ∨ v ≤ -2 ^ 64 then ⟨2 ^ 64 - 1, bl, true, true⟩ else ⟨v % 2 ^ 64, bl, true, false⟩) := by
    simp only [strtoul, h1, h2, h3, if_neg hne, decide_eq_true_eq, hdv]
    rw [← hv]
  refine ⟨?_, ?_, ?_, ?_⟩
  · simp only [convert, strto, hl]
    by_cases c1 : 2 ^ 63 ≤ v
    · rw [if_pos c1, if_pos (Or.inl c1)]; rfl
    · by_cases c2 : v < -2 ^ 63
      · rw [if_neg c1, if_pos c2, if_pos (Or.inr c2)]; rfl
      · rw [if_neg c1, if_neg c2, if_neg (not_or.2 ⟨c1, c2⟩)]; simp [hck]
  · simp only [convert, strto, hl]
    by_cases c1 : 2 ^ 63 ≤ v
    · rw [if_pos c1, if_pos (Or.inl c1)]; rfl
    · by_cases c2 : v < -2 ^ 63
      · rw [if_neg c1, if_pos c2, if_pos (Or.inr c2)]; rfl
      · rw [if_neg c1, if_neg c2, if_neg (not_or.2 ⟨c1, c2⟩)]; simp [hck]
  · simp only [convert, strto, hu]
    by_cases c1 : 2 ^ 64 ≤ v ∨ v ≤ -2 ^ 64
    · rw [if_pos c1, if_pos c1]; rfl
    · rw [if_neg c1, if_neg c1]; simp [hck]
  · simp only [convert, strto, hu]
    by_cases c1 : 2 ^ 64 ≤ v ∨ v ≤ -2 ^ 64
    · rw [if_pos c1, if_pos c1]; rfl
    · rw [if_neg c1, if_neg c1]; simp [hck]

/-- No type gives a value for a text that is not a numeral. -/
theorem C60_reject (t : Target) (s : List Char) (h : ¬ ∃ v, Numeral s v) : ∀ v, convert t s ≠ .value v := by
  intro v hv
  apply h
  have key : ∀ r : Scan, (if r.erange then Conv.outOfRange
      else if !r.any || (!r.rest.isEmpty && !checkif isblank r.rest) then .invalidArgument else .value r.val) = .value v →
      r.any = true ∧ ∀ c ∈ r.rest, isblank c := by
    intro r hr
    split at hr
    · cases hr
    · split at hr
      · cases hr
      · rename_i h2
        simp only [Bool.or_eq_true, Bool.not_eq_true', Bool.and_eq_true, not_or, not_and] at h2
        refine ⟨by simpa using h2.1, ?_⟩
        rw [← checkif_iff]
        by_cases he : r.rest.isEmpty
        · rw [List.isEmpty_iff.1 he]; rfl
        · simpa using h2.2 (by simpa using he)
  have hl : (strtol s).any = true ∧ (∀ c ∈ (strtol s).rest, isblank c) → ∃ v, Numeral s v := by
    simp only [strtol]
    split
    · simp
    · rename_i hne
      rintro ⟨_, h2⟩
      refine numeral_of_scan hne ?_
      generalize (if (sign (s.dropWhile isspace)).1 = true then _ else _ : Int) = n at h2
      split at h2
      · exact h2
      · split at h2 <;> exact h2
  have hu : (strtoul s).any = true ∧ (∀ c ∈ (strtoul s).rest, isblank c) → ∃ v, Numeral s v := by
    simp only [strtoul]
    split
    · simp
    · rename_i hne
      rintro ⟨_, h2⟩
      refine numeral_of_scan hne ?_
      split at h2 <;> exact h2
  cases t with
  | int => exact hl (key (strto .int s) hv)
  | uint => exact hu (key (strto .uint s) hv)
  | long => exact hl (key (strto .long s) hv)
  | ulong => exact hu (key (strto .ulong s) hv)

/-- A text denotes at most one number. -/
theorem C60_numeral_unique {s : List Char} {v w : Int} (h : Numeral s v) (h' : Numeral s w) : v = w := by
  obtain ⟨sp, sg, ds, bl, rfl, hsp, hsg, hne, hds, hbl, hv⟩ := h
  obtain ⟨sp', sg', ds', bl', he, hsp', hsg', hne', hds', hbl', hw⟩ := h'
  obtain ⟨h1, h2, h3⟩ := scan_numeral hsp hsg hne hds hbl
  obtain ⟨h1', h2', h3'⟩ := scan_numeral hsp' hsg' hne' hds' hbl'
  rw [he, h1'] at h1
  simp only [Prod.mk.injEq] at h1
  have hd : ds = ds' := by rw [← h2, ← h1.2, h2']
  rw [hv, hw, ← hd]
  have : sg' = ['-'] ↔ sg = ['-'] := by simpa using h1.1
  simp only [this]

/-- Conversion to `long` (and `long long`). -/
theorem C60_long (s : List Char) (v : Int) (h : Numeral s v) :
    (Target.long.Fits v → convert .long s = .value v) ∧ (¬ Target.long.Fits v → convert .long s = .outOfRange) := by
  have := (convert_numeral h).1
  simp only [Target.Fits]
  rw [this]
  constructor
  · intro h; rw [if_neg (by omega)]
  · intro h; rw [if_pos (by omega)]

/-- Conversion to the other types: a numeral that fits is converted.  Missing: `out_of_range` for all others. -/
theorem C60_fits_partial (t : Target) (s : List Char) (v : Int) (h : Numeral s v) (hf : t.Fits v) :
    convert t s = .value v := by
  obtain ⟨h1, h2, h3, h4⟩ := convert_numeral h
  cases t <;> simp only [Target.Fits] at hf
  · rw [h2, if_neg (by omega)]; congr 1; simp only [toInt]; omega
  · rw [h4, if_neg (by omega)]; congr 1; omega
  · rw [h1, if_neg (by omega)]
  · rw [h3, if_neg (by omega)]; congr 1; omega

/-- A numeral too large in magnitude for 64 bits is out of range for every type. -/
theorem C60_out_of_range_partial (t : Target) (s : List Char) (v : Int) (h : Numeral s v)
    (hf : 2 ^ 64 ≤ v ∨ v ≤ -2 ^ 64) : convert t s = .outOfRange := by
  obtain ⟨h1, h2, h3, h4⟩ := convert_numeral h
  cases t
  · rw [h2, if_pos (by omega)]
  · rw [h4, if_pos (by omega)]
  · rw [h1, if_pos (by omega)]
  · rw [h3, if_pos (by omega)]

/-- A text that is not a numeral, for which C's conversion does not overflow, is an invalid argument.
Missing: `C60_invalid_violated`. -/
theorem C60_invalid_partial (t : Target) (s : List Char) (h : ¬ ∃ v, Numeral s v) (ho : (strto t s).erange = false) :
    convert t s = .invalidArgument := by
  have := C60_reject t s h
  unfold convert at *
  simp only [ho] at *
  split
  · rename_i h; simp at h
  · split
    · rfl
    · rename_i h1 h2
      exact absurd (by rw [if_neg h1, if_neg h2]) (this (strto t s).val)

/-- `convert` to `int` never reports a number that fits `long` as out of range: it returns another one. -/
theorem C60_int_violated (s : List Char) (v : Int) (h : Numeral s v) (h1 : Target.long.Fits v)
    (h2 : ¬ Target.int.Fits v) : ∃ w, convert .int s = .value w ∧ w ≠ v := by
  have := (convert_numeral h).2.1
  simp only [Target.Fits] at h1 h2
  refine ⟨_, by rw [this, if_neg (by omega)], ?_⟩
  simp only [toInt]
  omega

/-- `convert` to an unsigned type accepts negative numerals. -/
theorem C60_unsigned_violated (s : List Char) (v : Int) (h : Numeral s v) (h1 : -2 ^ 64 < v) (h2 : v < 0) :
    (∃ w, convert .ulong s = .value w ∧ w ≠ v) ∧ (∃ w, convert .uint s = .value w ∧ w ≠ v) := by
  obtain ⟨_, _, h3, h4⟩ := convert_numeral h
  refine ⟨⟨_, by rw [h3, if_neg (by omega)], by omega⟩, ⟨_, by rw [h4, if_neg (by omega)], by omega⟩⟩

theorem numeral_intro {s : List Char} {t : Target} {v : Int} (h : convert t s = .value v) : ∃ v, Numeral s v := by
  apply Classical.byContradiction
  intro hn
  exact C60_reject t s hn v h

/-- A text that is not a numeral, reported as out of range. -/
theorem C60_invalid_violated : ∃ s, (¬ ∃ v, Numeral s v) ∧ ∀ t, convert t s = .outOfRange := by
  refine ⟨"99999999999999999999x".toList, ?_, by intro t; cases t <;> decide +kernel⟩
  rintro ⟨v, sp, sg, ds, bl, he, hsp, hsg, hne, hds, hbl, -⟩
  have hx : 'x' ∈ sp ++ (sg ++ (ds ++ bl)) := by rw [← he]; decide
  simp only [List.mem_append] at hx
  rcases hx with h | h | h | h
  · have := hsp _ h; revert this; decide
  · rcases hsg with rfl | rfl | rfl <;> simp at h
  · have := hds _ h; revert this; decide
  · have := hbl _ h; revert this; decide

/-! ### Concrete cases -/

example : convert .long "  -42 ".toList = .value (-42) ∧ convert .long "9223372036854775808".toList = .outOfRange ∧
    convert .long "12x".toList = .invalidArgument ∧ convert .long "".toList = .invalidArgument ∧
    convert .long "+ 1".toList = .invalidArgument := by decide +kernel

example : Numeral "  -42 ".toList (-42) :=
  ⟨[' ', ' '], ['-'], ['4', '2'], [' '], by decide, by decide, by simp, by simp, by decide, by decide, by decide⟩

example : convert .int "4294967297".toList = .value 1 ∧ convert .ulong "-1".toList = .value (2 ^ 64 - 1) := by
  decide +kernel

end Verif.Convert
