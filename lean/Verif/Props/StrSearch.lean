import Verif.Model.StrSearch
import Mathlib.Data.List.GetD
/-!
C31: searching in strings, and the slicing and repetition part of C30.
-/
namespace Verif.StrSearch
open Verif

/-- `key` occurs in `s` at position `p`. -/
def OccursAt (s key : List Nat) (p : Nat) : Prop := ∃ a b, s = a ++ key ++ b ∧ a.length = p

theorem matched_iff (s key : List Nat) (i j n : Nat) :
    matched s key i j n = true ↔ ∀ k < n, key.getD (j + k) 0 = s.getD (i + (j + k)) 0 := by
  induction n generalizing j with
  | zero => simp [matched]
  | succ n ih =>
    simp only [matched]
    split
    · rename_i h
      refine ⟨fun h => by simp at h, fun hk => absurd ?_ h⟩
      simpa using hk 0 (by omega)
    · rename_i h
      simp only [ne_eq, Decidable.not_not] at h
      rw [ih]
      constructor
      · intro hk k hkn
        cases k with
        | zero => simpa using h
        | succ k => have := hk k (by omega); rw [show j + (k + 1) = j + 1 + k by omega]; exact this
      · intro hk k hkn
        have := hk (k + 1) (by omega)
        rw [show j + (k + 1) = j + 1 + k by omega] at this; exact this

theorem occursAt_iff (s key : List Nat) (p : Nat) (hp : p + key.length ≤ s.length) :
    OccursAt s key p ↔ matched s key p 0 key.length = true := by
  rw [matched_iff]
  constructor
  · rintro ⟨a, b, rfl, rfl⟩ k hk
    rw [Nat.zero_add]
    simp only [List.getD_eq_getElem?_getD]
    rw [List.append_assoc, List.getElem?_append_right (by omega), Nat.add_sub_cancel_left, List.getElem?_append_left (by omega)]
  · intro h
    refine ⟨s.take p, s.drop (p + key.length), ?_, by simp; omega⟩
    have : (s.drop p).take key.length = key := by
      apply List.ext_getElem
      · simp; omega
      · intro k h1 h2
        have := h k h2
        rw [Nat.zero_add, List.getD_eq_getElem _ _ h2, List.getD_eq_getElem _ _ (by omega)] at this
        simp [this]
    have e : key ++ s.drop (p + key.length) = s.drop p := by
      have := List.take_append_drop key.length (s.drop p)
      rw [‹(s.drop p).take key.length = key›, List.drop_drop] at this
      exact this
    rw [List.append_assoc, e, List.take_append_drop]

theorem occursAt_le {s key : List Nat} {p : Nat} (h : OccursAt s key p) : p + key.length ≤ s.length := by
  obtain ⟨a, b, rfl, rfl⟩ := h; simp

theorem findLoop_spec (s key : List Nat) (hk : key ≠ []) (i n : Nat) (hn : i + n = s.length) :
    (OccursAt s key (findLoop s key i n) ∧ i ≤ findLoop s key i n ∧ ∀ q, i ≤ q → q < findLoop s key i n → ¬ OccursAt s key q) ∨
    (findLoop s key i n = s.length ∧ ∀ q, i ≤ q → ¬ OccursAt s key q) := by
  have hk0 : 0 < key.length := List.length_pos_iff.2 hk
  induction n generalizing i with
  | zero => exact Or.inr ⟨rfl, fun q hq ho => by have := occursAt_le ho; omega⟩
  | succ n ih =>
    simp only [findLoop]
    split
    · exact Or.inr ⟨rfl, fun q hq ho => by have := occursAt_le ho; omega⟩
    · split
      · rename_i h1 h2
        exact Or.inl ⟨(occursAt_iff _ _ _ (by omega)).2 h2, Nat.le_refl _, fun q hq hq' => by omega⟩
      · rename_i h1 h2
        have hni : ¬ OccursAt s key i := fun h => h2 ((occursAt_iff _ _ _ (by omega)).1 h)
        rcases ih (i + 1) (by omega) with ⟨a, b, c⟩ | ⟨a, b⟩
        · refine Or.inl ⟨a, by omega, fun q hq hq' => ?_⟩
          rcases Nat.lt_or_ge i q with h | h
          · exact c q h hq'
          · rw [show q = i by omega]; exact hni
        · refine Or.inr ⟨a, fun q hq => ?_⟩
          rcases Nat.lt_or_ge i q with h | h
          · exact b q h
          · rw [show q = i by omega]; exact hni

/-- C31: searching a non-empty key from a position on gives the least position not before it where the key occurs, and the length of
    the string when there is none. -/
theorem C31_find_from (s key : List Nat) (start : Nat) (hk : key ≠ []) (hs : start ≤ s.length) :
    (OccursAt s key (findFrom s start key) ∧ start ≤ findFrom s start key ∧
      ∀ q, start ≤ q → q < findFrom s start key → ¬ OccursAt s key q) ∨
    (findFrom s start key = s.length ∧ ∀ q, start ≤ q → ¬ OccursAt s key q) := by
  unfold findFrom
  rw [if_neg (by have := List.length_pos_iff.2 hk; omega)]
  exact findLoop_spec s key hk start _ (by omega)

example : findFrom [97, 98, 97, 98, 99] 1 [97, 98] = 2 ∧ findFrom [97, 98, 97, 98, 99] 3 [97, 98] = 5 := by decide +kernel

/-- C31: searching any key from the beginning gives its least position, or the length. -/
theorem C31_find (s key : List Nat) :
    (OccursAt s key (find s key) ∧ ∀ q < find s key, ¬ OccursAt s key q) ∨ (find s key = s.length ∧ ∀ q, ¬ OccursAt s key q) := by
  by_cases hk : key = []
  · subst hk
    exact Or.inl ⟨⟨[], s, by simp, rfl⟩, fun q hq => by simp [find, findFrom] at hq⟩
  · rcases C31_find_from s key 0 hk (by omega) with ⟨a, b, c⟩ | ⟨a, b⟩
    · exact Or.inl ⟨a, fun q hq => c q (by omega) hq⟩
    · exact Or.inr ⟨a, fun q => b q (by omega)⟩

/-- C31 fails for the empty key after the beginning: it occurs at every position, but the search reports position 0, before the
    requested start, whatever the start is. -/
theorem C31_empty_key_from_violated (s : List Nat) (start : Nat) (h0 : 0 < start) (h : start ≤ s.length) :
    OccursAt s [] start ∧ findFrom s start [] = 0 ∧ findFrom s start [] < start :=
  ⟨⟨s.take start, s.drop start, by simp, by simp; omega⟩, rfl, h0⟩

theorem memchr_spec (s : List Nat) (c i n : Nat) (hn : i + n = s.length) :
    match memchr s c i n with
    | some p => i ≤ p ∧ p < s.length ∧ s.getD p 0 = c ∧ ∀ q, i ≤ q → q < p → s.getD q 0 ≠ c
    | none => ∀ q, i ≤ q → q < s.length → s.getD q 0 ≠ c := by
  induction n generalizing i with
  | zero => exact fun q h1 h2 => by omega
  | succ n ih =>
    simp only [memchr]
    by_cases h : s.getD i 0 = c
    · rw [if_pos h]; exact ⟨Nat.le_refl _, by omega, h, fun q h1 h2 => by omega⟩
    · rw [if_neg h]
      have := ih (i + 1) (by omega)
      cases e : memchr s c (i + 1) n with
      | none =>
        rw [e] at this
        intro q h1 h2
        rcases Nat.lt_or_ge i q with h' | h'
        · exact this q h' h2
        · rw [show q = i by omega]; exact h
      | some p =>
        rw [e] at this
        obtain ⟨a1, a2, a3, a4⟩ := this
        refine ⟨by omega, a2, a3, fun q h1 h2 => ?_⟩
        rcases Nat.lt_or_ge i q with h' | h'
        · exact a4 q h' h2
        · rw [show q = i by omega]; exact h

/-- C31: searching a character from a position inside the string gives its least position from there on, or the length. -/
theorem C31_find_char (s : List Nat) (start c : Nat) (hs : start ≤ s.length) :
    ∃ p, findChar s start c = .ret p ∧ start ≤ p ∧ p ≤ s.length ∧ (∀ h : p < s.length, s[p] = c) ∧
      ∀ q (h : q < s.length), start ≤ q → q < p → s[q] ≠ c := by
  have := memchr_spec s c start (s.length - start) (by omega)
  unfold findChar
  rw [if_neg (by omega)]
  cases e : memchr s c start (s.length - start) with
  | none =>
    rw [e] at this
    exact ⟨_, rfl, hs, Nat.le_refl _, fun h => absurd h (by omega), fun q h h1 _ => by
      have := this q h1 h; rwa [List.getD_eq_getElem _ _ h] at this⟩
  | some p =>
    rw [e] at this
    obtain ⟨a1, a2, a3, a4⟩ := this
    exact ⟨_, rfl, a1, by omega, fun h => by rwa [List.getD_eq_getElem _ _ h] at a3, fun q h h1 h2 => by
      have := a4 q h1 h2; rwa [List.getD_eq_getElem _ _ h] at this⟩

example : findChar [97, 98, 97] 1 97 = .ret 2 ∧ findChar [97, 98, 97] 1 99 = .ret 3 := by decide +kernel

/-- C31 fails for a start past the end: searching a character there reads outside the string. -/
theorem C31_find_char_past_end_violated (s : List Nat) (start c : Nat) (h : s.length < start) : findChar s start c = .undef := by
  unfold findChar; rw [if_pos h]

/-- C31: `includes` says whether the key occurs, in a non-empty string. -/
theorem C31_includes_partial (s key : List Nat) (hs : s ≠ []) : includes s key = true ↔ ∃ p, OccursAt s key p := by
  have hl := List.length_pos_iff.2 hs
  unfold includes
  rw [decide_eq_true_iff]
  rcases C31_find s key with ⟨a, _⟩ | ⟨a, b⟩
  · refine ⟨fun _ => ⟨_, a⟩, fun _ => ?_⟩
    by_cases hk : key = []
    · subst hk; simp [find, findFrom]; omega
    · have := occursAt_le a
      have := List.length_pos_iff.2 hk
      omega
  · rw [a]; exact ⟨fun h => absurd h (by omega), fun ⟨p, hp⟩ => absurd hp (b p)⟩

/-- C31 fails for the empty string: it includes, starts with and ends with the empty string, but `includes` is false. -/
theorem C31_includes_empty_violated :
    OccursAt [] [] 0 ∧ startsWith [] [] = true ∧ endsWith [] [] = true ∧ includes [] [] = false :=
  ⟨⟨[], [], rfl, rfl⟩, rfl, rfl, rfl⟩

/-- C31: `startsWith` says whether the key is a prefix. -/
theorem C31_starts_with (s pre : List Nat) : startsWith s pre = true ↔ ∃ t, s = pre ++ t := by
  unfold startsWith memeq
  split
  · rename_i h
    refine ⟨fun h => by simp at h, ?_⟩
    rintro ⟨t, rfl⟩
    simp at h; omega
  · rename_i h
    rw [← occursAt_iff _ _ _ (by omega)]
    constructor
    · rintro ⟨a, b, rfl, ha⟩
      rw [List.eq_nil_of_length_eq_zero ha]; exact ⟨b, rfl⟩
    · rintro ⟨t, rfl⟩; exact ⟨[], t, rfl, rfl⟩

/-- C31: `endsWith` says whether the key is a suffix. -/
theorem C31_ends_with (s suf : List Nat) : endsWith s suf = true ↔ ∃ t, s = t ++ suf := by
  unfold endsWith memeq
  split
  · rename_i h
    refine ⟨fun h => by simp at h, ?_⟩
    rintro ⟨t, rfl⟩
    simp at h; omega
  · rename_i h
    rw [← occursAt_iff _ _ _ (by omega)]
    constructor
    · rintro ⟨a, b, rfl, ha⟩
      simp only [List.length_append] at ha
      have : b = [] := List.eq_nil_of_length_eq_zero (by omega)
      subst this; exact ⟨a, by simp⟩
    · rintro ⟨t, rfl⟩; exact ⟨t, [], by simp, by simp⟩

/-- C31: the prefix and suffix tests agree with the search. -/
theorem C31_tests_agree (s key : List Nat) (hs : s ≠ []) :
    (startsWith s key = true → find s key = 0) ∧ (startsWith s key = true ∨ endsWith s key = true → includes s key = true) := by
  constructor
  · intro h
    obtain ⟨t, rfl⟩ := (C31_starts_with _ _).1 h
    rcases C31_find (key ++ t) key with ⟨_, b⟩ | ⟨_, b⟩
    · exact Decidable.byContradiction fun hn => b 0 (by omega) ⟨[], t, rfl, rfl⟩
    · exact absurd ⟨[], t, rfl, rfl⟩ (b 0)
  · intro h
    rw [C31_includes_partial _ _ hs]
    rcases h with h | h
    · obtain ⟨t, rfl⟩ := (C31_starts_with _ _).1 h; exact ⟨0, [], t, rfl, rfl⟩
    · obtain ⟨t, rfl⟩ := (C31_ends_with _ _).1 h; exact ⟨_, t, [], by simp, rfl⟩

example : startsWith [1, 2, 3] [1, 2] = true ∧ endsWith [1, 2, 3] [2, 3] = true ∧ endsWith [1, 2, 3] [1, 3] = false := by decide +kernel

theorem test_iff (mask : List Nat) (c i n : Nat) (hn : i + n = mask.length) : test mask c i n = true ↔ c ∈ mask.drop i := by
  induction n generalizing i with
  | zero => rw [List.drop_eq_nil_of_le (by omega)]; simp [test]
  | succ n ih =>
    have hi : i < mask.length := by omega
    rw [List.drop_eq_getElem_cons hi, List.mem_cons]
    simp only [test, List.getD_eq_getElem _ _ hi]
    split
    · rename_i h; exact ⟨fun _ => Or.inl h.symm, fun _ => rfl⟩
    · rename_i h
      rw [ih _ (by omega)]
      exact ⟨Or.inr, fun h' => h'.resolve_left fun e => h e.symm⟩

theorem scan_spec (s : List Nat) (stop : Nat → Bool) (i n : Nat) (hn : i + n = s.length) :
    scan s stop i n = i + ((s.drop i).takeWhile fun c => !stop c).length := by
  induction n generalizing i with
  | zero => rw [List.drop_eq_nil_of_le (by omega)]; simp [scan]; omega
  | succ n ih =>
    have hi : i < s.length := by omega
    rw [List.drop_eq_getElem_cons hi]
    simp only [scan, List.getD_eq_getElem _ _ hi]
    split
    · rename_i h; rw [List.takeWhile_cons, if_neg (by simp [h])]; rfl
    · rename_i h
      rw [List.takeWhile_cons, if_pos (by simpa using h), ih _ (by omega)]
      simp only [List.length_cons]; omega

/-- The length of the longest prefix whose characters all satisfy `ok`. -/
def PrefixLen (s : List Nat) (ok : Nat → Prop) (p : Nat) : Prop :=
  p ≤ s.length ∧ (∀ c ∈ s.take p, ok c) ∧ ∀ h : p < s.length, ¬ ok s[p]

theorem takeWhile_prefixLen (s : List Nat) (b : Nat → Bool) : PrefixLen s (fun c => b c = true) (s.takeWhile b).length := by
  induction s with
  | nil => exact ⟨Nat.le_refl _, by simp, fun h => by simp at h⟩
  | cons a s ih =>
    rw [List.takeWhile_cons]
    split
    · rename_i h
      obtain ⟨h1, h2, h3⟩ := ih
      refine ⟨by simp only [List.length_cons]; omega, ?_, ?_⟩
      · intro c hc
        simp only [List.length_cons, List.take_succ_cons, List.mem_cons] at hc
        rcases hc with rfl | hc
        · exact h
        · exact h2 c hc
      · intro h
        simp only [List.length_cons, List.getElem_cons_succ]
        exact h3 _
    · rename_i h
      exact ⟨by simp, by simp, fun _ => by simpa using h⟩

/-- C31: `include` gives the length of the longest prefix made of characters of the class, `exclude` that of the longest prefix without
    any; likewise for the forms with a predicate. -/
theorem C31_include_exclude (s mask : List Nat) (f : Nat → Bool) :
    PrefixLen s (fun c => c ∈ mask) (includeCls s mask) ∧ PrefixLen s (fun c => c ∉ mask) (exclude s mask) ∧
    PrefixLen s (fun c => f c = true) (includeIf s f) ∧ PrefixLen s (fun c => f c = false) (excludeIf s f) := by
  have t : ∀ c, test mask c 0 mask.length = true ↔ c ∈ mask := fun c => by rw [test_iff _ _ _ _ (by omega)]; simp
  unfold includeCls exclude includeIf excludeIf
  refine ⟨?_, ?_, ?_, ?_⟩ <;> rw [scan_spec _ _ _ _ (by omega), List.drop_zero, Nat.zero_add]
  · have := takeWhile_prefixLen s (fun c => !!test mask c 0 mask.length)
    simpa only [Bool.not_not, t] using this
  · have := takeWhile_prefixLen s (fun c => !test mask c 0 mask.length)
    simpa only [Bool.not_eq_true', ← Bool.not_eq_true, t] using this
  · have := takeWhile_prefixLen s (fun c => !!f c)
    simpa only [Bool.not_not] using this
  · have := takeWhile_prefixLen s (fun c => !f c)
    simpa only [Bool.not_eq_true'] using this

example : includeCls [97, 98, 99, 97] [98, 97] = 2 ∧ exclude [97, 98, 99, 97] [99, 100] = 2 ∧ exclude [97] [98] = 1 := by decide +kernel

theorem translateLoop_spec (f : Nat → Nat) (r : List Nat) (i n : Nat) (hn : i + n = r.length) :
    translateLoop f r i n = r.take i ++ (r.drop i).map f := by
  induction n generalizing r i with
  | zero => rw [List.drop_eq_nil_of_le (by omega), List.take_of_length_le (by omega)]; simp [translateLoop]
  | succ n ih =>
    have hi : i < r.length := by omega
    simp only [translateLoop]
    rw [ih _ _ (by simp; omega), List.drop_eq_getElem_cons hi, List.map_cons, List.getD_eq_getElem _ _ hi]
    rw [List.take_set, List.drop_set, if_pos (by omega), List.take_succ_eq_append_getElem hi, List.set_append_right _ _ (by simp; omega)]
    simp only [List.length_take, show i - min i r.length = 0 by omega, List.set_cons_zero, List.append_assoc, List.cons_append, List.nil_append]

/-- C31: `translate` applies the function to every character. -/
theorem C31_translate (s : List Nat) (f : Nat → Nat) : translate s f = s.map f := by
  unfold translate; rw [translateLoop_spec _ _ _ _ (by omega)]; simp

example : translate [97, 98] (· - 32) = [65, 66] := by decide +kernel

/-! ## Slicing, repetition and replacement -/

/-- C30: `s( start, len )` has the character at each of the `len` positions from `start` on that lie in the string; a negative start
    counts from the end of the string; a negative length gives the `-len` characters that end with the one at `start`, provided they
    all lie after the beginning. The part is empty when it would start outside the string. -/
theorem C30_slice (s : List Nat) (start len : Int) (first : Int) (count : Nat)
    (hf : first = (if start < 0 then start + s.length else start) - (if len < 0 then -len - 1 else 0)) (hc : count = len.natAbs) :
    (0 ≤ first → slice s start len = (s.drop first.toNat).take count) ∧ (first < 0 → slice s start len = []) := by
  subst hc
  unfold slice
  have key : ∀ (st l : Int), st = first → l = len.natAbs →
      (0 ≤ first → (if st < 0 ∨ st ≥ s.length then ([] : List Nat)
        else (s.drop st.toNat).take (if st + l > s.length then s.length - st else l).toNat) = (s.drop first.toNat).take len.natAbs) ∧
      (first < 0 → (if st < 0 ∨ st ≥ s.length then ([] : List Nat)
        else (s.drop st.toNat).take (if st + l > s.length then s.length - st else l).toNat) = []) := by
    intro st l e1 e2
    subst e1 e2
    constructor
    · intro h0
      split
      · rw [List.drop_eq_nil_of_le (by omega)]; simp
      · split
        · rw [List.take_of_length_le (by simp; omega), List.take_of_length_le (by simp; omega)]
        · rw [Int.toNat_natCast]
    · intro h0; rw [if_pos (Or.inl h0)]
  by_cases hl : len < 0
  · simp only [hl, if_true] at hf ⊢
    exact key _ _ hf.symm (by omega)
  · simp only [hl, if_false] at hf ⊢
    exact key _ _ (by omega) (by omega)

example : slice [97, 98, 99, 100] 1 2 = [98, 99] ∧ slice [97, 98, 99, 100] (-2) 9 = [99, 100] ∧ slice [97, 98, 99, 100] 2 (-2) = [98, 99] ∧
    slice [97, 98, 99, 100] 7 2 = [] := by decide +kernel

/-- C30: `s( start )` is the rest of the string from `start` on, a negative start counting from the end. -/
theorem C30_slice_from_partial (s : List Nat) (start : Int) (h1 : -(s.length : Int) ≤ start) (h2 : start ≤ s.length) :
    sliceFrom s start = .ret (s.drop (if start < 0 then start + s.length else start).toNat) := by
  unfold sliceFrom
  dsimp only
  rw [if_neg]
  split <;> omega

example : sliceFrom [97, 98, 99] (-1) = .ret [99] := by decide +kernel

/-- C30 fails for `s( start )` outside the string: unlike the form with a length it does not clip, and the part lies outside. -/
theorem C30_slice_from_violated (s : List Nat) (start : Int) (h : start < -(s.length : Int) ∨ s.length < start) :
    sliceFrom s start = .undef ∧ ∀ n : Nat, slice s start n = [] := by
  constructor
  · unfold sliceFrom
    dsimp only
    rw [if_pos]
    split <;> omega
  · intro n
    unfold slice
    have : ¬ ((n : Int) < 0) := by omega
    simp only [this, if_false]
    rw [if_pos]
    split <;> omega

/-- C30: repetition has `factor` times the length and repeats the characters. -/
theorem C30_repeat (s : List Nat) (factor : Nat) :
    (times s factor).length = factor * s.length ∧ times s factor = (List.replicate factor s).flatten := by
  have : times s factor = (List.replicate factor s).flatten := by
    unfold times
    induction factor with
    | zero => rfl
    | succ n ih => rw [List.range_succ, List.foldl_append, ih, List.replicate_succ']; simp
  refine ⟨?_, this⟩
  rw [this]; simp

/-- C30: comparing prefixes of both strings is refused exactly when a string is shorter. -/
theorem C30_strncmp (s t : List Nat) (n : Nat) :
    (n ≤ s.length ∧ n ≤ t.length → strncmpArgs s t n = .ret (s.take n, t.take n)) ∧
    (s.length < n ∨ t.length < n → strncmpArgs s t n = .abort) := by
  unfold strncmpArgs
  constructor <;> intro h
  · rw [if_neg (by omega)]
  · rw [if_pos (by omega)]

/-- C31 fails for the search with sub-ranges: the length of the range and the range of the key are ignored, so the key is found
    outside the range, or not found although the part of it is there. -/
theorem C31_find_range_violated :
    findRange [97, 98, 99, 100] 0 2 [99] 0 1 = 2 ∧ ¬ OccursAt [97, 98] [99] 2 ∧
    findRange [97, 98, 99, 100] 0 4 [122, 98] 1 1 = 4 ∧ OccursAt [97, 98, 99, 100] [98] 1 := by
  refine ⟨by decide +kernel, fun h => ?_, by decide +kernel, ⟨[97], [99, 100], rfl, rfl⟩⟩
  have := occursAt_le h; simp at this

/-- The result of replacing every occurrence of `src`, from the left and without overlaps, by `dst`. -/
inductive Replaced (src dst : List Nat) : List Nat → List Nat → Prop where
  | none (s : List Nat) (h : ∀ p, ¬ OccursAt s src p) : Replaced src dst s s
  | first (a b r : List Nat) (h : ∀ q < a.length, ¬ OccursAt (a ++ src ++ b) src q) (hr : Replaced src dst b r) :
      Replaced src dst (a ++ src ++ b) (a ++ dst ++ r)

/-- C31: `replace` terminates and replaces every occurrence of a non-empty string. -/
theorem C31_replace_partial (src dst : List Nat) (hk : src ≠ []) (s : List Nat) :
    ∃ r, Replaced src dst s r ∧ ∀ n, s.length < n → replace src dst n s = some r := by
  have hk0 := List.length_pos_iff.2 hk
  induction hl : s.length using Nat.strongRecOn generalizing s with
  | _ l ih =>
    rcases C31_find s src with ⟨⟨a, b, e, ha⟩, h2⟩ | ⟨h1, h2⟩
    · have hlen : s.length = a.length + src.length + b.length := by rw [e]; simp; omega
      obtain ⟨r, hr, hn⟩ := ih b.length (by omega) b rfl
      refine ⟨a ++ dst ++ r, ?_, ?_⟩
      · rw [e]; exact .first a b r (by rw [← e, ha]; exact h2) hr
      · intro n hln
        obtain ⟨n, rfl⟩ : ∃ m, n = m + 1 := ⟨n - 1, by omega⟩
        have hfl : find s src < s.length := by omega
        have hs : sliceFrom s ((find s src + src.length : Nat) : Int) = .ret b := by
          rw [C30_slice_from_partial _ _ (by omega) (by omega), if_neg (by omega), Int.toNat_natCast, ← ha, e,
            show a.length + src.length = (a ++ src).length by simp, List.drop_left]
        have ht : slice s 0 (find s src : Nat) = a := by
          rw [(C30_slice s 0 (find s src : Nat) 0 (find s src) (by rw [if_neg (by omega), if_neg (by omega)]; rfl) (by omega)).1 (by omega), ← ha, e]
          simp
        simp only [replace]
        rw [if_pos hfl, hs]
        simp only [hn n (by omega), Option.map_some, ht]
    · refine ⟨s, .none s h2, ?_⟩
      intro n hln
      obtain ⟨n, rfl⟩ : ∃ m, n = m + 1 := ⟨n - 1, by omega⟩
      simp only [replace]
      rw [if_neg (by omega)]

example : replace [97] [120, 121] 9 [97, 98, 97, 97] = some [120, 121, 98, 120, 121, 120, 121] := by decide +kernel

/-- C31 fails for replacing the empty string in a non-empty one: the recursion never ends. -/
theorem C31_replace_empty_violated (s dst : List Nat) (hs : s ≠ []) (n : Nat) : replace [] dst n s = none := by
  induction n with
  | zero => rfl
  | succ n ih =>
    have hl := List.length_pos_iff.2 hs
    simp only [replace]
    have hf : find s [] = 0 := rfl
    rw [hf, if_pos hl]
    have : sliceFrom s ((0 + ([] : List Nat).length : Nat) : Int) = .ret s := by
      rw [C30_slice_from_partial _ _ (by simp) (by simp)]; simp
    rw [this]
    simp only [ih, Option.map_none]

end Verif.StrSearch
