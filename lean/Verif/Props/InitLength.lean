import Verif.Proof.InitLength
import Mathlib.Tactic.Ring

/-!
# C115: the length of an array that is declared without one
-/

namespace Verif.InitLength

/-! ## Strings -/

/-- C115, strings: the type of string literals without an encoding and universal character names, next to
each other, has as many elements as they have characters, however these are written, and one more. -/
theorem C115_string_partial (ts : List Tok) (ls : List (List Tok)) (h : ∀ l ∈ ts :: ls, Written l)
    (units : List Char) (hu : '"' ∉ units) :
    ((ls.map source).foldlM appendStr (source ts)).bind (fun s => constantStr (s ++ units)) =
      some (((ts :: ls).map List.length).sum + 1, units.isEmpty) := by
  rw [append_sources, Option.bind_some]
  obtain ⟨s, hs⟩ := ends_quote ts ls
  unfold constantStr
  rw [hs, List.append_assoc, List.singleton_append, sep_end s units hu, ← hs]
  simp only
  have hd : (source ts ++ more ls).drop 1 = body ts ++ more ls := by simp [source]
  obtain ⟨f', hf', hc⟩ := count_body (more ls) ts (source ts ++ more ls).length (h ts (by simp))
    (by simp [source])
  rw [hd, hc, count_more ls f' (fun x hx => h x (by simp [hx])) hf']
  simp
  omega

/-- C115, arrays of characters: an array with no length that is initialized with such literals has this
length, and one with a length keeps it. -/
theorem C115_array_partial (ts : List Tok) (ls : List (List Tok)) (h : ∀ l ∈ ts :: ls, Written l) (n : Nat)
    (i : Init) :
    dimension none (.str (source ts) (ls.map source)) = some (((ts :: ls).map List.length).sum + 1) ∧
    dimension (some n) i = some n := by
  refine ⟨?_, rfl⟩
  have := C115_string_partial ts ls h [] (by simp)
  simp only [List.append_nil] at this
  show (literal _ _).bind _ = _
  unfold literal
  rw [show (fun s => constantStr s) = constantStr from rfl] at this
  rw [this]
  rfl

/-- `"a\"\101" "\x4g\n"`: six characters. -/
example : let ts : List Tok := [.plain 'a', .simple '"', .octal ['1', '0', '1']]
    let us : List Tok := [.hex ['4'], .plain 'g', .simple 'n']
    (∀ l ∈ [ts, us], Written l) ∧ source ts = "\"a\\\"\\101\"".toList ∧
    dimension none (.str (source ts) [source us]) = some 7 := by
  refine ⟨?_, by decide, by decide +kernel⟩
  intro l hl
  simp only [List.mem_cons, List.not_mem_nil, or_false] at hl
  rcases hl with rfl | rfl <;> simp only [Written, Tok.Ok, Octal, Hex] <;> decide

/-- C115, units: a literal with units gives an array no length. -/
theorem C115_units (ts : List Tok) (h : Written ts) (units : List Char) (hu : '"' ∉ units) (hn : units ≠ []) :
    dimension none (.str (source ts ++ units) []) = none := by
  have := C115_string_partial ts [] (by simpa using h) units hu
  simp only [List.map_nil, List.foldlM_nil] at this
  show (literal _ _).bind _ = _
  unfold literal
  simp only [List.foldlM_nil]
  have e : (pure (source ts ++ units) : Option (List Char)).bind constantStr = constantStr (source ts ++ units) := rfl
  have e' : (pure (source ts) : Option (List Char)).bind (fun s => constantStr (s ++ units)) =
    constantStr (source ts ++ units) := rfl
  rw [e, ← e', this]
  cases units with
  | nil => exact absurd rfl hn
  | cons => rfl

/-- C115, encodings: literals next to each other are joined with the encoding at the start if at most one
of them has one or both have the same, and different encodings are an error. -/
theorem C115_encodings (a b : List Char) (ea eb : List Char)
    (ha : ea ∈ [[], ['L'], ['U'], ['u'], ['u', '8']]) (hb : eb ∈ [[], ['L'], ['U'], ['u'], ['u', '8']]) :
    appendStr (ea ++ '"' :: a) (eb ++ '"' :: b) =
      if ea = eb ∨ eb = [] then some (ea ++ '"' :: a ++ ' ' :: '"' :: b)
      else if ea = [] then some (eb ++ '"' :: a ++ ' ' :: '"' :: b) else none := by
  simp only [List.mem_cons, List.not_mem_nil, or_false] at ha hb
  rcases ha with rfl | rfl | rfl | rfl | rfl <;> rcases hb with rfl | rfl | rfl | rfl | rfl <;>
    simp [appendStr]

/-- C115 fails: a string with an encoding `L`, `U` or `u` has length 1, and one with `u8` length 2, whatever
its characters are. -/
theorem C115_encoding_violated (p : Char) (hp : p ∈ ['L', 'U', 'u']) (s : List Char) (hs : '"' ∉ s) :
    dimension none (.str (p :: '"' :: (s ++ ['"'])) []) = some 1 ∧
    dimension none (.str ('u' :: '8' :: '"' :: (s ++ ['"'])) []) = some 2 := by
  have hs' : ∀ c ∈ s, (c != '"') = true := fun c hc => by
    simp only [bne_iff_ne]; rintro rfl; exact hs hc
  have hd : (s ++ ['"']).dropWhile (fun c => c != '"') = ['"'] := by
    rw [List.dropWhile_append_of_pos hs']; rfl
  have hc : ∀ f, count (f + 1) ('"' :: (s ++ ['"'])) = some 0 := by
    intro f
    simp only [count]
    rw [if_neg (by simp), if_pos (by simp), List.tail_cons, hd]
    cases f <;> simp [seqLen, count]
  have key : ∀ q : List Char, constantStr (q ++ '"' :: (s ++ ['"'])) =
      (count (q ++ '"' :: (s ++ ['"'])).length ((q ++ '"' :: (s ++ ['"'])).drop 1)).map
        fun n => (1 + n, true) := by
    intro q
    unfold constantStr
    rw [show q ++ '"' :: (s ++ ['"']) = (q ++ '"' :: s) ++ '"' :: [] by simp, sep_end _ [] (by simp)]
    rfl
  constructor
  · show (constantStr ([p] ++ '"' :: (s ++ ['"']))).bind _ = _
    rw [key]
    simp only [List.singleton_append, List.drop_succ_cons, List.drop_zero, List.length_cons, hc]
    rfl
  · show (constantStr (['u', '8'] ++ '"' :: (s ++ ['"']))).bind _ = _
    rw [key]
    simp only [List.cons_append, List.nil_append, List.drop_succ_cons, List.drop_zero, List.length_cons]
    rw [count, if_neg (by simp), if_neg (by simp)]
    simp only [seqLen, List.getD_cons_zero]
    rw [if_pos (by decide)]
    simp only [Option.bind_some, List.drop_succ_cons, List.drop_zero, hc]
    rfl

/-- C115 fails: a universal character name counts as one character, although the string has one for each
byte of its encoding. -/
theorem C115_universal_violated :
    dimension none (.str "\"\\u00e9\"".toList []) = some 2 ∧ "é".utf8ByteSize + 1 = 3 ∧
    dimension none (.str "\"\\U0001F600\"".toList []) = some 2 ∧ "😀".utf8ByteSize + 1 = 5 := by
  decide +kernel

/-! ## Lists -/

theorem cLength_none (n i : Nat) : cLength i (List.replicate n none) = if n = 0 then 0 else i + n := by
  induction n generalizing i with
  | zero => rfl
  | succ n ih =>
    simp only [List.replicate_succ, cLength, ih, Option.getD_none]
    split <;> simp <;> omega

/-- C115, lists: an array of scalars with a list without designators has the length that C gives it. -/
theorem C115_list_partial (items : List (Option Nat)) (h : ∀ d ∈ items, d = none) :
    dimension none (.list items) = some (cLength 0 items) := by
  rw [List.eq_replicate_of_mem h, cLength_none]
  simp only [dimension, makeDimension, List.length_replicate]
  split <;> simp [*]

example : dimension none (.list [none, none, none]) = some 3 := rfl

/-- C115 fails: with designators the length is the number of items, and an item can be put beyond the
array; two items at one index give an element too many. -/
theorem C115_designator_violated :
    (∀ n, dimension none (.list [some n]) = some 1 ∧ cLength 0 [some n] = n + 1) ∧
    (∀ n, dimension none (.list [some 0, some 0, some n]) = some 3 ∧ cLength 0 [some 0, some 0, some n] = n + 1) := by
  constructor <;> intro n <;> constructor <;> first | rfl | (simp [cLength])

/-- C115 fails: an array of arrays with a list of scalars has as many elements as there are scalars. -/
theorem C115_flat_violated (k n : Nat) (hk : 2 ≤ k) (hn : 2 ≤ n) (items : List (Option Nat)) (h : items.length = n) :
    dimension none (.list items) = some n ∧ flatLength k n < n := by
  refine ⟨by simp [dimension, makeDimension, h], ?_⟩
  unfold flatLength
  rw [Nat.div_lt_iff_lt_mul (by omega)]
  obtain ⟨k, rfl⟩ := Nat.exists_eq_add_of_le hk
  obtain ⟨n, rfl⟩ := Nat.exists_eq_add_of_le hn
  have : (2 + n) * (2 + k) = 4 + 2 * n + 2 * k + n * k := by ring
  rw [this]
  omega

end Verif.InitLength
