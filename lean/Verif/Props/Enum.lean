import Verif.Proof.Enum

/-!
# C110: enumerations
-/

namespace Verif.Enum

/-- `enum( int ) Letter { a = 10, b, c = 'x', d }`. -/
def letter : EDecl := expand "Letter" true [.own "a" (some 10), .own "b" none, .own "c" (some 120), .own "d" none]

/-- `int`. -/
def int : Base := ⟨true, 32⟩

/-- C110, attributes: in a typed enumeration, or an opaque one with no values, the enumerators are
the integers from 0 on in their order, and the position, the label and the value of each are its
place, its name and the value written for it, or one more than the one before, or 0.  Missing: opaque
enumerations with a typed one inline, for which it fails. -/
theorem C110_attributes_partial (b : Base) (e : EDecl)
    (hplain : e.typed = true ∨ ∀ m ∈ e.members, m.2 = none) (hfew : e.members.length < 2147483648)
    (k : Nat) (hk : k < e.members.length) :
    (constants e)[k]? = some (k : Int) ∧
    posn (fromIntUnsafe k) = k ∧
    label e (fromIntUnsafe k) = some e.members[k].1 ∧
    value b.conv e (fromIntUnsafe k) = (valuesAfter b none e.members)[k]? ∧
    (valuesAfter b none e.members)[k]?.isSome = true := by
  have hp : posn (fromIntUnsafe (k : Int)) = k := posn_from (by omega) (by omega)
  refine ⟨?_, hp, ?_, ?_, ?_⟩
  · have := constantsFrom_get e.typed e.members 0 hplain k hk
    simpa [constants] using this
  · unfold label labels
    rw [hp, index_nat, List.getElem?_map, List.getElem?_eq_getElem hk]
    rfl
  · unfold value values
    rw [hp, index_nat, valueInits_spec b e.members none hfew (fun p h => by cases h)]
    rfl
  · rw [List.getElem?_eq_getElem (by rw [valuesAfter_length]; exact hk)]
    rfl

/-- The values of `letter`. -/
example : valuesAfter int none letter.members = [10, 11, 120, 121] ∧
    value int.conv letter 3 = some 121 ∧ label letter 3 = some "d" := by decide +kernel

/-- C110, steps: for the enumerators of such an enumeration, `succ` is the next and `pred` the one
before, and they abort exactly at the last and the first; `fromInt` gives the enumerator at a place
and aborts for every other integer; `countof` is the number of enumerators. -/
theorem C110_steps (e : EDecl) (hplain : e.typed = true ∨ ∀ m ∈ e.members, m.2 = none)
    (hfew : e.members.length < 2147483648) (hsome : 0 < e.members.length) :
    (∀ k < e.members.length, succ e (fromIntUnsafe k) =
      if k + 1 < e.members.length then some (fromIntUnsafe (k + 1 : Nat)) else none) ∧
    (∀ k < e.members.length, pred e (fromIntUnsafe k) =
      if 0 < k then some (fromIntUnsafe (k - 1 : Nat)) else none) ∧
    (∀ i : Int, fromInt e i =
      if 0 ≤ i ∧ i < e.members.length then some (fromIntUnsafe i) else none) ∧
    countof e = e.members.length := by
  have hg : Good e := ⟨hplain, hfew, hsome⟩
  have hl := (lower_good hg).1
  have hu := (upper_good hg).1
  refine ⟨?_, ?_, ?_, ?_⟩
  · intro k hk
    have hp : posn (fromIntUnsafe (k : Int)) = k := posn_from (by omega) (by omega)
    unfold succ succUnsafe
    rw [hp, hu]
    by_cases h : k + 1 < e.members.length
    · rw [if_neg (by omega), if_pos h]; push_cast; rfl
    · rw [if_pos (by omega), if_neg h]
  · intro k hk
    have hp : posn (fromIntUnsafe (k : Int)) = k := posn_from (by omega) (by omega)
    unfold pred predUnsafe
    rw [hp, hl]
    by_cases h : 0 < k
    · rw [if_neg (by omega), if_pos h, show ((k : Int) - 1) = ((k - 1 : Nat) : Int) by omega]
    · rw [if_pos (by omega), if_neg h]
  · intro i
    unfold fromInt
    rw [hl, hu]
    by_cases h : 0 ≤ i ∧ i < e.members.length
    · rw [if_neg (by omega), if_pos h]
    · rw [if_pos (by omega), if_neg h]
  · unfold countof
    rw [hl, hu]
    omega

/-- The steps of `letter`. -/
example : succ letter 2 = some 3 ∧ succ letter 3 = none ∧ pred letter 0 = none ∧
    fromInt letter 4 = none ∧ countof letter = 4 := by decide +kernel

/-- C110, loops: a loop over such an enumeration ends, and its body runs once for each enumerator, in
their order; a loop down, in the reverse order. -/
theorem C110_loop (e : EDecl) (hplain : e.typed = true ∨ ∀ m ∈ e.members, m.2 = none)
    (hfew : e.members.length < 2147483648) (hsome : 0 < e.members.length) :
    loop e true (e.members.length + 1) =
      some ((List.range e.members.length).map fun k => fromIntUnsafe (k : Int)) ∧
    loop e false (e.members.length + 1) =
      some ((List.range e.members.length).reverse.map fun k => fromIntUnsafe (k : Int)) := by
  have hg : Good e := ⟨hplain, hfew, hsome⟩
  constructor
  · unfold loop
    simp only [if_true]
    rw [(lower_good hg).2]
    have := loop_up hg e.members.length 0 (by omega)
    rw [← List.range_eq_range'] at this
    exact this
  · unfold loop
    simp only [Bool.false_eq_true, if_false]
    rw [(upper_good hg).2]
    exact loop_down hg e.members.length (Nat.le_refl _)

/-- The loops over `letter`. -/
example : loop letter true 5 = some [0, 1, 2, 3] ∧ loop letter false 5 = some [3, 2, 1, 0] := by
  decide +kernel

/-- C110, values of inline enumerators: in a typed enumeration, the enumerators of an inline
enumeration have the values they have in their own, if that comes first or its first enumerator has a
value written.  Missing: the other places, for which it fails. -/
theorem C110_inline_value_partial (b : Base) (name : String) (src : EDecl) (pre post : List Item)
    (h : expandMembers pre = [] ∨ ∃ n v ms, src.members = (n, some v) :: ms)
    (hfew : (expand name true (pre ++ .inl src :: post)).members.length < 2147483648)
    (k : Nat) (hk : k < src.members.length) :
    let d := expand name true (pre ++ .inl src :: post)
    label d (fromIntUnsafe ((expandMembers pre).length + k : Nat)) = label src (fromIntUnsafe k) ∧
    value b.conv d (fromIntUnsafe ((expandMembers pre).length + k : Nat)) =
      value b.conv src (fromIntUnsafe k) := by
  intro d
  have hm : d.members = expandMembers pre ++ (src.members ++ expandMembers post) := by
    show expandMembers (pre ++ .inl src :: post) = _
    rw [expandMembers_append]; rfl
  have hlen : d.members.length < 2147483648 := hfew
  rw [hm] at hlen
  simp only [List.length_append] at hlen
  have hp : posn (fromIntUnsafe (((expandMembers pre).length + k : Nat) : Int)) =
      ((expandMembers pre).length + k : Nat) := posn_from (by omega) (by omega)
  have hp' : posn (fromIntUnsafe (k : Int)) = k := posn_from (by omega) (by omega)
  constructor
  · unfold label labels
    rw [hp, hp', index_nat, index_nat, List.getElem?_map, List.getElem?_map, hm,
      List.getElem?_append_right (by omega), show ∀ a b : Nat, a + b - a = b from fun a b => by omega,
      List.getElem?_append_left hk]
  · unfold value values
    rw [hp, hp', index_nat, index_nat,
      valueInits_spec b d.members none hfew (fun p h => by cases h),
      valueInits_spec b src.members none (by omega) (fun p h => by cases h), hm]
    obtain ⟨q, h1, hq⟩ := valuesAfter_append b (expandMembers pre) (src.members ++ expandMembers post)
      none
    obtain ⟨q', h2, _⟩ := valuesAfter_append b src.members (expandMembers post) q
    simp only [Option.map_none]
    rw [h1, List.getElem?_append_right (by rw [valuesAfter_length]; omega), valuesAfter_length,
      show ∀ a b : Nat, a + b - a = b from fun a b => by omega, h2,
      List.getElem?_append_left (by rw [valuesAfter_length]; exact hk)]
    rcases h with h | ⟨n, v, ms, h⟩
    · rw [hq h]
    · rw [h, valuesAfter_explicit b q none]

/-- `enum( int ) Greek { alpha, inline Letter, beta }`. -/
def greek : EDecl := expand "Greek" true [.own "alpha" none, .inl letter, .own "beta" none]

example : label greek 1 = some "a" ∧ value int.conv greek 4 = some 121 ∧
    value int.conv greek 5 = some 122 := by decide +kernel

/-- C110, conversion: where the source is inline in the target, at any depth, and on the way there
are only inline enumerations before it, and some enumerators before each enumeration but the last,
the conversion of every enumerator of the source is the enumerator of the target with the same name.
Missing: the other places, for which it fails. -/
theorem C110_convert_partial (src d : EDecl) (h : Way src d) (k : Nat) (hk : k < src.members.length) :
    ∃ j : Nat, convert src.name d k = some (j : Int) ∧
      d.members[j]?.map (·.1) = some src.members[k].1 := by
  obtain ⟨off, h1, h2⟩ := convert_way h
  refine ⟨off + k, ?_, ?_⟩
  · rw [h1 k]; congr 1; push_cast; omega
  · rw [h2 k hk, List.getElem?_eq_getElem hk]; rfl

/-- `enum( int ) A { a }`. -/
def eA : EDecl := expand "A" true [.own "a" none]
/-- `enum( int ) Z { z }`. -/
def eZ : EDecl := expand "Z" true [.own "z" none]
/-- `enum( int ) M { inline Z, inline A, m }`. -/
def eM : EDecl := expand "M" true [.inl eZ, .inl eA, .own "m" none]
/-- `enum( int ) N { inline Letter, inline M }`. -/
def eN : EDecl := expand "N" true [.inl letter, .inl eM]

/-- `A` is in `M`, which is in `N`. -/
example : Way eA eN :=
  .deeper (pre := [letter]) (mid := eM) (post := []) (by decide) (by decide +kernel) (by decide)
    (.child (pre := [eZ]) (by decide) (by decide +kernel))

example : convert "A" eN 0 = some 5 ∧ label eN 5 = some "a" := by decide +kernel

/-- C110 fails: enumerators that come before an inline enumeration are not counted in the conversion
to it. -/
theorem C110_own_first_violated : ∃ (name : String) (src : EDecl) (n : String),
    let d := expand name true [.own n none, .inl src]
    convert src.name d 0 = some 0 ∧ label src 0 = some "a" ∧ label d 0 ≠ some "a" ∧
      label d 1 = some "a" :=
  ⟨"B", eA, "x", by decide +kernel⟩

/-- C110 fails: in a conversion over two levels whose upper level has the middle one first, the place
in the middle one is not counted. -/
theorem C110_nested_violated : ∃ (name : String) (src mid : EDecl),
    let d := expand name true [.inl mid]
    convert src.name mid 0 = some 1 ∧ label mid 1 = label src 0 ∧
      convert src.name d 0 = some 0 ∧ label d 0 ≠ label src 0 :=
  ⟨"P", eA, eM, by decide +kernel⟩

/-- C110 fails: an inline enumerator without a value takes the value after whatever comes before it,
not the one of its own enumeration. -/
theorem C110_inline_value_violated : ∃ (name : String) (src : EDecl) (n : String) (v : Int),
    let d := expand name true [.own n (some v), .inl src]
    label d 1 = label src 0 ∧ label src 0 = some "a" ∧
      value int.conv src 0 = some 0 ∧ value int.conv d 1 = some 11 :=
  ⟨"B", eA, "x", 10, by decide +kernel⟩

/-- C110 fails: an opaque enumeration with a typed one inline takes its values for positions; its
first enumerator has position 10 and no label, and a loop over it does not visit the enumerators. -/
theorem C110_opaque_inline_violated : ∃ (name : String) (src : EDecl),
    let d := expand name false [.inl src]
    (constants d).head? = some 10 ∧ d.members.length = 4 ∧ label d (lowerBound d) = none ∧
      countof d ≠ 4 ∧ (loop d true 200).map List.length ≠ some 4 :=
  ⟨"Q", letter, by decide +kernel⟩

/-- C110 fails: `+=` does not abort at the end of an enumeration, unlike `succ`; the result is no
enumerator. -/
theorem C110_plus_violated (e : EDecl) (hplain : e.typed = true ∨ ∀ m ∈ e.members, m.2 = none)
    (hfew : e.members.length < 2147483647) (hsome : 0 < e.members.length) :
    succ e (upperBound e) = none ∧ label e (plusAssign (upperBound e) 1) = none := by
  have hg : Good e := ⟨hplain, by omega, hsome⟩
  have hu := (upper_good hg).1
  constructor
  · unfold succ; rw [if_pos (by omega)]
  · unfold plusAssign label
    rw [hu, posn_from (by omega) (by omega),
      show ((e.members.length : Int) - 1 + 1) = (e.members.length : Nat) by omega, index_nat]
    unfold labels
    simp

end Verif.Enum
