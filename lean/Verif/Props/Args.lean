import Verif.Proof.Args

/-!
# C108: command-line options set their variables
-/

namespace Verif.Args

/-! ## Values -/

/-- C108: a non-empty argument is accepted for an `int` exactly if it is white space, a sign or none,
and a decimal, octal or hexadecimal number, and the number fits; the variable is then that number.
Missing for the full property: the empty argument, which is accepted (`C108_empty_number_violated`). -/
theorem C108_int_partial (arg : Str) (n : Int) (hne : arg ≠ []) :
    parseInt arg = some n ↔ SignedNumber arg n ∧ -2147483648 ≤ n ∧ n ≤ 2147483647 :=
  parseInt_iff hne

example : parseInt " -0x10".toList = some (-16) ∧ parseInt "2147483648".toList = none ∧
    parseInt "017".toList = some 15 ∧ parseInt "1a".toList = none := by decide +kernel

/-- C108: an argument is accepted for an unsigned type exactly if it is white space and a decimal,
octal or hexadecimal number without sign, and the number is not larger than the largest of the type;
the variable is then that number. -/
theorem C108_unsigned (maxVal : Nat) (hm : maxVal ≤ 2 ^ 64 - 1) (arg : Str) (n : Nat) :
    parseUnsigned maxVal arg = some n ↔
      (∃ sp s, arg = sp ++ s ∧ (∀ c ∈ sp, c ∈ whites) ∧ Number s n) ∧ n ≤ maxVal :=
  parseUnsigned_iff (by omega)

example : parseUnsigned 4294967295 "0xfF".toList = some 255 ∧
    parseUnsigned 4294967295 "4294967296".toList = none ∧ parseUnsigned 4294967295 "-1".toList = none ∧
    parseUnsigned 4294967295 [] = none := by decide +kernel

/-- C108: the words for truth values. -/
theorem C108_bool (arg : Str) :
    (parseYesno arg = some true ↔ arg ∈ ["yes".toList, "Y".toList, "y".toList]) ∧
    (parseYesno arg = some false ↔ arg ∈ ["no".toList, "N".toList, "n".toList]) ∧
    (parseTruefalse arg = some true ↔ arg = "true".toList) ∧
    (parseTruefalse arg = some false ↔ arg = "false".toList) := by
  have e1 : "Y".toList = ['Y'] := by decide
  have e2 : "y".toList = ['y'] := by decide
  have e3 : "N".toList = ['N'] := by decide
  have e4 : "n".toList = ['n'] := by decide
  simp only [e1, e2, e3, e4, List.mem_cons, List.not_mem_nil, or_false]
  refine ⟨⟨?_, ?_⟩, ⟨?_, ?_⟩, ⟨?_, ?_⟩, ⟨?_, ?_⟩⟩
  · intro h; unfold parseYesno at h; split_ifs at h <;> simp_all
  · rintro (rfl | rfl | rfl) <;> decide
  · intro h; unfold parseYesno at h; split_ifs at h <;> simp_all
  · rintro (rfl | rfl | rfl) <;> decide
  · intro h; unfold parseTruefalse at h; split_ifs at h <;> simp_all
  · rintro rfl; decide
  · intro h; unfold parseTruefalse at h; split_ifs at h <;> simp_all
  · rintro rfl; decide

/-! ## Options -/

variable {V : Type}

theorem check_ok {os : List (Opt V)} (h : OptsOk os) : checkArgs os = true := by
  unfold checkArgs
  simp [h.shorts, h.longs]

/-- C108: each use of an option on the command line, by its short or its long name, with its argument
in the same word (after `=` or not for a short name) or in the next, sets the variable of that option and no other, in the order of the
command line; the operands among them, and all words after `--`, are left, in order.  If an argument
cannot be parsed the program ends with code 1.
Missing for the full property: options without long name, or with the letter `h` or `?`
(`C108_short_only_violated`, `C108_letter_h_violated`), and arguments that start with `=`
(`C108_equals_violated`). -/
theorem C108_args_partial (os : List (Opt V)) (hok : OptsOk os) (items : List Item)
    (hi : ∀ it ∈ items, it.Ok os) (rest : Option (List Str)) (x : Nat → V) :
    parseArgs os (items.flatMap (Item.words os) ++ (rest.map (['-', '-'] :: ·)).getD []) x =
      match effect os items x with
      | some y => .returned y (operands items ++ rest.getD [])
      | none => .exited 1 := by
  unfold parseArgs
  rw [if_neg (by rw [check_ok hok]; simp)]
  simp only
  obtain ⟨f', evs, hf, h1, h2⟩ := items_run hok items hi ((rest.map (['-', '-'] :: ·)).getD [])
    ((items.flatMap (Item.words os) ++ (rest.map (['-', '-'] :: ·)).getD []).length + 1)
    (Nat.lt_succ_self _)
  obtain ⟨g, rfl⟩ : ∃ g, f' = g + 1 := ⟨f' - 1, by omega⟩
  have ht : getopt (shortTable os) (longTable os (vals (maxShort os) os)) (g + 1)
      ((rest.map (['-', '-'] :: ·)).getD []) = ([], rest.getD []) := by
    cases rest <;> rfl
  rw [h1, h2, ht]
  cases effect os items x <;> rfl

/-- C108: `-h` or `--help` after correct options ends the program with code 0, whatever follows. -/
theorem C108_help (os : List (Opt V)) (hok : OptsOk os) (items : List Item)
    (hi : ∀ it ∈ items, it.Ok os) (h : Str) (hh : h = "-h".toList ∨ h = "--help".toList)
    (ws : List Str) (x : Nat → V) (heff : effect os items x ≠ none) :
    parseArgs os (items.flatMap (Item.words os) ++ h :: ws) x = .exited 0 := by
  unfold parseArgs
  rw [if_neg (by rw [check_ok hok]; simp)]
  simp only
  obtain ⟨f', evs, hf, h1, h2⟩ := items_run hok items hi (h :: ws)
    ((items.flatMap (Item.words os) ++ h :: ws).length + 1) (Nat.lt_succ_self _)
  obtain ⟨g, rfl⟩ : ∃ g, f' = g + 1 := ⟨f' - 1, by omega⟩
  have ht : ∃ es left, getopt (shortTable os) (longTable os (vals (maxShort os) os)) (g + 1)
      (h :: ws) = ((104, none) :: es, left) := by
    rcases hh with rfl | rfl
    · have hl : (shortTable os).lookup 'h' = some false := by
        unfold shortTable
        rw [lookup_absent fun hm => hok.letters _ hm (by decide)]
        rfl
      have e : "-h".toList = ['-', 'h'] := by decide
      rw [e, getopt_letters (by decide)]
      have hlet : letters (shortTable os) ws.head? ['h'] = ([(104, none)], false) := by
        simp [letters, hl]
      rw [hlet]
      exact ⟨_, _, rfl⟩
    · have hl : (longTable os (vals (maxShort os) os)).find? (fun e => e.1 = "help".toList) =
          some ("help".toList, false, 104) := by
        unfold longTable
        rw [find_absent fun hm => (hok.names _ hm).2.1 rfl]
        simp
      have e : "--help".toList = '-' :: '-' :: "help".toList := by decide
      rw [e, getopt_long (by decide)]
      have hlw : longWord (longTable os (vals (maxShort os) os)) ws.head? "help".toList =
          ((104, none), false) := by
        unfold longWord
        have e1 : ("help".toList.takeWhile fun c => c != '=') = "help".toList := by decide
        have e2 : ("help".toList.dropWhile fun c => c != '=') = [] := by decide
        simp only [e1, e2, hl]
        rfl
      rw [hlw]
      exact ⟨_, _, rfl⟩
  obtain ⟨es, left, ht⟩ := ht
  rw [h1, ht]
  simp only
  rw [h2]
  cases he : effect os items x with
  | none => exact absurd he heff
  | some y => rfl

/-- C108: a letter that is no option, after correct options, ends the program with code 1. -/
theorem C108_unknown (os : List (Opt V)) (hok : OptsOk os) (items : List Item)
    (hi : ∀ it ∈ items, it.Ok os) (c : Char) (cs : Str) (hc : c ≠ '-') (hc' : c ≠ 'h')
    (ha : ∀ o ∈ os, o.short ≠ some c) (ws : List Str) (x : Nat → V) :
    parseArgs os (items.flatMap (Item.words os) ++ ('-' :: c :: cs) :: ws) x = .exited 1 := by
  unfold parseArgs
  rw [if_neg (by rw [check_ok hok]; simp)]
  simp only
  obtain ⟨f', evs, hf, h1, h2⟩ := items_run hok items hi (('-' :: c :: cs) :: ws)
    ((items.flatMap (Item.words os) ++ ('-' :: c :: cs) :: ws).length + 1) (Nat.lt_succ_self _)
  obtain ⟨g, rfl⟩ : ∃ g, f' = g + 1 := ⟨f' - 1, by omega⟩
  have hl : (shortTable os).lookup c = none := by
    unfold shortTable
    rw [lookup_absent fun hm => by
      obtain ⟨o, ho, h⟩ := List.mem_filterMap.1 hm
      exact ha o ho h]
    have : (c == 'h') = false := by simpa using hc'
    simp [List.lookup_cons, this]
  have hlet : letters (shortTable os) ws.head? (c :: cs) = ([(63, none)], false) := by
    simp [letters, hl]
  rw [h1, getopt_letters hc, hlet]
  simp only
  rw [h2]
  cases he : effect os items x with
  | none => rfl
  | some y => rfl

/-- C108: two options with the same short name, or the same long name, are refused. -/
theorem C108_duplicates (os : List (Opt V)) (i j : Nat) (a b : Opt V) (hij : i ≠ j)
    (hi : os[i]? = some a) (hj : os[j]? = some b)
    (h : (a.short ≠ none ∧ a.short = b.short) ∨ (a.long ≠ none ∧ a.long = b.long))
    (ws : List Str) (x : Nat → V) : parseArgs os ws x = .aborted := by
  have key : ∀ (f : Opt V → Option Char) (g : Opt V → Option Str),
      ((f a ≠ none ∧ f a = f b) → ¬ (os.filterMap f).Nodup) ∧
      ((g a ≠ none ∧ g a = g b) → ¬ (os.filterMap g).Nodup) := by
    have gen : ∀ {β : Type} (f : Opt V → Option β), f a ≠ none ∧ f a = f b →
        ¬ (os.filterMap f).Nodup := by
      rintro β f ⟨h1, h2⟩ hn
      obtain ⟨c, hc⟩ := Option.ne_none_iff_exists'.1 h1
      have : ∀ {os : List (Opt V)} {i j : Nat}, i < j → os[i]? = some a ∨ os[i]? = some b →
          os[j]? = some a ∨ os[j]? = some b → ¬ (os.filterMap f).Nodup := by
        have hf : ∀ o, o = a ∨ o = b → f o = some c := by
          rintro o (rfl | rfl)
          · exact hc
          · rw [← h2]; exact hc
        intro os
        induction os with
        | nil => intro i j _ h; simp at h
        | cons o os ih =>
          intro i j hlt h1 h2 hn
          obtain ⟨j, rfl⟩ : ∃ k, j = k + 1 := ⟨j - 1, by omega⟩
          simp only [List.getElem?_cons_succ] at h2
          cases i with
          | zero =>
            simp only [List.getElem?_cons_zero, Option.some.injEq] at h1
            rw [List.filterMap_cons_some (hf o h1), List.nodup_cons] at hn
            refine hn.1 ?_
            rcases h2 with h2 | h2
            · exact List.mem_filterMap.2 ⟨a, List.mem_of_getElem? h2, hc⟩
            · exact List.mem_filterMap.2 ⟨b, List.mem_of_getElem? h2, hf b (Or.inr rfl)⟩
          | succ i =>
            simp only [List.getElem?_cons_succ] at h1
            refine ih (by omega) h1 h2 ?_
            cases ho : f o with
            | none => rwa [List.filterMap_cons_none ho] at hn
            | some d => rw [List.filterMap_cons_some ho, List.nodup_cons] at hn; exact hn.2
      rcases Nat.lt_or_gt_of_ne hij with h | h
      · exact this h (Or.inl hi) (Or.inr hj) hn
      · exact this h (Or.inr hj) (Or.inl hi) hn
    exact fun f g => ⟨gen f, gen g⟩
  unfold parseArgs
  rw [if_pos]
  unfold checkArgs
  rcases h with h | h
  · simp [(key Opt.short Opt.long).1 h]
  · simp [(key Opt.short Opt.long).2 h]

/-! ## The help text -/

/-- C108: on a terminal with columns, the help text of an option is printed whole, in lines of at
most the width there is, broken at its newlines and elsewhere only where a line is full. -/
theorem C108_help_text (cols width : Nat) (hc : 0 < cols) (s : Str) (hne : s ≠ [])
    (hs : s.length < 2147483647) :
    ∃ ps, wrap (helpWidth cols width) s.length s = some ps ∧ Pieces (helpWidth cols width) ps s := by
  refine wrap_pieces ?_ _ s hne (Nat.le_refl _) hs
  unfold helpWidth
  split <;> omega

example : wrap (helpWidth 18 3) 20 "ab cdef\ng\n".toList =
    some ["ab c".toList, "def".toList, "g".toList] := by decide +kernel

/-! ## Examples -/

/-- An option with a string as its variable. -/
def strOpt (c : Option Char) (n : Option Str) : Opt Str := ⟨c, n, false, fun a _ => (true, a)⟩
/-- A flag: its variable becomes `on`. -/
def flagOpt (c : Option Char) (n : Option Str) : Opt Str := ⟨c, n, true, fun _ _ => (true, "on".toList)⟩

/-- The options of the example: `-o`/`--out`, `--log`, `-v`/`--verbose`. -/
def sample : List (Opt Str) :=
  [strOpt (some 'o') (some "out".toList), strOpt none (some "log".toList),
    flagOpt (some 'v') (some "verbose".toList)]

/-- What is seen of the end: the exit code, or the first three variables and the operands. -/
def seen : Outcome Str → Option (Nat ⊕ (List Str × List Str))
  | .returned y left => some (.inr ([y 0, y 1, y 2], left))
  | .exited c => some (.inl c)
  | .aborted => none

theorem sample_ok : OptsOk sample where
  named := by decide
  shorts := by decide
  longs := by decide
  letters := by decide
  names := by decide

example : (∀ it ∈ [Item.short 0 "f".toList true, .operand "a".toList, .short 2 [] false,
      .long 1 "g".toList false], it.Ok sample) ∧
    seen (parseArgs sample ["-of".toList, "a".toList, "-v".toList, "--log".toList, "g".toList,
      "--".toList, "-v".toList] fun _ => []) =
      some (.inr (["f".toList, "g".toList, "on".toList], ["a".toList, "-v".toList])) ∧
    seen (parseArgs sample ["-o=f".toList, "--log=g".toList] fun _ => []) =
      some (.inr (["f".toList, "g".toList, []], [])) ∧
    seen (parseArgs sample ["-o=f".toList, "--log=g".toList, "--help".toList] fun _ => []) =
      some (.inl 0) ∧
    seen (parseArgs sample ["-o=f".toList, "-x".toList] fun _ => []) = some (.inl 1) := by
  refine ⟨?_, by decide +kernel, by decide +kernel, by decide +kernel, by decide +kernel⟩
  intro it hit
  simp only [List.mem_cons, List.not_mem_nil, or_false] at hit
  rcases hit with rfl | rfl | rfl | rfl
  · exact ⟨_, rfl, by decide, by decide, by decide, by decide⟩
  · exact Or.inr (by decide)
  · exact ⟨_, rfl, by decide, by decide, by decide, by decide⟩
  · exact ⟨_, rfl, by decide, by decide, by decide⟩

/-! ## Where it fails -/

/-- C108 fails: the empty argument, as in `--count=`, is accepted for an `int`, as 0. -/
theorem C108_empty_number_violated : parseInt [] = some 0 := by decide +kernel

/-- C108 fails: an argument that starts with `=` loses it: `--out==x`, and `--out =x`, set the
variable to `x`, as `--out=x` does. -/
theorem C108_equals_violated :
    seen (parseArgs sample ["--out==x".toList] fun _ => []) =
      some (.inr (["x".toList, [], []], [])) ∧
    seen (parseArgs sample ["--out".toList, "=x".toList] fun _ => []) =
      some (.inr (["x".toList, [], []], [])) := by
  decide +kernel

/-- C108 fails: an option with the letter `h` is accepted, and its use prints the usage and ends the
program: so does its use by the long name. -/
theorem C108_letter_h_violated :
    seen (parseArgs [strOpt (some 'h') (some "host".toList)] ["-hx".toList] fun _ => []) =
      some (.inl 0) ∧
    seen (parseArgs [strOpt (some 'h') (some "host".toList)] ["--host=x".toList] fun _ => []) =
      some (.inl 0) := by
  decide +kernel

/-- C108 fails: an option that has a short name only (a null long name, which `parse_args` and the
usage allow for) is not found when it is used: the program is aborted. -/
theorem C108_short_only_violated :
    seen (parseArgs [flagOpt (some 'v') none] ["-v".toList] fun _ => []) = none := by
  decide +kernel

/-- C108 fails: with the empty name for no long name, two options that have a short name only are
refused as having the same long name. -/
theorem C108_empty_names_violated :
    seen (parseArgs [flagOpt (some 'v') (some []), flagOpt (some 'w') (some [])] [] fun _ => []) =
      none := by
  decide +kernel

/-- C108 fails: on a terminal that reports 0 columns, the help text of an option never ends. -/
theorem C108_no_columns_violated (width : Nat) (s : Str) (hne : s ≠ []) (hh : s.head? ≠ some '\n') :
    ∀ f, wrap (helpWidth 0 width) f s = none := by
  have : helpWidth 0 width = 0 := by simp [helpWidth]
  rw [this]
  exact wrap_never hne hh

end Verif.Args
