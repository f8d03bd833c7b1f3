import Verif.Proof.Config

/-!
# C107: a configuration file sets the variables of its entries
-/

namespace Verif.Config

/-! ## Reading the file -/

/-- C107: from a well-formed file (blank lines; comments; lines with a key, a value and anything
after them; the last line with or without newline) exactly the keys and values of its lines are read,
in the order of the lines. -/
theorem C107_read (ls : List Line) (last : Option Line) (hl : ∀ l ∈ ls, l.Ok)
    (hlast : ∀ l, last = some l → l.Ok) :
    readFile (fileText ls last) = .ok (fileSays ls last) := by
  have := readLoop_file hl hlast ((fileText ls last).length + 1) [] (by simp) (by simp)
  simpa [readFile] using this

/-- The lines of the example. -/
def sampleLines : List Line :=
  [.comment [] " sizes".toList, .blank " ".toList, .pair "\t".toList "a".toList "  ".toList "12".toList " # big".toList]

example : (∀ l ∈ sampleLines, l.Ok) ∧ readFile (fileText sampleLines (some (.pair [] "b".toList " ".toList "3".toList []))) =
    .ok [("a".toList, "12".toList), ("b".toList, "3".toList)] := by
  refine ⟨?_, by decide +kernel⟩
  intro l hl
  simp only [sampleLines, List.mem_cons, List.not_mem_nil, or_false] at hl
  rcases hl with rfl | rfl | rfl
  · refine ⟨(fun c h => by cases h), ?_, by decide⟩
    unfold OneLine; decide
  · show Gap _
    unfold Gap; decide
  · refine ⟨?_, ?_, by decide, ?_, by decide, ?_, ?_, ?_⟩
    · unfold Gap; decide
    · unfold Word; decide
    · unfold Gap; decide
    · unfold Word; decide
    · unfold OneLine; decide
    · intro c h; cases h; rfl

/-- C107: a table that starts with room for any number of pairs grows in time: pair number `n` is
written at index `n`, inside the room there is then. -/
theorem C107_table (start n : Nat) :
    ((Table.adds n (Table.new start)).add).2 = n ∧
    ((Table.adds n (Table.new start)).add).2 < ((Table.adds n (Table.new start)).add).1.maxSize := by
  have h := adds_ok n (t := Table.new start) (Nat.zero_le _)
  have h2 := add_ok h.1
  exact ⟨by rw [h2.2.2.2, h.2]; simp [Table.new], h2.1⟩

example : (Table.adds 5 (Table.new 0)).add = (⟨6, 8⟩, 5) := by decide

/-! ## The entries -/

theorem placed_keys (ps : List (Str × Str)) : (placed ps).map Prod.fst = ps.map Prod.fst := by
  unfold placed
  rw [List.map_map]
  have : (Prod.fst ∘ fun p : (Str × Str) × Nat => (p.1.1, (p.2, p.1.2))) = Prod.fst ∘ Prod.fst := rfl
  rw [this, ← List.map_map, List.zipIdx_map_fst]

/-- C107: if the keys of the file are distinct, the keys of the entries are distinct, and every value
is accepted by its entry, then each entry whose key is in the file has its variable set to what its
value parses to, wherever the line is; no other variable changes; and the function returns normally
when no entry is missing, and otherwise reports the number of entries that are missing.
Missing for the full property: a key that is in the file twice (`C107_repeated_key_violated`), and
two entries with one key (`C107_two_entries_violated`). -/
theorem C107_accepted_partial {V : Type} (es : List (Entry V)) (ls : List Line) (last : Option Line)
    (x : Nat → V) (hl : ∀ l ∈ ls, l.Ok) (hlast : ∀ l, last = some l → l.Ok)
    (hn : (es.map Entry.key).Nodup) (hp : ((fileSays ls last).map Prod.fst).Nodup)
    (ha : AllAccepted es (placed (fileSays ls last)) x) :
    ∃ r y fr, parseConfigFile es (fileText ls last) x = .ok (r, y, fr) ∧
      r = (if missingCount es (placed (fileSays ls last)) = 0 then .ok
        else .missing (missingCount es (placed (fileSays ls last)))) ∧
      (∀ (j : Nat) (e : Entry V) (v : CStr), es[j]? = some e →
        (e.key, v) ∈ placed (fileSays ls last) → y j = (e.parse v (x j)).2) ∧
      (∀ j : Nat, (∀ e : Entry V, es[j]? = some e → e.key ∉ (fileSays ls last).map Prod.fst) →
        y j = x j) := by
  obtain ⟨h1, h2, h3⟩ := go_accepted hn (by rw [placed_keys]; exact hp) ha
  rw [placed_keys] at h3
  refine ⟨_, _, List.range (fileSays ls last).length, ?_, h1, h2, h3⟩
  unfold parseConfigFile
  rw [C107_read ls last hl hlast]
  rfl

/-- C107: under the same conditions on the keys, the first value of the file that its entry does not
accept is the one that is reported: as a parse failure if it does not parse, otherwise as a
validation failure, with its key and value.  The variables of the lines before it have been set, its
own holds what the parser left there, and no other has changed.
Missing for the full property: as for `C107_accepted_partial`; and the variable of the value that is
refused is changed (`C107_refused_value_violated`). -/
theorem C107_refused_partial {V : Type} (es : List (Entry V)) (ls : List Line) (last : Option Line)
    (x : Nat → V) (ps qs : List (Str × CStr)) (k : Str) (v : CStr) (j : Nat) (e : Entry V)
    (hl : ∀ l ∈ ls, l.Ok) (hlast : ∀ l, last = some l → l.Ok)
    (hn : (es.map Entry.key).Nodup) (hp : ((fileSays ls last).map Prod.fst).Nodup)
    (hps : placed (fileSays ls last) = ps ++ (k, v) :: qs)
    (ha : AllAccepted es ps x) (hj : es[j]? = some e) (hk : e.key = k) (hb : ¬ e.Accepts v (x j)) :
    ∃ r y fr, parseConfigFile es (fileText ls last) x = .ok (r, y, fr) ∧
      r = (if (e.parse v (x j)).1 = true then .validationFailure k v.2 else .parseFailure k v.2) ∧
      y j = (e.parse v (x j)).2 ∧
      (∀ (i : Nat) (a : Entry V) (w : CStr), es[i]? = some a → (a.key, w) ∈ ps →
        y i = (a.parse w (x i)).2) ∧
      (∀ i : Nat, i ≠ j → (∀ a : Entry V, es[i]? = some a → a.key ∉ ps.map Prod.fst) →
        y i = x i) := by
  rw [← placed_keys, hps] at hp
  obtain ⟨h1, h2, h3, h4⟩ := go_refused hn hp ha hj hk hb
  rw [← hps] at h1 h2 h3 h4
  refine ⟨_, _, List.range (fileSays ls last).length, ?_, h1, h2, h3, h4⟩
  unfold parseConfigFile
  rw [C107_read ls last hl hlast]
  rfl

/-- C107: whatever the file and the entries, if no value is refused, then every variable that was
changed has a value its entry validates. -/
theorem C107_validated {V : Type} (es : List (Entry V)) (text : Str) (x y : Nat → V) (r : Res)
    (fr : List Nat) (h : parseConfigFile es text x = .ok (r, y, fr))
    (h1 : ∀ k w, r ≠ .parseFailure k w) (h2 : ∀ k w, r ≠ .validationFailure k w)
    (j : Nat) (e : Entry V) (hj : es[j]? = some e) : y j = x j ∨ e.validate (y j) = true := by
  unfold parseConfigFile at h
  cases hr : readFile text with
  | error e => rw [hr] at h; simp only at h; cases h
  | ok ps =>
    rw [hr] at h
    simp only [parseConfig, Except.ok.injEq, Prod.mk.injEq] at h
    obtain ⟨rfl, rfl, rfl⟩ := h
    exact go_validated _ 0 x (fun _ _ _ => Or.inl rfl) h1 h2 j e hj

/-! ## Examples -/

/-- A number in decimal. -/
def digits (s : Str) : Nat := s.foldl (fun n c => n * 10 + (c.toNat - 48)) 0

/-- An entry for a positive number in decimal. -/
def posEntry (key : Str) : Entry Nat :=
  ⟨key, fun v old => if v.2.all Char.isDigit then (true, digits v.2) else (false, old), fun n => n != 0⟩

/-- What is seen of the end: the result and the first two variables. -/
def seen (r : Except Exn (Res × (Nat → Nat) × List Nat)) : Option (Res × Nat × Nat) :=
  match r with
  | .error _ => none
  | .ok (r, y, _) => some (r, y 0, y 1)

/-- The entries `a` and `b`. -/
def ab : List (Entry Nat) := [posEntry ['a'], posEntry ['b']]

example : (ab.map Entry.key).Nodup ∧
    seen (parseConfigFile ab "b 3\nc 1\na 12".toList fun _ => 7) = some (.ok, 12, 3) ∧
    seen (parseConfigFile ab "# a 12\nb 3\n".toList fun _ => 7) = some (.missing 1, 7, 3) ∧
    seen (parseConfigFile ab "b 3\na x\n".toList fun _ => 7) =
      some (.parseFailure ['a'] ['x'], 7, 3) ∧
    seen (parseConfigFile ab "a 0\nb 3\n".toList fun _ => 7) =
      some (.validationFailure ['a'] ['0'], 0, 7) := by
  decide +kernel

example : AllAccepted ab (placed [(['b'], ['3']), (['c'], ['1']), (['a'], ['1', '2'])]) (fun _ => 7) := by
  intro p hp j e hj hk
  have hp : p = (['b'], (0, ['3'])) ∨ p = (['c'], (1, ['1'])) ∨ p = (['a'], (2, ['1', '2'])) := by
    simpa [placed] using hp
  match j, hj with
  | 0, hj =>
    cases hj
    rcases hp with rfl | rfl | rfl
    · cases hk
    · cases hk
    · exact ⟨by decide, by decide⟩
  | 1, hj =>
    cases hj
    rcases hp with rfl | rfl | rfl
    · exact ⟨by decide, by decide⟩
    · cases hk
    · cases hk

/-! ## Where it fails -/

/-- C107 fails: a key that is in the file twice is counted twice, and an entry whose key comes after
it in the file is not looked at: the function returns normally, and the variable of that entry, which
is in the file, has not been set. -/
theorem C107_repeated_key_violated :
    seen (parseConfigFile ab "a 1\na 2\nb 3\n".toList fun _ => 7) = some (.ok, 2, 7) := by
  decide +kernel

/-- C107 fails: an entry that is missing is not reported if another one is in the file twice. -/
theorem C107_missing_hidden_violated :
    seen (parseConfigFile ab "a 1\na 2\n".toList fun _ => 7) = some (.ok, 2, 7) := by
  decide +kernel

/-- C107 fails: which of two values for one key counts depends on the other entries: with one entry
it is the first, with two it is the second. -/
theorem C107_which_value_violated :
    seen (parseConfigFile [posEntry ['a']] "a 1\na 2\nb 3\n".toList fun _ => 7) = some (.ok, 1, 7) ∧
    seen (parseConfigFile ab "a 1\na 2\nb 3\n".toList fun _ => 7) = some (.ok, 2, 7) := by
  decide +kernel

/-- C107 fails: of two entries with one key, the second is never set, and counts as missing. -/
theorem C107_two_entries_violated :
    seen (parseConfigFile [posEntry ['a'], posEntry ['a']] "a 1\n".toList fun _ => 7) =
      some (.missing 1, 1, 7) := by
  decide +kernel

/-- C107 fails: a value that is refused by the validation is in the variable nevertheless. -/
theorem C107_refused_value_violated :
    seen (parseConfigFile ab "a 0\nb 3\n".toList fun _ => 7) =
      some (.validationFailure ['a'] ['0'], 0, 7) := by
  decide +kernel

/-- C107 fails: a comment whose first word has more than 63 characters, as a ruled line has, is not
skipped: reading the file raises `cstring_length`, whatever follows. -/
theorem C107_ruled_line_violated (rest : Str) :
    readFile (List.replicate 64 '#' ++ '\n' :: rest) = .error .cstringLength := by
  have h : readWord 64 (List.replicate 64 '#' ++ '\n' :: rest) = .error .cstringLength := by
    have e : List.replicate 64 '#' ++ '\n' :: rest = '#' :: (List.replicate 63 '#' ++ '\n' :: rest) := by
      rfl
    have ht : ((List.replicate 64 '#' ++ '\n' :: rest).takeWhile fun d => !isSpace d) =
        List.replicate 64 '#' :=
      takeWhile_all (fun c h => by rw [List.eq_of_mem_replicate h]; rfl)
        (fun c h => by cases h; rfl)
    unfold readWord
    rw [e, List.dropWhile_cons, if_neg (by decide)]
    simp only
    rw [← e, ht]
    simp
    rfl
  unfold readFile
  unfold readLoop
  rw [h]

/-- C107 fails: a line with a key and no value takes its value from the line after it, which is then
lost. -/
theorem C107_no_value_violated :
    readFile "a\nb 5\nc 6\n".toList = .ok [(['a'], ['b']), (['c'], ['6'])] := by
  decide +kernel

/-- C107 fails: a key without a value at the end of the file is dropped, and not reported. -/
theorem C107_key_at_end_violated :
    readFile "b 5\na\n".toList = .ok [(['b'], ['5'])] := by
  decide +kernel

/-- C107 fails: the block for each key and each value of the file is one byte shorter than what is
written to it. -/
theorem C107_string_block_violated (s : Str) : (stored s).1 < (stored s).2 := Nat.lt_succ_self _

/-- C107 fails: a variable of type `const char *` that is set from the file is left pointing to a
block that is freed when the function returns. -/
theorem C107_string_variable_violated (es : List (Entry Nat)) (ps : List (Str × Str)) (x : Nat → Nat)
    (hn : (es.map Entry.key).Nodup) (hp : (ps.map Prod.fst).Nodup)
    (ha : AllAccepted es (placed ps) x) (j : Nat) (key v : Str)
    (hj : es[j]? = some (stringEntry key)) (hm : (key, v) ∈ ps) :
    (parseConfig es ps x).2.1 j ∈ (parseConfig es ps x).2.2 := by
  obtain ⟨i, hi, he⟩ := List.getElem_of_mem hm
  have hpl : (key, (i, v)) ∈ placed ps := by
    refine List.mem_map.2 ⟨((key, v), i), ?_, rfl⟩
    rw [List.mem_zipIdx_iff_getElem?]
    simp [hi, he]
  have := (go_accepted hn (by rw [placed_keys]; exact hp) ha).2.1 j _ (i, v) hj hpl
  simp only [parseConfig, this, stringEntry]
  exact List.mem_range.2 hi

example : ∃ y fr, parseConfigFile [stringEntry ['a'], stringEntry ['b']] "b x\na yz\n".toList
      (fun _ => 99) = .ok (.ok, y, fr) ∧ y 0 = 1 ∧ y 1 = 0 ∧ fr = [0, 1] :=
  ⟨_, _, by rfl, by decide +kernel, by decide +kernel, by decide +kernel⟩

end Verif.Config
