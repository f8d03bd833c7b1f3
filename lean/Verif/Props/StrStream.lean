import Verif.Proof.StrStream

/-!
# C111: string streams
-/

namespace Verif.StrStream

/-! ## Output -/

/-- What holds after a history. -/
theorem orun (mem : List Char) (size : Nat) (hs : size ≤ mem.length) (as : List OAct) :
    ∀ (o : Os) (st : Option (List Char × List Char)), OFrame mem size o → o.size = size →
    (match st with
      | none => o.dead = true
      | some (text, out) => OInv mem size o text out) →
    OFrame mem size (as.foldl ostep o) ∧
    (match as.foldl (expect size) st with
      | none => (as.foldl ostep o).dead = true
      | some (text, out) => OInv mem size (as.foldl ostep o) text out) := by
  induction as with
  | nil => intro o st hf _ h; exact ⟨hf, h⟩
  | cons a as ih =>
    intro o st hf ho h
    rw [List.foldl_cons, List.foldl_cons]
    subst ho
    obtain ⟨hf', ho'⟩ := ostep_frame hs hf a
    refine ih _ _ hf' ho' ?_
    cases st with
    | none =>
      simp only [expect]
      unfold ostep
      rw [if_pos h]
      exact h
    | some st =>
      obtain ⟨text, out⟩ := st
      have := ostep_alive (Nat.le_trans hs (Nat.le_of_eq hf.len.symm)) h a
      cases he : expect o.size (some (text, out)) a with
      | none => rw [he] at this; exact this.1
      | some st => rw [he] at this; exact this

theorem orun_init (mem : List Char) (size : Nat) (hs : size ≤ mem.length) (as : List OAct) :
    OFrame mem size (as.foldl ostep (.init mem size)) ∧
    (match as.foldl (expect size) (some ([], [])) with
      | none => (as.foldl ostep (.init mem size)).dead = true
      | some (text, out) => OInv mem size (as.foldl ostep (.init mem size)) text out) :=
  orun mem size hs as (.init mem size) (some ([], [])) ⟨rfl, fun _ _ => rfl⟩ rfl
    ⟨rfl, rfl, rfl, Or.inl rfl, (fun i hi => absurd hi (Nat.not_lt_zero i)), rfl⟩

/-- C111, output: whatever is printed, written and cleared, the program aborts exactly when the text
that is not written yet does not fit the buffer with its null character; until then the start of the
buffer is that text, and the file has the texts that were written, whole and in order. -/
theorem C111_output (mem : List Char) (size : Nat) (hs : size ≤ mem.length) (as : List OAct) :
    match as.foldl (expect size) (some ([], [])) with
    | none => (as.foldl ostep (.init mem size)).dead = true
    | some (text, out) => (as.foldl ostep (.init mem size)).dead = false ∧
        (as.foldl ostep (.init mem size)).mem.take text.length = text ∧
        (as.foldl ostep (.init mem size)).out = out := by
  have := (orun_init mem size hs as).2
  split at this
  · exact this
  · exact ⟨this.alive, take_text this.mem, this.file⟩

/-- Two texts, of which the first is written, and one that does not fit. -/
example : [OAct.fmt "ab".toList, .write, .fmt "cd".toList].foldl (expect 4) (some ([], [])) =
      some ("cd".toList, "ab".toList) ∧
    [OAct.fmt "ab".toList, .fmt "cd".toList].foldl (expect 4) (some ([], [])) = none ∧
    ([OAct.fmt "ab".toList, .write, .fmt "cd".toList].foldl ostep (.init "012345".toList 4)).mem =
      "cd\x00345".toList := by decide +kernel

/-- C111, bounds: whatever is printed, and also when the program aborts, nothing outside the buffer is
changed. -/
theorem C111_bounds (mem : List Char) (size : Nat) (hs : size ≤ mem.length) (as : List OAct) :
    (as.foldl ostep (.init mem size)).mem.length = mem.length ∧
    (as.foldl ostep (.init mem size)).mem.drop size = mem.drop size := by
  have h := (orun_init mem size hs as).1
  refine ⟨h.len, ?_⟩
  apply List.ext_getElem?
  intro i
  rw [List.getElem?_drop, List.getElem?_drop]
  exact h.past _ (by omega)

/-- A text that does not fit. -/
example : [OAct.fmt "abcdefgh".toList].foldl ostep (.init "012345".toList 4) =
    ⟨"abc\x0045".toList, 4, 8, [], true⟩ := by decide +kernel

/-- C111, termination: after something has been printed without `abort`, the buffer is a C string: the
text is followed by a null character. -/
theorem C111_terminated (mem : List Char) (size : Nat) (hs : size ≤ mem.length) (as : List OAct)
    (s text out : List Char)
    (h : (as ++ [OAct.fmt s]).foldl (expect size) (some ([], [])) = some (text, out)) :
    ((as ++ [OAct.fmt s]).foldl ostep (.init mem size)).mem.take (text.length + 1) = text ++ ['\x00'] := by
  have hfin := (orun_init mem size hs (as ++ [OAct.fmt s])).2
  obtain ⟨hf, hprev⟩ := orun_init mem size hs as
  rw [h] at hfin
  simp only at hfin
  rw [List.foldl_append] at h hfin ⊢
  simp only [List.foldl_cons, List.foldl_nil] at h hfin ⊢
  generalize as.foldl (expect size) (some ([], [])) = st at *
  generalize as.foldl ostep (.init mem size) = o at *
  cases st with
  | none => cases h
  | some st =>
    obtain ⟨t, u⟩ := st
    simp only at hprev
    unfold expect at h
    simp only at h
    split at h
    · rename_i hfit
      simp only [Option.some.injEq, Prod.mk.injEq] at h
      obtain ⟨rfl, rfl⟩ := h
      simp only [List.length_append] at hfit
      have hm := hfin.mem
      have hl : size ≤ o.mem.length := by rw [hf.len]; exact hs
      have hnul := (vsn_text (mem := o.mem) (off := o.cursor) (s := s) hl
        (by rw [hprev.cursor]; omega)).2
      have hmem : (ostep o (.fmt s)).mem = vsnprintf o.mem o.cursor (o.size - o.cursor) s := by
        unfold ostep
        simp only [hprev.alive, Bool.false_eq_true, if_false]
      rw [List.take_succ, take_text hm, hmem, List.length_append, ← hprev.cursor, hprev.room, hnul]
      rfl
    · cases h

/-- A text after another one was cleared. -/
example : ([OAct.fmt "xyz".toList, .clear] ++ [OAct.fmt "a".toList]).foldl (expect 4) (some ([], [])) =
      some ("a".toList, []) ∧
    (([OAct.fmt "xyz".toList, .clear] ++ [OAct.fmt "a".toList]).foldl ostep
      (.init "012345".toList 4)).mem = "a\x00z\x0045".toList := by decide +kernel

/-- C111 fails: after `clear` or `write` the buffer still has the text as a C string, although the
stream is empty. -/
theorem C111_cleared_violated :
    ∀ a ∈ [OAct.clear, .write], ∃ o, o = [OAct.fmt "ab".toList, a].foldl ostep (.init "012345".toList 4) ∧
      o.cursor = 0 ∧ o.mem.take 3 = "ab\x00".toList := by
  intro a ha
  refine ⟨_, rfl, ?_⟩
  rcases List.mem_cons.1 ha with rfl | ha
  · decide +kernel
  · rcases List.mem_cons.1 ha with rfl | ha
    · decide +kernel
    · cases ha

/-! ## Input -/

/-- C111, input: from a buffer of words with one space or tab after each, the last of which may have
none, as many reads as there are words read the words, in their order.  Missing: other white space,
for which it fails, and single characters. -/
theorem C111_words_partial (ws : List (List Char × List Char)) (last : List Char)
    (hw : ∀ p ∈ ws, IsWord p.1 ∧ (p.2 = [' '] ∨ p.2 = ['\t'])) (hl : IsWord last) :
    readWords (ws.length + 1) (render ws ++ last) = some (ws.map (·.1) ++ [last], []) := by
  induction ws with
  | nil =>
    simp only [render, List.nil_append, List.length_nil, readWords, readWord, scan_last hl, skip_last hl]
    rfl
  | cons p ws ih =>
    obtain ⟨w, sep⟩ := p
    obtain ⟨h1, h2⟩ := hw (w, sep) (by simp)
    obtain ⟨d, rfl, hd⟩ : ∃ d, sep = [d] ∧ (d = ' ' ∨ d = '\t') := by
      rcases h2 with h2 | h2
      · exact ⟨' ', h2, Or.inl rfl⟩
      · exact ⟨'\t', h2, Or.inr rfl⟩
    have hr : render ((w, [d]) :: ws) ++ last = w ++ d :: (render ws ++ last) := by
      simp [render]
    rw [hr, List.length_cons]
    unfold readWords readWord
    rw [scan_word h1 hd, skip_word h1 hd]
    simp only
    rw [ih fun p hp => hw p (by simp [hp])]
    rfl

/-- Three words. -/
example : render [("12".toList, [' ']), ("ab".toList, ['\t'])] ++ "3".toList = "12 ab\t3".toList ∧
    readWords 3 "12 ab\t3".toList = some (["12".toList, "ab".toList, "3".toList], []) := by
  decide +kernel

/-- C111 fails: two spaces between words, and a word is read twice. -/
theorem C111_two_spaces_violated :
    readWords 3 "1  2 3".toList = some (["1".toList, "2".toList, "2".toList], "3".toList) := by
  decide +kernel

/-- C111 fails: a space before the first word, and it is read twice. -/
theorem C111_leading_space_violated :
    readWords 2 " 1 2".toList = some (["1".toList, "1".toList], "2".toList) := by decide +kernel

/-- C111 fails: a newline between words, and the word after it is not read. -/
theorem C111_newline_violated :
    readWords 2 "1\n2 3".toList = some (["1".toList, "3".toList], []) := by decide +kernel

/-- C111 fails: reading a character takes all the characters up to the next space or tab, for every
word of more than one character. -/
theorem C111_char_violated (c : Char) (w : List Char) (h : IsWord (c :: w)) :
    readChar (c :: w) = some (c, []) := by
  unfold readChar
  simp only [skip_last h]

/-- Such a word. -/
example : IsWord "abc".toList ∧ readChar "abc".toList = some ('a', []) ∧
    readChar "abc d".toList = some ('a', ['d']) := by
  unfold IsWord
  decide +kernel

/-- C111 fails: at the end of the buffer, and after white space only, a read aborts the program; no
exception says that the input has ended. -/
theorem C111_end_violated (s : List Char) (h : ∀ c ∈ s, isSpace c = true) : readWord s = none := by
  have : s.dropWhile isSpace = [] := by
    have := List.dropWhile_append_of_pos (p := isSpace) (l₁ := s) (l₂ := []) h
    simpa using this
  unfold readWord scanWord
  rw [this]

end Verif.StrStream
