import Verif.Proof.StrInput
import Mathlib.Tactic.Ring

/-!
# C112: reading strings, enumerators and large integers
-/

namespace Verif.StrInput

/-! ## Bounds -/

/-- C112, bounds: whatever the input, a read into an array changes nothing after the array, for every
manipulator, with a width or a read width that the manipulator accepts, also when an exception is
raised; and with `ignore` it changes nothing. -/
theorem C112_bounds (n : Nat) (hn : 2 ≤ n) (mem : List Char) (hm : n ≤ mem.length) (k : Kind)
    (ignore : Bool) (st : In) (f : Fmt)
    (hf : f = { wdi n k with ignore := ignore } ∨
      ∃ r, r < n ∧ f = { wdi2 r k with ignore := ignore }) (ld rd : Char) :
    ∀ res ∈ [readStr f mem st, readQuote ld rd f mem st],
      res.mem.length = mem.length ∧ res.mem.drop n = mem.drop n ∧ (ignore = true → res.mem = mem) := by
  have fin : ∀ m, Wrote n ignore mem m →
      m.length = mem.length ∧ m.drop n = mem.drop n ∧ (ignore = true → m = mem) := by
    rintro m (rfl | ⟨h1, x, hx, rfl⟩)
    · exact ⟨rfl, rfl, fun _ => rfl⟩
    · obtain ⟨h2, h3⟩ := store_bounds hx hm
      exact ⟨h2, h3, fun h => by rw [h1] at h; cases h⟩
  have hig : f.ignore = ignore := by rcases hf with rfl | ⟨r, _, rfl⟩ <;> rfl
  have hwd : ∀ k', ∀ w, ({ f with kind := k' } : Fmt).wd = some w →
      (if ({ f with kind := k' } : Fmt).rwd = true then w else w - 1) + 1 ≤ n := by
    intro k' w h
    rcases hf with rfl | ⟨r, hr, rfl⟩
    · simp only [wdi, Option.some.injEq] at h
      simp only [wdi, Bool.false_eq_true, if_false]
      omega
    · simp only [wdi2, Option.some.injEq] at h
      simp only [wdi2, if_true]
      omega
  have hno : ∀ k', ({ f with kind := k' } : Fmt).wd = none →
      ({ f with kind := k' } : Fmt).ignore = true := by
    intro k' h
    rcases hf with rfl | ⟨r, hr, rfl⟩ <;> cases h
  have hall : ∀ k' st', Wrote n ignore mem (readStr { f with kind := k' } mem st').mem := by
    intro k' st'
    rw [← hig]
    exact readStr_wrote { f with kind := k' } n mem st' (hwd k') (hno k')
  intro res hres
  apply fin
  simp only [List.mem_cons, List.not_mem_nil, or_false] at hres
  rcases hres with rfl | rfl
  · exact hall f.kind st
  · unfold readQuote
    split
    · exact Or.inl rfl
    · split
      · exact Or.inl rfl
      · split
        · exact hall _ _
        · rw [hig]
          exact wrote_if (by simp; omega)

/-- A line that is too long. -/
example : readStr (wdi 4 (.line '\n')) "0123456".toList ⟨"abcdef\n".toList, false⟩ =
    ⟨"abc\x00456".toList, ⟨"def\n".toList, false⟩, some .cstringLength⟩ := by decide +kernel

/-! ## Words, lines, sets and quoted strings -/

/-- C112, words: `wdi( n, s )` skips white space and reads the word up to the next white space or the
end.  If it fits the array with its null character it is stored whole; if not, as much as fits is, and
the exception is raised; the rest is still in the input. -/
theorem C112_word (n : Nat) (hn : 2 ≤ n) (mem sp w rest : List Char) (hsp : ∀ c ∈ sp, White c)
    (hw : w ≠ [] ∧ ∀ c ∈ w, ¬ White c) (hr : Ends White rest) :
    readStr (wdi n .word) mem ⟨sp ++ w ++ rest, false⟩ = gives n mem w rest rest := by
  have hr' : Ends (fun c => (!isSpace c) = false) rest := by
    rcases hr with h | ⟨c, s, h1, h2⟩
    · exact Or.inl h
    · exact Or.inr ⟨c, s, h1, by simp [(isSpace_iff c).2 h2]⟩
  have hw' : ∀ c ∈ w, (!isSpace c) = true := fun c hc => by simp [(isSpace_false c).2 (hw.2 c hc)]
  have h1 : scan isSpace none (sp ++ w ++ rest) = ⟨sp, w ++ rest, (w ++ rest).isEmpty⟩ := by
    rw [List.append_assoc]
    apply scan_none
    · exact fun c hc => (isSpace_iff c).2 (hsp c hc)
    · cases w with
      | nil => exact absurd rfl hw.1
      | cons c w => exact Or.inr ⟨c, w ++ rest, rfl, (isSpace_false c).2 (hw.2 c (by simp))⟩
  unfold readStr gives
  simp only [Bool.false_eq_true, if_false, wdi, Option.map_some, h1]
  simp only [scan, Option.getD_some]
  by_cases hfit : w.length < n - 1
  · simp only [scanN_fit _ w rest hw' hr' _ hfit]
    rw [if_neg hw.1, if_pos (show w.length < n by omega)]
    simp only [store_append]
    cases rest with
    | nil => simp [finish]
    | cons c s =>
      have hc : isSpace c = true := by
        rcases hr' with h | ⟨c', s', h1, h2⟩
        · cases h
        · cases h1; simpa using h2
      split
      · simp [hc, finish]
      · simp [finish]
  · simp only [scanN_full _ w rest hw' (n - 1) (by omega)]
    have hne : List.take (n - 1) w ≠ [] := by
      intro h
      have := congrArg List.length h
      simp at this
      rcases this with h | h
      · omega
      · exact hw.1 h
    rw [if_neg hne]
    have hlen : (List.take (n - 1) w).length = n - 1 := by simp; omega
    simp only [store_append, hlen]
    rw [if_pos (by simp)]
    by_cases he : w.length < n
    · rw [if_pos he, List.take_of_length_le (by omega), List.drop_of_length_le (by omega),
        List.nil_append, show n - 1 = w.length from by omega]
      cases rest with
      | nil => rfl
      | cons c s =>
        have hc : isSpace c = true := by
          rcases hr' with h | ⟨c', s', h1, h2⟩
          · cases h
          · cases h1; simpa using h2
        simp only [hc, if_true]
        rfl
    · rw [if_neg he, show n - 1 + 1 = n from by omega]
      cases hd : w.drop (n - 1) with
      | nil => have := congrArg List.length hd; simp at this; omega
      | cons c s =>
        have hc : isSpace c = false :=
          (isSpace_false c).2 (hw.2 c (List.mem_of_mem_drop (by rw [hd]; simp)))
        simp only [List.cons_append, hc, Bool.false_eq_true, if_false]

/-- A word that fits and one that does not. -/
example : readStr (wdi 4 .word) "0123456".toList ⟨" abc d".toList, false⟩ =
      ⟨"abc\x00456".toList, ⟨" d".toList, false⟩, none⟩ ∧
    readStr (wdi 4 .word) "0123456".toList ⟨" abcd e".toList, false⟩ =
      ⟨"abc\x00456".toList, ⟨"d e".toList, false⟩, some .cstringLength⟩ := by decide +kernel

/-- C112, lines: `getline( wdi( n, s ), d )` reads up to the delimiter or the end, and removes the
delimiter.  If the text fits it is stored whole, also if it is empty; if not, as much as fits is, the
exception is raised, and the rest is still in the input. -/
theorem C112_line (n : Nat) (hn : 2 ≤ n) (mem : List Char) (d : Char) (l rest after : List Char)
    (hl : ∀ c ∈ l, c ≠ d) (hr : rest = d :: after ∨ (rest = [] ∧ after = [] ∧ l ≠ [])) :
    readStr (wdi n (.line d)) mem ⟨l ++ rest, false⟩ = gives n mem l after rest := by
  have hl' : ∀ c ∈ l, (c != d) = true := fun c hc => by simpa using hl c hc
  have hr' : Ends (fun c => (c != d) = false) rest := by
    rcases hr with h | ⟨h, _⟩
    · exact Or.inr ⟨d, after, h, by simp⟩
    · exact Or.inl h
  unfold readStr gives
  simp only [Bool.false_eq_true, if_false, wdi, Option.map_some, scan, Option.getD_some]
  by_cases hfit : l.length < n - 1
  · rw [scanN_fit _ l rest hl' hr' _ hfit, if_pos (show l.length < n by omega)]
    simp only [store_append]
    rw [if_neg (by rintro ⟨h1, h2⟩; rcases hr with rfl | ⟨rfl, _, h3⟩ <;> simp_all),
      if_neg (by omega)]
    rcases hr with rfl | ⟨rfl, rfl, h3⟩
    · simp [finish]
    · simp [finish, h3]
  · rw [scanN_full _ l rest hl' _ (by omega)]
    have hlen : (List.take (n - 1) l).length = n - 1 := by simp; omega
    rw [if_neg (by simp)]
    simp only [store_append, hlen]
    rw [if_pos (by simp)]
    have hne : List.take (n - 1) l ≠ [] := by
      intro h; rw [h] at hlen; simp at hlen; omega
    by_cases he : l.length < n
    · rw [if_pos he, List.drop_of_length_le (by omega), List.nil_append,
        show n - 1 = l.length from by omega]
      rw [show n - 1 = l.length from by omega] at hne
      rw [List.take_length] at hne ⊢
      rcases hr with rfl | ⟨rfl, rfl, h3⟩
      · simp [finish]
      · simp [finish, hne]
    · rw [if_neg he, show n - 1 + 1 = n from by omega]
      cases hd : l.drop (n - 1) with
      | nil => have := congrArg List.length hd; simp at this; omega
      | cons c s =>
        have hc : c ≠ d := hl c (List.mem_of_mem_drop (by rw [hd]; simp))
        simp only [List.cons_append, ne_eq, hc, not_false_eq_true, if_true]

/-- C112, lines of a file: reading the lines of a file, each shorter than the array, gives each of
them, in order and without an exception, and then the end of the file; the last line may have no
delimiter. -/
theorem C112_lines (n : Nat) (hn : 2 ≤ n) (d : Char) (ls : List (List Char)) (last : List Char)
    (hl : ∀ l ∈ ls ++ [last], l.length < n ∧ ∀ c ∈ l, c ≠ d ∧ c ≠ '\x00') (hlast : last ≠ []) :
    ∀ mem, (readMany (wdi n (.line d)) (ls.length + 2) mem
        ⟨(ls.flatMap fun l => l ++ [d]) ++ last, false⟩).map (·.2) =
      (ls ++ [last]).map (fun _ => none) ++ [some .endOfFile] ∧
    ((readMany (wdi n (.line d)) (ls.length + 2) mem
        ⟨(ls.flatMap fun l => l ++ [d]) ++ last, false⟩).map (·.1)).take (ls.length + 1) =
      ls ++ [last] := by
  have hc : ∀ (l m : List Char), (∀ c ∈ l, c ≠ d ∧ c ≠ '\x00') → cstr (l ++ '\x00' :: m) = l := by
    intro l m h
    unfold cstr
    rw [List.takeWhile_append_of_pos (fun c hc => by simpa using (h c hc).2)]
    simp
  induction ls with
  | nil =>
    intro mem
    obtain ⟨h1, h2⟩ := hl last (by simp)
    have h := C112_line n hn mem d last [] [] (fun c hc => (h2 c hc).1) (Or.inr ⟨rfl, rfl, hlast⟩)
    rw [List.append_nil] at h
    unfold gives at h
    rw [if_pos h1] at h
    simp only [List.flatMap_nil, List.nil_append, List.length_nil, readMany, h, hc last _ h2]
    constructor
    · simp [readStr, wdi, scan, scanN, show n - 1 = (n - 2) + 1 from by omega]
    · rfl
  | cons l ls ih =>
    intro mem
    obtain ⟨h1, h2⟩ := hl l (by simp)
    have h := C112_line n hn mem d l (d :: ((ls.flatMap fun l => l ++ [d]) ++ last))
      ((ls.flatMap fun l => l ++ [d]) ++ last) (fun c hc => (h2 c hc).1) (Or.inl rfl)
    unfold gives at h
    rw [if_pos h1] at h
    have e : ((l :: ls).flatMap fun l => l ++ [d]) ++ last =
        l ++ (d :: ((ls.flatMap fun l => l ++ [d]) ++ last)) := by simp
    rw [e, List.length_cons]
    unfold readMany
    simp only [h, hc l _ h2]
    obtain ⟨i1, i2⟩ := ih (fun x hx => hl x (by simp only [List.cons_append]; exact List.mem_cons_of_mem _ hx))
      (l ++ '\x00' :: mem.drop (l.length + 1))
    constructor
    · simp only [List.map_cons, List.cons_append, i1]
    · simp only [List.map_cons, List.take_succ_cons, List.cons_append, i2]

/-- Three lines, one of them empty, into an array that the longest just fits. -/
example : readMany (wdi 4 (.line '\n')) 4 "01234".toList ⟨"abc\n\nd".toList, false⟩ =
    [("abc".toList, none), ([], none), ("d".toList, none), ("d".toList, some .endOfFile)] := by
  decide +kernel

theorem rangeIn_plain {set : List Char} (h : Plain set) (c : Char) : rangeIn set c = set.contains c := by
  induction set with
  | nil => rfl
  | cons a s ih =>
    have hs : Plain s := fun x hx => h x (by simp [hx])
    have : rangeIn (a :: s) c = (a == c || rangeIn s c) := by
      apply rangeIn.eq_2
      intro b t heq
      subst heq
      exact (h '-' (by simp)).1 rfl
    rw [this, ih hs, List.contains_cons, Bool.beq_comm]

/-- C112, sets: `incl` and `excl` read the characters that are in the set, or not in it, up to the
first other one or the end.  If they fit they are stored, also if there are none; if not, as many as
fit are, the exception is raised, and the rest is still in the input.  Missing: scan sets with ranges,
for which it fails. -/
theorem C112_set_partial (n : Nat) (hn : 2 ≤ n) (mem : List Char) (inex : Bool) (set : List Char)
    (hs : Plain set) (l rest : List Char) (hl : ∀ c ∈ l, (c ∈ set ↔ inex = false))
    (hr : Ends (fun c => (c ∈ set ↔ inex = true)) rest) (hne : l ++ rest ≠ []) :
    readStr (wdi n (.set inex set)) mem ⟨l ++ rest, false⟩ = gives n mem l rest rest := by
  have hset : ∀ c, scanSet inex set c = (inex ^^ set.contains c) := by
    intro c
    unfold scanSet
    split
    · simp [rangeIn_plain hs]
    · exact absurd rfl (hs '^' (by simp)).2.1
    · simp [rangeIn_plain hs]
  have hl' : ∀ c ∈ l, scanSet inex set c = true := by
    intro c hc
    rw [hset]
    have := hl c hc
    cases inex <;> simp_all
  have hr' : Ends (fun c => scanSet inex set c = false) rest := by
    rcases hr with h | ⟨c, s, h1, h2⟩
    · exact Or.inl h
    · refine Or.inr ⟨c, s, h1, ?_⟩
      show scanSet inex set c = false
      rw [hset]
      cases inex <;> simp_all
  unfold readStr gives
  simp only [Bool.false_eq_true, if_false, wdi, Option.map_some, scan, Option.getD_some]
  by_cases hfit : l.length < n - 1
  · rw [scanN_fit _ l rest hl' hr' _ hfit, if_pos (show l.length < n by omega)]
    simp only [store_append]
    rw [if_neg (by rintro ⟨h1, h2⟩; subst h1; simp at h2; subst h2; exact hne rfl),
      if_neg (by omega)]
    cases rest with
    | nil =>
      have : l ≠ [] := by intro h; subst h; exact hne rfl
      simp [finish, this]
    | cons c s => simp [finish]
  · rw [scanN_full _ l rest hl' _ (by omega)]
    have hlen : (List.take (n - 1) l).length = n - 1 := by simp; omega
    rw [if_neg (by simp)]
    simp only [store_append, hlen]
    rw [if_pos (by simp)]
    have hne : List.take (n - 1) l ≠ [] := by
      intro h; rw [h] at hlen; simp at hlen; omega
    by_cases he : l.length < n
    · rw [if_pos he, List.drop_of_length_le (by omega), List.nil_append,
        show n - 1 = l.length from by omega]
      rw [show n - 1 = l.length from by omega] at hne
      rw [List.take_length] at hne ⊢
      cases rest with
      | nil =>
        have : l ≠ [] := by simpa using hne
        simp [finish, this]
      | cons c s =>
        have hc : ¬ (inex ^^ set.contains c) = true := by
          rcases hr' with h | ⟨c', s', h1, h2⟩
          · cases h
          · cases h1; rw [hset] at h2; rw [h2]; exact Bool.false_ne_true
        simp only [hc, if_false]
        simp [finish]
    · rw [if_neg he, show n - 1 + 1 = n from by omega]
      cases hd : l.drop (n - 1) with
      | nil => have := congrArg List.length hd; simp at this; omega
      | cons c s =>
        have hc := hl' c (List.mem_of_mem_drop (by rw [hd]; simp))
        rw [hset] at hc
        simp only [List.cons_append, hc, if_true]

/-- Digits, and what is not a digit. -/
example : Plain "0123456789".toList ∧
    readStr (wdi 3 (.set false "0123456789".toList)) "01234".toList ⟨"12a".toList, false⟩ =
      ⟨"12\x0034".toList, ⟨"a".toList, false⟩, none⟩ ∧
    readStr (wdi 3 (.set true "0123456789".toList)) "01234".toList ⟨"abc1".toList, false⟩ =
      ⟨"ab\x0034".toList, ⟨"c1".toList, false⟩, some .cstringLength⟩ := by
  unfold Plain
  decide +kernel

/-- C112, quoted strings: `quote( wdi( n, s ), ld, rd )` skips white space and the delimiter, and reads
the text up to the other delimiter, which it removes, as `getline` does. -/
theorem C112_quote (n : Nat) (hn : 2 ≤ n) (mem : List Char) (ld rd rd' : Char) (sp l rest after : List Char)
    (hsp : ∀ c ∈ sp, White c) (hld : ¬ White ld) (hrd : rd' = if rd = '\x00' then ld else rd)
    (hl : ∀ c ∈ l, c ≠ rd') (hr : rest = rd' :: after ∨ (rest = [] ∧ after = [] ∧ l ≠ [])) :
    readQuote ld rd (wdi n .word) mem ⟨sp ++ ld :: (l ++ rest), false⟩ = gives n mem l after rest := by
  rw [← C112_line n hn mem rd' l rest after hl hr]
  unfold readQuote
  rw [scan_none isSpace sp _ (fun c hc => (isSpace_iff c).2 (hsp c hc))
    (Or.inr ⟨ld, _, rfl, (isSpace_false ld).2 hld⟩)]
  simp only [Bool.false_eq_true, if_false, if_true, ← hrd]
  rfl

/-- A quoted string with a space. -/
example : readQuote '"' '\x00' (wdi 5 .word) "012345".toList ⟨" \"a b\" c".toList, false⟩ =
    ⟨"a b\x0045".toList, ⟨" c".toList, false⟩, none⟩ := by decide +kernel

/-- C112, end of file: at the end of the input, and for words after white space only, the exception is
raised and the array is not changed. -/
theorem C112_end (n : Nat) (hn : 2 ≤ n) (mem sp : List Char) (hsp : ∀ c ∈ sp, White c) (k : Kind)
    (hk : k = .word ∨ sp = []) :
    readStr (wdi n k) mem ⟨sp, false⟩ = ⟨mem, ⟨[], true⟩, some .endOfFile⟩ := by
  obtain ⟨m, rfl⟩ : ∃ m, n = m + 2 := ⟨n - 2, by omega⟩
  have h1 : scan isSpace none sp = ⟨sp, [], true⟩ := by
    have := scan_none isSpace sp [] (fun c hc => (isSpace_iff c).2 (hsp c hc)) (Or.inl rfl)
    rwa [List.append_nil] at this
  rcases hk with rfl | rfl
  · unfold readStr
    simp only [wdi, h1]
    simp [scan, scanN]
  · cases k <;> simp [readStr, wdi, scan, scanN]

/-- C112, ignored words: a word that is not stored and ends the input is skipped, the array is not
changed, and the stream is at its end. -/
theorem C112_ignore_end (n : Nat) (mem sp w : List Char) (hsp : ∀ c ∈ sp, White c)
    (hw : w ≠ [] ∧ ∀ c ∈ w, ¬ White c) (hn : w.length + 1 < n) :
    readStr { wdi n .word with ignore := true } mem ⟨sp ++ w, false⟩ = ⟨mem, ⟨[], true⟩, none⟩ := by
  have hw' : ∀ c ∈ w, (!isSpace c) = true := fun c hc => by
    rw [Bool.not_eq_true', ← Bool.not_eq_true, isSpace_iff]; exact hw.2 c hc
  obtain ⟨a, t, rfl⟩ : ∃ a t, w = a :: t := by
    cases w with
    | nil => exact absurd rfl hw.1
    | cons a t => exact ⟨a, t, rfl⟩
  have h1 : scan isSpace none (sp ++ a :: t) = ⟨sp, a :: t, false⟩ :=
    scan_none isSpace sp _ (fun c hc => (isSpace_iff c).2 (hsp c hc))
      (Or.inr ⟨a, t, rfl, by have := hw' a (by simp); simpa using this⟩)
  have h2 : scan (fun c => !isSpace c) (some (n - 1)) (a :: t) = ⟨a :: t, [], true⟩ := by
    unfold scan
    rw [Option.getD_some]
    have := scanN_fit (fun c => !isSpace c) (a :: t) [] hw' (Or.inl rfl) (n - 1) (by omega)
    rw [List.append_nil] at this
    rw [this]; rfl
  unfold readStr
  simp only [wdi, h1]
  simp [h2, finish]

example : readStr { wdi 6 .word with ignore := true } ['x'] ⟨" abc".toList, false⟩ =
    ⟨['x'], ⟨[], true⟩, none⟩ := by decide +kernel

/-- C112 fails: `getline` with a read width loses the character after the ones that are read. -/
theorem C112_getline_width_violated :
    readStr (wdi2 3 (.line '\n')) "012345".toList ⟨"abcdef\n".toList, false⟩ =
      ⟨"abc\x0045".toList, ⟨"ef\n".toList, false⟩, none⟩ := by decide +kernel

/-- C112 fails: a scan set with a range.  `incl` cuts a text that does not fit without an exception,
and `excl` raises one for a text that fits. -/
theorem C112_range_violated :
    readStr (wdi 3 (.set false "a-z".toList)) "01234".toList ⟨"abcd ".toList, false⟩ =
      ⟨"ab\x0034".toList, ⟨"cd ".toList, false⟩, none⟩ ∧
    readStr (wdi 3 (.set true "a-z".toList)) "01234".toList ⟨"12bc".toList, false⟩ =
      ⟨"12\x0034".toList, ⟨"bc".toList, false⟩, some .cstringLength⟩ := by decide +kernel

/-- C112 fails: reading a quoted string when only white space is left raises no exception and leaves
what was read before. -/
theorem C112_quote_end_violated (ld rd : Char) (f : Fmt) (mem sp : List Char)
    (hsp : ∀ c ∈ sp, White c) : readQuote ld rd f mem ⟨sp, false⟩ = ⟨mem, ⟨[], true⟩, none⟩ := by
  have h1 : scan isSpace none sp = ⟨sp, [], true⟩ := by
    have := scan_none isSpace sp [] (fun c hc => (isSpace_iff c).2 (hsp c hc)) (Or.inl rfl)
    rwa [List.append_nil] at this
  unfold readQuote
  rw [h1]
  rfl

/-- C112 fails: reading a quoted character removes what follows it, also if it is not the delimiter. -/
theorem C112_quote_char_violated :
    readQuote '\'' '\x00' quoteChr ['0', '1'] ⟨"'ab' c".toList, false⟩ =
      ⟨['a', '1'], ⟨"' c".toList, false⟩, none⟩ := by decide +kernel

/-! ## Enumerators -/

/-- C112, enumerators: if a label stands in the input after white space, and no other label goes on as
the input does, its enumerator is read; what is left is what follows, in some cases without one white
space character. -/
theorem C112_enum (labels : List (List Char)) (hL : Labels labels) (i : Nat) (hi : i < labels.length)
    (sp tail : List Char) (hsp : ∀ c ∈ sp, White c)
    (ht : Ends (fun c => White c ∨ ∀ l ∈ labels, ¬ labels.getD i [] ++ [c] <+: l) tail) :
    (readEnum labels ⟨sp ++ (labels.getD i [] ++ tail), false⟩).val = .ok i ∧
    ((readEnum labels ⟨sp ++ (labels.getD i [] ++ tail), false⟩).st.inp = tail ∨
      ∃ c, White c ∧ tail = c :: (readEnum labels ⟨sp ++ (labels.getD i [] ++ tail), false⟩).st.inp) := by
  have hmem : labels.getD i [] ∈ labels := by
    rw [List.getD_eq_getElem?_getD, List.getElem?_eq_getElem hi]
    exact List.getElem_mem hi
  obtain ⟨hne, hnw⟩ := hL.2 _ hmem
  obtain ⟨a, w, hw⟩ : ∃ a w, labels.getD i [] = a :: w := by
    cases h : labels.getD i [] with
    | nil => exact absurd h hne
    | cons a w => exact ⟨a, w, rfl⟩
  have key := enumLoop_label hL hi tail ht (labels.getD i []) [] (maxLen labels)
    (fun r => (labels.getD r []).length) none rfl (by simp) (lens_init labels) (exact_init hL)
  have e : readEnum labels ⟨sp ++ (labels.getD i [] ++ tail), false⟩ =
      enumLoop labels (maxLen labels) 0 (fun r => (labels.getD r []).length) none
        (labels.getD i [] ++ tail) := by
    unfold readEnum
    rw [scan_none isSpace sp _ (fun c hc => (isSpace_iff c).2 (hsp c hc))
      (Or.inr ⟨a, w ++ tail, by rw [hw]; rfl,
        (isSpace_false a).2 (hnw a (by rw [hw]; simp))⟩)]
    rw [hw]
    rfl
  rw [e]
  refine ⟨key.1, ?_⟩
  have k2 := key.2
  simp only [List.length_nil] at k2
  rw [k2]
  unfold leftAfter
  split
  · split
    · exact Or.inl rfl
    · rename_i c s
      split
      · rename_i h; exact Or.inr ⟨c, (isSpace_iff c).1 h, rfl⟩
      · exact Or.inl rfl
  · exact Or.inl rfl

/-- C112, enumerators, the other way: an enumerator that is read has its label in the input, after
white space. -/
theorem C112_enum_sound (labels : List (List Char)) (hL : Labels labels) (s : List Char) (i : Nat)
    (h : (readEnum labels ⟨s, false⟩).val = .ok i) :
    ∃ sp rest, s = sp ++ (labels.getD i [] ++ rest) ∧ i < labels.length ∧ ∀ c ∈ sp, White c := by
  have hd : ∃ sp rest, s = sp ++ rest ∧ (∀ c ∈ sp, White c) ∧ Ends (fun c => isSpace c = false) rest := by
    refine ⟨s.takeWhile isSpace, s.dropWhile isSpace, (List.takeWhile_append_dropWhile).symm, ?_, ?_⟩
    · intro c hc; exact (isSpace_iff c).1 (List.all_eq_true.1 List.all_takeWhile c hc)
    · cases hx : s.dropWhile isSpace with
      | nil => exact Or.inl rfl
      | cons c t =>
        refine Or.inr ⟨c, t, rfl, ?_⟩
        have := List.head?_dropWhile_not isSpace s
        rw [hx] at this
        simpa using this
  obtain ⟨sp, rest, rfl, h1, h2⟩ := hd
  unfold readEnum at h
  rw [scan_none isSpace sp rest (fun c hc => (isSpace_iff c).2 (h1 c hc)) h2] at h
  cases rest with
  | nil => cases h
  | cons c rest =>
    obtain ⟨h3, t, h4⟩ := enumLoop_sound hL (maxLen labels) [] (c :: rest) _ none (lens_init labels)
      (exact_init hL) i h
    exact ⟨sp, t, by rw [h4]; rfl, h3, h1⟩

/-- C112, several enumerators: labels with any white space between them are all read, in order. -/
theorem C112_enums (labels : List (List Char)) (hL : Labels labels) (xs : List (Nat × List Char))
    (hx : ∀ x ∈ xs, x.1 < labels.length ∧ x.2 ≠ [] ∧ ∀ c ∈ x.2, White c) :
    ∀ (sp : List Char) (eof : Bool), (∀ c ∈ sp, White c) →
    readEnums labels xs.length ⟨sp ++ xs.flatMap fun x => labels.getD x.1 [] ++ x.2, eof⟩ =
      xs.map fun x => .ok x.1 := by
  induction xs with
  | nil => intros; rfl
  | cons x xs ih =>
    intro sp eof hsp
    obtain ⟨i, ws⟩ := x
    obtain ⟨h1, h2, h3⟩ := hx (i, ws) (by simp)
    obtain ⟨c, s, rfl⟩ : ∃ c s, ws = c :: s := by
      cases ws with
      | nil => exact absurd rfl h2
      | cons c s => exact ⟨c, s, rfl⟩
    have hs : ∀ c ∈ s, White c := fun x hx => h3 x (by simp [hx])
    rw [List.flatMap_cons, List.length_cons]
    have e : sp ++ ((labels.getD i [] ++ c :: s) ++ xs.flatMap fun x => labels.getD x.1 [] ++ x.2) =
        sp ++ (labels.getD i [] ++ (c :: (s ++ xs.flatMap fun x => labels.getD x.1 [] ++ x.2))) := by
      simp
    simp only [e]
    have heof : ∀ inp, readEnum labels ⟨inp, eof⟩ = readEnum labels ⟨inp, false⟩ := fun _ => rfl
    obtain ⟨k1, k2⟩ := C112_enum labels hL i h1 sp _ hsp
      (Or.inr ⟨c, (s ++ xs.flatMap fun x => labels.getD x.1 [] ++ x.2), rfl, Or.inl (h3 c (by simp))⟩)
    have ih' := fun sp eof h => ih (fun x hx' => hx x (by simp [hx'])) sp eof h
    unfold readEnums
    simp only [heof, k1, List.map_cons]
    congr 1
    generalize readEnum labels ⟨sp ++ (labels.getD i [] ++
        (c :: (s ++ xs.flatMap fun x => labels.getD x.1 [] ++ x.2))), false⟩ = res at k2 ⊢
    rcases k2 with k2 | ⟨c', _, k2⟩
    · have := ih' (c :: s) res.st.eof h3
      rw [List.cons_append, ← k2] at this
      exact this
    · have := ih' s res.st.eof hs
      simp only [List.cons.injEq] at k2
      rw [k2.2] at this
      exact this

/-- Labels that are the start of others. -/
example : Labels ["A".toList, "AB".toList, "B".toList] ∧
    readEnums ["A".toList, "AB".toList, "B".toList] 3 ⟨"AB A\n  B ".toList, false⟩ =
      [.ok 1, .ok 0, .ok 2] := by
  refine ⟨?_, by rfl⟩
  unfold Labels White
  decide +kernel

/-- C112 fails: after an enumerator the end of the line is lost for some labels and not for others, so
that `nl` after it skips the next line, or does not. -/
theorem C112_enum_newline_violated :
    (nl (readEnum ["A".toList, "AB".toList] ⟨"A\nx\ny".toList, false⟩).st).inp = "y".toList ∧
    (nl (readEnum ["A".toList, "AB".toList] ⟨"AB\nx\ny".toList, false⟩).st).inp = "x\ny".toList := by
  decide +kernel

/-- C112 fails: a label in the input is not found if a longer one goes on as the input does for a
while. -/
theorem C112_enum_prefix_violated :
    (readEnum ["A".toList, "ABC".toList] ⟨"ABX".toList, false⟩).st.inp = [] ∧
    ∀ i, (readEnum ["A".toList, "ABC".toList] ⟨"ABX".toList, false⟩).val ≠ .ok i := by
  refine ⟨by decide +kernel, ?_⟩
  intro i h
  have : (readEnum ["A".toList, "ABC".toList] ⟨"ABX".toList, false⟩).val = .error .missingData := by rfl
  rw [this] at h
  cases h

/-! ## 128-bit integers -/

theorem digits_value (ds : List Char) (hd : ∀ c ∈ ds, isDigit c = true) : ∀ v,
    ds.foldl (fun v c => (v * 10 + c.toNat - 48) % 2 ^ 128) (v % 2 ^ 128) =
      (v * 10 ^ ds.length + decimal ds) % 2 ^ 128 := by
  induction ds with
  | nil => intro v; simp [decimal]
  | cons c ds ih =>
    intro v
    have hc := hd c (by simp)
    simp only [isDigit, Bool.and_eq_true, decide_eq_true_eq] at hc
    rw [List.foldl_cons]
    have e : (v % 2 ^ 128 * 10 + c.toNat - 48) % 2 ^ 128 = (v * 10 + (c.toNat - 48)) % 2 ^ 128 := by
      omega
    rw [e, ih (fun x hx => hd x (by simp [hx]))]
    congr 1
    simp only [List.length_cons, decimal]
    rw [Nat.pow_succ]
    ring

theorem isDigit_iff (c : Char) : isDigit c = true ↔ Digit c := by
  unfold isDigit Digit
  simp only [Bool.and_eq_true, decide_eq_true_eq, Char.le_def, UInt32.le_iff_toNat_le]
  rfl

/-- C112, large integers: white space, a sign, at most 39 digits and no digit after them give the
number, modulo 2 to the 128, and the array of 40 characters is large enough. -/
theorem C112_int128_partial (sp ds rest : List Char) (neg : Bool) (hsp : ∀ c ∈ sp, White c)
    (hd : ds ≠ [] ∧ ∀ c ∈ ds, Digit c) (hlen : ds.length ≤ 39) (hr : Ends (fun c => ¬ Digit c) rest) :
    (readInt128 (sp ++ ((if neg then ['-'] else []) ++ (ds ++ rest)))).val =
      some (if neg then (2 ^ 128 - decimal ds % 2 ^ 128) % 2 ^ 128 else decimal ds % 2 ^ 128) ∧
    (readInt128 (sp ++ ((if neg then ['-'] else []) ++ (ds ++ rest)))).stored ≤ 40 ∧
    (readInt128 (sp ++ ((if neg then ['-'] else []) ++ (ds ++ rest)))).left = rest := by
  replace hd : ds ≠ [] ∧ ∀ c ∈ ds, isDigit c = true := ⟨hd.1, fun c hc => (isDigit_iff c).2 (hd.2 c hc)⟩
  replace hr : Ends (fun c => isDigit c = false) rest := by
    rcases hr with h | ⟨c, s, h1, h2⟩
    · exact Or.inl h
    · exact Or.inr ⟨c, s, h1, by
        show isDigit c = false
        rw [← Bool.not_eq_true, isDigit_iff]; exact h2⟩
  obtain ⟨a, t, rfl⟩ : ∃ a t, ds = a :: t := by
    cases ds with
    | nil => exact absurd rfl hd.1
    | cons a t => exact ⟨a, t, rfl⟩
  have ha := hd.2 a (by simp)
  have hdig : ∀ c, isDigit c = true → c ≠ '-' ∧ isSpace c = false := by
    intro c h
    simp only [isDigit, Bool.and_eq_true, decide_eq_true_eq] at h
    have hne : ∀ x : Char, x.toNat < 48 → c ≠ x := by rintro x hx rfl; omega
    refine ⟨hne _ (by decide), ?_⟩
    simp only [isSpace, Bool.or_eq_false_iff, beq_eq_false_iff_ne]
    exact ⟨⟨⟨⟨⟨hne _ (by decide), hne _ (by decide)⟩, hne _ (by decide)⟩, hne _ (by decide)⟩,
      hne _ (by decide)⟩, hne _ (by decide)⟩
  have h1 : scan isSpace none (sp ++ ((if neg then ['-'] else []) ++ ((a :: t) ++ rest))) =
      ⟨sp, (if neg then ['-'] else []) ++ ((a :: t) ++ rest), false⟩ := by
    rw [scan_none isSpace sp _ (fun c hc => (isSpace_iff c).2 (hsp c hc))]
    · cases neg <;> rfl
    · cases neg with
      | true => exact Or.inr ⟨'-', _, rfl, by decide⟩
      | false => exact Or.inr ⟨a, _, rfl, (hdig a ha).2⟩
  have h2 : scan (fun c => c == '-') none ((if neg then ['-'] else []) ++ ((a :: t) ++ rest)) =
      ⟨if neg then ['-'] else [], (a :: t) ++ rest, false⟩ := by
    rw [scan_none]
    · rfl
    · intro c hc; cases neg <;> simp_all
    · exact Or.inr ⟨a, t ++ rest, rfl, by simpa using (hdig a ha).1⟩
  have h3 : (scan isDigit (some 39) ((a :: t) ++ rest)).read = a :: t ∧
      (scan isDigit (some 39) ((a :: t) ++ rest)).left = rest := by
    unfold scan
    rw [Option.getD_some]
    by_cases hl : (a :: t).length < 39
    · rw [scanN_fit isDigit (a :: t) rest hd.2 hr _ hl]; exact ⟨rfl, rfl⟩
    · have he : (a :: t).length = 39 := by omega
      rw [scanN_full isDigit (a :: t) rest hd.2 _ (by omega)]
      simp only [← he, List.take_length, List.drop_length]
      exact ⟨trivial, rfl⟩
  have h4 : (scan isDigit none rest).left = rest := by
    have := scan_none isDigit [] rest (by simp) hr
    rw [List.nil_append] at this
    rw [this]
  have hv := digits_value (a :: t) hd.2 0
  simp only [Nat.zero_mul, Nat.zero_add, Nat.zero_mod] at hv
  unfold readInt128
  simp only [h1, h2, h3.1, h3.2, h4, if_neg (List.cons_ne_nil a t)]
  rw [hv]
  cases neg <;> simp <;> simp at hlen <;> omega

/-- A negative number. -/
example : (readInt128 " -12,".toList) = ⟨some (2 ^ 128 - 12), 3, ",".toList⟩ ∧
    decimal "12".toList = 12 := by decide +kernel

/-- C112 fails: any number of minus signs is stored in an array of 40 characters. -/
theorem C112_int128_overflow_violated (k : Nat) :
    (readInt128 (List.replicate k '-')).stored = if k = 0 then 0 else k + 1 := by
  have h1 : scan isSpace none (List.replicate k '-') = ⟨[], List.replicate k '-', k = 0⟩ := by
    have := scan_none isSpace [] (List.replicate k '-') (by simp) (by
      cases k with
      | zero => exact Or.inl rfl
      | succ k => exact Or.inr ⟨'-', List.replicate k '-', rfl, by decide⟩)
    rw [List.nil_append] at this
    rw [this]
    cases k <;> simp
  have h2 : scan (fun c => c == '-') none (List.replicate k '-') = ⟨List.replicate k '-', [], true⟩ := by
    have := scan_none (fun c => c == '-') (List.replicate k '-') []
      (fun c hc => by simpa using (List.eq_of_mem_replicate hc)) (Or.inl rfl)
    rwa [List.append_nil] at this
  unfold readInt128
  simp only [h1, h2]
  have h3 : (scan isDigit (some 39) []).read = [] := rfl
  rw [if_pos h3]
  cases k <;> simp

/-- C112 fails: without a number no exception is raised and the variable stays; two signs are one. -/
theorem C112_int128_sign_violated :
    readInt128 "x".toList = ⟨none, 0, "x".toList⟩ ∧ (readInt128 "--5 ".toList).val = some (2 ^ 128 - 5) := by
  decide +kernel

end Verif.StrInput
