import Verif.Proof.OstreamSep

/-!
# C96: separators and newlines are printed where they belong
-/

namespace Verif.OstreamSep

open Verif.Ostream Spec

/-- A program prints exactly what is asked for: the texts of its values, separators between those that
    allow it on both sides, on the same line, subject to the requests made, and a newline for each
    statement that has printed something not yet ended; for every sequence of statements.  Missing:
    the cases excluded by `Treated`, in each of which the property fails (see the theorems with the
    suffix `_violated`). -/
theorem C96_text_partial {p : List Step} (t : Treated (events p)) : (run p).out = text (events p) :=
  (run_rel t).out

/-- Punctuation, an empty string, characters, tuples, requests about separators and newlines. -/
def sample : List Step :=
  [.print [.atom (.val "1".toList), .atom (.str ", x (".toList), .atom (.val "2".toList)]
      (.atom (.str ")".toList)),
   .print [.ctl .sep, .atom (.val "1".toList), .ctl .nosep, .atom (.val "2".toList),
      .atom (.val "3".toList)] (.ctl .sep),
   .print [.atom (.val "1".toList), .atom (.str []), .atom (.val "2".toList), .atom (.chr 'c')]
      (.atom (.val "3".toList)),
   .print [.tuple (.val "1".toList) [.val "2".toList, .val "3".toList]]
      (.tuple (.val "4".toList) [.val "5".toList]),
   .sepSet "--".toList,
   .print [.atom (.val "1".toList), .ctl .nl, .ctl .sepOff, .atom (.val "2".toList)]
      (.atom (.val "3".toList)),
   .print [.ctl .sepOn, .atom (.val "4".toList), .atom (.val "5".toList)] (.ctl .nonl),
   .print [] (.atom (.val "6".toList))]

example : Treated (events sample) ∧ (run sample).out =
    "1, x (2)\n12 3\n12c3\n1, 2, 3 4, 5\n1\n23\n4--5--6\n".toList := by
  decide +kernel

/-- The numbers printed by one statement are joined by the separator: there is none before the first,
    at the beginning of a line, nor after the last. -/
theorem C96_statement {p : List Step} (t : Treated (events p)) (hl : lineStart (run p).out = true)
    (hon : isOn (events p) = true) (hnl : autoNl (events p) = true)
    (xs : List (List Char)) (x : List Char)
    (hx : ∀ y ∈ xs ++ [x], y ≠ [] ∧ y.getLast? ≠ some '\n') :
    (run (p ++ [.print (xs.map fun y => .atom (.val y)) (.atom (.val x))])).out =
      (run p).out ++ joined (separator (events p)) (xs ++ [x]) ++ ['\n'] := by
  have ho := (run_rel t).out
  rw [ho] at hl ⊢
  have e : events (p ++ [.print (xs.map fun y => .atom (.val y)) (.atom (.val x))]) =
      .print (.chr '\n') false :: (vals false (xs ++ [x]) ++ events p) := by
    have hv : vals false (xs ++ [x]) ++ events p =
        .print (.val x) false :: (vals false xs ++ events p) := by simp [vals]
    rw [events_snoc, hv]
    simp only [stepEvs, init_vals, endsLine, operandEvs]
    rw [if_pos]
    show autoNl (vals false xs ++ events p) = true
    rw [autoNl_vals, hnl]
  have tt : Treated (vals false (xs ++ [x]) ++ events p) := treated_vals _ _ _ t hx
  rw [C96_text_partial (by rw [e]; exact tt), e]
  cases xs with
  | nil => exact text_joined false [] (events p) x false hon hl hx
  | cons y ys =>
    rw [List.cons_append, vals_cons]
    exact text_joined false (ys ++ [x]) (events p) y false hon hl hx

example : (run ([] ++ [.print (["1".toList, "22".toList].map fun y => .atom (.val y))
    (.atom (.val "333".toList))])).out = "1 22 333\n".toList := by decide +kernel

/-- The components of a tuple of numbers are joined by the separator of tuples. -/
theorem C96_tuple {p : List Step} (t : Treated (events p)) (hl : lineStart (run p).out = true)
    (hon : isOn (events p) = true) (hnl : autoNl (events p) = true)
    (x : List Char) (xs : List (List Char))
    (hx : ∀ y ∈ x :: xs, y ≠ [] ∧ y.getLast? ≠ some '\n') :
    (run (p ++ [.print [] (.tuple (.val x) (xs.map .val))])).out =
      (run p).out ++ joined (tupleSeparator (events p)) (x :: xs) ++ ['\n'] := by
  have ho := (run_rel t).out
  rw [ho] at hl ⊢
  have hm : (xs.map Atom.val).map (fun b => Ev.print b true) =
      xs.map fun y => Ev.print (.val y) true := by simp
  have e : events (p ++ [.print [] (.tuple (.val x) (xs.map .val))]) =
      .print (.chr '\n') false :: (vals true xs ++ .print (.val x) false :: events p) := by
    rw [events_snoc]
    simp only [stepEvs, initEvs, endsLine, operandEvs, hm]
    rw [if_pos]
    · rfl
    · show autoNl (vals true xs ++ .print (.val x) false :: events p) = true
      rw [autoNl_vals]
      exact hnl
  have tt : Treated (vals true xs ++ .print (.val x) false :: events p) :=
    treated_vals _ _ _ ⟨hx x List.mem_cons_self, t⟩ (fun y hy => hx y (List.mem_cons_of_mem _ hy))
  rw [C96_text_partial (by rw [e]; exact tt), e]
  exact text_joined true xs (events p) x false hon hl hx

example : (run ([] ++ [.print [] (.tuple (.val "1".toList)
    (["22".toList, "333".toList].map .val))])).out = "1, 22, 333\n".toList := by decide +kernel

/-- C96 fails: the null string pointer is printed without the separator that precedes other values, so
    `sout | 1 | s` prints `10p` if `s` is null. -/
theorem C96_null_violated :
    (run [.print [.atom (.val "1".toList)] (.atom .nul)]).out = "10p\n".toList ∧
    text (events [.print [.atom (.val "1".toList)] (.atom .nul)]) = "1 0p\n".toList := by
  decide +kernel

/-- C96 fails: `sep` before anything has been printed puts a separator at the beginning of the first
    line, though not of any other line. -/
theorem C96_first_violated :
    (run [.print [.ctl .sep] (.atom (.val "1".toList)),
      .print [.ctl .sep] (.atom (.val "1".toList))]).out = " 1\n1\n".toList ∧
    text (events [.print [.ctl .sep] (.atom (.val "1".toList)),
      .print [.ctl .sep] (.atom (.val "1".toList))]) = "1\n1\n".toList := by
  decide +kernel

/-- C96 fails: `sep` after a character is ignored on a line on which only characters have been printed,
    except the first line, as characters do not clear the flag for the beginning of a line. -/
theorem C96_character_violated :
    (run [.print [.atom (.chr 'a'), .ctl .sep] (.atom (.val "1".toList)),
      .print [.atom (.chr 'a'), .ctl .sep] (.atom (.val "1".toList))]).out = "a 1\na1\n".toList ∧
    text (events [.print [.atom (.chr 'a'), .ctl .sep] (.atom (.val "1".toList)),
      .print [.atom (.chr 'a'), .ctl .sep] (.atom (.val "1".toList))]) = "a 1\na 1\n".toList := by
  decide +kernel

/-- C96 fails: `sepOff` takes effect for the next value but `sepOn` only after it. -/
theorem C96_sepOn_violated :
    (run [.print [.ctl .sepOff, .atom (.val "1".toList), .ctl .sepOn, .atom (.val "2".toList)]
      (.atom (.val "3".toList))]).out = "12 3\n".toList ∧
    text (events [.print [.ctl .sepOff, .atom (.val "1".toList), .ctl .sepOn,
      .atom (.val "2".toList)] (.atom (.val "3".toList))]) = "1 2 3\n".toList ∧
    (run [.print [.atom (.val "1".toList), .ctl .sepOff, .atom (.val "2".toList)]
      (.atom (.val "3".toList))]).out = "123\n".toList := by
  decide +kernel

end Verif.OstreamSep
