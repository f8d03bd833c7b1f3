import Verif.Model.OstreamSep

/-!
# Where separators belong

The events of a program are what it prints and the requests it makes about separators, latest first.
A separator goes between two printed things on the same line if separators are on, the first allows
one after it and the second one before it.  `sep` and `nosep` override this once, for what is printed
next; nothing overrides what comes after the separator, or puts one at the beginning of a line.
-/

namespace Verif.OstreamSep.Spec

/-- `print a again` prints `a`; `again` if it is a component of a tuple other than the first. -/
inductive Ev
  | print (a : Atom) (again : Bool)
  | sep
  | nosep
  | sepOn
  | sepOff
  | nlOn
  | nlOff
  | sepSet (s : List Char)
  | sepSetTuple (s : List Char)
deriving DecidableEq, Repr

/-- Opening punctuation, after which no separator is put. -/
def opening : List Char := ['(', '[', '{', '=', '$', '£', '¥', '¡', '¿', '«']

/-- Closing punctuation, before which no separator is put. -/
def closing : List Char := [',', '.', ';', '!', '?', '%', '¢', '»', ')', ']', '}']

/-- Quotes, colon and white space, which have no separator on either side. -/
def quoting : List Char := ['\'', '`', '"', ':', ' ', '\x0c', '\n', '\r', '\t', '\x0b']

/-- May a separator stand before it? -/
def before : Atom → Bool
  | .val _ => true
  | .nul => true
  | .chr _ => false
  | .str s => match s.head? with
    | some c => !(closing.contains c || quoting.contains c)
    | none => false

/-- May a separator stand after it? -/
def after : Atom → Bool
  | .val _ => true
  | .nul => true
  | .chr _ => false
  | .str s => match s.getLast? with
    | some c => !(opening.contains c || quoting.contains c)
    | none => false

/-- Its own characters. -/
def chars : Atom → List Char
  | .val t => t
  | .str s => s
  | .nul => ['0', 'p']
  | .chr c => [c]

/-- Are separators on? -/
def isOn : List Ev → Bool
  | [] => true
  | .sepOn :: _ => true
  | .sepOff :: _ => false
  | _ :: h => isOn h

/-- Are newlines printed at the end of statements? -/
def autoNl : List Ev → Bool
  | [] => true
  | .nlOn :: _ => true
  | .nlOff :: _ => false
  | _ :: h => autoNl h

/-- The separator between things printed. -/
def separator : List Ev → List Char
  | [] => [' ']
  | .sepSet s :: _ => s
  | _ :: h => separator h

/-- The separator between the components of a tuple. -/
def tupleSeparator : List Ev → List Char
  | [] => [',', ' ']
  | .sepSetTuple s :: _ => s
  | _ :: h => tupleSeparator h

/-- Does the last thing printed allow a separator after it? -/
def lastAllows : List Ev → Bool
  | [] => false
  | .print a _ :: _ => after a
  | _ :: h => lastAllows h

/-- What has been requested since the last thing was printed: `sepOff` makes earlier requests void. -/
def request : List Ev → Option Bool
  | [] => none
  | .print _ _ :: _ => none
  | .sep :: _ => some true
  | .nosep :: _ => some false
  | .sepOff :: _ => none
  | _ :: h => request h

/-- Is a separator wanted after what has been printed? -/
def wanted (h : List Ev) : Bool := (request h).getD (isOn h && lastAllows h)

/-- Is this text at the beginning of a line? -/
def lineStart (t : List Char) : Bool := t.isEmpty || t.getLast? == some '\n'

/-- All the text printed. -/
def text : List Ev → List Char
  | [] => []
  | .print a again :: h =>
    text h ++
    (if wanted h && !lineStart (text h) && before a then
      (if again then tupleSeparator h else separator h) else []) ++ chars a
  | _ :: h => text h

/-- The events of an operand. -/
def operandEvs (h : List Ev) : Operand → List Ev
  | .atom a => .print a false :: h
  | .tuple a rest => (rest.map fun b => Ev.print b true).reverse ++ .print a false :: h
  | .ctl .nl => .print (.chr '\n') false :: h
  | .ctl .nonl => h
  | .ctl .nlOn => .nlOn :: h
  | .ctl .nlOff => .nlOff :: h
  | .ctl .sepVal => .print (.str (separator h)) false :: h
  | .ctl .sepTupleVal => .print (.str (tupleSeparator h)) false :: h
  | .ctl .sep => .sep :: h
  | .ctl .nosep => .nosep :: h
  | .ctl .sepOn => .sepOn :: h
  | .ctl .sepOff => .sepOff :: h

/-- Has the statement printed something since its last `nl` or `nonl`?  `b` is the answer before the
    operand. -/
def pending (h : List Ev) (b : Bool) : Operand → Bool
  | .ctl .nl => false
  | .ctl .nonl => false
  | x => b || decide (text (operandEvs h x) ≠ text h)

/-- The events of the operands before the last, and whether something is pending after them. -/
def initEvs : List Ev → Bool → List Operand → List Ev × Bool
  | h, b, [] => (h, b)
  | h, b, x :: xs => initEvs (operandEvs h x) (pending h b x) xs

/-- Does the statement end its line?  It does if it ends in a value, or if something is pending. -/
def endsLine (h : List Ev) (b : Bool) : Operand → Bool
  | .ctl c => autoNl (operandEvs h (.ctl c)) && pending h b (.ctl c)
  | x => autoNl (operandEvs h x)

/-- The events of a statement. -/
def stepEvs (h : List Ev) : Step → List Ev
  | .print init last =>
    let r := initEvs h false init
    let h' := operandEvs r.1 last
    if endsLine r.1 r.2 last then .print (.chr '\n') false :: h' else h'
  | .sepSet s => .sepSet s :: h
  | .sepSetTuple s => .sepSetTuple s :: h

/-- The events of a program. -/
def events (p : List Step) : List Ev := p.foldl stepEvs []

/-- Some number, or some string that is not empty, has been printed on this line (a string ending in
    a newline begins a new line). -/
def begun : List Ev → Bool
  | [] => false
  | .print (.val _) _ :: _ => true
  | .print (.chr c) _ :: h => c != '\n' && begun h
  | .print .nul _ :: h => begun h
  | .print (.str s) _ :: h => if s.isEmpty then begun h else s.getLast? != some '\n'
  | _ :: h => begun h

/-- The cases treated: values have text that does not end in a newline; no null string pointer where a
    separator is due; `sep` neither before anything is printed nor on a line begun by characters
    alone; separators are not turned on, having been off, between two things on a line. -/
def Treated : List Ev → Prop
  | [] => True
  | .print (.val t) _ :: h => (t ≠ [] ∧ t.getLast? ≠ some '\n') ∧ Treated h
  | .print .nul _ :: h => (wanted h = false ∨ lineStart (text h) = true) ∧ Treated h
  | .sep :: h => (begun h = true ∨ (text h).getLast? = some '\n') ∧ Treated h
  | .sepOn :: h => (isOn h = true ∨ request h ≠ none ∨ lastAllows h = false ∨
      lineStart (text h) = true) ∧ Treated h
  | _ :: h => Treated h

instance Treated.dec : ∀ h, Decidable (Treated h)
  | [] => isTrue trivial
  | e :: h => by
    have := Treated.dec h
    cases e with
    | print a again => cases a <;> unfold Treated <;> infer_instance
    | _ => unfold Treated; infer_instance

/-- Texts joined by a separator. -/
def joined (sep : List Char) : List (List Char) → List Char
  | [] => []
  | x :: xs => x ++ (xs.map fun y => sep ++ y).flatten

end Verif.OstreamSep.Spec
