import Verif.Model.Ostream

/-!
# Output statements: separators and newlines

Models the output operators of values, strings, characters and tuples, and the manipulators that
control separators and newlines, libcfa/src/iostream.cfa lines 43-377 and libcfa/src/fstream.cfa lines
46-107.

Simplified: a value other than a string or a character is the text its format produces (all these
operators begin with the same line); characters are those of Latin-1; the streams `exit` and `abort`,
which end the program, are left out; a separator is at most 15 characters long (line 91).
-/

namespace Verif.OstreamSep

open Verif.Ostream

/-- What can be printed: a number, a truth value or a pointer, as text; a string; the null string
    pointer; a character.  libcfa/src/iostream.cfa lines 44-127, 149-162, 179-300. -/
inductive Atom
  | val (text : List Char)
  | str (s : List Char)
  | nul
  | chr (c : Char)
deriving DecidableEq, Repr

/-- The manipulators: libcfa/src/iostream.cfa lines 313-362. -/
inductive Ctl
  | nl
  | nonl
  | nlOn
  | nlOff
  | sepVal
  | sepTupleVal
  | sep
  | nosep
  | sepOn
  | sepOff
deriving DecidableEq, Repr

/-- An operand of an output statement. -/
inductive Operand
  | atom (a : Atom)
  | tuple (a : Atom) (rest : List Atom)
  | ctl (c : Ctl)
deriving DecidableEq, Repr

/-- A statement `os | x | … | z;`, or a call that sets one of the separators. -/
inductive Step
  | print (init : List Operand) (last : Operand)
  | sepSet (s : List Char)
  | sepSetTuple (s : List Char)
deriving DecidableEq, Repr

/-- `enum { Open = 1, Close, OpenClose }`; `none` is 0: libcfa/src/iostream.cfa line 231. -/
inductive Mask
  | none
  | open
  | close
  | openClose
deriving DecidableEq, Repr

/-- `mask`: libcfa/src/iostream.cfa lines 232-245, in Latin-1: A3 `£`, A5 `¥`, A1 `¡`, BF `¿`, AB `«`,
    A2 `¢`, BB `»`; 0C form feed, 0B vertical tab. -/
def mask (c : Char) : Mask :=
  if c ∈ ['(', '[', '{', '=', '$', '\xa3', '\xa5', '\xa1', '\xbf', '\xab'] then .open
  else if c ∈ [',', '.', ';', '!', '?', '%', '\xa2', '\xbb', ')', ']', '}'] then .close
  else if c ∈ ['\'', '`', '"', ':', ' ', '\x0c', '\n', '\r', '\t', '\x0b'] then .openClose
  else .none

/-- `?|?( os, const char s[] )` for a string that is neither null nor empty, with first character `c`:
    libcfa/src/iostream.cfa lines 250-271. -/
def printStr (os : Os) (c : Char) (s : List Char) : Os :=
  let on := sepPrt os
  let os := clearNL os
  let os :=
    if on && decide (mask c ≠ .close) && decide (mask c ≠ .openClose) then fmt os (sepGetCur os)
    else os
  let os := sepReset os
  let ch := (c :: s).getLast (List.cons_ne_nil c s)
  let os := fmt os (c :: s)
  let on := sepPrt os
  let os := clearNL os
  let os :=
    if on && decide (mask ch ≠ .open) && decide (mask ch ≠ .openClose) then sep os else nosep os
  if ch = '\n' then { os with sawNL := true } else os

/-- `?|?( os, x )` returning the stream: libcfa/src/iostream.cfa lines 44-48 and the like for values,
    51-55 for characters, 230-272 for strings. -/
def printAtom (os : Os) : Atom → Os
  | .val t => fmt (sepBefore os) t
  | .str [] => nosep os
  | .str (c :: s) => printStr os c s
  | .nul => fmt os ['0', 'p']
  | .chr c =>
    let os := fmt os [c]
    nosep (if c = '\n' then { os with sawNL := true } else os)

/-- `?|?( os, arg, rest )`: libcfa/src/iostream.cfa lines 361-368. -/
def printTuple (os : Os) (a : Atom) : List Atom → Os
  | [] => printAtom os a
  | b :: rest => { printTuple { printAtom os a with cur := .tuple } b rest with cur := .regular }

/-- `nl`: libcfa/src/iostream.cfa lines 313-318. -/
def nl (os : Os) : Os := nosep { printAtom os (.chr '\n') with prt := false, sawNL := true }

/-- `sepOn`: libcfa/src/fstream.cfa lines 74-79. -/
def sepOn (os : Os) : Os :=
  let os := { os with sepDefault := true }
  if os.sepOnOff then sepReset os else os

/-- `sepOff`: libcfa/src/fstream.cfa lines 81-86. -/
def sepOff (os : Os) : Os := sepReset { os with sepDefault := false }

/-- The manipulators: libcfa/src/iostream.cfa lines 313-359; `nlOn`, `nlOff`: libcfa/src/fstream.cfa
    lines 68-69. -/
def control (os : Os) : Ctl → Os
  | .nl => nl os
  | .nonl => { os with prt := false }
  | .nlOn => { os with nlOnOff := true }
  | .nlOff => { os with nlOnOff := false }
  | .sepVal => printAtom os (.str os.separator)
  | .sepTupleVal => printAtom os (.str os.tupleSeparator)
  | .sep => sep os
  | .nosep => nosep os
  | .sepOn => sepOn os
  | .sepOff => sepOff os

/-- The operator returning the stream. -/
def operand (os : Os) : Operand → Os
  | .atom a => printAtom os a
  | .tuple a rest => printTuple os a rest
  | .ctl c => control os c

/-- `ends`: libcfa/src/fstream.cfa lines 102-104. -/
def ends (os : Os) : Os := if os.nlOnOff then nl os else { os with prt := false }

/-- The operator returning nothing, used for the last operand: libcfa/src/iostream.hfa line 88 for
    values, libcfa/src/iostream.cfa lines 369-376 for tuples, 307-311 for manipulators. -/
def lastOperand (os : Os) (x : Operand) : Os :=
  let os := operand os x
  match x with
  | .ctl _ => { (if os.prt then ends os else os) with prt := false }
  | _ => ends os

/-- One statement; `sepSet`, `sepSetTuple`: libcfa/src/fstream.cfa lines 89-100. -/
def step (os : Os) : Step → Os
  | .print init last => lastOperand (init.foldl operand os) last
  | .sepSet s => { os with separator := s }
  | .sepSetTuple s => { os with tupleSeparator := s }

/-- A program's output statements, on a stream just opened. -/
def run (p : List Step) : Os := p.foldl step Os.open

end Verif.OstreamSep
