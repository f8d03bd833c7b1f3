import Verif.Model.Config

/-!
# Configuration files as their users write them

A file consists of lines: blank lines, comments that start with `#`, and lines with a key, a value
and anything after them.
-/

namespace Verif.Config

/-- A line without its newline. -/
inductive Line where
  | blank (sp : Str)
  | comment (sp text : Str)
  | pair (sp key sp' value rest : Str)

/-- The text of a line. -/
def Line.text : Line → Str
  | .blank sp => sp
  | .comment sp t => sp ++ '#' :: t
  | .pair sp k sp' v r => sp ++ k ++ sp' ++ v ++ r

/-- What a line says. -/
def Line.says : Line → List (Str × Str)
  | .pair _ k _ v _ => [(k, v)]
  | _ => []

/-- White space: space, tab, newline, vertical tab, form feed, carriage return. -/
def white (c : Char) : Bool := [' ', '\t', '\n', '\x0b', '\x0c', '\r'].contains c

/-- White space inside a line. -/
def Gap (s : Str) : Prop := ∀ c ∈ s, white c = true ∧ c ≠ '\n'
/-- A word of 1 to `n` characters. -/
def Word (n : Nat) (s : Str) : Prop := s ≠ [] ∧ s.length ≤ n ∧ ∀ c ∈ s, white c = false
/-- No newline. -/
def OneLine (s : Str) : Prop := ∀ c ∈ s, c ≠ '\n'

/-- Well-formed lines.  A key has at most 63 characters and does not start with `#`, a value at most
255; and the first word of a comment has at most 63 characters, `#` included. -/
def Line.Ok : Line → Prop
  | .blank sp => Gap sp
  | .comment sp t => Gap sp ∧ OneLine t ∧ (t.takeWhile fun c => !white c).length ≤ 62
  | .pair sp k sp' v r => Gap sp ∧ Word 63 k ∧ k.head? ≠ some '#' ∧ Gap sp' ∧ sp' ≠ [] ∧
      Word 255 v ∧ OneLine r ∧ (∀ c, r.head? = some c → white c = true)

/-- A file: lines that end with a newline, and perhaps a last one without. -/
def fileText (ls : List Line) (last : Option Line) : Str :=
  (ls.flatMap fun l => l.text ++ ['\n']) ++ (last.map Line.text).getD []

/-- What a file says, in order. -/
def fileSays (ls : List Line) (last : Option Line) : List (Str × Str) :=
  ls.flatMap Line.says ++ (last.map Line.says).getD []

/-- The value is what the entry accepts, for a variable that is `x` now. -/
def Entry.Accepts {V : Type} (e : Entry V) (v : CStr) (x : V) : Prop :=
  (e.parse v x).1 = true ∧ e.validate (e.parse v x).2 = true

/-- Every pair whose key has an entry has a value that entry accepts. -/
def AllAccepted {V : Type} (es : List (Entry V)) (ps : List (Str × CStr)) (x : Nat → V) : Prop :=
  ∀ p ∈ ps, ∀ (j : Nat) (e : Entry V), es[j]? = some e → e.key = p.1 → e.Accepts p.2 (x j)

/-- The number of entries whose key is not in the file. -/
def missingCount {V : Type} (es : List (Entry V)) (ps : List (Str × CStr)) : Nat :=
  es.countP fun e => decide (e.key ∉ ps.map Prod.fst)

end Verif.Config
