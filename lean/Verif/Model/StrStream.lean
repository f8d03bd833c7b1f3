import Mathlib.Data.List.Basic

/-!
# String streams (`libcfa/src/strstream.cfa`)

An output stream writes to a buffer of the user; an input stream reads from one.
-/

namespace Verif.StrStream

/-! ## Output -/

/-- An output stream.  `mem` is the memory from the start of the buffer on, also past its end; `out` is
what has been written to the file; `dead` is after `abort`.  (Separators are those of the other
streams.) -/
structure Os where
  mem : List Char
  size : Nat
  cursor : Nat
  out : List Char
  dead : Bool
deriving DecidableEq, Repr

/-- The constructor (strstream.cfa 77-90). -/
def Os.init (mem : List Char) (size : Nat) : Os := ⟨mem, size, 0, [], false⟩

/-- Store characters from a place on. -/
def overwrite (mem : List Char) (off : Nat) (s : List Char) : List Char :=
  mem.take off ++ s ++ mem.drop (off + s.length)

/-- `vsnprintf` of a text `s` to the place `off`, with room `n` (C11 7.21.6.12): at most `n - 1`
characters and the null character, and nothing if `n` is 0. -/
def vsnprintf (mem : List Char) (off n : Nat) (s : List Char) : List Char :=
  if n = 0 then mem else overwrite mem off (s.take (n - 1) ++ ['\x00'])

/-- What is done with an output stream. -/
inductive OAct where
  /-- Some text is printed. -/
  | fmt (s : List Char)
  /-- `write( os )`. -/
  | write
  /-- `clear( os )`. -/
  | clear
deriving DecidableEq, Repr

/-- `fmt` (strstream.cfa 127-142), `write` (144-152) and `clear` (158-160).  (The room is the
difference of two `size_t`; the file accepts everything.) -/
def ostep (o : Os) (a : OAct) : Os :=
  if o.dead then o else
  match a with
  | .fmt s =>
    let mem := vsnprintf o.mem o.cursor (o.size - o.cursor) s
    let cursor := o.cursor + s.length
    { o with mem := mem, cursor := cursor, dead := decide (cursor ≥ o.size) }
  | .write => { o with out := o.out ++ o.mem.take o.cursor, cursor := 0 }
  | .clear => { o with cursor := 0 }

/-! ## Input -/

/-- `isspace` (C11 7.4.1.10). -/
def isSpace (c : Char) : Bool :=
  c == ' ' || c == '\t' || c == '\n' || c == '\x0b' || c == '\x0c' || c == '\r'

/-- What a conversion of `vsscanf` that skips white space looks at: the characters up to the next
white space, or `none` (`EOF`) if there are none. -/
def scanWord (s : List Char) : Option (List Char) :=
  match s.dropWhile isSpace with
  | [] => none
  | c :: cs => some ((c :: cs).takeWhile fun c => !isSpace c)

/-- The loop at the end of `fmt` and the step after it (strstream.cfa 202-205), on what is left of the
buffer: move to the next space or tab, and over it. -/
def skip (s : List Char) : List Char :=
  match s.dropWhile fun c => !(c == ' ' || c == '\t') with
  | [] => []
  | _ :: cs => cs

/-- `fmt` of an input stream (strstream.cfa 191-207) for a conversion that skips white space and reads
within a word, as `%i`, `%lf` and `%s` do: the word it looks at, and what is left of the buffer;
`none` is `abort`. -/
def readWord (s : List Char) : Option (List Char × List Char) :=
  match scanWord s with
  | none => none
  | some w => some (w, skip s)

/-- `fmt` for `%c` (`iostream.cfa` 813): one character. -/
def readChar (s : List Char) : Option (Char × List Char) :=
  match s with
  | [] => none
  | c :: _ => some (c, skip s)

/-- Several words. -/
def readWords : Nat → List Char → Option (List (List Char) × List Char)
  | 0, s => some ([], s)
  | n + 1, s =>
    match readWord s with
    | none => none
    | some (w, s') =>
      match readWords n s' with
      | none => none
      | some (ws, s'') => some (w :: ws, s'')

end Verif.StrStream
