import Mathlib.Data.List.Basic

/-!
# Configuration files (`libcfa/src/parseconfig.cfa`)

`parse_config` reads a file of keys and values with `parse_tabular_config_format`, and hands each
value to the entry with that key.  Characters are `Char`; a C string is a list of them.
-/

namespace Verif.Config

/-- A string. -/
abbrev Str := List Char

/-- `isspace` in the C locale (used by `%s` of `scanf`, and at `libcfa/src/iostream.cfa` 1093). -/
def isSpace (c : Char) : Bool :=
  c == ' ' || c == '\t' || c == '\n' || c == '\x0b' || c == '\x0c' || c == '\r'

/-- What reading a word can raise. -/
inductive Exn where
  | endOfFile
  | cstringLength
deriving DecidableEq, Repr

/-- `in | wdi( wd, s )` (`libcfa/src/iostream.cfa` 1049-1098 with no scan set): white space is
skipped, then at most `wd - 1` characters up to the next white space are read.  At the end of the
file `end_of_file` is raised; if the word goes on after `wd - 1` characters, `cstring_length`
(lines 1085-1095).  The result is the word and the rest of the file.  (The flag `eof` of the stream
is left out: it is set when nothing is left, and then the next read raises `end_of_file`, as here.  The test at line 1087 counts the white space
skipped too, which only makes it look at one more character, and after a shorter word that is white
space.) -/
def readWord (wd : Nat) (s : Str) : Except Exn (Str × Str) :=
  match s.dropWhile isSpace with
  | [] => .error .endOfFile
  | c :: t =>
    let w := ((c :: t).takeWhile fun d => !isSpace d).take (wd - 1)
    let r := (c :: t).drop w.length
    if w.length = wd - 1 ∧ (r.head?.any fun d => !isSpace d) = true then .error .cstringLength
    else .ok (w, r)

/-- `in | nl` (`libcfa/src/iostream.cfa` 984-988): the rest of the line is skipped. -/
def skipLine (s : Str) : Str := (s.dropWhile fun c => c != '\n').tail

/-- The loops of `comments` and `parse_tabular_config_format` (parseconfig.cfa 106-118 and 132-144)
in one: a word is read; if it starts with `#` the rest of its line is skipped; otherwise a second
word is read, the two are added to the table, and the rest of the line is skipped.
`end_of_file` ends the loop at both reads (lines 114-116 and 143-144); `cstring_length` is not
caught.  The first argument bounds the number of words: each takes a character at least. -/
def readLoop : Nat → Str → Except Exn (List (Str × Str))
  | 0, _ => .ok []
  | f + 1, s =>
    match readWord 64 s with
    | .error .endOfFile => .ok []
    | .error .cstringLength => .error .cstringLength
    | .ok (w, r) =>
      if w.head? = some '#' then readLoop f (skipLine r)
      else
        match readWord 256 r with
        | .error .endOfFile => .ok []
        | .error .cstringLength => .error .cstringLength
        | .ok (v, r') =>
          match readLoop f (skipLine r') with
          | .error e => .error e
          | .ok ps => .ok ((w, v) :: ps)

/-- `parse_tabular_config_format` (parseconfig.cfa 121-152) of a file that can be opened. -/
def readFile (s : Str) : Except Exn (List (Str × Str)) := readLoop (s.length + 1) s

/-! ## The table of keys and values -/

/-- `KVPairs` (parseconfig.hfa 54-57) without the strings. -/
structure Table where
  size : Nat
  maxSize : Nat
deriving DecidableEq, Repr

/-- `KVPairs{ size }` (parseconfig.cfa 78-81). -/
def Table.new (n : Nat) : Table := ⟨0, n⟩

/-- The growth in `add_kv_pair` (parseconfig.cfa 90-96). -/
def Table.grow (t : Table) : Table :=
  if t.maxSize = 0 then { t with maxSize := 1 }
  else if t.size = t.maxSize then { t with maxSize := t.maxSize * 2 }
  else t

/-- `add_kv_pair` (parseconfig.cfa 89-103): the table after it, and the index written. -/
def Table.add (t : Table) : Table × Nat :=
  let g := t.grow
  ({ g with size := g.size + 1 }, g.size)

/-- The storage of a string in the table (parseconfig.cfa 98-101): `alloc( strlen( key ) )`, and
the bytes `strcpy` writes to it, the terminating null included. -/
def stored (s : Str) : Nat × Nat := (s.length, s.length + 1)

/-! ## `parse_config` -/

/-- A value in the table: where it is stored and what it is. -/
abbrev CStr := Nat × Str

/-- `config_entry` (parseconfig.hfa 10-15).  `parse` gets the string and the variable, and answers
whether it could be parsed and the variable after it.  The variables of different entries are
different objects. -/
structure Entry (V : Type) where
  key : Str
  parse : CStr → V → Bool × V
  validate : V → Bool

/-- How `parse_config` ends. -/
inductive Res where
  | ok
  | missing (n : Nat)
  | parseFailure (key value : Str)
  | validationFailure (key value : Str)
deriving DecidableEq, Repr

/-- An assignment to the variable of entry `j`. -/
def setVar {V : Type} (x : Nat → V) (j : Nat) (v : V) : Nat → V := fun i => if i = j then v else x i

/-- The loop of `parse_config` (parseconfig.cfa 163-195): for each pair the first entry with its key
parses and validates the value; a pair without entry is passed over; `n` is `entries_so_far`, and the
loop ends when it has reached the number of entries (line 165).  The result is how the function
ends, and the variables then. -/
def go {V : Type} (es : List (Entry V)) :
    List (Str × CStr) → Nat → (Nat → V) → Res × (Nat → V)
  | [], n, x => (if n < es.length then .missing (es.length - n) else .ok, x)
  | (k, v) :: ps, n, x =>
    if n = es.length then (.ok, x)
    else
      match es.findIdx? (fun e => e.key = k) with
      | none => go es ps n x
      | some j =>
        match es[j]? with
        | none => go es ps n x
        | some e =>
          let r := e.parse v (x j)
          if r.1 = false then (.parseFailure k v.2, setVar x j r.2)
          else if e.validate r.2 = false then (.validationFailure k v.2, setVar x j r.2)
          else go es ps (n + 1) (setVar x j r.2)

/-- The pairs with the places of their values: the value of pair `i` is in block `i`. -/
def placed (ps : List (Str × Str)) : List (Str × CStr) :=
  ps.zipIdx.map fun p => (p.1.1, (p.2, p.1.2))

/-- `parse_config` (parseconfig.cfa 155-198).  The last component: the blocks of values that are
freed when it ends, by `delete( kv_pairs )`, which every way out of it does (lines 175, 182, 193 and
197; the destructor, lines 83-87). -/
def parseConfig {V : Type} (es : List (Entry V)) (ps : List (Str × Str)) (x : Nat → V) :
    Res × (Nat → V) × List Nat :=
  let r := go es (placed ps) 0 x
  (r.1, r.2, List.range ps.length)

/-- `parse_config` with `parse_tabular_config_format` on the text of a file: `cstring_length` passes
through both (the table is then never freed). -/
def parseConfigFile {V : Type} (es : List (Entry V)) (text : Str) (x : Nat → V) :
    Except Exn (Res × (Nat → V) × List Nat) :=
  match readFile text with
  | .error e => .error e
  | .ok ps => .ok (parseConfig es ps x)

/-- `parse( const char *, const char * & )` (`libcfa/src/parseargs.cfa` 333-336): the variable
becomes the pointer. -/
def stringEntry (key : Str) : Entry Nat := ⟨key, fun v _ => (true, v.1), fun _ => true⟩

end Verif.Config
