import Mathlib.Data.List.Basic

/-!
# Reading C strings, quoted strings, enumerators and 128-bit integers (`libcfa/src/iostream.cfa`)

Memory is the list of the characters from the argument on.
-/

namespace Verif.StrInput

/-- An input stream: what is left of the input, and whether the end has been seen. -/
structure In where
  inp : List Char
  eof : Bool
deriving DecidableEq, Repr

/-- The exceptions (iostream.hfa 412-414). -/
inductive Exc where
  | endOfFile
  | missingData
  | cstringLength
deriving DecidableEq, Repr

/-- After an operation: the memory of the argument, the stream, and the exception if there is one.
(The statement is left at the exception, as it is for a `catch` clause.) -/
structure Res where
  mem : List Char
  st : In
  exc : Option Exc
deriving DecidableEq, Repr

/-! ## `scanf` (C11 7.21.6.2) -/

/-- `isspace` (C11 7.4.1.10). -/
def isSpace (c : Char) : Bool :=
  c == ' ' || c == '\t' || c == '\n' || c == '\x0b' || c == '\x0c' || c == '\r'

/-- What a directive has read, what is left, and whether it has met the end. -/
structure Scan where
  read : List Char
  left : List Char
  hit : Bool
deriving DecidableEq, Repr

/-- Read characters of a set, at most a number of them.  After that number the next character is not
looked at. -/
def scanN (p : Char → Bool) : Nat → List Char → Scan
  | 0, s => ⟨[], s, false⟩
  | _ + 1, [] => ⟨[], [], true⟩
  | w + 1, c :: s =>
    if p c then let r := scanN p w s; ⟨c :: r.read, r.left, r.hit⟩ else ⟨[], c :: s, false⟩

/-- Read characters of a set, with a width or without. -/
def scan (p : Char → Bool) (w : Option Nat) (s : List Char) : Scan :=
  scanN p (w.getD (s.length + 1)) s

/-- The characters of a scan set, with its ranges.  (A `]` in the set and ranges whose ends are the
wrong way round are left out.) -/
def rangeIn : List Char → Char → Bool
  | a :: '-' :: b :: s, c => (decide (a ≤ c) && decide (c ≤ b)) || rangeIn s c
  | a :: s, c => a == c || rangeIn s c
  | [], _ => false

/-- The directive `%[set]`, or `%[^set]`. -/
def scanSet (inex : Bool) (set : List Char) (c : Char) : Bool :=
  match inex, set with
  | true, s => !rangeIn s c
  | false, '^' :: s => !rangeIn s c
  | false, s => rangeIn s c

/-- Store characters at the start of the memory. -/
def store (mem s : List Char) : List Char := s ++ mem.drop s.length

/-! ## C strings -/

/-- What is read: a word, the characters of a set (`incl`) or not of a set (`excl`), a line up to a
character (`getline`), or one character of which the delimiter is removed (`quote` of a `char`). -/
inductive Kind where
  | word
  | set (inex : Bool) (set : List Char)
  | line (d : Char)
  | chr
deriving DecidableEq, Repr

/-- A manipulator (iostream.hfa 430-450).  The width is `none` for -1. -/
structure Fmt where
  kind : Kind
  wd : Option Nat
  rwd : Bool
  ignore : Bool
deriving DecidableEq, Repr

/-- `wdi( wd, s )` (iostream.hfa 464-467), for widths that it accepts. -/
def wdi (n : Nat) (k : Kind) : Fmt := ⟨k, some n, false, false⟩

/-- `wdi( wd, rwd, s )` (iostream.hfa 468-471), for widths that it accepts. -/
def wdi2 (r : Nat) (k : Kind) : Fmt := ⟨k, some r, true, false⟩

/-- The last step of reading a string: if there is data and the scan has ended at the end of the
input, the end is to be seen again (iostream.cfa 1149-1151). -/
def finish (args : Int) (mem inp : List Char) (eof : Bool) : Res :=
  ⟨mem, ⟨inp, if args = 1 ∧ eof then false else eof⟩, none⟩

/-- Reading a string (iostream.cfa 1049-1153).  `args` is what `scanf` returns: -1 at the end of the
input, and otherwise the number of items that are assigned. -/
def readStr (f : Fmt) (mem : List Char) (st : In) : Res :=
  if st.eof then ⟨mem, st, some .endOfFile⟩ else
  let check := !f.ignore && !(f.wd.isSome && f.rwd)
  let rwd : Option Nat := f.wd.map fun w => if f.rwd then w else w - 1
  match f.kind with
  | .word =>
    let sp := scan isSpace none st.inp
    let r := scan (fun c => !isSpace c) rwd sp.left
    if r.read = [] then ⟨mem, ⟨r.left, true⟩, some .endOfFile⟩ else
    let mem := if f.ignore then mem else store mem (r.read ++ ['\x00'])
    let args : Int := if f.ignore then 0 else 1
    if check ∧ sp.read.length + r.read.length ≥ rwd.getD 0 ∧ r.hit = false then
      match r.left with
      | [] => finish args mem [] true
      | c :: s => if isSpace c then finish args mem (c :: s) false
          else ⟨mem, ⟨c :: s, false⟩, some .cstringLength⟩
    else finish args mem r.left r.hit
  | .line d =>
    let r := scan (fun c => c != d) rwd st.inp
    if r.read = [] ∧ r.hit then ⟨mem, ⟨r.left, true⟩, some .endOfFile⟩ else
    let args : Int := if f.ignore ∨ r.read = [] then 0 else 1
    let mem := if f.ignore then mem else store mem (r.read ++ ['\x00'])
    if check ∧ r.read.length = rwd.getD 0 ∧ r.hit = false then
      match r.left with
      | [] => finish args mem [] true
      | c :: s => if c ≠ d then ⟨mem, ⟨c :: s, false⟩, some .cstringLength⟩
          else finish args mem s false
    else finish args mem (r.left.drop 1) (r.hit || r.left.isEmpty)
  | .chr =>
    let r := scan (fun _ => true) rwd st.inp
    if r.read = [] then ⟨mem, ⟨r.left, true⟩, some .endOfFile⟩ else
    let args : Int := if f.ignore then 0 else 1
    let mem := if f.ignore then mem else store mem r.read
    finish args mem (r.left.drop 1) (r.hit || r.left.isEmpty)
  | .set inex set =>
    let r := scan (scanSet inex set) rwd st.inp
    if r.read = [] ∧ r.hit then ⟨mem, ⟨r.left, true⟩, some .endOfFile⟩ else
    let args : Int := if f.ignore ∨ r.read = [] then 0 else 1
    let mem := if f.ignore then mem else store mem (r.read ++ ['\x00'])
    if check ∧ r.read.length = rwd.getD 0 ∧ r.hit = false then
      match r.left with
      | [] => finish args mem [] true
      | c :: s => if (inex ^^ set.contains c) = true then ⟨mem, ⟨c :: s, false⟩, some .cstringLength⟩
          else finish args mem (c :: s) false
    else finish args mem r.left r.hit

/-- Reading a quoted string or character (iostream.cfa 1024-1047); `rd` is the delimiter at the end,
or null if it is that of the start.  The manipulator says whether it is a string, of kind `line`, or a
character, of kind `chr`. -/
def readQuote (ld rd : Char) (f : Fmt) (mem : List Char) (st : In) : Res :=
  if st.eof then ⟨mem, st, some .endOfFile⟩ else
  match (scan isSpace none st.inp).left with
  | [] => ⟨mem, ⟨[], true⟩, none⟩
  | c :: s =>
    if c = ld then
      let k := match f.kind with
        | .chr => Kind.chr
        | _ => .line (if rd = '\x00' then ld else rd)
      readStr { f with kind := k } mem ⟨s, false⟩
    else ⟨if f.ignore then mem else store mem ['\x00'], ⟨c :: s, false⟩, none⟩

/-- `quote( ch )` (iostream.hfa 475-477). -/
def quoteChr : Fmt := ⟨.chr, some 1, true, false⟩

/-! ## The end of a line -/

/-- `nl` (iostream.cfa 984-988). -/
def nl (st : In) : In :=
  let r := scan (fun c => c != '\n') none st.inp
  if r.hit then ⟨[], true⟩ else ⟨r.left.drop 1, false⟩

/-! ## Enumerators -/

/-- The state of the inner loop of the match: the lengths of the labels that can still match (0 for
the others), the label that matches exactly, and whether a character has matched. -/
structure Col where
  lens : Nat → Nat
  exact : Option Nat
  found : Bool

/-- One step of the inner loop (iostream.cfa 1259-1269), for column `c`, character `ch` and the label
of number `r`. -/
def colStep (labels : List (List Char)) (c : Nat) (ch : Char) (x : Col) (r : Nat) : Col :=
  if x.lens r > c ∧ (labels.getD r [])[c]? = some ch then
    { x with
      found := true
      exact :=
        if x.lens r - 1 = c then some r
        else match x.exact with
          | some e => if x.lens e ≤ c then none else some e
          | none => none }
  else { x with lens := fun i => if i = r then 0 else x.lens i }

/-- After reading an enumerator: its number or an exception, and the stream. -/
structure ERes where
  val : Except Exc Nat
  st : In

/-- The outer loop (iostream.cfa 1243-1285); `k` columns are left.  The last case, in which there is
no exact match after the loop and `fromInt` aborts, is given as `missingData`. -/
def enumLoop (labels : List (List Char)) : Nat → Nat → (Nat → Nat) → Option Nat → List Char → ERes
  | 0, _, _, exact, s =>
    match exact with
    | some e => ⟨.ok e, ⟨s, false⟩⟩
    | none => ⟨.error .missingData, ⟨s, false⟩⟩
  | _ + 1, _, _, exact, [] =>
    match exact with
    | some e => ⟨.ok e, ⟨[], true⟩⟩
    | none => ⟨.error .missingData, ⟨[], false⟩⟩
  | k + 1, c, lens, exact, ch :: s =>
    if isSpace ch then
      match exact with
      | some e => ⟨.ok e, ⟨s, false⟩⟩
      | none => ⟨.error .missingData, ⟨s, false⟩⟩
    else
      let x := (List.range labels.length).foldl (colStep labels c ch) ⟨lens, exact, false⟩
      if x.found then enumLoop labels k (c + 1) x.lens x.exact s
      else match x.exact with
        | some e => ⟨.ok e, ⟨ch :: s, false⟩⟩
        | none => ⟨.error .missingData, ⟨s, false⟩⟩

/-- The longest label (iostream.cfa 1225-1233). -/
def maxLen (labels : List (List Char)) : Nat := labels.foldl (fun m l => max m l.length) 0

/-- Reading an enumerator (iostream.cfa 1223-1286); an enumeration is its labels. -/
def readEnum (labels : List (List Char)) (st : In) : ERes :=
  match (scan isSpace none st.inp).left with
  | [] => ⟨.error .endOfFile, ⟨[], true⟩⟩
  | s => enumLoop labels (maxLen labels) 0 (fun r => (labels.getD r []).length) none s

/-! ## 128-bit integers -/

/-- A decimal digit. -/
def isDigit (c : Char) : Bool := decide (48 ≤ c.toNat) && decide (c.toNat ≤ 57)

/-- After reading an integer of 128 bits (iostream.cfa 897-911): the new value, unless it stays, and how
many characters are stored in the array `s` of 40, at most, by the directives. -/
structure IRes where
  val : Option Nat
  stored : Nat
  left : List Char
deriving DecidableEq, Repr

/-- Reading an integer of 128 bits (iostream.cfa 897-911). -/
def readInt128 (inp : List Char) : IRes :=
  let sp := scan isSpace none inp
  let m := scan (fun c => c == '-') none sp.left
  let d := scan isDigit (some 39) m.left
  let st1 := if m.read = [] then 0 else m.read.length + 1
  if d.read = [] then ⟨none, st1, m.left⟩ else
  let v := d.read.foldl (fun v c => (v * 10 + c.toNat - 48) % 2 ^ 128) 0
  ⟨some (if m.read = [] then v else (2 ^ 128 - v) % 2 ^ 128), max st1 (d.read.length + 1),
    (scan isDigit none d.left).left⟩

end Verif.StrInput
