import Mathlib.Data.List.Basic

/-!
# Command-line options (`libcfa/src/parseargs.cfa`)

`parse_args` makes the tables for `getopt_long` from the options, and gives what it returns to the
parse functions.  Characters are ASCII.
-/

namespace Verif.Args

/-- A string. -/
abbrev Str := List Char

/-! ## Values -/

/-- `isspace` in the C locale. -/
def isSpace (c : Char) : Bool :=
  c == ' ' || c == '\t' || c == '\n' || c == '\x0b' || c == '\x0c' || c == '\r'

/-- The value of a digit of `strtoll`; 99 for other characters.  (Bases above 16 are not used.) -/
def digitVal (c : Char) : Nat :=
  if 48 ≤ c.toNat ∧ c.toNat ≤ 57 then c.toNat - 48
  else if 97 ≤ c.toNat ∧ c.toNat ≤ 102 then c.toNat - 87
  else if 65 ≤ c.toNat ∧ c.toNat ≤ 70 then c.toNat - 55
  else 99

/-- `isdigit`. -/
def isDigit (c : Char) : Bool := decide (digitVal c < 10)

/-- The value of a sequence of digits. -/
def value (b : Nat) (s : Str) : Nat := s.foldl (fun n c => n * b + digitVal c) 0

/-- The digits and the rest after the sign and the prefix, for base 0 (C11 7.22.1.4): hexadecimal
after `0x` and a hexadecimal digit, octal after `0`, decimal otherwise.  The result is the base, the
digits and the rest.  (The prefix `0b` of C23 is not there.) -/
def numeral (s : Str) : Nat × Str × Str :=
  match s with
  | '0' :: x :: d :: t =>
    if (x = 'x' ∨ x = 'X') ∧ digitVal d < 16 then
      (16, (d :: t).takeWhile (fun c => digitVal c < 16), (d :: t).dropWhile (fun c => digitVal c < 16))
    else (8, s.takeWhile (fun c => digitVal c < 8), s.dropWhile (fun c => digitVal c < 8))
  | '0' :: _ => (8, s.takeWhile (fun c => digitVal c < 8), s.dropWhile (fun c => digitVal c < 8))
  | _ => (10, s.takeWhile (fun c => digitVal c < 10), s.dropWhile (fun c => digitVal c < 10))

/-- The sign. -/
def sign (s : Str) : Bool × Str :=
  match s with
  | '-' :: t => (true, t)
  | '+' :: t => (false, t)
  | _ => (false, s)

/-- `strtoll( arg, &end, 0 )` and `strtoull( arg, &end, 0 )` before the range is looked at (C11
7.22.1.4): the sign, the magnitude and `end`.  Without digits `end` is `arg`. -/
def strto (arg : Str) : Bool × Nat × Str :=
  let sg := sign (arg.dropWhile isSpace)
  let nm := numeral sg.2
  if nm.2.1 = [] then (false, 0, arg) else (sg.1, value nm.1 nm.2.1, nm.2.2)

/-- The number with its sign. -/
def signed (neg : Bool) (n : Nat) : Int := if neg then -(n : Int) else n

/-- `parse( const char *, int & )` (parseargs.cfa 338-349); `errno` is set when the number does not
fit a `long long int`. -/
def parseInt (arg : Str) : Option Int :=
  let r := strto arg
  let n := signed r.1 r.2.1
  if n < -9223372036854775808 ∨ 9223372036854775807 < n then none
  else if r.2.2 ≠ [] then none
  else if n > 2147483647 then none
  else if n < -2147483648 then none
  else some n

/-- `strict_strtoull( arg, 0 )` (parseargs.cfa 351-373): `none` when it leaves `errno` set.  White
space is passed, and a digit has to follow it. -/
def strictStrtoull (arg : Str) : Option Nat :=
  match arg.dropWhile isSpace with
  | [] => none
  | c :: _ =>
    if isDigit c = false then none
    else
      let r := strto arg
      if r.2.2 ≠ [] then none
      else if 18446744073709551615 < r.2.1 then none
      else some r.2.1

/-- `parse( const char *, unsigned & )` and the others (parseargs.cfa 375-397), by the largest
value of the type. -/
def parseUnsigned (maxVal : Nat) (arg : Str) : Option Nat :=
  match strictStrtoull arg with
  | none => none
  | some r => if r > maxVal then none else some r

/-- `parse_yesno` (parseargs.cfa 283-309). -/
def parseYesno (arg : Str) : Option Bool :=
  if arg = "yes".toList then some true
  else if arg = ['Y'] then some true
  else if arg = ['y'] then some true
  else if arg = "no".toList then some false
  else if arg = ['N'] then some false
  else if arg = ['n'] then some false
  else none

/-- `parse_truefalse` (parseargs.cfa 311-321). -/
def parseTruefalse (arg : Str) : Option Bool :=
  if arg = "true".toList then some true
  else if arg = "false".toList then some false
  else none

/-! ## Options -/

/-- `cfa_option` (parseargs.hfa 20-27).  `isFlag`: the parse function is `parse_settrue` or
`parse_setfalse`.  `long` is `none` for a null pointer.  `parse` answers whether the argument could be
parsed, and the variable after it; the variables are different objects. -/
structure Opt (V : Type) where
  short : Option Char
  long : Option Str
  isFlag : Bool
  parse : Str → V → Bool × V

variable {V : Type}

/-- `maxv` after the first loop (parseargs.cfa 95-101); 104 is `'h'`. -/
def maxShort (os : List (Opt V)) : Nat :=
  os.foldl (fun m o => match o.short with | some c => max c.toNat m | none => m) 104

/-- The values of the options (parseargs.cfa 118-122).  That of an option without long name is what
its constructor left there, 0 (parseargs.hfa 35). -/
def vals : Nat → List (Opt V) → List Nat
  | _, [] => []
  | m, o :: os =>
    match o.long with
    | none => 0 :: vals m os
    | some _ =>
      match o.short with
      | some c => c.toNat :: vals m os
      | none => (m + 1) :: vals (m + 1) os

/-- `optstring` (parseargs.cfa 96-113): the characters, and whether a colon follows. -/
def shortTable (os : List (Opt V)) : List (Char × Bool) :=
  os.filterMap (fun o => o.short.map fun c => (c, !o.isFlag)) ++ [('h', false)]

/-- `optarr` (parseargs.cfa 115-138): the long names, whether an argument is required, the values. -/
def longTable (os : List (Opt V)) (vs : List Nat) : List (Str × Bool × Nat) :=
  (os.zip vs).filterMap (fun p => p.1.long.map fun n => (n, !p.1.isFlag, p.2)) ++
    [("help".toList, false, 104)]

/-- What a call of `getopt_long` gives: the value, and `optarg`. -/
abbrev Event := Nat × Option Str

/-- The letters of a word after `-` (`getopt`): each is a flag, up to one that takes an argument: the
rest of the word, or the next word.  63 is `'?'`.  The second result: whether the next word is the
argument. -/
def letters (st : List (Char × Bool)) (next : Option Str) : Str → List Event × Bool
  | [] => ([], false)
  | c :: cs =>
    match st.lookup c with
    | none => ([(63, none)], false)
    | some false => let r := letters st next cs; ((c.toNat, none) :: r.1, r.2)
    | some true =>
      match cs with
      | [] =>
        match next with
        | none => ([(63, none)], false)
        | some w => ([(c.toNat, some w)], true)
      | _ => ([(c.toNat, some cs)], false)

/-- A word after `--` (`getopt_long`): a name, and an argument after `=` or in the next word.
(Abbreviated names are left out: they are errors here.) -/
def longWord (lt : List (Str × Bool × Nat)) (next : Option Str) (w : Str) : Event × Bool :=
  let name := w.takeWhile fun c => c != '='
  let arg := (w.dropWhile fun c => c != '=').tail?
  match lt.find? (fun e => e.1 = name) with
  | none => ((63, none), false)
  | some (_, false, v) =>
    match arg with
    | none => ((v, none), false)
    | some _ => ((63, none), false)
  | some (_, true, v) =>
    match arg with
    | some a => ((v, some a), false)
    | none =>
      match next with
      | none => ((63, none), false)
      | some w => ((v, some w), true)

/-- The calls of `getopt_long` for the words of a command line, and the operands it leaves: a word
that does not start with `-`, or is `-` alone, is an operand, and the options after it are found
nevertheless (the environment variable `POSIXLY_CORRECT` is not set); after `--` all words are
operands.  The first argument bounds the number of words. -/
def getopt (st : List (Char × Bool)) (lt : List (Str × Bool × Nat)) :
    Nat → List Str → List Event × List Str
  | 0, _ => ([], [])
  | _ + 1, [] => ([], [])
  | f + 1, w :: ws =>
    match w with
    | ['-', '-'] => ([], ws)
    | '-' :: '-' :: n =>
      let e := longWord lt ws.head? n
      let r := getopt st lt f (if e.2 then ws.tail else ws)
      (e.1 :: r.1, r.2)
    | '-' :: c :: cs =>
      let e := letters st ws.head? (c :: cs)
      let r := getopt st lt f (if e.2 then ws.tail else ws)
      (e.1 ++ r.1, r.2)
    | _ => let r := getopt st lt f ws; (r.1, w :: r.2)

/-- How `parse_args` ends. -/
inductive Outcome (V : Type) where
  | returned (vars : Nat → V) (left : List Str)
  | exited (code : Nat)
  | aborted

/-- An assignment to the variable of option `j`. -/
def setVar (x : Nat → V) (j : Nat) (v : V) : Nat → V := fun i => if i = j then v else x i

/-- `arg` of a call (parseargs.cfa 156-157). -/
def argument (a : Option Str) : Str :=
  match a.getD [] with
  | '=' :: t => t
  | s => s

/-- The loop of `parse_args` (parseargs.cfa 140-170): `h` prints the usage and ends the program with
0, an error or an argument that cannot be parsed with 1. -/
def handle (os : List (Opt V)) (vs : List Nat) (left : List Str) :
    List Event → (Nat → V) → Outcome V
  | [], x => .returned x left
  | (c, a) :: es, x =>
    if c = 104 then .exited 0
    else if c = 63 then .exited 1
    else
      match vs.findIdx? (fun v => v = c) with
      | none => .aborted
      | some i =>
        match os[i]? with
        | none => .aborted
        | some o =>
          let r := o.parse (argument a) (x i)
          if r.1 = true then handle os vs left es (setVar x i r.2) else .exited 1

/-- `check_args` (parseargs.cfa 57-70): two options with one short name, or with one long name.
(Comparing a null long name is not modelled: two options without long name are let through.) -/
def checkArgs (os : List (Opt V)) : Bool :=
  decide (os.filterMap Opt.short).Nodup && decide (os.filterMap Opt.long).Nodup

/-- `parse_args` (parseargs.cfa 86-171) on the words after the name of the program. -/
def parseArgs (os : List (Opt V)) (ws : List Str) (x : Nat → V) : Outcome V :=
  if checkArgs os = false then .aborted
  else
    let vs := vals (maxShort os) os
    let g := getopt (shortTable os) (longTable os vs) (ws.length + 1) ws
    handle os vs g.2 g.1 x

/-! ## The help text of an option -/

/-- `next_newline` (parseargs.cfa 173-184); 2147483647 is `MAX`. -/
def nextNewline (s : Str) : Nat :=
  if '\n' ∈ s then (s.takeWhile fun c => c != '\n').length else 2147483647

/-- The width for the text (parseargs.cfa 191-192), from the columns of the terminal and the longest
name. -/
def helpWidth (cols width : Nat) : Nat := if cols ≤ 11 + width then cols else cols - (11 + width)

/-- The loop of `printopt` (parseargs.cfa 215-226): the pieces of the text, each printed on a line of
its own.  `none`: not finished after that many pieces. -/
def wrap (hw : Nat) : Nat → Str → Option (List Str)
  | 0, _ => none
  | f + 1, s =>
    let nl := nextNewline s
    let real := min (min s.length hw) nl
    let rest := if nl = real then (s.drop real).tail else s.drop real
    if rest = [] then some [s.take real] else (wrap hw f rest).map (s.take real :: ·)

end Verif.Args
