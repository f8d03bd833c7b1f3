import Verif.Model.Args

/-!
# Numbers and command lines as their users write them
-/

namespace Verif.Args

/-! ## Numbers -/

/-- White space. -/
def whites : Str := [' ', '\t', '\n', '\x0b', '\x0c', '\r']

/-- The digits and their values. -/
def digitTable : List (Char × Nat) :=
  [('0', 0), ('1', 1), ('2', 2), ('3', 3), ('4', 4), ('5', 5), ('6', 6), ('7', 7), ('8', 8), ('9', 9),
   ('a', 10), ('b', 11), ('c', 12), ('d', 13), ('e', 14), ('f', 15),
   ('A', 10), ('B', 11), ('C', 12), ('D', 13), ('E', 14), ('F', 15)]

/-- The characters are digits in base `b` and have this value. -/
inductive Digits (b : Nat) : Str → Nat → Prop
  | nil : Digits b [] 0
  | snoc {s : Str} {n : Nat} {c : Char} {d : Nat} (hs : Digits b s n) (hc : (c, d) ∈ digitTable)
      (hd : d < b) : Digits b (s ++ [c]) (n * b + d)

/-- An unsigned number as C writes it: decimal not starting with 0, octal with 0, hexadecimal with
`0x`. -/
inductive Number : Str → Nat → Prop
  | dec {s : Str} {n : Nat} (h : Digits 10 s n) (hne : s ≠ []) (h0 : s.head? ≠ some '0') : Number s n
  | oct {s : Str} {n : Nat} (h : Digits 8 s n) : Number ('0' :: s) n
  | hex {s : Str} {n : Nat} {x : Char} (hx : x = 'x' ∨ x = 'X') (h : Digits 16 s n) (hne : s ≠ []) :
      Number ('0' :: x :: s) n

/-- White space, a sign or none, and a number. -/
inductive SignedNumber : Str → Int → Prop
  | pos {sp s : Str} {n : Nat} (hsp : ∀ c ∈ sp, c ∈ whites) (h : Number s n) :
      SignedNumber (sp ++ s) n
  | plus {sp s : Str} {n : Nat} (hsp : ∀ c ∈ sp, c ∈ whites) (h : Number s n) :
      SignedNumber (sp ++ '+' :: s) n
  | minus {sp s : Str} {n : Nat} (hsp : ∀ c ∈ sp, c ∈ whites) (h : Number s n) :
      SignedNumber (sp ++ '-' :: s) (-(n : Int))

/-! ## Command lines -/

/-- Something on a command line: an operand, or a use of option number `i` with its argument (empty
for a flag), by its short or its long name; the argument in the same word (after `=` or not for a
short name) or in the next. -/
inductive Item where
  | operand (w : Str)
  | short (i : Nat) (arg : Str) (attached : Bool)
  | shortEq (i : Nat) (arg : Str)
  | long (i : Nat) (arg : Str) (attached : Bool)

variable {V : Type}

/-- The words of an item. -/
def Item.words (os : List (Opt V)) : Item → List Str
  | .operand w => [w]
  | .short i arg att =>
    match os[i]? with
    | some ⟨some c, _, true, _⟩ => [['-', c]]
    | some ⟨some c, _, false, _⟩ => if att then ['-' :: c :: arg] else [['-', c], arg]
    | _ => []
  | .shortEq i arg =>
    match os[i]? with
    | some ⟨some c, _, false, _⟩ => ['-' :: c :: '=' :: arg]
    | _ => []
  | .long i arg att =>
    match os[i]? with
    | some ⟨_, some n, true, _⟩ => ['-' :: '-' :: n]
    | some ⟨_, some n, false, _⟩ =>
      if att then ['-' :: '-' :: (n ++ '=' :: arg)] else ['-' :: '-' :: n, arg]
    | _ => []

/-- An item that can be written: an operand does not look like an option; an option has the name used;
an argument in the word of a short option is not empty; and no argument starts with `=`, unless it is
written after `=`. -/
def Item.Ok (os : List (Opt V)) : Item → Prop
  | .operand w => w = ['-'] ∨ w.head? ≠ some '-'
  | .short i arg att => ∃ o, os[i]? = some o ∧ o.short ≠ none ∧ (o.isFlag = true → arg = []) ∧
      (att = true → o.isFlag = false → arg ≠ []) ∧ arg.head? ≠ some '='
  | .shortEq i _ => ∃ o, os[i]? = some o ∧ o.short ≠ none ∧ o.isFlag = false
  | .long i arg _ => ∃ o, os[i]? = some o ∧ o.long ≠ none ∧ (o.isFlag = true → arg = []) ∧
      arg.head? ≠ some '='

/-- The operands. -/
def operands : List Item → List Str
  | [] => []
  | .operand w :: is => w :: operands is
  | _ :: is => operands is

/-- What the items do to the variables, one after the other; `none` if an argument cannot be
parsed. -/
def effect (os : List (Opt V)) : List Item → (Nat → V) → Option (Nat → V)
  | [], x => some x
  | .operand _ :: is, x => effect os is x
  | .short i arg _ :: is, x | .shortEq i arg :: is, x | .long i arg _ :: is, x =>
    match os[i]? with
    | none => none
    | some o =>
      if (o.parse arg (x i)).1 = true then
        effect os is (fun j => if j = i then (o.parse arg (x i)).2 else x j)
      else none

/-- Options that make sense: all have a long name; no name is used twice; none is `h`, `?`, `-`,
`+`, `:` or `;` (the last four mean something to `getopt_long`) and no long name is empty or `help`, or contains `=`. -/
structure OptsOk (os : List (Opt V)) : Prop where
  named : ∀ o ∈ os, o.long ≠ none
  shorts : (os.filterMap Opt.short).Nodup
  longs : (os.filterMap Opt.long).Nodup
  letters : ∀ c ∈ os.filterMap Opt.short, c ∉ ['h', '?', '-', '+', ':', ';']
  names : ∀ n ∈ os.filterMap Opt.long, n ≠ [] ∧ n ≠ "help".toList ∧ '=' ∉ n

/-! ## Text in lines -/

/-- The text broken into pieces of at most `hw` characters: at each newline, which is dropped, and
elsewhere only where a piece is full. -/
inductive Pieces (hw : Nat) : List Str → Str → Prop
  | last {p : Str} (hn : '\n' ∉ p) (hl : p.length ≤ hw) : Pieces hw [p] p
  | lastNewline {p : Str} (hn : '\n' ∉ p) (hl : p.length ≤ hw) : Pieces hw [p] (p ++ ['\n'])
  | line {p t : Str} {ps : List Str} (hn : '\n' ∉ p) (hl : p.length ≤ hw) (ht : t ≠ [])
      (h : Pieces hw ps t) : Pieces hw (p :: ps) (p ++ '\n' :: t)
  | full {p t : Str} {ps : List Str} (hn : '\n' ∉ p) (hl : p.length = hw) (ht : t ≠ [])
      (ht' : t.head? ≠ some '\n') (h : Pieces hw ps t) : Pieces hw (p :: ps) (p ++ t)

end Verif.Args
