import Mathlib.Data.List.Basic

/-!
Lists of processors such as `0-3,8`: the iterator over them (algorithms/range_iterator.cfa), their width
and the table that the run-time builds at its start (device/cpu.cfa).  A text is a list of characters and
ends where the list ends.
-/
namespace Verif.CpuList

/-- `isspace` of the C library, as `%u` uses it (range_iterator.cfa 29). -/
def isSpace (c : Char) : Bool := c == ' ' || (decide (9 ≤ c.toNat) && decide (c.toNat ≤ 13))
/-- `isdigit` of the C library, as `%u` and `strtoul` use it (range_iterator.cfa 29, cpu.cfa 54). -/
def isDigit (c : Char) : Bool := decide (48 ≤ c.toNat) && decide (c.toNat ≤ 57)

/-- The number of some digits, as `%u` and `strtoul` compute it (range_iterator.cfa 29, cpu.cfa 54). -/
def number (ds : List Char) : Nat := ds.foldl (fun v c => v * 10 + (c.toNat - 48)) 0

/-- An `unsigned` that is stored in an `int` (range_iterator.cfa 29: `%u` with the address of an `int`). -/
def toInt (n : Nat) : Int := (n : Int).bmod 4294967296

/-- What a conversion of `sscanf` finds (range_iterator.cfa 29). -/
inductive Conv where
  /-- the text ends before it -/
  | eof
  /-- the text does not match -/
  | fail
  | ok (v : Nat) (rest : List Char)
  deriving DecidableEq, Repr

/-- `%u` of the C library (range_iterator.cfa 29): white space, a sign, digits.  A number that does not fit in `unsigned long` is
its largest one, and a minus sign negates. -/
def convU (s : List Char) : Conv :=
  let s := s.dropWhile isSpace
  match s with
  | [] => .eof
  | c :: t =>
    let r := if c = '-' ∨ c = '+' then t else s
    let ds := r.takeWhile isDigit
    if ds = [] then .fail else
    let v := min (number ds) (2 ^ 64 - 1) % 2 ^ 32
    .ok (if c = '-' then (2 ^ 32 - v) % 2 ^ 32 else v) (r.dropWhile isDigit)

/-- The iterator from a text on (range_iterator.cfa 24-64): the values of `com` at its stops, and whether
it ends without `exit`.  The first argument bounds the rounds of the loop.  The largest `int` as the end of
a range is not modelled (`com++` overflows). -/
def iter : Nat → List Char → List Int × Bool
  | 0, _ => ([], false)
  | f + 1, text =>
    let after := fun (vs : List Int) (rest : List Char) =>
      if rest = [] then (vs, true) else
      let (ws, ok) := iter f rest
      (vs ++ ws, ok)
    match convU text with
    | .eof => ([], false)
    | .fail => if text.headD '\x00' = ',' then iter f text.tail else ([], false)
    | .ok a rest =>
      match rest with
      | '-' :: t =>
        match convU t with
        | .ok b rest' =>
          if toInt a > toInt b then ([], false)
          else after ((List.range (toInt b - toInt a + 1).toNat).map fun k : Nat => toInt a + (k : Int)) rest'
        | _ => after [toInt a] rest
      | _ => after [toInt a] rest

/-- `while( moveNext( rc ) )` (range_iterator.hfa 29): the values of `com` for which the body is run, to
the first that is negative, and whether the loop ends without `exit`. -/
def visit (text : List Char) : List Int × Bool :=
  let (vs, ok) := iter (text.length + 1) text
  (vs.takeWhile (fun v => decide (0 ≤ v)), ok)

/-- `read_value` (cpu.cfa 53-59), an `unsigned`, without its checks. -/
def readValue (s : List Char) : Nat := min (number (s.takeWhile isDigit)) (2 ^ 64 - 1) % 2 ^ 32

/-- `read_width` without a comma (cpu.cfa 79-93). -/
def widthPart (s : List Char) : Nat :=
  if '-' ∈ s then
    let lhs := readValue (s.takeWhile (fun c => c != '-'))
    let rhs := readValue (s.dropWhile (fun c => c != '-')).tail
    (rhs + 2 ^ 32 - lhs + 1) % 2 ^ 32
  else 1

/-- `read_width` (cpu.cfa 66-94).  The first argument bounds the depth of the recursion. -/
def width : Nat → List Char → Nat
  | 0, _ => 0
  | f + 1, s =>
    if ',' ∈ s then
      let lhs := widthPart (s.takeWhile (fun c => c != ','))
      let rhs := width f (s.dropWhile (fun c => c != ',')).tail
      (lhs + rhs) % 2 ^ 32
    else widthPart s

/-- The text that `count_cpus` (cpu.cfa 149-166) keeps of a file: at most 128 characters, without the last of
them, which is the end of the line if the file is not longer.  The checks with `verify`, which are compiled only
in the debug mode of the library, are not modelled. -/
def kept (file : List Char) : List Char := (file.take 128).dropLast

/-- `count_cpus` (cpu.cfa 149-166): the number of processors that it finds, as an `unsigned`. -/
def countCpus (file : List Char) : Nat := width ((kept file).length + 1) (kept file)

/-- The indices at which `build_raw_cache_table` (cpu.cfa 241-262) writes its table of `countCpus` elements. -/
def written (file : List Char) : List Int := (visit (kept file)).1

end Verif.CpuList
