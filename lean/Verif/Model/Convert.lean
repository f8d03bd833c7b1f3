/-
  The conversion of character strings to integers: /repo/libcfa/src/stdlib.cfa:136-145 and the functions
  `strto` of /repo/libcfa/src/stdlib.hfa:338-345, for a 64-bit `long`.  `strtol` and `strtoul` are those
  of C (in the "C" locale, base 10).  A string is the list of its characters before the terminating null.
-/
namespace Verif.Convert

/-- C `isspace`. -/
def isspace (c : Char) : Bool :=
  c == ' ' || c == '\t' || c == '\n' || c == '\r' || c == '\x0b' || c == '\x0c'

/-- C `isblank`. -/
def isblank (c : Char) : Bool := c == ' ' || c == '\t'

/-- `checkif`: /repo/libcfa/src/stdlib.cfa:66-72. -/
def checkif (kind : Char → Bool) : List Char → Bool
  | [] => true
  | c :: s => if !kind c then false else checkif kind s

/-- The value of a list of digits. -/
def digits (ds : List Char) : Nat := ds.foldl (fun n c => n * 10 + (c.toNat - '0'.toNat)) 0

/-- What C's conversions report: the value, what follows it, whether there was a digit at all
(if not, `eptr == sptr`), and whether `errno` is `ERANGE`. -/
structure Scan where
  val : Int
  rest : List Char
  any : Bool
  erange : Bool
deriving DecidableEq, Repr

/-- The optional sign. -/
def sign : List Char → Bool × List Char
  | [] => (false, [])
  | c :: s => if c = '-' then (true, s) else if c = '+' then (false, s) else (false, c :: s)

/-- C `strtol`. -/
def strtol (s : List Char) : Scan :=
  let p := sign (s.dropWhile isspace)
  let ds := p.2.takeWhile Char.isDigit
  if ds = [] then ⟨0, s, false, false⟩
  else
    let n : Int := if p.1 then -(digits ds : Int) else digits ds
    let rest := p.2.dropWhile Char.isDigit
    if 2 ^ 63 ≤ n then ⟨2 ^ 63 - 1, rest, true, true⟩
    else if n < -2 ^ 63 then ⟨-2 ^ 63, rest, true, true⟩
    else ⟨n, rest, true, false⟩

/-- C `strtoul`: a minus sign negates the result, in the unsigned type. -/
def strtoul (s : List Char) : Scan :=
  let p := sign (s.dropWhile isspace)
  let ds := p.2.takeWhile Char.isDigit
  if ds = [] then ⟨0, s, false, false⟩
  else
    let rest := p.2.dropWhile Char.isDigit
    if 2 ^ 64 ≤ digits ds then ⟨2 ^ 64 - 1, rest, true, true⟩
    else ⟨(if p.1 then -(digits ds : Int) else digits ds) % 2 ^ 64, rest, true, false⟩

/-- `(int)x` for a `long`. -/
def toInt (x : Int) : Int := (x + 2 ^ 31) % 2 ^ 32 - 2 ^ 31

/-- The target types. -/
inductive Target
  | int
  | uint
  | long
  | ulong
deriving DecidableEq, Repr

/-- `strto`: /repo/libcfa/src/stdlib.hfa:338-345. -/
def strto (t : Target) (s : List Char) : Scan :=
  match t with
  | .int => let r := strtol s; { r with val := toInt r.val }
  | .uint => let r := strtoul s; { r with val := r.val % 2 ^ 32 }
  | .long => strtol s
  | .ulong => strtoul s

inductive Conv
  | value (v : Int)
  | outOfRange
  | invalidArgument
deriving DecidableEq, Repr

/-- `convert`: /repo/libcfa/src/stdlib.cfa:136-145. -/
def convert (t : Target) (s : List Char) : Conv :=
  let r := strto t s
  if r.erange then .outOfRange
  else if !r.any || (!r.rest.isEmpty && !checkif isblank r.rest) then .invalidArgument
  else .value r.val

end Verif.Convert
