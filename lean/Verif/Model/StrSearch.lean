import Verif.Model.Base
/-!
String searching and slicing, on the character sequences of strings (Model/StrHeap.lean models where the characters are stored).
Lengths and positions are natural numbers or integers: the narrowing of `size_t` to `int` and overflow of `ssize_t` are not modelled.
-/
namespace Verif.StrSearch
open Verif

/-- memchr from position `i` on, `n` characters left. -/
def memchr (s : List Nat) (c : Nat) : Nat → Nat → Option Nat
  | _, 0 => none
  | i, n + 1 => if s.getD i 0 = c then some i else memchr s c (i + 1) n

/-- string_res.cfa:818-827 (`findFrom` of a character). A start position past the end makes `searchLnth` wrap around, and memchr reads
    outside the string. -/
def findChar (s : List Nat) (fromPos c : Nat) : Outcome Nat :=
  if s.length < fromPos then .undef
  else match memchr s c fromPos (s.length - fromPos) with
    | none => .ret s.length
    | some p => .ret p

/-- string_res.cfa:866-872: the inner loop, `n` characters of the key left from `j` on. -/
def matched (s key : List Nat) (i : Nat) : Nat → Nat → Bool
  | _, 0 => true
  | j, n + 1 => if key.getD j 0 ≠ s.getD (i + j) 0 then false else matched s key i (j + 1) n

/-- string_res.cfa:860-879: the loop over positions, `n` positions left from `i` on. -/
def findLoop (s key : List Nat) : Nat → Nat → Nat
  | _, 0 => s.length
  | i, n + 1 =>
    if s.length - i < key.length then s.length
    else if matched s key i 0 key.length then i else findLoop s key (i + 1) n

/-- string_res.cfa:848-880 (`findFrom` of a key). -/
def findFrom (s : List Nat) (fromPos : Nat) (key : List Nat) : Nat :=
  if key.length = 0 then 0 else findLoop s key fromPos (s.length - fromPos)

/-- string_res.cfa:829-831, 837-846; string.cfa:423-433 (`find`). -/
def find (s key : List Nat) : Nat := findFrom s 0 key

/-- string_res.cfa:890-892; string.hfa:248-251 (`includes`). -/
def includes (s key : List Nat) : Bool := find s key < s.length

/-- memcmp(s + i, key, n) == 0, `n` characters left from `j` on. -/
def memeq (s key : List Nat) (i : Nat) : Nat → Nat → Bool := matched s key i

/-- string_res.cfa:902-907 (`startsWith`). -/
def startsWith (s pre : List Nat) : Bool := if s.length < pre.length then false else memeq s pre 0 0 pre.length

/-- string_res.cfa:917-925 (`endsWith`). -/
def endsWith (s suf : List Nat) : Bool := if s.length < suf.length then false else memeq s suf (s.length - suf.length) 0 suf.length

/-- string_res.cfa:949-956 (`test`), `n` characters of the mask left from `i` on. -/
def test (mask : List Nat) (c : Nat) : Nat → Nat → Bool
  | _, 0 => false
  | i, n + 1 => if mask.getD i 0 = c then true else test mask c (i + 1) n

/-- The loop shared by string_res.cfa:958-970 and string.cfa:516-530: the first position from `i` on where `stop` holds, else the length. -/
def scan (s : List Nat) (stop : Nat → Bool) : Nat → Nat → Nat
  | _, 0 => s.length
  | i, n + 1 => if stop (s.getD i 0) then i else scan s stop (i + 1) n

/-- string_res.cfa:958-963 (`exclude` with a character class). -/
def exclude (s mask : List Nat) : Nat := scan s (fun c => test mask c 0 mask.length) 0 s.length

/-- string_res.cfa:965-970 (`include` with a character class). -/
def includeCls (s mask : List Nat) : Nat := scan s (fun c => !test mask c 0 mask.length) 0 s.length

/-- string.cfa:524-530 (`exclude` with a predicate). -/
def excludeIf (s : List Nat) (f : Nat → Bool) : Nat := scan s f 0 s.length

/-- string.cfa:516-522 (`include` with a predicate). -/
def includeIf (s : List Nat) (f : Nat → Bool) : Nat := scan s (fun c => !f c) 0 s.length

/-- string.cfa:548-550: the loop of `translate`, `n` characters left from `i` on. -/
def translateLoop (f : Nat → Nat) : List Nat → Nat → Nat → List Nat
  | r, _, 0 => r
  | r, i, n + 1 => translateLoop f (r.set i (f (r.getD i 0))) (i + 1) n

/-- string.cfa:545-552 (`translate`). -/
def translate (s : List Nat) (f : Nat → Nat) : List Nat := translateLoop f s 0 s.length

/-- string.cfa:245-252 (`s( start, len )`): the characters of the part. -/
def slice (s : List Nat) (start len : Int) : List Nat :=
  let start := if start < 0 then start + s.length else start
  let (start, len) := if len < 0 then (start - (-len - 1), -len) else (start, len)
  if start < 0 ∨ start ≥ s.length then []
  else
    let len := if start + len > s.length then s.length - start else len
    (s.drop start.toNat).take len.toNat

/-- string.cfa:254-258 (`s( start )`): no range check, so a start before or past the string gives a part outside it. -/
def sliceFrom (s : List Nat) (start : Int) : Outcome (List Nat) :=
  let start := if start < 0 then start + s.length else start
  if start < 0 ∨ start > s.length then .undef else .ret (s.drop start.toNat)

/-- string.cfa:405-417 (`find` with sub-ranges; the parameters are unsigned, so the adjustments for negative values never happen; the
    clipped lengths are not used). -/
def findRange (s : List Nat) (start len : Nat) (key : List Nat) (kstart klen : Nat) : Nat :=
  if start ≥ s.length then 0
  else
    let _len := if start + len > s.length then s.length - start else len
    if kstart ≥ key.length then 0
    else
      let _klen := if kstart + klen > key.length then key.length - kstart else klen
      findFrom s start key

/-- string.cfa:532-543 (`replace`), with a bound on the number of nested calls; `none` when the bound is reached. -/
def replace (src dst : List Nat) : Nat → List Nat → Option (List Nat)
  | 0, _ => none
  | n + 1, s =>
    let pos := find s src
    if pos < s.length then
      match sliceFrom s ((pos + src.length : Nat) : Int) with
      | .ret rest => (replace src dst n rest).map fun r => slice s 0 pos ++ dst ++ r
      | _ => none
    else some s

/-- string_res.cfa:773-777 (`?*=?`). -/
def times (s : List Nat) (factor : Nat) : List Nat := (List.range factor).foldl (fun r _ => r ++ s) []

/-- string.cfa:379-384 (`strncmp` of two strings): only the abort condition and the compared characters. -/
def strncmpArgs (s t : List Nat) (maxlen : Nat) : Outcome (List Nat × List Nat) :=
  if maxlen > s.length ∨ maxlen > t.length then .abort else .ret (s.take maxlen, t.take maxlen)

end Verif.StrSearch
