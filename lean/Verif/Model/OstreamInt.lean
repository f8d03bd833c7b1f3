import Verif.Model.Ostream
import Verif.Spec.OstreamInt

/-!
# Printing integers

Models `base10_128`, the output operators of `int128` and `unsigned int128`, the output operator of
integral manipulators for 64-bit integers (`INTEGRAL_FMT_IMPL`), `base_128`, and the output operators
of 128-bit manipulators (`INTEGRAL_FMT_IMPL128`), libcfa/src/iostream.cfa lines 128-163, 396-587.

Simplified: the locale of the `'` flag is "C" (no grouping of digits); the arithmetic on widths and
precisions does not overflow `int`; `ceil( log10( v ) )` is exact (line 530 uses floating point);
only the 64-bit instance of the macro at line 400 is given, with the 64-bit pattern of the value.
-/

namespace Verif.OstreamInt

open Verif.Ostream
open Verif.OstreamInt.Spec (digit numeral)

/-- `_Ostream_Manip(uint64_t)`: libcfa/src/iostream.hfa lines 184-208.  `val` is the 64-bit pattern
    of the value. -/
structure Manip where
  val : Nat
  wd : Int := 1
  pc : Int := 0
  base : Char
  neg : Bool := false
  pcF : Bool := false
  left : Bool := false
  nobsdp : Bool := false
  sign : Bool := false
  pad0 : Bool := false
deriving DecidableEq, Repr

/-- `n` zeros or blanks, none if `n` is negative. -/
def rep (n : Int) (c : Char) : List Char := List.replicate n.toNat c

/-- C's `printf` with one conversion `d`, `u`, `o`, `x` or `X` of a 64-bit integer (length modifier
    `l`): ISO C 7.23.6.1.  `alt` is the flag `#`.  The C library is trusted to behave so. -/
def printf (alt left plus zero : Bool) (wd : Int) (pc : Option Int) (conv : Char) (val : Nat) :
    List Char :=
  let neg := conv == 'd' && decide (2 ^ 63 ≤ val)
  let mag := if neg then 2 ^ 64 - val else val
  let b := if conv == 'o' then 8 else if conv == 'x' || conv == 'X' then 16 else 10
  let ds := if pc = some 0 ∧ mag = 0 then [] else numeral (conv == 'X') b mag
  let ds := rep (pc.getD 0 - ds.length) '0' ++ ds
  let ds := if alt && conv == 'o' && ds.head? != some '0' then '0' :: ds else ds
  let front := if neg then ['-'] else if plus && conv == 'd' then ['+'] else []
  let front := front ++
    if alt && conv == 'x' && decide (mag ≠ 0) then ['0', 'x']
    else if alt && conv == 'X' && decide (mag ≠ 0) then ['0', 'X'] else []
  let pad := wd - (front.length + ds.length)
  if left then front ++ ds ++ rep pad ' '
  else if zero && pc.isNone then front ++ rep pad '0' ++ ds
  else rep pad ' ' ++ front ++ ds

/-- `shortbin`: libcfa/src/iostream.cfa line 396. -/
def shortbin : List (List Char) :=
  [['0'], ['1'], ['1', '0'], ['1', '1'],
   ['1', '0', '0'], ['1', '0', '1'], ['1', '1', '0'], ['1', '1', '1'],
   ['1', '0', '0', '0'], ['1', '0', '0', '1'], ['1', '0', '1', '0'], ['1', '0', '1', '1'],
   ['1', '1', '0', '0'], ['1', '1', '0', '1'], ['1', '1', '1', '0'], ['1', '1', '1', '1']]

/-- `longbin`: libcfa/src/iostream.cfa line 397. -/
def longbin : List (List Char) :=
  [['0', '0', '0', '0'], ['0', '0', '0', '1'], ['0', '0', '1', '0'], ['0', '0', '1', '1'],
   ['0', '1', '0', '0'], ['0', '1', '0', '1'], ['0', '1', '1', '0'], ['0', '1', '1', '1'],
   ['1', '0', '0', '0'], ['1', '0', '0', '1'], ['1', '0', '1', '0'], ['1', '0', '1', '1'],
   ['1', '1', '0', '0'], ['1', '1', '0', '1'], ['1', '1', '1', '0'], ['1', '1', '1', '1']]

/-- `high1`: position of the most significant bit, counted from 1; 0 for 0.
    libcfa/src/bitmanip.hfa line 79 (`__builtin_clzl` counts the leading zeros of 64 bits). -/
def high1 (n : Nat) : Nat := if n = 0 then 0 else Nat.log2 n + 1

/-- The loop printing the remaining groups of four bits, with `k` groups to go:
    libcfa/src/iostream.cfa lines 443-448. -/
def binLoop (os : Os) (val : Nat) : Nat → Os
  | 0 => os
  | k + 1 => binLoop (fmt os (longbin.getD ((val >>> (4 * k)) % 16) [])) val k

/-- The digits of a binary number: libcfa/src/iostream.cfa lines 440-448. -/
def binDigits (os : Os) (val bits : Nat) : Os :=
  let shift := (bits - 1) / 4
  binLoop (fmt os (shortbin.getD ((val >>> (4 * shift)) % 16) [])) val shift

/-- `if ( n > 0 ) fmt( os, …, n blanks or zeros )`: e.g. libcfa/src/iostream.cfa lines 414, 417. -/
def padIf (os : Os) (n : Int) (c : Char) : Os := if n > 0 then fmt os (rep n c) else os

/-- The base prefix of a binary number: libcfa/src/iostream.cfa lines 415, 422, 426, 430. -/
def binPrefix (os : Os) (f : Manip) : Os := if f.nobsdp then os else fmt os ['0', f.base]

/-- The bespoke binary format: libcfa/src/iostream.cfa lines 405-451. -/
def printBin (os : Os) (f : Manip) : Os :=
  let bits := if high1 f.val = 0 then 1 else high1 f.val
  let bp : Int := if f.nobsdp then 0 else 2
  if !f.left then
    let os :=
      if f.pcF then
        let os := padIf os (f.wd - f.pc - bp) ' '
        let os := binPrefix os f
        padIf os (f.pc - bits) '0'
      else
        let spaces := f.wd - bits - bp
        if f.pad0 then padIf (binPrefix os f) spaces '0' else binPrefix (padIf os spaces ' ') f
    binDigits os f.val bits
  else
    let os := binPrefix os f
    let os := if f.pcF then padIf os (f.pc - bits) '0' else os
    let spaces := (if f.pcF then f.wd - f.pc else f.wd - bits) - bp
    padIf (binDigits os f.val bits) spaces ' '

/-- `?|?( ostype & os, _Ostream_Manip(T) f )`: libcfa/src/iostream.cfa lines 402-483. -/
def print64 (os : Os) (f : Manip) : Os :=
  let os := sepBefore os
  if f.base = 'b' ∨ f.base = 'B' then printBin os f
  else
    let zeroHex := (f.base = 'x' ∨ f.base = 'X') ∧ !f.nobsdp ∧ f.val = 0
    let os := if zeroHex then fmt os (if f.base = 'x' then ['0', 'x'] else ['0', 'X']) else os
    let wd := if zeroHex then (if f.wd - 2 < 0 then 1 else f.wd - 2) else f.wd
    fmt os (printf (!f.nobsdp) f.left f.sign (f.pad0 && !f.pcF) wd
      (if f.pcF then some f.pc else none) f.base f.val)

/-- The smallest `d` from `d` on with `v ≤ 10^d`, looking at `fuel` candidates. -/
def ceilLog10From (v : Nat) : Nat → Nat → Nat
  | 0, d => d
  | fuel + 1, d => if v ≤ 10 ^ d then d else ceilLog10From v fuel (d + 1)

/-- `ceil( log10( v ) )` for `0 < v < 2^64`: libcfa/src/iostream.cfa line 530, without rounding. -/
def ceilLog10 (v : Nat) : Nat := ceilLog10From v 20 0

/-- The precision of the start chunk: libcfa/src/iostream.cfa lines 516-519. -/
def startPc (val : Nat) (f : Manip) (maxdig cnt : Nat) : Manip :=
  if f.pcF ∧ f.pc > (maxdig * cnt : Nat) then
    { f with val := val % 2 ^ 64, pc := f.pc - (maxdig * cnt : Nat) }
  else { f with val := val % 2 ^ 64, pcF := false, pc := 0 }

/-- The number of characters the start chunk takes when justified to the left:
    libcfa/src/iostream.cfa lines 527-541. -/
def startSize (f : Manip) (bits : Nat) : Int :=
  let dig : Nat :=
    if f.base = 'd' ∨ f.base = 'u' then ceilLog10 f.val
    else (high1 f.val + (bits - 1)) / bits
  let bs : Int :=
    if f.base = 'd' ∨ f.base = 'u' then
      (if f.base = 'd' ∧ (f.neg ∨ f.sign) then 1 else 0)
    else if f.nobsdp then 0
    else if f.base = 'o' then (if f.pc ≤ (dig : Int) then 1 else 0)
    else 2
  (if f.pc > (dig : Int) then f.pc else (dig : Int)) + bs

/-- The width of the start chunk, and the width `wd` for the chunks after it:
    libcfa/src/iostream.cfa lines 503, 521-547. -/
def startWd (f : Manip) (maxdig bits cnt : Nat) : Int × Manip :=
  if !f.left then
    let wd := f.wd - (maxdig * cnt : Nat)
    ((maxdig : Int), { f with wd := if wd < 0 then 1 else wd })
  else if cnt ≠ 0 then
    let wd := f.wd - startSize f bits
    (if wd < 0 then 1 else wd, { f with wd := 1 })
  else (1, f)

/-- `if ( f.flags.neg ) f.val = -f.val`: libcfa/src/iostream.cfa line 549. -/
def startNeg (f : Manip) : Manip :=
  if f.neg then { f with val := (2 ^ 64 - f.val) % 2 ^ 64 } else f

/-- The manipulator left for the chunks after the start chunk: libcfa/src/iostream.cfa lines
    555-561. -/
def startRest (f : Manip) (wd : Int) (maxdig : Nat) : Manip :=
  if !f.left then { f with pad0 := true, pcF := false, wd := wd, sign := false, nobsdp := true }
  else { f with pc := maxdig, pcF := true, wd := wd, sign := false, nobsdp := true }

/-- The start chunk of `base_128`: libcfa/src/iostream.cfa lines 515-562. -/
def startChunk (os : Os) (val : Nat) (f : Manip) (maxdig bits cnt : Nat) : Os × Manip :=
  let r := startWd (startPc val f maxdig cnt) maxdig bits cnt
  let f := startNeg r.2
  let os := print64 os f
  (if cnt ≠ 0 then nosep os else os, startRest f r.1 maxdig)

/-- The middle and end chunks of `base_128`, after the recursive call has returned `r`:
    libcfa/src/iostream.cfa lines 506-514. -/
def nextChunk (power maxdig : Nat) (r : Os × Manip) (val cnt : Nat) : Os × Manip :=
  let f : Manip := { r.2 with val := (val % power) % 2 ^ 64 }
  if cnt = 1 then
    if f.left then
      let wd := f.wd - maxdig
      (nosep (print64 r.1 { f with wd := maxdig }), { f with wd := if wd < 0 then 1 else wd })
    else (nosep (print64 r.1 f), f)
  else (print64 r.1 f, f)

/-- `base_128`: libcfa/src/iostream.cfa lines 502-563.  `fuel` bounds the depth of the recursion;
    for the powers used and 128-bit values it is at most 3. -/
def base128 (power maxdig bits : Nat) : Nat → Os → Nat → Manip → Nat → Os × Manip
  | 0, os, _, f, _ => (os, f)
  | fuel + 1, os, val, f, cnt =>
    if val > power then
      nextChunk power maxdig (base128 power maxdig bits fuel os (val / power) f (cnt + 1)) val cnt
    else startChunk os val f maxdig bits cnt

/-- `?|?( ostype & os, _Ostream_Manip(T) f )` for 128-bit integers: libcfa/src/iostream.cfa lines
    565-583.  `val` is the 128-bit pattern of the value, `signed` tells `int128` from
    `unsigned int128`, and the other fields of the manipulator are those of `f`. -/
def print128 (os : Os) (signed : Bool) (val : Nat) (f : Manip) : Os :=
  if f.base = 'b' ∨ f.base = 'B' then (base128 (2 ^ 64) 64 1 4 os val f 0).1
  else if f.base = 'o' then (base128 (2 ^ 63) 21 3 4 os val f 0).1
  else if f.base = 'd' ∨ f.base = 'u' then
    let neg := f.base == 'd' && signed && decide (2 ^ 127 ≤ val)
    let val := if neg then (2 ^ 128 - val) % 2 ^ 128 else val
    (base128 10000000000000000000 19 0 4 os val { f with neg := f.neg || neg } 0).1
  else (base128 (2 ^ 64) 16 4 4 os val f 0).1

/-- `base10_128( os, unsigned int128 )`: libcfa/src/iostream.cfa lines 132-140.  `fuel` bounds the
    depth of the recursion; it is at most 3. -/
def base10u (os : Os) : Nat → Nat → Os
  | 0, _ => os
  | fuel + 1, val =>
    if val >>> 64 ≠ 0 ∨ val % 2 ^ 64 > 10000000000000000000 then
      let os := base10u os fuel (val / 10000000000000000000)
      let v := val % 10000000000000000000 % 2 ^ 64
      let ds := numeral false 10 v
      fmt os (rep (19 - ds.length) '0' ++ ds)
    else fmt os (numeral false 10 (val % 2 ^ 64))

/-- `base10_128( os, int128 )`: libcfa/src/iostream.cfa lines 142-148; `val` is the 128-bit pattern.
    Negating the least value overflows in C; it is modelled as wrapping around. -/
def base10s (os : Os) (val : Nat) : Os :=
  if 2 ^ 127 ≤ val then base10u (fmt os ['-']) 4 ((2 ^ 128 - val) % 2 ^ 128)
  else base10u os 4 val

/-- `?|?( ostype & os, unsigned int128 )`: libcfa/src/iostream.cfa lines 157-161. -/
def printU128 (os : Os) (val : Nat) : Os := base10u (sepBefore os) 4 val

/-- `?|?( ostype & os, int128 )`: libcfa/src/iostream.cfa lines 150-154. -/
def printS128 (os : Os) (val : Nat) : Os := base10s (sepBefore os) val

end Verif.OstreamInt
