import Verif.Model.Base
/-!
Model of `libcfa/src/bitmanip.hfa` and `libcfa/src/bits/align.hfa`.

Every C overload on an unsigned type of width `w` is an instance of one definition on `BitVec w`.
The overloads for `char` and `short` call the `unsigned int` builtins after zero extension: those have
the separate width `W` of `unsigned int` as a parameter (`W = w` gives the wider overloads).
-/
namespace Verif.Bitmanip

/-- GCC `__builtin_clz`/`clzl`/`clzll` on a `W`-bit word: number of leading zero bits, undefined for 0. -/
def builtinClz {W : Nat} (x : BitVec W) : Outcome Nat :=
  if x.toNat = 0 then .undef else .ret (W - 1 - x.toNat.log2)

/-- Number of trailing zero bits of a positive number. -/
def ctzNat (n : Nat) : Nat :=
  if h : n = 0 then 0 else if n % 2 = 1 then 0 else ctzNat (n / 2) + 1
termination_by n

/-- GCC `__builtin_ctz`/`ctzl`/`ctzll`: number of trailing zero bits, undefined for 0. -/
def builtinCtz {W : Nat} (x : BitVec W) : Outcome Nat :=
  if x.toNat = 0 then .undef else .ret (ctzNat x.toNat)

/-- GCC `__builtin_ffs`/`ffsl`/`ffsll`: one plus the index of the least significant 1 bit, 0 for 0. -/
def builtinFfs {W : Nat} (x : BitVec W) : Nat :=
  if x.toNat = 0 then 0 else ctzNat x.toNat + 1

/-- Number of 1 bits of a number. -/
def popNat (n : Nat) : Nat :=
  if h : n = 0 then 0 else n % 2 + popNat (n / 2)
termination_by n

/-- GCC `__builtin_popcount`/`popcountl`/`popcountll`. -/
def builtinPopcount {W : Nat} (x : BitVec W) : Nat := popNat x.toNat

/-- bitmanip.hfa:29-33 `leading0s`; `W` is the width of the type the builtin takes. -/
def leading0s {w : Nat} (W : Nat) (n : BitVec w) : Outcome Nat :=
  if n ≠ 0#w then do
    let c ← builtinClz (n.setWidth W)
    pure (c - (W - w))
  else pure w

/-- bitmanip.hfa:36-40 `trailing0s`. -/
def trailing0s {w : Nat} (W : Nat) (n : BitVec w) : Outcome Nat :=
  if n ≠ 0#w then builtinCtz (n.setWidth W) else pure w

/-- bitmanip.hfa:43-47 `all1s`. -/
def all1s {w : Nat} (W : Nat) (n : BitVec w) : Nat := builtinPopcount (n.setWidth W)

/-- bitmanip.hfa:50-54 `all0s`: complement cast back to the type of `n`, then zero-extended. -/
def all0s {w : Nat} (W : Nat) (n : BitVec w) : Nat := builtinPopcount ((~~~n).setWidth W)

/-- bitmanip.hfa:57-61 `low0`. -/
def low0 {w : Nat} (W : Nat) (n : BitVec w) : Nat := builtinFfs ((~~~n).setWidth W)

/-- bitmanip.hfa:64-66 `low1` (narrow arguments are promoted). -/
def low1 {w : Nat} (W : Nat) (n : BitVec w) : Nat := builtinFfs (n.setWidth W)

/-- bitmanip.hfa:69-73 `high0`. -/
def high0 {w : Nat} (W : Nat) (n : BitVec w) : Outcome Nat :=
  if n = BitVec.allOnes w then pure 0
  else do
    let c ← builtinClz ((~~~n).setWidth W)
    pure (W - c)

/-- bitmanip.hfa:76-80 `high1`. -/
def high1 {w : Nat} (W : Nat) (n : BitVec w) : Outcome Nat :=
  if n = 0#w then pure 0
  else do
    let c ← builtinClz (n.setWidth W)
    pure (W - c)

/-- bitmanip.hfa:84-88 `is_pow2`. -/
def isPow2 {w : Nat} (n : BitVec w) : Bool :=
  if n = 0#w then false else (n &&& (n - 1#w)) == 0#w

/-- bitmanip.hfa:91-100 `floor2` (the `verify` is compiled in debug mode only and is the
    precondition of the theorems). Signed and unsigned overloads compute the same bits. -/
def floor2 {w : Nat} (n align : BitVec w) : BitVec w := n &&& (-align)

/-- bitmanip.hfa:106-115 `ceiling2`. -/
def ceiling2 {w : Nat} (n align : BitVec w) : BitVec w := - floor2 (-n) align

/-- bits/align.hfa:40-43 `libPow2`. -/
def libPow2 (value : BitVec 64) : Bool := (value &&& (value - 1#64)) == 0#64

/-- bits/align.hfa:47-51 `libFloor`; the `assert` is `abort`. -/
def libFloor (value align : BitVec 64) : Outcome (BitVec 64) :=
  if libPow2 align then .ret (value &&& (-align)) else .abort

/-- bits/align.hfa:56-60 `libCeiling`. -/
def libCeiling (value align : BitVec 64) : Outcome (BitVec 64) :=
  if libPow2 align then do
    let f ← libFloor (-value) align
    pure (-f)
  else .abort

end Verif.Bitmanip
