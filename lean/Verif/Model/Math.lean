import Verif.Model.Base
import Verif.Model.Bitmanip
/-!
Model of the integer functions of `libcfa/src/math.cfa` and `libcfa/src/math.hfa`:
power, alignment, fixed-point logarithm. Floating-point functions are not modelled.
-/
namespace Verif.Math

/-- A signed `b`-bit result: overflow is undefined behaviour. -/
def sChk (b : Nat) (x : Int) : Outcome Int :=
  if -(2 ^ (b - 1)) ≤ x ∧ x < 2 ^ (b - 1) then .ret x else .undef

/-! ### Power: math.cfa:114-144 (`__CFA_EXP__`) -/

/-- math.cfa:121-127, signed overloads: `for ( ; y > 1; y >>= 1 ) { if ( y & 1 ) op = op * w; w = w * w; } return w * op`. -/
def powLoopS (b : Nat) (op w : Int) (y : Nat) : Outcome Int :=
  if h : y ≤ 1 then sChk b (w * op)
  else do
    let op' ← if y % 2 = 1 then sChk b (op * w) else .ret op
    let w' ← sChk b (w * w)
    powLoopS b op' w' (y / 2)
termination_by y
decreasing_by omega

/-- math.cfa:130-132 `?\\?` on `int`, `long int`, `long long int` (`b` bits; `y` is unsigned of the same size,
    so `sizeof(y) * CHAR_BIT` is `b`). Line 118: a left shift that leaves the signed range is undefined. -/
def powS (b : Nat) (x : Int) (y : Nat) : Outcome Int :=
  if y = 0 then .ret 1
  else if x = 1 then .ret 1
  else if x = 2 then (if y - 1 < b then sChk b (x * 2 ^ (y - 1)) else .undef)
  else if y ≥ b then .ret 0
  else powLoopS b 1 x y

/-- math.cfa:121-127, unsigned overloads: products wrap modulo `2^b`. -/
def powLoopU {b : Nat} (op w : BitVec b) (y : Nat) : BitVec b :=
  if h : y ≤ 1 then w * op
  else powLoopU (if y % 2 = 1 then op * w else op) (w * w) (y / 2)
termination_by y
decreasing_by omega

/-- math.cfa:133-135 `?\\?` on the unsigned types. Line 118: a shift count not below the width is undefined. -/
def powU {b : Nat} (x : BitVec b) (y : Nat) : Outcome (BitVec b) :=
  if y = 0 then .ret 1#b
  else if x = 1#b then .ret 1#b
  else if x = 2#b then (if y - 1 < b then .ret (x <<< (y - 1)) else .undef)
  else if y ≥ b then .ret 0#b
  else .ret (powLoopU 1#b x y)

/-- math.cfa:121-127 for a user type `OT` with a unit and a multiplication. -/
def powLoopG {M : Type u} (mul : M → M → M) (op w : M) (y : Nat) : M :=
  if h : y ≤ 1 then mul w op
  else powLoopG mul (if y % 2 = 1 then mul op w else op) (mul w w) (y / 2)
termination_by y
decreasing_by omega

/-- math.cfa:140-144 `OT ?\\?( OT x, unsigned y )`. -/
def powG {M : Type u} (one : M) (mul : M → M → M) (x : M) (y : Nat) : M :=
  if y = 0 then one else powLoopG mul one x y

/-! ### Alignment: math.hfa:286-350 -/

/-- math.hfa:286-295 `floor( n, align )`: `(n / align) * align` (signed reading; the unsigned overloads are the
    instances with non-negative arguments). -/
def floorTo (n align : Int) : Outcome Int := do
  let q ← cdiv n align
  pure (q * align)

/-- math.hfa:300-309 `ceiling_div`, mathematical integers (overflow of `n + (align - 1)` not modelled). -/
def ceilingDiv (n align : Int) : Outcome Int := cdiv (n + (align - 1)) align

/-- math.hfa:311-349 signed `ceiling`. -/
def ceilingS (n align : Int) : Outcome Int := do
  let t ← floorTo n align
  pure (if n < 0 ∨ n = t then t else t + align)

/-- math.hfa:315-350 unsigned `ceiling`. -/
def ceilingU (n align : Int) : Outcome Int := do
  let t ← floorTo n align
  pure (if n = t then t else t + align)

/-! ### Fixed-point logarithm: math.cfa:22-110 -/

/-- math.cfa:30-48, the table. -/
def logTable : List Int := [
    0x0000000000, 0x0005b9e5a1, 0x000b5d69ba, 0x0010eb389f, 0x001663f6fa, 0x001bc84240,
    0x002118b119, 0x002655d3c4, 0x002b803473, 0x00309857a0, 0x00359ebc5b, 0x003a93dc98,
    0x003f782d72, 0x00444c1f6b, 0x0049101eac, 0x004dc4933a, 0x005269e12f, 0x00570068e7,
    0x005b888736, 0x006002958c, 0x00646eea24, 0x0068cdd829, 0x006d1fafdc, 0x007164beb4,
    0x00759d4f80, 0x0079c9aa87, 0x007dea15a3, 0x0081fed45c, 0x0086082806, 0x008a064fd5,
    0x008df988f4, 0x0091e20ea1, 0x0095c01a39, 0x009993e355, 0x009d5d9fd5, 0x00a11d83f4,
    0x00a4d3c25e, 0x00a8808c38, 0x00ac241134, 0x00afbe7fa0, 0x00b3500472, 0x00b6d8cb53,
    0x00ba58feb2, 0x00bdd0c7c9, 0x00c1404ead, 0x00c4a7ba58, 0x00c80730b0, 0x00cb5ed695,
    0x00ceaecfea, 0x00d1f73f9c, 0x00d53847ac, 0x00d8720935, 0x00dba4a47a, 0x00ded038e6,
    0x00e1f4e517, 0x00e512c6e5, 0x00e829fb69, 0x00eb3a9f01, 0x00ee44cd59, 0x00f148a170,
    0x00f446359b, 0x00f73da38d, 0x00fa2f045e, 0x00fd1a708b, 0x0100000000, 0x0102dfca16]

/-- math.cfa:99-107: quadratic interpolation between table entries. `>>` on `long long` is the arithmetic shift,
    i.e. division by a power of two rounded down. -/
def interpolate (y0 y1 y2 udx : Int) : Int :=
  let f1 := y1 - y0
  let f2 := y2 - y0
  let a := f2 - f1 * 2
  let b := f1 * 2 - a
  let sum := (a * udx) / 2 ^ 26 + b
  let sum := (sum * udx) / 2 ^ 27
  y0 + sum

/-- math.cfa:22-110 `log2_u32_32` on a 64-bit argument. `__builtin_clzl( 0 )` and a shift by 64 are undefined;
    so is a table access out of bounds. -/
def log2_u32_32 (val : BitVec 64) : Outcome Int := do
  let lz ← Bitmanip.builtinClz val
  let i := 64 - 1 - lz
  if lz + 1 ≥ 64 then .undef
  else
    let frac := (val.toNat * 2 ^ (lz + 1)) % 2 ^ 64 / 2 ^ 32
    let idx0 := frac / 2 ^ (32 - 6)
    let udx : Int := ((frac - idx0 * 2 ^ (32 - 6) : Nat) : Int)
    match logTable[idx0]?, logTable[idx0 + 1]?, logTable[idx0 + 2]? with
    | some y0, some y1, some y2 => pure ((i : Int) * 2 ^ 32 + interpolate y0 y1 y2 udx)
    | _, _, _ => .undef

end Verif.Math
