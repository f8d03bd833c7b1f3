/-!
What a C compiler does with a structure or union: size, alignment and
offsets of the members.  Nothing here is taken from the translator; this is
the layout rule of the System V ABI that gcc follows on the targets of the
language.

A type here is a complete C type with no type parameters left in it.
-/
namespace GenLayout

mutual
/-- A complete C type. -/
inductive G where
  /-- a basic type, pointer or enumeration: its size and alignment -/
  | base (size align : Nat)
  /-- `g[n]` -/
  | arr (g : G) (n : Nat)
  /-- a structure (`union = false`) or union with its members -/
  | agg (union : Bool) (ms : GMs)
/-- Members: type, width if it is a bit-field, `aligned` attribute (1 if
there is none). -/
inductive GMs where
  | nil
  | cons (g : G) (bits : Option Nat) (al : Nat) (ms : GMs)
end

/-- The least multiple of `a` that is at least `x` (see `leastMul_spec`). -/
def leastMul (a x : Nat) : Nat := (x + a - 1) / a * a

/-- A bit-field of width `w` of a type of `s` bytes does not cross a boundary
of its type: it starts at bit `p` or at the next boundary. -/
def placeBits (s p w : Nat) : Nat :=
  if p / (8 * s) = (p + w - 1) / (8 * s) then p else leastMul (8 * s) p

mutual
/-- `_Alignof` -/
def cAlign : G → Nat
  | .base _ a => a
  | .arr g _ => cAlign g
  | .agg _ ms => cAligns ms
/-- The largest alignment of a member. -/
def cAligns : GMs → Nat
  | .nil => 1
  | .cons g _ al ms => max (max (cAlign g) al) (cAligns ms)
end

mutual
/-- `sizeof` -/
def cSize : G → Nat
  | .base s _ => s
  | .arr g n => cSize g * n
  | .agg u ms =>
    if u then leastMul (cAligns ms) (cMax ms)
    else leastMul (cAligns ms) ((cEnd 0 ms + 7) / 8)
/-- The largest size of a member. -/
def cMax : GMs → Nat
  | .nil => 0
  | .cons g _ _ ms => max (cSize g) (cMax ms)
/-- Position (in bits) after the last member, when the members are placed one
after the other beginning at bit `p`. -/
def cEnd (p : Nat) : GMs → Nat
  | .nil => p
  | .cons g none al ms =>
    cEnd (leastMul (8 * max (cAlign g) al) p + 8 * cSize g) ms
  | .cons g (some w) _ ms => cEnd (placeBits (cSize g) p w + w) ms
end

/-- Offsets (in bytes) of the members of a structure whose members are placed
one after the other beginning at bit `p`. -/
def cOffs (p : Nat) : GMs → List Nat
  | .nil => []
  | .cons g none al ms =>
    leastMul (8 * max (cAlign g) al) p / 8 ::
      cOffs (leastMul (8 * max (cAlign g) al) p + 8 * cSize g) ms
  | .cons g (some w) _ ms =>
    placeBits (cSize g) p w / 8 :: cOffs (placeBits (cSize g) p w + w) ms

/-- `offsetof` of the members of a structure or union, in order. -/
def cOffsets : G → List Nat
  | .agg false ms => cOffs 0 ms
  | .agg true ms => zeros ms
  | _ => []
where
  zeros : GMs → List Nat
  | .nil => []
  | .cons _ _ _ ms => 0 :: zeros ms

/-- Size and alignment. -/
structure Lay where
  size : Nat
  align : Nat
deriving DecidableEq, Repr

/-- Size and alignment the C compiler gives to a type. -/
def cLay (g : G) : Lay := ⟨cSize g, cAlign g⟩

end GenLayout
