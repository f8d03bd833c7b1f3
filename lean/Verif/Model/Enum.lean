import Mathlib.Data.List.Basic

/-!
# Enumerations

The enumerations of CFA (`enum( T ) E { … }`, typed, and `enum() E { … }`, opaque): how an `inline`
enumeration is put into another, the C enumeration that is generated, the arrays and routines that
are made for it, the routines of the prelude on top of them, loops over an enumeration, and the
conversion from an enumeration to one that has it inline.
-/

namespace Verif.Enum

/-- An enumeration after `inline` has been expanded (`AST/Decl.hpp` 309-343): its name, whether it has
a base type, its enumerators with their explicit values, and the enumerations that are inline in it.
The base type is an integer type and an explicit value is the value of its expression cast to that
type (`Parser/TypeData.cpp` 1470-1482); expressions that use enumerators of the enumeration itself
are not modelled. -/
inductive EDecl where
  | mk (name : String) (typed : Bool) (members : List (String × Option Int)) (inlined : List EDecl)

/-- The fields of `EnumDecl`. -/
def EDecl.name : EDecl → String | .mk n _ _ _ => n
@[inherit_doc EDecl.name] def EDecl.typed : EDecl → Bool | .mk _ t _ _ => t
@[inherit_doc EDecl.name] def EDecl.members : EDecl → List (String × Option Int) | .mk _ _ m _ => m
@[inherit_doc EDecl.name] def EDecl.inlined : EDecl → List EDecl | .mk _ _ _ i => i

/-- What is written in the braces of an enumeration: an enumerator, with or without a value, or
`inline` and another enumeration. -/
inductive Item where
  | own (name : String) (init : Option Int)
  | inl (e : EDecl)

/-- The loop of `EnumAndPointerDecayCore::previsit` (`Validate/EnumAndPointerDecay.cpp` 43-72): the
enumerators of an inline enumeration are copied, with their initializers. -/
def expandMembers : List Item → List (String × Option Int)
  | [] => []
  | .own n i :: is => (n, i) :: expandMembers is
  | .inl e :: is => e.members ++ expandMembers is

/-- The inline enumerations that the same loop collects (line 54). -/
def expandInlined : List Item → List EDecl
  | [] => []
  | .own _ _ :: is => expandInlined is
  | .inl e :: is => e :: expandInlined is

/-- `EnumAndPointerDecayCore::previsit` (`Validate/EnumAndPointerDecay.cpp` 35-75). -/
def expand (name : String) (typed : Bool) (is : List Item) : EDecl :=
  .mk name typed (expandMembers is) (expandInlined is)

/-! ## What is generated -/

/-- The C enumerators from the value that comes next: `init` is written if there is no base type
(`CodeGen/CodeGenerator.cpp` 360-368); an enumerator without one is one more than the last (C11
6.7.2.2). -/
def constantsFrom (typed : Bool) : Int → List (String × Option Int) → List Int
  | _, [] => []
  | next, (_, init) :: ms =>
    let v := if typed then next else init.getD next
    v :: constantsFrom typed (v + 1) ms

/-- The C enumerators of an enumeration. -/
def constants (e : EDecl) : List Int := constantsFrom e.typed 0 e.members

/-- The initializers that are made for the array of values: a constant, an explicit value (which is a
cast and no constant), or `?+?` of another one and 1. -/
inductive VInit where
  | const (n : Int)
  | cast (v : Int)
  | plus (e : VInit)

/-- `from_int` takes an `int` (`AST/Expr.cpp` 247-249). -/
def toInt (n : Int) : Int := n.bmod 4294967296

/-- `getAutoInit` (`Validate/ImplementEnumFunc.cpp` 133-154). -/
def autoInit : VInit → VInit
  | .const n => .const (toInt (n + 1))
  | e => .plus e

/-- The loop of `genValueInit` (`Validate/ImplementEnumFunc.cpp` 96-131), after the initializer
`prev`, if any.  (The search for a name, lines 102-119, never applies: an explicit value is a cast.) -/
def valueInits : Option VInit → List (String × Option Int) → List VInit
  | _, [] => []
  | prev, (_, init) :: ms =>
    let e := match init with
      | some v => .cast v
      | none => match prev with
        | none => .const 0
        | some p => autoInit p
    e :: valueInits (some e) ms

/-- The value of an initializer; `conv` is the conversion to the base type.  (The sums are taken
without a bound.) -/
def VInit.eval (conv : Int → Int) : VInit → Int
  | .const n => n
  | .cast v => conv v
  | .plus e => e.eval conv + 1

/-- The array of values of a typed enumeration (`genAttrArrayProto`,
`Validate/ImplementEnumFunc.cpp` 351-366): an initializer is converted to the base type. -/
def values (conv : Int → Int) (e : EDecl) : List Int :=
  (valueInits none e.members).map fun i => conv (i.eval conv)

/-- The array of labels (`genLabelInit`, `Validate/ImplementEnumFunc.cpp` 83-94). -/
def labels (e : EDecl) : List String := e.members.map (·.1)

/-- A variable of the enumeration: the integer type that GCC gives to an enumeration without negative
enumerators, `unsigned int`. -/
abbrev Inst := Nat

/-- The cast of an `int` to the enumeration (`genFromIntBody`, `Validate/ImplementEnumFunc.cpp`
248-261). -/
def fromIntUnsafe (i : Int) : Inst := (i % 4294967296).toNat

/-- `posn`, a cast to `int` (`genPosnBody`, `Validate/ImplementEnumFunc.cpp` 396-404); `fromInstance`
is the same (lines 263-272). -/
def posn (x : Inst) : Int := (x : Int).bmod 4294967296

/-- An element of a C array; `none` is outside of it. -/
def index {α : Type} (xs : List α) (i : Int) : Option α := if i < 0 then none else xs[i.toNat]?

/-- `label` and `value` (`genValueOrLabelBody`, `Validate/ImplementEnumFunc.cpp` 368-381). -/
def label (e : EDecl) (x : Inst) : Option String := index (labels e) (posn x)
@[inherit_doc label] def value (conv : Int → Int) (e : EDecl) (x : Inst) : Option Int :=
  index (values conv e) (posn x)

/-- `succ_unsafe` and `pred_unsafe` (`genSuccPredBody`, `Validate/ImplementEnumFunc.cpp` 274-303). -/
def succUnsafe (x : Inst) : Inst := fromIntUnsafe (posn x + 1)
@[inherit_doc succUnsafe] def predUnsafe (x : Inst) : Inst := fromIntUnsafe (posn x - 1)

/-- `lowerBound` and `upperBound`: the first and the last enumerator (`genBoundedBody`,
`Validate/ImplementEnumFunc.cpp` 334-340). -/
def lowerBound (e : EDecl) : Inst := fromIntUnsafe ((constants e).head?.getD 0)
@[inherit_doc lowerBound] def upperBound (e : EDecl) : Inst :=
  fromIntUnsafe ((constants e).getLast?.getD 0)

/-! ## The prelude -/

/-- `fromInt` (`prelude/builtins.c` 192-200); `none` is `abort`. -/
def fromInt (e : EDecl) (i : Int) : Option Inst :=
  if i < posn (lowerBound e) ∨ i > posn (upperBound e) then none else some (fromIntUnsafe i)

/-- `succ` (`prelude/builtins.c` 202-207). -/
def succ (e : EDecl) (x : Inst) : Option Inst :=
  if posn x ≥ posn (upperBound e) then none else some (succUnsafe x)

/-- `pred` (`prelude/builtins.c` 209-214). -/
def pred (e : EDecl) (x : Inst) : Option Inst :=
  if posn x ≤ posn (lowerBound e) then none else some (predUnsafe x)

/-- `Countof` (`prelude/builtins.c` 216-220). -/
def countof (e : EDecl) : Int := posn (upperBound e) + posn (lowerBound e) + 1

/-- `?+=?` (`prelude/builtins.c` 245-249). -/
def plusAssign (x : Inst) (i : Int) : Inst := fromIntUnsafe (posn x + i)

/-- The loop `for ( i; E )`, or `for ( i; -~= E )` if not `up` (`ControlStruct/TranslateEnumRange.cpp`
14-58): the values of `i` for which the body runs, from the value `i`; `none` if it has not ended
after as many iterations as the first argument.  The comparisons are those of `prelude/builtins.c`
227 and 229; the body does not change `i` and does not leave the loop. -/
def loopFrom (e : EDecl) (up : Bool) : Nat → Inst → Option (List Inst)
  | 0, _ => none
  | f + 1, i =>
    if (if up then posn i ≤ posn (upperBound e) else posn i ≥ posn (lowerBound e)) then
      (loopFrom e up f (if up then succUnsafe i else predUnsafe i)).map (i :: ·)
    else some []

/-- The whole loop. -/
def loop (e : EDecl) (up : Bool) (fuel : Nat) : Option (List Inst) :=
  loopFrom e up fuel (if up then lowerBound e else upperBound e)

/-! ## Conversion to an enumeration with the first one inline -/

mutual
/-- Is the enumeration called `s` this one, or inline in it at any depth?  (`enumCastCost`,
`ResolvExpr/ConversionCost.cpp` 514-527, is less than infinite.) -/
def has (s : String) : EDecl → Bool
  | .mk n _ _ cs => n == s || hasAny s cs
@[inherit_doc has] def hasAny (s : String) : List EDecl → Bool
  | [] => false
  | c :: cs => has s c || hasAny s cs
end

mutual
/-- `makeEnumOffsetCast` (`ResolvExpr/CandidateFinder.cpp` 2150-2181), with the expression evaluated:
from the position `p` in the enumeration `s` to the one in this enumeration.  A child is tried if it
is or has `s` (line 2159, by costs). -/
def convert (s : String) : EDecl → Int → Option Int
  | .mk n _ _ cs, p => if n = s then some p else convertIn s cs 0 p
/-- The loop of `makeEnumOffsetCast` with `findChildOffset` (`ResolvExpr/CandidateFinder.cpp`
2137-2148), whose sum is `off`. -/
def convertIn (s : String) : List EDecl → Nat → Int → Option Int
  | [], _, _ => none
  | .mk n t m i :: cs, off, p =>
    if has s (.mk n t m i) then
      if off = 0 then some p else convert s (.mk n t m i) (p + off)
    else convertIn s cs (off + m.length) p
end

end Verif.Enum
