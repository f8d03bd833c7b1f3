import Verif.Model.ArithRes
/-!
What C says about arithmetic expressions (C17 6.3.1.1, 6.3.1.8, 6.5.3.3, 6.5.5-6.5.15), for the types of x86-64: `char` is signed, `int` has 32 bits, `long` and `long long` 64; and what a
user of overloaded operators expects: the version nearest to the operands.
-/
namespace Verif.Arith

/-- Whether a value of type `a` may be used where a `b` is expected without narrowing. -/
def SafeTo (a b : Kind) : Prop := 0 ≤ costAt a b
instance (a b : Kind) : Decidable (SafeTo a b) := inferInstanceAs (Decidable (0 ≤ costAt a b))

/-- `k` is the least of the types `l` both `a` and `b` may be widened to. -/
structure Nearest (l : List Kind) (a b k : Kind) : Prop where
  offered : k ∈ l
  left : SafeTo a k
  right : SafeTo b k
  least : ∀ k' ∈ l, SafeTo a k' → SafeTo b k' → SafeTo k k'

/-- An operand converted to the type a version expects: a cast, unless it has that type. -/
def coerce (k : Kind) (a : TExpr) : TExpr := if a.kind = k then a else .cast (some k) a

/-- `t` is the expression `e` with the nearest version chosen for every operator, and nothing narrowed but by the casts of `e`. -/
inductive Elab : Expr → TExpr → Prop where
  | name (k : Kind) : Elab (.name [k]) (.var k)
  | un {op a ta k} : Elab a ta → Nearest (overloads1 op) ta.kind ta.kind k → Elab (.un op a) (.un op k (coerce k ta))
  | bin {op a b ta tb k} : Elab a ta → Elab b tb → Nearest (overloads2 op) ta.kind tb.kind k → Elab (.bin op a b) (.bin op k (coerce k ta) (coerce k tb))
  | cast {t a ta} : Elab a ta → Elab (.cast t a) (.cast (some t) ta)
  | cond {a b ta tb k} : Elab a ta → Elab b tb → Nearest kinds ta.kind tb.kind k → Elab (.cond a b) (.cond k (coerce k ta) (coerce k tb))

/-! ### The types of C -/

/-- The integer types: rank, signed, width (`char` is signed). -/
def intOf : Kind → Option (Nat × Bool × Nat)
  | .bool => some (0, false, 1)
  | .char => some (1, true, 8)
  | .signedChar => some (1, true, 8)
  | .unsignedChar => some (1, false, 8)
  | .shortSignedInt => some (2, true, 16)
  | .shortUnsignedInt => some (2, false, 16)
  | .signedInt => some (3, true, 32)
  | .unsignedInt => some (3, false, 32)
  | .longSignedInt => some (4, true, 64)
  | .longUnsignedInt => some (4, false, 64)
  | .longLongSignedInt => some (5, true, 64)
  | .longLongUnsignedInt => some (5, false, 64)
  | .signedInt128 => some (6, true, 128)
  | .unsignedInt128 => some (6, false, 128)
  | _ => none

/-- The standard floating types: rank of the real type, complex. -/
def floatOf : Kind → Option (Nat × Bool)
  | .float => some (1, false)
  | .double => some (2, false)
  | .longDouble => some (3, false)
  | .floatComplex => some (1, true)
  | .doubleComplex => some (2, true)
  | .longDoubleComplex => some (3, true)
  | _ => none

/-- The floating type of a rank. -/
def ofFloat (r : Nat) (cx : Bool) : Kind :=
  match r, cx with
  | 3, true => .longDoubleComplex | 3, false => .longDouble
  | 2, true => .doubleComplex | 2, false => .double
  | _, true => .floatComplex | _, false => .float

/-- The unsigned type of the rank of a signed type. -/
def toUnsigned : Kind → Kind
  | .signedInt => .unsignedInt
  | .longSignedInt => .longUnsignedInt
  | .longLongSignedInt => .longLongUnsignedInt
  | .signedInt128 => .unsignedInt128
  | k => k

/-- C17 6.3.1.1p2: integer promotion (every type of lower rank than `int` fits an `int`). -/
def promote (k : Kind) : Kind :=
  match intOf k with
  | some (r, _, _) => if r < 3 then .signedInt else k
  | none => k

/-- C17 6.3.1.8: the usual arithmetic conversions. -/
def usual (a b : Kind) : Kind :=
  match floatOf a, floatOf b with
  | some (ra, ca), some (rb, cb) => ofFloat (max ra rb) (ca || cb)
  | some (ra, ca), none => ofFloat ra ca
  | none, some (rb, cb) => ofFloat rb cb
  | none, none =>
    match intOf (promote a), intOf (promote b) with
    | some (ra, sa, wa), some (rb, sb, wb) =>
      if sa = sb then (if rb ≤ ra then promote a else promote b)
      else if sa then
        -- `b` is the unsigned one
        if ra ≤ rb then promote b else if wb < wa then promote a else toUnsigned (promote a)
      else
        if rb ≤ ra then promote a else if wa < wb then promote b else toUnsigned (promote b)
    | _, _ => a

/-- A type of standard C, with `__int128`. -/
def Standard (k : Kind) : Bool := (intOf k).isSome || (floatOf k).isSome
/-- An integer type. -/
def IsInt (k : Kind) : Bool := (intOf k).isSome
/-- A real type. -/
def IsReal (k : Kind) : Bool := IsInt k || (match floatOf k with | some (_, cx) => ! cx | none => false)

/-- C17 6.5.3.3: the type of a unary operator is its promoted operand, of `!` it is `int`; `~` needs an integer. -/
def cUnary (op : Op1) (k : Kind) : Option Kind :=
  match op with
  | .plus => if Standard k then some (promote k) else none
  | .minus => if Standard k then some (promote k) else none
  | .compl => if IsInt k then some (promote k) else none
  | .lnot => if Standard k then some .signedInt else none

/-- C17 6.5.5-6.5.12: the types the operands of a binary operator are converted to, and the type of the result; `none` when the operands are not allowed. -/
def cBinary (op : Op2) (a b : Kind) : Option (Kind × Kind × Kind) :=
  match op with
  | .mul | .div | .add | .sub => if Standard a && Standard b then some (usual a b, usual a b, usual a b) else none
  | .mod | .band | .bxor | .bor => if IsInt a && IsInt b then some (usual a b, usual a b, usual a b) else none
  | .shl | .shr => if IsInt a && IsInt b then some (promote a, promote b, promote a) else none
  | .lt | .le | .gt | .ge => if IsReal a && IsReal b then some (usual a b, usual a b, .signedInt) else none
  | .eq | .ne => if Standard a && Standard b then some (usual a b, usual a b, .signedInt) else none

/-- The type C gives an expression over variables. -/
def cType : Expr → Option Kind
  | .name [k] => if Standard k then some k else none
  | .name _ => none
  | .un op a => (cType a).bind (cUnary op)
  | .bin op a b => (cType a).bind fun ka => (cType b).bind fun kb => (cBinary op ka kb).map (·.2.2)
  | .cast t a => (cType a).bind fun _ => if Standard t then some t else none
  | .cond a b => (cType a).bind fun ka => (cType b).bind fun kb => some (usual ka kb)

/-- The expression with the conversions C makes; `none` for what C rejects, and for shifts that leave the operands with different types. -/
def cElab : Expr → Option TExpr
  | .name [k] => if Standard k then some (.var k) else none
  | .name _ => none
  | .un op a => (cElab a).bind fun ta => (cUnary op ta.kind).map fun _ => .un op (promote ta.kind) (coerce (promote ta.kind) ta)
  | .bin op a b => (cElab a).bind fun ta => (cElab b).bind fun tb => (cBinary op ta.kind tb.kind).bind fun r =>
      if r.1 = r.2.1 then some (.bin op r.1 (coerce r.1 ta) (coerce r.1 tb)) else none
  | .cast t a => (cElab a).bind fun ta => if Standard t then some (.cast (some t) ta) else none
  | .cond a b => (cElab a).bind fun ta => (cElab b).bind fun tb => some (.cond (usual ta.kind tb.kind) (coerce (usual ta.kind tb.kind) ta) (coerce (usual ta.kind tb.kind) tb))

/-- The least and the greatest value of an integer type. -/
def rangeOf (k : Kind) : Option (Int × Int) :=
  (intOf k).map fun (_, s, w) => if s then (-2 ^ (w - 1), 2 ^ (w - 1) - 1) else (0, 2 ^ w - 1)

/-- C17 6.3.1.3: conversion of a value to an integer type other than `_Bool`: the value of the type equal to it modulo a power of two. -/
def toInt (k : Kind) (v : Int) : Int :=
  match intOf k with
  | some (_, true, w) => (v + 2 ^ (w - 1)) % 2 ^ w - 2 ^ (w - 1)
  | some (_, false, w) => v % 2 ^ w
  | none => v

/-- The unsigned integer types. -/
def Unsigned : Kind → Bool
  | .unsignedChar | .shortUnsignedInt | .unsignedInt | .longUnsignedInt | .longLongUnsignedInt | .unsignedInt128 => true
  | _ => false

/-! ### Restrictions -/

/-- The types with operators of their own, and `_Bool`. -/
def HasOps (k : Kind) : Prop := k = .bool ∨ k ∈ basicTypes.map (·.1)
instance (k : Kind) : Decidable (HasOps k) := inferInstanceAs (Decidable (_ ∨ _))

/-- Number of operators, casts and conditionals. -/
def Expr.size : Expr → Nat
  | .name _ => 0
  | .un _ a => a.size + 1
  | .bin _ a b => a.size + b.size + 1
  | .cast _ a => a.size + 1
  | .cond a b => a.size + b.size + 1

/-- Number of casts. -/
def Expr.casts : Expr → Nat
  | .name _ => 0
  | .un _ a => a.casts
  | .bin _ a b => a.casts + b.casts
  | .cast _ a => a.casts + 1
  | .cond a b => a.casts + b.casts

/-- The operand types a version of the operator exists for: `~` needs an integer, and only `!` is declared for `_Bool`. -/
def Fits1 (op : Op1) (k : Kind) : Prop := k ∈ overloads1 op
instance (op : Op1) (k : Kind) : Decidable (Fits1 op k) := inferInstanceAs (Decidable (_ ∈ _))

/-- The operand types a version of the operator exists for: one of them may be `_Bool`. -/
def Fits2 (op : Op2) (a b : Kind) : Prop := (a ∈ overloads2 op ∨ a = .bool) ∧ (b ∈ overloads2 op ∨ b = .bool) ∧ (a ∈ overloads2 op ∨ b ∈ overloads2 op)
instance (op : Op2) (a b : Kind) : Decidable (Fits2 op a b) := inferInstanceAs (Decidable (_ ∧ _))

/-- `e` is an expression over variables, each with one type, whose operators are applied to operands they exist for. `k` is the type of the resolved expression. -/
inductive Fit : Expr → Kind → Prop where
  | name {k} : HasOps k → Fit (.name [k]) k
  | un {op a k} : Fit a k → Fits1 op k → Fit (.un op a) (resultOf (row1 op) k)
  | bin {op a b ka kb k} : Fit a ka → Fit b kb → Fits2 op ka kb → Nearest (overloads2 op) ka kb k → Fit (.bin op a b) (resultOf (row2 op) k)
  | cast {t a k} : Fit a k → HasOps t → Fit (.cast t a) t
  | cond {a b ka kb k} : Fit a ka → Fit b kb → Nearest kinds ka kb k → Fit (.cond a b) k

/-- The types C's promotions leave alone: those of rank at least that of `int`. -/
def Wide (k : Kind) : Bool := Standard k && (promote k == k)

/-- The mixture C converts to a third type. -/
def Mixed (a b : Kind) : Bool := (a == .longUnsignedInt && b == .longLongSignedInt) || (a == .longLongSignedInt && b == .longUnsignedInt)

/-- Every variable and cast has a type of at least the rank of `int`, no operator or conditional has an `unsigned long` and a `long long` operand, and the operands of shifts have one type. -/
def CLike : Expr → Prop
  | .name ks => ∃ k, ks = [k] ∧ Wide k
  | .un _ a => CLike a
  | .bin op a b => CLike a ∧ CLike b ∧ (∀ ka kb, cType a = some ka → cType b = some kb → Mixed ka kb = false ∧ ((op = .shl ∨ op = .shr) → ka = kb))
  | .cast t a => CLike a ∧ Wide t
  | .cond a b => CLike a ∧ CLike b ∧ (∀ ka kb, cType a = some ka → cType b = some kb → Mixed ka kb = false)

end Verif.Arith
