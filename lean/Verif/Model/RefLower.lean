import Mathlib.Logic.Function.Iterate

/-!
# The elimination of references (`src/GenPoly/Lvalue.cpp`)

After resolution every expression carries the type it was given, and references are types of their
own.  `convertLvalue` (lines 636-647) rewrites every expression so that references become pointers:
seven passes are run one after the other over the whole program.  This file models

* the annotated expressions the passes work on, with the rules by which an expression counts as an
  lvalue and by which `&e` gets its type (`src/AST/Expr.cpp`);
* the passes `FixIntrinsicResults`, `AddressRef`, `ReferenceConversions`, `FixIntrinsicArgs`,
  `CollapseAddressDeref` and `ReferenceTypeElimination`;
* what the C that comes out means: a small C with variables, `&`, `*`, `=`, `+`, `?:`, casts and
  calls over a store of machine words.

Left out: `?[?]` (it is treated as `*?` by all these passes but `CollapseAddressDeref`), members,
tuples, the comma, `asm`, bodies of intrinsic functions, the qualifiers of types, and
`GeneralizedLvalue`, which only acts on `&` of a comma or of a conditional expression.
-/

namespace Verif.RefLower

/-- A type: a basic type, `t *` or `t &` (`src/AST/Type.hpp`: `BasicType` and the other leaves,
`PointerType`, `ReferenceType`; qualifiers are left out). -/
inductive Ty where
  | base (n : Nat)
  | ptr (t : Ty)
  | ref (t : Ty)
deriving DecidableEq, Repr

/-- `Type::referenceDepth` (`src/AST/Type.hpp` 71 and 194: one more than the base's for a
reference, 0 otherwise). -/
def Ty.depth : Ty → Nat
  | .ref t => t.depth + 1
  | _ => 0

/-- `Type::stripReferences` (`src/AST/Type.cpp` 42-47). -/
def Ty.strip : Ty → Ty
  | .ref t => t.strip
  | t => t

/-- `getPointerBase` (`src/AST/Inspect.cpp` 30-40): the type under the outermost pointer or
reference.  For another type the code returns null, and `mkDeref` asserts; here the type itself. -/
def Ty.peel : Ty → Ty
  | .ref t => t
  | .ptr t => t
  | t => t

/-- `n` references around a type. -/
def Ty.refs : Nat → Ty → Ty
  | 0, t => t
  | n + 1, t => .ref (Ty.refs n t)

/-- A resolved expression.  The last argument is the type annotation (`Expr::result`,
`src/AST/Expr.hpp` 181).

`deref` is a call of the intrinsic `*?` (`T & *?( T * )`), `assign` a call of the intrinsic `?=?`
(`T ?=?( T &, T )`), `plus` a call of the intrinsic `?+?`; `call f e pr` is a call of a function
which is not intrinsic, with one parameter; `pr` says the parameter has a reference type.
`cast e ex`: `ex` says the cast was written in the program (`ExplicitCast`), otherwise the resolver
made it. -/
inductive E where
  | num (n : Nat) (ty : Ty)
  | var (x : Nat) (ty : Ty)
  | addr (e : E) (ty : Ty)
  | deref (e : E) (ty : Ty)
  | assign (l r : E) (ty : Ty)
  | plus (a b : E) (ty : Ty)
  | call (f : Nat) (e : E) (pr : Bool) (ty : Ty)
  | cast (e : E) (ex : Bool) (ty : Ty)
  | cond (c a b : E) (ty : Ty)
deriving DecidableEq, Repr

/-- The annotation. -/
def E.ty : E → Ty
  | .num _ t => t
  | .var _ t => t
  | .addr _ t => t
  | .deref _ t => t
  | .assign _ _ t => t
  | .plus _ _ t => t
  | .call _ _ _ t => t
  | .cast _ _ t => t
  | .cond _ _ _ t => t

/-- `ret->result = …` (Lvalue.cpp 378 and 394). -/
def E.setTy : E → Ty → E
  | .num n _, t => .num n t
  | .var x _, t => .var x t
  | .addr e _, t => .addr e t
  | .deref e _, t => .deref e t
  | .assign l r _, t => .assign l r t
  | .plus a b _, t => .plus a b t
  | .call f e pr _, t => .call f e pr t
  | .cast e ex _, t => .cast e ex t
  | .cond c a b _, t => .cond c a b t

/-- `Expr::get_lvalue` (`src/AST/Expr.cpp` 42-190): a variable, a call of an
intrinsic returning a reference (`*?` and `?[?]`), and a cast of an lvalue.  A conditional
expression is never one. -/
def E.lv : E → Bool
  | .var _ _ => true
  | .deref _ _ => true
  | .cast e _ _ => e.lv
  | _ => false

/-- Is this an `AddressExpr`? -/
def E.isAddr : E → Bool
  | .addr _ _ => true
  | _ => false

/-- `isIntrinsicReference` (Lvalue.cpp 126-140) for the resolved expressions modelled. -/
def E.isDeref : E → Bool
  | .deref _ _ => true
  | _ => false

/-! ## `FixIntrinsicResults` -/

/-- `FixIntrinsicResults::postvisit` (Lvalue.cpp 163-183): a call of `*?` of type `T &` becomes a
generated cast to `T &` of the call with the type `T`. -/
def fir : E → E
  | .num n t => .num n t
  | .var x t => .var x t
  | .addr e t => .addr (fir e) t
  | .deref e t => .cast (.deref (fir e) t.peel) false t
  | .assign l r t => .assign (fir l) (fir r) t
  | .plus a b t => .plus (fir a) (fir b) t
  | .call f e pr t => .call f (fir e) pr t
  | .cast e ex t => .cast (fir e) ex t
  | .cond c a b t => .cond (fir c) (fir a) (fir b) t

/-! ## `AddressRef` -/

/-- `mkDeref` (Lvalue.cpp 142-161). -/
def mkDeref (e : E) : E := .deref e e.ty.peel

/-- `n` calls of `mkDeref` (the loops at Lvalue.cpp 221-225 and 384-386). -/
def derefs : Nat → E → E
  | 0, e => e
  | n + 1, e => derefs n (mkDeref e)

/-- The end of `AddressRef::postvisit` for the outermost `&` of a chain (Lvalue.cpp 218-241): `d`
dereferences, and a cast to the type of the `&` in an argument or an initialiser. -/
def wrapAddr (ac : Bool) (ty : Ty) (e : E) (d : Nat) : E :=
  if ac = true ∧ ty.depth ≠ 0 then .cast (derefs d e) false ty else derefs d e

/-- `AddressRef` (Lvalue.cpp 189-280).  `first` is the member of that name: the next `&` met is the
outermost one of its chain; `ac` is `addCast`.  The second result is `refDepth` after the visit of
an inner `&` of a chain: 0 stands for "not yet found".  The children of a call are visited with
`addCast` set (lines 253-264), those of any other expression but `&` with it cleared (247-250). -/
def ar : E → Bool → Bool → E × Nat
  | .num n t, _, _ => (.num n t, 0)
  | .var x t, _, _ => (.var x t, 0)
  | .addr e t, first, ac =>
      let r := ar e false ac
      let d := if r.2 = 0 then r.1.ty.depth else r.2
      if first = true then (wrapAddr ac t (.addr r.1 t) d, 0) else (.addr r.1 t, d)
  | .deref e t, _, _ => (.deref (ar e true true).1 t, 0)
  | .assign l r t, _, _ => (.assign (ar l true true).1 (ar r true true).1 t, 0)
  | .plus a b t, _, _ => (.plus (ar a true true).1 (ar b true true).1 t, 0)
  | .call f e pr t, _, _ => (.call f (ar e true true).1 pr t, 0)
  | .cast e ex t, _, _ => (.cast (ar e true false).1 ex t, 0)
  | .cond c a b t, _, _ =>
      (.cond (ar c true false).1 (ar a true false).1 (ar b true false).1 t, 0)

/-! ## `ReferenceConversions` -/

/-- `new AddressExpr( ret )` (Lvalue.cpp 368-370).  Its own annotation is overwritten (line 378) or
stays under a kept cast and is not looked at again. -/
def mkAddr (e : E) : E := .addr e (.ptr e.ty)

/-- `n` calls of it. -/
def addrs : Nat → E → E
  | 0, e => e
  | n + 1, e => addrs n (mkAddr e)

/-- `ReferenceConversions::postvisit( CastExpr )` from line 357 on (Lvalue.cpp 357-415), `a` being
the converted argument.  `typesCompatible` is equality here: qualifiers are left out. -/
def conv (ex : Bool) (ty : Ty) (a : E) : E :=
  if a.ty.depth < ty.depth then
    let r := addrs (ty.depth - a.ty.depth) a
    if a.ty = ty.peel then r.setTy ty else .cast r ex ty
  else if ty.depth < a.ty.depth then
    let r := derefs (a.ty.depth - ty.depth) a
    if ty.strip = a.ty.strip then r.setTy ty else .cast r ex ty
  else if ex = true ∨ ty ≠ a.ty then .cast a ex ty
  else a

/-- The conversions alone, where no temporary is needed. -/
def rc0 : E → E
  | .num n t => .num n t
  | .var x t => .var x t
  | .addr e t => .addr (rc0 e) t
  | .deref e t => .deref (rc0 e) t
  | .assign l r t => .assign (rc0 l) (rc0 r) t
  | .plus a b t => .plus (rc0 a) (rc0 b) t
  | .call f e pr t => .call f (rc0 e) pr t
  | .cast e ex t => conv ex t (rc0 e)
  | .cond c a b t => .cond (rc0 c) (rc0 a) (rc0 b) t

/-- The references to references among the temporaries (Lvalue.cpp 335-346): temporary number
`n + 1 + i` is a reference to temporary number `n + i`. -/
def tmpRefs (t : Ty) (n : Nat) : Nat → List (Nat × E)
  | 0 => []
  | i + 1 => tmpRefs t n i ++
      [(n + 1 + i, .addr (.var (n + i) (Ty.refs i t)) (.ptr (Ty.refs i t)))]

/-- `ReferenceConversions` (Lvalue.cpp 282-415) with its temporaries.  The list is
`stmtsToAddBefore`: the declarations put in front of the statement the expression is part of, each a
name and an initialiser; `n` is the number of the next temporary.  For a cast of an rvalue to a
type of greater reference depth the value is kept in a temporary of the referenced type, followed
by `dstDepth - 1` references to references (lines 305-355).  `none`: `assert( 1 == diff )` fails
(line 354). -/
def rcT : E → Nat → Option (E × List (Nat × E) × Nat)
  | .num k t, n => some (.num k t, [], n)
  | .var x t, n => some (.var x t, [], n)
  | .addr e t, n => (rcT e n).map fun r => (.addr r.1 t, r.2)
  | .deref e t, n => (rcT e n).map fun r => (.deref r.1 t, r.2)
  | .assign l r t, n =>
      (rcT l n).bind fun a => (rcT r a.2.2).map fun b =>
        (.assign a.1 b.1 t, a.2.1 ++ b.2.1, b.2.2)
  | .plus l r t, n =>
      (rcT l n).bind fun a => (rcT r a.2.2).map fun b =>
        (.plus a.1 b.1 t, a.2.1 ++ b.2.1, b.2.2)
  | .call f e pr t, n => (rcT e n).map fun r => (.call f r.1 pr t, r.2)
  | .cast e ex t, n =>
      (rcT e n).bind fun a =>
        if a.1.ty.depth < t.depth ∧ a.1.lv = false then
          if a.1.ty.depth = 0 then
            some (conv ex t (.var (a.2.2 + (t.depth - 1)) (Ty.refs (t.depth - 1) t.strip)),
              a.2.1 ++ (a.2.2, a.1) :: tmpRefs t.strip a.2.2 (t.depth - 1),
              a.2.2 + t.depth)
          else none
        else some (conv ex t a.1, a.2)
  | .cond c a b t, n =>
      (rcT c n).bind fun x => (rcT a x.2.2).bind fun y => (rcT b y.2.2).map fun z =>
        (.cond x.1 y.1 z.1 t, x.2.1 ++ y.2.1 ++ z.2.1, z.2.2)

/-! ## `FixIntrinsicArgs` -/

/-- An argument of an intrinsic function whose parameter is a reference (Lvalue.cpp 489-501): one
more dereference if the argument still has a reference type. -/
def derefArg (e : E) : E := if e.ty.depth ≠ 0 then mkDeref e else e

/-- An argument of a function which is not intrinsic (Lvalue.cpp 469-488): if the parameter is a
reference and the argument a call of `*?`, its address is taken. -/
def addrArg (pr : Bool) (e : E) : E := if pr = true ∧ e.isDeref = true then mkAddr e else e

/-- `FixIntrinsicArgs` (Lvalue.cpp 428-507).  `*?` and `?+?` have no reference parameter. -/
def fia : E → E
  | .num n t => .num n t
  | .var x t => .var x t
  | .addr e t => .addr (fia e) t
  | .deref e t => .deref (fia e) t
  | .assign l r t => .assign (derefArg (fia l)) (fia r) t
  | .plus a b t => .plus (fia a) (fia b) t
  | .call f e pr t => .call f (addrArg pr (fia e)) pr t
  | .cast e ex t => .cast (fia e) ex t
  | .cond c a b t => .cond (fia c) (fia a) (fia b) t

/-! ## `CollapseAddressDeref` and `ReferenceTypeElimination` -/

/-- The C that comes out. -/
inductive C where
  | num (n : Nat)
  | var (x : Nat)
  | addr (e : C)
  | deref (e : C)
  | assign (l r : C)
  | plus (a b : C)
  | call (f : Nat) (e : C)
  | cast (e : C)
  | cond (c a b : C)
deriving DecidableEq, Repr

/-- `CollapseAddressDeref::postvisit( AddressExpr )` with `moveAddressUnderCast` (Lvalue.cpp
509-540): `&*e` is `e`, `&(T)e` is `(T *)&e`.  (The `&` moved under a cast is not looked at again by
the pass: it is only ever next to another cast or to an expression that was visited before.) -/
def sAddr : C → C
  | .deref e => e
  | .cast e => .cast (under e)
  | e => .addr e
where
  /-- `moveAddressUnderCast` (Lvalue.cpp 512-523). -/
  under : C → C
  | .cast e => .cast (under e)
  | e => .addr e

/-- `CollapseAddressDeref::postvisit( ApplicationExpr )` (Lvalue.cpp 542-561): `*&e` is `e`. -/
def sDeref : C → C
  | .addr e => e
  | e => .deref e

/-- `CollapseAddressDeref` from the inside out, then the types are dropped: with references turned
into pointers (`ReferenceTypeElimination`, Lvalue.cpp 626-629) they no longer change the value of an
expression. -/
def out : E → C
  | .num n _ => .num n
  | .var x _ => .var x
  | .addr e _ => sAddr (out e)
  | .deref e _ => sDeref (out e)
  | .assign l r _ => .assign (out l) (out r)
  | .plus a b _ => .plus (out a) (out b)
  | .call f e _ _ => .call f (out e)
  | .cast e _ _ => .cast (out e)
  | .cond c a b _ => .cond (out c) (out a) (out b)

/-- `convertLvalue` (Lvalue.cpp 636-647) on one expression: the declarations put in front of its
statement, and the expression.  `ac`: it is the initialiser of a variable
(`AddressRef::previsit( SingleInit )`, lines 266-269).  `tmp` is the number of the first temporary.
`none`: an assertion of the compiler fails. -/
def lower (ac : Bool) (tmp : Nat) (e : E) : Option (List (Nat × C) × C) :=
  (rcT (ar (fir e) true ac).1 tmp).map fun r =>
    (r.2.1.map fun d => (d.1, out (fia d.2)), out (fia r.1))

/-! ## The meaning of the C -/

/-- The store: a machine word at each address.  The variable `x` lives at the address `x`. -/
abbrev Store := Nat → Nat

/-- Writing a word. -/
def Store.set (σ : Store) (a v : Nat) : Store := fun b => if b = a then v else σ b

/-- The functions of the program: what they return for an argument, and what they do to the
store. -/
abbrev Fns := Nat → Nat → Store → Nat × Store

/-- The C expressions (C11 6.5).  `ev F e true` is the address of the object an lvalue designates,
`ev F e false` the value of an expression.  `none`: not valid C (a cast, a call, an assignment, a
sum, a constant, `&e` and `?:` are not lvalues).  Operands are evaluated from left to right. -/
def ev (F : Fns) : C → Bool → Store → Option (Nat × Store)
  | .num n, false, σ => some (n, σ)
  | .var x, true, σ => some (x, σ)
  | .var x, false, σ => some (σ x, σ)
  | .addr e, false, σ => ev F e true σ
  | .deref e, true, σ => ev F e false σ
  | .deref e, false, σ => (ev F e false σ).map fun r => (r.2 r.1, r.2)
  | .assign l r, false, σ =>
      (ev F l true σ).bind fun a => (ev F r false a.2).map fun b => (b.1, b.2.set a.1 b.1)
  | .plus a b, false, σ =>
      (ev F a false σ).bind fun x => (ev F b false x.2).map fun y => (x.1 + y.1, y.2)
  | .call f e, false, σ => (ev F e false σ).map fun r => F f r.1 r.2
  | .cast e, false, σ => ev F e false σ
  | .cond c a b, false, σ =>
      (ev F c false σ).bind fun x => if x.1 ≠ 0 then ev F a false x.2 else ev F b false x.2
  | _, _, _ => none

/-- The declarations in front of the statement, in order (C11 6.7.9). -/
def evDecls (F : Fns) : List (Nat × C) → Store → Option Store
  | [], σ => some σ
  | (x, c) :: ds, σ => (ev F c false σ).bind fun r => evDecls F ds (r.2.set x r.1)

/-- A statement: its declarations, then its expression. -/
def evStmt (F : Fns) (p : List (Nat × C) × C) (σ : Store) : Option (Nat × Store) :=
  (evDecls F p.1 σ).bind fun σ1 => ev F p.2 false σ1

end Verif.RefLower
