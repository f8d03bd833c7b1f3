import Verif.Spec.GenLayout
import Verif.Model.Heap

/-!
# Layout of generic structures and unions

Model of how code that does not know the type arguments of a generic type
finds out its size, its alignment and the offsets of its members:
`src/GenPoly/Box.cpp` 78-353 (the layout function of a generic type),
1590-2290 (size, alignment and offset expressions, calls of the layout
functions), `src/GenPoly/InstantiateGeneric.cpp` 161-230 and 552-640 (which
instances become C types), `src/GenPoly/GenPoly.cpp` 82-130.

Simplifications: `size_t` is unbounded; a name of the form
`_sizeof_<mangled type>` is represented by the type itself; a pointer type is
a basic type; only sizes are kept of basic types.
-/
namespace GenLayout
open Verif

mutual
/-- A type as the translator sees it (`src/AST/Type.hpp`): a type variable
(`TypeInstType`), a type without parameters, an array, an instance of the
`j`-th declared generic structure or union (`StructInstType`,
`UnionInstType`). -/
inductive Ty where
  | var (i : Nat)
  | base (size align : Nat)
  | arr (t : Ty) (n : Nat)
  | agg (j : Nat) (args : Tys)
/-- Type arguments. -/
inductive Tys where
  | nil
  | cons (t : Ty) (ts : Tys)
end

/-- A member of a structure or union (`ObjectDecl`): its type, its bit-field
width, its `aligned` attribute (1 if none). -/
structure Member where
  ty : Ty
  bits : Option Nat := none
  aligned : Nat := 1

/-- A generic structure or union (`AggregateDecl`).  `params` says of each
type parameter whether it is complete (`T`) or not (`T &`). -/
structure Decl where
  union : Bool
  params : List Bool
  members : List Member

/-! ## The C type of an instance whose arguments are known -/

/-- Stands for `void` (`scrubTypeDecl`, InstantiateGeneric.cpp 167-186: a
parameter that is not complete becomes `void`). -/
def void : G := .base 1 1

mutual
/-- Substitution of the arguments in a type, InstantiateGeneric.cpp 228-246
(`substituteMembers`) applied recursively (600-627). `U j` makes the C type
of an instance of the `j`-th generic type. -/
def inst (U : Nat → List G → G) (σ : Nat → G) : Ty → G
  | .var i => σ i
  | .base s a => .base s a
  | .arr t n => .arr (inst U σ t) n
  | .agg j args => U j (instArgs U σ args)
def instArgs (U : Nat → List G → G) (σ : Nat → G) : Tys → List G
  | .nil => []
  | .cons t ts => inst U σ t :: instArgs U σ ts
end

/-- The members of an instance (InstantiateGeneric.cpp 228-246); bit-field
widths and attributes of the members are copied. -/
def instMembers (U : Nat → List G → G) (σ : Nat → G) : List Member → GMs
  | [] => .nil
  | m :: ms => .cons (inst U σ m.ty) m.bits m.aligned (instMembers U σ ms)

/-- The concrete declaration of an instance (InstantiateGeneric.cpp 600-617). -/
def concrete (U : Nat → List G → G) (d : Decl) (gs : List G) : G :=
  .agg d.union (instMembers U (fun i => gs[i]?.getD void) d.members)

/-- The first `n` generic types; each may contain earlier ones by value. -/
def instances (D : Nat → Decl) : Nat → Nat → List G → G
  | 0 => fun _ _ => void
  | n + 1 => upd (instances D n) n (concrete (instances D n) (D n))

/-! ## Code that does not know the arguments -/

mutual
/-- The type is polymorphic: `isPolyType`, GenPoly.cpp 82-96, on types in
which instances without polymorphic complete arguments have been replaced by
C types (InstantiateGeneric.cpp 187-226, `makeSubstitutions`; inner types are
visited first). -/
def dyn (D : Nat → Decl) : Ty → Bool
  | .var _ => true
  | .base _ _ => false
  | .arr t _ => dyn D t
  | .agg j args => dynArgs D (D j).params args
/-- `findGenericParams`, Box.cpp 2041-2061: some complete parameter has a
polymorphic argument. -/
def dynArgs (D : Nat → Decl) : List Bool → Tys → Bool
  | b :: bs, .cons t ts => (b && dyn D t) || dynArgs D bs ts
  | _, _ => false
end

/-- `takeSizedParams`, Box.cpp 78-88: the complete parameters, in order;
`i` is the index of the first of `bs`. -/
def sizedParams : Nat → List Bool → List Nat
  | _, [] => []
  | i, b :: bs => if b then i :: sizedParams (i + 1) bs else sizedParams (i + 1) bs

/-- The value of the formal size and alignment parameters of a layout
function (`addSTypeParams`, Box.cpp 91-115): formals and actuals correspond
by position. -/
def bindParams : List Nat → List Lay → Nat → Option Lay
  | p :: ps, l :: ls => fun i => if i = p then some l else bindParams ps ls i
  | _, _ => fun _ => none

/-- `makeAlignTo`, Box.cpp 199-212. -/
def alignTo (lhs rhs : Nat) : Nat :=
  if lhs &&& (rhs - 1) ≠ 0 then lhs + (rhs - (lhs &&& (rhs - 1))) else lhs

/-- `makeAssignMax`, Box.cpp 215-221. -/
def assignMax (lhs rhs : Nat) : Nat := if lhs < rhs then rhs else lhs

/-- What a layout function returns: `*_sizeof`, `*_alignof` and, for a
structure, the array `_offsetof`. -/
structure Res where
  lay : Lay
  offs : List Nat
deriving DecidableEq, Repr

/-- The statements the layout function of a structure has for each of its
members, Box.cpp 254-288. -/
def structLoop : Bool → Res → List Lay → Res
  | _, r, [] => r
  | later, r, l :: ls =>
    let size := if later then alignTo r.lay.size l.align else r.lay.size
    structLoop true
      ⟨⟨size + l.size, assignMax r.lay.align l.align⟩, r.offs ++ [size]⟩ ls

/-- The layout function of a structure, Box.cpp 243-294. -/
def structLayout (ls : List Lay) : Res :=
  let r := structLoop false ⟨⟨0, 1⟩, []⟩ ls
  { r with lay.size := alignTo r.lay.size r.lay.align }

/-- The statements the layout function of a union has for each of its
members, Box.cpp 331-348. -/
def unionLoop (l : Lay) : List Lay → Lay
  | [] => l
  | m :: ms => unionLoop ⟨assignMax l.size m.size, assignMax l.align m.align⟩ ms

/-- The layout function of a union, Box.cpp 319-353.  (A member of a union is
at offset zero, Box.cpp 1886-1891, 1970-1971.) -/
def unionLayout (ls : List Lay) : Res :=
  let l := unionLoop ⟨1, 1⟩ ls
  ⟨⟨alignTo l.size l.align, l.align⟩, ls.map fun _ => 0⟩

/-- An array type. -/
def isArr : Ty → Bool
  | .arr _ _ => true
  | _ => false

mutual
/-- The values of the size and alignment expressions for a type: `genSizeof`,
`genAlignof`, `findGeneric`, Box.cpp 2063-2182, 2231-2261.  `env` is the value
of the size and alignment variables of the type variables, `F j` calls the
layout function of the `j`-th generic type, `C` is what the C compiler makes
of `sizeof` and `_Alignof`.  No value: the generated C program does not
compile. -/
def lay (D : Nat → Decl) (F : Nat → List Lay → Option Res) (C : Ty → Lay)
    (env : Nat → Option Lay) : Ty → Option Lay
  | .var i => env i
  | .base s a => some ⟨s, a⟩
  | .arr t n =>
    if dyn D t then (lay D F C env t).map fun l => ⟨l.size * n, l.align⟩
    else some (C (.arr t n))
  | .agg j args =>
    if dynArgs D (D j).params args then
      if (D j).members.isEmpty then
        -- Box.cpp 2093-2104; there is no layout function for an empty union
        if (D j).union then none else some ⟨1, 1⟩
      else
        ((layArgs D F C env (D j).params args).bind (F j)).map Res.lay
    else some (C (.agg j args))
/-- `addSTypeParamsToLayoutCall`, Box.cpp 2184-2204.  For a polymorphic array
the name of a variable is generated that is not declared. -/
def layArgs (D : Nat → Decl) (F : Nat → List Lay → Option Res) (C : Ty → Lay)
    (env : Nat → Option Lay) : List Bool → Tys → Option (List Lay)
  | b :: bs, .cons t ts =>
    if b then
      if isArr t && dyn D t then none
      else (lay D F C env t).bind fun l =>
        (layArgs D F C env bs ts).map fun ls => l :: ls
    else layArgs D F C env bs ts
  | _, _ => some []
end

/-- `sizeof` and `_Alignof` of each member type in a layout function. -/
def layMembers (D : Nat → Decl) (F : Nat → List Lay → Option Res) (C : Ty → Lay)
    (env : Nat → Option Lay) : List Member → Option (List Lay)
  | [] => some []
  | m :: ms => (lay D F C env m.ty).bind fun l =>
      (layMembers D F C env ms).map fun ls => l :: ls

/-- The layout function of a generic type, Box.cpp 223-353. -/
def layoutFn (D : Nat → Decl) (F : Nat → List Lay → Option Res) (C : Ty → Lay)
    (d : Decl) (actuals : List Lay) : Option Res :=
  (layMembers D F C (bindParams (sizedParams 0 d.params) actuals) d.members).map
    (if d.union then unionLayout else structLayout)

/-- The C compiler's `sizeof` and `_Alignof` of a type without polymorphic
arguments. -/
def cCompiler (D : Nat → Decl) (n : Nat) (t : Ty) : Lay :=
  cLay (inst (instances D n) (fun _ => void) t)

/-- The layout functions of the first `n` generic types. -/
def layoutFns (D : Nat → Decl) : Nat → Nat → List Lay → Option Res
  | 0 => fun _ _ => none
  | n + 1 => upd (layoutFns D n) n
      (layoutFn D (layoutFns D n) (cCompiler D n) (D n))

/-- Size and alignment of `t` as computed in a polymorphic function whose
type variables have the sizes and alignments `env`. -/
def dynLay (D : Nat → Decl) (n : Nat) (env : Nat → Option Lay) (t : Ty) :
    Option Lay :=
  lay D (layoutFns D n) (cCompiler D n) env t

/-- The offsets of the members of an instance of the `j`-th generic type, as
used in a polymorphic function for member access (Box.cpp 1859-1931) and
`offsetof` (1958-1976): the offset array filled in by the layout function. -/
def dynOffs (D : Nat → Decl) (n : Nat) (env : Nat → Option Lay) (j : Nat)
    (args : Tys) : Option (List Nat) :=
  if dynArgs D (D j).params args then
    ((layArgs D (layoutFns D n) (cCompiler D n) env (D j).params args).bind
      (layoutFns D n j)).map Res.offs
  else some (cOffsets (inst (instances D n) (fun _ => void) (.agg j args)))

/-- Alignment of the buffer that holds a local variable of a polymorphic
type: `polyToMonoType`, Box.cpp 1683-1691. -/
def bufferAlign : Nat := 8

/-! ## The programs considered -/

mutual
/-- A type that may occur in a declaration or function when the first `n`
generic types are declared and the type variables `vs` are complete: every
size is positive and every alignment is a power of two, generic types have
the right number of arguments, a complete parameter has a complete argument
that is not an array of a polymorphic type. -/
def OkTy (D : Nat → Decl) (n : Nat) (vs : Nat → Prop) : Ty → Prop
  | .var i => vs i
  | .base s a => 0 < s ∧ ∃ m, a = 2 ^ m
  | .arr t k => OkTy D n vs t ∧ 0 < k
  | .agg j args => j < n ∧ OkArgs D n vs (D j).params args
def OkArgs (D : Nat → Decl) (n : Nat) (vs : Nat → Prop) : List Bool → Tys → Prop
  | [], .nil => True
  | b :: bs, .cons t ts =>
    (b = true → OkTy D n vs t ∧ (isArr t && dyn D t) = false) ∧ OkArgs D n vs bs ts
  | _, _ => False
end

/-- The `k`-th declaration: it has a member; no member is a bit-field or has
an `aligned` attribute; only earlier generic types occur by value; only
complete parameters do. -/
def OkDecl (D : Nat → Decl) (k : Nat) : Prop :=
  (D k).members ≠ [] ∧ ∀ m ∈ (D k).members, m.bits = none ∧ m.aligned = 1 ∧
    OkTy D k (fun i => (D k).params[i]? = some true) m.ty

/-- The first `n` declarations. -/
def OkProg (D : Nat → Decl) (n : Nat) : Prop := ∀ k < n, OkDecl D k

mutual
/-- A C type with positive sizes, power-of-two alignments and no bit-fields
or `aligned` attributes. -/
def Good : G → Prop
  | .base s a => 0 < s ∧ ∃ m, a = 2 ^ m
  | .arr g n => Good g ∧ 0 < n
  | .agg _ ms => ms ≠ .nil ∧ Goods ms
def Goods : GMs → Prop
  | .nil => True
  | .cons g bits al ms => Good g ∧ bits = none ∧ al = 1 ∧ Goods ms
end

end GenLayout
