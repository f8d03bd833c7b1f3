/-!
# Finding the subobject that an initializer initializes

Model of `src/ResolvExpr/CurrentObject.cpp` (the iterators over the members of
a type, and the stack of current objects) and of the treatment of initializers
in `src/ResolvExpr/Resolver.cpp` 1228-1298: for each expression of an
initializer the compiler decides which subobjects it might initialize, resolves
the expression for their types, and moves on.

Simplifications: members are named by their position in the declaration (so
that names are unique and found, lines 506-522); the array dimensions and index
designators are numbers; generic arguments, which only replace types, are left
out.  Which of the offered types the expression is resolved for
(`findSingleExpression`) is an input: the number of the option.
-/
namespace InitCursor

/-- What a declaration in an aggregate is. -/
inductive MK where
  /-- a member -/
  | field
  /-- a bit-field without a name -/
  | pad
  /-- no object, for example a static assertion -/
  | other
deriving DecidableEq

inductive AK where
  | struct | union | tuple
deriving DecidableEq

mutual
/-- Types, as far as `createMemberIterator` (CurrentObject.cpp 460-483)
distinguishes them; `sc`: all others, with a name. -/
inductive Ty where
  | sc (id : Nat)
  | arr (n : Nat) (t : Ty)
  | agg (k : AK) (ms : Mems)
/-- The declarations in an aggregate. -/
inductive Mems where
  | nil
  | cons (m : MK) (t : Ty) (ms : Mems)
end

mutual
def Ty.beq : Ty → Ty → Bool
  | .sc a, .sc b => a == b
  | .arr n t, .arr m u => n == m && t.beq u
  | .agg k ms, .agg l ns => k == l && ms.beq ns
  | _, _ => false
def Mems.beq : Mems → Mems → Bool
  | .nil, .nil => true
  | .cons m t ms, .cons n u ns => m == n && t.beq u && ms.beq ns
  | _, _ => false
end

def Mems.len : Mems → Nat
  | .nil => 0
  | .cons _ _ ms => ms.len + 1

def Mems.get? : Mems → Nat → Option (MK × Ty)
  | .nil, _ => none
  | .cons m t _, 0 => some (m, t)
  | .cons _ _ ms, i + 1 => ms.get? i

/-- Positions of members, or indices, from the outside in: `Designation`. -/
abbrev Path := List Nat

/-- `MemberIterator`, CurrentObject.cpp 45-123, 125-140, 176-198, 237-272,
362-365, 384-387, 402-416.  `null`: the null pointer. -/
inductive Iter where
  | null
  | simple (t : Option Ty)
  | array (t : Ty) (n i : Nat) (m : Iter)
  | agg (k : AK) (ms : Mems) (cur : Nat) (atbegin : Bool) (m : Iter)

mutual
/-- `createMemberIterator`, CurrentObject.cpp 460-483, with the constructors of
the iterators. -/
def create : Ty → Iter
  | .sc a => .simple (some (.sc a))
  | .arr n t => .array t n 0 (create t)
  | .agg k ms => .agg k ms 0 true (createHead ms)
/-- `AggregateIterator::init` for the first declaration, lines 252-263. -/
def createHead : Mems → Iter
  | .nil => .null
  | .cons .other _ _ => .null
  | .cons _ t _ => create t
end

/-- The iterator of the member at position `i`: lines 252-263. -/
def createAt (ms : Mems) (i : Nat) : Iter :=
  match ms.get? i with
  | some (.other, _) => .null
  | some (_, t) => create t
  | none => .null

/-- `operator bool`, lines 107, 173, 367-369, 389; `memberIter && *memberIter`. -/
def Iter.ok : Iter → Bool
  | .null => false
  | .simple t => t.isSome
  | .array _ n i _ => decide (i < n)
  | .agg .struct ms cur _ m => decide (cur < ms.len) || m.ok
  | .agg .union _ _ _ m => m.ok
  | .agg .tuple ms cur _ _ => decide (cur < ms.len)

/-- The first object at position `k` or later, or the end: the loop of
`StructIterator::bigStep`, lines 376-379. -/
def scan : Mems → Nat → Nat
  | .nil, _ => 0
  | .cons .other _ ms, 0 => scan ms 0 + 1
  | .cons _ _ _, 0 => 0
  | .cons _ _ ms, k + 1 => scan ms k + 1

/-- `bigStep`, lines 109, 200-205, 371-381, 391-399, 418-423. -/
def Iter.big : Iter → Iter
  | .null => .null
  | .simple _ => .simple none
  | .array t n i _ => .array t n (i + 1) (if i + 1 < n then create t else .null)
  | .agg .struct ms cur _ _ => .agg .struct ms (scan ms (cur + 1)) false (createAt ms (scan ms (cur + 1)))
  | .agg .union ms _ _ _ => .agg .union ms ms.len false .null
  | .agg .tuple ms cur _ _ => .agg .tuple ms (cur + 1) false (createAt ms (cur + 1))

/-- `smallStep`, lines 110-113, 207-218, 318-330, 425-435 (where the test for
the end of the inner iterator is the wrong way round, so that tuples always
take a big step). -/
def Iter.small : Iter → Iter
  | .null => .null
  | .simple _ => .simple none
  | .array t n i m => if m.small.ok then .array t n i m.small else (Iter.array t n i m).big
  | .agg .tuple ms cur a m => (Iter.agg .tuple ms cur a m).big
  | .agg k ms cur a m => if m.small.ok then .agg k ms cur false m.small else (Iter.agg k ms cur a m).big

/-- `first`, lines 119-122, 224-234, 341-359, 446-457. -/
def Iter.first : Iter → List (Path × Ty)
  | .null => []
  | .simple t => (t.map fun t => ([], t)).toList
  | .array _ _ i m => if m.ok then m.first.map fun o => (i :: o.1, o.2) else []
  | .agg .tuple _ cur _ m => if m.ok then m.first.map fun o => (cur :: o.1, o.2) else []
  | .agg k ms cur a m =>
    (if a then [([], .agg k ms)] else []) ++ if m.ok then m.first.map fun o => (cur :: o.1, o.2) else []

/-- `getOptions`, lines 105, 171, 299-316. -/
def Iter.options : Iter → List (Path × Ty)
  | .agg .struct _ cur _ m => if m.ok then m.first.map fun o => (cur :: o.1, o.2) else []
  | .agg .union _ cur _ m => if m.ok then m.first.map fun o => (cur :: o.1, o.2) else []
  | it => it.first

/-- `setPosition`, lines 96-103, 137-169, 275-297; `none`: the compiler stops
with an error, a failed assertion or a null pointer. -/
def Iter.setPos : Iter → Path → Option Iter
  | .null, _ => none
  | it, [] => some it
  | .simple _, _ :: _ => none
  | .array t n _ m, i :: p => (m.setPos p).map fun m => .array t n i m
  | .agg .tuple ms _ a m, i :: p => (m.setPos p).map fun m => .agg .tuple ms i a m
  | .agg k ms _ _ _, i :: p =>
    match ms.get? i with
    | some (.other, _) => none
    | some (_, t) => ((create t).setPos p).map fun m => .agg k ms i (i == 0 && p.isEmpty) m
    | none => none

/-- `getType`, lines 115, 220, 334, 437. -/
def Iter.getType : Iter → Option Ty
  | .null => none
  | .simple t => t
  | .array t n _ _ => some (.arr n t)
  | .agg k ms _ _ _ => some (.agg k ms)

/-- `getNext`, lines 117, 222, 336-339, 441-444. -/
def Iter.getNext : Iter → Option Ty
  | .null => none
  | .simple t => t
  | .array t _ _ _ => some t
  | .agg _ _ _ _ m => if m.ok then m.getType else none

/-- The search for a designated type in `findNext`, lines 498-546: index
designators for arrays only (with any index), names for structures and unions. -/
def designates : Ty → Path → Bool
  | _, [] => true
  | .arr _ t, _ :: p => designates t p
  | .agg .tuple _, _ :: _ => false
  | .agg _ ms, i :: p =>
    match ms.get? i with
    | some (.other, _) => false
    | some (_, t) => designates t p
    | none => false
  | .sc _, _ :: _ => false

mutual
/-- Initializers: an expression, resolved for option `k`, or a list in braces. -/
inductive Init where
  | expr (k : Nat)
  | list (is : Items)
inductive Items where
  | nil
  /-- designation (may be empty) and initializer -/
  | cons (d : Path) (i : Init) (is : Items)
end

/-- What is observed: the subobjects (in the current object, with their types)
an expression may initialize, and the type of the object of a list. -/
inductive Ob where
  | expr (opts : List (Path × Ty))
  | brace (t : Ty)

/-- `findNext`, lines 491-560. -/
def findNext (it : Iter) (d : Path) : Option Iter :=
  match it.getType with
  | some t => if designates t d then it.setPos d else none
  | none => if d.isEmpty then it.setPos d else none

mutual
/-- `Resolver::previsit` for `SingleInit` and `ListInit`, Resolver.cpp
1228-1298, with `setNext`, `increment`, `enterListInit` and `exitListInit`,
CurrentObject.cpp 562-591.  The stack of current objects: its top `it`. -/
def run (it : Iter) : Init → Option (Iter × List Ob)
  | .expr k =>
    match it.options[k]? with
    | none => none
    | some (q, _) =>
      match it.setPos q with
      | none => none
      | some it' => some (it'.small, [.expr it.options])
  | .list is =>
    match it.getNext with
    | none => none
    | some t =>
      match runs (create t) is with
      | none => none
      | some obs => some (it.big, .brace t :: obs)
def runs (it : Iter) : Items → Option (List Ob)
  | .nil => some []
  | .cons d i is =>
    match findNext it d with
    | none => none
    | some it1 =>
      match run it1 i with
      | none => none
      | some (it2, obs) => (runs it2 is).map (obs ++ ·)
end

/-- The initializer of a declaration of an object of type `t`: the constructor
of `CurrentObject`, lines 487-489. -/
def resolve (t : Ty) (i : Init) : Option (List Ob) := (run (.simple (some t)) i).map (·.2)

end InitCursor
