/-
  The symbol mangler of the translator: /repo/src/SymTab/Mangler.cpp with the code tables of
  /repo/src/SymTab/ManglerCommon.cpp and the operator table of /repo/src/CodeGen/OperatorTable.cpp.

  Modelled: `Mangle::mangle(decl)` in the default mode (`typeMode = false`,
  `mangleGenericParams = true`, `mangleOverridable = true`), for every type that a declaration can
  have after validation.  The strings are lists of characters; `mangleName` is the accumulator.

  Not modelled: trait instances (a declaration never has such a type), qualified types `A.B`
  (replaced by their child before symbols are mangled), and the kinds of type variable for which
  `printQualifiers` fails its assertion (only dtype, ftype and ttype remain at this point).
-/
namespace Verif.Mangler

abbrev Name := List Char

/-- The type-variable kinds that survive to mangling: /repo/src/SymTab/Mangler.cpp:296-309. -/
inductive Kind | dtype | ftype | ttype
deriving DecidableEq, Repr

/-- Aggregate and named-type tags: /repo/src/SymTab/ManglerCommon.cpp:119-122. -/
inductive Tag | struct | union | enum | type
deriving DecidableEq, Repr

/-- CV qualifiers: /repo/src/SymTab/ManglerCommon.cpp:87-92. -/
structure Quals where
  const : Bool := false
  volatile : Bool := false
  atomic : Bool := false
  mutex : Bool := false
deriving DecidableEq, Repr

/-- Whether the declaration is an ordinary one, one built by the translator or one from the
prelude: /repo/src/SymTab/Mangler.cpp:113-124. -/
inductive Linkage | plain | autogen | intrinsic
deriving DecidableEq, Repr

mutual
/-- The types of declarations: the `postvisit` overloads of /repo/src/SymTab/Mangler.cpp:136-252. -/
inductive Ty
  | void (q : Quals)
  | basic (q : Quals) (k : Fin 36)
  | ptr (q : Quals) (base : Ty)
  | array (q : Quals) (dim : Nat) (base : Ty)
  | ref (q : Quals) (base : Ty)
  /-- A function type with the type variables of its forall clause and its assertions. -/
  | fn (q : Quals) (forall_ : List (Name × Kind)) (asserts : Asserts) (rets params : Tys)
  /-- A struct, union or enum with its generic arguments. -/
  | agg (q : Quals) (tag : Tag) (name : Name) (params : Tys)
  /-- A name that is a type variable or an opaque type. -/
  | inst (q : Quals) (name : Name) (params : Tys)
  | tuple (q : Quals) (tys : Tys)
  | varargs (q : Quals)
  | zero (q : Quals)
  | one (q : Quals)
inductive Tys
  | nil
  | cons (t : Ty) (rest : Tys)
/-- The assertions of a forall clause: declarations. -/
inductive Asserts
  | nil
  | cons (name : Name) (link : Linkage) (t : Ty) (rest : Asserts)
end

def Tys.len : Tys → Nat
  | .nil => 0
  | .cons _ r => r.len + 1

def Asserts.len : Asserts → Nat
  | .nil => 0
  | .cons _ _ _ r => r.len + 1

/-- `basicTypes`: /repo/src/SymTab/ManglerCommon.cpp:43-80. -/
def basicCodes : List (List Char) :=
  [['b'], ['c'], ['a'], ['h'], ['s'], ['t'], ['i'], ['j'], ['l'], ['m'], ['x'], ['y'], ['n'], ['o'],
   ['D','F','1','6','_'], ['C','D','F','1','6','_'],
   ['D','F','3','2','_'], ['C','D','F','3','2','_'],
   ['f'], ['C','f'],
   ['D','F','3','2','x','_'], ['C','D','F','3','2','x','_'],
   ['D','F','6','4','_'], ['C','D','F','6','4','_'],
   ['d'], ['C','d'],
   ['D','F','6','4','x','_'], ['C','D','F','6','4','x','_'],
   ['D','q'], ['e'], ['C','e'], ['g'],
   ['D','F','1','2','8','_'], ['C','D','F','1','2','8','_'],
   ['D','F','1','2','8','x','_'], ['C','D','F','1','2','8','x','_']]

def basicCode (k : Fin 36) : List Char := basicCodes.get (k.cast (by decide))

/-- `typeVariables`: /repo/src/SymTab/ManglerCommon.cpp:106-113. -/
def Kind.code : Kind → List Char
  | .dtype => ['B', 'D']
  | .ftype => ['B', 'F']
  | .ttype => ['B', 'T']

/-- `struct_t`, `union_t`, `enum_t`, `type`: /repo/src/SymTab/ManglerCommon.cpp:119-122. -/
def Tag.code : Tag → Char
  | .struct => 'S'
  | .union => 'U'
  | .enum => 'M'
  | .type => 'Y'

/-- `autogen`, `intrinsic`: /repo/src/SymTab/ManglerCommon.cpp:124-125. -/
def Linkage.code : Linkage → List Char
  | .plain => []
  | .autogen => ['a','u','t','o','g','e','n','_','_']
  | .intrinsic => ['i','n','t','r','i','n','s','i','c','_','_']

/-- The input and output names of `tableValues`: /repo/src/CodeGen/OperatorTable.cpp:24-66. -/
def operatorTable : List (Name × Name) :=
  [("?[?]", "_operator_index"), ("?{}", "_constructor"), ("^?{}", "_destructor"),
   ("?()", "_operator_call"), ("?++", "_operator_postincr"), ("?--", "_operator_postdecr"),
   ("*?", "_operator_deref"), ("+?", "_operator_unaryplus"), ("-?", "_operator_unaryminus"),
   ("~?", "_operator_bitnot"), ("!?", "_operator_lognot"), ("++?", "_operator_preincr"),
   ("--?", "_operator_predecr"), ("?\\?", "_operator_exponential"), ("?*?", "_operator_multiply"),
   ("?/?", "_operator_divide"), ("?%?", "_operator_modulus"), ("?+?", "_operator_add"),
   ("?-?", "_operator_subtract"), ("?<<?", "_operator_shiftleft"), ("?>>?", "_operator_shiftright"),
   ("?<?", "_operator_less"), ("?>?", "_operator_greater"), ("?<=?", "_operator_lessequal"),
   ("?>=?", "_operator_greaterequal"), ("?==?", "_operator_equal"), ("?!=?", "_operator_notequal"),
   ("?&?", "_operator_bitand"), ("?^?", "_operator_bitxor"), ("?|?", "_operator_bitor"),
   ("?=?", "_operator_assign"), ("?\\=?", "_operator_expassign"), ("?*=?", "_operator_multassign"),
   ("?/=?", "_operator_divassign"), ("?%=?", "_operator_modassign"), ("?+=?", "_operator_addassign"),
   ("?-=?", "_operator_subassign"), ("?<<=?", "_operator_shiftleftassign"),
   ("?>>=?", "_operator_shiftrightassign"), ("?&=?", "_operator_bitandassign"),
   ("?^=?", "_operator_bitxorassign"), ("?|=?", "_operator_bitorassign")].map
  (fun p => (p.1.toList, p.2.toList))

/-- The name that is written for a declaration: `operatorLookup`, /repo/src/CodeGen/OperatorTable.cpp:71-85,
and its use at /repo/src/SymTab/Mangler.cpp:107-111.  A name containing '?' is an operator (only the first
character of the search set is used); one that is not in the table fails an assertion, which the model
does not represent: it writes the name itself. -/
def outName (n : Name) : Name :=
  if '?' ∈ n then (operatorTable.lookup n).getD n else n

/-- `std::to_string` of a natural number. -/
def dec (n : Nat) : List Char := Nat.toDigits 10 n

/-- The fields of `Mangler` that change while it runs: /repo/src/SymTab/Mangler.cpp:62-66.
`inFunctionType` is an argument of the functions below, because every assignment to it is undone
(`GuardValue`) when the node that made it has been visited. -/
structure St where
  mangleName : List Char
  varNums : List (Name × (Nat × Kind))
  nextVarNum : Nat

def St.put (s : St) (l : List Char) : St := { s with mangleName := s.mangleName ++ l }

/-- The cv part of `printQualifiers`: /repo/src/SymTab/Mangler.cpp:322-336. -/
def putQuals (inFun : Bool) (q : Quals) (s : St) : St :=
  let s := if !inFun then
      let s := if q.const then s.put ['K'] else s
      let s := if q.volatile then s.put ['V'] else s
      if q.atomic then s.put ['D', 'A'] else s
    else s
  if q.mutex then s.put ['X'] else s

/-- The loop over the forall clause: /repo/src/SymTab/Mangler.cpp:295-311.  `nextVarNum` is stored and
not advanced. -/
def addVars : List (Name × Kind) → St → St
  | [], s => s
  | (n, k) :: r, s => addVars r { s with varNums := (n, (s.nextVarNum, k)) :: s.varNums }

def countKind (k : Kind) (l : List (Name × Kind)) : Nat := (l.filter (fun p => p.2 = k)).length

def isFn : Ty → Bool
  | .fn .. => true
  | _ => false

def vaList : Name := "__builtin_va_list".toList

mutual
/-- `accept` on a type: the `postvisit` overloads of /repo/src/SymTab/Mangler.cpp:136-252. -/
def mangleTy (inFun : Bool) : Ty → St → St
  -- 136-139
  | .void q, s => (putQuals inFun q s).put ['v']
  -- 141-145
  | .basic q k, s => (putQuals inFun q s).put (basicCode k)
  -- 147-152
  | .ptr q base, s =>
    let s := putQuals inFun q s
    let s := if isFn base then s else s.put ['P']
    mangleTy false base s
  -- 154-159
  | .array q _ base, s => mangleTy false base ((putQuals inFun q s).put ['A', '0'])
  -- 161-168: `inFunctionType` is set, so only `mutex` is printed, and is then cleared for the base
  | .ref q base, s => mangleTy false base (putQuals true q s)
  -- 170-182, with the forall part of `printQualifiers` (292-321) first
  | .fn q fa as rets params, s =>
    let s :=
      if fa = [] ∧ as.len = 0 then s
      else
        let s := s.put ['Q']
        let s := addVars fa s
        let names := mangleAsserts as s.varNums s.nextVarNum
        let s := s.put (dec (countKind .dtype fa) ++ ['_'] ++ dec (countKind .ftype fa) ++ ['_']
          ++ dec (countKind .ttype fa) ++ ['_'] ++ dec as.len ++ ['_'])
        let s := s.put names
        s.put ['_']
    let s := putQuals inFun q s
    let s := s.put ['F']
    let s := if rets.len = 0 then s.put ['v'] else mangleTys true rets s
    let s := s.put ['_']
    let s := mangleTys true params s
    s.put ['_']
  -- mangleRef, 184-199
  | .agg q tag name params, s =>
    let s := putQuals inFun q s
    let s := s.put (tag.code :: (dec name.length ++ name))
    if params.len = 0 then s
    else (mangleTys false params (s.put ['_'])).put ['_']
  -- 213-227
  | .inst q name params, s =>
    match s.varNums.lookup name with
    | none =>
      let s := putQuals inFun q s
      let s := s.put (Tag.type.code :: (dec name.length ++ name))
      if params.len = 0 then s
      else (mangleTys false params (s.put ['_'])).put ['_']
    | some (num, k) => (putQuals inFun q s).put (k.code ++ dec num)
  -- 234-238
  | .tuple q tys, s =>
    mangleTys false tys ((putQuals inFun q s).put ('T' :: dec tys.len))
  -- 240-244
  | .varargs q, s => (putQuals inFun q s).put (Tag.type.code :: (dec vaList.length ++ vaList))
  -- 246-248
  | .zero _, s => s.put ['Z']
  -- 250-252
  | .one _, s => s.put ['O']
/-- `accept_each`. -/
def mangleTys (inFun : Bool) : Tys → St → St
  | .nil, s => s
  | .cons t r, s => mangleTys inFun r (mangleTy inFun t s)
/-- The assertions, each mangled by a `Mangler` of its own with a copy of the variable numbers:
/repo/src/SymTab/Mangler.cpp:312-321 and `mangleDecl` 99-126. -/
def mangleAsserts : Asserts → List (Name × (Nat × Kind)) → Nat → List Char
  | .nil, _, _ => []
  | .cons name link t rest, vars, next =>
    let s : St := ⟨[], vars, next⟩
    let s := s.put ['_', 'X']
    let s := s.put (dec (outName name).length ++ outName name)
    let s := mangleTy false t s
    (s.put link.code).mangleName ++ mangleAsserts rest vars next
end

/-- A variable or function declaration. -/
structure Decl where
  name : Name
  ty : Ty
  link : Linkage := .plain

/-- `mangle(decl)` at top level: /repo/src/SymTab/Mangler.cpp:99-126, 345-350. -/
def mangle (d : Decl) : List Char :=
  let s : St := ⟨[], [], 0⟩
  let s := s.put ['_', 'X']
  let s := s.put (dec (outName d.name).length ++ outName d.name)
  let s := mangleTy false d.ty s
  (s.put d.link.code).mangleName

end Verif.Mangler
