/-!
Model of the compiler's symbol table: src/AST/SymbolTable.cpp, src/AST/SymbolTable.hpp.

Simplified throughout: a declaration is a record of what the symbol table asks about it, with a number `id` that stands for its address; the mangled name is part of the record (mangling is the
subject of C67); a `PersistentMap` is a list of pairs without repeated keys (persistence is the subject of C62), and a null pointer to a map is the empty map; counters and locations are left out.
-/
namespace Verif.Symbols

/-! ### Maps -/

abbrev Map (α : Type) := List (String × α)

variable {α : Type}

/-- `map->find( k )` -/
def Map.find (m : Map α) (k : String) : Option α := List.lookup k m

/-- `map->set( k, v )` -/
def Map.set (m : Map α) (k : String) (v : α) : Map α := (k, v) :: List.filter (fun p => p.1 != k) m

/-! ### Declarations -/

/-- The parts of src/AST/LinkageSpec.hpp:27-72 that are used here. -/
structure Linkage where
  overrideable : Bool
  overloadable : Bool
  intrinsic : Bool
  deriving DecidableEq, Repr

/-- Linkage specifications, src/AST/LinkageSpec.hpp:59-72 -/
def Linkage.cforall : Linkage := ⟨false, true, false⟩
def Linkage.C : Linkage := ⟨false, false, false⟩
def Linkage.autoGen : Linkage := ⟨true, true, false⟩
def Linkage.intrinsicL : Linkage := ⟨true, true, true⟩

/-- A `NamedTypeDecl`; types are numbers. -/
structure TypeD where
  name : String
  base : Option Nat
  id : Nat
  deriving DecidableEq, Repr

/-- An `AggregateDecl` -/
structure AggrD where
  name : String
  body : Bool
  id : Nat
  deriving DecidableEq, Repr

/-- A `DeclWithType`. `func`: it is a `FunctionDecl`; `defn`: `isDefinition` (src/AST/SymbolTable.cpp:675-683); and, for a constructor, destructor or assignment, `key` and `otype`, what
`getOtypeKey` gives without and with generic parameters (500-511), and `copy`, what `isCopyFunction` gives. -/
structure IdD where
  name : String
  mangled : String
  func : Bool
  linkage : Linkage
  defn : Bool
  deleted : Bool
  type : Nat
  key : String
  otype : String
  copy : Bool
  id : Nat
  deriving DecidableEq, Repr

/-- The object of a `with` clause, by its number, and the unnamed members on the way to a member of it. -/
abbrev Base := Nat × List Nat

/-- src/AST/SymbolTable.hpp:39-57 IdData; the deleter is given by its number. -/
structure IdData where
  id : IdD
  base : Option Base
  deleter : Option Nat
  scope : Nat
  deriving DecidableEq, Repr

/-- src/AST/SymbolTable.hpp:60-67 scoped -/
structure Scoped (D : Type) where
  decl : D
  scope : Nat
  deriving DecidableEq, Repr

inductive TagKind where | struct | enum | union | trait
  deriving DecidableEq, Repr

/-- src/AST/SymbolTable.hpp:36 SpecialFunctionKind -/
inductive SKind where | ctor | dtor | assign
  deriving DecidableEq, Repr

/-- src/AST/SymbolTable.cpp:119-124 getSpecialFunctionKind -/
def specialKind (name : String) : Option SKind :=
  if name = "?{}" then some .ctor else if name = "^?{}" then some .dtor else if name = "?=?" then some .assign else none

/-- src/AST/SymbolTable.hpp:77-83: the tables -/
structure Tables where
  ids : Map (Map IdData)
  types : Map (Scoped TypeD)
  tags : TagKind → Map (Scoped AggrD)
  special : SKind → Map (Map IdData)

/-- A `SymbolTable` without its `prevScope` (src/AST/SymbolTable.hpp:77-92). -/
structure Snap where
  t : Tables
  scope : Nat
  rep : Nat

/-- A `SymbolTable`: the table itself, and those reached by following `prevScope`. -/
structure SymTab where
  cur : Snap
  prev : List Snap

/-- src/AST/SymbolTable.cpp:88-90: the constructor -/
def SymTab.empty : SymTab := ⟨⟨⟨[], [], fun _ => [], fun _ => []⟩, 0, 0⟩, []⟩

/-- What a pass supplies: `typesCompatible`, and whether errors are reported (`ValidateOnAdd`) or not (`IgnoreErrors`), src/AST/SymbolTable.cpp:94-100 OnFindError. -/
structure Env where
  compat : Nat → Nat → Bool
  strict : Bool

/-- What adding a declaration does: an error is raised, nothing is changed, or the tables are replaced. -/
inductive Out where
  | error
  | same
  | put (t : Tables)

/-! ### Scopes -/

/-- src/AST/SymbolTable.cpp:102-108 enterScope -/
def enterScope (T : SymTab) : SymTab := { T with cur := { T.cur with scope := T.cur.scope + 1 } }

/-- src/AST/SymbolTable.cpp:110-117 leaveScope; `none` when there is no previous table (a null pointer). -/
def leaveScope (T : SymTab) : Option SymTab :=
  if T.cur.rep = T.cur.scope then
    match T.prev with
    | [] => none
    | s :: rest => some ⟨{ s with scope := s.scope - 1 }, rest⟩
  else some { T with cur := { T.cur with scope := T.cur.scope - 1 } }

/-- src/AST/SymbolTable.cpp:477-486 lazyInitScope -/
def lazyInitScope (T : SymTab) : SymTab :=
  if T.cur.rep = T.cur.scope then T else ⟨{ T.cur with rep := T.cur.scope }, T.cur :: T.prev⟩

/-- src/AST/SymbolTable.cpp:488-496 atScope: the first table with `repScope <= target`; `none` when there is no more (a null pointer) -/
def atScope (target : Nat) (s : Snap) : List Snap → Option Snap
  | [] => if s.rep > target then none else some s
  | p :: rest => if s.rep > target then atScope target p rest else some s

/-- The end of each function that adds: `lazyInitScope`, then the new tables. -/
def apply (T : SymTab) : Out → Option SymTab
  | .error => none
  | .same => some T
  | .put t => let T := lazyInitScope T; some { T with cur := { T.cur with t := t } }

/-! ### Types and aggregates -/

/-- src/AST/SymbolTable.cpp:288-303 addedTypeConflicts; `none` when an error is raised. -/
def addedTypeConflicts (E : Env) (existing added : TypeD) : Option Bool :=
  match existing.base, added.base with
  | none, _ => some false
  | some _, none => some true
  | some b, some a => if E.compat b a then some true else if E.strict then none else some true

/-- src/AST/SymbolTable.cpp:305-313 addedDeclConflicts -/
def addedDeclConflicts (E : Env) (existing added : AggrD) : Option Bool :=
  if existing.body = false then some false
  else if added.body then (if E.strict then none else some true)
  else some true

/-- src/AST/SymbolTable.cpp:315-332 addType, in scope `k` -/
def addType (E : Env) (k : Nat) (t : Tables) (d : TypeD) : Out :=
  let new := Out.put { t with types := t.types.set d.name ⟨d, k⟩ }
  match t.types.find d.name with
  | none => new
  | some e =>
    if e.scope = k then
      match addedTypeConflicts E e.decl d with
      | none => .error
      | some true => .same
      | some false => new
    else new

/-- src/AST/SymbolTable.cpp:338-355 addStruct, 357-374 addEnum, 380-397 addUnion, 399-416 addTrait: the same code for each table -/
def addTag (E : Env) (k : Nat) (t : Tables) (kind : TagKind) (d : AggrD) : Out :=
  let new := Out.put { t with tags := fun j => if j = kind then (t.tags kind).set d.name ⟨d, k⟩ else t.tags j }
  match (t.tags kind).find d.name with
  | none => new
  | some e =>
    if e.scope = k then
      match addedDeclConflicts E e.decl d with
      | none => .error
      | some true => .same
      | some false => new
    else new

/-! ### Identifiers -/

/-- src/AST/SymbolTable.cpp:855-870 hasCompatibleCDecl -/
def hasCompatibleCDecl (k : Nat) (t : Tables) (name mangled : String) : Bool :=
  match t.ids.find name with
  | none => false
  | some decls => decls.any fun p => p.2.scope == k && !p.2.id.linkage.overloadable && p.1 == mangled

/-- src/AST/SymbolTable.cpp:872-887 hasIncompatibleCDecl -/
def hasIncompatibleCDecl (k : Nat) (t : Tables) (name mangled : String) : Bool :=
  match t.ids.find name with
  | none => false
  | some decls => decls.any fun p => p.2.scope == k && !p.2.id.linkage.overloadable && p.1 != mangled

/-- src/AST/SymbolTable.cpp:686-732 addedIdConflicts; `mode` is the statement of `OnConflict::deleteWith`. The assertion that functions are added to functions and objects to objects is left out. -/
def addedIdConflicts (E : Env) (existing : IdData) (added : IdD) (mode : Option Nat) (deleter : Option Nat) : Option Bool :=
  let conflict : Option Bool := if mode.isNone && E.strict then none else some true
  if existing.id.linkage.overrideable then some false
  else if existing.id.linkage.overloadable || E.compat added.type existing.id.type then
    if deleter.isSome && existing.deleter.isNone then conflict
    else if deleter.isNone && existing.deleter.isSome then conflict
    else if added.defn && existing.id.defn then conflict
    else some true
  else conflict

/-- src/AST/SymbolTable.cpp:515-521 getFunctionForOtype, as a test -/
def isFor (otype : String) (e : IdData) : Bool := e.id.func && e.id.otype == otype

/-- `withDeleter`, for the entries of a map that pass a test. -/
def deleteWhere (m : Map IdData) (p : IdData → Bool) (by' : Nat) : Map IdData := List.map (fun q => if p q.2 then (q.1, { q.2 with deleter := some by' }) else q) m

/-- src/AST/SymbolTable.cpp:545-664 removeSpecialOverrides; `none` when it returns `false`. Setting a key that is in the map is modelled as changing its value in place. -/
def removeSpecialOverrides (data : IdData) (m : Map IdData) : Option (IdData × Map IdData) :=
  if data.id.func = false then some (data, m)
  else
    let user (e : IdData) : Bool := !e.id.linkage.overrideable
    let here (e : IdData) : Bool := isFor data.id.otype e
    if user data && data.id.copy then
      if m.any (fun q => here q.2 && user q.2 && q.2.id.copy) then some (data, m)
      else
        let rest : Map IdData := List.filter (fun q => !(here q.2 && !user q.2 && q.2.id.copy)) m
        if m.any (fun q => here q.2 && user q.2) then some (data, rest)
        else some (data, deleteWhere rest (fun e => here e && !user e && !e.id.copy) data.id.id)
    else if user data then
      if m.any (fun q => here q.2 && user q.2) then some (data, m)
      else some (data, deleteWhere m (fun e => here e && !user e && !e.id.linkage.intrinsic && !e.id.copy) data.id.id)
    else if data.id.linkage.intrinsic = false then
      if data.id.copy then
        if m.any (fun q => here q.2 && user q.2 && q.2.id.copy) then none else some (data, m)
      else
        match m.find? (fun q => here q.2 && user q.2) with
        | some q => some ({ data with deleter := some q.2.id.id }, m)
        | none => some (data, m)
    else some (data, m)

/-- The table a declaration goes to, and its key there: src/AST/SymbolTable.cpp:734-751 addIdCommon -/
def tableOf (t : Tables) : Option SKind → Map (Map IdData)
  | none => t.ids
  | some s => t.special s

/-- Assignment to that table. -/
def setTable (t : Tables) (m : Map (Map IdData)) : Option SKind → Tables
  | none => { t with ids := m }
  | some s => { t with special := fun j => if j = s then m else t.special j }

/-- src/AST/SymbolTable.cpp:753-828 addIdToTable, with the table and the key addIdCommon chooses -/
def addIdToTable (E : Env) (k : Nat) (t : Tables) (d : IdD) (mode : Option Nat) (base : Option Base) (deleter : Option Nat) : Out :=
  let s := specialKind d.name
  let key := if s.isNone then d.name else d.key
  let m := ((tableOf t s).find key).getD []
  let new : Out :=
    let data : IdData := ⟨d, base, deleter, k⟩
    if s.isNone then .put (setTable t ((tableOf t s).set key (m.set d.mangled data)) s)
    else
      match removeSpecialOverrides data m with
      | none => .put t
      | some (data, m) => .put (setTable t ((tableOf t s).set key (m.set d.mangled data)) s)
  if d.name = "" then .same
  else if d.linkage.overloadable && hasCompatibleCDecl k t d.name d.mangled && E.strict then .error
  else if !d.linkage.overloadable && hasIncompatibleCDecl k t d.name d.mangled && E.strict then .error
  else
    match m.find d.mangled with
    | none => new
    | some e =>
      if e.scope = k then
        match addedIdConflicts E e d mode deleter with
        | none => .error
        | some false => new
        | some true =>
          match mode with
          | some w => .put (setTable t ((tableOf t s).set key (m.set d.mangled { e with deleter := some w })) s)
          | none => .same
      else new

/-- src/AST/SymbolTable.cpp:278-281 addId -/
def addId (E : Env) (k : Nat) (t : Tables) (d : IdD) : Out := addIdToTable E k t d none none (if d.deleted then some d.id else none)

/-! ### `with` clauses -/

/-- The members of a structure, union or enumeration: named ones, and unnamed ones that are structures or unions, with their members. -/
inductive Mems where
  | nil
  | field (d : IdD) (rest : Mems)
  | anon (inner rest : Mems)
  deriving Repr

/-- src/AST/SymbolTable.cpp:830-853 addMembers: the calls of addIdCommon, in order; `i` is the position of the next member. The environments of the expressions are left out. -/
def members (path : List Nat) (i : Nat) : Mems → List (List Nat × IdD)
  | .nil => []
  | .field d rest => (path, d) :: members path (i + 1) rest
  | .anon inner rest => members (path ++ [i]) 0 inner ++ members path (i + 1) rest

/-- src/AST/SymbolTable.cpp:419-450 addWith: the calls of addIdCommon, in order; `j` is the number of the next expression. -/
def withIds (j : Nat) : List Mems → List (Base × IdD)
  | [] => []
  | m :: rest => (members [] 0 m).map (fun p => ((j, p.1), p.2)) ++ withIds (j + 1) rest

/-- The loop over those calls. -/
def addAll (E : Env) (stmt : Nat) (T : SymTab) : List (Base × IdD) → Option SymTab
  | [] => some T
  | p :: rest => (apply T (addIdToTable E T.cur.scope T.cur.t p.2 (some stmt) (some p.1) none)).bind fun T => addAll E stmt T rest

/-! ### Histories -/

/-- What a pass does to its symbol table (src/AST/Pass.impl.hpp, src/AST/Pass.proto.hpp:360-454). -/
inductive Op where
  | enter
  | leave
  | type (d : TypeD)
  | tag (kind : TagKind) (d : AggrD)
  | id (d : IdD)
  | withs (stmt : Nat) (exprs : List Mems)

def step (E : Env) (T : SymTab) : Op → Option SymTab
  | .enter => some (enterScope T)
  | .leave => leaveScope T
  | .type d => apply T (addType E T.cur.scope T.cur.t d)
  | .tag kind d => apply T (addTag E T.cur.scope T.cur.t kind d)
  | .id d => apply T (addId E T.cur.scope T.cur.t d)
  | .withs stmt exprs => addAll E stmt T (withIds 0 exprs)

def run (E : Env) (T : SymTab) : List Op → Option SymTab
  | [] => some T
  | op :: ops => (step E T op).bind fun T => run E T ops

/-! ### Look-ups -/

/-- src/AST/SymbolTable.cpp:222-228 lookupType -/
def SymTab.lookupType (T : SymTab) (name : String) : Option TypeD := (T.cur.t.types.find name).map (·.decl)

/-- src/AST/SymbolTable.cpp:230-236 lookupStruct, 238-244 lookupEnum, 246-252 lookupUnion, 254-260 lookupTrait -/
def SymTab.lookupTag (T : SymTab) (kind : TagKind) (name : String) : Option AggrD := ((T.cur.t.tags kind).find name).map (·.decl)

/-- src/AST/SymbolTable.cpp:262-264 globalLookupType; `none` for a null pointer on the way -/
def SymTab.globalLookupType (T : SymTab) (name : String) : Option (Option TypeD) := (atScope 0 T.cur T.prev).map fun s => (s.t.types.find name).map (·.decl)

/-- src/AST/SymbolTable.cpp:266-276: globalLookupStruct, globalLookupUnion, globalLookupEnum -/
def SymTab.globalLookupTag (T : SymTab) (kind : TagKind) (name : String) : Option (Option AggrD) := (atScope 0 T.cur T.prev).map fun s => ((s.t.tags kind).find name).map (·.decl)

/-- src/AST/SymbolTable.cpp:173-220 specialLookupId, with a key -/
def SymTab.specialLookupId (T : SymTab) (s : SKind) (key : String) : List IdData := (((T.cur.t.special s).find key).getD []).map (·.2)

/-- src/AST/SymbolTable.cpp:126-159 lookupId, for names other than those of constructors, destructors and assignments -/
def SymTab.lookupId (T : SymTab) (name : String) : List IdData := ((T.cur.t.ids.find name).getD []).map (·.2)

end Verif.Symbols
