import Verif.Model.Symbols
/-!
Specification for C99: static scoping. The declarations of each open scope are kept in a list, in the order of the text; a name denotes what the innermost scope with a declaration for it says.
-/
namespace Verif.Symbols

/-- A declaration in a scope. An identifier that comes from a `with` clause has the object it belongs to. -/
inductive Entry where
  | type (d : TypeD)
  | tag (kind : TagKind) (d : AggrD)
  | id (d : IdD) (base : Option Base)

/-- The declarations of one scope, in the order of the text. -/
abbrev Frame := List Entry

/-- The members of an object that can be named in a `with` clause, with the positions of the unnamed members they are in. `i` is the position of the first member. -/
def Mems.named (i : Nat) : Mems → List (List Nat × IdD)
  | .nil => []
  | .field d rest => ([], d) :: rest.named (i + 1)
  | .anon inner rest => ((inner.named 0).map fun p => (i :: p.1, p.2)) ++ rest.named (i + 1)

/-- The entries of a `with` clause. -/
def entries (es : List Mems) : Frame := es.zipIdx.flatMap fun (m, j) => (m.named 0).map fun p => .id p.2 (some (j, p.1))

/-- What an operation does to the open scopes, innermost first; `none` when the outermost scope would be closed. -/
def advance (fs : List Frame) : Op → Option (List Frame)
  | .enter => some ([] :: fs)
  | .leave => match fs with | _ :: f :: rest => some (f :: rest) | _ => none
  | .type d => match fs with | f :: rest => some ((f ++ [.type d]) :: rest) | [] => none
  | .tag k d => match fs with | f :: rest => some ((f ++ [.tag k d]) :: rest) | [] => none
  | .id d => match fs with | f :: rest => some ((f ++ [.id d none]) :: rest) | [] => none
  | .withs _ es => match fs with | f :: rest => some ((f ++ entries es) :: rest) | [] => none

/-- The open scopes after a program. -/
def frames (fs : List Frame) : List Op → Option (List Frame)
  | [] => some fs
  | op :: ops => (advance fs op).bind fun fs => frames fs ops

/-- The innermost scope that has an answer gives it. -/
def innermost {α : Type} (look : Frame → Option α) : List Frame → Option α
  | [] => none
  | f :: fs => (look f).or (innermost look fs)

/-- The declarations of a type in a scope. -/
def Frame.types (f : Frame) (name : String) : List TypeD := f.filterMap fun | .type d => if d.name = name then some d else none | _ => none

/-- The declarations of a structure, union, enumeration or trait in a scope. -/
def Frame.tags (f : Frame) (kind : TagKind) (name : String) : List AggrD := f.filterMap fun | .tag k d => if k = kind ∧ d.name = name then some d else none | _ => none

/-- The declarations of an identifier with a given type (mangled name) in a scope. -/
def Frame.ids (f : Frame) (name mangled : String) : List (IdD × Option Base) :=
  f.filterMap fun | .id d b => if d.name = name ∧ d.mangled = mangled then some (d, b) else none | _ => none

/-- What a type denotes in a scope: the first declaration that says what it stands for, or else the last. -/
def typeIn (name : String) (f : Frame) : Option TypeD := ((f.types name).find? fun d => d.base.isSome).or (f.types name).getLast?

/-- What a tag denotes in a scope: its first definition or, if it is only declared, its last declaration. -/
def tagIn (kind : TagKind) (name : String) (f : Frame) : Option AggrD := ((f.tags kind name).find? fun d => d.body).or (f.tags kind name).getLast?

/-- An identifier as it is seen: its declaration, the object it is a member of, and whether it may not be used. -/
structure Seen where
  decl : IdD
  base : Option Base
  deleted : Bool
  deriving DecidableEq, Repr

/-- What an identifier of a given type denotes in a scope: the first declaration by the programmer or, if there is none, the last one made by the compiler. It may not be used if it is declared
deleted, or if it is ambiguous: a `with` clause has it once more. -/
def idIn (name mangled : String) (f : Frame) : Option Seen :=
  match (f.ids name mangled).dropWhile fun p => p.1.linkage.overrideable with
  | p :: later => some ⟨p.1, p.2, (p.2.isNone && p.1.deleted) || later.any fun q => q.2.isSome⟩
  | [] => (f.ids name mangled).getLast?.map fun p => ⟨p.1, p.2, p.2.isNone && p.1.deleted⟩

/-- A part of a program that closes exactly the scopes it opens: `n` scopes of its own are open. -/
def balanced : Nat → List Op → Bool
  | n, [] => n == 0
  | n, .enter :: ops => balanced (n + 1) ops
  | 0, .leave :: _ => false
  | n + 1, .leave :: ops => balanced n ops
  | n, _ :: ops => balanced n ops

/-- Two declarations that must not be in one scope, the first `e`, then `d`: two C functions with the same name and different types; a Cforall declaration of what is a C function; a declaration
by the programmer (`e`), and one that is deleted where the other is not, or that defines it again, or that gives a C name another type. -/
def clash (compat : Nat → Nat → Bool) (e d : IdD) : Prop :=
  e.name = d.name ∧
    if e.mangled ≠ d.mangled then e.linkage.overloadable = false ∧ d.linkage.overloadable = false
    else (e.linkage.overloadable = false ∧ d.linkage.overloadable = true) ∨
      (e.linkage.overrideable = false ∧ (e.deleted ≠ d.deleted ∨ (e.defn = true ∧ d.defn = true) ∨ (e.linkage.overloadable = false ∧ compat d.type e.type = false)))

/-- The declaration is what its name and type denote in the scope. -/
def denoted (f : Frame) (e : IdD) : Prop := ∃ s, idIn e.name e.mangled f = some s ∧ s.decl = e

/-- The scope has no members of a `with` clause. -/
def noWith (f : Frame) : Prop := ∀ d b, Entry.id d b ∈ f → b = none

end Verif.Symbols
