import Verif.Model.Symbols

/-!
Specification for C100, after the comment at src/AST/SymbolTable.cpp:547-554: which constructors, destructors and assignments of a type can be used when `ds` are the ones that are declared. Nothing
here depends on the order of the declarations.
-/
namespace Verif.Symbols

/-- Written by the user: not generated for the type by the translator and not built in. -/
def IdD.user (d : IdD) : Prop := d.linkage.overrideable = false

/-- Declared for the user by the translator, or built in. -/
def IdD.given (d : IdD) : Prop := d.linkage.overrideable = true

/-- A given function is withdrawn when the user writes functions for the type: a generated copy function when the user has a copy function, another generated function when the user has any, and a
built-in function never. -/
def Withdrawn (ds : List IdD) (d : IdD) : Prop :=
  d.linkage.intrinsic = false ∧ ∃ u ∈ ds, u.user ∧ u.otype = d.otype ∧ (d.copy = true → u.copy = true)

/-- The functions with mangled name `x` (hence of one type) can be used: the user has written one, not to delete it; or has not, and one is given that is not withdrawn. -/
def Usable (ds : List IdD) (x : String) : Prop :=
  (∃ u ∈ ds, u.user ∧ u.mangled = x ∧ u.deleted = false) ∨
  ((∀ u ∈ ds, u.user → u.mangled ≠ x) ∧ ∃ d ∈ ds, d.given ∧ d.mangled = x ∧ ¬ Withdrawn ds d)

/-- The names of constructors, destructors and assignments. -/
def SKind.name : SKind → String
  | .ctor => "?{}"
  | .dtor => "^?{}"
  | .assign => "?=?"

/-- The declarations of kind `s` for types with key `key`, in a history. -/
def declaredFor (s : SKind) (key : String) (ops : List Op) : List IdD :=
  ops.filterMap fun
    | .id d => if d.name = s.name ∧ d.key = key then some d else none
    | _ => none

/-- Only declarations: no scope is opened or closed, and there is no `with`. -/
def flat (ops : List Op) : Prop := ∀ op ∈ ops, match op with | .type _ => True | .tag _ _ => True | .id _ => True | _ => False

/-- Declarations as the translator makes them: those of this kind are functions; the mangled name determines the type, and hence whether a function is a copy function and whether it is built in; and
a given function is not declared deleted. -/
structure WellMade (ds : List IdD) : Prop where
  func : ∀ d ∈ ds, d.func = true
  same : ∀ d ∈ ds, ∀ e ∈ ds, d.mangled = e.mangled → d.otype = e.otype ∧ d.copy = e.copy ∧ (d.given → e.given → d.linkage.intrinsic = e.linkage.intrinsic)
  given : ∀ d ∈ ds, d.given → d.deleted = false

/-- The user has no copy function for a type that has built-in functions. -/
def NoCopyOfBuiltin (ds : List IdD) : Prop := ∀ d ∈ ds, d.given → d.linkage.intrinsic = true → ∀ u ∈ ds, u.user → u.copy = true → u.otype ≠ d.otype

/-- The functions a look-up finds that are not marked as deleted. -/
def SymTab.usable (T : SymTab) (s : SKind) (key : String) (x : String) : Prop := ∃ e ∈ T.specialLookupId s key, e.deleter = none ∧ e.id.mangled = x

end Verif.Symbols
