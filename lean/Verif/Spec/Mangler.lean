import Verif.Model.Mangler
/-
  What two declarations must share for their symbols to coincide: the same name, and types that are
  equal once the details listed in C67 are erased.  `Erased` is a type without those details and
  `erase` computes it; neither mentions strings or numbers of type variables.
-/
namespace Verif.Mangler

inductive QTok | const | volatile | atomic | mutex
deriving DecidableEq, Repr

mutual
inductive Erased
  | qual (k : QTok) (t : Erased)
  /-- A polymorphic type: how many variables of each kind, and the assertions. -/
  | poly (d f v : Nat) (as : ErasedAsserts) (t : Erased)
  | void
  | basic (k : Fin 36)
  | ptr (t : Erased)
  | arr (t : Erased)
  | fn (rets params : ErasedTys)
  | agg (tag : Tag) (name : Name) (params : ErasedTys)
  /-- A type variable, of which only the kind is kept. -/
  | tyvar (k : Kind)
  | tuple (ts : ErasedTys)
  | zero
  | one
inductive ErasedTys
  | nil
  | cons (t : Erased) (rest : ErasedTys)
inductive ErasedAsserts
  | nil
  | cons (name : Name) (link : Linkage) (t : Erased) (rest : ErasedAsserts)
end

def ErasedTys.len : ErasedTys → Nat
  | .nil => 0
  | .cons _ r => r.len + 1

def ErasedAsserts.len : ErasedAsserts → Nat
  | .nil => 0
  | .cons _ _ _ r => r.len + 1

/-- The qualifiers that count: `mutex` always, the others unless the type is an outermost
parameter or return type. -/
def withQuals (outermost : Bool) (q : Quals) (t : Erased) : Erased :=
  let t := if q.mutex then Erased.qual .mutex t else t
  let t := if q.atomic && !outermost then Erased.qual .atomic t else t
  let t := if q.volatile && !outermost then Erased.qual .volatile t else t
  if q.const && !outermost then Erased.qual .const t else t

mutual
/-- Erase a type.  `vars` are the type variables in scope (a variable stays in scope to the end of
the declaration); `outermost` says that the type is a parameter or return type of a function. -/
def erase (outermost : Bool) (vars : List (Name × Kind)) : Ty → Erased × List (Name × Kind)
  | .void q => (withQuals outermost q .void, vars)
  | .basic q k => (withQuals outermost q (.basic k), vars)
  -- a pointer to a function counts as the function
  | .ptr q base =>
    let (b, vars) := erase false vars base
    (withQuals outermost q (if isFn base then b else .ptr b), vars)
  -- the dimension is dropped
  | .array q _ base =>
    let (b, vars) := erase false vars base
    (withQuals outermost q (.arr b), vars)
  -- a reference counts as what it refers to, with the qualifiers of the latter
  | .ref q base =>
    let (b, vars) := erase false vars base
    (withQuals true q b, vars)
  | .fn q fa as rets params =>
    let vars := fa.reverse ++ vars
    let eas := eraseAsserts vars as
    let (rs, vars) := eraseTys true vars rets
    let (ps, vars) := eraseTys true vars params
    let rs := if rs.len = 0 then .cons .void .nil else rs
    let t := withQuals outermost q (.fn rs ps)
    (if fa = [] ∧ as.len = 0 then t
     else .poly (countKind .dtype fa) (countKind .ftype fa) (countKind .ttype fa) eas t, vars)
  | .agg q tag name params =>
    let (ps, vars) := eraseTys false vars params
    (withQuals outermost q (.agg tag name ps), vars)
  | .inst q name params =>
    match vars.lookup name with
    | none =>
      let (ps, vars) := eraseTys false vars params
      (withQuals outermost q (.agg .type name ps), vars)
    | some k => (withQuals outermost q (.tyvar k), vars)
  | .tuple q tys =>
    let (ts, vars) := eraseTys false vars tys
    (withQuals outermost q (.tuple ts), vars)
  | .varargs q => (withQuals outermost q (.agg .type vaList .nil), vars)
  | .zero _ => (.zero, vars)
  | .one _ => (.one, vars)
def eraseTys (outermost : Bool) (vars : List (Name × Kind)) : Tys → ErasedTys × List (Name × Kind)
  | .nil => (.nil, vars)
  | .cons t r =>
    let (e, vars) := erase outermost vars t
    let (es, vars) := eraseTys outermost vars r
    (.cons e es, vars)
def eraseAsserts (vars : List (Name × Kind)) : Asserts → ErasedAsserts
  | .nil => .nil
  | .cons n l t r => .cons n l (erase false vars t).1 (eraseAsserts vars r)
end

/-- An identifier: not empty and not starting with a digit. -/
def Ident (n : Name) : Prop := ∃ c r, n = c :: r ∧ c.isDigit = false

/-- A name a declaration can have: an operator of the language, or an identifier that is not one of
the words the translator writes for operators. -/
def DeclName (n : Name) : Prop :=
  n ∈ operatorTable.map Prod.fst ∨ (Ident n ∧ '?' ∉ n ∧ n ∉ operatorTable.map Prod.snd)

mutual
/-- Names are identifiers, and each type name is used either always with or always without generic
arguments, as `generic` says. -/
def Ok (generic : Tag → Name → Bool) : Ty → Prop
  | .void _ => True
  | .basic _ _ => True
  | .ptr _ b => Ok generic b
  | .array _ _ b => Ok generic b
  | .ref _ b => Ok generic b
  | .fn _ _ as rets params => OkAsserts generic as ∧ OkTys generic rets ∧ OkTys generic params
  | .agg _ tag n ps => Ident n ∧ (generic tag n = true ↔ ps.len ≠ 0) ∧ OkTys generic ps
  | .inst _ n ps => Ident n ∧ (generic .type n = true ↔ ps.len ≠ 0) ∧ OkTys generic ps
  | .tuple _ ts => OkTys generic ts
  | .varargs _ => generic .type vaList = false
  | .zero _ => True
  | .one _ => True
def OkTys (generic : Tag → Name → Bool) : Tys → Prop
  | .nil => True
  | .cons t r => Ok generic t ∧ OkTys generic r
def OkAsserts (generic : Tag → Name → Bool) : Asserts → Prop
  | .nil => True
  | .cons n _ t r => DeclName n ∧ Ok generic t ∧ OkAsserts generic r
end

end Verif.Mangler
