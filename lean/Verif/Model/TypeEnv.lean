/-
  The type environments of the resolver: /repo/src/AST/TypeEnvironment.cpp, with the exact unification
  of /repo/src/ResolvExpr/Unify.cpp:640-672 that they call and that calls them back.

  Simplifications: a type is a variable, a constant, or two types put together (which stands for pointers,
  functions, generic instances and the other types that `Unify` compares part by part).  Qualifiers, kinds of
  type variable, assertion sets and widening are left out: every class has `allowWidening = false`, so
  `commonType` is not consulted, and a successful `unifyInexact` returns its first type as the common type.
  A class of the `std::list` has an identity, which plays the role of the iterators kept across calls;
  using an iterator whose class has been erased is the result `undef`.
  The C++ functions recurse without a bound; here they take a number of calls they may nest, and `more`
  is the result when that is not enough.
-/
namespace Verif.TypeEnv

inductive Ty
  | var (v : Nat)
  | con (c : Nat)
  | app (a b : Ty)
deriving DecidableEq, Repr

/-- `EqvClass`: /repo/src/AST/TypeEnvironment.hpp:98-103. -/
structure Cls where
  id : Nat
  vars : List Nat
  bound : Option Ty
deriving DecidableEq, Repr

/-- `TypeEnvironment`: /repo/src/AST/TypeEnvironment.hpp:132-137; `next` is the next identity. -/
structure Env where
  classes : List Cls
  next : Nat
deriving DecidableEq, Repr

def Env.empty : Env := ⟨[], 0⟩

/-- What a function that returns bool and updates the environment can do. -/
inductive Res
  | more
  | undef
  | no
  | yes (e : Env)
deriving DecidableEq, Repr

/-- `lookup` and `internal_lookup`: /repo/src/AST/TypeEnvironment.cpp:84-89, 458-463. -/
def lookup (e : Env) (v : Nat) : Option Cls := e.classes.find? (fun c => decide (v ∈ c.vars))

/-- Dereferencing an iterator. -/
def get (e : Env) (id : Nat) : Option Cls := e.classes.find? (fun c => decide (c.id = id))

/-- Assigning through an iterator. -/
def set (e : Env) (c : Cls) : Env :=
  { e with classes := e.classes.map (fun d => if d.id = c.id then c else d) }

/-- `env.erase`. -/
def erase (e : Env) (id : Nat) : Env := { e with classes := e.classes.filter (fun d => decide (d.id ≠ id)) }

/-- `env.emplace_back`. -/
def push (e : Env) (vars : List Nat) (bound : Option Ty) : Env :=
  ⟨e.classes ++ [⟨e.next, vars, bound⟩], e.next + 1⟩

/-- `add( ForallList )`: /repo/src/AST/TypeEnvironment.cpp:110-114. -/
def addVars (e : Env) : List Nat → Env
  | [] => e
  | v :: vs => addVars (push e [v] none) vs

/-- `filterOverlappingClasses` and `add( EqvClass && )`: /repo/src/AST/TypeEnvironment.cpp:93-107, 404-407. -/
def addClass (e : Env) (vars : List Nat) (bound : Option Ty) : Env :=
  push { e with classes := e.classes.filter (fun c => !(vars.any (fun v => decide (v ∈ c.vars)))) } vars bound

/-- The set of variables `Occurs` looks for: /repo/src/AST/TypeEnvironment.cpp:152-159. -/
def occVars (e : Env) (v : Nat) : List Nat :=
  match lookup e v with
  | some c => c.vars
  | none => [v]

/-- The traversal of `Occurs`: /repo/src/AST/TypeEnvironment.cpp:161-169. -/
def occursIn (e : Env) (vs : List Nat) : Nat → Ty → Option Bool
  | 0, _ => none
  | n + 1, .var w =>
    if w ∈ vs then some true
    else match lookup e w with
      | some c => match c.bound with
        | some b => occursIn e vs n b
        | none => some false
      | none => some false
  | _ + 1, .con _ => some false
  | n + 1, .app a b =>
    match occursIn e vs n a, occursIn e vs n b with
    | some x, some y => some (x || y)
    | _, _ => none

/-- `occurs`: /repo/src/AST/TypeEnvironment.cpp:172-176. -/
def occurs (n : Nat) (e : Env) (t : Ty) (v : Nat) : Option Bool := occursIn e (occVars e v) n t

/-- An open variable is one the environment knows: /repo/src/ResolvExpr/Unify.cpp:651-652. -/
def openVar (e : Env) : Ty → Option Nat
  | .var v => if (lookup e v).isSome then some v else none
  | _ => none

mutual
/-- `unifyExact` and the comparisons of `Unify`: /repo/src/ResolvExpr/Unify.cpp:640-672. -/
def unify : Nat → Env → Ty → Ty → Res
  | 0, _, _, _ => .more
  | n + 1, e, t₁, t₂ =>
    match openVar e t₁, openVar e t₂ with
    | some v₁, some v₂ => bindVarToVar n e v₁ v₂
    | some v₁, none => bindVar n e v₁ t₂
    | none, some v₂ => bindVar n e v₂ t₁
    | none, none =>
      match t₁, t₂ with
      | .var a, .var b => if a = b then .yes e else .no
      | .con a, .con b => if a = b then .yes e else .no
      | .app a b, .app c d =>
        match unify n e a c with
        | .yes e' => unify n e' b d
        | r => r
      | _, _ => .no
/-- `bindVar`: /repo/src/AST/TypeEnvironment.cpp:280-317. -/
def bindVar : Nat → Env → Nat → Ty → Res
  | 0, _, _, _ => .more
  | n + 1, e, v, t =>
    match occurs n e t v with
    | none => .more
    | some true => .no
    | some false =>
      match lookup e v with
      | some c =>
        match c.bound with
        | some b =>
          match unify n e b t with
          | .yes e' =>
            match get e' c.id with
            | some d => .yes (set e' { d with bound := some b })
            | none => .undef
          | r => r
        | none => .yes (set e { c with bound := some t })
      | none => .yes (push e [v] (some t))
/-- `bindVarToVar`: /repo/src/AST/TypeEnvironment.cpp:319-398. -/
def bindVarToVar : Nat → Env → Nat → Nat → Res
  | 0, _, _, _ => .more
  | n + 1, e, v₁, v₂ =>
    match lookup e v₁, lookup e v₂ with
    | some c₁, some c₂ =>
      if c₁.id = c₂.id then .yes e
      else
        match c₁.bound, c₂.bound with
        | some b₁, some b₂ =>
          match occurs n e b₁ v₂, occurs n e b₂ v₁ with
          | some false, some false =>
            match unify n e b₁ b₂ with
            | .yes e' =>
              match get e' c₁.id, get e' c₂.id with
              | some d₁, some d₂ =>
                .yes (erase (set e' { d₁ with vars := d₁.vars ++ d₂.vars, bound := some b₁ }) d₂.id)
              | _, _ => .undef
            | r => r
          | some false, some true => .no
          | some true, _ => .no
          | _, _ => .more
        | some b₁, none =>
          match occurs n e b₁ v₂ with
          | some false => .yes (erase (set e { c₁ with vars := c₁.vars ++ c₂.vars }) c₂.id)
          | some true => .no
          | none => .more
        | none, some b₂ =>
          match occurs n e b₂ v₁ with
          | some false => .yes (erase (set e { c₂ with vars := c₂.vars ++ c₁.vars }) c₁.id)
          | some true => .no
          | none => .more
        | none, none => .yes (erase (set e { c₂ with vars := c₂.vars ++ c₁.vars }) c₁.id)
    | some c₁, none =>
      match c₁.bound with
      | some b₁ =>
        match occurs n e b₁ v₂ with
        | some false => .yes (set e { c₁ with vars := c₁.vars ++ [v₂] })
        | some true => .no
        | none => .more
      | none => .yes (set e { c₁ with vars := c₁.vars ++ [v₂] })
    | none, some c₂ =>
      match c₂.bound with
      | some b₂ =>
        match occurs n e b₂ v₁ with
        | some false => .yes (set e { c₂ with vars := c₂.vars ++ [v₁] })
        | some true => .no
        | none => .more
      | none => .yes (set e { c₂ with vars := c₂.vars ++ [v₁] })
    | none, none => .yes (push e [v₁, v₂] none)
end

/-- `mergeBound`: /repo/src/AST/TypeEnvironment.cpp:409-435. -/
def mergeBound (n : Nat) (e : Env) (to : Nat) (from_ : Option Ty) : Res :=
  match from_ with
  | none => .yes e
  | some fb =>
    match get e to with
    | none => .undef
    | some r =>
      match r.bound with
      | some tb =>
        match unify n e tb fb with
        | .yes e' =>
          match get e' to with
          | some r' => .yes (set e' { r' with bound := some tb })
          | none => .undef
        | x => x
      | none => .yes (set e { r with bound := some fb })

/-- The occurs checks of `mergeClasses`: /repo/src/AST/TypeEnvironment.cpp:445-448. -/
def checkAll (n : Nat) (e : Env) (b : Ty) : List Nat → Option Bool
  | [] => some false
  | v :: vs =>
    match occurs n e b v with
    | some false => checkAll n e b vs
    | x => x

/-- `mergeClasses`: /repo/src/AST/TypeEnvironment.cpp:437-456. -/
def mergeClasses (n : Nat) (e : Env) (to from_ : Nat) : Res :=
  match get e from_ with
  | none => .undef
  | some s =>
    match mergeBound n e to s.bound with
    | .yes e' =>
      match get e' to, get e' from_ with
      | some r, some s' =>
        match (match r.bound with | some b => checkAll n e' b s'.vars | none => some false) with
        | some false => .yes (erase (set e' { r with vars := r.vars ++ s'.vars }) from_)
        | some true => .no
        | none => .more
      | _, _ => .undef
    | x => x

/-- The first variable of a class that is already known, with its class, and the variables before and after:
/repo/src/AST/TypeEnvironment.cpp:193-198. -/
def firstKnown (e : Env) : List Nat → Option (List Nat × Cls × List Nat)
  | [] => none
  | v :: vs =>
    match lookup e v with
    | some r => some ([], r, vs)
    | none =>
      match firstKnown e vs with
      | some (pre, r, post) => some (v :: pre, r, post)
      | none => none

/-- /repo/src/AST/TypeEnvironment.cpp:205-208. -/
def addChecked (n : Nat) (e : Env) (r : Nat) (b : Ty) : List Nat → Res
  | [] => .yes e
  | u :: us =>
    match occurs n e b u with
    | some false =>
      match get e r with
      | some c => addChecked n (set e { c with vars := c.vars ++ [u] }) r b us
      | none => .undef
    | some true => .no
    | none => .more

/-- /repo/src/AST/TypeEnvironment.cpp:210-220. -/
def addRest (n : Nat) (e : Env) (r : Nat) : List Nat → Res
  | [] => .yes e
  | u :: us =>
    match get e r with
    | none => .undef
    | some c =>
      match lookup e u with
      | none =>
        match (match c.bound with | some b => occurs n e b u | none => some false) with
        | some false => addRest n (set e { c with vars := c.vars ++ [u] }) r us
        | some true => .no
        | none => .more
      | some s =>
        if s.id = r then addRest n e r us
        else match mergeClasses n e r s.id with
          | .yes e' => addRest n e' r us
          | x => x

/-- One class of the other environment: /repo/src/AST/TypeEnvironment.cpp:189-223. -/
def combineClass (n : Nat) (e : Env) (c : Cls) : Res :=
  match firstKnown e c.vars with
  | none => .yes (push e c.vars c.bound)
  | some (pre, r, post) =>
    match mergeBound n e r.id c.bound with
    | .yes e₁ =>
      match get e₁ r.id with
      | none => .undef
      | some r₁ =>
        match (match r₁.bound with
          | some b => addChecked n e₁ r.id b c.vars
          | none => .yes (set e₁ { r₁ with vars := r₁.vars ++ pre })) with
        | .yes e₂ => addRest n e₂ r.id post
        | x => x
    | x => x

def combineAll (n : Nat) (e : Env) : List Cls → Res
  | [] => .yes e
  | c :: cs =>
    match combineClass n e c with
    | .yes e' => combineAll n e' cs
    | x => x

/-- `simpleCombine`: /repo/src/AST/TypeEnvironment.cpp:140-142. -/
def simpleCombine (e : Env) : List Cls → Env
  | [] => e
  | c :: cs => simpleCombine (push e c.vars c.bound) cs

/-- `combine`: /repo/src/AST/TypeEnvironment.cpp:179-228. -/
def combine (n : Nat) (e o : Env) : Res :=
  if o.classes = [] then .yes e
  else if e.classes = [] then .yes (simpleCombine e o.classes)
  else combineAll n e o.classes

end Verif.TypeEnv
