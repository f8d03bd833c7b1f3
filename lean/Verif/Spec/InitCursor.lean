import Verif.Model.InitCursor
/-!
# Which subobjects initializers initialize: the rules of C

After C11 6.7.9, paragraphs 9 and 17-21.  An initializer list belongs to a
current object; an initializer without designation is for the next subobject in
order; a braced list initializes that subobject; an expression initializes it or,
if the subobject is an aggregate and the expression does not have its type, the
first member, recursively ("brace elision"), whose following members are then
next.  Arrays are not initialized by expressions (string literals are left out).
-/
namespace InitCursor

/-- The initializable subobject `i` of a type: array elements and members;
unnamed bit-fields "do not participate in initialization" (paragraph 9). -/
def sub1 : Ty → Nat → Option Ty
  | .sc _, _ => none
  | .arr n t, i => if i < n then some t else none
  | .agg _ ms, i =>
    match ms.get? i with
    | some (.field, t) => some t
    | _ => none

/-- The subobject at a path. -/
def sub : Ty → Path → Option Ty
  | t, [] => some t
  | t, i :: p => (sub1 t i).bind fun u => sub u p

/-- The first of the members at positions `k, k + 1, …`. -/
def firstField : Mems → Nat → Option Nat
  | .nil, _ => none
  | .cons .field _ _, 0 => some 0
  | .cons _ _ ms, 0 => (firstField ms 0).map (· + 1)
  | .cons _ _ ms, k + 1 => (firstField ms k).map (· + 1)

/-- The subobject after `i`: a union has only one that is initialized. -/
def after : Ty → Nat → Option Nat
  | .sc _, _ => none
  | .arr n _, i => if i + 1 < n then some (i + 1) else none
  | .agg .union _, _ => none
  | .agg _ ms, i => firstField ms (i + 1)

/-- Where a list begins. -/
def start : Ty → Option Path
  | .sc _ => some []
  | .arr n _ => if 0 < n then some [0] else none
  | .agg _ ms => (firstField ms 0).map fun i => [i]

/-- The subobject in order after the one at a path: the next one in the same
aggregate, or after that aggregate. -/
def succ : Ty → Path → Option Path
  | _, [] => none
  | t, i :: p =>
    match (sub1 t i).bind fun u => succ u p with
    | some p' => some (i :: p')
    | none => (after t i).map fun j => [j]

mutual
/-- The subobjects an expression may initialize if a `t` is next: it, or, of an
aggregate, the first member, and so on. -/
def chain : Ty → List (Path × Ty)
  | .sc a => [([], .sc a)]
  | .arr _ t => (chain t).map fun o => (0 :: o.1, o.2)
  | .agg k ms => ([], .agg k ms) :: chainHead ms 0
def chainHead : Mems → Nat → List (Path × Ty)
  | .nil, _ => []
  | .cons .field t _, i => (chain t).map fun o => (i :: o.1, o.2)
  | .cons _ _ ms, i => chainHead ms (i + 1)
end

/-- The subobjects an expression may initialize if the one at `p` is next. -/
def cands (t : Ty) (p : Path) : List (Path × Ty) :=
  match sub t p with
  | none => []
  | some u => (chain u).map fun o => (p ++ o.1, o.2)

mutual
/-- An initializer in the list for a `t`, `pos`: the subobject that is next.
`none`: not allowed by C. -/
def spec (t : Ty) (pos : Option Path) : Init → Option (Option Path × List Ob)
  | .expr k =>
    match pos with
    | none => none
    | some p =>
      match (cands t p)[k]? with
      | none => none
      | some (q, _) => some (succ t q, [.expr (cands t p)])
  | .list is =>
    match pos with
    | none => none
    | some p =>
      match sub t p with
      | none => none
      | some u => (specs u (start u) is).map fun obs => (succ t p, .brace u :: obs)
def specs (t : Ty) (pos : Option Path) : Items → Option (List Ob)
  | .nil => some []
  | .cons d i is =>
    let pos' := if d.isEmpty then pos else if (sub t d).isSome then some d else none
    match spec t pos' i with
    | none => none
    | some (pos'', obs) => (specs t pos'' is).map (obs ++ ·)
end

/-- The initializer of a declaration: an expression of the type of the object,
or a list for the object. -/
def specDecl (t : Ty) : Init → Option (List Ob)
  | .expr k => if k = 0 then some [.expr [([], t)]] else none
  | .list is => (specs t (start t) is).map (.brace t :: ·)

/-! ## The types and initializers for which the compiler follows these rules -/

mutual
/-- Types for which the cursor works: no tuples, no empty aggregates or arrays,
no unnamed bit-fields and nothing but members in aggregates. -/
def covered : Ty → Bool
  | .sc _ => true
  | .arr n t => decide (0 < n) && covered t
  | .agg .tuple _ => false
  | .agg _ .nil => false
  | .agg _ (.cons m t ms) => m == .field && covered t && coveredM ms
def coveredM : Mems → Bool
  | .nil => true
  | .cons m t ms => m == .field && covered t && coveredM ms
end

/-- Setting the position from `p` to `d` works: aggregates begin anew, arrays
keep the iterator of their element. -/
def seek : Ty → Path → Path → Bool
  | _, p, [] => p.isEmpty
  | .arr _ _, [], _ :: _ => true
  | .arr _ t, _ :: p, _ :: d => seek t p d
  | .agg _ _, _, _ :: _ => true
  | .sc _, _, _ :: _ => false

/-- The path does not end at the first member of an inner aggregate (where the
iterator cannot tell the member from the aggregate). -/
def fine : Ty → Path → Bool
  | _, [] => true
  | .sc _, _ :: _ => true
  | .arr _ t, _ :: p => fine t p
  | .agg k ms, i :: p =>
    !(i == 0 && p.isEmpty) &&
    match sub1 (.agg k ms) i with
    | some t => fine t p
    | none => true

/-- The same for the position in the current object. -/
def fineTop : Ty → Path → Bool
  | _, [] => true
  | t, i :: p =>
    match sub1 t i with
    | some u => fine u p
    | none => true

/-- Is the path one step (or none, in a scalar)? -/
def short : Path → Bool
  | [] => true
  | [_] => true
  | _ => false

def isScalar : Ty → Bool
  | .sc _ => true
  | _ => false

/-- A designation can be followed: in an array, if the cursor is not at the end
and the element's iterator can be used. -/
def jump (t : Ty) (pos : Option Path) (lost : Bool) (d : Path) : Bool :=
  match t, pos with
  | .arr n u, some p => !lost && seek (.arr n u) p d
  | .arr _ _, none => false
  | _, _ => true

mutual
/-- Initializers for which the cursor works.  `lost`: the expression before
initialized a whole aggregate, after which the cursor is wrong until the next
designation. -/
def tame (t : Ty) (pos : Option Path) (lost : Bool) : Init → Bool
  | .expr _ => !lost
  | .list is =>
    !lost &&
    match pos with
    | none => true
    | some p =>
      short p &&
      match sub t p with
      | none => true
      | some u => tames u (start u) false is
def tames (t : Ty) (pos : Option Path) (lost : Bool) : Items → Bool
  | .nil => true
  | .cons d i is =>
    let pos' := if d.isEmpty then pos else if (sub t d).isSome then some d else none
    (d.isEmpty ||
      (fineTop t d && jump t pos lost d)) &&
    tame t pos' (lost && d.isEmpty) i &&
    match i with
    | .expr k =>
      (match pos' with
       | none => true
       | some p =>
         match (cands t p)[k]? with
         | none => true
         | some (q, u) => tames t (succ t q) (!isScalar u) is)
    | .list _ =>
      (match pos' with
       | none => true
       | some p => tames t (succ t p) false is)
end

/-- Initializers of declarations for which the cursor works. -/
def tameDecl (t : Ty) : Init → Bool
  | .expr _ => true
  | .list is => tames t (start t) false is

end InitCursor
