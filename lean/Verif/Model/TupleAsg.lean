/-
Model of tuple assignment, `[a, b] = [c, d]` (multiple assignment) and `[a, b] = c` (mass
assignment), as the translator writes them out.

  src/Tuples/TupleAssignment.cpp   the two matchers and the spotter
  src/Tuples/Explode.hpp/.cpp      a tuple-valued expression becomes its components
  src/Tuples/TupleExpansion.cpp    member tuples, unique expressions, tuple expressions
  src/Tuples/Tuples.cpp            which expressions may have an effect
  src/AST/Expr.cpp 354-366         the statement expression for a tuple assignment

Simplifications: the components are scalars (integers); the operator is an assignment operator
`?op?` whose effect is to put `op old new` in its left operand and return it; constructors and
destructors of tuples, user casts, and the search for the operators (costs, environments) are not
modelled; all reference layers of an object collapse to the location finally referred to, the type
keeps their number.
-/
namespace Verif.Model.TupleAsg

/-- A scalar in memory: a variable and the members on the way to the scalar. -/
abbrev Loc := Nat × List Nat

abbrev Mem := Loc → Int

/-- What a scalar component of an expression turns out to be: a number, or a place. -/
inductive Cell
  | num (n : Int)
  | at (l : Loc)
  deriving DecidableEq, Repr

/-- The result of an expression: one cell for each path of members to a scalar. -/
abbrev Res := List Nat → Cell

/-- Memory, and the calls made so far. -/
structure World where
  mem : Mem
  log : List Nat

/-- `cache` is the pair of variables `_unq_expr_N`, `_unqN_finished_` of each unique expression
(TupleExpansion.cpp 90-122). -/
structure St where
  w : World
  cache : Nat → Option Res

/-- Types: a scalar, a reference, or an aggregate (a tuple; a structure only ever occurs here as
the aggregate of a member tuple). -/
inductive Ty
  | base
  | ref (t : Ty)
  | tup (ts : List Ty)

/-- Typed expressions below the tuple expressions.  `obj`: an expression that only computes where
something is (a variable, a member, the intrinsic `*?` and `?[?]`); where it is may depend on
memory.  `call`: any other call.  `idx`: `TupleIndexExpr` and `MemberExpr`.  `uniq`: `UniqueExpr`.
`cast`: `CastExpr` to or from a reference. -/
inductive Ex
  | obj (a : Mem → List Nat → Loc) (t : Ty)
  | call (name : Nat) (f : Mem → Mem × Res) (t : Ty)
  | idx (e : Ex) (i : Nat)
  | uniq (id : Nat) (e : Ex)
  | cast (e : Ex) (t : Ty)

/-- Tuple expressions (`TupleExpr`) and what is below them. -/
inductive Tree
  | leaf (e : Ex)
  | tup (ts : List Tree)

/-- What the programmer writes below the tuple expressions. -/
inductive Simple
  | obj (a : Mem → List Nat → Loc) (t : Ty)
  | call (name : Nat) (f : Mem → Mem × Res) (t : Ty)
  | idx (s : Simple) (i : Nat)

/-- What the programmer writes: `pick s [i, j]` is the member tuple `s.[i, j]`. -/
inductive Src
  | simple (s : Simple)
  | pick (s : Simple) (fields : List Nat)
  | tup (es : List Src)

/-- The type of member `i`: Expr.cpp 340-346 (`TupleIndexExpr`); a member of what a reference
refers to. -/
def fieldTy : Ty → Nat → Ty
  | .base, _ => .base
  | .ref t, i => fieldTy t i
  | .tup ts, i => ts.getD i .base

/-- `expr->result`. -/
def typeOf : Ex → Ty
  | .obj _ t => t
  | .call _ _ t => t
  | .idx e i => fieldTy (typeOf e) i
  | .uniq _ e => typeOf e
  | .cast _ t => t

/-- `result.as< ast::ReferenceType >()`. -/
def isRef : Ty → Bool
  | .ref _ => true
  | _ => false

/-- `getReferenceBase` (Explode.cpp 24-31), `lhsType->base` (TupleAssignment.cpp 218). -/
def refBase : Ty → Ty
  | .ref t => t
  | t => t

/-- `maybeImpureIgnoreUnique`: Tuples.cpp 30-62. -/
def maybeImpure : Ex → Bool
  | .obj _ _ => false
  | .call _ _ _ => true
  | .idx e _ => maybeImpure e
  | .uniq _ _ => false
  | .cast e _ => maybeImpure e

/-- The expression for what the programmer wrote. -/
def emb : Simple → Ex
  | .obj a t => .obj a t
  | .call n f t => .call n f t
  | .idx s i => .idx (emb s) i

mutual
/-- `MemberTupleExpander` (TupleExpansion.cpp 73-88): a member tuple becomes the tuple of the
members; an aggregate that may have an effect is made unique first.  The number is
`UniqueExpr::nextId` (Expr.cpp 386-394).  Members of members are not modelled. -/
def expandMember : Src → Nat → Tree × Nat
  | .simple s, n => (.leaf (emb s), n)
  | .pick s fs, n =>
    let aggr := if maybeImpure (emb s) then Ex.uniq n (emb s) else emb s
    (.tup (fs.map fun i => .leaf (.idx aggr i)), n + 1)
  | .tup es, n => let r := expandMembers es n; (.tup r.1, r.2)
def expandMembers : List Src → Nat → List Tree × Nat
  | [], n => ([], n)
  | e :: es, n =>
    let a := expandMember e n
    let b := expandMembers es a.2
    (a.1 :: b.1, b.2)
end

mutual
/-- `explodeUnique` on an expression that is not a tuple expression (Explode.hpp 88-118); `t` is
what remains of its type after the references in `isR` are stripped. -/
def explodeAt (e : Ex) (isR : Bool) : Ty → Nat → List Ex × Nat
  | .base, n => ([e], n)
  | .ref t, n => explodeAt e true t n
  | .tup ts, n =>
    let l1 := if maybeImpure e then (Ex.uniq n e, n + 1) else (e, n)
    let l2 := if isR then Ex.cast l1.1 (.tup ts) else l1.1
    explodeIdx l2 0 ts l1.2
/-- "Now we have to go across the tuple via indexing": Explode.hpp 107-113. -/
def explodeIdx (e : Ex) (i : Nat) : List Ty → Nat → List Ex × Nat
  | [], n => ([], n)
  | t :: ts, n =>
    let a := explodeAt (.idx e i) false t n
    let b := explodeIdx e (i + 1) ts a.2
    (a.1 ++ b.1, b.2)
end

mutual
/-- `explodeUnique`: Explode.hpp 75-119. -/
def explode : Tree → Nat → List Ex × Nat
  | .leaf e, n => explodeAt e false (typeOf e) n
  | .tup ts, n => explodeAll ts n
def explodeAll : List Tree → Nat → List Ex × Nat
  | [], n => ([], n)
  | t :: ts, n =>
    let a := explode t n
    let b := explodeAll ts a.2
    (a.1 ++ b.1, b.2)
end

/-- `CastExploderCore` (Explode.cpp 34-87): the reference cast moves into the unique expression. -/
def castInto : Ex → Ex
  | .uniq id e =>
    if isRef (typeOf e) then .uniq id e
    else .cast (.uniq id (.cast e (.ref (typeOf e)))) (typeOf e)
  | .idx e i => .idx (castInto e) i
  | .cast e t => .cast (castInto e) t
  | e => e

/-- `distributeReference`: Explode.cpp 91-98.  `foundUniqueExpr` is only set for a tuple expression
below a unique expression, which does not occur here, so the outer cast is always added. -/
def distributeReference (e : Ex) : Ex := .cast (castInto e) (.ref (typeOf (castInto e)))

/-- A `TupleAssignExpr`: the temporaries in the order of their declarations, and for each
assignment which temporary is the left and which the right operand (Expr.cpp 354-366). -/
structure Assign where
  tmpDecls : List Ex
  assigns : List (Nat × Nat)

/-- `MultipleAssignMatcher::match`: TupleAssignment.cpp 201-238.  `none`: no candidate. -/
def multipleMatch (lhs rhs : List Ex) : Option Assign :=
  if lhs.length ≠ rhs.length then none
  else
    let rhs' := List.zipWith (fun l r => Ex.cast r (refBase (typeOf l))) lhs rhs
    some { tmpDecls := lhs ++ rhs'
           assigns := (List.range lhs.length).map fun i => (i, lhs.length + i) }

/-- `MassAssignMatcher::match` with a right-hand side: TupleAssignment.cpp 171-191. -/
def massMatch (lhs : List Ex) (rhs : Ex) : Assign :=
  { tmpDecls := lhs ++ [rhs]
    assigns := (List.range lhs.length).map fun i => (i, lhs.length) }

/-- `TupleAssignSpotter::spot` for a right-hand side of tuple type: TupleAssignment.cpp 270-306. -/
def multiple (l r : Src) : Option Assign :=
  let tl := expandMember l 0
  let tr := expandMember r tl.2
  let lhs := explode tl.1 tr.2
  let rhs := explode tr.1 lhs.2
  multipleMatch (lhs.1.map distributeReference) rhs.1

/-- `TupleAssignSpotter::spot` for a right-hand side that is not of tuple type:
TupleAssignment.cpp 307-312. -/
def mass (l : Src) (r : Simple) : Assign :=
  let tl := expandMember l 0
  let lhs := explode tl.1 tl.2
  massMatch (lhs.1.map distributeReference) (emb r)

/-- A scalar read. -/
def readCell (m : Mem) : Cell → Int
  | .num n => n
  | .at l => m l

/-- A scalar written; writing a temporary is not seen. -/
def writeCell (m : Mem) : Cell → Int → Mem
  | .num _, _ => m
  | .at l, v => fun l' => if l' = l then v else m l'

/-- The generated code for an expression.  A unique expression is evaluated the first time only
(TupleExpansion.cpp 111-116); a cast to or from a reference does nothing. -/
def eval : Ex → St → St × Res
  | .obj a _, s => (s, fun p => .at (a s.w.mem p))
  | .call n f _, s =>
    let r := f s.w.mem
    ({ s with w := { mem := r.1, log := s.w.log ++ [n] } }, r.2)
  | .idx e i, s => let r := eval e s; (r.1, fun p => r.2 (i :: p))
  | .uniq id e, s =>
    match s.cache id with
    | some r => (s, r)
    | none =>
      let r := eval e s
      ({ r.1 with cache := fun k => if k = id then some r.2 else r.1.cache k }, r.2)
  | .cast e _, s => eval e s

/-- `newObject` (TupleAssignment.cpp 122-141): a temporary of reference type refers to what its
initializer refers to, any other is constructed as a copy. -/
def initTemp (e : Ex) (s : St) : St × Cell :=
  let r := eval e s
  (r.1, if isRef (typeOf e) then r.2 [] else .num (readCell r.1.w.mem (r.2 [])))

/-- The declarations of the statement expression, in order. -/
def initTemps : List Ex → St → St × List Cell
  | [], s => (s, [])
  | e :: es, s =>
    let a := initTemp e s
    let b := initTemps es a.1
    (b.1, a.2 :: b.2)

/-- One call of the operator, on two temporaries (`createFunc`, TupleAssignment.cpp 143-161). -/
def doAssign (op : Int → Int → Int) (cs : List Cell) (p : Nat × Nat) (m : Mem) : Mem × Int :=
  let l := cs.getD p.1 (.num 0)
  let v := op (readCell m l) (readCell m (cs.getD p.2 (.num 0)))
  (writeCell m l v, v)

/-- The tuple expression of the assignments (`replaceTupleExpr`, TupleExpansion.cpp 216-251): the
initializers of a compound literal, which C evaluates in any order.  `order` is that order, the
second result is the components of the value. -/
def doAssigns (op : Int → Int → Int) (cs : List Cell) (ps : List (Nat × Nat)) :
    List Nat → Mem × (Nat → Int) → Mem × (Nat → Int)
  | [], x => x
  | k :: ks, x =>
    let a := doAssign op cs (ps.getD k (0, 0)) x.1
    doAssigns op cs ps ks (a.1, fun j => if j = k then a.2 else x.2 j)

/-- The statement expression, started in `w`: what it leaves and its value. -/
def run (op : Int → Int → Int) (a : Assign) (order : List Nat) (w : World) :
    World × List Int :=
  let t := initTemps a.tmpDecls { w := w, cache := fun _ => none }
  let x := doAssigns op t.2 a.assigns order (t.1.w.mem, fun _ => 0)
  ({ t.1.w with mem := x.1 }, (List.range a.assigns.length).map x.2)

end Verif.Model.TupleAsg
