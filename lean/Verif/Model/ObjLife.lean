import Verif.Model.Heap
import Verif.Model.Trans

/-!
# Lifetime of objects in a function

Model of `src/InitTweak/FixInit.cpp`: the check of jumps (`LabelFinder`,
`InsertDtors`), the blocks around expressions (`SplitExpressions`), the
temporaries of arguments and results (`ResolveCopyCtors`), and constructor
and destructor calls of variables (`FixInit`), together with what gcc does
with the generated C program: a variable with a `cleanup` attribute has its
cleanup function called when control leaves its scope, by whatever way.

Function bodies are as they are after `src/ControlStruct/MultiLevelExit.cpp`:
`break`, `continue` and `fallthrough` have become `goto`, and after
`src/ControlStruct/HoistControlDecls.cpp`: loops declare nothing.

Simplifications: an expression is a number; of its temporaries only those
with a destructor are listed, in the order of evaluation; a `switch` is made
of `if`s; arrays are one object; statement expressions are left out.
-/
namespace ObjLife
open Verif

mutual
/-- Statements (`src/AST/Stmt.hpp`). -/
inductive S where
  /-- `ExprStmt`: expression `a` with temporaries `ts` -/
  | expr (a : Nat) (ts : List Nat)
  /-- the expression in the generated program, temporaries `ts` still to be
  constructed -/
  | eval (a : Nat) (ts : List Nat)
  /-- the constructor call in the generated program -/
  | ctor (x : Nat)
  | goto (l : Nat)
  /-- computed goto to one of the labels -/
  | computed (ls : List Nat)
  | ret
  | block (b : B)
  /-- `if ( a ) s else t`, condition `a` with temporaries `ts` -/
  | ite (a : Nat) (ts : List Nat) (s t : S)
  /-- `while ( a ) s` -/
  | loop (a : Nat) (ts : List Nat) (s : S)
  | lab (l : Nat) (s : S)
/-- The statements of a `CompoundStmt`. -/
inductive B where
  | nil
  /-- `DeclStmt` with labels `ls` of variable `x`; `obj`: it has a constructor
  and a destructor -/
  | decl (ls : List Nat) (x : Nat) (obj : Bool) (b : B)
  /-- declaration of the temporary `t` in the generated program -/
  | tdecl (t : Nat) (b : B)
  | stmt (s : S) (b : B)
end

/-! ## The check of jumps -/

mutual
/-- `LabelFinder`, FixInit.cpp 164-175, 952-978: the variables in scope
(`curVars`, oldest first) at each label. -/
def labels (cur : List Nat) : S → List (Nat × List Nat)
  | .block b => labelsB cur b
  | .ite _ _ s t => labels cur s ++ labels cur t
  | .loop _ _ s => labels cur s
  | .lab l s => (l, cur) :: labels cur s
  | _ => []
def labelsB (cur : List Nat) : B → List (Nat × List Nat)
  | .nil => []
  | .decl ls x _ b => ls.map (fun l => (l, cur)) ++ labelsB (cur ++ [x]) b
  | .tdecl _ b => labelsB cur b
  | .stmt s b => labels cur s ++ labelsB cur b
end

/-- `labelVars[ target ]`, FixInit.cpp 1004; nothing for an unknown label. -/
def labelVars (m : List (Nat × List Nat)) (l : Nat) : List Nat :=
  ((m.find? (fun p => p.1 == l)).map Prod.snd).getD []

mutual
/-- `InsertDtors`, FixInit.cpp 980-1037: at each goto, the variables in scope
at the label must be in scope at the goto (`S_L - S_G` is empty).  A computed
goto is not checked (998). -/
def check (m : List (Nat × List Nat)) (cur : List Nat) : S → Bool
  | .goto l => (labelVars m l).all fun x => cur.contains x
  | .block b => checkB m cur b
  | .ite _ _ s t => check m cur s && check m cur t
  | .loop _ _ s => check m cur s
  | .lab _ s => check m cur s
  | _ => true
def checkB (m : List (Nat × List Nat)) (cur : List Nat) : B → Bool
  | .nil => true
  | .decl _ x _ b => checkB m (cur ++ [x]) b
  | .tdecl _ b => checkB m cur b
  | .stmt s b => check m cur s && checkB m cur b
end

/-- The function body is accepted. -/
def accepted (p : B) : Bool := checkB (labelsB [] p) [] p

/-! ## The generated program -/

/-- Declarations of temporaries (`destructRet`, FixInit.cpp 547-596). -/
def tdecls : List Nat → B → B
  | [], b => b
  | t :: ts, b => .tdecl t (tdecls ts b)

/-- Labels of a statement. -/
def labs : List Nat → S → S
  | [], s => s
  | l :: ls, s => .lab l (labs ls s)

/-- The temporaries whose declarations are added before a statement: those of
the condition of a loop or `if` (`stmtsToAddBefore`, FixInit.cpp 542, 586,
627; `src/AST/Pass.impl.hpp` 140-245). -/
def pre : S → List Nat
  | .ite _ ts _ _ => ts
  | .loop _ ts _ => ts
  | .lab _ s => pre s
  | _ => []

mutual
/-- A statement in the generated program; `ls` are its labels.  An expression
becomes a block (`SplitExpressions`, FixInit.cpp 308-312), and its labels stay
with the expression. -/
def fixS (ls : List Nat) : S → S
  | .expr a ts => .block (tdecls ts (.stmt (labs ls (.eval a ts)) .nil))
  | .eval a ts => labs ls (.eval a ts)
  | .ctor x => labs ls (.ctor x)
  | .goto l => labs ls (.goto l)
  | .computed l => labs ls (.computed l)
  | .ret => labs ls .ret
  | .block b => labs ls (.block (fixB b))
  | .ite a ts s t => labs ls (.ite a ts
      (.block (tdecls (pre s) (.stmt (fixS [] s) .nil)))
      (.block (tdecls (pre t) (.stmt (fixS [] t) .nil))))
  | .loop a ts s => labs ls (.loop a ts (.block (tdecls (pre s) (.stmt (fixS [] s) .nil))))
  | .lab l s => fixS (ls ++ [l]) s
/-- `FixInit::postvisit`, FixInit.cpp 800-946, for automatic variables: the
declaration gets a `cleanup` attribute, the constructor call follows it. -/
def fixB : B → B
  | .nil => .nil
  | .decl ls x obj b =>
    if obj then .decl ls x true (.stmt (.ctor x) (fixB b)) else .decl ls x false (fixB b)
  | .tdecl t b => .tdecl t (fixB b)
  | .stmt s b => tdecls (pre s) (.stmt (fixS [] s) (fixB b))
end

/-! ## Execution of the generated program -/

/-- What is left to do after the current statement, and the scopes that are
open. -/
inductive Frame where
  | seq (b : B)
  /-- scope of a variable; with a `cleanup` attribute if `obj` -/
  | decl (x : Nat) (obj : Bool)
  /-- scope of the `__Destructor` of a temporary -/
  | tmp (t : Nat)
  | iteT (s t : S)
  | loopT (a : Nat) (ts : List Nat) (s : S)
  | loopB (a : Nat) (ts : List Nat) (s : S)

/-- The `__Destructor` of a temporary, `libcfa/prelude/builtins.c` 21-41: not
initialised, no object yet, or its object. -/
inductive T where
  | uninit | null | set
deriving DecidableEq

/-- Current statement. -/
inductive Ctl where
  | stm (s : S)
  | blk (b : B)
  | done

structure St where
  ctl : Ctl
  k : List Frame
  /-- objects constructed and not destroyed, the newest first -/
  alive : List Nat
  tmps : Nat → T
  /-- a constructor was called for an object that existed, a destructor for
  an object that did not or that was not the newest, or a cleanup function
  used memory that was not initialised -/
  bad : Bool

/-- A constructor has finished. -/
def construct (x : Nat) (st : St) : St :=
  if st.alive.contains x then { st with bad := true }
  else { st with alive := x :: st.alive }

/-- A destructor is called. -/
def destroy (x : Nat) (st : St) : St :=
  match st.alive with
  | y :: ys => if x = y then { st with alive := ys } else { st with bad := true }
  | [] => { st with bad := true }

/-- Control leaves a scope: the cleanup function is called. -/
def leave (f : Frame) (st : St) : St :=
  match f with
  | .decl x true => destroy x st
  | .tmp t =>
    match st.tmps t with
    | .uninit => { st with bad := true }
    | .null => { st with tmps := upd st.tmps t .uninit }
    | .set => { destroy t st with tmps := upd st.tmps t .uninit }
  | _ => st

/-- Scopes are left, the inner ones first. -/
def leaveAll : List Frame → St → St
  | [], st => st
  | f :: fs, st => leaveAll fs (leave f st)

/-- The scope is open after a jump to a place with frames `k`. -/
def Frame.isIn (k : List Frame) : Frame → Bool
  | .decl x _ => k.any fun | .decl y _ => x == y | _ => false
  | .tmp t => k.any fun | .tmp u => t == u | _ => false
  | _ => false

mutual
/-- The place of a label, with the scopes around it. -/
def find (l : Nat) (k : List Frame) : S → Option (Ctl × List Frame)
  | .lab l' s => if l = l' then some (.stm s, k) else find l k s
  | .block b => findB l k b
  | .ite _ _ s t => (find l k s).or (find l k t)
  | .loop a ts s => find l (.loopB a ts s :: k) s
  | _ => none
def findB (l : Nat) (k : List Frame) : B → Option (Ctl × List Frame)
  | .nil => none
  | .decl ls x obj b =>
    if ls.contains l then some (.blk (.decl [] x obj b), k) else findB l (.decl x obj :: k) b
  | .tdecl t b => findB l (.tmp t :: k) b
  | .stmt s b => (find l (.seq b :: k) s).or (findB l k b)
end

/-- A jump: the scopes that do not contain the target are left. -/
def jump (p : B) (l : Nat) (st : St) : Option St :=
  (findB l [] p).map fun (c, k) =>
    { leaveAll (st.k.filter fun f => !f.isIn k) st with ctl := c, k := k }

/-- A computed goto: gcc calls no cleanup functions. -/
def jumpRaw (p : B) (l : Nat) (st : St) : Option St :=
  (findB l [] p).map fun (c, k) => { st with ctl := c, k := k }

/-- The function is left, by a return or because an exception goes on. -/
def exit (st : St) : St := { leaveAll st.k st with ctl := .done, k := [] }

/-- What is not fixed by the program: the value of a condition, whether an
operand is evaluated, whether an exception is raised, the target of a computed
goto. -/
inductive Act where
  | go | other | throw | to (l : Nat)
deriving DecidableEq

/-- One step of the generated program `p`.  `ct`: constructors of variables
may throw. -/
def next (p : B) (ct : Bool) (st : St) (a : Act) : Option St :=
  match st.ctl with
  | .done => none
  | .blk .nil =>
    match st.k with
    | [] => some { st with ctl := .done }
    | .seq b :: k => some { st with ctl := .blk b, k := k }
    | .loopB c ts s :: k => some { st with ctl := .stm (.loop c ts s), k := k }
    | .loopT c ts s :: k =>
      if a = .go then some { st with ctl := .stm s, k := .loopB c ts s :: k }
      else some { st with ctl := .blk .nil, k := k }
    | .iteT s t :: k => some { st with ctl := .stm (if a = .go then s else t), k := k }
    | f :: k => some { leave f st with ctl := .blk .nil, k := k }
  | .blk (.decl _ x obj b) => some { st with ctl := .blk b, k := .decl x obj :: st.k }
  | .blk (.tdecl t b) =>
    some { st with ctl := .blk b, k := .tmp t :: st.k, tmps := upd st.tmps t .null }
  | .blk (.stmt s b) => some { st with ctl := .stm s, k := .seq b :: st.k }
  | .stm (.expr _ _) => none
  | .stm (.eval _ []) => if a = .throw then some (exit st) else some { st with ctl := .blk .nil }
  | .stm (.eval e (t :: ts)) =>
    if a = .throw then some (exit st)
    else if a = .go then
      some { construct t { st with tmps := upd st.tmps t .set } with ctl := .stm (.eval e ts) }
    else some { st with ctl := .stm (.eval e ts) }
  | .stm (.ctor x) =>
    if a = .throw then if ct then some (exit st) else none
    else some { construct x st with ctl := .blk .nil }
  | .stm (.goto l) => jump p l st
  | .stm (.computed ls) =>
    match a with
    | .to l => if ls.contains l then jumpRaw p l st else none
    | _ => none
  | .stm .ret => some (exit st)
  | .stm (.block b) => some { st with ctl := .blk b }
  | .stm (.ite c ts s t) => some { st with ctl := .stm (.eval c ts), k := .iteT s t :: st.k }
  | .stm (.loop c ts s) => some { st with ctl := .stm (.eval c ts), k := .loopT c ts s :: st.k }
  | .stm (.lab _ s) => some { st with ctl := .stm s }

/-- A call of the function with body `p`, generated program `fixB p`. -/
def start (p : B) : St := ⟨.blk (fixB p), [], [], fun _ => .uninit, false⟩

/-- All states of all executions. -/
def Exec (p : B) (ct : Bool) : St → Prop := Reach (next (fixB p) ct) (start p)

end ObjLife
