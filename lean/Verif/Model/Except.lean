import Verif.Model.Heap
/-! # Exceptions

    `src/ControlStruct/ExceptTranslate.cpp` rewrites `try` and `throw` into calls of `libcfa/src/exception.c`. Modelled: termination and resumption exceptions, their
    handlers with conditions, `finally`, rethrowing, default handlers, cancellation of the stack and the hierarchy of exception types, on one stack. The statements are
    those of a program (`Stmt`) and of the rewritten program (`TStmt`); the effect of expressions on the store is arbitrary (`Prog`). The store is shared by all
    functions: local variables, parameters and results are part of it. The unwinder is the one of the C compiler (`_Unwind_RaiseException`, `_Unwind_ForcedUnwind`): it
    looks for a frame with a handler from the top of the stack outwards, then runs the cleanups of the frames inside it. Not modelled: exceptions thrown between
    coroutines and threads, `break` and `continue` out of a `try` statement, and conditions and copy routines that throw. -/

namespace Verif.Except

/-- An exception object: the type in its virtual table (exception.h:30-43), and its contents. -/
structure Exc where
  ty : Nat
  data : Nat
  deriving DecidableEq, Repr

/-- AST/Stmt.hpp: `ExceptionKind` (AST/ExceptionKind.hpp) -/
inductive Kind
  | terminate | resume
  deriving DecidableEq, Repr

mutual
/-- The statements of a program. `use a` is an expression with the exception of the innermost handler; `rethrow` is `throw;` and `reresume` is `throwResume;`. -/
inductive Stmt
  | act (a : Nat)
  | use (a : Nat)
  | seq (s t : Stmt)
  | ite (c : Nat) (s t : Stmt)
  | call (f : Nat)
  | ret
  | throw (x : Nat)
  | throwResume (x : Nat)
  | rethrow
  | reresume
  | try (body : Stmt) (hs : Handlers) (fin : Opt)
/-- The handlers of a `try` statement: `catch` or `catchResume`, type, condition and statement. -/
inductive Handlers
  | nil
  | cons (k : Kind) (ty : Nat) (cond : Option Nat) (body : Stmt) (hs : Handlers)
/-- A `finally` clause that may be missing. -/
inductive Opt
  | none
  | some (s : Stmt)
end

mutual
/-- The statements of the rewritten program: `hook` is a block with the `cleanup` variable `__finally_hook` (ExceptTranslate.cpp:532-551, 617-624), `node` a block with the variable
    `__resume_node` (482-516), `caller` the call of `__cfaehm_try_terminate` with the `switch` on its result (393-430), and `retFalse` is `return false`. -/
inductive TStmt
  | act (a : Nat)
  | use (a : Nat)
  | seq (s t : TStmt)
  | ite (c : Nat) (s t : TStmt)
  | call (f : Nat)
  | ret
  | throw (x : Nat)
  | throwResume (x : Nat)
  | rethrow
  | retFalse
  | block (s : TStmt)
  | hook (fin : TStmt) (body : TStmt)
  | node (hs : TClauses) (body : TStmt)
  | caller (hs : TClauses) (body : TStmt)
/-- The clauses of a matching or handling function, or of the `switch`. -/
inductive TClauses
  | nil
  | cons (ty : Nat) (cond : Option Nat) (body : TStmt) (cs : TClauses)
end

/-- Is there a handler of this kind? (ExceptTranslate.cpp:626-639) -/
def Handlers.has (k : Kind) : Handlers → Bool
  | .nil => false
  | .cons k' _ _ _ hs => k' = k || hs.has k

mutual
/-- ExceptTranslate.cpp:61-129, 554-562 (throws) and 600-671 (`try` statements) -/
def tr : Stmt → TStmt
  | .act a => .act a
  | .use a => .use a
  | .seq s t => .seq (tr s) (tr t)
  | .ite c s t => .ite c (tr s) (tr t)
  | .call f => .call f
  | .ret => .ret
  | .throw x => .throw x
  | .throwResume x => .throwResume x
  | .rethrow => .rethrow
  | .reresume => .retFalse
  | .try body hs fin =>
    let inner := .block (tr body)
    let inner := if hs.has .resume then .node (trC .resume hs) inner else inner
    let inner := if hs.has .terminate then .caller (trC .terminate hs) inner else inner
    match fin with
    | .none => inner
    | .some s => .hook (tr s) inner
/-- ExceptTranslate.cpp:626-639: the handlers of one kind, in order -/
def trC (k : Kind) : Handlers → TClauses
  | .nil => .nil
  | .cons k' ty c body hs => if k' = k then .cons ty c (tr body) (trC k hs) else trC k hs
end

/-- A program, and what its expressions do. -/
structure Prog (σ : Type) where
  /-- virtual.h:26-28: the parent of a type. Types are numbered in the order of their definition. -/
  parent : Nat → Option Nat
  funs : Nat → Stmt
  act : Nat → σ → σ
  use : Nat → Exc → σ → σ
  test : Nat → σ → Bool × σ
  /-- the exception that a `throw` throws -/
  exc : Nat → σ → Exc × σ
  /-- the condition of a handler -/
  cond : Nat → Exc → σ → Bool × σ
  /-- the `defaultTerminationHandler` of a `throw`: a function of the program, or that of the library (exception.h:140-143) -/
  tdef : Nat → Option Nat
  /-- the `defaultResumptionHandler` of a `throwResume`: a function of the program, or that of the library (exception.h:145-148) -/
  rdef : Nat → Option Nat

variable {σ : Type}

/-- virtual.c:20-31: `__cfavir_is_parent`. A type is defined after its parent. -/
def isParent (par : Nat → Option Nat) (p c : Nat) : Bool :=
  p = c || match par c with
    | none => false
    | some q => if _h : q < c then isParent par p q else false
termination_by c

/-- ExceptTranslate.cpp:296-334: the test of a clause: the virtual cast, then the condition if there is one. -/
def accepts (P : Prog σ) (ty : Nat) (c : Option Nat) (e : Exc) (m : σ) : Bool × σ :=
  if isParent P.parent ty e.ty then
    match c with
    | none => (true, m)
    | some c => P.cond c e m
  else (false, m)

/-- ExceptTranslate.cpp:336-379: the matching function of a `try` statement: the index of the first clause that accepts the exception, and 0 if there is none. -/
def matcher (P : Prog σ) (e : Exc) : TClauses → Nat → σ → Nat × σ
  | .nil, _, m => (0, m)
  | .cons ty c _ cs, i, m => match accepts P ty c e m with
    | (true, m) => (i + 1, m)
    | (false, m) => matcher P e cs (i + 1) m

/-- ExceptTranslate.cpp:413-419: the clause of the `switch` -/
def TClauses.body : TClauses → Nat → Option TStmt
  | .nil, _ => none
  | .cons _ _ b _, 0 => some b
  | .cons _ _ _ cs, n + 1 => cs.body n

/-- exception.h:93-97: `struct __cfaehm_node`, in front of the copy of the exception -/
structure XNode where
  next : Nat
  exc : Exc
  idx : Nat

/-- The store of the program and the data of `exception.c`; 0 is the null pointer. `top` and `cur` are the fields of the exception context (concurrency/invoke.h:37-40), `nodes` the
    variables `__resume_node` (exception.h:77-80), `excs` the nodes allocated for exceptions, `slots` the exception variables of the active `catch` clauses
    (ExceptTranslate.cpp:255-262). A dead variable or node is `none`; addresses are not reused. -/
structure St (σ : Type) where
  m : σ
  top : Nat
  cur : Nat
  nodes : Nat → Option (Nat × TClauses)
  excs : Nat → Option XNode
  slots : Nat → Option Nat
  fresh : Nat

/-- How the execution of a statement ends. -/
inductive TRes (σ : Type)
  | done (st : St σ)
  | ret (st : St σ)
  | retFalse (st : St σ)
  /-- the stack is unwound up to the frame with `d` handling frames outside of it, for the exception at `p` -/
  | unwind (d p : Nat) (st : St σ)
  /-- the whole stack is unwound -/
  | forced (p : Nat) (st : St σ)
  /-- the library stops the program -/
  | abort (st : St σ)
  /-- a null pointer or a dead object is used -/
  | bad
  /-- the steps were not enough -/
  | timeout

/-- The cleanups of the variables of a scope run however it is left. -/
def TRes.cleanup (f : St σ → Option (St σ)) : TRes σ → TRes σ
  | .done st => match f st with | some st => .done st | none => .bad
  | .ret st => match f st with | some st => .ret st | none => .bad
  | .retFalse st => match f st with | some st => .retFalse st | none => .bad
  | .unwind d p st => match f st with | some st => .unwind d p st | none => .bad
  | .forced p st => match f st with | some st => .forced p st | none => .bad
  | .abort st => .abort st
  | .bad => .bad
  | .timeout => .timeout

/-- A cleanup that is a function of the program: if it does not return, what it does replaces the rest. -/
def TRes.after (f : St σ → TRes σ) (r : TRes σ) : TRes σ :=
  let go (st : St σ) (k : St σ → TRes σ) : TRes σ := match f st with
    | .done st | .ret st | .retFalse st => k st
    | r => r
  match r with
  | .done st => go st .done
  | .ret st => go st .ret
  | .retFalse st => go st .retFalse
  | .unwind d p st => go st (.unwind d p)
  | .forced p st => go st (.forced p)
  | .abort st => .abort st
  | .bad => .bad
  | .timeout => .timeout

/-- The end of a function. -/
def TRes.returned : TRes σ → TRes σ
  | .ret st | .retFalse st => .done st
  | r => r

/-- What the exception variable of the innermost handler is: none, the variable of a `catch` clause, the parameter of a resumption handler or a default resumption
    handler (it refers to the object of the throw), or the parameter of a default termination handler (it refers to a node). -/
inductive Var
  | none
  | slot (a : Nat)
  | obj (e : Exc)
  | ptr (p : Nat)

/-- The exception that the variable refers to. -/
def Var.get (st : St σ) : Var → Option Exc
  | .none => .none
  | .slot a => (st.slots a).bind fun p => (st.excs p).map (·.exc)
  | .obj e => some e
  | .ptr p => (st.excs p).map (·.exc)

/-- exception.c:129-155: `__cfaehm_allocate_exception` -/
def allocate (e : Exc) (st : St σ) : St σ :=
  { st with excs := upd st.excs st.fresh (some ⟨st.cur, e, 0⟩), cur := st.fresh, fresh := st.fresh + 1 }

/-- exception.c:171-177: look for the node in front of `p`, from `q` on, and unlink `p`. -/
def unlink (excs : Nat → Option XNode) (p : Nat) : Nat → Nat → Option (Nat → Option XNode)
  | 0, _ => none
  | k + 1, q => match excs q, excs p with
    | some y, some x => if y.next = p then some (upd excs q (some { y with next := x.next })) else unlink excs p k y.next
    | _, _ => none

/-- exception.c:158-183: `__cfaehm_delete_exception` -/
def delete (p : Nat) (st : St σ) : Option (St σ) :=
  if st.cur = p then (st.excs p).map fun x => { st with cur := x.next, excs := upd st.excs p none }
  else (unlink st.excs p st.fresh st.cur).map fun ex => { st with excs := upd ex p none }

/-- exception.c:396-445, as called by the search phase of the unwinder: the matching function of the frame is called with the current exception, and the index is stored in the
    node that is thrown. The frames are those of `__cfaehm_try_terminate`, from the top of the stack. The result is the number of frames outside the one found. -/
def search (P : Prog σ) (p : Nat) : List TClauses → St σ → Option (Option Nat × St σ)
  | [], st => some (none, st)
  | cs :: stk, st => match st.excs st.cur with
    | none => none
    | some x => match matcher P x.exc cs 0 st.m with
      | (i, m) => match st.excs p with
        | none => none
        | some y =>
          let st := { st with m := m, excs := upd st.excs p (some { y with idx := i }) }
          if i = 0 then search P p stk st else some (some stk.length, st)

/-- exception.c:244-287: `__cfaehm_begin_unwind` with the default handler `dflt`; its variable `exception` has the cleanup `__cfaehm_cleanup_default` (238-241). -/
def beginUnwind (P : Prog σ) (stk : List TClauses) (dflt : Nat → St σ → TRes σ) (st : St σ) : TRes σ :=
  if st.cur = 0 then .abort st
  else match search P st.cur stk st with
    | none => .bad
    | some (some d, st') => .unwind d st.cur st'
    | some (none, st) => (dflt st.cur st).returned.cleanup (delete st.cur)

/-- exception.c:219-229: `__cfaehm_cancel_stack`, called by the library's `defaultTerminationHandler` (exception.h:140-143) -/
def cancel (p : Nat) (st : St σ) : TRes σ :=
  match st.excs p with
  | none => .bad
  | some x => let st := allocate x.exc st; .forced st.cur st

/-- How statements are executed: with the frames of `__cfaehm_try_terminate` on the stack and the exception variable. -/
abbrev Ev (σ : Type) := List TClauses → Var → TStmt → St σ → TRes σ

/-- exception.c:289-294: `__cfaehm_throw_terminate` -/
def throwTerminate (P : Prog σ) (ev : Ev σ) (stk : List TClauses) (x : Nat) (e : Exc) (st : St σ) : TRes σ :=
  beginUnwind P stk (fun p st => match P.tdef x with
    | none => cancel p st
    | some f => ev stk (.ptr p) (tr (P.funs f)) st) (allocate e st)

/-- ExceptTranslate.cpp:432-480: the handling function of a `try` statement. The clause that accepts the exception is executed, followed by `return true`. -/
def handler (P : Prog σ) (ev : Ev σ) (stk : List TClauses) (e : Exc) : TClauses → St σ → TRes σ
  | .nil, st => .retFalse st
  | .cons ty c b cs, st => match accepts P ty c e st.m with
    | (true, m) => ev stk (.obj e) b { st with m := m }
    | (false, m) => handler P ev stk e cs { st with m := m }

/-- exception.c:76-81: the loop of `__cfaehm_throw_resume`; the nodes are those of the stack, so that the address of the next is smaller. `retFalse` if no handler was found. -/
def resumeLoop (P : Prog σ) (ev : Ev σ) (stk : List TClauses) (e : Exc) : Nat → Nat → St σ → TRes σ
  | _, 0, st => .retFalse st
  | 0, _, _ => .bad
  | k + 1, current + 1, st => match st.nodes (current + 1) with
    | none => .bad
    | some (next, cs) => match handler P ev stk e cs { st with top := next } with
      | .retFalse st => match st.nodes (current + 1) with
        | none => .bad
        | some (next, _) => resumeLoop P ev stk e k next st
      | .ret st => .done st
      | r => r

/-- exception.c:66-90: `__cfaehm_throw_resume`. The variable `original_head` has the cleanup `reset_top_resume`. The default handler of the library throws (exception.h:145-148). -/
def throwResume (P : Prog σ) (ev : Ev σ) (stk : List TClauses) (x : Nat) (e : Exc) (st : St σ) : TRes σ :=
  match (resumeLoop P ev stk e st.top st.top st).cleanup fun st' => some { st' with top := st.top } with
  | .retFalse st => match P.rdef x with
    | none => throwTerminate P ev stk x e st
    | some f => (ev stk (.obj e) (tr (P.funs f)) st).returned
  | r => r

/-- ExceptTranslate.cpp:61-87 and exception.c:303-309: `throw;`. The exception variable is set to null. No handler: the program is stopped (296-301). -/
def rethrow (P : Prog σ) (stk : List TClauses) (v : Var) (st : St σ) : TRes σ :=
  match v with
  | .slot a => beginUnwind P stk (fun _ st => .abort st) { st with slots := upd st.slots a (some 0) }
  | _ => .bad

/-- exception.c:96-107 and ExceptTranslate.cpp:482-516: a new `__resume_node`, at the top of the list -/
def setup (cs : TClauses) (st : St σ) : St σ :=
  { st with nodes := upd st.nodes st.fresh (some (st.top, cs)), top := st.fresh, fresh := st.fresh + 1 }

/-- exception.c:109-112: `__cfaehm_try_resume_cleanup`; the variable is dead then. -/
def dropNode (a : Nat) (st : St σ) : Option (St σ) :=
  (st.nodes a).map fun n => { st with top := n.1, nodes := upd st.nodes a none }

/-- exception.c:234-236: `__cfaehm_cleanup_terminate` for the variable of a `catch` clause; the variable is dead then. -/
def dropSlot (a : Nat) (st : St σ) : Option (St σ) :=
  match st.slots a with
  | none => none
  | some p => (if p = 0 then some st else delete p st).map fun st => { st with slots := upd st.slots a none }

/-- ExceptTranslate.cpp:255-294, 381-430: the exception has been caught: the clause with the index in the current exception is executed. -/
def catching (ev : Ev σ) (stk : List TClauses) (cs : TClauses) (st : St σ) : TRes σ :=
  match st.excs st.cur with
  | none => .bad
  | some x => match x.idx with
    | 0 => .done st
    | i + 1 => match cs.body i with
      | none => .done st
      | some b => (ev stk (.slot st.fresh) b { st with slots := upd st.slots st.fresh (some st.cur), fresh := st.fresh + 1 }).cleanup (dropSlot st.fresh)

/-- One statement, with `ev` for the statements inside it. -/
def evT (P : Prog σ) (ev : Ev σ) (stk : List TClauses) (v : Var) : TStmt → St σ → TRes σ
  | .act a, st => .done { st with m := P.act a st.m }
  | .use a, st => match v with
    | .none => .done st
    | v => match v.get st with
      | some e => .done { st with m := P.use a e st.m }
      | none => .bad
  | .seq s t, st => match ev stk v s st with
    | .done st => ev stk v t st
    | r => r
  | .ite c s t, st => match P.test c st.m with
    | (true, m) => ev stk v s { st with m := m }
    | (false, m) => ev stk v t { st with m := m }
  | .call f, st => (ev stk .none (tr (P.funs f)) st).returned
  | .ret, st => .ret st
  | .throw x, st => match P.exc x st.m with
    | (e, m) => throwTerminate P ev stk x e { st with m := m }
  | .throwResume x, st => match P.exc x st.m with
    | (e, m) => throwResume P ev stk x e { st with m := m }
  | .rethrow, st => rethrow P stk v st
  | .retFalse, st => .retFalse st
  | .block s, st => ev stk v s st
  | .hook fin body, st => (evT P ev stk v body st).after (ev stk v fin)
  | .node cs body, st => (evT P ev stk v body (setup cs st)).cleanup (dropNode st.fresh)
  | .caller cs body, st => match (evT P ev (cs :: stk) v body st).returned with
    | .unwind d p st => if d = stk.length then catching ev stk cs st else .unwind d p st
    | r => r

/-- The execution of a statement; the number bounds the depth. -/
def eval (P : Prog σ) : Nat → Ev σ
  | 0, _, _, _, _ => .timeout
  | n + 1, stk, v, s, st => evT P (eval P n) stk v s st

/-- The start of the program (exception.c:53-56). -/
def init (m : σ) : St σ := ⟨m, 0, 0, fun _ => none, fun _ => none, fun _ => none, 1⟩

end Verif.Except
