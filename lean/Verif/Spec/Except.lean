import Verif.Model.Except
/-! # What exceptions mean

    The meaning of the statements of a program, with the handlers in force as a parameter: no lists of nodes, no pointers and no cleanups. -/

namespace Verif.Except

variable {σ : Type}

/-- What surrounds a statement at run time: the `try` statements in whose block it is executed, innermost first, that have `catch` clauses, and those with `catchResume` clauses; and the
    exception of the innermost handler in whose statement it is. -/
structure Cx where
  term : List Handlers
  res : List Handlers
  exc : Option Exc

/-- How the execution of a statement ends. The flag: an exception was lost, because a `finally` clause that was executed for it was left by another exception. -/
inductive Res (σ : Type)
  | done (m : σ) (lost : Bool)
  | ret (m : σ) (lost : Bool)
  /-- by `throwResume;` -/
  | reresume (m : σ) (lost : Bool)
  /-- by an exception that is to be handled by the handler `h` of the `try` statement that has `d` `try` statements with `catch` clauses around it -/
  | exc (d : Nat) (h : Stmt) (e : Exc) (m : σ) (lost : Bool)
  /-- the stack is cancelled, as an exception has no handler -/
  | cancel (e : Exc) (m : σ) (lost : Bool)
  /-- the program is stopped -/
  | abort (m : σ) (lost : Bool)
  /-- the steps were not enough -/
  | timeout (lost : Bool)

def Res.lost : Res σ → Bool
  | .done _ l | .ret _ l | .reresume _ l | .exc _ _ _ _ l | .cancel _ _ l | .abort _ l | .timeout l => l

def Res.lose : Res σ → Res σ
  | .done m _ => .done m true
  | .ret m _ => .ret m true
  | .reresume m _ => .reresume m true
  | .exc d h e m _ => .exc d h e m true
  | .cancel e m _ => .cancel e m true
  | .abort m _ => .abort m true
  | .timeout _ => .timeout true

/-- The end of a function. -/
def Res.returned : Res σ → Res σ
  | .ret m l => .done m l
  | r => r

/-- A `finally` clause is executed however the `try` statement is left; then what was to be done is done. -/
def Res.finally (f : σ → Bool → Res σ) : Res σ → Res σ
  | .done m l => f m l
  | .ret m l => match f m l with | .done m l => .ret m l | r => r
  | .reresume m l => match f m l with | .done m l => .reresume m l | r => r
  | .exc d h e m l => match f m l with | .done m l => .exc d h e m l | .abort m l => .abort m l | .timeout l => .timeout l | r => r.lose
  | .cancel e m l => match f m l with | .done m l => .cancel e m l | .abort m l => .abort m l | .timeout l => .timeout l | r => r.lose
  | .abort m l => .abort m l
  | .timeout l => .timeout l

/-- The first handler of the kind that accepts the exception. -/
def pick (P : Prog σ) (k : Kind) (e : Exc) : Handlers → σ → Option Stmt × σ
  | .nil, m => (none, m)
  | .cons k' ty c b hs, m =>
    if k' = k then match accepts P ty c e m with
      | (true, m) => (some b, m)
      | (false, m) => pick P k e hs m
    else pick P k e hs m

/-- The innermost `try` statement with a handler for the exception. -/
def find (P : Prog σ) (e : Exc) : List Handlers → σ → Option (Nat × Stmt) × σ
  | [], m => (none, m)
  | hs :: rest, m => match pick P .terminate e hs m with
    | (some b, m) => (some (rest.length, b), m)
    | (none, m) => find P e rest m

abbrev Sem (σ : Type) := Cx → Stmt → σ → Bool → Res σ

/-- `throw`: the handler is looked for before anything else is done. If there is none, the default handler is called, and the `throw` returns if it does. -/
def sthrow (P : Prog σ) (ev : Sem σ) (cx : Cx) (x : Nat) (e : Exc) (m : σ) (l : Bool) : Res σ :=
  match find P e cx.term m with
  | (some (d, h), m) => .exc d h e m l
  | (none, m) => match P.tdef x with
    | some f => (ev { cx with exc := some e } (P.funs f) m l).returned
    | none => .cancel e m l

/-- `throwResume`: the handler is executed like a function that is called by the `throwResume`; the `try` statements up to its own are not searched for what it
    resumes. -/
def sresume (P : Prog σ) (ev : Sem σ) (cx : Cx) (x : Nat) (e : Exc) : List Handlers → σ → Bool → Res σ
  | [], m, l => match P.rdef x with
    | some f => (ev { cx with exc := some e } (P.funs f) m l).returned
    | none => sthrow P ev cx x e m l
  | hs :: rest, m, l => match pick P .resume e hs m with
    | (none, m) => sresume P ev cx x e rest m l
    | (some b, m) => match ev { cx with res := rest, exc := some e } b m l with
      | .reresume m l => sresume P ev cx x e rest m l
      | r => r

/-- One statement. -/
def sstep (P : Prog σ) (ev : Sem σ) (cx : Cx) : Stmt → σ → Bool → Res σ
  | .act a, m, l => .done (P.act a m) l
  | .use a, m, l => match cx.exc with
    | none => .done m l
    | some e => .done (P.use a e m) l
  | .seq s t, m, l => match ev cx s m l with
    | .done m l => ev cx t m l
    | r => r
  | .ite c s t, m, l => match P.test c m with
    | (true, m) => ev cx s m l
    | (false, m) => ev cx t m l
  | .call f, m, l => (ev { cx with exc := none } (P.funs f) m l).returned
  | .ret, m, l => .ret m l
  | .throw x, m, l => match P.exc x m with
    | (e, m) => sthrow P ev cx x e m l
  | .throwResume x, m, l => match P.exc x m with
    | (e, m) => sresume P ev cx x e cx.res m l
  | .rethrow, m, l => match cx.exc with
    | none => .abort m l
    | some e => match find P e cx.term m with
      | (some (d, h), m) => .exc d h e m l
      | (none, m) => .abort m l
  | .reresume, m, l => .reresume m l
  | .try body hs fin, m, l =>
    let inside := { cx with
      term := if hs.has .terminate then hs :: cx.term else cx.term
      res := if hs.has .resume then hs :: cx.res else cx.res }
    let r := match ev inside body m l with
      | .exc d h e m l => if hs.has .terminate ∧ d = cx.term.length then ev { cx with exc := some e } h m l else .exc d h e m l
      | r => r
    match fin with
    | .none => r
    | .some s => r.finally (ev cx s)

/-- The execution of a statement; the number bounds the depth. -/
def run (P : Prog σ) : Nat → Sem σ
  | 0, _, _, _, l => .timeout l
  | n + 1, cx, s, m, l => sstep P (run P n) cx s m l

mutual
/-- The statements that the translator accepts: `return` not in the block of a `try` statement with `catch` clauses, in a `catchResume` or in a `finally` clause
    (MultiLevelExit.cpp:509-581), `throw;` in a `catch` clause only, and `throwResume;` in a `catchResume` clause only (ExceptTranslate.cpp:90-129). -/
def Stmt.accepted (rt rs rr : Bool) : Stmt → Bool
  | .act _ | .use _ | .call _ | .throw _ | .throwResume _ => true
  | .seq s t | .ite _ s t => s.accepted rt rs rr && t.accepted rt rs rr
  | .ret => rr
  | .rethrow => rt
  | .reresume => rs
  | .try body hs fin => body.accepted rt rs (rr && !hs.has .terminate) && hs.accepted rr && fin.accepted rt rs
def Handlers.accepted (rr : Bool) : Handlers → Bool
  | .nil => true
  | .cons .terminate _ _ b hs => b.accepted true false rr && hs.accepted rr
  | .cons .resume _ _ b hs => b.accepted false true false && hs.accepted rr
def Opt.accepted (rt rs : Bool) : Opt → Bool
  | .none => true
  | .some s => s.accepted rt rs false
end

/-- All functions of the program are accepted. -/
def Prog.accepted (P : Prog σ) : Prop := ∀ f, (P.funs f).accepted false false true

mutual
/-- Those of them without `throw;` in the block of a `try` statement with `catch` or `finally` clauses, or in a `finally` clause, inside the `catch` clause, and without `throwResume;` in
    the block of a `try` statement with `catch` clauses, or in a `finally` clause, inside the `catchResume` clause. -/
def Stmt.ok (rt rs rr : Bool) : Stmt → Bool
  | .act _ | .use _ | .call _ | .throw _ | .throwResume _ => true
  | .seq s t | .ite _ s t => s.ok rt rs rr && t.ok rt rs rr
  | .ret => rr
  | .rethrow => rt
  | .reresume => rs
  | .try body hs fin =>
    body.ok (rt && !hs.has .terminate && match fin with | .none => true | .some _ => false) (rs && !hs.has .terminate) (rr && !hs.has .terminate) && hs.ok rr && fin.ok
def Handlers.ok (rr : Bool) : Handlers → Bool
  | .nil => true
  | .cons .terminate _ _ b hs => b.ok true false rr && hs.ok rr
  | .cons .resume _ _ b hs => b.ok false true false && hs.ok rr
def Opt.ok : Opt → Bool
  | .none => true
  | .some s => s.ok false false false
end

/-- All functions of the program are such statements. -/
def Prog.ok (P : Prog σ) : Prop := ∀ f, (P.funs f).ok false false true

/-- The library's data is as it was before the program: no handler and no exception is left. -/
structure Clean (st : St σ) : Prop where
  top : st.top = 0
  cur : st.cur = 0
  nodes : ∀ a, st.nodes a = none
  excs : ∀ a, st.excs a = none
  slots : ∀ a, st.slots a = none

/-- A program has ended as it should: in the same way, with the same store, and with nothing left; or the stack is being cancelled for the exception, which is the only one left. -/
def Agree : Res σ → TRes σ → Prop
  | .done m _, .done st | .ret m _, .ret st => st.m = m ∧ Clean st
  | .cancel e m _, .forced p st => st.m = m ∧ st.top = 0 ∧ st.cur = p ∧ (∀ a, st.nodes a = none) ∧ (∀ a, st.slots a = none) ∧
      ∀ a, st.excs a = if a = p then some ⟨0, e, 0⟩ else none
  | .abort m _, .abort st => st.m = m
  | .timeout _, .timeout => True
  | _, _ => False

/-- `p` is the type `c`, its parent, the parent of that and so on. -/
inductive Ancestor (par : Nat → Option Nat) : Nat → Nat → Prop
  | refl (t : Nat) : Ancestor par t t
  | step {p q c : Nat} : par c = some q → Ancestor par p q → Ancestor par p c

end Verif.Except
