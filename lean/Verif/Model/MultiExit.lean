/-! # Local control flow: `break`, `continue` and `fallthrough`, with and without labels

    `src/ControlStruct/MultiLevelExit.cpp` replaces these statements by `goto` and adds the labels they go to; `src/ControlStruct/FixLabels.cpp` calls it for each
    function. The statements are those of `src/AST/Stmt.hpp`. Expressions are opaque (numbers). Not modelled: `try`, `with`, `mutex`, `waitfor` and `waituntil`
    statements, nested functions, computed `goto`, and the attributes of labels. -/

namespace Verif.MultiExit

/-- AST/Label.hpp:30-46. `user n` is a name in the program, `gen n` the name the `n`-th call of `newLabel` (LabelGenerator.cpp:29-66) makes: `__L<n>__`, a prefix no
    program should use. -/
inductive Label
  | user (n : Nat)
  | gen (n : Nat)
  deriving DecidableEq, Repr

/-- AST/Stmt.hpp:245-246: `BranchStmt::Kind` -/
inductive Br
  | goto | brk | cont | fall | fallDefault
  deriving DecidableEq, Repr

mutual
/-- AST/Stmt.hpp:50-330. Each statement has the labels in front of it. `act` is an expression statement or declaration; `loop` is `WhileDoStmt` (`post` for
    `do`-`while`) or `ForStmt` (with the increment `inc`), with the `else` clause. -/
inductive Stmt
  | null (ls : List Label)
  | act (ls : List Label) (a : Nat)
  | ret (ls : List Label) (r : Nat)
  | branch (ls : List Label) (b : Br) (t : Option Label)
  | block (ls : List Label) (kids : Stmts)
  | ite (ls : List Label) (c : Nat) (t : Stmt) (e : Opt)
  | loop (ls : List Label) (post : Bool) (c : Nat) (inc : Option Nat) (body : Stmt) (els : Opt)
  | switch (ls : List Label) (e : Nat) (cases : Cases)
/-- A statement that may be missing. -/
inductive Opt
  | none
  | some (s : Stmt)
/-- A list of statements. -/
inductive Stmts
  | nil
  | cons (s : Stmt) (ss : Stmts)
/-- AST/Stmt.hpp:160-180: the clauses of a `switch`, each with its value (none for `default`) and its statements. -/
inductive Cases
  | nil
  | cons (v : Option Nat) (ss : Stmts) (cs : Cases)
end

/-- `Stmt::labels` -/
def Stmt.lbs : Stmt → List Label
  | .null ls | .act ls _ | .ret ls _ | .branch ls _ _ | .block ls _ | .ite ls _ _ _ | .loop ls _ _ _ _ _ | .switch ls _ _ => ls

/-- `push_back` -/
def Stmts.snoc : Stmts → Stmt → Stmts
  | .nil, t => .cons t .nil
  | .cons s ss, t => .cons s (ss.snoc t)

/-- MultiLevelExit.cpp:49-52 -/
inductive Kind
  | loop | block | ite | case | switch
  deriving DecidableEq, Repr

/-- MultiLevelExit.cpp:37-101: an enclosing control structure. Instead of `stmt`, its labels are kept: they are compared to find the target of a branch, which the
    code does with the pointer found in `target_table` (FixLabels.cpp:73-93). Labels are unique, so the statement with the label `l` is the one that `l` maps to. -/
structure Entry where
  kind : Kind
  ls : List Label
  first : Label
  firstUsed : Bool
  second : Label
  secondUsed : Bool
  /-- the `switch` has a `default` clause (MultiLevelExit.cpp:313-319), so that `second` is a label -/
  hasDefault : Bool
  fallDefaultValid : Bool
  deriving DecidableEq, Repr

/-- MultiLevelExit.cpp:147-151: the pass's variables; `fresh` is LabelGenerator.cpp:30. The innermost control structure comes first. -/
structure St where
  fresh : Nat
  encl : List Entry
  brk : Option Label
  ft : List Label
  deriving DecidableEq, Repr

/-- A pass that may report an error or stop. -/
abbrev M (α : Type) := St → Option (α × St)

/-- MultiLevelExit.cpp:81-84: may the control structure be the target of this kind of branch? -/
def Kind.isTarget (k : Kind) : Br → Bool
  | .cont => k = .loop
  | .brk => k ≠ .case
  | .fall => k = .case
  | .fallDefault => k = .switch
  | .goto => false

/-- MultiLevelExit.cpp:249-275, 279, 295: the test with which the control structure is looked for. -/
def isSought (k : Kind) (ls : List Label) (b : Br) (t : Option Label) : Bool :=
  match b, t with
  | .cont, none => k = .loop
  | .brk, none => k = .loop || k = .switch
  | .cont, some l | .brk, some l => l ∈ ls
  | .fall, _ => k = .case
  | .fallDefault, _ => k = .switch
  | .goto, _ => false

/-- MultiLevelExit.cpp:90-93, 318-343: the label, and the entry with it marked as used. -/
def Entry.use (e : Entry) : Br → Option (Label × Entry)
  | .brk | .fall => some (e.first, { e with firstUsed := true })
  | .cont => some (e.second, { e with secondUsed := true })
  | .fallDefault => if e.hasDefault ∧ e.fallDefaultValid then some (e.second, { e with secondUsed := true }) else none
  | .goto => none

/-- MultiLevelExit.cpp:163-167, 240-343: find the innermost entry sought, check that it is a valid target, and use its label. -/
def useEntry (b : Br) (t : Option Label) : List Entry → Option (Label × List Entry)
  | [] => none
  | e :: es =>
    if isSought e.kind e.ls b t then
      if e.kind.isTarget b then (e.use b).map fun r => (r.1, r.2 :: es) else none
    else (useEntry b t es).map fun r => (r.1, e :: r.2)

/-- MultiLevelExit.cpp:236-350. The new statement has no labels. -/
def branch (ls : List Label) (b : Br) (t : Option Label) : M Stmt := fun st =>
  match b, t with
  | .goto, _ => some (.branch ls b t, st)
  | .fall, some l => if st.encl.any (·.kind = .case) ∧ l ∈ st.ft then some (.branch [] .goto (some l), st) else none
  | b, t => (useEntry b t st.encl).map fun r => (.branch [] .goto (some r.1), { st with encl := r.2 })

/-- A label to be placed, as a statement (MultiLevelExit.cpp:170-172, 700-702). -/
def place : Option Label → Stmts → Stmts
  | none, ss => ss
  | some l, ss => .cons (.null [l]) ss

/-- MultiLevelExit.cpp:657-669: a loop with an `else` clause, as the loop without it and the clause. -/
def splitElse : Stmt → Option (Stmt × Stmt)
  | .loop ls post c inc body (.some e) => some (.loop ls post c inc body .none, e)
  | _ => none

/-- MultiLevelExit.cpp:689-698: the loop with the `else` clause connected again. -/
def setElse : Stmt → Stmt → Stmt
  | .loop ls post c inc body _, e => .loop ls post c inc body (.some e)
  | s, _ => s

/-- MultiLevelExit.cpp:657-705: one statement of a block, with `v` to visit a statement: the new statement, and the label to be placed after it. -/
def visitKid (v : Stmt → M Stmt) (kid : Stmt) : M (Stmt × Option Label) := fun st =>
  match splitElse kid with
  | none => (v kid st).map fun r => ((r.1, r.2.brk), { r.2 with brk := none })
  | some (kid, e) => (v kid st).bind fun r1 => (v e { r1.2 with brk := none }).bind fun r2 =>
    (v (setElse r1.1 r2.1) r2.2).map fun r3 => ((r3.1, r1.2.brk), r3.2)

/-- MultiLevelExit.cpp:649-655: a label that has been seen may not be the target of `fallthrough`. -/
def seen (isCase : Bool) (kid : Stmt) (st : St) : St := if isCase then { st with ft := st.ft.filter (· ∉ kid.lbs) } else st

/-- MultiLevelExit.cpp:635-711. Errors are collected and thrown at the end: here the first one ends the pass. -/
def fixBlock (v : Stmt → M Stmt) (isCase : Bool) : Stmts → M Stmts
  | .nil, st => some (.nil, st)
  | .cons kid kids, st => (visitKid v kid (seen isCase kid st)).bind fun r =>
    (fixBlock v isCase kids r.2).map fun q => (.cons r.1.1 (place r.1.2 q.1), q.2)

/-- MultiLevelExit.cpp:184-210 -/
def compound (v : Stmt → M Stmt) (ls : List Label) (kids : Stmts) : M Stmt := fun st =>
  if ls = [] then (fixBlock v false kids st).map fun r => (.block ls r.1, r.2)
  else
    let l := Label.gen st.fresh
    (fixBlock v false kids { st with fresh := st.fresh + 1, encl := ⟨.block, ls, l, false, l, false, false, true⟩ :: st.encl }).map fun r =>
      (.block ls r.1, { r.2 with encl := r.2.encl.tail, brk := some l })

/-- Visit a statement that may be missing. -/
def visitOpt (v : Stmt → M Stmt) : Opt → M Opt
  | .none, st => some (.none, st)
  | .some s, st => (v s st).map fun r => (.some r.1, r.2)

/-- MultiLevelExit.cpp:438-456 -/
def visitIf (v : Stmt → M Stmt) (ls : List Label) (c : Nat) (t : Stmt) (e : Opt) : M Stmt := fun st =>
  let l := Label.gen st.fresh
  let st := if ls = [] then st else { st with fresh := st.fresh + 1, encl := ⟨.ite, ls, l, false, l, false, false, true⟩ :: st.encl }
  (v t st).bind fun r1 => (visitOpt v e r1.2).map fun r2 =>
    (.ite ls c r1.1 r2.1, if ls = [] then r2.2 else { r2.2 with encl := r2.2.encl.tail, brk := some l })

/-- MultiLevelExit.cpp:584-633: the label is placed at the end of the body if it is used. -/
def wrap (used : Bool) (l : Label) (body : Stmt) : Stmt := if used then .block [] (.cons body (.cons (.null [l]) .nil)) else body

/-- MultiLevelExit.cpp:584-633, and AST/Pass.impl.hpp:783-816 -/
def visitLoop (v : Stmt → M Stmt) (ls : List Label) (post : Bool) (c : Nat) (inc : Option Nat) (body : Stmt) (els : Opt) : M Stmt := fun st =>
  let lb := Label.gen st.fresh
  let lc := Label.gen (st.fresh + 1)
  (v body { st with fresh := st.fresh + 2, encl := ⟨.loop, ls, lb, false, lc, false, false, true⟩ :: st.encl }).bind fun r1 => (visitOpt v els r1.2).bind fun r2 =>
    match r2.2.encl with
    | [] => none
    | e :: es => some (.loop ls post c inc (wrap e.secondUsed lc r1.1) r2.1, { r2.2 with encl := es, brk := if e.firstUsed then some lb else r2.2.brk })

/-- MultiLevelExit.cpp:390-393: the `default` clause has been seen. -/
def seenDefault (isDef : Bool) (st : St) : St :=
  if isDef then { st with encl := match st.encl with | [] => [] | e :: es => { e with fallDefaultValid := false } :: es } else st

/-- MultiLevelExit.cpp:401-423: the statements of a clause. The first must be a block. -/
def caseBlock (v : Stmt → M Stmt) : Stmts → M Stmts
  | .nil, st => some (.nil, { st with fresh := st.fresh + 1 })
  | .cons (.block ls kids) rest, st =>
    let l := Label.gen st.fresh
    (fixBlock v true kids { st with fresh := st.fresh + 1, encl := ⟨.case, ls, l, false, l, false, false, true⟩ :: st.encl }).bind fun r =>
      match r.2.encl with
      | [] => none
      | e :: es => some (if e.firstUsed then (Stmts.cons (.block ls r.1) rest).snoc (.null [l]) else .cons (.block ls r.1) rest, { r.2 with encl := es })
  | .cons _ _, _ => none

/-- MultiLevelExit.cpp:386-436 -/
def caseClause (v : Stmt → M Stmt) (isDef : Bool) (ss : Stmts) : M Stmts := fun st =>
  (caseBlock v ss (seenDefault isDef st)).bind fun r => match r.2.encl with
    | [] => none
    | e :: _ => some (if isDef ∧ e.secondUsed then .cons (.null [e.second]) r.1 else r.1, r.2)

/-- The clauses are visited in order (AST/Pass.impl.hpp, `SwitchStmt`). -/
def visitCases (v : Stmt → M Stmt) : Cases → M Cases
  | .nil, st => some (.nil, st)
  | .cons c ss cs, st => (caseClause v c.isNone ss st).bind fun r => (visitCases v cs r.2).map fun q => (.cons c r.1 q.1, q.2)

/-- MultiLevelExit.cpp:467: is there a `default` clause? -/
def hasDefault : Cases → Bool
  | .nil => false
  | .cons v _ cs => v.isNone || hasDefault cs

/-- The labels at the top level of a block. -/
def topLabels : Stmts → List Label
  | .nil => []
  | .cons s ss => s.lbs ++ topLabels ss

/-- MultiLevelExit.cpp:476-484: the labels at the top level of the clauses. The first statement of a clause must be a block. -/
def fallLabels : Cases → Option (List Label)
  | .nil => some []
  | .cons _ .nil cs => fallLabels cs
  | .cons _ (.cons (.block _ kids) _) cs => (fallLabels cs).map (topLabels kids ++ ·)
  | .cons _ (.cons _ _) _ => none

/-- MultiLevelExit.cpp:496-509: the label is placed at the end of the last clause. -/
def placeBreak (l : Label) : Cases → Cases
  | .nil => .cons none (.cons (.null [l]) .nil) .nil
  | .cons v ss .nil => .cons v (ss.snoc (.null [l])) .nil
  | .cons v ss (.cons v' ss' cs) => .cons v ss (placeBreak l (.cons v' ss' cs))

/-- MultiLevelExit.cpp:462-512 -/
def visitSwitch (v : Stmt → M Stmt) (ls : List Label) (e : Nat) (cs : Cases) : M Stmt := fun st =>
  let lb := Label.gen st.fresh
  let ld := Label.gen (st.fresh + 1)
  (fallLabels cs).bind fun fl =>
  (visitCases v cs { st with
    fresh := st.fresh + if hasDefault cs then 2 else 1
    encl := ⟨.switch, ls, lb, false, ld, false, hasDefault cs, true⟩ :: st.encl
    ft := fl ++ st.ft }).bind fun r =>
  match r.2.encl with
  | [] => none
  | en :: es => some (.switch ls e (if en.firstUsed then placeBreak lb r.1 else r.1), { r.2 with encl := es })

/-- One statement, with `v` for the statements inside it. -/
def visitStmt (v : Stmt → M Stmt) : Stmt → M Stmt
  | .null ls, st => some (.null ls, st)
  | .act ls a, st => some (.act ls a, st)
  | .ret ls r, st => some (.ret ls r, st)
  | .branch ls b t, st => branch ls b t st
  | .block ls kids, st => compound v ls kids st
  | .ite ls c t e, st => visitIf v ls c t e st
  | .loop ls post c inc body els, st => visitLoop v ls post c inc body els st
  | .switch ls e cs, st => visitSwitch v ls e cs st

/-- `accept`. A loop with an `else` clause is visited again after it is rewritten, so the recursion is not on the statement: the first argument bounds its depth. -/
def visit : Nat → Stmt → M Stmt
  | 0, _, _ => none
  | n + 1, s, st => visitStmt (visit n) s st

mutual
/-- All labels of a statement. -/
def Stmt.labels : Stmt → List Label
  | .null ls | .act ls _ | .ret ls _ | .branch ls _ _ => ls
  | .block ls kids => ls ++ kids.labels
  | .ite ls _ t e => ls ++ t.labels ++ e.labels
  | .loop ls _ _ _ body els => ls ++ body.labels ++ els.labels
  | .switch ls _ cs => ls ++ cs.labels
def Opt.labels : Opt → List Label
  | .none => []
  | .some s => s.labels
def Stmts.labels : Stmts → List Label
  | .nil => []
  | .cons s ss => s.labels ++ ss.labels
def Cases.labels : Cases → List Label
  | .nil => []
  | .cons _ ss cs => ss.labels ++ cs.labels
end

mutual
/-- All labels that branches name. -/
def Stmt.targets : Stmt → List Label
  | .null _ | .act _ _ | .ret _ _ => []
  | .branch _ _ t => t.toList
  | .block _ kids => kids.targets
  | .ite _ _ t e => t.targets ++ e.targets
  | .loop _ _ _ _ body els => body.targets ++ els.targets
  | .switch _ _ cs => cs.targets
def Opt.targets : Opt → List Label
  | .none => []
  | .some s => s.targets
def Stmts.targets : Stmts → List Label
  | .nil => []
  | .cons s ss => s.targets ++ ss.targets
def Cases.targets : Cases → List Label
  | .nil => []
  | .cons _ ss cs => ss.targets ++ cs.targets
end

/-- FixLabels.cpp:43-99 and MultiLevelExit.cpp:720-724: the body of a function. Labels must be defined once (84-88) and used labels defined (46-50). -/
def fixLabels (fuel : Nat) (body : Stmt) : Option Stmt :=
  if body.labels.Nodup ∧ ∀ l ∈ body.targets, l ∈ body.labels then (visit fuel body ⟨0, [], none, []⟩).map (·.1) else none

/-- Parser/StatementNode.cpp:155-171: each clause of a `choose` with statements gets a `break` at the end of its block. -/
def chooseCases : Cases → Cases
  | .nil => .nil
  | .cons v (.cons (.block ls kids) rest) cs => .cons v (.cons (.block ls (kids.snoc (.branch [] .brk none))) rest) (chooseCases cs)
  | .cons v ss cs => .cons v ss (chooseCases cs)

/-- Parser/StatementNode.cpp:153-175: `choose` -/
def choose (ls : List Label) (e : Nat) (cs : Cases) : Stmt := .switch ls e (chooseCases cs)

end Verif.MultiExit
