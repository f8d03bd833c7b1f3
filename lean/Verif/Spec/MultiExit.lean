import Verif.Model.MultiExit
/-! # What statements mean

    The meaning of a function's body, in C∀ and in C: one small step at a time, with the rest of the function as a continuation. C is the part of the language without
    `break`, `continue` and `fallthrough`. -/

namespace Verif.MultiExit

/-- What is to be done after the current statement. -/
inductive Kont
  /-- the end of the function -/
  | stop
  /-- the statements that follow in the block -/
  | seq (ss : Stmts) (k : Kont)
  /-- the end of a block -/
  | blk (ls : List Label) (k : Kont)
  /-- the end of an `if` -/
  | ifK (ls : List Label) (k : Kont)
  /-- the end of the body of a loop -/
  | loopB (ls : List Label) (post : Bool) (c : Nat) (inc : Option Nat) (body : Stmt) (els : Opt) (k : Kont)
  /-- the end of the `else` clause of a loop -/
  | loopE (k : Kont)
  /-- the end of a clause of a `switch`, with the clauses that follow -/
  | caseK (cs : Cases) (k : Kont)
  /-- the end of a `switch`, with all its clauses -/
  | swK (ls : List Label) (cs : Cases) (k : Kont)

/-- A point of the execution. -/
inductive Conf
  /-- before a statement -/
  | run (s : Stmt) (k : Kont)
  /-- before a list of statements -/
  | list (ss : Stmts) (k : Kont)
  /-- after a statement -/
  | next (k : Kont)
  /-- before the clauses of a `switch` -/
  | cases (cs : Cases) (k : Kont)
  /-- before the condition of a loop -/
  | test (ls : List Label) (post : Bool) (c : Nat) (inc : Option Nat) (body : Stmt) (els : Opt) (k : Kont)
  /-- the function has returned: with a value, or at its end -/
  | halt (r : Option Nat)

/-- What the expressions do, on any kind of store. -/
structure Interp (σ : Type) where
  act : Nat → σ → σ
  cond : Nat → σ → Bool × σ
  sel : Nat → σ → Nat × σ

mutual
/-- The statement with a label, and what is to be done after it. -/
def findS (l : Label) : Stmt → Kont → Option (Stmt × Kont)
  | .null ls, k => if l ∈ ls then some (.null ls, k) else none
  | .act ls a, k => if l ∈ ls then some (.act ls a, k) else none
  | .ret ls r, k => if l ∈ ls then some (.ret ls r, k) else none
  | .branch ls b t, k => if l ∈ ls then some (.branch ls b t, k) else none
  | .block ls ss, k => if l ∈ ls then some (.block ls ss, k) else findL l ss (.blk ls k)
  | .ite ls c t e, k => if l ∈ ls then some (.ite ls c t e, k) else (findS l t (.ifK ls k)).or (findO l e (.ifK ls k))
  | .loop ls post c inc body els, k =>
    if l ∈ ls then some (.loop ls post c inc body els, k) else (findS l body (.loopB ls post c inc body els k)).or (findO l els (.loopE k))
  | .switch ls e cs, k => if l ∈ ls then some (.switch ls e cs, k) else findC l cs (.swK ls cs k)
def findO (l : Label) : Opt → Kont → Option (Stmt × Kont)
  | .none, _ => none
  | .some s, k => findS l s k
def findL (l : Label) : Stmts → Kont → Option (Stmt × Kont)
  | .nil, _ => none
  | .cons s ss, k => (findS l s (.seq ss k)).or (findL l ss k)
def findC (l : Label) : Cases → Kont → Option (Stmt × Kont)
  | .nil, _ => none
  | .cons _ ss cs, k => (findL l ss (.caseK cs k)).or (findC l cs k)
end

/-- Is this label named? -/
def named (t : Option Label) (ls : List Label) : Prop := ∃ l, t = some l ∧ l ∈ ls
instance (t : Option Label) (ls : List Label) : Decidable (named t ls) :=
  match t with
  | none => isFalse fun ⟨_, h, _⟩ => nomatch h
  | some l => if h : l ∈ ls then isTrue ⟨l, rfl, h⟩ else isFalse fun ⟨_, h1, h2⟩ => h (Option.some.inj h1 ▸ h2)

/-- `break` leaves the innermost loop or `switch`; `break L` leaves the enclosing statement labelled `L`. In an `else` clause, the loop is not enclosing. -/
def afterBreak (t : Option Label) : Kont → Option Kont
  | .stop => none
  | .seq _ k => afterBreak t k
  | .blk ls k => if named t ls then some k else afterBreak t k
  | .ifK ls k => if named t ls then some k else afterBreak t k
  | .loopB ls _ _ _ _ _ k => if t = none ∨ named t ls then some k else afterBreak t k
  | .loopE k => afterBreak t k
  | .caseK _ k => afterBreak t k
  | .swK ls _ k => if t = none ∨ named t ls then some k else afterBreak t k

/-- `continue` goes to the end of the body of the innermost loop, `continue L` of the enclosing loop labelled `L`. -/
def afterContinue (t : Option Label) : Kont → Option Kont
  | .stop => none
  | .seq _ k => afterContinue t k
  | .blk ls k => if named t ls then none else afterContinue t k
  | .ifK ls k => if named t ls then none else afterContinue t k
  | .loopB ls post c inc body els k => if t = none ∨ named t ls then some (.loopB ls post c inc body els k) else afterContinue t k
  | .loopE k => afterContinue t k
  | .caseK _ k => afterContinue t k
  | .swK ls _ k => if named t ls then none else afterContinue t k

/-- `fallthrough` goes to the end of the clause. -/
def afterFall : Kont → Option Kont
  | .stop => none
  | .seq _ k | .blk _ k | .ifK _ k | .loopB _ _ _ _ _ _ k | .loopE k | .swK _ _ k => afterFall k
  | .caseK cs k => some (.caseK cs k)

/-- The clauses from `default` on. -/
def fromDefault : Cases → Option Cases
  | .nil => none
  | .cons v ss cs => if v = none then some (.cons v ss cs) else fromDefault cs

/-- The clauses from the one with this value on. -/
def fromValue (n : Nat) : Cases → Option Cases
  | .nil => none
  | .cons v ss cs => if v = some n then some (.cons v ss cs) else fromValue n cs

/-- The clauses a `switch` executes: from the one with the value on or else from `default` on. -/
def select (n : Nat) (cs : Cases) : Option Cases := (fromValue n cs).or (fromDefault cs)

/-- `fallthrough default` goes to the `default` clause of the innermost `switch`. -/
def afterFallDefault : Kont → Option (Cases × Kont)
  | .stop => none
  | .seq _ k | .blk _ k | .ifK _ k | .loopB _ _ _ _ _ _ k | .loopE k | .caseK _ k => afterFallDefault k
  | .swK ls cs k => (fromDefault cs).map fun ds => (ds, .swK ls cs k)

/-- A branch statement; `goto L` and `fallthrough L` go to the statement with the label. -/
def jump (find : Label → Option (Stmt × Kont)) : Br → Option Label → Kont → Option Conf
  | .goto, some l, _ => (find l).map fun r => .run r.1 r.2
  | .goto, none, _ => none
  | .brk, t, k => (afterBreak t k).map .next
  | .cont, t, k => (afterContinue t k).map .next
  | .fall, some l, _ => (find l).map fun r => .run r.1 r.2
  | .fall, none, k => (afterFall k).map .next
  | .fallDefault, _, k => (afterFallDefault k).map fun r => .cases r.1 r.2

variable {σ : Type}

/-- One step, in a function whose labels `find` finds. There is none after the end of the function, and none for a branch without a target. -/
def step (I : Interp σ) (find : Label → Option (Stmt × Kont)) : Conf × σ → Option (Conf × σ)
  | (.run s k, m) => match s with
    | .null _ => some (.next k, m)
    | .act _ a => some (.next k, I.act a m)
    | .ret _ r => some (.halt (some r), m)
    | .branch _ b t => (jump find b t k).map (·, m)
    | .block ls ss => some (.list ss (.blk ls k), m)
    | .ite ls c t e => match I.cond c m, e with
      | (true, m), _ => some (.run t (.ifK ls k), m)
      | (false, m), .none => some (.next k, m)
      | (false, m), .some e => some (.run e (.ifK ls k), m)
    | .loop ls post c inc body els =>
      if post then some (.run body (.loopB ls post c inc body els k), m) else some (.test ls post c inc body els k, m)
    | .switch ls e cs => match I.sel e m with
      | (n, m) => match select n cs with
        | none => some (.next k, m)
        | some ds => some (.cases ds (.swK ls cs k), m)
  | (.list ss k, m) => match ss with
    | .nil => some (.next k, m)
    | .cons s ss => some (.run s (.seq ss k), m)
  | (.cases cs k, m) => match cs with
    | .nil => some (.next k, m)
    | .cons _ ss cs => some (.list ss (.caseK cs k), m)
  | (.test ls post c inc body els k, m) => match I.cond c m, els with
    | (true, m), _ => some (.run body (.loopB ls post c inc body els k), m)
    | (false, m), .none => some (.next k, m)
    | (false, m), .some e => some (.run e (.loopE k), m)
  | (.next k, m) => match k with
    | .stop => some (.halt none, m)
    | .seq ss k => some (.list ss k, m)
    | .blk _ k | .ifK _ k | .loopE k | .swK _ _ k => some (.next k, m)
    | .loopB ls post c inc body els k => some (.test ls post c inc body els k, match inc with | none => m | some a => I.act a m)
    | .caseK cs k => some (.cases cs k, m)
  | (.halt _, _) => none

/-- `n` steps of the body of a function. -/
def steps (I : Interp σ) (body : Stmt) : Nat → Conf × σ → Option (Conf × σ)
  | 0, c => some c
  | n + 1, c => (step I (fun l => findS l body .stop) c).bind (steps I body n)

/-- A call of the function with this body. -/
def begin (body : Stmt) (m : σ) : Conf × σ := (.run body .stop, m)

/-- The call goes through this store. -/
def Visits (I : Interp σ) (body : Stmt) (m m' : σ) : Prop := ∃ n c, steps I body n (begin body m) = some (c, m')

/-- The call returns, with this value and this store. -/
def Returns (I : Interp σ) (body : Stmt) (m : σ) (r : Option Nat) (m' : σ) : Prop := ∃ n, steps I body n (begin body m) = some (.halt r, m')

/-- The call stops at a branch that has no target. -/
def Stuck (I : Interp σ) (body : Stmt) (m : σ) : Prop :=
  ∃ n c m', steps I body n (begin body m) = some (c, m') ∧ (∀ r, c ≠ .halt r) ∧ step I (fun l => findS l body .stop) (c, m') = none

/-- Two functions that do the same. As the store is arbitrary, it may record all expressions evaluated so far. -/
def Same (body body' : Stmt) : Prop := ∀ (σ : Type) (I : Interp σ) (m : σ),
  (∀ m', Visits I body m m' ↔ Visits I body' m m') ∧ (∀ r m', Returns I body m r m' ↔ Returns I body' m r m') ∧ ¬ Stuck I body m ∧ ¬ Stuck I body' m

/-- Is it a block without a label? -/
def Stmt.isBlock : Stmt → Bool
  | .block ls _ => ls = []
  | _ => false

/-- At most one `default` clause. -/
def oneDefault : Cases → Bool
  | .nil => true
  | .cons v _ cs => (v.isSome || !hasDefault cs) && oneDefault cs

/-- Is it a label of the program? -/
def Label.isUser : Label → Bool
  | .user _ => true
  | .gen _ => false

mutual
/-- The statements that the parser builds (Parser/parser.yy:1241-1446): the bodies of control structures are blocks, the last clause of a `switch` has statements, and all
    names are the program's. Excluded: a label on the block that is the body of a control structure, and on a `break`, `continue` or `fallthrough`. -/
def Stmt.plain : Stmt → Bool
  | .null ls | .act ls _ | .ret ls _ => ls.all (·.isUser)
  | .branch ls b t => ls.all (·.isUser) && t.all (·.isUser) && (b = .goto || ls = []) && (b ≠ .goto || t.isSome)
  | .block ls kids => ls.all (·.isUser) && kids.plain
  | .ite ls _ t e => ls.all (·.isUser) && t.isBlock && t.plain && e.plain
  | .loop ls _ _ _ body els => ls.all (·.isUser) && body.isBlock && body.plain && els.plain
  | .switch ls _ cs => ls.all (·.isUser) && oneDefault cs && cs.plain
def Opt.plain : Opt → Bool
  | .none => true
  | .some s => s.isBlock && s.plain
def Stmts.plain : Stmts → Bool
  | .nil => true
  | .cons s ss => s.plain && ss.plain
def Cases.plain : Cases → Bool
  | .nil => true
  | .cons _ .nil cs => cs.plain
  | .cons _ (.cons (.block ls kids) .nil) cs => ls = [] && kids.plain && cs.plain
  | .cons _ (.cons _ _) _ => false
end

mutual
/-- A statement of C: the only branch is `goto`. -/
def Stmt.isC : Stmt → Bool
  | .null _ | .act _ _ | .ret _ _ => true
  | .branch _ b t => b = .goto && t.isSome
  | .block _ kids => kids.isC
  | .ite _ _ t e => t.isC && e.isC
  | .loop _ _ _ _ body els => body.isC && els.isC
  | .switch _ _ cs => cs.isC
def Opt.isC : Opt → Bool
  | .none => true
  | .some s => s.isC
def Stmts.isC : Stmts → Bool
  | .nil => true
  | .cons s ss => s.isC && ss.isC
def Cases.isC : Cases → Bool
  | .nil => true
  | .cons _ ss cs => ss.isC && cs.isC
end

end Verif.MultiExit
