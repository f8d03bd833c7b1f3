import Verif.Proof.Except
/-! C89: exceptions. -/

namespace Verif.Except

variable {σ : Type}

/-- What surrounds a program. -/
abbrev outside : Cx := ⟨[], [], none⟩

/-- C89: a rewritten program does what the program means: the handlers that are called, their order, the `finally` clauses, the statements executed after them and the way it ends are those of
    the program, and when it ends no exception is leaked and no handler is left installed. For all programs, stores, hierarchies of types, conditions and default handlers, and any number
    of steps. Missing: the programs that the translator accepts with `throw;` or `throwResume;` in a nested `try` statement, and executions in which an exception is lost as a `finally`
    clause executed for it throws another; for these it is false (below). -/
theorem C89_exceptions_partial (P : Prog σ) (hP : P.ok) (s : Stmt) (hs : s.ok false false true) (m : σ) (n : Nat) (hl : (run P n outside s m false).lost = false) :
    Agree (run P n outside s m false) (eval P n [] .none (tr s) (init m)) := by
  have pre : Pre outside [] .none false (init m) := ⟨⟨Nat.le_refl _, fun _ _ => rfl, fun _ _ => rfl, fun _ _ => rfl, rfl⟩, rfl, rfl, nofun, rfl, nofun⟩
  obtain ⟨a, b⟩ := run_sim hP n hs pre hl
  have hm : (init m).m = m := rfl
  rw [hm] at a b
  revert a b
  show Post [] .none false (init m) (run P n outside s m false) _ → _
  cases run P n outside s m false <;> cases eval P n [] .none (tr s) (init m) <;> intro a b <;> try (exact a.elim)
  case done.done => exact ⟨a.2, a.1.top, a.1.cur, fun _ => by rw [a.1.nodes]; rfl, fun _ => by rw [a.1.excs]; rfl, fun _ => by rw [a.1.slots]; rfl⟩
  case ret.ret => exact ⟨a.2, a.1.top, a.1.cur, fun _ => by rw [a.1.nodes]; rfl, fun _ => by rw [a.1.excs]; rfl, fun _ => by rw [a.1.slots]; rfl⟩
  case reresume.retFalse => cases b
  case exc.unwind =>
    obtain ⟨-, -, i, hh, ⟨pre, rest, h, -⟩, -⟩ := a
    cases pre <;> cases h
  case cancel.forced =>
    obtain ⟨h1, g⟩ := a
    exact ⟨h1, g.top, g.cur, fun _ => by rw [g.nodes]; rfl, fun _ => by rw [g.slots]; rfl, fun a => by rw [g.excs]; rfl⟩
  case abort.abort => exact a
  case timeout.timeout => trivial

/-- C89: the test of a handler's type: a handler is for its type and for the types derived from it, in any number of steps. (A type is defined after its parent.) -/
theorem C89_isParent (par : Nat → Option Nat) (h : ∀ c q, par c = some q → q < c) (p c : Nat) : isParent par p c = true ↔ Ancestor par p c := by
  constructor
  · intro hp
    induction c using Nat.strongRecOn with
    | _ c ih =>
      rw [isParent] at hp
      simp only [Bool.or_eq_true, decide_eq_true_eq] at hp
      rcases hp with rfl | hp
      · exact .refl _
      · split at hp
        · cases hp
        · rename_i q hq
          rw [dif_pos (h c q hq)] at hp
          exact .step hq (ih q (h c q hq) hp)
  · intro ha
    induction ha with
    | refl => rw [isParent]; simp
    | step hq _ ih => rw [isParent]; simp [hq, h _ _ hq, ih]

/-- C89: a clause is for an exception if its type is the exception's type or an ancestor of it and its condition, if it has one, holds; the condition is evaluated only if the type fits. -/
theorem C89_accepts (P : Prog σ) (h : ∀ c q, P.parent c = some q → q < c) (ty : Nat) (e : Exc) (m : σ) :
    (Ancestor P.parent ty e.ty → accepts P ty none e m = (true, m) ∧ ∀ c, accepts P ty (some c) e m = P.cond c e m) ∧
    (¬ Ancestor P.parent ty e.ty → ∀ c, accepts P ty c e m = (false, m)) := by
  rw [← C89_isParent P.parent h]
  refine ⟨fun g => ⟨?_, fun c => ?_⟩, fun g c => ?_⟩ <;> simp [accepts, g]

/-- C89: what the theorem is about is accepted by the translator. -/
theorem C89_accepted (P : Prog σ) (s : Stmt) : (s.ok false false true → s.accepted false false true) ∧ (P.ok → P.accepted) :=
  ⟨fun h => ok_accepted h id id id, fun h f => ok_accepted (h f) id id id⟩

/-! ## Examples -/

/-- A program: the store is the list of what was done; the type `x` is thrown with the contents 7; 2 is derived from 1; a condition tests the contents; function 1 is the default
    handler of the type 9. -/
def demo (funs : Nat → Stmt) : Prog (List Nat) where
  parent t := if t = 2 then some 1 else none
  funs := funs
  act a m := m ++ [a]
  use a e m := m ++ [a, e.ty, e.data]
  test _ m := (true, m)
  exc x m := (⟨x, 7⟩, m)
  cond c e m := (e.data = c, m ++ [100 + c])
  tdef x := if x = 9 then some 1 else none
  rdef x := if x = 9 then some 1 else none

def demo0 : Prog (List Nat) := demo fun _ => .use 90

/-- `done` with this store, and whether an exception was lost -/
def means : Res (List Nat) → Option (List Nat × Bool)
  | .done m l => some (m, l)
  | _ => none

def TRes.isBad : TRes σ → Bool
  | .bad => true
  | _ => false

/-- `done` with this store, and whether anything is left -/
def ends : TRes (List Nat) → Option (List Nat × Nat × Nat)
  | .done st => some (st.m, st.top, st.cur)
  | _ => none

/-- `try { try { throw 2; } catch (1 *; data == 5) {} catchResume (2 *) {} finally { act 3; } } catch (0 *) {} catch (1 *) { use 4; throwResume 9; } act 5;` -/
def prog1 : Stmt := .seq (.try (.try (.throw 2) (.cons .terminate 1 (some 5) (.act 1) (.cons .resume 2 none (.act 2) .nil)) (.some (.act 3)))
  (.cons .terminate 0 none (.act 6) (.cons .terminate 1 none (.seq (.use 4) (.throwResume 9)) .nil)) .none) (.act 5)

example : prog1.ok false false true = true ∧ demo0.ok ∧ (run demo0 9 outside prog1 [] false).lost = false ∧
    ends (eval demo0 9 [] .none (tr prog1) (init [])) = some ([105, 3, 4, 2, 7, 90, 9, 7, 5], 0, 0) :=
  ⟨rfl, fun _ => rfl, by decide +kernel, by decide +kernel⟩

/-- `try { try { throwResume 1; act 8; } catchResume (1 *) { throwResume 1; throwResume; } catch (3 *) { act 9; throw; } } catchResume (1 *) { use 7; throw 3; } catch (3 *) { use 6; }`: the resumption
    in the handler is handled outside; that handler throws, and the stack is unwound to the inner `catch`, which throws again. -/
def prog2 : Stmt := .try (.try (.seq (.throwResume 1) (.act 8)) (.cons .resume 1 none (.seq (.throwResume 1) .reresume) (.cons .terminate 3 none (.seq (.act 9) .rethrow) .nil)) .none)
  (.cons .resume 1 none (.seq (.use 7) (.throw 3)) (.cons .terminate 3 none (.use 6) .nil)) (.some (.act 5))

example : prog2.ok false false true = true ∧ (run demo0 9 outside prog2 [] false).lost = false ∧ ends (eval demo0 9 [] .none (tr prog2) (init [])) = some ([7, 1, 7, 9, 6, 3, 7, 5], 0, 0) :=
  ⟨rfl, by decide +kernel, by decide +kernel⟩

/-- An exception without handlers: the `finally` clauses are executed, and the stack is cancelled. -/
example : (match eval demo0 9 [] .none (tr (.try (.throw 4) .nil (.some (.act 3)))) (init []) with | .forced p st => some (st.m, (st.excs p).map (·.exc)) | _ => none) = some ([3], some ⟨4, 7⟩) := by
  decide +kernel

example : isParent demo0.parent 1 2 = true ∧ isParent demo0.parent 2 1 = false := by decide +kernel

/-! ## What is wrong -/

/-- `try { try { throw 1; } catch (1 *) { try { try { throw 3; } finally { throw 4; } } catch (4 *) {} throw; } } catch (1 *) { act 1; } catch (3 *) { act 3; }` -/
def lostProg : Stmt := .try (.try (.throw 1) (.cons .terminate 1 none
      (.seq (.try (.try (.throw 3) .nil (.some (.throw 4))) (.cons .terminate 4 none (.act 4) .nil) .none) .rethrow) .nil) .none)
    (.cons .terminate 1 none (.act 1) (.cons .terminate 3 none (.act 3) .nil)) .none

/-- C89 fails: if a `finally` clause that is executed for an exception throws another, the first stays the current one, so that `throw;` in a handler around it throws it instead of the exception of the
    handler, and that exception is never deleted. -/
theorem C89_finally_violated : lostProg.ok false false true = true ∧ demo0.ok ∧ means (run demo0 12 outside lostProg [] false) = some ([4, 1], true) ∧
    ∃ c, ends (eval demo0 12 [] .none (tr lostProg) (init [])) = some ([4, 3], 0, c) ∧ c ≠ 0 :=
  ⟨rfl, fun _ => rfl, by decide +kernel, 1, by decide +kernel, by decide⟩

/-- `try { throw 1; } catch (1 * e) { try { throw; } catch (1 *) { act 2; } use 3; }` -/
def againProg : Stmt := .try (.throw 1) (.cons .terminate 1 none (.seq (.try .rethrow (.cons .terminate 1 none (.act 2) .nil) .none) (.use 3)) .nil) .none

/-- C89 fails: if `throw;` in a `try` statement of a `catch` clause is caught by that `try` statement, the exception of the clause has been deleted and its variable is null afterwards: the rest
    of the clause uses the null pointer. -/
theorem C89_rethrow_violated : againProg.accepted false false true = true ∧ demo0.accepted ∧ means (run demo0 12 outside againProg [] false) = some ([2, 3, 1, 7], false) ∧
    (eval demo0 12 [] .none (tr againProg) (init [])).isBad = true :=
  ⟨rfl, fun _ => rfl, by decide +kernel, by decide +kernel⟩

/-- `try { throw 1; } catch (1 * e) { try { throw; } catch (2 *) {} finally { use 3; } }` in `try { … } catch (1 *) {}` -/
def hookProg : Stmt := .try (.try (.throw 1) (.cons .terminate 1 none (.try .rethrow .nil (.some (.use 3))) .nil) .none) (.cons .terminate 1 none (.act 2) .nil) .none

/-- C89 fails: nor can a `finally` clause executed for `throw;` use the exception of the `catch` clause that it is in. -/
theorem C89_rethrow_finally_violated : hookProg.accepted false false true = true ∧ demo0.accepted ∧ means (run demo0 12 outside hookProg [] false) = some ([3, 1, 7, 2], false) ∧
    (eval demo0 12 [] .none (tr hookProg) (init [])).isBad = true :=
  ⟨rfl, fun _ => rfl, by decide +kernel, by decide +kernel⟩

/-- `try { try { throwResume 1; } catchResume (1 *) { try { throwResume; } catch (3 *) {} act 2; } } catchResume (1 *) { act 1; }` -/
def againResume : Stmt := .try (.try (.throwResume 1) (.cons .resume 1 none (.seq (.try .reresume (.cons .terminate 3 none (.act 3) .nil) .none) (.act 2)) .nil) .none)
  (.cons .resume 1 none (.act 1) .nil) .none

/-- C89 fails: `throwResume;` in the block of a `try` statement with `catch` clauses, in a `catchResume` clause, becomes `return false` in the function made from that block: the handler continues, and
    the exception counts as handled. (A C compiler that rejects `return false` in a function without a result rejects the program.) -/
theorem C89_reresume_violated : againResume.accepted false false true = true ∧ demo0.accepted ∧ means (run demo0 12 outside againResume [] false) = some ([1], false) ∧
    ends (eval demo0 12 [] .none (tr againResume) (init [])) = some ([2], 0, 0) :=
  ⟨rfl, fun _ => rfl, by decide +kernel, by decide +kernel⟩

end Verif.Except
