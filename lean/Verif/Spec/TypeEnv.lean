import Verif.Model.TypeEnv
/-
  What a type environment says: a solution gives every variable a type, so that the variables of a class
  have the same type, which is the one the class is bound to.
-/
namespace Verif.TypeEnv

/-- Replace the variables of a type. -/
def subst (σ : Nat → Ty) : Ty → Ty
  | .var v => σ v
  | .con c => .con c
  | .app a b => .app (subst σ a) (subst σ b)

/-- `σ` satisfies the constraints of a class. -/
def SatCls (σ : Nat → Ty) (c : Cls) : Prop :=
  (∀ u ∈ c.vars, ∀ v ∈ c.vars, σ u = σ v) ∧ (∀ b, c.bound = some b → ∀ v ∈ c.vars, σ v = subst σ b)

/-- `σ` satisfies the constraints of an environment. -/
def Sat (σ : Nat → Ty) (e : Env) : Prop := ∀ c ∈ e.classes, SatCls σ c

/-- The environment knows the variable. -/
def Known (e : Env) (v : Nat) : Prop := ∃ c ∈ e.classes, v ∈ c.vars

/-- Each variable belongs to at most one class (and identities are identities). -/
structure Disjoint (e : Env) : Prop where
  ids : ∀ c ∈ e.classes, ∀ d ∈ e.classes, c.id = d.id → c = d
  fresh : ∀ c ∈ e.classes, c.id < e.next
  vars : ∀ c ∈ e.classes, ∀ d ∈ e.classes, ∀ v, v ∈ c.vars → v ∈ d.vars → c = d

def tvars : Ty → List Nat
  | .var v => [v]
  | .con _ => []
  | .app a b => tvars a ++ tvars b

/-- A set of variables that contains everything its members lead to. -/
def Closed (e : Env) (A : Nat → Prop) : Prop :=
  ∀ c ∈ e.classes, ∀ v ∈ c.vars, A v → (∀ u ∈ c.vars, A u) ∧ (∀ b, c.bound = some b → ∀ u ∈ tvars b, A u)

/-- No class leads back to itself. -/
def Acyclic (e : Env) : Prop :=
  ∀ c ∈ e.classes, ∀ b, c.bound = some b →
    ∃ A, Closed e A ∧ (∀ u ∈ tvars b, A u) ∧ (∀ v ∈ c.vars, ¬ A v)

end Verif.TypeEnv
