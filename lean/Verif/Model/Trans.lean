import Verif.Model.Base
/-!
Concurrent executions. A model of concurrent code is a function `next`: the effect of an action (a thread together with its choice, if
it has one) in a state, or `none` when the action is not enabled. All schedules of unboundedly many threads are the sequences of
enabled actions. Each action is one atomic step of the code under sequential consistency: one atomic instruction, one plain access to a
shared variable, or one critical section that a lock of a lower layer protects.
-/
namespace Verif

/-- The states some schedule reaches from `s0`. -/
inductive Reach {σ α : Type} (next : σ → α → Option σ) (s0 : σ) : σ → Prop where
  | init : Reach next s0 s0
  | step {s s' : σ} {a : α} : Reach next s0 s → next s a = some s' → Reach next s0 s'

/-- Running a given schedule. -/
def exec {σ α : Type} (next : σ → α → Option σ) : σ → List α → Option σ
  | s, [] => some s
  | s, a :: as => (next s a).bind fun s' => exec next s' as

/-- An invariant holds in every reachable state. -/
theorem Reach.inv {σ α : Type} {next : σ → α → Option σ} {s0 s : σ} (P : σ → Prop) (h0 : P s0)
    (hs : ∀ s a s', P s → next s a = some s' → P s') (h : Reach next s0 s) : P s := by
  induction h with
  | init => exact h0
  | step _ e ih => exact hs _ _ _ ih e

/-- An invariant that may use reachability. -/
theorem Reach.inv' {σ α : Type} {next : σ → α → Option σ} {s0 s : σ} (P : σ → Prop) (h0 : P s0)
    (hs : ∀ s a s', Reach next s0 s → P s → next s a = some s' → P s') (h : Reach next s0 s) : P s := by
  induction h with
  | init => exact h0
  | step h e ih => exact hs _ _ _ h ih e

theorem Reach.trans {σ α : Type} {next : σ → α → Option σ} {a b c : σ} (h1 : Reach next a b) (h2 : Reach next b c) : Reach next a c := by
  induction h2 with
  | init => exact h1
  | step _ e ih => exact ih.step e

theorem Reach.of_exec {σ α : Type} {next : σ → α → Option σ} (as : List α) : ∀ {s s' : σ}, exec next s as = some s' → Reach next s s' := by
  induction as with
  | nil => intro s s' h; simp only [exec, Option.some.injEq] at h; rw [h]; exact .init
  | cons a as ih =>
    intro s s' h
    simp only [exec] at h
    cases e : next s a with
    | none => rw [e] at h; simp at h
    | some u => rw [e] at h; exact (Reach.init.step e).trans (ih h)

theorem exec_snoc {σ α : Type} {next : σ → α → Option σ} {a : α} {s' s'' : σ} (e : next s' a = some s'') (as : List α) :
    ∀ {s : σ}, exec next s as = some s' → exec next s (as ++ [a]) = some s'' := by
  induction as with
  | nil => intro s h; simp only [exec, Option.some.injEq] at h; subst h; simp [exec, e]
  | cons b bs ih =>
    intro s h
    simp only [exec, List.cons_append] at h ⊢
    cases e' : next s b with
    | none => rw [e'] at h; simp at h
    | some u => rw [e'] at h; simp only [Option.bind_some] at h ⊢; exact ih h

theorem Reach.exec {σ α : Type} {next : σ → α → Option σ} {s s' : σ} (h : Reach next s s') : ∃ as, exec next s as = some s' := by
  induction h with
  | init => exact ⟨[], rfl⟩
  | step _ e ih =>
    obtain ⟨as, h⟩ := ih
    exact ⟨_, exec_snoc e as h⟩

theorem Reach.of_isSome {σ act : Type} {next : σ → act → Option σ} {s : σ} (as : List act) (h : (Verif.exec next s as).isSome = true) :
    Reach next s ((Verif.exec next s as).getD s) :=
  Reach.of_exec as (by rw [Option.isSome_iff_exists] at h; obtain ⟨x, hx⟩ := h; rw [hx]; rfl)

end Verif
