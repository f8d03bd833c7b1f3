import Verif.Model.Maybe
import Mathlib.Data.Prod.Lex
/-!
C29 (maybe and result), C74 (pair comparison).

Specification: a `maybe` is an `Option`, a `result` is a sum; an object is destroyed exactly once when nothing leaks and the cell
is empty after the destructor.
-/
namespace Verif.Maybe
open Verif
variable {α β : Type}

/-- Calls that change a `maybe`. -/
inductive MOp (α : Type) where
  | assign (that : Option α) | set (x : α) | setNone

def mstep (m : May α) : MOp α → Outcome (May α)
  | .assign t => assign m t
  | .set x => set m x
  | .setNone => setNone m

def mrun (m : May α) : List (MOp α) → Outcome (May α)
  | [] => .ret m
  | o :: os => do let m ← mstep m o; mrun m os

/-- Meaning on options. -/
def mspec (_ : Option α) : MOp α → Option α
  | .assign t => t
  | .set x => some x
  | .setNone => none

/-- The ways to make a `maybe`; `d` is the default value of the type. -/
inductive Init (α : Type) where
  | dflt (d : α) | value (x : α) | copy (o : Option α)

def mmake : Init α → May α
  | .dflt d => mk0 d
  | .value x => mk1 x
  | .copy o => mkCopy o

def Init.opt : Init α → Option α
  | .dflt _ => none
  | .value x => some x
  | .copy o => o

/-- The current value, and what was leaked or is left over. -/
structure MInv (m : May α) (o : Option α) (extra : Nat) : Prop where
  has : m.has = o.isSome
  cell : ∀ x, o = some x → m.cell = some x
  extra : m.leaks + (if o = none ∧ m.cell ≠ none then 1 else 0) = extra

theorem minv_step {m : May α} {o : Option α} {k : Nat} (h : MInv m o k) (op : MOp α) :
    ∃ m', mstep m op = .ret m' ∧ MInv m' (mspec o op) k := by
  have h1 := h.has
  have h2 := h.cell
  have h3 := h.extra
  obtain ⟨has, cell, leaks⟩ := m
  simp only at h1 h2 h3
  cases o with
  | none =>
    subst h1
    cases op with
    | assign t =>
      cases t with
      | none => exact ⟨_, rfl, rfl, by simp [mspec], h3⟩
      | some x =>
        refine ⟨_, rfl, rfl, by simp [mspec, May.construct], ?_⟩
        cases cell <;> simp [May.construct, mspec] at h3 ⊢ <;> omega
    | set x =>
      refine ⟨_, rfl, rfl, by simp [mspec, May.construct], ?_⟩
      cases cell <;> simp [May.construct, mspec] at h3 ⊢ <;> omega
    | setNone => exact ⟨_, rfl, rfl, by simp [mspec], h3⟩
  | some y =>
    subst h1
    have hc : cell = some y := h2 y rfl
    subst hc
    simp at h3
    cases op with
    | assign t =>
      cases t with
      | none => exact ⟨_, rfl, rfl, by simp [mspec], by simpa [mspec] using h3⟩
      | some x => exact ⟨_, rfl, rfl, by simp [mspec], by simpa [mspec] using h3⟩
    | set x => exact ⟨_, rfl, rfl, by simp [mspec], by simpa [mspec] using h3⟩
    | setNone => exact ⟨_, rfl, rfl, by simp [mspec], by simpa [mspec] using h3⟩

theorem minv_run (os : List (MOp α)) : ∀ {m : May α} {o : Option α} {k : Nat}, MInv m o k →
    ∃ m', mrun m os = .ret m' ∧ MInv m' (os.foldl mspec o) k := by
  induction os with
  | nil => intro m o k h; exact ⟨m, rfl, h⟩
  | cons op os ih =>
    intro m o k h
    obtain ⟨m', h1, h2⟩ := minv_step h op
    obtain ⟨m'', h3, h4⟩ := ih h2
    exact ⟨m'', by simp [mrun, h1, h3], h4⟩

theorem minv_make (i : Init α) : MInv (mmake i) i.opt (match i with | .dflt _ => 1 | _ => 0) := by
  cases i with
  | dflt d => exact ⟨rfl, by simp [Init.opt], by simp [mmake, mk0, Init.opt]⟩
  | value x => exact ⟨rfl, by simp [Init.opt, mmake, mk1, May.construct], by simp [mmake, mk1, May.construct, Init.opt]⟩
  | copy o => cases o <;> exact ⟨rfl, by simp [Init.opt, mmake, mkCopy, May.construct], by simp [mmake, mkCopy, May.construct, Init.opt]⟩

/-- After any history a `maybe` holds what the corresponding `Option` holds: `has_value` says whether there is a value, `get`
    returns it, or is reported when there is none. -/
theorem C29_maybe_is_option (i : Init α) (os : List (MOp α)) :
    ∃ m, mrun (mmake i) os = .ret m ∧ hasValue m = (os.foldl mspec i.opt).isSome ∧
      get m = match os.foldl mspec i.opt with | some x => .ret x | none => .abort := by
  obtain ⟨m, h1, h2⟩ := minv_run os (minv_make i)
  refine ⟨m, h1, h2.has, ?_⟩
  have h3 := h2.has
  have h4 := h2.cell
  unfold get
  cases ho : os.foldl mspec i.opt with
  | none => rw [ho] at h3; simp at h3; simp [h3]
  | some x => rw [ho] at h3 h4; simp at h3; simp [h3, h4 x rfl]

/-- A `maybe` made from a value, or as a copy, destroys every value it held exactly once. Missing: default-constructed ones, for
    which it fails (next theorem). -/
theorem C29_maybe_destroyed_once_partial (i : Init α) (hi : ∀ d, i ≠ .dflt d) (os : List (MOp α)) :
    ∃ m m', mrun (mmake i) os = .ret m ∧ dtor m = .ret m' ∧ m'.cell = none ∧ m'.leaks = 0 := by
  obtain ⟨m, h1, h2⟩ := minv_run os (minv_make i)
  have hk : (match i with | .dflt _ => 1 | _ => 0) = 0 := by cases i <;> simp_all
  rw [hk] at h2
  have h3 := h2.has
  have h4 := h2.cell
  have h5 := h2.extra
  obtain ⟨has, cell, leaks⟩ := m
  simp only at h3 h4 h5
  cases ho : os.foldl mspec i.opt with
  | none =>
    rw [ho] at h3 h5
    simp at h3 h5
    subst h3
    exact ⟨_, _, h1, rfl, h5.2, h5.1⟩
  | some x =>
    rw [ho] at h3 h4 h5
    simp at h3 h5
    subst h3
    have := h4 x rfl
    subst this
    exact ⟨_, _, h1, rfl, rfl, h5⟩

/-- A default-constructed `maybe` always leaves one object undestroyed: the default value constructed with it. -/
theorem C29_maybe_default_violated (d : α) (os : List (MOp α)) :
    ∃ m m', mrun (mmake (.dflt d)) os = .ret m ∧ dtor m = .ret m' ∧ (m'.cell ≠ none ∨ m'.leaks = 1) := by
  obtain ⟨m, h1, h2⟩ := minv_run os (minv_make (.dflt d))
  have h3 := h2.has
  have h4 := h2.cell
  have h5 := h2.extra
  obtain ⟨has, cell, leaks⟩ := m
  simp only at h3 h4 h5
  cases ho : os.foldl mspec (Init.dflt d).opt with
  | none =>
    rw [ho] at h3 h5
    simp at h3
    subst h3
    refine ⟨_, _, h1, rfl, ?_⟩
    by_cases hc : cell = none
    · right; simpa [hc] using h5
    · left; exact hc
  | some x =>
    rw [ho] at h3 h4 h5
    simp at h3 h5
    subst h3
    have := h4 x rfl
    subst this
    exact ⟨_, _, h1, rfl, .inr h5⟩

/-! `result` -/

inductive ROp (α β : Type) where
  | assign (that : α ⊕ β) | set (v : α) | setError (e : β)

def rstep (r : Result α β) : ROp α β → Outcome (Result α β)
  | .assign t => do let (r, _) ← r.assign t; pure r
  | .set v => r.set v
  | .setError e => r.setError e

def rrun (r : Result α β) : List (ROp α β) → Outcome (Result α β)
  | [] => .ret r
  | o :: os => do let r ← rstep r o; rrun r os

def rspec (_ : α ⊕ β) : ROp α β → α ⊕ β
  | .assign t => t
  | .set v => .inl v
  | .setError e => .inr e

def RInv (r : Result α β) (x : α ⊕ β) : Prop := r = ⟨x.isLeft, some x, 0⟩

theorem rinv_run (os : List (ROp α β)) : ∀ (x : α ⊕ β), rrun ⟨x.isLeft, some x, 0⟩ os =
    .ret ⟨(os.foldl rspec x).isLeft, some (os.foldl rspec x), 0⟩ := by
  induction os with
  | nil => intro x; rfl
  | cons op os ih =>
    intro x
    have : rstep ⟨x.isLeft, some x, 0⟩ op = .ret ⟨(rspec x op).isLeft, some (rspec x op), 0⟩ := by
      cases x <;> cases op with
      | assign t => cases t <;> rfl
      | set v => rfl
      | setError e => rfl
    rw [rrun, this, Outcome.bind_ret, ih]; rfl

/-- After any history a `result` holds what the corresponding sum holds, `get` and `get_error` return it or are reported, and the
    destructor leaves nothing: every value and error held was destroyed exactly once. `e` is the error of a
    default-constructed result. -/
theorem C29_result_is_sum (i : α ⊕ β) (os : List (ROp α β)) :
    ∃ r r', rrun (Result.mk1 i) os = .ret r ∧ r.has = (os.foldl rspec i).isLeft ∧
      r.get = (match os.foldl rspec i with | .inl v => .ret v | .inr _ => .abort) ∧
      r.getError = (match os.foldl rspec i with | .inl _ => .abort | .inr e => .ret e) ∧
      r.dtor = .ret r' ∧ r'.cell = none ∧ r'.leaks = 0 := by
  have h0 : Result.mk1 i = ⟨i.isLeft, some i, 0⟩ := by cases i <;> rfl
  rw [h0, rinv_run os i]
  cases h : os.foldl rspec i <;> exact ⟨_, _, rfl, rfl, rfl, rfl, rfl, rfl, rfl⟩

theorem C29_result_default (e : β) : (Result.mk0 e : Result α β) = Result.mk1 (.inr e) := rfl

/-- The value of an assignment expression between results is undefined, in every reachable state. -/
theorem C29_result_assignment_value_violated (i t : α ⊕ β) (os : List (ROp α β)) :
    ∃ r r', rrun (Result.mk1 i) os = .ret r ∧ r.assign t = .ret (r', .undef) := by
  have h0 : Result.mk1 i = ⟨i.isLeft, some i, 0⟩ := by cases i <;> rfl
  rw [h0, rinv_run os i]
  cases h : os.foldl rspec i <;> cases t <;> exact ⟨_, _, rfl, rfl⟩

example : ∃ m, mrun (mmake (.copy (some 3))) [.set 4, .setNone, .assign (some 5)] = .ret m ∧ get m = .ret 5 := ⟨_, rfl, rfl⟩
example : ∃ r : Result Nat Bool, rrun (Result.mk1 (.inl 3)) [.set 4, .setError true, .assign (.inl 5)] = .ret r ∧ r.get = .ret 5 := ⟨_, rfl, rfl⟩

/-! ## C74 -/

variable {R S : Type} [LinearOrder R] [LinearOrder S]

/-- The six comparisons of pairs are the lexicographic order, and agree with each other. -/
theorem C74_pair_lexicographic (p q : R × S) :
    (pairLt p q = true ↔ toLex p < toLex q) ∧ (pairLe p q = true ↔ toLex p ≤ toLex q) ∧
    (pairGt p q = true ↔ toLex q < toLex p) ∧ (pairGe p q = true ↔ toLex q ≤ toLex p) ∧
    (pairEq p q = true ↔ p = q) ∧ (pairNe p q = true ↔ p ≠ q) := by
  obtain ⟨a, b⟩ := p
  obtain ⟨c, d⟩ := q
  refine ⟨?_, ?_, ?_, ?_, ?_, ?_⟩
  · simp [pairLt, Prod.Lex.toLex_lt_toLex]
  · simp [pairLe, Prod.Lex.toLex_le_toLex]
  · simp [pairGt, Prod.Lex.toLex_lt_toLex, @eq_comm _ c a]
  · simp [pairGe, Prod.Lex.toLex_le_toLex, @eq_comm _ c a]
  · simp [pairEq]
  · simp [pairNe]; tauto

/-- Exactly one of `<`, `==`, `>` holds; `<=`, `>=` and `!=` are their combinations. -/
theorem C74_pair_trichotomy (p q : R × S) :
    (pairLe p q = (pairLt p q || pairEq p q)) ∧ (pairGe p q = (pairGt p q || pairEq p q)) ∧ (pairNe p q = !pairEq p q) ∧
    (pairLt p q || pairEq p q || pairGt p q) = true ∧ ¬ (pairLt p q = true ∧ pairGt p q = true) ∧
    ¬ (pairLt p q = true ∧ pairEq p q = true) ∧ ¬ (pairGt p q = true ∧ pairEq p q = true) := by
  obtain ⟨h1, h2, h3, h4, h5, h6⟩ := C74_pair_lexicographic p q
  have e : p = q ↔ toLex p = toLex q := by simp
  rw [e] at h5
  rw [ne_eq, e] at h6
  refine ⟨?_, ?_, ?_, ?_, ?_, ?_, ?_⟩
  · rw [Bool.eq_iff_iff, Bool.or_eq_true, h1, h2, h5, le_iff_lt_or_eq]
  · rw [Bool.eq_iff_iff, Bool.or_eq_true, h3, h4, h5, le_iff_lt_or_eq, eq_comm]
  · rw [Bool.eq_iff_iff, Bool.not_eq_true', ← Bool.not_eq_true, h5, h6]
  · rw [Bool.or_eq_true, Bool.or_eq_true, h1, h3, h5]
    rcases lt_trichotomy (toLex p) (toLex q) with h | h | h
    · exact .inl (.inl h)
    · exact .inl (.inr h)
    · exact .inr h
  · rw [h1, h3]; exact fun h => lt_asymm h.1 h.2
  · rw [h1, h5]; exact fun h => ne_of_lt h.1 h.2
  · rw [h3, h5]; exact fun h => ne_of_gt h.1 h.2

example : pairLt ((1, 2) : Nat × Nat) (1, 3) = true ∧ pairGt ((2, 0) : Nat × Nat) (1, 3) = true := by decide

end Verif.Maybe
