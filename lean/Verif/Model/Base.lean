/-!
Common outcome type of modelled functions.
-/
namespace Verif

/-- Outcome of running a function of the code: it returns a value, it calls `abort`
    (or fails an always-compiled assertion), or it runs into undefined behaviour of C
    (division by zero, out-of-range access, over-wide shift, ...). -/
inductive Outcome (α : Type u) where
  | ret (a : α)
  | abort
  | undef
  deriving DecidableEq, Repr

namespace Outcome

/-- Sequencing: abort and undefined behaviour propagate. -/
def bind {α β} (x : Outcome α) (f : α → Outcome β) : Outcome β :=
  match x with
  | ret a => f a
  | abort => abort
  | undef => undef

instance : Monad Outcome where
  pure := ret
  bind := bind

@[simp] theorem bind_ret {α β} (a : α) (f : α → Outcome β) : (Outcome.ret a >>= f) = f a := rfl
@[simp] theorem bind_abort {α β} (f : α → Outcome β) : ((Outcome.abort : Outcome α) >>= f) = .abort := rfl
@[simp] theorem bind_undef {α β} (f : α → Outcome β) : ((Outcome.undef : Outcome α) >>= f) = .undef := rfl
@[simp] theorem pure_eq {α} (a : α) : (pure a : Outcome α) = .ret a := rfl

end Outcome

/-- C integer division on mathematical integers: truncation toward zero, undefined for a zero divisor. -/
def cdiv (a b : Int) : Outcome Int := if b = 0 then .undef else .ret (a.tdiv b)

/-- C remainder on mathematical integers: sign of the dividend, undefined for a zero divisor. -/
def cmod (a b : Int) : Outcome Int := if b = 0 then .undef else .ret (a.tmod b)

end Verif
