import Verif.Model.PthreadTsd

/-! What POSIX says of thread-specific data, in terms of the calls made and their answers (the latest
first). -/
namespace Verif.Spec.PthreadTsd

open Verif.Model.PthreadTsd

/-- The key exists, with this destructor. -/
def live : Trace → Nat → Option (Option Nat)
  | [], _ => none
  | (.create d, .key k') :: tr, k => if k = k' then some d else live tr k
  | (.delete k', .code 0) :: tr, k => if k = k' then none else live tr k
  | _ :: tr, k => live tr k

/-- The value of the key in thread `t`: the last set, since the key was made. -/
def held : Trace → Nat → Nat → Nat
  | [], _, _ => 0
  | (.create _, .key k') :: tr, t, k => if k = k' then 0 else held tr t k
  | (.delete k', .code 0) :: tr, t, k => if k = k' then 0 else held tr t k
  | (.set t' k' v, .code 0) :: tr, t, k => if t = t' ∧ k = k' then v else held tr t k
  | _ :: tr, t, k => held tr t k

/-- This joins `t`. -/
def joins (x : Op × Res) (t : Nat) : Bool :=
  match x with
  | (.join _ t', .joined _) => decide (t = t')
  | (.tryjoin _ t', .joined _) => decide (t = t')
  | _ => false

/-- What came before `t` was joined. -/
def atJoin : Trace → Nat → Trace
  | [], _ => []
  | x :: tr, t => if joins x t then tr else atJoin tr t

def joined (tr : Trace) (t : Nat) : Prop := ∃ x ∈ tr, joins x t = true

def deletes (x : Op × Res) : Bool :=
  match x with
  | (.delete _, .code 0) => true
  | _ => false

/-- No key was deleted since `t` was joined. -/
def noDelete : Trace → Nat → Prop
  | [], _ => True
  | x :: tr, t => if joins x t then True else deletes x = false ∧ noDelete tr t

/-- `t` has ended, by returning or calling `pthread_exit` with `v`. -/
def exited (tr : Trace) (t : Nat) : Prop := ∃ v c r, (Op.exit t v c, r) ∈ tr

/-- The last value a thread ended with. -/
def result : Trace → Nat → Nat
  | [], _ => 0
  | (.exit t' v _, _) :: tr, t => if t = t' then v else result tr t
  | _ :: tr, t => result tr t

/-- What a program may do: threads are made once, end once, do nothing after they have ended, and
nobody touches a thread after it was joined. -/
def allowed (tr : Trace) : Op → Prop
  | .spawn t _ => ∀ b r, (Op.spawn t b, r) ∉ tr
  | .exit t _ _ => ¬ exited tr t
  | .set t _ _ => ¬ exited tr t
  | .get t _ => ¬ exited tr t
  | .join _ t => ¬ joined tr t
  | .tryjoin _ t => ¬ joined tr t
  | _ => True

def Legal : Trace → Prop
  | [] => True
  | (op, _) :: tr => allowed tr op ∧ Legal tr

/-- The answers to calls about keys and values. -/
def Right (N : Nat) (tr : Trace) : Op → Res → Prop
  | .create _, r =>
      (∃ k, r = .key k ∧ k < N ∧ live tr k = none) ∨
      (r = .code EAGAIN ∧ ∀ k, k < N → live tr k ≠ none)
  | .delete k, r => r = .code (if live tr k = none then EINVAL else 0)
  | .set _ k _, r => r = .code (if live tr k = none then EINVAL else 0)
  | .get t k, r => r = .val (held tr t k)
  | _, _ => True

/-- In ending `t`, the destructor `d` was called for the value `v` of key `k`. -/
def called (tr : Trace) (t k d v : Nat) : Prop := ∃ j, (Op.tick t, Res.called k d v j) ∈ tr

end Verif.Spec.PthreadTsd
