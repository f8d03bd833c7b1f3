import Verif.Model.Coroutine
/-
Where control is among coroutines, from the history alone.
-/
namespace Verif.Spec.Coroutine
open Verif.Model.Coroutine (Op)

/-- Who did what. -/
structure Ev where
  actor : Nat
  op : Op
  deriving DecidableEq

/-- A history, the latest first. -/
abbrev Hist := List Ev

/-- Does this event resume `c` (from another coroutine)? -/
def resumes (c : Nat) (e : Ev) : Bool :=
  (e.op = .resume c || e.op = .prime c) && e.actor ≠ c

/-- The coroutines that resumed `c`, the latest first. -/
def resumers (h : Hist) (c : Nat) : List Nat := (h.filter (resumes c)).map (·.actor)

/-- `c` has begun: it is the thread's own, or it was resumed. -/
def begun (h : Hist) (c : Nat) : Bool := c = 0 || !(resumers h c).isEmpty

/-- The main of `c` has returned, or `c` has been unwound to the end. -/
def ended (h : Hist) (c : Nat) : Bool := h.any fun e => e.actor = c && e.op = .ret

def cancelled (h : Hist) (c : Nat) : Bool := h.any fun e => e.actor = c && e.op = .cancel

/-- Who destroyed `c`. -/
def deleter (h : Hist) (c : Nat) : Option Nat := (h.find? fun e => e.op = .delete c).map (·.actor)

/-- The last thing `c` did. -/
def latest (h : Hist) (c : Nat) : Option Op := (h.find? fun e => e.actor = c).map (·.op)

structure SSt where
  hist : Hist
  active : Nat
  raised : List (Nat × Nat)

/-- Control goes to `c`, if `c` exists and has not ended. -/
def goto (h : Hist) : Option Nat → Option Nat
  | none => none
  | some c => if ended h c then none else some c

/-- Who is active after `a` does `op`; `none`: the program stops with an error.
 - resume goes to the coroutine resumed, and not to one that has ended;
 - prime comes back;
 - suspend goes to the latest resumer;
 - the end of a main goes to the first resumer;
 - the end of an unwinding goes to who asked for the destruction, or to the latest resumer of a
   cancelled coroutine;
 - destroying a coroutine that has begun and not ended goes to it, for its clean-up. -/
def next (h : Hist) (a : Nat) : Op → Option Nat
  | .resume d => goto h (some d)
  | .resumePtr d => goto h (some d)
  | .prime d => if begun h d then none else some a
  | .suspend => goto h (resumers h a).head?
  | .ret =>
    let h' := ⟨a, .ret⟩ :: h
    if cancelled h a then goto h' (resumers h a).head?
    else match deleter h a with
      | some b => goto h' (some b)
      | none => goto h' (resumers h a).getLast?
  | .cancel => if a = 0 then none else some a
  | .delete d =>
    if begun h d && !ended h d then (if d = a then none else some d) else some a
  | _ => some a

/-- The end of a cancelled coroutine raises an exception in its latest resumer. -/
def raises (h : Hist) (a : Nat) : Op → List (Nat × Nat)
  | .ret => if cancelled h a then ((resumers h a).head?.map fun b => (b, a)).toList else []
  | _ => []

def sstep (s : SSt) (op : Op) : Option SSt :=
  (next s.hist s.active op).map fun b =>
    { hist := ⟨s.active, op⟩ :: s.hist, active := b, raised := s.raised ++ raises s.hist s.active op }

/-- Being unwound: destroyed or cancelled, and not at the end. -/
def unwinding (h : Hist) (c : Nat) : Bool :=
  !ended h c && (cancelled h c || (deleter h c).isSome)

/-- What the operation acts on. -/
def target : Op → Option Nat
  | .resume d => some d
  | .resumePtr d => some d
  | .prime d => some d
  | .delete d => some d
  | _ => none

/-- The operations covered by the theorem:
 - resume is of a coroutine object, not of a `coroutine$ *`;
 - a destroyed coroutine is not used;
 - a coroutine that is being unwound only finishes that;
 - when a cancelled coroutine ends, its latest resumer is still waiting in that resume;
 - the end of the thread's own main, and its destruction, are not considered. -/
def Orderly (h : Hist) (a : Nat) (op : Op) : Prop :=
  (∀ d, op ≠ .resumePtr d) ∧
  (∀ d, target op = some d → deleter h d = none) ∧
  (unwinding h a = true → target op = none ∧ op ≠ .suspend ∧ op ≠ .cancel) ∧
  (op = .ret → cancelled h a = true → ∀ b, (resumers h a).head? = some b →
    latest h b = some (.resume a)) ∧
  (op = .ret → a ≠ 0) ∧ op ≠ .delete 0

/-- All operations are orderly, up to an error. -/
def AllOrderly (s : SSt) : List Op → Prop
  | [] => True
  | op :: ops => Orderly s.hist s.active op ∧ ∀ s', sstep s op = some s' → AllOrderly s' ops

def srunFrom (s : SSt) : List Op → Option SSt
  | [] => some s
  | op :: ops => (sstep s op).bind fun s' => srunFrom s' ops

def sinit : SSt := ⟨[], 0, []⟩

def srun (ops : List Op) : Option SSt := srunFrom sinit ops

/-- The exceptions sent to `c`, in order. -/
def sentTo (ops : List Op) (c : Nat) : List Nat :=
  ops.filterMap fun | .resumeAt d x => if d = c then some x else none | _ => none

/-- The exceptions raised in `c` by its polls, in order. -/
def raisedIn (s : Verif.Model.Coroutine.Sys) (c : Nat) : List Nat :=
  (s.nonlocal.filter fun p => p.1 = c).map (·.2)

/-- What `c` last said about being enabled; at first it is not. -/
def enabledIn (h : Hist) (c : Nat) : Bool :=
  (h.findSome? fun e => match e.op with
    | .enable b => if e.actor = c then some b else none
    | _ => none).getD false

/-- The run, with who did what. -/
def traceFrom (s : Verif.Model.Coroutine.Sys) (h : Hist) :
    List Op → Option (Verif.Model.Coroutine.Sys × Hist)
  | [] => some (s, h)
  | op :: ops =>
    (Verif.Model.Coroutine.step s op).bind fun s' => traceFrom s' (⟨s.curr, op⟩ :: h) ops

end Verif.Spec.Coroutine
