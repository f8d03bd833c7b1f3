import Verif.Model.SmartPtr
/-! What smart pointers promise. -/

namespace Verif.SmartPtr

/-- A pointer that is a variable: not part of an object. -/
def Var (st : St) (s : Nat) : Prop := (st.slot s).isSome ∧ ∀ a o, st.obj a = some o → s ∉ o.mems

/-- The object can be reached from the pointers in `R` without following the pointer `ex`. -/
inductive Held (st : St) (R : Nat → Prop) (ex : Nat) : Nat → Prop
  | var {s a : Nat} : R s → s ≠ ex → st.slot s = some a → a ≠ 0 → Held st R ex a
  | mem {b s a : Nat} {o : Obj} : Held st R ex b → st.obj b = some o → s ∈ o.mems → s ≠ ex → st.slot s = some a → a ≠ 0 → Held st R ex a

/-- The pointer is a variable, or in an object that can be reached from the variables without following the pointer `ex`. -/
def Access (st : St) (ex s : Nat) : Prop := Var st s ∨ ∃ b o, Held st (Var st) ex b ∧ st.obj b = some o ∧ s ∈ o.mems

/-- How many pointers point to an object. -/
def ptrs (st : St) (a : Nat) : Nat := ((List.range st.fresh).filter fun s => st.slot s = some a).length

/-- The operation can be written: its pointers exist, and the one that is changed can be reached without following it. -/
def Legal (st : St) : Op → Prop
  | .null | .new _ => True
  | .copy t => (st.slot t).isSome
  | .assign s t => Access st s s ∧ (st.slot t).isSome
  | .zero s => Access st s s
  | .destroy s => Var st s

def ULegal (st : St) : UOp → Prop
  | .null | .new _ => True
  | .move s t => s ≠ t ∧ Access st s s ∧ Access st s t
  | .zero s => Access st s s
  | .release s => (st.slot s).isSome
  | .destroy s => Var st s

/-- No object has too many pointers to it. -/
def Few (st : St) : Prop := ∀ a, a ≠ 0 → ptrs st a + 2 < 2 ^ 32

/-- The states that are reached by operations on `counter_ptr`, each in a state that satisfies `P`. -/
inductive Hist (P : St → Prop) : St → Prop
  | init : Hist P init
  | step {st st' : St} {op : Op} : Hist P st → Legal st op → P st → exec op st = .ok st' → Hist P st'

/-- The states that are reached by operations on `unique_ptr`. -/
inductive UHist : St → Prop
  | init : UHist init
  | step {st st' : St} {op : UOp} : UHist st → ULegal st op → uexec op st = .ok st' → UHist st'

/-- No pointer dangles; an object exists exactly as long as a pointer points to it; an object that was constructed exists or was destroyed, not both, and was not destroyed twice. -/
structure Good (st : St) : Prop where
  points : ∀ s v, st.slot s = some v → v ≠ 0 → (st.obj v).isSome
  owned : ∀ a, (st.obj a).isSome → ∃ s, st.slot s = some a
  made : ∀ a, (st.obj a).isSome → a ∈ st.made
  once : st.log.Nodup
  destroyed : ∀ a, a ∈ st.log ↔ a ∈ st.made ∧ st.obj a = none

/-- What an operation leaves alone: the pointers other than `s` that exist afterwards are unchanged, variables other than `s` still exist, and objects have their members. -/
structure Frame (s : Nat) (st st' : St) : Prop where
  same : ∀ r v, r ≠ s → r < st.fresh → st'.slot r = some v → st.slot r = some v
  vars : ∀ r, r ≠ s → Var st r → st'.slot r = st.slot r
  mems : ∀ a o, a < st.fresh → st'.obj a = some o → ∃ o', st.obj a = some o' ∧ o'.mems = o.mems

/-- What an operation does. -/
def Effect (st st' : St) : Op → Prop
  | .null => st' = newNull st
  | .new k => st' = newObj k st
  | .copy t => st'.slot st.fresh = st.slot t ∧ Frame st.fresh st st' ∧ st'.log = st.log
  | .assign s t => st'.slot s = st.slot t ∧ Frame s st st'
  | .zero s => st'.slot s = some 0 ∧ Frame s st st'
  | .destroy s => st'.slot s = none ∧ Frame s st st'

def UEffect (st st' : St) : UOp → Prop
  | .null => st' = newNull st
  | .new k => st' = newObj k st
  | .move s t => st'.slot s = st.slot t ∧ st'.slot t = some 0 ∧ ∀ r, r ≠ s → r ≠ t → Var st r → st'.slot r = st.slot r
  | .zero s => st'.slot s = some 0 ∧ Frame s st st'
  | .release s => st'.slot st.fresh = st.slot s ∧ st'.slot s = some 0 ∧ st'.obj = st.obj ∧ st'.log = st.log ∧ ∀ r, r ≠ s → r < st.fresh → st'.slot r = st.slot r
  | .destroy s => st'.slot s = none ∧ Frame s st st'

end Verif.SmartPtr
