import Verif.Proof.SmartPtr
/-! C90: smart pointers keep their object exactly as long as it is needed. -/

namespace Verif.SmartPtr

/-- C90 for `counter_ptr`, up to 2^32 - 3 pointers to an object: after any history of operations no pointer dangles, an object exists exactly as long as some pointer points to it, and every object is
    destroyed at most once, at the moment it ceases to exist; and every operation whose target can be reached without following the target itself succeeds, ends, has the effect it says and
    changes no other variable. -/
theorem C90_counter_partial {st : St} (h : Hist Few st) :
    Good st ∧ ∀ op, Legal st op → Few st → ∃ st', exec op st = .ok st' ∧ Good st' ∧ Effect st st' op := by
  refine ⟨(hist_inv h).good, fun op hl hf => ?_⟩
  obtain ⟨st', e, hi, he⟩ := exec_inv (hist_inv h) hl hf
  exact ⟨st', e, hi.good, he⟩

/-- C90 for `unique_ptr`: after any history of operations every object has exactly one pointer, no pointer dangles, and every object is destroyed at most once, at the moment it ceases to exist;
    and every operation whose pointers can be reached without following the one that is changed succeeds, ends and has the effect it says. -/
theorem C90_unique_partial {st : St} (h : UHist st) :
    Good st ∧ (∀ a s r, a ≠ 0 → st.slot s = some a → st.slot r = some a → s = r) ∧ ∀ op, ULegal st op → ∃ st', uexec op st = .ok st' ∧ Good st' ∧ UEffect st st' op := by
  refine ⟨(uhist_inv h).1.good, fun a s r ha hs hr => (uhist_inv h).unique ha hs hr, fun op hl => ?_⟩
  obtain ⟨st', e, hi, he⟩ := uexec_inv (uhist_inv h) hl
  exact ⟨st', e, hi.1.good, he⟩

/-- An object is destroyed when its last pointer goes: nothing is kept longer than a pointer points to it. -/
theorem C90_last {st st' : St} {s a : Nat} (h : Hist Few st) (hs : Var st s) (ha : st.slot s = some a) (h0 : a ≠ 0) (hl : ∀ r, st.slot r = some a → r = s) (he : exec (.destroy s) st = .ok st') :
    a ∈ st'.log ∧ st'.obj a = none := by
  obtain ⟨st2, e, hi, k, hn⟩ := destroy_inv (hist_inv h) hs
  rw [show exec (.destroy s) st = destroy decrement s st from rfl, e] at he
  cases he
  have hno : st'.obj a = none := by
    cases g : st'.obj a with
    | none => rfl
    | some o =>
      obtain ⟨r, hr⟩ := hi.good.owned a (by rw [g]; rfl)
      have := hl r (k.same r a hr)
      subst this
      rw [hn] at hr; cases hr
  refine ⟨hi.madelog a ?_ hno, hno⟩
  obtain ⟨o, ho⟩ := Option.isSome_iff_exists.1 ((hist_inv h).good.points s a ha h0)
  rw [k.made]
  exact (hist_inv h).objmade a o ho

/-- The states of a sequence of operations. -/
def runOps : List Op → St → Out
  | [], st => .ok st
  | op :: ops, st => (exec op st).bind (runOps ops)

def runUOps : List UOp → St → Out
  | [], st => .ok st
  | op :: ops, st => (uexec op st).bind (runUOps ops)

/-- What can be seen of a state: the pointers, the objects and the destroyed objects. -/
def seen : Out → Option (List (Option Nat) × List Bool × List Nat)
  | .ok st => some ((List.range st.fresh).map st.slot, (List.range st.fresh).map fun a => (st.obj a).isSome, st.log)
  | _ => none

def isBad : Out → Bool
  | .bad => true
  | _ => false

/-- C90 fails: the counter of a `counter_ptr` is an `unsigned int` that wraps: with 2^32 + 1 pointers to an object, destroying one of them deletes the object and leaves 2^32 pointers to freed memory. -/
theorem C90_counter_violated : ∃ st st', Hist (fun _ => True) st ∧ Legal st (.destroy 2) ∧ exec (.destroy 2) st = .ok st' ∧
    ∀ s, 3 ≤ s → s < 2 ^ 32 + 3 → st'.slot s = some 1 ∧ st'.obj 1 = none := by
  obtain ⟨st', h1, h2, h3⟩ := many_destroy (n := 2 ^ 32) (by omega)
  refine ⟨many (2 ^ 32), st', many_hist _, many_var _, h1, fun s hs hl => ⟨?_, h2⟩⟩
  rw [h3 s (by omega)]
  simp only [many]
  rw [if_pos (by omega)]

/-- C90 fails: `r.next = 0`, where the pointer `next` in the object `r` is the last pointer to `r` itself, deletes `r` and then writes to it. -/
theorem C90_self_violated : ∃ ops, isBad (runOps ops init) = false ∧ isBad (runOps (ops ++ [.zero 2]) init) = true :=
  ⟨[.new 1, .assign 2 3, .destroy 3], by decide +kernel⟩

/-- C90 fails: `move(head, head->next)`, which takes the first node off a list of `unique_ptr`, deletes the node, and with it the rest of the list, and then reads the pointer in it. -/
theorem C90_pop_violated : ∃ ops, isBad (runUOps ops init) = false ∧ isBad (runUOps (ops ++ [.move 3 2]) init) = true :=
  ⟨[.new 1, .new 1, .move 2 6], by decide +kernel⟩

/-- C90 fails: `move(x, x)` destroys the object and leaves a null pointer. -/
theorem C90_move_violated : seen (runUOps [.new 0] init) = some ([none, none, some 1], [false, true, false], []) ∧
    seen (runUOps [.new 0, .move 2 2] init) = some ([none, none, some 0], [false, false, false], [1]) := by
  decide +kernel

/-- A list of three nodes of `counter_ptr` from which the first is taken by `head = head->next`, and which is then dropped. -/
example : seen (runOps [.new 1, .new 1, .new 1, .assign 2 6, .assign 5 9, .destroy 9, .destroy 6] init) =
      some ([none, none, some 4, some 1, none, some 7, none, none, some 0, none, none, none], [false, true, false, false, true, false, false, true, false, false, false, false], []) ∧
    seen (runOps [.new 1, .new 1, .new 1, .assign 2 6, .assign 5 9, .destroy 9, .destroy 6, .assign 3 2] init) =
      some ([none, none, none, some 4, none, some 7, none, none, some 0, none, none, none, none], [false, false, false, false, true, false, false, true, false, false, false, false, false], [1]) ∧
    seen (runOps [.new 1, .new 1, .new 1, .assign 2 6, .assign 5 9, .destroy 9, .destroy 6, .assign 3 2, .zero 3] init) =
      some ([none, none, none, some 0, none, none, none, none, none, none, none, none, none], List.replicate 13 false, [7, 4, 1]) := by
  decide +kernel

/-- The hypotheses of the theorems hold in a state with a node, its pointer and a second pointer to it. -/
example : ∃ st, Hist Few st ∧ Few st ∧ Legal st (.assign 3 2) ∧ Legal st (.zero 2) ∧ st.slot 3 = some 1 := by
  have few : ∀ st : St, st.fresh ≤ 5 → Few st := fun st h a _ => by
    have := List.length_filter_le (fun s => decide (st.slot s = some a)) (List.range st.fresh)
    simp only [ptrs, List.length_range] at *
    omega
  have h1 : Hist Few (newObj 1 init) := .step .init (op := .new 1) trivial (few _ (by simp [init])) rfl
  have v3 : Var (newObj 1 init) 3 := by
    refine ⟨by simp [newObj, init], fun a o ho => ?_⟩
    simp only [newObj, init, upd] at ho
    split at ho
    · cases ho; decide
    · cases ho
  have hs : (newObj 1 init).slot 3 = some 1 := by simp [newObj, init]
  refine ⟨newObj 1 init, h1, few _ (by simp [newObj, init]), ⟨.inl v3, by simp [newObj, init]⟩, .inr ⟨1, ⟨1, [2]⟩, .var v3 (by omega) hs (by omega), ?_, by simp⟩, hs⟩
  simp [newObj, init, upd, List.range_succ]

example : ∃ st, UHist st ∧ ULegal st (.move 2 6) ∧ st.slot 6 = some 4 := by
  have h1 : UHist (newObj 1 (newObj 1 init)) := .step (.step .init (op := .new 1) trivial rfl) (op := .new 1) trivial rfl
  have v : ∀ s, s = 3 ∨ s = 6 → Var (newObj 1 (newObj 1 init)) s := by
    rintro s (rfl | rfl)
    all_goals
      refine ⟨by simp [newObj, init], fun a o ho => ?_⟩
      simp only [newObj, init, upd] at ho
      split at ho
      · cases ho; decide
      · split at ho
        · cases ho; decide
        · cases ho
  have hs : (newObj 1 (newObj 1 init)).slot 3 = some 1 := by simp [newObj, init]
  have acc : Access (newObj 1 (newObj 1 init)) 2 2 := .inr ⟨1, ⟨1, [2]⟩, .var (v 3 (.inl rfl)) (by omega) hs (by omega), by simp [newObj, init, upd, List.range_succ], by simp⟩
  exact ⟨_, h1, ⟨by omega, acc, .inl (v 6 (.inr rfl))⟩, by simp [newObj, init]⟩

end Verif.SmartPtr
