import Verif.Proof.Stack
/-!
C18: intrusive stacks behave as lists used as stacks.

Specification: a family `A` of lists of nodes, one per stack, top first. `Spec A op A' r` says what a call does to the
lists and what it returns, under the documented preconditions (a node pushed is not null and on no stack). Null is node 0.
-/
namespace Verif.Stack
open Verif

/-- What each call means for the lists. -/
inductive Spec (A : Nat → List Nat) : Op → (Nat → List Nat) → Res → Prop
  | push (q n) : n ≠ 0 → (∀ q', n ∉ A q') → Spec A (.push q n) (upd A q (n :: A q)) .unit
  | pop (q) : Spec A (.pop q) (upd A q (A q).tail) (.node ((A q).headD 0))
  | top (q) : Spec A (.top q) A (.node ((A q).headD 0))
  | iterate (q) : Spec A (.iterate q) A (.nodes (A q))
  | iterateFrom (q n l1 l2) : A q = l1 ++ n :: l2 → Spec A (.iterateFrom q n) A (.nodes (n :: l2))
  | empty (q) : Spec A (.empty q) A (.bool (A q).isEmpty)
  | listed_yes (q n) : n ∈ A q → Spec A (.listed n) A (.bool true)
  | listed_no (n) : n ≠ 0 → (∀ q, n ∉ A q) → Spec A (.listed n) A (.bool false)

/-- A history of calls on the lists, with the values returned. -/
inductive SpecRun : (Nat → List Nat) → List Op → (Nat → List Nat) → List Res → Prop
  | nil (A) : SpecRun A [] A []
  | cons (A o A' r os A'' rs) : Spec A o A' r → SpecRun A' os A'' rs → SpecRun A (o :: os) A'' (r :: rs)

theorem step_spec {A A' : Nat → List Nat} {o : Op} {r : Res} (hs : Spec A o A' r) :
    ∃ F, ∀ s, Inv s A → ∀ dbg fuel, F ≤ fuel → ∃ s', step dbg fuel s o = .ret (s', r) ∧ Inv s' A' := by
  cases hs with
  | push q n hn hu =>
    refine ⟨0, fun s h dbg fuel _ => ?_⟩
    obtain ⟨s', h1, h2⟩ := push_spec dbg h (q := q) hn hu
    exact ⟨s', by simp [step, h1], h2⟩
  | pop q =>
    refine ⟨0, fun s h dbg fuel _ => ?_⟩
    obtain ⟨s', h1, h2⟩ := pop_spec h q
    exact ⟨s', by simp [step, h1], h2⟩
  | top q => exact ⟨0, fun s h dbg fuel _ => ⟨s, by rw [← h.root]; rfl, h⟩⟩
  | iterate q =>
    refine ⟨(A q).length + 1, fun s h dbg fuel hf => ⟨s, ?_, h⟩⟩
    have := iterate_spec h (q := q) [] (A q) rfl fuel (by omega)
    simp only [step, Stack.top, h.root, this, Outcome.bind_ret, Outcome.pure_eq]
  | iterateFrom q n l1 l2 hA =>
    refine ⟨(n :: l2).length + 1, fun s h dbg fuel hf => ⟨s, ?_, h⟩⟩
    have : iterate s fuel n = _ := iterate_spec h (q := q) l1 (n :: l2) hA fuel (by omega)
    simp only [step, this, Outcome.bind_ret, Outcome.pure_eq]
  | empty q =>
    refine ⟨0, fun s h dbg fuel _ => ⟨s, ?_, h⟩⟩
    have : empty s q = (A q).isEmpty := by
      rw [Bool.eq_iff_iff, List.isEmpty_iff, ← h.headNe q]; simp [Stack.empty]
    simp [step, this]
  | listed_yes q n hn =>
    refine ⟨0, fun s h dbg fuel _ => ⟨s, ?_, h⟩⟩
    have := (h.listed n).2 ⟨q, hn⟩
    simp [step, listed, rd, h.ne0 hn, this]
  | listed_no n hn hu =>
    refine ⟨0, fun s h dbg fuel _ => ⟨s, ?_, h⟩⟩
    simp [step, listed, rd, hn, h.unlisted hu]

theorem run_spec {A A' : Nat → List Nat} {os : List Op} {rs : List Res} (hs : SpecRun A os A' rs) :
    ∃ F, ∀ s, Inv s A → ∀ dbg fuel, F ≤ fuel → ∃ s', run dbg fuel s os = .ret (s', rs) ∧ Inv s' A' := by
  induction hs with
  | nil A => exact ⟨0, fun s h dbg fuel _ => ⟨s, rfl, h⟩⟩
  | cons A o A' r os A'' rs h1 _ ih =>
    obtain ⟨F1, hF1⟩ := step_spec h1
    obtain ⟨F2, hF2⟩ := ih
    refine ⟨max F1 F2, fun s h dbg fuel hf => ?_⟩
    obtain ⟨s', h2, h3⟩ := hF1 s h dbg fuel (by omega)
    obtain ⟨s'', h4, h5⟩ := hF2 s' h3 dbg fuel (by omega)
    exact ⟨s'', by simp [run, h2, h4], h5⟩

theorem init_inv : Inv St.init (fun _ => []) := by
  constructor <;> simp [St.init]

/-- Every history of calls respecting the preconditions, from empty stacks, runs without undefined behaviour or debug
    abort and returns exactly what the same calls return on lists used as stacks. -/
theorem C18_stack_is_list (os : List Op) (A : Nat → List Nat) (rs : List Res) (h : SpecRun (fun _ => []) os A rs) :
    ∃ F, ∀ dbg fuel, F ≤ fuel → ∃ s, run dbg fuel St.init os = .ret (s, rs) := by
  obtain ⟨F, hF⟩ := run_spec h
  refine ⟨F, fun dbg fuel hf => ?_⟩
  obtain ⟨s, h1, _⟩ := hF St.init init_inv dbg fuel hf
  exact ⟨s, h1⟩

/-- In debug builds pushing a node that is on a stack aborts. -/
theorem C18_debug_check (os : List Op) (A : Nat → List Nat) (rs : List Res) (h : SpecRun (fun _ => []) os A rs) :
    ∃ F, ∀ fuel, F ≤ fuel → ∃ s, run true fuel St.init os = .ret (s, rs) ∧
      ∀ q q' n, n ∈ A q' → push true s q n = .abort := by
  obtain ⟨F, hF⟩ := run_spec h
  refine ⟨F, fun fuel hf => ?_⟩
  obtain ⟨s, h1, hi⟩ := hF St.init init_inv true fuel hf
  refine ⟨s, h1, fun q q' n hn => ?_⟩
  have h1 := (hi.listed n).2 ⟨q', hn⟩
  simp [push, check, listed, rd, hi.ne0 hn, h1]

/-- A history that pushes and pops on two stacks meets the hypotheses. -/
example : ∃ A, SpecRun (fun _ => []) [.push 1 10, .push 1 11, .push 2 12, .pop 1, .push 2 11, .iterate 2, .pop 1, .pop 1] A
    [.unit, .unit, .unit, .node 11, .unit, .nodes [11, 12], .node 10, .node 0] :=
  ⟨_, .cons _ _ _ _ _ _ _ (.push 1 10 (by decide) (by simp)) <|
    .cons _ _ _ _ _ _ _ (.push 1 11 (by decide) (by intro q; rw [upd_apply]; split <;> simp)) <|
    .cons _ _ _ _ _ _ _ (.push 2 12 (by decide) (by intro q; simp only [upd_apply]; split <;> simp)) <|
    .cons _ _ _ _ _ _ _ (.pop 1) <|
    .cons _ _ _ _ _ _ _ (.push 2 11 (by decide) (by
      intro q; simp only [upd_apply]; split
      · simp
      · split <;> simp)) <|
    .cons _ _ _ _ _ _ _ (.iterate 2) <|
    .cons _ _ _ _ _ _ _ (.pop 1) <|
    .cons _ _ _ _ _ _ _ (.pop 1) <|
    .nil _⟩

end Verif.Stack
