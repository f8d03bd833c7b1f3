import Verif.Proof.Queue
/-!
C17: intrusive queues behave as lists of nodes.

Specification: a family `A` of lists of nodes, one per queue. `Spec A op A' r` says what a call does to the lists and
what it returns; its premises are the documented preconditions of the call (a node added is not null and on no queue, a
node removed or split at is on the queue, the two queues of `transfer` and `split` differ). Null is node 0, and queue
number 0 is the local queue of `split`, not available to callers.
-/
namespace Verif.Queue
open Verif

/-- What each call means for the lists. -/
inductive Spec (A : Nat → List Nat) : Op → (Nat → List Nat) → Res → Prop
  | addHead (q n) : q ≠ 0 → n ≠ 0 → (∀ q', n ∉ A q') → Spec A (.addHead q n) (upd A q (n :: A q)) .unit
  | addTail (q n) : q ≠ 0 → n ≠ 0 → (∀ q', n ∉ A q') → Spec A (.addTail q n) (upd A q (A q ++ [n])) .unit
  | dropHead (q) : q ≠ 0 → Spec A (.dropHead q) (upd A q (A q).tail) (.node ((A q).headD 0))
  | dropTail (q) : q ≠ 0 → Spec A (.dropTail q) (upd A q (A q).dropLast) (.node ((A q).getLastD 0))
  | remove (q n) : q ≠ 0 → n ∈ A q → Spec A (.remove q n) (upd A q ((A q).erase n)) .unit
  | transfer (q f) : q ≠ 0 → f ≠ 0 → q ≠ f → Spec A (.transfer q f) (upd (upd A q (A q ++ A f)) f []) .unit
  | split (q f n l1 l2) : q ≠ 0 → f ≠ 0 → q ≠ f → A f = l1 ++ n :: l2 →
      Spec A (.split q f n) (upd (upd A f l2) q (A q ++ (l1 ++ [n]))) .unit
  | head (q) : q ≠ 0 → Spec A (.head q) A (.node ((A q).headD 0))
  | tail (q) : q ≠ 0 → Spec A (.tail q) A (.node ((A q).getLastD 0))
  | succ (q n l1 l2) : A q = l1 ++ n :: l2 → Spec A (.succ q n) A (.node (l2.headD 0))
  | iterate (q) : q ≠ 0 → Spec A (.iterate q) A (.nodes (A q))
  | empty (q) : q ≠ 0 → Spec A (.empty q) A (.bool (A q).isEmpty)
  | listed_yes (q n) : n ∈ A q → Spec A (.listed n) A (.bool true)
  | listed_no (n) : n ≠ 0 → (∀ q, n ∉ A q) → Spec A (.listed n) A (.bool false)

/-- A history of calls on the lists, with the values returned. -/
inductive SpecRun : (Nat → List Nat) → List Op → (Nat → List Nat) → List Res → Prop
  | nil (A) : SpecRun A [] A []
  | cons (A o A' r os A'' rs) : Spec A o A' r → SpecRun A' os A'' rs → SpecRun A (o :: os) A'' (r :: rs)

theorem step_spec {A A' : Nat → List Nat} {o : Op} {r : Res} (h0 : A 0 = []) (hs : Spec A o A' r) :
    A' 0 = [] ∧ ∃ F, ∀ s, Inv s A → ∀ dbg fuel, F ≤ fuel → ∃ s', step dbg fuel s o = .ret (s', r) ∧ Inv s' A' := by
  cases hs with
  | addHead q n hq hn hu =>
    refine ⟨by rw [upd_ne _ _ (Ne.symm hq)]; exact h0, 0, fun s h dbg fuel _ => ?_⟩
    obtain ⟨s', h1, h2⟩ := addHead_spec dbg h (q := q) hn hu
    exact ⟨s', by simp [step, h1], h2⟩
  | addTail q n hq hn hu =>
    refine ⟨by rw [upd_ne _ _ (Ne.symm hq)]; exact h0, 0, fun s h dbg fuel _ => ?_⟩
    obtain ⟨s', h1, h2⟩ := addTail_spec dbg h (q := q) hn hu
    exact ⟨s', by simp [step, h1], h2⟩
  | dropHead q hq =>
    refine ⟨by rw [upd_ne _ _ (Ne.symm hq)]; exact h0, 0, fun s h dbg fuel _ => ?_⟩
    obtain ⟨s', h1, h2⟩ := dropHead_spec h q
    exact ⟨s', by simp [step, h1], h2⟩
  | dropTail q hq =>
    refine ⟨by rw [upd_ne _ _ (Ne.symm hq)]; exact h0, (A q).length, fun s h dbg fuel hf => ?_⟩
    obtain ⟨s', h1, h2⟩ := dropTail_spec dbg h q fuel hf
    exact ⟨s', by simp [step, h1], h2⟩
  | remove q n hq hn =>
    refine ⟨by rw [upd_ne _ _ (Ne.symm hq)]; exact h0, (A q).length, fun s h dbg fuel hf => ?_⟩
    obtain ⟨s', h1, h2⟩ := remove_spec dbg h hn fuel hf
    exact ⟨s', by simp [step, h1], h2⟩
  | transfer q f hq hf hqf =>
    refine ⟨by rw [upd_ne _ _ (Ne.symm hf), upd_ne _ _ (Ne.symm hq)]; exact h0, 0, fun s h dbg fuel _ => ?_⟩
    obtain ⟨s', h1, h2⟩ := transfer_spec h hqf
    exact ⟨s', by simp [step, h1], h2⟩
  | split q f n l1 l2 hq hf hqf hA =>
    refine ⟨by rw [upd_ne _ _ (Ne.symm hq), upd_ne _ _ (Ne.symm hf)]; exact h0, 0, fun s h dbg fuel _ => ?_⟩
    obtain ⟨s', h1, h2⟩ := split_spec dbg h hA hqf hq hf h0
    exact ⟨s', by simp [step, h1], h2⟩
  | head q hq => exact ⟨h0, 0, fun s h dbg fuel _ => ⟨s, by rw [← h.root]; rfl, h⟩⟩
  | tail q hq => exact ⟨h0, 0, fun s h dbg fuel _ => ⟨s, by rw [← h.last]; rfl, h⟩⟩
  | succ q n l1 l2 hA =>
    exact ⟨h0, 0, fun s h dbg fuel _ => ⟨s, by simp only [step, succ_spec dbg h hA, Outcome.bind_ret, Outcome.pure_eq], h⟩⟩
  | iterate q hq =>
    refine ⟨h0, (A q).length + 1, fun s h dbg fuel hf => ⟨s, ?_, h⟩⟩
    have := iterate_spec h (q := q) [] (A q) rfl fuel (by omega)
    simp only [step, head, h.root, this, Outcome.bind_ret, Outcome.pure_eq]
  | empty q hq =>
    refine ⟨h0, 0, fun s h dbg fuel _ => ⟨s, ?_, h⟩⟩
    have : empty s q = (A q).isEmpty := by
      rw [Bool.eq_iff_iff, List.isEmpty_iff, ← h.headNe q]; simp [Queue.empty]
    simp [step, this]
  | listed_yes q n hn =>
    refine ⟨h0, 0, fun s h dbg fuel _ => ⟨s, ?_, h⟩⟩
    have := (h.listed n).2 ⟨q, hn⟩
    simp [step, listed, rd, h.ne0 hn, this]
  | listed_no n hn hu =>
    refine ⟨h0, 0, fun s h dbg fuel _ => ⟨s, ?_, h⟩⟩
    have : s.next n = 0 := by
      by_contra hc
      obtain ⟨q, hq⟩ := (h.listed n).1 hc
      exact hu q hq
    simp [step, listed, rd, hn, this]

theorem run_spec {A A' : Nat → List Nat} {os : List Op} {rs : List Res} (h0 : A 0 = [])
    (hs : SpecRun A os A' rs) : ∃ F, ∀ s, Inv s A → ∀ dbg fuel, F ≤ fuel → ∃ s', run dbg fuel s os = .ret (s', rs) ∧ Inv s' A' := by
  induction hs with
  | nil A => exact ⟨0, fun s h dbg fuel _ => ⟨s, rfl, h⟩⟩
  | cons A o A' r os A'' rs h1 _ ih =>
    obtain ⟨h0', F1, hF1⟩ := step_spec h0 h1
    obtain ⟨F2, hF2⟩ := ih h0'
    refine ⟨max F1 F2, fun s h dbg fuel hf => ?_⟩
    obtain ⟨s', h2, h3⟩ := hF1 s h dbg fuel (by omega)
    obtain ⟨s'', h4, h5⟩ := hF2 s' h3 dbg fuel (by omega)
    exact ⟨s'', by simp [run, h2, h4], h5⟩

theorem init_inv : Inv St.init (fun _ => []) := by
  constructor <;> simp [St.init]

/-- Every history of calls respecting the preconditions, started with all nodes unlisted and all queues empty, runs
    without undefined behaviour or debug abort, in debug and release builds, and returns exactly what the same calls
    return on lists of nodes. -/
theorem C17_queue_is_list (os : List Op) (A : Nat → List Nat) (rs : List Res) (h : SpecRun (fun _ => []) os A rs) :
    ∃ F, ∀ dbg fuel, F ≤ fuel → ∃ s, run dbg fuel St.init os = .ret (s, rs) := by
  obtain ⟨F, hF⟩ := run_spec rfl h
  refine ⟨F, fun dbg fuel hf => ?_⟩
  obtain ⟨s, h1, _⟩ := hF St.init init_inv dbg fuel hf
  exact ⟨s, h1⟩

/-- After any such history a node is listed exactly while it is in some queue, no node is in two queues or twice in one,
    and iterating over a queue yields its list. -/
theorem C17_membership (os : List Op) (A : Nat → List Nat) (rs : List Res) (h : SpecRun (fun _ => []) os A rs) :
    ∃ F, ∀ dbg fuel, F ≤ fuel → ∃ s, run dbg fuel St.init os = .ret (s, rs) ∧
      (∀ n, n ≠ 0 → (listed s n = .ret true ↔ ∃ q, n ∈ A q)) ∧
      (∀ q, (A q).Nodup) ∧ (∀ q q' n, n ∈ A q → n ∈ A q' → q = q') ∧
      (∀ q, ∃ F', ∀ fuel', F' ≤ fuel' → iterate s fuel' (head s q) = .ret (A q)) := by
  obtain ⟨F, hF⟩ := run_spec rfl h
  refine ⟨F, fun dbg fuel hf => ?_⟩
  obtain ⟨s, h1, hi⟩ := hF St.init init_inv dbg fuel hf
  refine ⟨s, h1, ?_, hi.nodup, ?_, ?_⟩
  · intro n hn
    rw [← hi.listed n]; simp [listed, rd, hn]
  · intro q q' n h1 h2
    by_contra hne
    exact hi.disj q q' n hne h1 h2
  · intro q
    refine ⟨(A q).length + 1, fun fuel' hf' => ?_⟩
    have := iterate_spec hi (q := q) [] (A q) rfl fuel' (by omega)
    rw [head, hi.root]; exact this

/-- In debug builds adding a node that is on a queue, or removing one that is on none, aborts. -/
theorem C17_debug_checks (os : List Op) (A : Nat → List Nat) (rs : List Res) (h : SpecRun (fun _ => []) os A rs) :
    ∃ F, ∀ fuel, F ≤ fuel → ∃ s, run true fuel St.init os = .ret (s, rs) ∧
      (∀ q q' n, n ∈ A q' → addHead true s q n = .abort ∧ addTail true s q n = .abort) ∧
      (∀ q n, n ≠ 0 → (∀ q', n ∉ A q') → remove true fuel s q n = .abort) := by
  obtain ⟨F, hF⟩ := run_spec rfl h
  refine ⟨F, fun fuel hf => ?_⟩
  obtain ⟨s, h1, hi⟩ := hF St.init init_inv true fuel hf
  refine ⟨s, h1, ?_, ?_⟩
  · intro q q' n hn
    have h0 := hi.ne0 hn
    have h1 := (hi.listed n).2 ⟨q', hn⟩
    simp [addHead, addTail, check, listed, rd, h0, h1]
  · intro q n hn hu
    have h1 : s.next n = 0 := by
      by_contra hc
      obtain ⟨q, hq⟩ := (hi.listed n).1 hc
      exact hu q hq
    simp [remove, check, listed, rd, hn, h1]

/-- A history that adds, splits, transfers, removes and drops meets the hypotheses. -/
example : ∃ A, SpecRun (fun _ => [])
    [.addTail 1 10, .addHead 1 11, .addTail 1 12, .split 2 1 10, .remove 2 10, .transfer 1 2, .dropTail 1, .iterate 1] A
    [.unit, .unit, .unit, .unit, .unit, .unit, .node 11, .nodes [12]] :=
  ⟨_, .cons _ _ _ _ _ _ _ (.addTail 1 10 (by decide) (by decide) (by simp)) <|
    .cons _ _ _ _ _ _ _ (.addHead 1 11 (by decide) (by decide) (by intro q; rw [upd_apply]; split <;> simp)) <|
    .cons _ _ _ _ _ _ _ (.addTail 1 12 (by decide) (by decide) (by intro q; simp only [upd_apply]; split <;> simp)) <|
    .cons _ _ _ _ _ _ _ (.split 2 1 10 [11] [12] (by decide) (by decide) (by decide) (by simp [upd])) <|
    .cons _ _ _ _ _ _ _ (.remove 2 10 (by decide) (by simp [upd])) <|
    .cons _ _ _ _ _ _ _ (.transfer 1 2 (by decide) (by decide) (by decide)) <|
    .cons _ _ _ _ _ _ _ (.dropTail 1 (by decide)) <|
    .cons _ _ _ _ _ _ _ (.iterate 1 (by decide)) <|
    .nil _⟩

end Verif.Queue
