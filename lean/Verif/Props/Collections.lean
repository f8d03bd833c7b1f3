import Verif.Proof.Collections
/-!
C20 (runtime thread queue) and C73 (runtime stack and doubly linked list).

Specifications: a family `A` of lists of nodes, one per collection; each `Spec` relation says what a call does to the
lists and returns, under the preconditions of the call.
-/
namespace Verif.Collections
open Verif

/-! ## C20 -/

/-- The link of queue `q` that points to the node following `l`: the head field, or the `next` field of the last node
    of `l`. -/
def linkAfter (q : Nat) : List Nat → Loc
  | [] => .head q
  | a :: l => .next (l.getLastD a)

theorem linkAfter_eq (q : Nat) (l : List Nat) : linkAfter q l = lastLoc q l := by
  cases l with
  | nil => rfl
  | cons a l => simp only [linkAfter, lastLoc]; rw [if_neg (by simp), List.getLastD_cons]

/-- Queues. A node appended is a real one (not `0p` or `1p`) on no queue; `remove` gets the link that points to the node. -/
inductive QSpec (A : Nat → List Nat) : QOp → (Nat → List Nat) → Res → Prop
  | append (q n) : 2 ≤ n → (∀ q', n ∉ A q') → QSpec A (.append q n) (upd A q (A q ++ [n])) .unit
  | peek (q) : QSpec A (.peek q) A (.node ((A q).headD 0))
  | popHead (q) : QSpec A (.popHead q) (upd A q (A q).tail) (.node ((A q).headD 0))
  | remove (q n l1 l2) : A q = l1 ++ n :: l2 → QSpec A (.remove q (linkAfter q l1)) (upd A q (l1 ++ l2)) (.node n)
  | nonEmpty (q) : QSpec A (.nonEmpty q) A (.bool (!(A q).isEmpty))

inductive QSpecRun : (Nat → List Nat) → List QOp → (Nat → List Nat) → List Res → Prop
  | nil (A) : QSpecRun A [] A []
  | cons (A o A' r os A'' rs) : QSpec A o A' r → QSpecRun A' os A'' rs → QSpecRun A (o :: os) A'' (r :: rs)

theorem qstep_spec {s : QSt} {A A' : Nat → List Nat} {o : QOp} {r : Res} (h : QInv s A) (hs : QSpec A o A' r) :
    ∃ s', qstep s o = .ret (s', r) ∧ QInv s' A' := by
  cases hs with
  | append q n hn hu => obtain ⟨s', h1, h2⟩ := append_spec h (q := q) hn hu; exact ⟨s', by simp [qstep, h1], h2⟩
  | peek q => exact ⟨s, by simp only [qstep, peek_spec h, Outcome.bind_ret, Outcome.pure_eq], h⟩
  | popHead q => obtain ⟨s', h1, h2⟩ := popHead_spec h q; exact ⟨s', by simp [qstep, h1], h2⟩
  | remove q n l1 l2 hA =>
    obtain ⟨s', h1, h2⟩ := remove_spec h hA
    exact ⟨s', by simp [qstep, linkAfter_eq, h1], h2⟩
  | nonEmpty q =>
    refine ⟨s, ?_, h⟩
    have : nonEmpty s q = !(A q).isEmpty := by
      unfold nonEmpty
      rw [h.head]
      cases hA : A q with
      | nil => rfl
      | cons a l =>
        have := h.real q a (by rw [hA]; simp)
        have h1 : a ≠ 1 := by omega
        simp [h1]
    rw [qstep, this]

/-- Every history of calls respecting the preconditions, from constructed queues, runs with every runtime check
    satisfied and returns exactly what the same calls return on lists: order is kept and no thread is lost or
    duplicated. -/
theorem C20_queue_is_list (os : List QOp) (A : Nat → List Nat) (rs : List Res) (h : QSpecRun (fun _ => []) os A rs) :
    ∃ s, qrun QSt.init os = .ret (s, rs) := by
  have gen : ∀ (A0 A1 : Nat → List Nat) (os : List QOp) (rs : List Res), QSpecRun A0 os A1 rs → ∀ s, QInv s A0 →
      ∃ s', qrun s os = .ret (s', rs) := by
    intro A0 A1 os rs h
    induction h with
    | nil A => exact fun s _ => ⟨s, rfl⟩
    | cons A o A' r os A'' rs h1 _ ih =>
      intro s hs
      obtain ⟨s', h2, h3⟩ := qstep_spec hs h1
      obtain ⟨s'', h4⟩ := ih s' h3
      exact ⟨s'', by simp [qrun, h2, h4]⟩
  refine gen _ _ _ _ h QSt.init ?_
  constructor <;> simp [QSt.init, lastLoc]

/-- Removing the last node, then appending: the tail pointer follows. -/
example : ∃ A, QSpecRun (fun _ => []) [.append 1 10, .append 1 11, .remove 1 (.next 10), .append 1 12, .popHead 1,
      .remove 1 (.head 1), .append 1 13, .popHead 1, .popHead 1] A
    [.unit, .unit, .node 11, .unit, .node 10, .node 12, .unit, .node 13, .node 0] :=
  ⟨_, .cons _ _ _ _ _ _ _ (.append 1 10 (by decide) (by simp)) <|
    .cons _ _ _ _ _ _ _ (.append 1 11 (by decide) (by intro q; rw [upd_apply]; split <;> simp)) <|
    .cons _ _ _ _ _ _ _ (.remove 1 11 [10] [] (by simp [upd])) <|
    .cons _ _ _ _ _ _ _ (.append 1 12 (by decide) (by intro q; simp only [upd_apply]; split <;> simp)) <|
    .cons _ _ _ _ _ _ _ (.popHead 1) <|
    .cons _ _ _ _ _ _ _ (.remove 1 12 [] [] (by simp [upd])) <|
    .cons _ _ _ _ _ _ _ (.append 1 13 (by decide) (by intro q; simp only [upd_apply]; split <;> simp)) <|
    .cons _ _ _ _ _ _ _ (.popHead 1) <|
    .cons _ _ _ _ _ _ _ (.popHead 1) <|
    .nil _⟩

/-! ## C73 -/

/-- Stacks, top first. -/
inductive SSpec (A : Nat → List Nat) : SOp → (Nat → List Nat) → Res → Prop
  | push (q n) : n ≠ 0 → (∀ q', n ∉ A q') → SSpec A (.push q n) (upd A q (n :: A q)) .unit
  | pop (q) : SSpec A (.pop q) (upd A q (A q).tail) (.node ((A q).headD 0))

inductive SSpecRun : (Nat → List Nat) → List SOp → (Nat → List Nat) → List Res → Prop
  | nil (A) : SSpecRun A [] A []
  | cons (A o A' r os A'' rs) : SSpec A o A' r → SSpecRun A' os A'' rs → SSpecRun A (o :: os) A'' (r :: rs)

theorem srun_spec {A A' : Nat → List Nat} {os : List SOp} {rs : List Res} (h : SSpecRun A os A' rs) :
    ∀ s, SInv s A → ∃ s', srun s os = .ret (s', rs) ∧ SInv s' A' := by
  induction h with
  | nil A => exact fun s h => ⟨s, rfl, h⟩
  | cons A o A' r os A'' rs h1 _ ih =>
    intro s hs
    have : ∃ s', sstep s o = .ret (s', r) ∧ SInv s' A' := by
      cases h1 with
      | push q n hn hu => obtain ⟨s', h1, h2⟩ := spush_spec hs (q := q) hn hu; exact ⟨s', by simp [sstep, h1], h2⟩
      | pop q => obtain ⟨s', h1, h2⟩ := spop_spec hs q; exact ⟨s', by simp [sstep, h1], h2⟩
    obtain ⟨s', h2, h3⟩ := this
    obtain ⟨s'', h4, h5⟩ := ih s' h3
    exact ⟨s'', by simp [srun, h2, h4], h5⟩

theorem sinit_inv : SInv SSt.init (fun _ => []) := by
  constructor <;> simp [SSt.init]

/-- Every history of push and pop on the runtime's stacks returns what it returns on lists used as stacks. -/
theorem C73_stack_is_list (os : List SOp) (A : Nat → List Nat) (rs : List Res) (h : SSpecRun (fun _ => []) os A rs) :
    ∃ s, srun SSt.init os = .ret (s, rs) := by
  obtain ⟨s, h1, _⟩ := srun_spec h _ sinit_inv
  exact ⟨s, h1⟩

/-- Pushing a node that is on a stack above another node fails the runtime's check. -/
theorem C73_push_check (os : List SOp) (A : Nat → List Nat) (rs : List Res) (h : SSpecRun (fun _ => []) os A rs) :
    ∃ s, srun SSt.init os = .ret (s, rs) ∧ ∀ q q' n m l1 l2, A q' = l1 ++ n :: m :: l2 → spush s q n = .abort := by
  obtain ⟨s, h1, hi⟩ := srun_spec h _ sinit_inv
  refine ⟨s, h1, fun q q' n m l1 l2 hA => ?_⟩
  have hl := hi.links q'
  rw [hA, links_append, links_cons] at hl
  have hn : n ≠ 0 := fun e => hi.nz q' (by rw [hA]; simp [e])
  have hm : m ≠ 0 := fun e => hi.nz q' (by rw [hA]; simp [e])
  have : s.next n = m := by simpa using hl.2.1
  simp [spush, hn, this, hm]

/-- Doubly linked lists, front first; `moveToFront` may have the same source and destination. -/
inductive DSpec (A : Nat → List Nat) : DOp → (Nat → List Nat) → Res → Prop
  | pushFront (q n) : n ≠ 0 → (∀ q', n ∉ A q') → DSpec A (.pushFront q n) (upd A q (n :: A q)) .unit
  | remove (q n l1 l2) : A q = l1 ++ n :: l2 → DSpec A (.remove q n) (upd A q (l1 ++ l2)) .unit
  | moveOther (q r n l1 l2) : q ≠ r → A q = l1 ++ n :: l2 →
      DSpec A (.moveToFront q r n) (upd (upd A q (l1 ++ l2)) r (n :: A r)) .unit
  | moveSame (q n l1 l2) : A q = l1 ++ n :: l2 → DSpec A (.moveToFront q q n) (upd A q (n :: l1 ++ l2)) .unit
  | head (q) : DSpec A (.head q) A (.node ((A q).headD 0))

inductive DSpecRun : (Nat → List Nat) → List DOp → (Nat → List Nat) → List Res → Prop
  | nil (A) : DSpecRun A [] A []
  | cons (A o A' r os A'' rs) : DSpec A o A' r → DSpecRun A' os A'' rs → DSpecRun A (o :: os) A'' (r :: rs)

/-- Every history of calls on the runtime's doubly linked lists acts as on lists; afterwards the `next` and `prev` links
    of each list are the list's neighbours, circularly, and nodes on no list have a null `next`. -/
theorem C73_dllist_is_list (os : List DOp) (A : Nat → List Nat) (rs : List Res) (h : DSpecRun (fun _ => []) os A rs) :
    ∃ s, drun DSt.init os = .ret (s, rs) ∧ (∀ q, (A q).Nodup) ∧ (∀ q q' n, n ∈ A q → n ∈ A q' → q = q') ∧
      (∀ n, (∀ q, n ∉ A q) → s.next n = 0) ∧
      (∀ q l1 l2 a b, A q = l1 ++ a :: b :: l2 → s.next a = b ∧ s.prev b = a) ∧
      (∀ q a l, A q = a :: l → s.next (l.getLastD a) = a ∧ s.prev a = l.getLastD a) := by
  have gen : ∀ (A0 A1 : Nat → List Nat) (os : List DOp) (rs : List Res), DSpecRun A0 os A1 rs → ∀ s, DInv s A0 →
      ∃ s', drun s os = .ret (s', rs) ∧ DInv s' A1 := by
    intro A0 A1 os rs h
    induction h with
    | nil A => exact fun s hs => ⟨s, rfl, hs⟩
    | cons A o A' r os A'' rs h1 _ ih =>
      intro s hs
      have : ∃ s', dstep s o = .ret (s', r) ∧ DInv s' A' := by
        cases h1 with
        | pushFront q n hn hu => obtain ⟨s', h1, h2⟩ := pushFront_spec hs (q := q) hn hu; exact ⟨s', by simp [dstep, h1], h2⟩
        | remove q n l1 l2 hA => obtain ⟨s', h1, h2⟩ := dremove_spec hs hA; exact ⟨s', by simp [dstep, h1], h2⟩
        | moveOther q r n l1 l2 hqr hA =>
          obtain ⟨s', h1, h2⟩ := moveToFront_spec hs (r := r) hA
          rw [upd_ne A _ (Ne.symm hqr)] at h2
          exact ⟨s', by simp [dstep, h1], h2⟩
        | moveSame q n l1 l2 hA =>
          obtain ⟨s', h1, h2⟩ := moveToFront_spec hs (r := q) hA
          rw [upd_same] at h2
          have e : upd (upd A q (l1 ++ l2)) q (n :: (l1 ++ l2)) = upd A q (n :: l1 ++ l2) := by
            funext x; simp only [upd_apply]; split <;> simp
          rw [e] at h2
          exact ⟨s', by simp [dstep, h1], h2⟩
        | head q => exact ⟨s, by rw [dstep, hs.root], hs⟩
      obtain ⟨s', h2, h3⟩ := this
      obtain ⟨s'', h4, h5⟩ := ih s' h3
      exact ⟨s'', by simp [drun, h2, h4], h5⟩
  obtain ⟨s, h1, hi⟩ := gen _ _ _ _ h DSt.init (by constructor <;> simp [DSt.init, Ring])
  refine ⟨s, h1, hi.nodup, ?_, hi.off, ?_, ?_⟩
  · intro q q' n h1 h2
    by_contra hne
    exact hi.disj q q' n hne h1 h2
  · intro q l1 l2 a b hA
    have := hi.ring q
    rw [hA, ring_rotate] at this
    exact ⟨this.1, this.2.1⟩
  · intro q a l hA
    have := hi.ring q
    rw [hA] at this
    exact seg_last this

example : ∃ A, SSpecRun (fun _ => []) [.push 1 10, .push 1 11, .pop 1, .pop 1, .pop 1] A
    [.unit, .unit, .node 11, .node 10, .node 0] :=
  ⟨_, .cons _ _ _ _ _ _ _ (.push 1 10 (by decide) (by simp)) <|
    .cons _ _ _ _ _ _ _ (.push 1 11 (by decide) (by intro q; rw [upd_apply]; split <;> simp)) <|
    .cons _ _ _ _ _ _ _ (.pop 1) <| .cons _ _ _ _ _ _ _ (.pop 1) <| .cons _ _ _ _ _ _ _ (.pop 1) <| .nil _⟩

/-- Moving a processor between the idle and active lists. -/
example : ∃ A, DSpecRun (fun _ => []) [.pushFront 1 10, .pushFront 1 11, .pushFront 1 12, .moveToFront 1 2 11,
      .moveToFront 1 1 10, .head 1, .remove 1 10, .head 1, .head 2] A
    [.unit, .unit, .unit, .unit, .unit, .node 10, .unit, .node 12, .node 11] :=
  ⟨_, .cons _ _ _ _ _ _ _ (.pushFront 1 10 (by decide) (by simp)) <|
    .cons _ _ _ _ _ _ _ (.pushFront 1 11 (by decide) (by intro q; rw [upd_apply]; split <;> simp)) <|
    .cons _ _ _ _ _ _ _ (.pushFront 1 12 (by decide) (by intro q; simp only [upd_apply]; split <;> simp)) <|
    .cons _ _ _ _ _ _ _ (.moveOther 1 2 11 [12] [10] (by decide) (by simp [upd])) <|
    .cons _ _ _ _ _ _ _ (.moveSame 1 10 [12] [] (by simp [upd])) <|
    .cons _ _ _ _ _ _ _ (.head 1) <|
    .cons _ _ _ _ _ _ _ (.remove 1 10 [] [12] (by simp [upd])) <|
    .cons _ _ _ _ _ _ _ (.head 1) <| .cons _ _ _ _ _ _ _ (.head 2) <| .nil _⟩

end Verif.Collections
