import Verif.Proof.Sequence
/-!
C19: intrusive sequences behave as doubly linked lists of nodes.

Specification: a family `A` of lists of nodes, one per sequence. `Spec A op A' r` says what a call does to the lists and
what it returns; its premises are the documented preconditions of the call (a node added is not null and on no sequence,
a node used as a position or removed is on the sequence, the two sequences of `transfer` and `split` differ). Null is
node 0, and sequence number 0 is the local sequence of `split`, not available to callers.
-/
namespace Verif.Sequence
open Verif

/-- What each call means for the lists. -/
inductive Spec (A : Nat → List Nat) : Op → (Nat → List Nat) → Res → Prop
  | addHead (q n) : q ≠ 0 → n ≠ 0 → (∀ q', n ∉ A q') → Spec A (.addHead q n) (upd A q (n :: A q)) .unit
  | addTail (q n) : q ≠ 0 → n ≠ 0 → (∀ q', n ∉ A q') → Spec A (.addTail q n) (upd A q (A q ++ [n])) .unit
  | insertBef (q n b l1 l2) : q ≠ 0 → n ≠ 0 → (∀ q', n ∉ A q') → A q = l1 ++ b :: l2 →
      Spec A (.insertBef q n b) (upd A q (l1 ++ n :: b :: l2)) .unit
  | insertBefNull (q n) : q ≠ 0 → n ≠ 0 → (∀ q', n ∉ A q') → Spec A (.insertBef q n 0) (upd A q (A q ++ [n])) .unit
  | insertAft (q n a l1 l2) : q ≠ 0 → n ≠ 0 → (∀ q', n ∉ A q') → A q = l1 ++ a :: l2 →
      Spec A (.insertAft q a n) (upd A q (l1 ++ a :: n :: l2)) .unit
  | insertAftNull (q n) : q ≠ 0 → n ≠ 0 → (∀ q', n ∉ A q') → Spec A (.insertAft q 0 n) (upd A q (n :: A q)) .unit
  | dropHead (q) : q ≠ 0 → Spec A (.dropHead q) (upd A q (A q).tail) (.node ((A q).headD 0))
  | dropTail (q) : q ≠ 0 → Spec A (.dropTail q) (upd A q (A q).dropLast) (.node ((A q).getLastD 0))
  | remove (q n l1 l2) : q ≠ 0 → A q = l1 ++ n :: l2 → Spec A (.remove q n) (upd A q (l1 ++ l2)) .unit
  | transfer (q f) : q ≠ 0 → f ≠ 0 → q ≠ f → Spec A (.transfer q f) (upd (upd A q (A q ++ A f)) f []) .unit
  | split (q f n l1 l2) : q ≠ 0 → f ≠ 0 → q ≠ f → A f = l1 ++ n :: l2 →
      Spec A (.split q f n) (upd (upd A f l2) q (A q ++ (l1 ++ [n]))) .unit
  | head (q) : Spec A (.head q) A (.node ((A q).headD 0))
  | tail (q) : Spec A (.tail q) A (.node ((A q).getLastD 0))
  | succ (q n l1 l2) : A q = l1 ++ n :: l2 → Spec A (.succ q n) A (.node (l2.headD 0))
  | pred (q n l1 l2) : A q = l1 ++ n :: l2 → Spec A (.pred q n) A (.node (l1.getLastD 0))
  | iterate (q) : Spec A (.iterate q) A (.nodes (A q))
  | iterateRev (q) : Spec A (.iterateRev q) A (.nodes (A q).reverse)
  | iterateFrom (q n l1 l2) : A q = l1 ++ n :: l2 → Spec A (.iterateFrom q n) A (.nodes (n :: l2))
  | iterateRevFrom (q n l1 l2) : A q = l1 ++ n :: l2 → Spec A (.iterateRevFrom q n) A (.nodes (n :: l1.reverse))
  | empty (q) : Spec A (.empty q) A (.bool (A q).isEmpty)
  | listed_yes (q n) : n ∈ A q → Spec A (.listed n) A (.bool true)
  | listed_no (n) : n ≠ 0 → (∀ q, n ∉ A q) → Spec A (.listed n) A (.bool false)

/-- A history of calls on the lists, with the values returned. -/
inductive SpecRun : (Nat → List Nat) → List Op → (Nat → List Nat) → List Res → Prop
  | nil (A) : SpecRun A [] A []
  | cons (A o A' r os A'' rs) : Spec A o A' r → SpecRun A' os A'' rs → SpecRun A (o :: os) A'' (r :: rs)

theorem step_spec {A A' : Nat → List Nat} {o : Op} {r : Res} (h0 : A 0 = []) (hs : Spec A o A' r) :
    A' 0 = [] ∧ ∃ F, ∀ s, Inv s A → ∀ dbg fuel, F ≤ fuel → ∃ s', step dbg fuel s o = .ret (s', r) ∧ Inv s' A' := by
  cases hs with
  | addHead q n hq hn hu =>
    refine ⟨by rw [upd_ne _ _ (Ne.symm hq)]; exact h0, 0, fun s h dbg fuel _ => ?_⟩
    obtain ⟨s', h1, h2⟩ := insertAft0_spec dbg h (q := q) hn hu
    exact ⟨s', by simp [step, Sequence.addHead, Sequence.addTail, h1], h2⟩
  | addTail q n hq hn hu =>
    refine ⟨by rw [upd_ne _ _ (Ne.symm hq)]; exact h0, 0, fun s h dbg fuel _ => ?_⟩
    obtain ⟨s', h1, h2⟩ := insertBef0_spec dbg h (q := q) hn hu
    exact ⟨s', by simp [step, Sequence.addHead, Sequence.addTail, h1], h2⟩
  | insertBef q n b l1 l2 hq hn hu hA =>
    refine ⟨by rw [upd_ne _ _ (Ne.symm hq)]; exact h0, 0, fun s h dbg fuel _ => ?_⟩
    obtain ⟨s', h1, h2⟩ := insertBef_spec dbg h (q := q) hn hu hA
    exact ⟨s', by simp [step, Sequence.addHead, Sequence.addTail, h1], h2⟩
  | insertBefNull q n hq hn hu =>
    refine ⟨by rw [upd_ne _ _ (Ne.symm hq)]; exact h0, 0, fun s h dbg fuel _ => ?_⟩
    obtain ⟨s', h1, h2⟩ := insertBef0_spec dbg h (q := q) hn hu
    exact ⟨s', by simp [step, Sequence.addHead, Sequence.addTail, h1], h2⟩
  | insertAft q n a l1 l2 hq hn hu hA =>
    refine ⟨by rw [upd_ne _ _ (Ne.symm hq)]; exact h0, 0, fun s h dbg fuel _ => ?_⟩
    obtain ⟨s', h1, h2⟩ := insertAft_spec dbg h (q := q) hn hu hA
    exact ⟨s', by simp [step, Sequence.addHead, Sequence.addTail, h1], h2⟩
  | insertAftNull q n hq hn hu =>
    refine ⟨by rw [upd_ne _ _ (Ne.symm hq)]; exact h0, 0, fun s h dbg fuel _ => ?_⟩
    obtain ⟨s', h1, h2⟩ := insertAft0_spec dbg h (q := q) hn hu
    exact ⟨s', by simp [step, Sequence.addHead, Sequence.addTail, h1], h2⟩
  | dropHead q hq =>
    refine ⟨by rw [upd_ne _ _ (Ne.symm hq)]; exact h0, 0, fun s h dbg fuel _ => ?_⟩
    obtain ⟨s', h1, h2⟩ := dropHead_spec dbg h q
    exact ⟨s', by simp [step, Sequence.addHead, Sequence.addTail, h1], h2⟩
  | dropTail q hq =>
    refine ⟨by rw [upd_ne _ _ (Ne.symm hq)]; exact h0, 0, fun s h dbg fuel _ => ?_⟩
    obtain ⟨s', h1, h2⟩ := dropTail_spec dbg h q
    exact ⟨s', by simp [step, Sequence.addHead, Sequence.addTail, h1], h2⟩
  | remove q n l1 l2 hq hA =>
    refine ⟨by rw [upd_ne _ _ (Ne.symm hq)]; exact h0, 0, fun s h dbg fuel _ => ?_⟩
    obtain ⟨s', h1, h2⟩ := remove_spec dbg h hA
    exact ⟨s', by simp [step, Sequence.addHead, Sequence.addTail, h1], h2⟩
  | transfer q f hq hf hqf =>
    refine ⟨by rw [upd_ne _ _ (Ne.symm hf), upd_ne _ _ (Ne.symm hq)]; exact h0, 0, fun s h dbg fuel _ => ?_⟩
    obtain ⟨s', h1, h2⟩ := transfer_spec h hqf
    exact ⟨s', by simp [step, h1], h2⟩
  | split q f n l1 l2 hq hf hqf hA =>
    refine ⟨by rw [upd_ne _ _ (Ne.symm hq), upd_ne _ _ (Ne.symm hf)]; exact h0, 0, fun s h dbg fuel _ => ?_⟩
    obtain ⟨s', h1, h2⟩ := split_spec dbg h hA hqf hq hf h0
    exact ⟨s', by simp [step, h1], h2⟩
  | head q => exact ⟨h0, 0, fun s h dbg fuel _ => ⟨s, by rw [← h.root]; rfl, h⟩⟩
  | tail q => exact ⟨h0, 0, fun s h dbg fuel _ => ⟨s, by simp only [step, tail_spec h, Outcome.bind_ret, Outcome.pure_eq], h⟩⟩
  | succ q n l1 l2 hA =>
    exact ⟨h0, 0, fun s h dbg fuel _ => ⟨s, by simp only [step, succ_spec dbg h hA, Outcome.bind_ret, Outcome.pure_eq], h⟩⟩
  | pred q n l1 l2 hA =>
    exact ⟨h0, 0, fun s h dbg fuel _ => ⟨s, by simp only [step, pred_spec dbg h hA, Outcome.bind_ret, Outcome.pure_eq], h⟩⟩
  | iterate q =>
    refine ⟨h0, (A q).length + 1, fun s h dbg fuel hf => ⟨s, ?_, h⟩⟩
    have := iterate_spec dbg h (q := q) [] (A q) rfl fuel (by omega)
    simp only [step, Sequence.head, h.root, this, Outcome.bind_ret, Outcome.pure_eq]
  | iterateRev q =>
    refine ⟨h0, (A q).length + 1, fun s h dbg fuel hf => ⟨s, ?_, h⟩⟩
    have := iterateRev_spec dbg h (q := q) (A q).reverse [] (by simp) fuel (by simp; omega)
    have e : (A q).getLastD 0 = (A q).reverse.headD 0 := by
      rw [List.getLastD_eq_getLast?, List.headD_eq_head?_getD, List.head?_reverse]
    simp only [step, tail_spec h, Outcome.bind_ret, Outcome.pure_eq]
    rw [e, this]; rfl
  | iterateFrom q n l1 l2 hA =>
    refine ⟨h0, (n :: l2).length + 1, fun s h dbg fuel hf => ⟨s, ?_, h⟩⟩
    have : iterate dbg s q fuel n = _ := iterate_spec dbg h (q := q) l1 (n :: l2) hA fuel (by omega)
    simp only [step, this, Outcome.bind_ret, Outcome.pure_eq]
  | iterateRevFrom q n l1 l2 hA =>
    refine ⟨h0, l1.length + 2, fun s h dbg fuel hf => ⟨s, ?_, h⟩⟩
    have : iterateRev dbg s q fuel n = _ := iterateRev_spec dbg h (q := q) (n :: l1.reverse) l2 (by rw [hA]; simp) fuel (by simp; omega)
    simp only [step, this, Outcome.bind_ret, Outcome.pure_eq]
  | empty q =>
    refine ⟨h0, 0, fun s h dbg fuel _ => ⟨s, ?_, h⟩⟩
    have : empty s q = (A q).isEmpty := by
      rw [Bool.eq_iff_iff, List.isEmpty_iff, ← h.root_eq0 q]; simp [Sequence.empty]
    simp [step, this]
  | listed_yes q n hn =>
    refine ⟨h0, 0, fun s h dbg fuel _ => ⟨s, ?_, h⟩⟩
    simp [step, listed, rdN, h.ne0 hn, h.next_ne0 hn]
  | listed_no n hn hu =>
    refine ⟨h0, 0, fun s h dbg fuel _ => ⟨s, ?_, h⟩⟩
    simp [step, listed, rdN, hn, h.off n hu]

theorem run_spec {A A' : Nat → List Nat} {os : List Op} {rs : List Res} (h0 : A 0 = [])
    (hs : SpecRun A os A' rs) : ∃ F, ∀ s, Inv s A → ∀ dbg fuel, F ≤ fuel → ∃ s', run dbg fuel s os = .ret (s', rs) ∧ Inv s' A' := by
  induction hs with
  | nil A => exact ⟨0, fun s h dbg fuel _ => ⟨s, rfl, h⟩⟩
  | cons A o A' r os A'' rs h1 _ ih =>
    obtain ⟨h0', F1, hF1⟩ := step_spec h0 h1
    obtain ⟨F2, hF2⟩ := ih h0'
    refine ⟨max F1 F2, fun s h dbg fuel hf => ?_⟩
    obtain ⟨s', h2, h3⟩ := hF1 s h dbg fuel (by omega)
    obtain ⟨s'', h4, h5⟩ := hF2 s' h3 dbg fuel (by omega)
    exact ⟨s'', by simp [run, h2, h4], h5⟩

theorem init_inv : Inv St.init (fun _ => []) := by
  constructor <;> simp [St.init, Ring]

/-- Every history of calls respecting the preconditions, started with all nodes unlisted and all sequences empty, runs
    without undefined behaviour or debug abort, in debug and release builds, and returns exactly what the same calls
    return on lists of nodes; in particular forward and backward traversals are reverses of each other. -/
theorem C19_sequence_is_list (os : List Op) (A : Nat → List Nat) (rs : List Res) (h : SpecRun (fun _ => []) os A rs) :
    ∃ F, ∀ dbg fuel, F ≤ fuel → ∃ s, run dbg fuel St.init os = .ret (s, rs) := by
  obtain ⟨F, hF⟩ := run_spec rfl h
  refine ⟨F, fun dbg fuel hf => ?_⟩
  obtain ⟨s, h1, _⟩ := hF St.init init_inv dbg fuel hf
  exact ⟨s, h1⟩

/-- After any such history a node is listed exactly while it is in some sequence, no node is in two sequences or twice in
    one, and the links of each sequence form a circle: the successor of the last node is the first one, `back` inverts
    `next`. -/
theorem C19_membership (os : List Op) (A : Nat → List Nat) (rs : List Res) (h : SpecRun (fun _ => []) os A rs) :
    ∃ F, ∀ dbg fuel, F ≤ fuel → ∃ s, run dbg fuel St.init os = .ret (s, rs) ∧
      (∀ n, n ≠ 0 → (listed s n = .ret true ↔ ∃ q, n ∈ A q)) ∧
      (∀ q, (A q).Nodup) ∧ (∀ q q' n, n ∈ A q → n ∈ A q' → q = q') ∧
      (∀ q l1 l2 a b, A q = l1 ++ a :: b :: l2 → s.next a = b ∧ s.back b = a) ∧
      (∀ q a l, A q = a :: l → s.next (l.getLastD a) = a ∧ s.back a = l.getLastD a) := by
  obtain ⟨F, hF⟩ := run_spec rfl h
  refine ⟨F, fun dbg fuel hf => ?_⟩
  obtain ⟨s, h1, hi⟩ := hF St.init init_inv dbg fuel hf
  refine ⟨s, h1, ?_, hi.nodup, ?_, ?_, ?_⟩
  · intro n hn
    rw [← hi.listed n]; simp [listed, rdN, hn]
  · intro q q' n h1 h2
    by_contra hne
    exact hi.disj q q' n hne h1 h2
  · intro q l1 l2 a b hA
    have := hi.ring q
    rw [hA, ring_rotate] at this
    exact ⟨this.1, this.2.1⟩
  · intro q a l hA
    have := hi.ring q
    rw [hA] at this
    exact seg_last this

/-- In debug builds adding a node that is on a sequence, or removing one that is on none, aborts. -/
theorem C19_debug_checks (os : List Op) (A : Nat → List Nat) (rs : List Res) (h : SpecRun (fun _ => []) os A rs) :
    ∃ F, ∀ fuel, F ≤ fuel → ∃ s, run true fuel St.init os = .ret (s, rs) ∧
      (∀ q q' n x, n ∈ A q' → insertBef true s q n x = .abort ∧ insertAft true s q x n = .abort) ∧
      (∀ q n, n ≠ 0 → (∀ q', n ∉ A q') → remove true s q n = .abort) := by
  obtain ⟨F, hF⟩ := run_spec rfl h
  refine ⟨F, fun fuel hf => ?_⟩
  obtain ⟨s, h1, hi⟩ := hF St.init init_inv true fuel hf
  refine ⟨s, h1, ?_, ?_⟩
  · intro q q' n x hn
    simp [insertBef, insertAft, check, listed, rdN, hi.ne0 hn, hi.next_ne0 hn]
  · intro q n hn hu
    simp [remove, check, listed, rdN, hn, hi.off n hu]

/-- A history that inserts, splits, transfers, removes and drops meets the hypotheses. -/
example : ∃ A, SpecRun (fun _ => [])
    [.addTail 1 10, .insertBef 1 11 10, .insertAft 1 10 12, .split 2 1 10, .remove 2 10, .transfer 1 2, .iterateRev 1,
      .dropTail 1, .iterate 1] A
    [.unit, .unit, .unit, .unit, .unit, .unit, .nodes [11, 12], .node 11, .nodes [12]] :=
  ⟨_, .cons _ _ _ _ _ _ _ (.addTail 1 10 (by decide) (by decide) (by simp)) <|
    .cons _ _ _ _ _ _ _ (.insertBef 1 11 10 [] [] (by decide) (by decide) (by intro q; rw [upd_apply]; split <;> simp) (by simp [upd])) <|
    .cons _ _ _ _ _ _ _ (.insertAft 1 12 10 [11] [] (by decide) (by decide) (by intro q; simp only [upd_apply]; split <;> simp) (by simp [upd])) <|
    .cons _ _ _ _ _ _ _ (.split 2 1 10 [11] [12] (by decide) (by decide) (by decide) (by simp [upd])) <|
    .cons _ _ _ _ _ _ _ (.remove 2 10 [11] [] (by decide) (by simp [upd])) <|
    .cons _ _ _ _ _ _ _ (.transfer 1 2 (by decide) (by decide) (by decide)) <|
    .cons _ _ _ _ _ _ _ (.iterateRev 1) <|
    .cons _ _ _ _ _ _ _ (.dropTail 1 (by decide)) <|
    .cons _ _ _ _ _ _ _ (.iterate 1) <|
    .nil _⟩

end Verif.Sequence
